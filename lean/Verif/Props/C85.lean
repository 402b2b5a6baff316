import Verif.Model.ClientStyle
import Verif.Props.C69
/-! C85 — what the client draws of what the profiles store: the two styles (client/*.js) and the two profiles (profile/*.lua) fit together, with three exceptions. -/
namespace Tiles
open Spec

/-- the two styles that come with the client -/
inductive Spec.ShippedStyle : List StyleLayer → Prop
  | default : ShippedStyle styleDefault
  | background : ShippedStyle styleBackground

/-- a text that is there and not empty: there is something to write on the map -/
def Spec.HasText (x : Option Bytes) : Prop := ∃ c s, x = some (c :: s)

instance (x : Option Bytes) : Decidable (Spec.HasText x) :=
  match x with
  | none => .isFalse (by rintro ⟨c, s, h1⟩; cases h1)
  | some [] => .isFalse (by rintro ⟨c, s, h1⟩; cases h1)
  | some (c :: s) => .isTrue ⟨c, s, rfl⟩

theorem hasText_match (x : Option Bytes) : (match x with | some (_ :: _) => true | _ => false) = decide (HasText x) := by
  cases x with
  | none => symm; rw [decide_eq_false_iff_not]; rintro ⟨c, s, h⟩; cases h
  | some s => cases s with
    | nil => symm; rw [decide_eq_false_iff_not]; rintro ⟨c, s, h⟩; cases h
    | cons c s => symm; rw [decide_eq_true_eq]; exact ⟨c, s, rfl⟩

theorem hasText_has {ctags : List (Bytes × Typed)} {k : Bytes} (h : HasText (textOf ctags k)) : ctags.any (fun m => m.1 == k) = true := by
  obtain ⟨c, s, h⟩ := h
  unfold textOf at h
  cases hf : ctags.find? (fun m => m.1 == k) with
  | none => rw [hf] at h; cases h
  | some m => exact List.any_eq_true.2 ⟨m, List.mem_of_find?_eq_some hf, by simpa using List.find?_some hf⟩

/-- the geometry type of a client for a kind of object -/
def Spec.shapeType {L : Type} : OsmShape L → Nat
  | .node _ => 1
  | .way _ => 2
  | .area _ => 3

theorem fires_of {table : List Rule} {v : Tags} {r : RuleOut} (h : decideBy table v = some r) : ∃ rule ∈ table, rule.fires v = true ∧ rule.out = some r := by
  unfold decideBy at h
  split at h
  · rename_i x hx
    exact ⟨x, List.mem_of_find?_eq_some hx, by simpa using List.find?_some hx, h⟩
  · cases h

section
variable {numeral : Bytes → Option Int} {toDouble : Int → Nat} {ctags : List (Bytes × Typed)} {r : RuleOut} {v : Tags}

theorem keys_nodup {p : LuaProfile} {t : Tables} (hs : Shipped p t) (hr : r ∈ allRules t) : (r.attrs.flatMap attrKeys).Nodup := by
  have hfi := rules_fine hs r hr
  unfold ruleFine at hfi
  simp only [Bool.and_eq_true, decide_eq_true_eq] at hfi
  exact hfi.1.1.1

/-- the text of a property is the text of the attribute -/
theorem text_of (hm : ctags.Perm (r.shown numeral toDouble v)) (hk : (r.attrs.flatMap attrKeys).Nodup) {k x : Bytes} :
    textOf ctags k = some x ↔ (k, .text x) ∈ r.attributes numeral v := by
  have hn : (ctags.map (·.1)).Nodup := by
    refine (hm.map _).nodup_iff.2 ?_
    rw [RuleOut.shown, List.map_map]
    exact (attributes_keys numeral v r.attrs).nodup hk
  have hmem : (k, Typed.str x) ∈ ctags ↔ (k, .text x) ∈ r.attributes numeral v := by
    rw [hm.mem_iff, RuleOut.shown, List.mem_map]
    constructor
    · rintro ⟨⟨ak, av⟩, ha, e⟩
      simp only [Prod.mk.injEq] at e
      obtain ⟨rfl, e⟩ := e
      cases av with
      | text s => injection e with e; exact e ▸ ha
      | number n => cases e
      | integer n => cases e
    · intro h
      exact ⟨_, h, rfl⟩
  rw [← hmem]
  unfold textOf
  constructor
  · intro h
    split at h
    · rename_i k' s hf
      injection h with h
      have hkey : k' = k := by simpa using List.find?_some hf
      rw [← hkey, ← h]
      exact List.mem_of_find?_eq_some hf
    · cases h
  · intro h
    cases hf : ctags.find? (fun m => m.1 == k) with
    | none =>
      rw [List.find?_eq_none] at hf
      exact absurd (by simp) (hf _ h)
    | some m =>
      have hkey : m.1 = k := by simpa using List.find?_some hf
      have : m = (k, Typed.str x) := List.inj_on_of_nodup_map hn (List.mem_of_find?_eq_some hf) h hkey
      rw [this]

/-- the layers of a style for a layer of the tile -/
def layersOf (style : List StyleLayer) (source : Bytes) : List StyleLayer := style.filter (fun l => l.source == source)

theorem paintedBy_eq (style : List StyleLayer) (zoom : ℚ) (above : Bytes → Nat → Bool) (source : Bytes) (type : Nat) (ctags : List (Bytes × Typed)) :
    paintedBy style zoom above source type ctags =
      ((layersOf style source).filter (fun l => decide ((l.minzoom : ℚ) ≤ zoom) && l.filter.eval zoom above ctags && l.kind.takes type ctags)).map (·.id) := by
  unfold paintedBy layersOf
  rw [List.filter_filter]
  congr 2
  funext l
  unfold StyleLayer.paints
  cases l.source == source <;> simp

/-- the only rule for a key -/
theorem attr_unique {attrs : List AttrRule} (hk : (attrs.flatMap attrKeys).Nodup) {a b : AttrRule} {k : Bytes} (ha : a ∈ attrs) (hb : b ∈ attrs)
    (h1 : k ∈ attrKeys a) (h2 : k ∈ attrKeys b) : a = b := by
  induction attrs with
  | nil => cases ha
  | cons c l ih =>
    rw [List.flatMap_cons, List.nodup_append] at hk
    rcases List.mem_cons.1 ha with ha | ha <;> rcases List.mem_cons.1 hb with hb | hb
    · rw [ha, hb]
    · exact absurd rfl (hk.2.2 k (ha ▸ h1) k (List.mem_flatMap.2 ⟨b, hb, h2⟩))
    · exact absurd rfl (hk.2.2 k (hb ▸ h2) k (List.mem_flatMap.2 ⟨a, ha, h1⟩))
    · exact ih hk.2.1 ha hb

/-- a tag that is copied is there as it is in the data -/
theorem text_copy (hm : ctags.Perm (r.shown numeral toDouble v)) (hk : (r.attrs.flatMap attrKeys).Nodup) {k : Bytes}
    (h : AttrRule.copy k ∈ r.attrs) : textOf ctags k = v k := by
  cases hv : v k with
  | some x => exact (text_of hm hk).2 (List.mem_flatMap.2 ⟨_, h, by simp [AttrRule.attrs, hv]⟩)
  | none =>
    cases ht : textOf ctags k with
    | none => rfl
    | some y =>
      obtain ⟨a, ha, h2⟩ := List.mem_flatMap.1 ((text_of hm hk).1 ht)
      have := attr_unique hk ha h ((attrKeys_sub numeral v a).subset (List.mem_map.2 ⟨_, h2, rfl⟩)) (by simp [attrKeys])
      subst this
      simp [AttrRule.attrs, hv] at h2

theorem text_const (hm : ctags.Perm (r.shown numeral toDouble v)) (hk : (r.attrs.flatMap attrKeys).Nodup) {k x : Bytes}
    (h : AttrRule.const k x ∈ r.attrs) : textOf ctags k = some x :=
  (text_of hm hk).2 (List.mem_flatMap.2 ⟨_, h, by simp [AttrRule.attrs]⟩)

/-- without a rule for the key there is no text -/
theorem text_no (hm : ctags.Perm (r.shown numeral toDouble v)) (hk : (r.attrs.flatMap attrKeys).Nodup) {k : Bytes}
    (h : k ∉ r.attrs.flatMap attrKeys) : textOf ctags k = none := by
  cases ht : textOf ctags k with
  | none => rfl
  | some y =>
    obtain ⟨a, ha, h2⟩ := List.mem_flatMap.1 ((text_of hm hk).1 ht)
    exact absurd (List.mem_flatMap.2 ⟨a, ha, (attrKeys_sub numeral v a).subset (List.mem_map.2 ⟨_, h2, rfl⟩)⟩) h

end

/-! ### what is checked of every rule of the tables -/

/-- a rule for a constant text that is one of some -/
def constIn (k : Bytes) (xs : List Bytes) (a : AttrRule) : Bool := match a with
  | .const k' x => k' == k && xs.contains x
  | _ => false

/-- a tag is copied -/
def copies (k : Bytes) (o : RuleOut) : Bool := o.attrs.any fun a => match a with
  | .copy k' => k' == k
  | _ => false

theorem copies_mem {k : Bytes} {o : RuleOut} (h : copies k o = true) : AttrRule.copy k ∈ o.attrs := by
  obtain ⟨a, ha, hc⟩ := List.any_eq_true.1 h
  cases a with
  | copy k' => simp only [beq_iff_eq] at hc; exact hc ▸ ha
  | _ => cases hc

def nodeFits (r : Rule) : Bool := match r.out with
  | none => true
  | some o => decide (o.layer ∈ [b!"region", b!"indoor", b!"cities"]) &&
    (o.layer != b!"cities" || (copies b!"place" o && copies b!"name" o))

def wayFits (r : Rule) : Bool := match r.out with
  | none => true
  | some o => decide (o.layer ∈ [b!"indoor", b!"road", b!"rail", b!"waterway"]) &&
    (o.layer != b!"rail" || o.attrs.any (constIn b!"rail" [b!"detail", b!"secondary", b!"primary"])) &&
    (o.layer != b!"road" || (copies b!"highway" o && copies b!"name" o && match r.conds with
      | [[(k, some xs)]] => k == b!"highway" &&
        ((copies b!"ref" o && xs.all (fun x => decide (x ∈ largeRoads ++ mediumRoads))) ||
          (decide (b!"ref" ∉ o.attrs.flatMap attrKeys) && xs.all (fun x => decide (x ∉ largeRoads ++ mediumRoads))))
      | _ => false))

/-- the kinds of landuse: the ones with a colour that are stored, and the others -/
def areaFits (others : List Bytes) (r : Rule) : Bool := match r.out with
  | none => true
  | some o => decide (o.layer ∈ [b!"building", b!"landuse", b!"construction", b!"water", b!"pedestrian", b!"sport", b!"indoor"]) &&
    (o.layer != b!"landuse" || o.attrs.any (constIn b!"landuse" (landuseColours.erase b!"construction" ++ others)) ||
      (copies b!"landuse" o && match r.conds with
        | [[(k, some xs)]] => k == b!"landuse" && xs.all (fun x => decide (x ∈ landuseColours.erase b!"construction"))
        | _ => false))

theorem nodes_fit {p : LuaProfile} {t : Tables} (hs : Shipped p t) : ∀ r ∈ t.nodes, nodeFits r = true := by
  cases hs <;> decide +kernel

theorem ways_fit {p : LuaProfile} {t : Tables} (hs : Shipped p t) : ∀ r ∈ t.ways, wayFits r = true := by
  cases hs <;> decide +kernel

theorem areas_fit {p : LuaProfile} {t : Tables} (hs : Shipped p t) : ∀ r ∈ t.areas, areaFits [b!"public_transport"] r = true := by
  cases hs <;> decide +kernel

theorem areas_fit_background : ∀ r ∈ backgroundTables.areas, areaFits [] r = true := by decide +kernel

section
variable {p : LuaProfile} {t : Tables} {L : Type} {numeral : Bytes → Option Int} {toDouble : Int → Nat}
variable (hs : Shipped p t) (shape : OsmShape L) {v : Tags} {r : RuleOut} (hd : decideBy (t.of shape) v = some r) {n : Bytes} (hl : n = r.layer)
  {ctags : List (Bytes × Typed)} (hm : ctags.Perm (r.shown numeral toDouble v))
include hs hd hl

/-- the layers and the geometries that go together -/
theorem stored_layer : (n ∈ [b!"region", b!"indoor", b!"cities"] ∧ shapeType shape = 1) ∨ (n ∈ [b!"indoor", b!"road", b!"rail", b!"waterway"] ∧ shapeType shape = 2) ∨
    (n ∈ [b!"building", b!"landuse", b!"construction", b!"water", b!"pedestrian", b!"sport", b!"indoor"] ∧ shapeType shape = 3) := by
  obtain ⟨rule, hr, hf, ho⟩ := fires_of hd
  have hk := keys_nodup hs (decideBy_rules hd)
  cases shape with
  | node l =>
    have := nodes_fit hs rule hr
    rw [nodeFits, ho] at this
    simp only [Bool.and_eq_true, decide_eq_true_eq] at this
    exact .inl ⟨hl ▸ this.1, rfl⟩
  | way l =>
    have := ways_fit hs rule hr
    rw [wayFits, ho] at this
    simp only [Bool.and_eq_true, decide_eq_true_eq] at this
    exact .inr (.inl ⟨hl ▸ this.1.1, rfl⟩)
  | area l =>
    have := areas_fit hs rule hr
    rw [areaFits, ho] at this
    simp only [Bool.and_eq_true, decide_eq_true_eq] at this
    exact .inr (.inr ⟨hl ▸ this.1, rfl⟩)

variable {style : List StyleLayer} (hst : ShippedStyle style) {zoom : ℚ} (hzoom : 0 ≤ zoom) (above : Bytes → Nat → Bool)
include hst hzoom

/-- Buildings, areas of land and water, sports grounds, squares and rivers are painted by exactly the layer of the style that is called like theirs, at every zoom level. -/
theorem C85_plain (hn : n ∈ [b!"building", b!"landuse", b!"water", b!"pedestrian", b!"sport", b!"waterway"]) :
    paintedBy style zoom above n (shapeType shape) ctags = [n] := by
  have hsl := stored_layer hs shape hd hl
  have key : ∀ k c, layersOf style n = [{ id := n, kind := k, source := n, colours := c }] → k.takes (shapeType shape) ctags = true →
      paintedBy style zoom above n (shapeType shape) ctags = [n] := by
    intro k c e hk
    rw [paintedBy_eq, e]
    simp [StyleFilter.eval, hk, hzoom]
  by_cases hw : n = b!"waterway"
  · rcases hsl with ⟨h1, _⟩ | ⟨_, hg⟩ | ⟨h1, _⟩
    · exact absurd h1 (by subst hw; decide)
    · refine key .line none ?_ (by rw [hg]; rfl)
      subst hw; cases hst <;> rfl
    · exact absurd h1 (by subst hw; decide)
  · rcases hsl with ⟨h1, _⟩ | ⟨h1, _⟩ | ⟨_, hg⟩
    · exfalso; revert hn h1; simp only [List.mem_cons, List.not_mem_nil, or_false]; rintro (rfl | rfl | rfl | rfl | rfl | rfl) <;> decide
    · exfalso; revert hn h1 hw; simp only [List.mem_cons, List.not_mem_nil, or_false]; rintro (rfl | rfl | rfl | rfl | rfl | rfl) <;> decide
    · have ht : StyleKind.takes (shapeType shape) ctags .fill = true := by rw [hg]; rfl
      simp only [List.mem_cons, List.not_mem_nil, or_false] at hn
      rcases hn with rfl | rfl | rfl | rfl | rfl | rfl
      · exact key .fill none (by cases hst <;> rfl) ht
      · exact key .fill (some (b!"landuse", landuseColours)) (by cases hst <;> rfl) ht
      · exact key .fill none (by cases hst <;> rfl) ht
      · exact key .fill none (by cases hst <;> rfl) ht
      · exact key .fill none (by cases hst <;> rfl) ht
      · exact absurd rfl hw

omit hs hd hl hzoom in
/-- Building sites (the styles look for them among the areas of land use, the profiles put them on a layer of their own), states and everything indoors are never painted. -/
theorem C85_hidden (hn : n ∈ [b!"construction", b!"region", b!"indoor"]) (type : Nat) (ctags : List (Bytes × Typed)) : paintedBy style zoom above n type ctags = [] := by
  have e : layersOf style n = [] := by
    simp only [List.mem_cons, List.not_mem_nil, or_false] at hn
    rcases hn with rfl | rfl | rfl <;> cases hst <;> rfl
  rw [paintedBy_eq, e]
  rfl

include hm

/-- Railways are painted by exactly one of the layers for railways, and never by the one for old railways. -/
theorem C85_rail (hn : n = b!"rail") : ∃ x ∈ [b!"detail", b!"secondary", b!"primary"], textOf ctags b!"rail" = some x ∧
    paintedBy style zoom above n (shapeType shape) ctags = [b!"rail_" ++ x] := by
  obtain ⟨rule, hr, hf, ho⟩ := fires_of hd
  have hk := keys_nodup hs (decideBy_rules hd)
  cases shape with
  | node l =>
    have := nodes_fit hs rule hr
    rw [nodeFits, ho] at this
    simp only [Bool.and_eq_true, decide_eq_true_eq] at this
    have h9 := this.1
    rw [← hl, hn] at h9
    exact absurd h9 (by decide)
  | area l =>
    have := areas_fit hs rule hr
    rw [areaFits, ho] at this
    simp only [Bool.and_eq_true, decide_eq_true_eq] at this
    have h9 := this.1
    rw [← hl, hn] at h9
    exact absurd h9 (by decide)
  | way l =>
    have := ways_fit hs rule hr
    rw [wayFits, ho] at this
    simp only [Bool.and_eq_true, decide_eq_true_eq] at this
    have h1 := this.1.2
    rw [← hl, hn] at h1
    rw [bne_self_eq_false, Bool.false_or, List.any_eq_true] at h1
    obtain ⟨a, ha, hc⟩ := h1
    cases a with
    | const k x =>
      simp only [constIn, Bool.and_eq_true, beq_iff_eq, List.contains_eq_mem, decide_eq_true_eq] at hc
      obtain ⟨rfl, hx⟩ := hc
      have ht := text_const hm hk ha
      refine ⟨x, hx, ht, ?_⟩
      have e : layersOf style n = [{ id := b!"rail_old", kind := .line, source := b!"rail", filter := .eq b!"rail" b!"old" },
          { id := b!"rail_detail", kind := .line, source := b!"rail", filter := .eq b!"rail" b!"detail" },
          { id := b!"rail_secondary", kind := .line, source := b!"rail", filter := .eq b!"rail" b!"secondary" },
          { id := b!"rail_primary", kind := .line, source := b!"rail", filter := .eq b!"rail" b!"primary" }] := by
        subst hn; cases hst <;> rfl
      rw [paintedBy_eq, e]
      simp only [List.mem_cons, List.not_mem_nil, or_false] at hx
      rcases hx with rfl | rfl | rfl <;> simp [StyleFilter.eval, StyleKind.takes, shapeType, ht, hzoom, List.filter]
    | _ => cases hc

theorem road_layers (hn : n = b!"road") : ∃ x, v b!"highway" = some x ∧
    paintedBy style zoom above n (shapeType shape) ctags =
      (if x ∈ narrowRoads then [] else [b!"road_back"]) ++ [b!"road"] ++
      (if 6 ≤ zoom ∧ HasText (v b!"ref") ∧ (x ∈ [b!"motorway", b!"trunk", b!"secondary"] ∨ 11 < zoom ∧ x ∈ largeRoads ++ mediumRoads) then [b!"road-ref-shield"] else []) ++
      (if 15 ≤ zoom ∧ HasText (v b!"name") then [b!"road-name-text"] else []) := by
  obtain ⟨rule, hr, hf, ho⟩ := fires_of hd
  have hk := keys_nodup hs (decideBy_rules hd)
  cases shape with
  | node l =>
    have := nodes_fit hs rule hr
    rw [nodeFits, ho] at this
    simp only [Bool.and_eq_true, decide_eq_true_eq] at this
    have h9 := this.1
    rw [← hl, hn] at h9
    exact absurd h9 (by decide)
  | area l =>
    have := areas_fit hs rule hr
    rw [areaFits, ho] at this
    simp only [Bool.and_eq_true, decide_eq_true_eq] at this
    have h9 := this.1
    rw [← hl, hn] at h9
    exact absurd h9 (by decide)
  | way l =>
    have := ways_fit hs rule hr
    rw [wayFits, ho] at this
    simp only [Bool.and_eq_true, decide_eq_true_eq] at this
    have h1 := this.2
    rw [← hl, hn, bne_self_eq_false, Bool.false_or, Bool.and_eq_true, Bool.and_eq_true] at h1
    obtain ⟨⟨h2, h3⟩, h4⟩ := h1
    have thw := text_copy hm hk (copies_mem h2)
    have tname := text_copy hm hk (copies_mem h3)
    split at h4
    · rename_i k xs hconds
      simp only [Bool.and_eq_true, beq_iff_eq, Bool.or_eq_true, List.all_eq_true, decide_eq_true_eq] at h4
      obtain ⟨rfl, h4⟩ := h4
      have hx : ∃ x ∈ xs, v b!"highway" = some x := by
        unfold Rule.fires at hf
        rw [hconds] at hf
        simp only [List.all_cons, List.all_nil, List.any_cons, List.any_nil, Bool.or_false, Bool.and_true, tagHolds] at hf
        split at hf
        · cases hf
        · rename_i h5 h6; cases h6
        · rename_i y ys h5 h6
          injection h6 with h6
          subst h6
          exact ⟨y, by simpa using hf, h5⟩
      obtain ⟨x, hx, hv⟩ := hx
      rw [hv] at thw
      refine ⟨x, hv, ?_⟩
      have href : (HasText (textOf ctags b!"ref") ↔ HasText (v b!"ref") ∧ x ∈ largeRoads ++ mediumRoads) := by
        rcases h4 with ⟨h5, h6⟩ | ⟨h5, h6⟩
        · rw [text_copy hm hk (copies_mem h5)]
          exact ⟨fun h => ⟨h, h6 x hx⟩, fun h => h.1⟩
        · rw [text_no hm hk h5]
          exact ⟨(fun h => by obtain ⟨_, _, h⟩ := h; cases h), fun h => absurd h.2 (h6 x hx)⟩
      have hsub : x ∈ [b!"motorway", b!"trunk", b!"secondary"] → x ∈ largeRoads ++ mediumRoads := by
        simp only [List.mem_cons, List.not_mem_nil, or_false]
        rintro (rfl | rfl | rfl) <;> decide
      have hcond : (6 ≤ zoom ∧ HasText (v b!"ref") ∧ (x ∈ [b!"motorway", b!"trunk", b!"secondary"] ∨ 11 < zoom ∧ x ∈ largeRoads ++ mediumRoads)) ↔
          (6 ≤ zoom ∧ (x ∈ [b!"motorway", b!"trunk", b!"secondary"] ∨ 11 < zoom)) ∧ HasText (textOf ctags b!"ref") := by
        rw [href]
        tauto
      simp only [hcond]
      rw [← tname]
      have hrf : refFilter.eval zoom above ctags = decide (x ∈ [b!"motorway", b!"trunk", b!"secondary"] ∨ 11 < zoom) := by
        rw [Bool.eq_iff_iff]
        simp only [refFilter, StyleFilter.eval, thw, Bool.or_eq_true, beq_iff_eq, Option.some.injEq, decide_eq_true_eq, List.mem_cons, List.not_mem_nil, or_false, or_assoc]
        norm_num
      have tl : ∀ k, (StyleKind.labelAlong k).takes (shapeType (OsmShape.way l)) ctags = decide (HasText (textOf ctags k)) := by
        intro k
        rw [← hasText_match]
        rfl
      have tln : (StyleKind.line).takes (shapeType (OsmShape.way l)) ctags = true := rfl
      have fst : (StyleFilter.notIn b!"highway" narrowRoads).eval zoom above ctags = !decide (x ∈ narrowRoads) := by
        simp [StyleFilter.eval, thw]
      have e : layersOf style n = [{ id := b!"road_back", kind := .line, source := b!"road", filter := .notIn b!"highway" narrowRoads },
          { id := b!"road", kind := .line, source := b!"road" },
          { id := b!"road-ref-shield", kind := .labelAlong b!"ref", source := b!"road", minzoom := 6, filter := .and (.has b!"ref") refFilter },
          { id := b!"road-name-text", kind := .labelAlong b!"name", source := b!"road", minzoom := 15 }] ∨
          layersOf style n = [{ id := b!"road_back", kind := .line, source := b!"road", filter := .notIn b!"highway" narrowRoads },
          { id := b!"road", kind := .line, source := b!"road" },
          { id := b!"road-ref-shield", kind := .labelAlong b!"ref", source := b!"road", minzoom := 6, filter := refFilter },
          { id := b!"road-name-text", kind := .labelAlong b!"name", source := b!"road", minzoom := 15 }] := by
        subst hn; cases hst
        · exact .inl rfl
        · exact .inr rfl
      have hz0 : decide (((0 : Nat) : ℚ) ≤ zoom) = true := by simpa using hzoom
      have hhas : HasText (textOf ctags b!"ref") → (StyleFilter.has b!"ref").eval zoom above ctags = true := fun h => hasText_has h
      have hcount : ((layersOf style n).filter (fun sl => decide ((sl.minzoom : ℚ) ≤ zoom) && sl.filter.eval zoom above ctags && sl.kind.takes (shapeType (OsmShape.way l)) ctags)).map (·.id) =
          (if x ∈ narrowRoads then [] else [b!"road_back"]) ++ [b!"road"] ++
          (if (6 ≤ zoom ∧ (x ∈ [b!"motorway", b!"trunk", b!"secondary"] ∨ 11 < zoom)) ∧ HasText (textOf ctags b!"ref") then [b!"road-ref-shield"] else []) ++
          (if 15 ≤ zoom ∧ HasText (textOf ctags b!"name") then [b!"road-name-text"] else []) := by
        have s1 : ∀ flt : StyleFilter, (flt = .and (.has b!"ref") refFilter ∨ flt = refFilter) →
            (decide (((6 : Nat) : ℚ) ≤ zoom) && flt.eval zoom above ctags && decide (HasText (textOf ctags b!"ref"))) =
            decide ((6 ≤ zoom ∧ (x ∈ [b!"motorway", b!"trunk", b!"secondary"] ∨ 11 < zoom)) ∧ HasText (textOf ctags b!"ref")) := by
          intro flt hflt
          by_cases ht : HasText (textOf ctags b!"ref")
          · have : flt.eval zoom above ctags = decide (x ∈ [b!"motorway", b!"trunk", b!"secondary"] ∨ 11 < zoom) := by
              rcases hflt with rfl | rfl
              · rw [StyleFilter.eval, hhas ht, Bool.true_and, hrf]
              · exact hrf
            rw [this, Bool.decide_and, Bool.decide_and]
            rfl
          · rw [decide_eq_false ht, Bool.and_false]
            symm
            exact decide_eq_false fun h => ht h.2
        rcases e with e | e
        all_goals
          rw [e]
          simp only [List.filter_cons, List.filter_nil, hz0, fst, tln, tl, StyleFilter.eval.eq_1, Bool.true_and, Bool.and_true]
          first
            | simp only [s1 _ (.inl rfl)]
            | simp only [s1 _ (.inr rfl)]
          have s3 : (decide (((15 : Nat) : ℚ) ≤ zoom) && decide (HasText (textOf ctags b!"name"))) = decide (15 ≤ zoom ∧ HasText (textOf ctags b!"name")) := by
            rw [Bool.decide_and]; rfl
          simp only [s3]
          by_cases c1 : x ∈ narrowRoads <;>
            by_cases c2 : (6 ≤ zoom ∧ (x ∈ [b!"motorway", b!"trunk", b!"secondary"] ∨ 11 < zoom)) ∧ HasText (textOf ctags b!"ref") <;>
            by_cases c3 : 15 ≤ zoom ∧ HasText (textOf ctags b!"name") <;> simp only [c1, c2, c3, decide_true, decide_false, if_true, if_false, Bool.not_true, Bool.not_false, List.map_cons, List.map_nil] <;> rfl
      rw [paintedBy_eq, hcount]
    · cases h4

/-- Roads are painted by the layer "road", above "road_back" unless they are narrow; the shield with the number is there from zoom level 6 on for motorways, trunk roads
and secondary roads (not for primary ones), above zoom level 11 for the other large roads; the name is there from zoom level 15 on. -/
theorem C85_road (hn : n = b!"road") : ∃ x, v b!"highway" = some x ∧
    paintedBy style zoom above n (shapeType shape) ctags =
      (if x ∈ [b!"footway", b!"track", b!"steps", b!"cycleway", b!"path", b!"unclassified"] then [] else [b!"road_back"]) ++ [b!"road"] ++
      (if 6 ≤ zoom ∧ HasText (v b!"ref") ∧ (x ∈ [b!"motorway", b!"trunk", b!"secondary"] ∨ 11 < zoom ∧ x ∈ largeRoads ++ mediumRoads) then [b!"road-ref-shield"] else []) ++
      (if 15 ≤ zoom ∧ HasText (v b!"name") then [b!"road-name-text"] else []) :=
  road_layers hs shape hd hl hm hst hzoom above hn

omit hst in
/-- Places are painted if they have a name: cities as cities, all others as towns; the style "background" shows the others from zoom level 11 on, or if there are more than
10000 people. -/
theorem C85_place (hn : n = b!"cities") :
    paintedBy styleDefault zoom above n (shapeType shape) ctags =
      (if HasText (v b!"name") then if v b!"place" = some b!"city" then [b!"cities"] else [b!"towns"] else []) ∧
    paintedBy styleBackground zoom above n (shapeType shape) ctags =
      (if HasText (v b!"name") then if v b!"place" = some b!"city" then [b!"cities"]
        else if 11 ≤ zoom ∨ above b!"population" 10000 = true then [b!"towns"] else [] else []) := by
  obtain ⟨rule, hr, hf, ho⟩ := fires_of hd
  have hk := keys_nodup hs (decideBy_rules hd)
  cases shape with
  | area l =>
    have := areas_fit hs rule hr
    rw [areaFits, ho] at this
    simp only [Bool.and_eq_true, decide_eq_true_eq] at this
    have h9 := this.1
    rw [← hl, hn] at h9
    exact absurd h9 (by decide)
  | way l =>
    have := ways_fit hs rule hr
    rw [wayFits, ho] at this
    simp only [Bool.and_eq_true, decide_eq_true_eq] at this
    have h9 := this.1.1
    rw [← hl, hn] at h9
    exact absurd h9 (by decide)
  | node l =>
    have := nodes_fit hs rule hr
    rw [nodeFits, ho] at this
    simp only [Bool.and_eq_true, decide_eq_true_eq] at this
    have h1 := this.2
    rw [← hl, hn, bne_self_eq_false, Bool.false_or, Bool.and_eq_true] at h1
    have tplace := text_copy hm hk (copies_mem h1.1)
    have tname := text_copy hm hk (copies_mem h1.2)
    have tl : ∀ k, (StyleKind.label k).takes (shapeType (OsmShape.node l)) ctags = decide (HasText (textOf ctags k)) := by
      intro k
      rw [← hasText_match]
      rfl
    have hz0 : decide (((0 : Nat) : ℚ) ≤ zoom) = true := by simpa using hzoom
    have e1 : layersOf styleDefault n = [{ id := b!"towns", kind := .label b!"name", source := b!"cities", filter := .ne b!"place" b!"city" },
        { id := b!"cities", kind := .label b!"name", source := b!"cities", filter := .eq b!"place" b!"city" }] := by subst hn; rfl
    have e2 : layersOf styleBackground n = [{ id := b!"towns", kind := .label b!"name", source := b!"cities", filter := .and (.ne b!"place" b!"city") (.or (.zoomFrom 11) (.above b!"population" 10000)) },
        { id := b!"cities", kind := .label b!"name", source := b!"cities", filter := .eq b!"place" b!"city" }] := by subst hn; rfl
    have z11 : (((11 : Nat) : ℚ) ≤ zoom) = (11 ≤ zoom) := by norm_num
    rw [paintedBy_eq, paintedBy_eq, e1, e2]
    simp only [List.filter_cons, List.filter_nil, hz0, tl, StyleFilter.eval, tplace, tname, Bool.true_and, z11]
    by_cases c1 : HasText (v b!"name")
    · by_cases c2 : v b!"place" = some b!"city"
      · simp [c1, c2]
      · by_cases c3 : 11 ≤ zoom <;> by_cases c4 : above b!"population" 10000 = true <;> simp [c1, c2, c3, c4, -not_le]
    · simp [c1]

omit hm hzoom in
/-- Areas are filled, lines are drawn or have labels along them, places are labels. -/
theorem C85_kind : ∀ l ∈ style, l.paints zoom above n (shapeType shape) ctags = true →
    match shapeType shape, l.kind with
    | 3, .fill => True
    | 2, .line => True
    | 2, .labelAlong _ => True
    | 1, .label _ => True
    | _, _ => False := by
  have hc : ∀ l ∈ style, (l.source ∈ [b!"region", b!"indoor", b!"cities"] → ∃ k, l.kind = .label k) ∧
      (l.source ∈ [b!"indoor", b!"road", b!"rail", b!"waterway"] → l.kind = .line ∨ ∃ k, l.kind = .labelAlong k) ∧
      (l.source ∈ [b!"building", b!"landuse", b!"construction", b!"water", b!"pedestrian", b!"sport", b!"indoor"] → l.kind = .fill) := by
    cases hst <;> simp [styleDefault, styleBackground, styleBase]
  intro l hls hp
  obtain ⟨c1, c2, c3⟩ := hc l hls
  unfold StyleLayer.paints at hp
  simp only [Bool.and_eq_true, beq_iff_eq] at hp
  have e := hp.1.1.1
  rcases stored_layer hs shape hd hl with ⟨h1, hg⟩ | ⟨h1, hg⟩ | ⟨h1, hg⟩
  · obtain ⟨k, hk⟩ := c1 (e ▸ h1)
    rw [hg, hk]; trivial
  · rcases c2 (e ▸ h1) with hk | ⟨k, hk⟩ <;> rw [hg, hk] <;> trivial
  · rw [hg, c3 (e ▸ h1)]; trivial

end

/-! ### the colours -/

section
variable {p : LuaProfile} {t : Tables} {L : Type} {numeral : Bytes → Option Int} {toDouble : Int → Nat}
variable (hs : Shipped p t) (shape : OsmShape L) {v : Tags} {r : RuleOut} (hd : decideBy (t.of shape) v = some r) {n : Bytes} (hl : n = r.layer)
  {ctags : List (Bytes × Typed)} (hm : ctags.Perm (r.shown numeral toDouble v))
include hs hd hl hm

/-- The kinds of landuse that are stored. -/
theorem C85_landuse (hn : n = b!"landuse") : ∃ x, textOf ctags b!"landuse" = some x ∧ x ≠ b!"construction" ∧
    (x ∈ landuseColours ∨ p = fullProfile ∧ x = b!"public_transport") := by
  have key : ∃ x, textOf ctags b!"landuse" = some x ∧
    (x ∈ landuseColours.erase b!"construction" ∨ p = fullProfile ∧ x = b!"public_transport") := by
    obtain ⟨rule, hr, hf, ho⟩ := fires_of hd
    have hk := keys_nodup hs (decideBy_rules hd)
    cases shape with
    | node l =>
      have := nodes_fit hs rule hr
      rw [nodeFits, ho] at this
      simp only [Bool.and_eq_true, decide_eq_true_eq] at this
      have h9 := this.1
      rw [← hl, hn] at h9
      exact absurd h9 (by decide)
    | way l =>
      have := ways_fit hs rule hr
      rw [wayFits, ho] at this
      simp only [Bool.and_eq_true, decide_eq_true_eq] at this
      have h9 := this.1.1
      rw [← hl, hn] at h9
      exact absurd h9 (by decide)
    | area l =>
      have hfit : ∃ others, areaFits others rule = true ∧ (∀ x ∈ others, p = fullProfile ∧ x = b!"public_transport") := by
        cases hs with
        | full => exact ⟨_, areas_fit .full rule hr, fun x hx => ⟨rfl, by simpa using hx⟩⟩
        | background => exact ⟨[], areas_fit_background rule hr, by simp⟩
      obtain ⟨others, h1, h2⟩ := hfit
      rw [areaFits, ho] at h1
      simp only [Bool.and_eq_true, decide_eq_true_eq] at h1
      have h3 := h1.2
      rw [← hl, hn, bne_self_eq_false, Bool.false_or, Bool.or_eq_true] at h3
      rcases h3 with h3 | h3
      · obtain ⟨a, ha, hc⟩ := List.any_eq_true.1 h3
        cases a with
        | const k x =>
          simp only [constIn, Bool.and_eq_true, beq_iff_eq, List.contains_eq_mem, decide_eq_true_eq] at hc
          obtain ⟨rfl, hx⟩ := hc
          refine ⟨x, text_const hm hk ha, ?_⟩
          rcases List.mem_append.1 hx with hx | hx
          · exact .inl hx
          · exact .inr (h2 x hx)
        | _ => cases hc
      · rw [Bool.and_eq_true] at h3
        obtain ⟨h4, h5⟩ := h3
        split at h5
        · rename_i k xs hconds
          simp only [Bool.and_eq_true, beq_iff_eq, List.all_eq_true, decide_eq_true_eq] at h5
          obtain ⟨rfl, h5⟩ := h5
          unfold Rule.fires at hf
          rw [hconds] at hf
          simp only [List.all_cons, List.all_nil, List.any_cons, List.any_nil, Bool.or_false, Bool.and_true, tagHolds] at hf
          split at hf
          · cases hf
          · rename_i h7 h6; cases h6
          · rename_i y ys h7 h6
            injection h6 with h6
            subst h6
            exact ⟨y, by rw [text_copy hm hk (copies_mem h4), h7], .inl (h5 y (by simpa using hf))⟩
        · cases h5
  obtain ⟨x, h1, h2⟩ := key
  refine ⟨x, h1, ?_, ?_⟩
  · rintro rfl
    rcases h2 with h2 | ⟨_, h2⟩
    · revert h2; decide
    · revert h2; decide
  · exact h2.imp_left List.mem_of_mem_erase

/-- What is painted in the colour for unknown values (magenta or red): with the profile "full" the platforms and stop areas, with "background" nothing. -/
theorem C85_colour {style : List StyleLayer} (hst : ShippedStyle style) {zoom : ℚ} (hzoom : 0 ≤ zoom) (above : Bytes → Nat → Bool) :
    wrongColour style zoom above n (shapeType shape) ctags = true ↔ p = fullProfile ∧ n = b!"landuse" ∧ textOf ctags b!"landuse" = some b!"public_transport" := by
  have hw : wrongColour style zoom above n (shapeType shape) ctags = true ↔ n = b!"landuse" ∧ ∀ x, textOf ctags b!"landuse" = some x → x ∉ landuseColours := by
    have hc : ∀ l ∈ style, l.colours = none ∨ l.source = b!"landuse" ∧ l.colours = some (b!"landuse", landuseColours) := by
      cases hst <;> simp [styleDefault, styleBackground, styleBase]
    unfold wrongColour
    rw [List.any_eq_true]
    constructor
    · rintro ⟨l, hl, h1⟩
      rw [Bool.and_eq_true] at h1
      obtain ⟨h1, h2⟩ := h1
      rcases hc l hl with h3 | ⟨h3, h4⟩
      · rw [h3] at h2; cases h2
      · unfold StyleLayer.paints at h1
        simp only [Bool.and_eq_true, beq_iff_eq] at h1
        refine ⟨by rw [← h1.1.1.1, h3], fun x hx => ?_⟩
        rw [h4] at h2
        simp only [hx] at h2
        simpa using h2
    · rintro ⟨h1, h2⟩
      refine ⟨{ id := b!"landuse", kind := .fill, source := b!"landuse", colours := some (b!"landuse", landuseColours) }, ?_, ?_⟩
      · cases hst <;> simp [styleDefault, styleBackground, styleBase]
      · have hg : shapeType shape = 3 := by
          rcases stored_layer hs shape hd hl with ⟨h3, _⟩ | ⟨h3, _⟩ | ⟨_, hg⟩
          · rw [h1] at h3; exact absurd h3 (by decide)
          · rw [h1] at h3; exact absurd h3 (by decide)
          · exact hg
        rw [hg, h1]
        rw [Bool.and_eq_true]
        refine ⟨by simp [StyleLayer.paints, StyleFilter.eval, StyleKind.takes, hzoom], ?_⟩
        cases ht : textOf ctags b!"landuse" with
        | none => simp only [ht]
        | some x => simpa only [ht, Bool.not_eq_true', List.contains_eq_mem, decide_eq_false_iff_not] using h2 x ht
  rw [hw]
  constructor
  · rintro ⟨h1, h2⟩
    obtain ⟨x, h3, _, h4⟩ := C85_landuse hs shape hd hl hm h1
    rcases h4 with h4 | ⟨h4, rfl⟩
    · exact absurd h4 (h2 x h3)
    · exact ⟨h4, h1, h3⟩
  · rintro ⟨_, h1, h2⟩
    refine ⟨h1, fun x h3 => ?_⟩
    rw [h2] at h3
    injection h3 with h3
    subst h3
    decide

end

/-! ### together, and up to the client -/

/-- what a style paints of a feature on layer `n` of a tile that shows an object with tags `v`, stored by profile `p` -/
structure Spec.PaintedAs (style : List StyleLayer) (zoom : ℚ) (above : Bytes → Nat → Bool) (p : LuaProfile) (v : Tags) (n : Bytes) (type : Nat)
    (ctags : List (Bytes × Typed)) : Prop where
  plain : n ∈ [b!"building", b!"landuse", b!"water", b!"pedestrian", b!"sport", b!"waterway"] → paintedBy style zoom above n type ctags = [n]
  hidden : n ∈ [b!"construction", b!"region", b!"indoor"] → paintedBy style zoom above n type ctags = []
  rail : n = b!"rail" → ∃ x ∈ [b!"detail", b!"secondary", b!"primary"], paintedBy style zoom above n type ctags = [b!"rail_" ++ x]
  road : n = b!"road" → ∃ x, v b!"highway" = some x ∧ paintedBy style zoom above n type ctags =
      (if x ∈ [b!"footway", b!"track", b!"steps", b!"cycleway", b!"path", b!"unclassified"] then [] else [b!"road_back"]) ++ [b!"road"] ++
      (if 6 ≤ zoom ∧ HasText (v b!"ref") ∧ (x ∈ [b!"motorway", b!"trunk", b!"secondary"] ∨ 11 < zoom ∧ x ∈ largeRoads ++ mediumRoads) then [b!"road-ref-shield"] else []) ++
      (if 15 ≤ zoom ∧ HasText (v b!"name") then [b!"road-name-text"] else [])
  place : n = b!"cities" → (v b!"place" = some b!"city" → paintedBy style zoom above n type ctags = if HasText (v b!"name") then [b!"cities"] else []) ∧
    (v b!"place" ≠ some b!"city" → 11 ≤ zoom → paintedBy style zoom above n type ctags = if HasText (v b!"name") then [b!"towns"] else [])
  /-- there is no other layer -/
  known : n ∈ [b!"building", b!"landuse", b!"water", b!"pedestrian", b!"sport", b!"waterway", b!"construction", b!"region", b!"indoor", b!"rail", b!"road", b!"cities"]
  colour : wrongColour style zoom above n type ctags = true ↔ p = fullProfile ∧ n = b!"landuse" ∧ textOf ctags b!"landuse" = some b!"public_transport"

section
variable {p : LuaProfile} {t : Tables}

/-- Both profiles, both styles, every zoom level of the map. -/
theorem C85_fits (hs : Shipped p t) {L : Type} {numeral : Bytes → Option Int} {toDouble : Int → Nat} (shape : OsmShape L) {v : Tags} {r : RuleOut}
    (hd : decideBy (t.of shape) v = some r) {ctags : List (Bytes × Typed)} (hm : ctags.Perm (r.shown numeral toDouble v)) {style : List StyleLayer} (hst : ShippedStyle style)
    {zoom : ℚ} (hzoom : 0 ≤ zoom) (above : Bytes → Nat → Bool) : PaintedAs style zoom above p v r.layer (shapeType shape) ctags where
  plain := C85_plain hs shape hd rfl hst hzoom above
  hidden := fun hn => C85_hidden hst above hn _ _
  rail := fun hn => by
    obtain ⟨x, h1, _, h2⟩ := C85_rail hs shape hd rfl hm hst hzoom above hn
    exact ⟨x, h1, h2⟩
  road := C85_road hs shape hd rfl hm hst hzoom above
  place := fun hn => by
    obtain ⟨h1, h2⟩ := C85_place hs shape hd rfl hm hzoom above hn
    refine ⟨fun hc => ?_, fun hc hz => ?_⟩
    · cases hst
      · rw [h1, if_pos hc]
      · rw [h2, if_pos hc]
    · cases hst
      · rw [h1, if_neg hc]
      · rw [h2, if_neg hc, if_pos (show 11 ≤ zoom ∨ above b!"population" 10000 = true from .inl hz)]
  known := by
    rcases stored_layer hs shape hd rfl with ⟨h, _⟩ | ⟨h, _⟩ | ⟨h, _⟩ <;> revert h <;> simp only [List.mem_cons, List.not_mem_nil, or_false] <;> tauto
  colour := C85_colour hs shape hd rfl hm hst hzoom above

end

section
variable {S : OsmSetting} {t : Tables} {e : Int} {g : ℝ} {data : List Datum}

/-- Up to the client: whatever a client reads in a tile of a map that was made from an OSM file, with any number of threads and runs of the import program,
is an object of the file, and is painted as its tags say. -/
theorem C85_client (hS : S.Ok t e g) (hD : S.Fits data) (runs : List (List String)) (hacts : changes runs = [.load false true, .pack, .tiles]) (a b : TileDb MetaTable)
    (hr : Imports (importParts (S.env data)) runs a b) (hsmall : SmallPacks b.features) (hsize : b.pf.reopen.size < 2 ^ 64) (features : List (UInt64 × Bytes))
    (hdb : EntriesOf b.features features) (ctx : GetCtx) (hctx : makeRenderCtx S.base (preparedString b.maxPrepared) b.info = .ok ctx)
    (q : Tile) (hv : q.Valid) (hz : q.z ≤ 20) (hshort : S.ShortLines data ctx q)
    {style : List StyleLayer} (hst : ShippedStyle style) {zoom : ℚ} (hzoom : 0 ≤ zoom) (above : Bytes → Nat → Bool) :
    ∃ bytes layers, getTile b.tiles features b.pf.reopen ctx q = .ok (if bytes = [] then none else some (ctx.encode bytes)) ∧
      (bytes.length < 2 ^ 32 → clientTile bytes = some layers) ∧
      ∀ L ∈ layers, ∀ c ∈ L.features, ∃ d ∈ data, (c.id : Int) = d.id % 2 ^ 64 ∧ c.type = d.type ∧
        PaintedAs style zoom above S.profile (tagValue d.tags) L.name c.type c.tags := by
  obtain ⟨bytes, layers, h1, h2, h3, _⟩ := C68_served hS hD runs hacts a b hr hsmall hsize features hdb ctx hctx q hv hz hshort
  refine ⟨bytes, layers, h1, fun h => (h2 h).1, fun L hL c hc => ?_⟩
  obtain ⟨d, hd, r, hrule, hname, hid, htype, htags, _⟩ := (h3 L hL).2.2.2 c hc
  refine ⟨d, hd, hid, htype, ?_⟩
  have := C85_fits hS.shipped d.shape hrule htags hst hzoom above
  have hty : shapeType d.shape = c.type := by
    rw [htype]
    unfold shapeType Datum.type
    cases d.shape <;> rfl
  rw [hty, ← hname] at this
  exact this

end

/-- The sea is painted, filled, by the layer for the sea and no other, at every zoom level, and never in a wrong colour. -/
theorem C85_coast {style : List StyleLayer} (hst : ShippedStyle style) {zoom : ℚ} (hzoom : 0 ≤ zoom) (above : Bytes → Nat → Bool) (ctags : List (Bytes × Typed)) :
    paintedBy style zoom above b!"coastline" 3 ctags = [b!"coastline"] ∧ wrongColour style zoom above b!"coastline" 3 ctags = false ∧
      ∀ l ∈ style, l.paints zoom above b!"coastline" 3 ctags = true → l.kind = .fill := by
  refine ⟨?_, ?_, ?_⟩
  · have e : layersOf style b!"coastline" = [{ id := b!"coastline", kind := .fill, source := b!"coastline" }] := by
      cases hst <;> rfl
    rw [paintedBy_eq, e]
    simp [StyleFilter.eval, StyleKind.takes, hzoom]
  · have hc : ∀ l ∈ style, l.colours = none ∨ l.source = b!"landuse" := by
      cases hst <;> simp [styleDefault, styleBackground, styleBase]
    unfold wrongColour
    rw [Bool.eq_false_iff]
    intro h
    rw [List.any_eq_true] at h
    obtain ⟨l, hl, h1⟩ := h
    rw [Bool.and_eq_true] at h1
    obtain ⟨h1, h2⟩ := h1
    rcases hc l hl with h3 | h3
    · rw [h3] at h2; cases h2
    · unfold StyleLayer.paints at h1
      simp only [Bool.and_eq_true, beq_iff_eq] at h1
      rw [h1.1.1.1] at h3
      exact absurd h3 (by decide)
  · have hc : ∀ l ∈ style, l.source = b!"coastline" → l.kind = .fill := by
      cases hst <;> simp [styleDefault, styleBackground, styleBase]
    intro l hl h1
    unfold StyleLayer.paints at h1
    simp only [Bool.and_eq_true, beq_iff_eq] at h1
    exact hc l hl h1.1.1.1

/-- what has to be under what on a map: the sea under everything, whatever is no label under the labels, the border of a road under the roads,
land and water under roads, railways and buildings, roads under railways and buildings -/
def Spec.Under (lower upper : StyleLayer) : Prop :=
  (lower.source = b!"coastline" ∧ upper.source ≠ b!"coastline") ∨
  ((lower.kind = .fill ∨ lower.kind = .line) ∧ ∃ k, upper.kind = .label k ∨ upper.kind = .labelAlong k) ∨
  (lower.id = b!"road_back" ∧ upper.id = b!"road") ∨
  (lower.source ∈ [b!"landuse", b!"water", b!"sport", b!"pedestrian", b!"waterway"] ∧ upper.source ∈ [b!"road", b!"rail", b!"building"]) ∨
  (lower.id ∈ [b!"road_back", b!"road"] ∧ upper.source ∈ [b!"rail", b!"building"])

/-- Whatever the features are: both styles paint in this order. -/
theorem C85_order {style : List StyleLayer} (hst : ShippedStyle style) : style.Pairwise fun first second => ¬ Under second first := by
  cases hst <;> simp [styleDefault, styleBackground, styleBase, Spec.Under]

section
variable {W : WorldSetting} {t : Tables} {e : Int} {g : ℝ} {data : List Datum} {pts : Set Pt}

/-- Up to the client, with a coastline: whatever a client reads in a tile is sea and painted as sea, or an object of the file and painted as its tags say. -/
theorem C85_world (hS : W.Ok t e g) (hD : W.Fits data) (hmany : data.length < 2 ^ 31) (hC : W.CoastFits pts) (runs : List (List String))
    (hacts : changes runs = [.load true true, .pack, .tiles]) (a b : TileDb MetaTable) (hr : Imports (importParts (W.env data)) runs a b) (hsmall : SmallPacks b.features)
    (hsize : b.pf.reopen.size < 2 ^ 64) (features : List (UInt64 × Bytes)) (hdb : EntriesOf b.features features) (ctx : GetCtx)
    (hctx : makeRenderCtx W.base (preparedString b.maxPrepared) b.info = .ok ctx)
    {style : List StyleLayer} (hst : ShippedStyle style) {zoom : ℚ} (hzoom : 0 ≤ zoom) (above : Bytes → Nat → Bool) :
    ∃ cs sea, CoastLoads W.lib W.polys W.coastWorkers cs sea ∧ ∀ q : Tile, q.Valid → q.z ≤ 20 → W.ShortLines data ctx q →
      10 ≤ q.z ∨ InArea (dbBounds (features.map (·.1))) q ∨ (∃ t ∈ sea, AncOrSelf t q) ∨ (∀ t ∈ sea, ¬ AncOrSelf q t) →
      ∃ bytes layers, getTile b.tiles features b.pf.reopen ctx q = .ok (if bytes = [] then none else some (ctx.encode bytes)) ∧
        (bytes.length < 2 ^ 32 → clientTile bytes = some layers) ∧
        ∀ L ∈ layers, ∀ c ∈ L.features,
          (((∃ t ∈ sea, AncOrSelf t q ∨ AncOrSelf q t) ∨ ∃ x ∈ cs, Shows q x.feature ∧ c.id = x.feature.id) ∧
            paintedBy style zoom above L.name c.type c.tags = [b!"coastline"] ∧ wrongColour style zoom above L.name c.type c.tags = false) ∨
          ∃ d ∈ data, (c.id : Int) = d.id % 2 ^ 64 ∧ c.type = d.type ∧ PaintedAs style zoom above W.profile (tagValue d.tags) L.name c.type c.tags := by
  obtain ⟨cs, sea, h1, h2⟩ := C69_served hS hD hmany hC runs hacts a b hr hsmall hsize features hdb ctx hctx
  refine ⟨cs, sea, h1, fun q hv hz hshort hwhere => ?_⟩
  obtain ⟨bytes, layers, _, _, k1, k2, _, _, k3, _⟩ := h2 q hv hz hshort hwhere
  refine ⟨bytes, layers, k1, fun h => (k2 h).1, fun L hL c hc => ?_⟩
  rcases ((k3 L hL).2.2.2 c hc).2 with ⟨m1, m2, _, m3⟩ | ⟨d, hd, r, hrule, hname, hid, htype, htags, _⟩
  · left
    rw [m1, m2]
    exact ⟨m3, (C85_coast hst hzoom above c.tags).1, (C85_coast hst hzoom above c.tags).2.1⟩
  · right
    refine ⟨d, hd, hid, htype, ?_⟩
    have := C85_fits hS.shipped d.shape hrule htags hst hzoom above
    have hty : shapeType d.shape = c.type := by
      rw [htype]
      unfold shapeType Datum.type
      cases d.shape <;> rfl
    rw [hty, ← hname] at this
    exact this

end

/-! ### examples -/

/-- what a style paints of an object with some tags, and whether in a wrong colour -/
def C85_run (t : Tables) (style : List StyleLayer) (zoom : ℚ) (tags : List (Bytes × Bytes)) (shape : OsmShape XY) : Option (List Bytes × Bool) :=
  (decideBy (t.of shape) (tagValue tags)).map fun r =>
    let shown := r.shown fromCharsI64 Int.toNat (tagValue tags)
    (paintedBy style zoom (fun _ _ => false) r.layer (shapeType shape) shown, wrongColour style zoom (fun _ _ => false) r.layer (shapeType shape) shown)

/-- a platform of a station, as an area, with the profile "full": the default style paints it magenta -/
example : C85_run fullTables styleDefault 14 [(b!"public_transport", b!"platform")] (.area []) = some ([b!"landuse"], true) := by decide +kernel
example : C85_run fullTables styleDefault 14 [(b!"landuse", b!"forest")] (.area []) = some ([b!"landuse"], false) := by decide +kernel
/-- a building site is stored and not painted -/
example : C85_run fullTables styleDefault 14 [(b!"landuse", b!"construction")] (.area []) = some ([], false) := by decide +kernel
/-- a primary road at zoom level 10 has no shield, a secondary one has -/
example : C85_run fullTables styleDefault 10 [(b!"highway", b!"primary"), (b!"ref", b!"B 26")] (.way []) = some ([b!"road_back", b!"road"], false) := by decide +kernel
example : C85_run fullTables styleDefault 10 [(b!"highway", b!"secondary"), (b!"ref", b!"L 3094")] (.way []) = some ([b!"road_back", b!"road", b!"road-ref-shield"], false) := by decide +kernel
example : C85_run backgroundTables styleBackground (21/2) [(b!"railway", b!"tram"), (b!"service", b!"yard")] (.way []) = some ([b!"rail_detail"], false) := by decide +kernel
example : C85_run fullTables styleDefault 5 [(b!"place", b!"city"), (b!"name", b!"Darmstadt")] (.node none) = some ([b!"cities"], false) := by decide +kernel
example : C85_run fullTables styleBackground 10 [(b!"place", b!"village"), (b!"name", b!"Wixhausen")] (.node none) = some ([], false) := by decide +kernel
example : C85_run fullTables styleBackground 11 [(b!"place", b!"village"), (b!"name", b!"Wixhausen")] (.node none) = some ([b!"towns"], false) := by decide +kernel

/-- the hypotheses of the theorems hold for the platform -/
example : ∃ r, Shipped fullProfile fullTables ∧ ShippedStyle styleDefault ∧ decideBy (fullTables.of (.area ([] : List (AreaItem XY)))) (tagValue [(b!"public_transport", b!"platform")]) = some r ∧
    r.layer = b!"landuse" ∧ (r.shown fromCharsI64 Int.toNat (tagValue [(b!"public_transport", b!"platform")])) = [(b!"landuse", .str b!"public_transport")] :=
  ⟨⟨b!"landuse", byArea 12 10 8, [.const b!"landuse" b!"public_transport", .number b!"level"]⟩, .full, .default, rfl, rfl, rfl⟩

/-- the run of C68, from the file to the server: the client writes the name of the city, at every zoom level of the map, and nothing else -/
example (a : TileDb MetaTable) (zoom : ℚ) (hzoom : 0 ≤ zoom) (style : List StyleLayer) (hst : ShippedStyle style) :
    ∃ (b : TileDb MetaTable) (ctx : GetCtx), Imports (importParts (osmDemo.env osmDemoData)) [["features", "pack", "tiles"]] a b ∧
    makeRenderCtx osmDemo.base (preparedString b.maxPrepared) b.info = .ok ctx ∧
    ∀ features, EntriesOf b.features features → ∃ bytes layers, getTile b.tiles features b.pf.reopen ctx ⟨2560, 2560, 12⟩ = .ok (if bytes = [] then none else some (ctx.encode bytes)) ∧
      (bytes.length < 2 ^ 32 → clientTile bytes = some layers) ∧ ∃ L ∈ layers, ∃ c ∈ L.features, c.id = 7 ∧
        paintedBy style zoom (fun _ _ => false) L.name c.type c.tags = [b!"cities"] := by
  obtain ⟨b, ctx, h1, h2, h3⟩ := osmDemo_client a
  refine ⟨b, ctx, h1, h2, fun features hdb => ?_⟩
  obtain ⟨bytes, layers, k1, k2, L, k3, k4, c, k5, k6, k7, k8, _⟩ := h3 features hdb
  refine ⟨bytes, layers, k1, k2, L, k3, c, k5, k6, ?_⟩
  have hp : c.tags.Perm (RuleOut.shown osmDemo.numeral osmDemo.prof.toDouble (tagValue osmDemoCity.tags) ⟨b!"cities", fromLevel 5, placeAttrs⟩) := by
    refine k8.trans (.of_eq ?_)
    decide +kernel
  have := (C85_fits .full osmDemoCity.shape osmDemo_rule hp hst hzoom (fun _ _ => false)).place rfl
  rw [k4, k7]
  refine (this.1 (by decide +kernel)).trans ?_
  rw [if_pos ⟨_, _, rfl⟩]

end Tiles
