import Mathlib.Data.List.TakeWhile
import Verif.Proof.ProfileCases
import Verif.Props.C50
import Verif.Props.C63
/-! C66 — what the two profiles that come with the program make of OSM objects. -/
namespace Tiles
open Spec

/-- the two profiles that come with the program, and their tables -/
inductive Spec.Shipped : LuaProfile → Tables → Prop
  | full : Shipped fullProfile fullTables
  | background : Shipped backgroundProfile backgroundTables

/-- the stored feature is the one a rule describes; `names` are the layer names of the database -/
structure Spec.StoredBy {L : Type} (ctx : ProfileCtx L) (numeral : Bytes → Option Int) (names : List Bytes) (r : RuleOut) (o : OsmObj L) (f : Feature) : Prop where
  id : (f.id : Int) = o.id % 2 ^ 64
  layer : names[f.layer]? = some r.layer
  first : levelFor (areaOf ctx o) r.zoom = some f.zmin
  last : f.zmax = 21
  attrs : ∀ m, m ∈ f.metas ↔ ∃ a ∈ r.attributes numeral (tagValue o.tags), m = ⟨a.1, a.2.stored ctx.toDouble⟩
  keys : (f.metas.map (·.key)).Nodup
  geometry : readOsm ctx.conv o.shape = .ok f.geometry

section
variable {p : LuaProfile} {t : Tables}

theorem shipped_matches (hs : Shipped p t) {L : Type} (numeral : Bytes → Option Int) (tags : List (Bytes × Bytes)) (shape : OsmShape L) :
    Matches numeral tags ((p.body shape).exec numeral tags).1 (decideBy (t.of shape) (tagValue tags)) := by
  cases hs <;> cases shape
  · exact table_fullNode numeral tags
  · exact table_fullWay numeral tags
  · exact table_fullArea numeral tags
  · exact table_backgroundNode numeral tags
  · exact table_backgroundWay numeral tags
  · exact table_backgroundArea numeral tags

theorem decideBy_mem {table : List Rule} {v : Tags} {r : RuleOut} (h : decideBy table v = some r) : r ∈ table.filterMap (·.out) := by
  unfold decideBy at h
  split at h
  · rename_i x hx
    exact List.mem_filterMap.2 ⟨x, List.mem_of_find?_eq_some hx, h⟩
  · cases h

/-- all rules of a profile -/
def allRules (t : Tables) : List RuleOut := (t.nodes ++ t.ways ++ t.areas).filterMap (·.out)

theorem decideBy_rules {L : Type} {shape : OsmShape L} {v : Tags} {r : RuleOut} (h : decideBy (t.of shape) v = some r) : r ∈ allRules t := by
  have := decideBy_mem h
  unfold allRules
  rw [List.filterMap_append, List.filterMap_append, List.mem_append, List.mem_append]
  cases shape
  · exact .inl (.inl this)
  · exact .inl (.inr this)
  · exact .inr this

/-- the keys a rule for attributes can give -/
def attrKeys : AttrRule → List Bytes
  | .const k _ => [k]
  | .copy k => [k]
  | .number k => [k]
  | .levels => [b!"from_level", b!"to_level"]

theorem attrKeys_sub (numeral : Bytes → Option Int) (v : Tags) (a : AttrRule) : ((a.attrs numeral v).map (·.1)).Sublist (attrKeys a) := by
  cases a with
  | const k x => exact List.Sublist.refl _
  | copy k =>
    simp only [AttrRule.attrs, attrKeys]
    split <;> simp
  | number k =>
    simp only [AttrRule.attrs, attrKeys]
    split
    · split <;> simp
    · simp
  | levels =>
    simp only [AttrRule.attrs, attrKeys]
    split
    · simp
    · split
      · simp
      · split <;> simp

theorem attributes_keys (numeral : Bytes → Option Int) (v : Tags) (l : List AttrRule) :
    ((l.flatMap (AttrRule.attrs numeral v)).map (·.1)).Sublist (l.flatMap attrKeys) := by
  induction l with
  | nil => simp
  | cons a l ih =>
    rw [List.flatMap_cons, List.flatMap_cons, List.map_append]
    exact (attrKeys_sub numeral v a).append ih

/-- what is checked of every rule of the tables -/
def ruleFine (r : RuleOut) : Bool :=
  decide ((r.attrs.flatMap attrKeys).Nodup) && decide (r.layer ∈ [b!"cities", b!"region", b!"indoor", b!"road", b!"rail", b!"waterway", b!"building", b!"landuse",
    b!"construction", b!"water", b!"pedestrian", b!"sport"]) && r.zoom.all (fun z => decide (z.1 ≤ 18)) && (r.zoom.getLast?.map (·.2) == some none)

theorem rules_fine (hs : Shipped p t) : ∀ r ∈ allRules t, ruleFine r = true := by
  cases hs
  · decide +kernel
  · decide +kernel

theorem levelFor_total (area : Int) : ∀ (l : List (Nat × Option Int)), l.getLast?.map (·.2) = some none → ∃ z, levelFor area l = some z ∧ z ∈ l.map (·.1)
  | [], h => by cases h
  | (z, none) :: l, _ => ⟨z, rfl, by simp⟩
  | (z, some b) :: l, h => by
    rw [levelFor]
    split
    · exact ⟨z, rfl, by simp⟩
    · cases l with
      | nil => cases h
      | cons x l =>
        obtain ⟨y, h1, h2⟩ := levelFor_total area (x :: l) (by simpa [List.getLast?_cons_cons] using h)
        exact ⟨y, h1, by rw [List.map_cons]; exact .tail _ h2⟩

end

section
variable {L : Type} (ctx : ProfileCtx L) (numeral : Bytes → Option Int) {tags : List (Bytes × Bytes)}

theorem approval_none {o : OsmObj L} {c : PfCall} (h : approves c = false) : approval ctx o c = none := by
  cases c <;> first | rfl | cases h

theorem filterMap_approval (o : OsmObj L) (cs : List PfCall) : cs.filterMap (approval ctx o) = (cs.filter approves).filterMap (approval ctx o) := by
  induction cs with
  | nil => rfl
  | cons c cs ih =>
    cases h : approves c with
    | false => rw [List.filter_cons_of_neg (by simp [h]), List.filterMap_cons_none (approval_none ctx h), ih]
    | true => rw [List.filter_cons_of_pos h, List.filterMap_cons, List.filterMap_cons, ih]

theorem zoomCall_approval {c : PfCall} {l : List (Nat × Option Int)} (h : ZoomCall c l) (o : OsmObj L) :
    approval ctx o c = (levelFor (areaOf ctx o) l).map (fun z => (z, 21)) := by
  cases h with
  | min z => rfl
  | area args l heven hlen h =>
    rw [approval, ← h, Option.map_map]
    rfl

theorem zoomCall_fails {c : PfCall} {l : List (Nat × Option Int)} (h : ZoomCall c l) (o : OsmObj L) (hr : readOsm ctx.conv o.shape ≠ .throw_) : fails ctx o c = false := by
  cases h with
  | min z => rfl
  | area args l heven hlen h =>
    unfold fails
    cases hg : readOsm ctx.conv o.shape with
    | throw_ => exact absurd hg hr
    | _ => simp [heven]

theorem fails_approves {o : OsmObj L} {c : PfCall} (h : fails ctx o c = true) : approves c = true := by
  cases c <;> first | rfl | cases h

theorem takeWhile_every {α : Type} {f : α → Bool} : ∀ {l : List α}, (∀ x ∈ l, f x = true) → l.takeWhile f = l
  | [], _ => rfl
  | x :: l, h => by rw [List.takeWhile_cons, h x (.head _), if_pos rfl, takeWhile_every (fun y hy => h y (.tail _ hy))]

theorem matches_counting {o : OsmObj L} {out : Option RuleOut} (h : Matches numeral tags o.calls out) (hr : readOsm ctx.conv o.shape ≠ .throw_) : counting ctx o = o.calls := by
  refine takeWhile_every fun c hc => ?_
  cases hf : fails ctx o c with
  | false => rfl
  | true =>
    have hm : c ∈ o.calls.filter approves := List.mem_filter.2 ⟨hc, fails_approves ctx hf⟩
    cases out with
    | none => rw [show o.calls.filter approves = [] from h] at hm; cases hm
    | some r =>
      obtain ⟨c', h1, h2⟩ := h.zoom
      rw [h1, List.mem_singleton] at hm
      subst hm
      rw [zoomCall_fails ctx h2 o hr] at hf
      cases hf

/-- what the calls say, in the words of C50 -/
theorem matches_none {o : OsmObj L} (h : Matches numeral o.tags o.calls none) (hr : readOsm ctx.conv o.shape ≠ .throw_) : zoomOf ctx o = none := by
  rw [zoomOf, matches_counting ctx numeral h hr, filterMap_approval, show o.calls.filter approves = [] from h]
  rfl

theorem matches_says {o : OsmObj L} {r : RuleOut} (h : Matches numeral o.tags o.calls (some r)) (hr : readOsm ctx.conv o.shape ≠ .throw_) :
    zoomOf ctx o = (levelFor (areaOf ctx o) r.zoom).map (fun z => (z, 21)) ∧ layerName ctx o = r.layer ∧
        ∀ m, m ∈ added ctx o ↔ m ∈ metasOf ctx.toDouble (r.attributes numeral (tagValue o.tags)) := by
  have hc := matches_counting ctx numeral h hr
  obtain ⟨⟨c, h1, h2⟩, h3, h4⟩ := h
  refine ⟨?_, ?_, ?_⟩
  · rw [zoomOf, hc, filterMap_approval, h1, ← zoomCall_approval ctx h2]
    cases hz : approval ctx o c <;> simp [hz]
  · rw [layerName, hc, h3]; rfl
  · intro m
    rw [added, hc]
    exact h4 ctx o rfl m

theorem onePerKey_exact {all all' metas : List Meta} (h : OnePerKey all metas) (hm : ∀ m, m ∈ all ↔ m ∈ all') (hk : (all'.map (·.key)).Nodup) (m : Meta) :
    m ∈ metas ↔ m ∈ all' := by
  constructor
  · intro h1; exact (hm m).1 (h.least m h1).1
  · intro h1
    have h2 : m.key ∈ metas.map (·.key) := (h.keys m.key).2 (List.mem_map.2 ⟨m, (hm m).2 h1, rfl⟩)
    obtain ⟨e, h3, h4⟩ := List.mem_map.1 h2
    have h5 := (hm e).1 (h.least e h3).1
    have : e = m := (List.inj_on_of_nodup_map hk) h5 h1 h4
    exact this ▸ h3

end

section
variable {p : LuaProfile} {t : Tables} {L : Type} (ctx : ProfileCtx L) (numeral : Bytes → Option Int)

/-- What the profiles make of an object, whatever its tags: the first rule of the table that holds for the tags decides — whether the object is stored (if
it has a geometry), on which layer, from which zoom level on (to the last one), and with exactly which attributes. -/
theorem C66_stored (hs : Shipped p t) (id : Int) (tags : List (Bytes × Bytes)) (shape : OsmShape L) (hub : Fine ctx (p.object numeral id tags shape))
    (hr : readOsm ctx.conv shape ≠ .throw_) :
    (decideBy (t.of shape) (tagValue tags) = none → pendingFeature ctx (p.object numeral id tags shape) = .ok none) ∧
    (readOsm ctx.conv shape = .ok .null → pendingFeature ctx (p.object numeral id tags shape) = .ok none) ∧
    (∀ r g, decideBy (t.of shape) (tagValue tags) = some r → readOsm ctx.conv shape = .ok g → g ≠ .null →
      ∃ f, pendingFeature ctx (p.object numeral id tags shape) = .ok (some (r.layer, f)) ∧
        ∀ names i, names[i]? = some r.layer → StoredBy ctx numeral names r (p.object numeral id tags shape) { f with layer := i }) := by
  have hm : ∀ out, decideBy (t.of shape) (tagValue tags) = out → Matches numeral (p.object numeral id tags shape).tags (p.object numeral id tags shape).calls out :=
    fun out h => h ▸ shipped_matches hs numeral tags shape
  have hnone := fun hd => matches_none ctx numeral (hm none hd) hr
  have hsome := fun r hd => matches_says ctx numeral (hm (some r) hd) hr
  obtain ⟨c1, c2, c3, c4, c5⟩ := C50_object ctx _ hub
  have hfine : ∀ r, decideBy (t.of shape) (tagValue tags) = some r → zoomOf ctx (p.object numeral id tags shape) ≠ none ∧
      layerName ctx (p.object numeral id tags shape) = r.layer ∧ r.layer ≠ [] := by
    intro r hd
    obtain ⟨h1, h2, h3⟩ := hsome r hd
    have hf := rules_fine hs r (decideBy_rules hd)
    unfold ruleFine at hf
    simp only [Bool.and_eq_true, decide_eq_true_eq] at hf
    obtain ⟨z, hz, _⟩ := levelFor_total (areaOf ctx (p.object numeral id tags shape)) r.zoom (by simpa using hf.2)
    refine ⟨by rw [h1, hz]; simp, h2, ?_⟩
    intro hc
    have := hf.1.1.2
    rw [hc] at this
    revert this
    decide
  refine ⟨fun hd => ?_, fun hn => ?_, fun r g hd hg hn => ?_⟩
  · exact c1 (hnone hd)
  · cases hd : decideBy (t.of shape) (tagValue tags) with
    | none => exact c1 (hnone hd)
    | some r =>
      obtain ⟨h1, h2, h3⟩ := hfine r hd
      exact c4 h1 (by rw [h2]; exact h3) hn
  · obtain ⟨h1, h2, h3⟩ := hfine r hd
    obtain ⟨f, hf, hd'⟩ := c5 g h1 (by rw [h2]; exact h3) hg hn
    rw [h2] at hf
    refine ⟨f, hf, fun names i hi => ?_⟩
    have hde := hd' names i (by rw [h2]; exact hi)
    obtain ⟨s1, s2, s3⟩ := hsome r hd
    have hfi := rules_fine hs r (decideBy_rules hd)
    unfold ruleFine at hfi
    simp only [Bool.and_eq_true, decide_eq_true_eq] at hfi
    have hkeys : ((metasOf ctx.toDouble (r.attributes numeral (tagValue tags))).map (·.key)).Nodup := by
      rw [metasOf, List.map_map]
      exact (attributes_keys numeral (tagValue tags) r.attrs).nodup hfi.1.1.1
    have hz := hde.zoom
    rw [s1] at hz
    cases hl : levelFor (areaOf ctx (p.object numeral id tags shape)) r.zoom with
    | none => rw [hl] at hz; cases hz
    | some z =>
      rw [hl] at hz
      injection hz with hz
      injection hz with z1 z2
      refine ⟨hde.id, hi, by rw [hl, z1], z2.symm, fun m => ?_, ?_, hde.geometry⟩
      · rw [onePerKey_exact hde.metas s3 hkeys m, metasOf, List.mem_map]
        constructor
        · rintro ⟨a, h1, h2⟩; exact ⟨a, h1, h2.symm⟩
        · rintro ⟨a, h1, h2⟩; exact ⟨a, h1, h2.symm⟩
      · have := hde.metas.sorted
        rw [List.nodup_iff_pairwise_ne]
        exact this.imp (fun h => h.2)

/-! ### nothing in the tags of an object stops the import -/

/-- the function never asks for an area -/
def noArea : LuaStmt → Bool
  | .skip => true
  | .seq a b => noArea a && noArea b
  | .call (.approvedMinByArea _) => false
  | .call _ => true
  | .ite _ t e => noArea t && noArea e
  | .levels => true

theorem noArea_exec (tags : List (Bytes × Bytes)) : ∀ s, noArea s = true → ∀ args, .approvedMinByArea args ∉ (LuaStmt.exec numeral tags s).1 := by
  intro s
  induction s with
  | skip => intro _ args h; cases h
  | seq a b iha ihb =>
    intro h args hm
    rw [noArea, Bool.and_eq_true] at h
    rw [LuaStmt.exec] at hm
    split at hm
    · rcases List.mem_append.1 hm with hm | hm
      · exact iha h.1 args hm
      · exact ihb h.2 args hm
    · exact iha h.1 args hm
  | call c =>
    intro h args hm
    rw [exec_call, List.mem_singleton] at hm
    subst hm
    cases h
  | ite c t e iht ihe =>
    intro h args hm
    rw [noArea, Bool.and_eq_true] at h
    rw [exec_ite] at hm
    split at hm
    · exact iht h.1 args hm
    · exact ihe h.2 args hm
  | levels =>
    intro _ args hm
    have h : PfCall.approvedMinByArea args ∈ (levelCalls numeral tags).1.filter approves := List.mem_filter.2 ⟨hm, rfl⟩
    rw [levelCalls_approves] at h
    cases h

/-- Nodes and ways need no hypothesis: the profiles never ask for their area (which would not survive for a node: C63_node_area). -/
theorem C66_fine (hs : Shipped p t) (id : Int) (tags : List (Bytes × Bytes)) (shape : OsmShape L) (hshape : ∀ items, shape ≠ .area items) :
    Fine ctx (p.object numeral id tags shape) ∧ readOsm ctx.conv shape ≠ .throw_ := by
  have h : noArea (p.body shape) = true ∧ readOsm ctx.conv shape ≠ .throw_ ∧ readOsm ctx.conv shape ≠ .ub := by
    cases shape with
    | node l => refine ⟨?_, by simp [readOsm], by simp [readOsm]⟩; cases hs <;> rfl
    | way l => refine ⟨?_, by simp [readOsm], by simp [readOsm]⟩; cases hs <;> rfl
    | area items => exact absurd rfl (hshape items)
  exact ⟨⟨h.2.2, fun args hc => absurd hc (noArea_exec numeral tags _ h.1 args)⟩, h.2.1⟩

/-- For areas the area has to be defined: C63 says when it is. -/
theorem C66_fine_area {fl : ℚ → ℚ} (hfl : ExactSmall fl) (hacc : Accurate fl) (harea : ctx.area = geometryArea fl) (id : Int)
    (tags : List (Bytes × Bytes)) (items : List (AreaItem L)) (hread : readOsm ctx.conv (.area items) ≠ .ub)
    (hpoly : ∀ ps, readOsm ctx.conv (.area items) = .ok (.polygon ps) → ∀ N : Nat, ((ringsOf ps).map (fun r => r.length + 1)).sum = N →
      (∀ r ∈ ringsOf ps, r.head? = r.getLast? ∧ ∀ q ∈ r, InStrip 0 (2 ^ 32) q) ∧ N ≤ 2 ^ 50 ∧ |areaTwice ps| + 28 * N ^ 2 * 2 ^ 12 < 2 ^ 64) :
    Fine ctx (p.object numeral id tags (.area items)) := by
  refine C63_fine hfl hacc ctx harea _ hread (fun pts h => ?_) hpoly
  exfalso
  change readOsmArea ctx.conv items = _ at h
  unfold readOsmArea at h
  obtain ⟨x, _, hx⟩ := Res.bind_eq_ok.1 h
  split at hx <;> cases hx

theorem rule_layer (hs : Shipped p t) {shape : OsmShape L} {v : Tags} {r : RuleOut} (hd : decideBy (t.of shape) v = some r) : r.layer ≠ [] := by
  have hf := rules_fine hs r (decideBy_rules hd)
  unfold ruleFine at hf
  simp only [Bool.and_eq_true, decide_eq_true_eq] at hf
  intro hc
  have := hf.1.1.2
  rw [hc] at this
  revert this
  decide

/-- No tags stop the import: whatever they are, an object with a readable geometry is stored or left out. -/
theorem C66_no_abort (hs : Shipped p t) (id : Int) (tags : List (Bytes × Bytes)) (shape : OsmShape L) (hub : Fine ctx (p.object numeral id tags shape))
    (hr : readOsm ctx.conv shape ≠ .throw_) : ∃ x, pendingFeature ctx (p.object numeral id tags shape) = .ok x := by
  obtain ⟨h1, h2, h3⟩ := C66_stored ctx numeral hs id tags shape hub hr
  cases hd : decideBy (t.of shape) (tagValue tags) with
  | none => exact ⟨_, h1 hd⟩
  | some r =>
    cases hg : readOsm ctx.conv shape with
    | throw_ => exact absurd hg hr
    | ub => exact absurd hg hub.reads
    | ok g =>
      by_cases hn : g = .null
      · subst hn; exact ⟨_, h2 hg⟩
      · obtain ⟨f, hf, _⟩ := h3 r g hd hg hn
        exact ⟨_, hf⟩

/-- A rule of the tables for areas with one zoom level only -/
theorem indoor_rule (hs : Shipped p t) {v : Tags} {r : RuleOut} (hd : decideBy t.areas v = some r) : r.zoom.length = 1 ↔ r.layer = b!"indoor" := by
  have hm := decideBy_mem hd
  have : ∀ r ∈ t.areas.filterMap (·.out), (r.zoom.length = 1 ↔ r.layer = b!"indoor") := by
    cases hs
    · decide +kernel
    · decide +kernel
  exact this r hm

/-- An area whose rings cannot be read (an inner ring before any outer one: C44) is left out — the profile asks for its area first, and the exception ends the script.  But a
room (`indoor`) is approved without asking: there the exception leaves the handler, and ends the import. -/
theorem C66_unreadable (hs : Shipped p t) (id : Int) (tags : List (Bytes × Bytes)) (items : List (AreaItem L)) (hr : readOsm ctx.conv (.area items) = .throw_) :
    pendingFeature ctx (p.object numeral id tags (.area items)) =
      if (decideBy t.areas (tagValue tags)).map (·.layer) = some b!"indoor" then .throw_ else .ok none := by
  let o := p.object numeral id tags (.area items)
  have hrd : readOsm ctx.conv o.shape = .throw_ := hr
  have hub : Fine ctx o := ⟨by rw [hrd]; simp, fun args _ _ g hg => by rw [hrd] at hg; cases hg⟩
  obtain ⟨c1, c2, c3, c4, c5⟩ := C50_object ctx o hub
  have hm : Matches numeral o.tags o.calls (decideBy t.areas (tagValue tags)) := shipped_matches hs numeral tags (.area items)
  change pendingFeature ctx o = _
  cases hd : decideBy t.areas (tagValue tags) with
  | none =>
    rw [hd] at hm
    rw [if_neg (by simp)]
    refine c1 ?_
    have h0 : (counting ctx o).filterMap (approval ctx o) = [] := by
      rw [filterMap_approval, List.filterMap_eq_nil_iff]
      intro c hc
      have : c ∈ o.calls.filter approves := List.mem_filter.2 ⟨(List.takeWhile_prefix _).subset (List.mem_filter.1 hc).1, (List.mem_filter.1 hc).2⟩
      rw [show o.calls.filter approves = [] from hm] at this
      cases this
    rw [zoomOf, h0]; rfl
  | some r =>
    rw [hd] at hm
    obtain ⟨⟨c, h1, h2⟩, h3, h4⟩ := hm
    have hi := indoor_rule hs hd
    generalize hzz : r.zoom = zz at h2
    cases h2 with
    | min z =>
      have hl : r.layer = b!"indoor" := hi.1 (by rw [hzz]; rfl)
      rw [Option.map_some, hl, if_pos rfl]
      have hcount : counting ctx o = o.calls := by
        refine takeWhile_every fun c' hc' => ?_
        cases hf : fails ctx o c' with
        | false => rfl
        | true =>
          have : c' ∈ o.calls.filter approves := List.mem_filter.2 ⟨hc', fails_approves ctx hf⟩
          rw [h1, List.mem_singleton] at this
          subst this
          cases hf
      refine c3 ?_ ?_ hr
      · rw [zoomOf, hcount, filterMap_approval, h1]
        simp [approval]
      · rw [layerName, hcount, h3]
        exact rule_layer (L := L) (shape := .area items) hs hd
    | area args l heven hlen h =>
      rw [if_neg]
      · refine c1 ?_
        have h0 : (counting ctx o).filterMap (approval ctx o) = [] := by
          rw [filterMap_approval, List.filterMap_eq_nil_iff]
          intro c' hc'
          obtain ⟨h5, h6⟩ := List.mem_filter.1 hc'
          have : c' ∈ o.calls.filter approves := List.mem_filter.2 ⟨(List.takeWhile_prefix _).subset h5, h6⟩
          rw [h1, List.mem_singleton] at this
          subst this
          have h7 := List.mem_takeWhile_imp h5
          simp [fails, hrd] at h7
        rw [zoomOf, h0]; rfl
      · rw [Option.map_some]
        intro hc
        injection hc with hc
        have := hi.2 hc
        rw [hzz] at this
        omega

/-! ### what can be stored at all -/

theorem stored_rule (hs : Shipped p t) (id : Int) (tags : List (Bytes × Bytes)) (shape : OsmShape L) (hub : Fine ctx (p.object numeral id tags shape)) {n : Bytes} {f : Feature}
    (h : pendingFeature ctx (p.object numeral id tags shape) = .ok (some (n, f))) :
    ∃ r, decideBy (t.of shape) (tagValue tags) = some r ∧ n = r.layer ∧ levelFor (areaOf ctx (p.object numeral id tags shape)) r.zoom = some f.zmin ∧ f.zmax = 21 ∧
      (∀ m, m ∈ f.metas ↔ ∃ a ∈ r.attributes numeral (tagValue tags), m = ⟨a.1, a.2.stored ctx.toDouble⟩) := by
  have hr : readOsm ctx.conv shape ≠ .throw_ := by
    intro hc
    cases shape with
    | node l => cases hc
    | way l => cases hc
    | area items =>
      rw [C66_unreadable ctx numeral hs id tags items hc] at h
      split at h <;> cases h
  obtain ⟨h1, h2, h3⟩ := C66_stored ctx numeral hs id tags shape hub hr
  cases hd : decideBy (t.of shape) (tagValue tags) with
  | none => rw [h1 hd] at h; cases h
  | some r =>
    cases hg : readOsm ctx.conv shape with
    | throw_ => exact absurd hg hr
    | ub => exact absurd hg hub.reads
    | ok g =>
      by_cases hn : g = .null
      · subst hn; rw [h2 hg] at h; cases h
      · obtain ⟨f', hf, hst⟩ := h3 r g hd hg hn
        rw [hf] at h
        injection h with h
        injection h with h
        injection h with e1 e2
        subst e1 e2
        have s := hst [r.layer] 0 rfl
        exact ⟨r, rfl, rfl, s.first, s.last, s.attrs⟩

/-- The layers, and the zoom levels: every feature is stored on one of twelve layers, from one of the levels up to 18 on, up to the last one. -/
theorem C66_range (hs : Shipped p t) (id : Int) (tags : List (Bytes × Bytes)) (shape : OsmShape L) (hub : Fine ctx (p.object numeral id tags shape)) {n : Bytes} {f : Feature}
    (h : pendingFeature ctx (p.object numeral id tags shape) = .ok (some (n, f))) :
    n ∈ [b!"cities", b!"region", b!"indoor", b!"road", b!"rail", b!"waterway", b!"building", b!"landuse", b!"construction", b!"water", b!"pedestrian", b!"sport"] ∧
      f.zmin ≤ 18 ∧ f.zmax = 21 := by
  obtain ⟨r, hd, hn, hz, hl, _⟩ := stored_rule ctx numeral hs id tags shape hub h
  have hf := rules_fine hs r (decideBy_rules hd)
  unfold ruleFine at hf
  simp only [Bool.and_eq_true, decide_eq_true_eq, List.all_eq_true] at hf
  refine ⟨hn ▸ hf.1.1.2, ?_, hl⟩
  obtain ⟨z, h1, h2⟩ := levelFor_total (areaOf ctx (p.object numeral id tags shape)) r.zoom (by simpa using hf.2)
  rw [hz] at h1
  injection h1 with h1
  subst h1
  obtain ⟨q, h3, h4⟩ := List.mem_map.1 h2
  rw [← h4]
  exact hf.1.2 q h3

theorem levelFor_mono {a b : Int} (hab : a ≤ b) : ∀ (l : List (Nat × Option Int)), l.Pairwise (fun x y => y.1 ≤ x.1) → ∀ x y, levelFor a l = some x → levelFor b l = some y → y ≤ x
  | [], _, x, y, h, _ => by cases h
  | (z, none) :: l, _, x, y, h1, h2 => by
    rw [levelFor] at h1 h2
    injection h1 with h1; injection h2 with h2
    omega
  | (z, some lim) :: l, hp, x, y, h1, h2 => by
    rw [levelFor] at h1 h2
    rw [List.pairwise_cons] at hp
    have hmem : ∀ (a : Int) l y, levelFor a l = some y → ∃ q ∈ l, q.1 = y := by
      intro a l
      induction l with
      | nil => intro y h; cases h
      | cons q l ih =>
        obtain ⟨z, lim⟩ := q
        intro y h
        cases lim with
        | none => rw [levelFor] at h; injection h with h; exact ⟨_, .head _, h⟩
        | some lim =>
          rw [levelFor] at h
          split at h
          · injection h with h; exact ⟨_, .head _, h⟩
          · obtain ⟨q, h1, h2⟩ := ih y h; exact ⟨q, .tail _ h1, h2⟩
    split at h2
    · rw [if_pos (by omega)] at h1
      injection h1 with h1; injection h2 with h2
      omega
    · split at h1
      · injection h1 with h1
        obtain ⟨q, h3, h4⟩ := hmem b l y h2
        have := hp.1 q h3
        dsimp only at this
        omega
      · exact levelFor_mono hab l hp.2 x y h1 h2

/-- Larger things are shown earlier: of two areas with the same tags the one with the larger area is shown from the same zoom level on, or from a lower one. -/
theorem C66_area_levels (hs : Shipped p t) (id id' : Int) (tags : List (Bytes × Bytes)) (items items' : List (AreaItem L))
    (hub : Fine ctx (p.object numeral id tags (.area items))) (hub' : Fine ctx (p.object numeral id' tags (.area items'))) {n n' : Bytes} {f f' : Feature}
    (h : pendingFeature ctx (p.object numeral id tags (.area items)) = .ok (some (n, f)))
    (h' : pendingFeature ctx (p.object numeral id' tags (.area items')) = .ok (some (n', f')))
    (harea : areaOf ctx (p.object numeral id tags (.area items)) ≤ areaOf ctx (p.object numeral id' tags (.area items'))) : f'.zmin ≤ f.zmin := by
  obtain ⟨r, hd, _, hz, _⟩ := stored_rule ctx numeral hs id tags _ hub h
  obtain ⟨r', hd', _, hz', _⟩ := stored_rule ctx numeral hs id' tags _ hub' h'
  change decideBy t.areas _ = _ at hd hd'
  rw [hd] at hd'
  injection hd' with e
  subst e
  have hp : ∀ r ∈ t.areas.filterMap (·.out), r.zoom.Pairwise (fun x y => y.1 ≤ x.1) := by
    cases hs
    · decide +kernel
    · decide +kernel
  exact levelFor_mono harea _ (hp r (decideBy_mem hd)) _ _ hz hz'

/-! ### findings -/

/-- The limits for water are in the wrong order (10^6 before 10^4), so the level between them is never used: water is shown from level 12 on, or — from an area of 10^6
units on, some 90 square metres at the equator — from level 0 on. -/
theorem C66_water (hs : Shipped p t) (id : Int) (tags : List (Bytes × Bytes)) (items : List (AreaItem L)) (hub : Fine ctx (p.object numeral id tags (.area items))) {f : Feature}
    (h : pendingFeature ctx (p.object numeral id tags (.area items)) = .ok (some (b!"water", f))) :
    f.zmin = if areaOf ctx (p.object numeral id tags (.area items)) < 10 ^ 6 then 12 else 0 := by
  obtain ⟨r, hd, hn, hz, _⟩ := stored_rule ctx numeral hs id tags _ hub h
  have hp : ∀ r ∈ t.areas.filterMap (·.out), r.layer = b!"water" → r.zoom = [(12, some (10 ^ 6)), (0, none)] := by
    cases hs
    · decide +kernel
    · decide +kernel
  rw [hp r (decideBy_mem hd) hn.symm, levelFor, levelFor] at hz
  split at hz
  · injection hz with hz; rw [if_pos (by assumption), hz]
  · injection hz with hz; rw [if_neg (by assumption), hz]

/-- Both profiles have a branch for old railways, and the style of the client draws them; but it is inside a test for railways in use, so nothing is ever stored as an old railway. -/
theorem C66_no_old_rail (hs : Shipped p t) (id : Int) (tags : List (Bytes × Bytes)) (shape : OsmShape L) (hub : Fine ctx (p.object numeral id tags shape)) {n : Bytes} {f : Feature}
    (h : pendingFeature ctx (p.object numeral id tags shape) = .ok (some (n, f))) : ∀ m ∈ f.metas, m.key = b!"rail" → m.value ≠ encodeString b!"old" := by
  obtain ⟨r, hd, _, _, _, hm⟩ := stored_rule ctx numeral hs id tags shape hub h
  intro m h1 h2 h3
  obtain ⟨a, h4, h5⟩ := (hm m).1 h1
  obtain ⟨rule, h6, h7⟩ := List.mem_flatMap.1 h4
  have hk : ∀ r ∈ allRules t, ∀ rule ∈ r.attrs, b!"rail" ∈ attrKeys rule →
      (match rule with | .const _ x => decide (x = b!"primary" ∨ x = b!"secondary" ∨ x = b!"detail") | _ => false) = true := by
    cases hs
    · decide +kernel
    · decide +kernel
  have h8 := hk r (decideBy_rules hd) rule h6 ((attrKeys_sub numeral (tagValue tags) rule).subset (by rw [← h2, h5]; exact List.mem_map.2 ⟨a, h7, rfl⟩))
  cases rule with
  | const k x =>
    rw [AttrRule.attrs, List.mem_singleton] at h7
    subst h7
    subst h5
    simp only [Attr.stored] at h3
    simp only [decide_eq_true_eq] at h8
    rcases h8 with h8 | h8 | h8 <;> subst h8 <;> revert h3 <;> decide
  | _ => cases h8

/-- Light railways and narrow gauge railways are on the map that `background.lua` makes, and not on the one that `full.lua` makes. -/
theorem C66_light_rail (id : Int) (nodes : List (Option L)) (x : Bytes) (hx : x = b!"light_rail" ∨ x = b!"narrow_gauge") :
    pendingFeature ctx (fullProfile.object numeral id [(b!"railway", x)] (.way nodes)) = .ok none ∧
    (∀ g, readOsm ctx.conv (.way nodes) = .ok g → g ≠ .null → ∃ f, pendingFeature ctx (backgroundProfile.object numeral id [(b!"railway", x)] (.way nodes)) = .ok (some (b!"rail", f)) ∧ f.zmin = 10) := by
  obtain ⟨hf, hr⟩ := C66_fine ctx numeral .full id [(b!"railway", x)] (.way nodes) (by simp)
  obtain ⟨hf', _⟩ := C66_fine ctx numeral .background id [(b!"railway", x)] (.way nodes) (by simp)
  refine ⟨(C66_stored ctx numeral .full id _ _ hf hr).1 ?_, fun g hg hn => ?_⟩
  · rcases hx with rfl | rfl <;> rfl
  · obtain ⟨f, h1, h2⟩ := (C66_stored ctx numeral .background id _ _ hf' hr).2.2 ⟨b!"rail", fromLevel 10, [.const b!"rail" b!"secondary"]⟩ g (by rcases hx with rfl | rfl <;> rfl) hg hn
    have := (h2 [b!"rail"] 0 rfl).first
    injection this with this
    exact ⟨f, h1, this.symm⟩

end
end Tiles
