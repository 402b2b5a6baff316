import Verif.Proof.OsmShape
import Verif.Props.C60
import Verif.Props.C64
import Verif.Props.C66
import Verif.Props.C67
/-
Loading, for C68: what is in the database and in the meta table when the objects of an OSM file were loaded with a shipped profile.
-/
namespace Tiles
open Spec

/-- data that the import accepts -/
structure Spec.GoodData (ctx : ProfileCtx LatLng) (p : LuaProfile) (numeral : Bytes → Option Int) (data : List Datum) : Prop where
  /-- reading geometries is defined, and so are areas where the profile asks for them (C66_fine: always for nodes and ways; C66_fine_area, C63) -/
  fine : ∀ d ∈ data, Fine ctx (p.object numeral d.id d.tags d.shape)
  /-- areas do not begin with an inner ring -/
  readable : ∀ d ∈ data, readOsm ctx.conv d.shape ≠ .throw_
  /-- places are on the map -/
  places : ∀ d ∈ data, ∀ l, some l ∈ shapeNodes d.shape → OnMap l
  /-- rings have four points or more (C52_small_rings_throw) -/
  rings : ∀ d ∈ data, ∀ ps, readOsm ctx.conv d.shape = .ok (.polygon ps) → ∀ p ∈ ps, ∀ r ∈ p.outer :: p.inners, 4 ≤ r.length
  /-- sizes -/
  texts : ∀ d ∈ data, ∀ kv ∈ d.tags, kv.2.length < 2 ^ 32 - 1
  small : ∀ d ∈ data, shapeSize d.shape < 2 ^ 32
  many : data.length < 2 ^ 32

/-! ### the settings of the server -/

theorem digitVal_decVal : ∀ (ds : Bytes) (a : Nat), ds.foldl (fun a c => a * 10 + (c.toNat - 48)) a = a * 10 ^ ds.length + decVal ds
  | [], a => by simp [decVal]
  | c :: ds, a => by
    rw [List.foldl_cons, digitVal_decVal ds, decVal, List.length_cons, pow_succ]
    ring

/-- `std::stoi` reads what `std::to_string` wrote -/
theorem stoi_toDec {n : Nat} (h : n < 2 ^ 31) : stoi (toDec n) = .ok n := by
  obtain ⟨h1, h2⟩ := toDec_spec n
  have hne : toDec n ≠ [] := by
    unfold toDec
    split
    · simp
    · rename_i hn
      simp [Nat.digits_ne_nil_iff_ne_zero.2 hn]
  cases hd : toDec n with
  | nil => exact absurd hd hne
  | cons c r =>
    rw [hd] at h1 h2
    have hc := h1 c (.head _)
    have hsp : isSpaceC c = false := by
      unfold isSpaceC
      simp
      omega
    have h45 : c ≠ 45 := by rintro rfl; revert hc; decide
    have h43 : c ≠ 43 := by rintro rfl; revert hc; decide
    have htake : (c :: r).takeWhile (fun c => 48 ≤ c.toNat && c.toNat ≤ 57) = c :: r :=
      takeWhile_every fun x hx => by have := h1 x hx; simp [this]
    have hdig : digitVal (c :: r) = n := by rw [digitVal, digitVal_decVal, h2]; simp
    have hdrop : (c :: r).dropWhile isSpaceC = c :: r := by rw [List.dropWhile_cons, hsp]; rfl
    unfold stoi
    rw [hdrop]
    simp only [List.head?_cons, Option.some.injEq, h45, h43, or_self, if_false, htake, hdig, reduceCtorEq]
    rw [if_pos (by omega)]

/-- what a shared metadata table and layer names give -/
theorem ctx_of {base : GetCtx} {max : Nat} (hmax : max < 2 ^ 31) {b1 b2 : Bytes} {names : List Bytes} {tbl : List Meta}
    (h1 : loadLayerNames (some b1) = .ok names) (h2 : loadSharedMetadata (some b2) = .ok tbl) :
    makeRenderCtx base (preparedString (some max)) ⟨none, some b1, some b2⟩ =
      .ok { base with maxPrepared := max, seaside := [kEmptyRoot], layerNames := names, dec := tbl, ignorePrepared := false, ignoreSeaside := false,
                      label := none, aggLines := false, aggPolygons := false, dropSubpixel := true } := by
  unfold makeRenderCtx preparedString
  simp only [Option.map_some]
  rw [stoi_toDec hmax, Res.ok_bind, Res.ok_bind, h1, Res.ok_bind, h2, Res.ok_bind]
  rfl

/-! ### what is loaded -/

theorem onePerKey_unique {all m1 m2 : List Meta} (h1 : OnePerKey all m1) (h2 : OnePerKey all m2) : m1 = m2 := by
  have key : ∀ {a b : List Meta}, OnePerKey all a → OnePerKey all b → ∀ x ∈ a, x ∈ b := by
    intro a b ha hb x hx
    obtain ⟨y, hy, hk⟩ := List.mem_map.1 ((hb.keys x.key).2 ((ha.keys x.key).1 (List.mem_map.2 ⟨x, hx, rfl⟩)))
    have e1 := (ha.least x hx).2 y (hb.least y hy).1 hk
    have e2 := (hb.least y hy).2 x (ha.least x hx).1 hk.symm
    have : x = y := by
      cases x; cases y
      simp only [Meta.mk.injEq]
      exact ⟨hk.symm, bytesLe_antisymm e1 e2⟩
    exact this ▸ hy
  have hs : ∀ {a : List Meta}, OnePerKey all a → a.Pairwise (fun x y => bytesLe x.key y.key = true ∧ x.key ≠ y.key) := fun ha => List.pairwise_map.1 ha.sorted
  have hn : ∀ {a : List Meta}, OnePerKey all a → a.Nodup := fun ha => (hs ha).imp (fun h e => h.2 (by rw [e]))
  refine List.Perm.eq_of_pairwise (le := fun x y => bytesLe x.key y.key = true ∧ x.key ≠ y.key) ?_ (hs h1) (hs h2) ((List.perm_ext_iff_of_nodup (hn h1) (hn h2)).2 fun x => ⟨key h1 h2 x, key h2 h1 x⟩)
  intro a b _ _ h h'
  exact absurd (bytesLe_antisymm h.1 h'.1) h.2

theorem describes_unique {L : Type} {ctx : ProfileCtx L} {names : List Bytes} (hn : names.Nodup) {o : OsmObj L} {f g : Feature} (hf : Describes ctx names o f)
    (hg : Describes ctx names o g) : f = g := by
  have e1 : f.id = g.id := by have := hf.id.trans hg.id.symm; exact_mod_cast this
  have e2 : f.layer = g.layer := by
    obtain ⟨a1, a2⟩ := List.getElem?_eq_some_iff.1 hf.layer
    obtain ⟨b1, b2⟩ := List.getElem?_eq_some_iff.1 hg.layer
    exact (List.Nodup.getElem_inj_iff hn).1 (a2.trans b2.symm)
  have e3 := hf.zoom.symm.trans hg.zoom
  injection e3 with e3
  injection e3 with e3 e4
  have e5 := onePerKey_unique hf.metas hg.metas
  have e6 := hf.geometry.symm.trans hg.geometry
  injection e6 with e6
  cases f; cases g
  simp only at e1 e2 e3 e4 e5 e6
  simp [e1, e2, e3, e4, e5, e6]

theorem isWanted_iff {L : Type} (ctx : ProfileCtx L) (o : OsmObj L) : isWanted ctx o = true ↔ (zoomOf ctx o).isSome = true ∧ readOsm ctx.conv o.shape ≠ .ok .null := by
  unfold isWanted
  split
  · rename_i h; simp [h]
  · rename_i h; simp only [Bool.and_true]; exact ⟨fun h1 => ⟨h1, fun h' => h h'⟩, fun h1 => h1.1⟩

section
variable {p : LuaProfile} {t : Tables} {ctx : ProfileCtx LatLng} {numeral : Bytes → Option Int}

/-- the object of a datum -/
abbrev Spec.Datum.obj (p : LuaProfile) (numeral : Bytes → Option Int) (d : Datum) : OsmObj LatLng := p.object numeral d.id d.tags d.shape

/-- the rule that decides about an object -/
abbrev Spec.Datum.rule (t : Tables) (d : Datum) : Option RuleOut := decideBy (t.of d.shape) (tagValue d.tags)

theorem wanted_iff (hs : Shipped p t) {d : Datum} (hr : readOsm ctx.conv d.shape ≠ .throw_) :
    isWanted ctx (d.obj p numeral) = true ↔ (∃ r, d.rule t = some r) ∧ readOsm ctx.conv d.shape ≠ .ok .null := by
  have hm := shipped_matches hs numeral d.tags d.shape
  rw [isWanted_iff]
  refine and_congr_left fun _ => ?_
  cases hd : d.rule t with
  | none =>
    rw [show decideBy (t.of d.shape) (tagValue d.tags) = none from hd] at hm
    rw [matches_none ctx numeral (o := d.obj p numeral) hm hr]
    simp
  | some r =>
    have hd' : decideBy (t.of d.shape) (tagValue d.tags) = some r := hd
    rw [hd'] at hm
    obtain ⟨h1, _⟩ := matches_says ctx numeral (o := d.obj p numeral) hm hr
    have hf := rules_fine hs r (decideBy_rules hd')
    unfold ruleFine at hf
    simp only [Bool.and_eq_true] at hf
    obtain ⟨z, hz, _⟩ := levelFor_total (areaOf ctx (d.obj p numeral)) r.zoom (by simpa using hf.2)
    rw [h1, hz]
    simp

theorem described_by_rule (hs : Shipped p t) {d : Datum} (hfine : Fine ctx (d.obj p numeral)) (hr : readOsm ctx.conv d.shape ≠ .throw_) {names : List Bytes} (hn : names.Nodup)
    {f : Feature} (hw : isWanted ctx (d.obj p numeral) = true) (hf : Describes ctx names (d.obj p numeral) f) :
    ∃ r, d.rule t = some r ∧ StoredBy ctx numeral names r (d.obj p numeral) f ∧ f.geometry ≠ .null := by
  obtain ⟨⟨r, hd⟩, hg⟩ := (wanted_iff hs hr).1 hw
  have hgeo : readOsm ctx.conv d.shape = .ok f.geometry := hf.geometry
  have hne : f.geometry ≠ .null := fun h => hg (by rw [hgeo, h])
  obtain ⟨f0, h1, h2⟩ := (C66_stored ctx numeral hs d.id d.tags d.shape hfine hr).2.2 r f.geometry hd hgeo hne
  have hl : names[f.layer]? = some r.layer := by
    have hm := shipped_matches hs numeral d.tags d.shape
    rw [show decideBy (t.of d.shape) (tagValue d.tags) = some r from hd] at hm
    rw [hf.layer, (matches_says ctx numeral (o := d.obj p numeral) hm hr).2.1]
  have hmade : Describes ctx names (d.obj p numeral) { f0 with layer := f.layer } := made_describes ctx hfine ⟨r.layer, f0, f.layer, h1, rfl, hl⟩
  have := describes_unique hn hf hmade
  exact ⟨r, hd, by rw [this]; exact h2 names f.layer hl, hne⟩

/-! ### attributes -/

/-- more that is checked of every rule: short keys that are not hidden, short constants, few attributes -/
def ruleSmall (r : RuleOut) : Bool :=
  (r.attrs.flatMap attrKeys).all (fun k => decide (k.length < 100) && !hiddenKey k) && decide ((r.attrs.flatMap attrKeys).length ≤ 30) &&
    r.attrs.all (fun a => match a with | .const _ x => decide (x.length < 100) | _ => true) && decide (r.layer.length < 100)

theorem rules_small (hs : Shipped p t) : ∀ r ∈ allRules t, ruleSmall r = true := by
  cases hs
  · decide +kernel
  · decide +kernel

theorem tagValue_mem {tags : List (Bytes × Bytes)} {k x : Bytes} (h : tagValue tags k = some x) : ∃ kv ∈ tags, kv.2 = x := by
  unfold tagValue at h
  obtain ⟨a, h1, h2⟩ := Option.map_eq_some_iff.1 h
  exact ⟨a, List.mem_of_find?_eq_some h1, h2⟩

/-- what an attribute is: a text that is a constant or a tag, a number, or a level -/
theorem attribute_small (hs : Shipped p t) (hnum : ∀ s n, numeral s = some n → -(2 : Int) ^ 63 ≤ n ∧ n < (2 : Int) ^ 63) {d : Datum}
    (htext : ∀ kv ∈ d.tags, kv.2.length < 2 ^ 32 - 1) {r : RuleOut} (hd : d.rule t = some r) {a : Bytes × Attr} (ha : a ∈ r.attributes numeral (tagValue d.tags)) :
    a.1.length < 100 ∧ hiddenKey a.1 = false ∧ match a.2 with
      | .text s => s.length < 2 ^ 32 - 1
      | .number _ => True
      | .integer n => -(2 : Int) ^ 63 ≤ n ∧ n < (2 : Int) ^ 63 := by
  have hf := rules_small hs r (decideBy_rules (shape := d.shape) hd)
  unfold ruleSmall at hf
  simp only [Bool.and_eq_true, decide_eq_true_eq, List.all_eq_true] at hf
  have hk := hf.1.1.1 a.1 ((attributes_keys numeral (tagValue d.tags) r.attrs).subset (List.mem_map.2 ⟨a, ha, rfl⟩))
  refine ⟨hk.1, by simpa using hk.2, ?_⟩
  obtain ⟨ar, h1, h2⟩ := List.mem_flatMap.1 ha
  have h3 := hf.1.2 ar h1
  cases ar with
  | const k x =>
    simp only [AttrRule.attrs, List.mem_singleton] at h2
    subst h2
    have : x.length < 100 := by simpa using h3
    show x.length < 2 ^ 32 - 1
    omega
  | copy k =>
    simp only [AttrRule.attrs] at h2
    split at h2
    · rename_i x hx
      rw [List.mem_singleton] at h2
      subst h2
      obtain ⟨kv, h4, rfl⟩ := tagValue_mem hx
      exact htext kv h4
    · cases h2
  | number k =>
    simp only [AttrRule.attrs] at h2
    split at h2
    · split at h2
      · rw [List.mem_singleton] at h2
        subst h2
        trivial
      · cases h2
    · cases h2
  | levels =>
    simp only [AttrRule.attrs] at h2
    split at h2
    · cases h2
    · split at h2
      · cases h2
      · split at h2
        · rename_i x y hx hy
          rcases List.mem_cons.1 h2 with rfl | h2
          · exact hnum _ _ hx
          · rw [List.mem_singleton] at h2
            subst h2
            exact hnum _ _ hy
        · rename_i x hx _
          rw [List.mem_singleton] at h2
          subst h2
          exact hnum _ _ hx
        · cases h2

theorem stored_len {toDouble : Int → Nat} (a : Attr) (h : ∀ s, a = .text s → s.length < 2 ^ 32 - 1) : (a.stored toDouble).length < 2 ^ 32 := by
  cases a with
  | text s => have := h s rfl; simp only [Attr.stored, encodeString, List.length_cons]; omega
  | number n => simp [Attr.stored, encodeNumeric]
  | integer n => simp [Attr.stored, encodeInteger]

/-- clients see the value that was stored -/
theorem stored_meaning {toDouble : Int → Nat} (hd : ∀ n, toDouble n < 2 ^ 64) (a : Attr) (h : ∀ n, a = .integer n → -(2 : Int) ^ 63 ≤ n ∧ n < (2 : Int) ^ 63) :
    valueMeaning (a.stored toDouble) = some (a.shown toDouble) := by
  cases a with
  | text s => rfl
  | number n =>
    simp only [Attr.stored, encodeNumeric, valueMeaning, Attr.shown]
    have := hd n
    simp [leNat_leBytes]
    omega
  | integer n =>
    obtain ⟨h1, h2⟩ := h n rfl
    simp only [Attr.stored, encodeInteger, valueMeaning, Attr.shown]
    simp [leNat_leBytes]
    unfold i64Bits
    split <;> omega

/-- the metadata of a feature are the attributes of its rule -/
theorem metas_perm (hs : Shipped p t) {d : Datum} {r : RuleOut} (hd : d.rule t = some r) {names : List Bytes} {f : Feature} (hf : StoredBy ctx numeral names r (d.obj p numeral) f) :
    f.metas.Perm ((r.attributes numeral (tagValue d.tags)).map (fun a => ⟨a.1, a.2.stored ctx.toDouble⟩)) := by
  have hfi := rules_fine hs r (decideBy_rules (shape := d.shape) hd)
  unfold ruleFine at hfi
  simp only [Bool.and_eq_true, decide_eq_true_eq] at hfi
  have hk : ((r.attributes numeral (tagValue d.tags)).map (·.1)).Nodup := (attributes_keys numeral (tagValue d.tags) r.attrs).nodup hfi.1.1.1
  refine (List.perm_ext_iff_of_nodup (List.Nodup.of_map _ hf.keys) ?_).2 fun m => ?_
  · refine List.Nodup.of_map (·.key) ?_
    rw [List.map_map]
    exact hk
  · rw [hf.attrs m, List.mem_map]
    exact ⟨fun ⟨a, h1, h2⟩ => ⟨a, h1, h2.symm⟩, fun ⟨a, h1, h2⟩ => ⟨a, h1, h2.symm⟩⟩

/-- so clients see the attributes of the rule -/
theorem tags_perm (hs : Shipped p t) (hnum : ∀ s n, numeral s = some n → -(2 : Int) ^ 63 ≤ n ∧ n < (2 : Int) ^ 63) (hdbl : ∀ n, ctx.toDouble n < 2 ^ 64) {d : Datum}
    (htext : ∀ kv ∈ d.tags, kv.2.length < 2 ^ 32 - 1) {r : RuleOut} (hd : d.rule t = some r) {names : List Bytes} {f : Feature}
    (hf : StoredBy ctx numeral names r (d.obj p numeral) f) :
    (tagsOf f.metas).Perm (r.shown numeral ctx.toDouble (tagValue d.tags)) ∧ ∀ m ∈ f.metas, ∃ t, valueMeaning m.value = some t := by
  have hmean : ∀ a ∈ r.attributes numeral (tagValue d.tags), valueMeaning (a.2.stored ctx.toDouble) = some (a.2.shown ctx.toDouble) := by
    intro a ha
    have := (attribute_small hs hnum htext hd ha).2.2
    refine stored_meaning hdbl a.2 fun n hn => ?_
    rw [hn] at this
    exact this
  have hp := metas_perm hs hd hf
  constructor
  · refine (tagsOf_perm hp).trans (.of_eq ?_)
    rw [tagsOf, exported_eq, List.filter_eq_self.2, RuleOut.shown]
    · rw [List.filterMap_map, ← List.filterMap_eq_map]
      refine List.filterMap_congr fun a ha => ?_
      simp [hmean a ha]
    · intro m hm
      obtain ⟨a, ha, rfl⟩ := List.mem_map.1 hm
      simp [(attribute_small hs hnum htext hd ha).2.1]
  · intro m hm
    obtain ⟨a, ha, rfl⟩ := (hf.attrs m).1 hm
    exact ⟨_, hmean a ha⟩

/-! ### the result of loading -/

/-- what loading gives: layer names and shared metadata that can be read, exactly the objects with a rule and a geometry -/
structure Spec.OsmLoaded (ctx : ProfileCtx LatLng) (p : LuaProfile) (t : Tables) (numeral : Bytes → Option Int) (data : List Datum) (fs : List (List Feature)) (m : MetaTable)
    (names : List Bytes) (tbl : List Meta) : Prop where
  table : ∃ b1 b2, m = ⟨none, some b1, some b2⟩ ∧ loadLayerNames (some b1) = .ok names ∧ loadSharedMetadata (some b2) = .ok tbl
  nodup : names.Nodup
  few : 0 < names.length ∧ names.length ≤ 13
  /-- the first layer is that of the coastline -/
  coast : names[0]? = some kLayerCoastlineName
  from_data : ∀ f ∈ fs.flatten, ∃ d ∈ data, ∃ r, d.rule t = some r ∧ StoredBy ctx numeral names r (d.obj p numeral) f ∧ f.geometry ≠ .null ∧ Describes ctx names (d.obj p numeral) f
  all_data : ∀ d ∈ data, ∀ r g, d.rule t = some r → readOsm ctx.conv d.shape = .ok g → g ≠ .null →
    ∃ f ∈ fs.flatten, StoredBy ctx numeral names r (d.obj p numeral) f ∧ Describes ctx names (d.obj p numeral) f
  count : fs.flatten.length ≤ data.length
  /-- each of them once -/
  once : fs.flatten.length = (data.filter (fun d => isWanted ctx (d.obj p numeral))).length
  shared : tbl.length ≤ 30 * data.length
  /-- the shared metadata are those that several features have (C24) -/
  several : ∀ m, m ∈ tbl ↔ 2 ≤ (fs.flatten.flatMap (·.metas)).count m

theorem forall2_flatten_length {α β : Type} {f : α → Bool} {R : α → β → Prop} {as : List (List α)} {bs : List (List β)}
    (h : List.Forall₂ (fun a b => List.Forall₂ R (a.filter f) b) as bs) : bs.flatten.length = (as.flatten.filter f).length := by
  induction h with
  | nil => simp
  | cons h1 _ ih => rw [List.flatten_cons, List.flatten_cons, List.length_append, List.filter_append, List.length_append, ← h1.length_eq, ih]

theorem osm_len (hs : Shipped p t) (hnum : ∀ s n, numeral s = some n → -(2 : Int) ^ 63 ≤ n ∧ n < (2 : Int) ^ 63) {data : List Datum}
    (hg : GoodData ctx p numeral data) {objs : List (List (OsmObj LatLng))} (hperm : objs.flatten.Perm (data.map (Datum.obj p numeral))) :
    ∀ o ∈ objs.flatten, isWanted ctx o = true → (layerName ctx o).length < 2 ^ 32 ∧ ∀ m ∈ added ctx o, m.key.length < 2 ^ 32 ∧ m.value.length < 2 ^ 32 := by
  have hobj : ∀ o ∈ objs.flatten, ∃ d ∈ data, o = d.obj p numeral := by
    intro o ho
    obtain ⟨d, h1, h2⟩ := List.mem_map.1 (hperm.mem_iff.1 ho)
    exact ⟨d, h1, h2.symm⟩
  have hub : ∀ o ∈ objs.flatten, Fine ctx o := by
    intro o ho
    obtain ⟨d, h1, rfl⟩ := hobj o ho
    exact hg.fine d h1
  have hsays : ∀ d ∈ data, isWanted ctx (d.obj p numeral) = true → ∃ r, d.rule t = some r ∧ layerName ctx (d.obj p numeral) = r.layer ∧
      ∀ m, m ∈ added ctx (d.obj p numeral) ↔ m ∈ metasOf ctx.toDouble (r.attributes numeral (tagValue d.tags)) := by
    intro d h1 hw
    obtain ⟨⟨r, hd⟩, _⟩ := (wanted_iff hs (hg.readable d h1)).1 hw
    have hm := shipped_matches hs numeral d.tags d.shape
    rw [show decideBy (t.of d.shape) (tagValue d.tags) = some r from hd] at hm
    obtain ⟨_, k1, k2⟩ := matches_says ctx numeral (o := d.obj p numeral) hm (hg.readable d h1)
    exact ⟨r, hd, k1, k2⟩
  intro o ho hw
  obtain ⟨d, h1, rfl⟩ := hobj o ho
  obtain ⟨r, hd, k1, k2⟩ := hsays d h1 hw
  have hf := rules_small hs r (decideBy_rules (shape := d.shape) hd)
  unfold ruleSmall at hf
  simp only [Bool.and_eq_true, decide_eq_true_eq, List.all_eq_true] at hf
  refine ⟨by rw [k1]; have := hf.2; omega, fun m hm => ?_⟩
  obtain ⟨a, ha, rfl⟩ := List.mem_map.1 ((k2 m).1 hm)
  obtain ⟨s1, _, s2⟩ := attribute_small hs hnum (hg.texts d h1) hd ha
  refine ⟨by show a.1.length < _; omega, stored_len a.2 fun x hx => ?_⟩
  rw [hx] at s2
  exact s2

theorem osm_loaded (hs : Shipped p t) (hnum : ∀ s n, numeral s = some n → -(2 : Int) ^ 63 ≤ n ∧ n < (2 : Int) ^ 63) {data : List Datum}
    (hg : GoodData ctx p numeral data) {fs : List (List Feature)} {m : MetaTable} (hl : OsmLoads ctx p numeral data fs m) :
    ∃ names tbl, OsmLoaded ctx p t numeral data fs m names tbl := by
  obtain ⟨objs, s, n1, c1, hperm, hr, hend, hq, hstore, rfl⟩ := hl
  have hobj : ∀ o ∈ objs.flatten, ∃ d ∈ data, o = d.obj p numeral := by
    intro o ho
    obtain ⟨d, h1, h2⟩ := List.mem_map.1 (hperm.mem_iff.1 ho)
    exact ⟨d, h1, h2.symm⟩
  have hub : ∀ o ∈ objs.flatten, Fine ctx o := by
    intro o ho
    obtain ⟨d, h1, rfl⟩ := hobj o ho
    exact hg.fine d h1
  have hsays : ∀ d ∈ data, isWanted ctx (d.obj p numeral) = true → ∃ r, d.rule t = some r ∧ layerName ctx (d.obj p numeral) = r.layer ∧
      ∀ m, m ∈ added ctx (d.obj p numeral) ↔ m ∈ metasOf ctx.toDouble (r.attributes numeral (tagValue d.tags)) := by
    intro d h1 hw
    obtain ⟨⟨r, hd⟩, _⟩ := (wanted_iff hs (hg.readable d h1)).1 hw
    have hm := shipped_matches hs numeral d.tags d.shape
    rw [show decideBy (t.of d.shape) (tagValue d.tags) = some r from hd] at hm
    obtain ⟨_, k1, k2⟩ := matches_says ctx numeral (o := d.obj p numeral) hm (hg.readable d h1)
    exact ⟨r, hd, k1, k2⟩
  have hlen := osm_len (ctx := ctx) hs hnum hg hperm
  obtain ⟨b1, b2, names, tbl, l1, l2, l3, l4, l5, l6, l7, l8, l9⟩ := C50_load ctx objs hub hlen s hr fs hend hq
  rw [hstore] at l1
  injection l1 with l1
  injection l1 with e1 e2
  subst e1 e2
  have hfrom : ∀ f ∈ fs.flatten, ∃ d ∈ data, ∃ r, d.rule t = some r ∧ StoredBy ctx numeral names r (d.obj p numeral) f ∧ f.geometry ≠ .null ∧ Describes ctx names (d.obj p numeral) f := by
    intro f hf
    obtain ⟨done, k1, k2⟩ := List.mem_flatten.1 hf
    obtain ⟨os, k3, k4⟩ := forall2_right l4 k1
    obtain ⟨o, k5, k6⟩ := forall2_right k4 k2
    obtain ⟨k7, k8⟩ := List.mem_filter.1 k5
    obtain ⟨d, k9, rfl⟩ := hobj o (List.mem_flatten.2 ⟨os, k3, k7⟩)
    obtain ⟨r, r1, r2, r3⟩ := described_by_rule hs (hg.fine d k9) (hg.readable d k9) l5 k8 k6
    exact ⟨d, k9, r, r1, r2, r3, k6⟩
  have honce : fs.flatten.length = (data.filter (fun d => isWanted ctx (d.obj p numeral))).length := by
    rw [forall2_flatten_length l4, (hperm.filter (isWanted ctx)).length_eq, List.filter_map, List.length_map]
    rfl
  have hcount : fs.flatten.length ≤ data.length := by
    rw [honce]
    exact List.length_filter_le _ _
  refine ⟨names, tbl, ⟨n1, c1, rfl, l2, l3⟩, l5, ⟨?_, ?_⟩, l6, hfrom, ?_, hcount, honce, ?_, l9⟩
  · exact (List.getElem?_eq_some_iff.1 l6).1
  · have hsub : names ⊆ kLayerCoastlineName :: [b!"cities", b!"region", b!"indoor", b!"road", b!"rail", b!"waterway", b!"building", b!"landuse", b!"construction",
        b!"water", b!"pedestrian", b!"sport"] := by
      intro n hn
      rcases (l7 n).1 hn with h | ⟨o, ho, hw, rfl⟩
      · rw [h]; exact .head _
      · obtain ⟨d, h1, rfl⟩ := hobj o ho
        obtain ⟨r, hd, k1, _⟩ := hsays d h1 hw
        have hf := rules_fine hs r (decideBy_rules (shape := d.shape) hd)
        unfold ruleFine at hf
        simp only [Bool.and_eq_true, decide_eq_true_eq] at hf
        rw [k1]
        exact .tail _ hf.1.1.2
    exact (List.subperm_of_subset l5 hsub).length_le
  · intro d h1 r g hd hread hne
    have hw := (wanted_iff (ctx := ctx) (numeral := numeral) hs (hg.readable d h1)).2 ⟨⟨r, hd⟩, by rw [hread]; simpa using hne⟩
    have hm : d.obj p numeral ∈ objs.flatten := hperm.mem_iff.2 (List.mem_map.2 ⟨d, h1, rfl⟩)
    obtain ⟨os, k1, k2⟩ := List.mem_flatten.1 hm
    obtain ⟨done, k3, k4⟩ := forall2_left l4 k1
    obtain ⟨f, k5, k6⟩ := forall2_left k4 (List.mem_filter.2 ⟨k2, hw⟩)
    obtain ⟨r', r1, r2, r3⟩ := described_by_rule hs (hg.fine d h1) (hg.readable d h1) l5 hw k6
    rw [show d.rule t = some r from hd] at r1
    injection r1 with r1
    subst r1
    exact ⟨f, List.mem_flatten.2 ⟨done, k3, k5⟩, r2, k6⟩
  · have hsub : tbl ⊆ fs.flatten.flatMap (·.metas) := by
      intro m hm
      have := (l9 m).1 hm
      exact List.count_pos_iff.1 (by omega)
    have h1 := (List.subperm_of_subset l8 hsub).length_le
    have h2 : (fs.flatten.flatMap (·.metas)).length ≤ 30 * fs.flatten.length := by
      rw [List.length_flatMap, Nat.mul_comm]
      refine le_trans (List.sum_le_card_nsmul _ 30 ?_) (by rw [List.length_map, smul_eq_mul])
      intro n hn
      obtain ⟨f, hf, rfl⟩ := List.mem_map.1 hn
      obtain ⟨d, h3, r, hd, hst, _⟩ := hfrom f hf
      rw [(metas_perm hs hd hst).length_eq, List.length_map]
      have hf := rules_small hs r (decideBy_rules (shape := d.shape) hd)
      unfold ruleSmall at hf
      simp only [Bool.and_eq_true, decide_eq_true_eq, List.all_eq_true] at hf
      have := (attributes_keys numeral (tagValue d.tags) r.attrs).length_le
      rw [List.length_map] at this
      exact this.trans hf.1.1.2
    exact h1.trans (h2.trans (Nat.mul_le_mul_left _ hcount))

end

end Tiles
