import Verif.Spec.Sea
import Verif.Props.C34
/-! C69: what the coastline loader hands to the other steps. -/
namespace Tiles
open Spec

theorem sea_inTile_floor {t : Tile} {p : Pt} (h1 : 0 ≤ p.1) (h2 : 0 ≤ p.2) : InTile t p ↔ PointIn t ⌊p.1⌋₊ ⌊p.2⌋₊ := by
  unfold InTile PointIn
  rw [Nat.le_floor_iff h1, Nat.le_floor_iff h2, Nat.floor_lt h1, Nat.floor_lt h2]
  push_cast
  rfl

theorem sea_inTile_pos {t : Tile} {p : Pt} (h : InTile t p) : 0 ≤ p.1 ∧ 0 ≤ p.2 := by
  obtain ⟨a, _, b, _⟩ := h
  exact ⟨le_trans (by positivity) a, le_trans (by positivity) b⟩

theorem sea_inTile_box {t : Tile} {p : Pt} (h : InTile t p) : InBox (insertBounds t) p := by
  obtain ⟨a, b, c, d⟩ := h
  have e : (side t.z : ℚ) = 4096 * 2 ^ (20 - t.z) := by unfold side; push_cast; ring
  rw [e] at a b c d
  simp only [InBox, insertBounds, pxBounds]
  push_cast
  refine ⟨?_, ?_, ?_, ?_⟩ <;> nlinarith

theorem sea_pointIn_anc {t q : Tile} (h : AncOrSelf t q) (hz : q.z ≤ 20) {x y : Nat} (hp : PointIn q x y) : PointIn t x y := by
  obtain ⟨h0, h1, h2⟩ := h
  obtain ⟨a, b, c, d⟩ := hp
  have e : side t.z = 2 ^ (q.z - t.z) * side q.z := by
    unfold side
    rw [show 20 - t.z = (q.z - t.z) + (20 - q.z) by omega, pow_add]; ring
  have key : ∀ m x, m * side q.z ≤ x → x < (m + 1) * side q.z →
      (m / 2 ^ (q.z - t.z)) * side t.z ≤ x ∧ x < (m / 2 ^ (q.z - t.z) + 1) * side t.z := by
    intro m x h3 h4
    rw [e]
    have hpos : 0 < 2 ^ (q.z - t.z) := by positivity
    generalize 2 ^ (q.z - t.z) = w at *
    have hw := Nat.div_add_mod m w
    have hlt := Nat.mod_lt m hpos
    constructor
    · refine le_trans ?_ h3
      rw [← mul_assoc]
      exact Nat.mul_le_mul_right _ (Nat.div_mul_le_self m w)
    · refine lt_of_lt_of_le h4 ?_
      rw [← mul_assoc]
      refine Nat.mul_le_mul_right _ ?_
      nlinarith
  obtain ⟨k1, k2⟩ := key _ _ a b
  obtain ⟨k3, k4⟩ := key _ _ c d
  exact ⟨by rw [h1]; exact k1, by rw [h1]; exact k2, by rw [h2]; exact k3, by rw [h2]; exact k4⟩


theorem sea_inTile_anc {t q : Tile} (h : AncOrSelf t q) (hz : q.z ≤ 20) {p : Pt} (hp : InTile q p) : InTile t p := by
  obtain ⟨h1, h2⟩ := sea_inTile_pos hp
  rw [sea_inTile_floor h1 h2] at hp ⊢
  exact sea_pointIn_anc h hz hp

theorem sea_side_pos (z : Nat) : 0 < side z := by unfold side; positivity

/-- two tiles with a common point share area -/
theorem sea_tile_of {q : Tile} (hv : q.Valid) (hz : q.z ≤ 20) {p : Pt} (hp : InTile q p) (z : Nat) (hz' : z ≤ 20) : ∃ t : Tile, t.Valid ∧ t.z = z ∧ InTile t p := by
  obtain ⟨h1, h2⟩ := sea_inTile_pos hp
  rw [sea_inTile_floor h1 h2] at hp
  have hs := sea_side_pos z
  obtain ⟨a, b, c, d⟩ := hp
  have total : ∀ z ≤ 20, 2 ^ z * side z = 2 ^ 32 := by
    intro z hz
    unfold side
    rw [show (2 : Nat) ^ z * (4096 * 2 ^ (20 - z)) = 4096 * (2 ^ z * 2 ^ (20 - z)) by ring, ← pow_add, show z + (20 - z) = 20 by omega]
    norm_num
  have key : ∀ m x, m < 2 ^ q.z → x < (m + 1) * side q.z → x / side z < 2 ^ z := by
    intro m x h3 h4
    rw [Nat.div_lt_iff_lt_mul hs, total z hz', ← total q.z hz]
    refine lt_of_lt_of_le h4 (Nat.mul_le_mul_right _ h3)
  refine ⟨⟨⌊p.1⌋₊ / side z, ⌊p.2⌋₊ / side z, z⟩, ⟨key _ _ hv.1 b, key _ _ hv.2 d⟩, rfl, ?_⟩
  rw [sea_inTile_floor h1 h2]
  refine ⟨Nat.div_mul_le_self _ _, ?_, Nat.div_mul_le_self _ _, ?_⟩
  · rw [Nat.mul_comm]; exact Nat.lt_mul_div_succ _ hs
  · rw [Nat.mul_comm]; exact Nat.lt_mul_div_succ _ hs

/-- two tiles with a common point share area -/
theorem sea_meet {t q : Tile} (hzt : t.z ≤ 20) (hzq : q.z ≤ 20) {p : Pt} (ht : InTile t p) (hq : InTile q p) : Meet t q := by
  obtain ⟨h1, h2⟩ := sea_inTile_pos hq
  rw [sea_inTile_floor h1 h2] at ht hq
  have key : ∀ t q : Tile, t.z ≤ q.z → q.z ≤ 20 → PointIn t ⌊p.1⌋₊ ⌊p.2⌋₊ → PointIn q ⌊p.1⌋₊ ⌊p.2⌋₊ → AncOrSelf t q := by
    intro t q hle hz20 ht hq
    have hu : AncOrSelf ⟨q.x / 2 ^ (q.z - t.z), q.y / 2 ^ (q.z - t.z), t.z⟩ q := ⟨hle, rfl, rfl⟩
    obtain ⟨a, b, c, d⟩ := sea_pointIn_anc hu hz20 hq
    obtain ⟨a', b', c', d'⟩ := ht
    have hs := sea_side_pos t.z
    have uniq : ∀ m n x s : Nat, 0 < s → m * s ≤ x → x < (m + 1) * s → n * s ≤ x → x < (n + 1) * s → m = n := by
      intro m n x s hs h1 h2 h3 h4
      rw [Nat.add_mul, Nat.one_mul] at h2 h4
      have e1 : x / s = m := by rw [Nat.div_eq_iff hs]; constructor <;> omega
      have e2 : x / s = n := by rw [Nat.div_eq_iff hs]; constructor <;> omega
      omega
    have ex := uniq _ _ _ _ hs a' b' a b
    have ey := uniq _ _ _ _ hs c' d' c d
    exact ⟨hle, ex, ey⟩
  rcases Nat.le_total t.z q.z with h | h
  · exact .inl (key t q h hzq ht hq)
  · exact .inr (key q t h hzt hq ht)

/-! ### what the loader leaves -/

theorem made_storable {lib : CoastLib} {S : Set Pt} (hs : GoodShapes lib S) {t : Tile} (hv : t.Valid) (hz : t.z = 10) {k : UInt64} {ps : List Polygon} (hne : ps ≠ [])
    (hm' : CutOut lib t ps) : Storable ⟨k.toNat, 0, 0, 21, [], .polygon ps⟩ := by
  have hm : CoastCut lib t ps := ⟨hv, hz, hm'⟩
  exact {
      id := k.toNat_lt
      zmin := by norm_num
      zmax := by norm_num
      layer := by norm_num
      coords := by
        intro l hl
        obtain ⟨q, hq, hl⟩ := List.mem_flatMap.1 hl
        refine ⟨(hs.rings t ps hm q hq l hl).2, fun v hv' => ?_⟩
        obtain ⟨a, b, c, d⟩ := hs.inside t ps hm q hq l hl v hv'
        have hx := hv.1
        have hy := hv.2
        rw [hz] at hx hy
        simp only [drawBounds, pxBounds, hz, kOverdraw] at a b c d
        have a : ((t.x * 4096 * 2 ^ (20 - 10) - 4096 : Int) : ℚ) ≤ v.x := a
        have b : (v.x : ℚ) ≤ (((t.x + 1) * 4096 * 2 ^ (20 - 10) + 4096 : Int) : ℚ) := b
        have c : ((t.y * 4096 * 2 ^ (20 - 10) - 4096 : Int) : ℚ) ≤ v.y := c
        have d : (v.y : ℚ) ≤ (((t.y + 1) * 4096 * 2 ^ (20 - 10) + 4096 : Int) : ℚ) := d
        rw [Int.cast_le] at a b c d
        refine ⟨⟨?_, ?_⟩, ⟨?_, ?_⟩⟩ <;> norm_num at * <;> omega
      counts := hs.counts t ps hm
      points := by
        cases ps with
        | nil => exact absurd rfl hne
        | cons q ps =>
          have h := (hs.rings t _ hm q (by simp) q.outer (by simp)).1
          intro hc
          simp only [envelopePoints, List.flatMap_cons, List.append_eq_nil_iff] at hc
          cases ho : q.outer with
          | nil => rw [ho] at h; simp at h
          | cons a l => rw [ho] at hc; simp at hc
      rings := by
        intro qs e q hq r hr
        injection e with e
        subst e
        exact (hs.rings t _ hm q hq r hr).1 }

/-- what is stored in a few bytes less than 4 GiB is known by its bytes -/
theorem storable_unique {f g : Feature} (hf : Storable f) (hg : Storable g) {b : Bytes} (h1 : serializeFeature (fun _ => []) [] true f = .ok b)
    (h2 : serializeFeature (fun _ => []) [] true g = .ok b) (hl : b.length < 2 ^ 32) : f = g := by
  obtain ⟨m1, _, e1, d1⟩ := C22_same (fun _ => []) (fun _ _ => []) [] true f b hf.toFeatureOk (by simp) hf.rings h1 hl
  obtain ⟨m2, _, e2, d2⟩ := C22_same (fun _ => []) (fun _ _ => []) [] true g b hg.toFeatureOk (by simp) hg.rings h2 hl
  rw [e1 rfl] at d1
  rw [e2 rfl, d1] at d2
  injection d2 with d2
  injection d2 with d2

/-- what is known about the results of the loader -/
structure CoastFacts (lib : CoastLib) (polys : List Polygon) (S : Set Pt) (xs : List Inserted) (sea : List Tile) : Prop where
  tiles : ∀ t ∈ sea, t.Valid ∧ 5 ≤ t.z ∧ t.z ≤ 10 ∧ ∀ p ∈ S, InBox (insertBounds t) p → ¬ Land polys p
  apart : sea.Pairwise (fun a b => ¬ Meet a b)
  tree : ∃ nodes, makeBqTree sea = .ok nodes ∧ nodes.length ≤ 2 ^ 24
  shows : ∀ x ∈ xs, ∃ t ps, ShowsSea (Land polys) S x t ps ∧ CoastCut lib t ps ∧ ps ≠ [] ∧ Storable x.feature ∧ ∀ s ∈ sea, ¬ Meet s t
  few : xs.length ≤ 2 ^ 20
  once : (xs.map (·.tile)).Nodup
  total : ∀ q : Tile, q.Valid → q.z ≤ 20 → ∀ p ∈ S, InTile q p → ¬ Land polys p →
    (∃ t ∈ sea, InTile t p) ∨ ∃ x ∈ xs, ∃ t, x.tile = some t ∧ InTile t p

theorem coast_facts {lib : CoastLib} {polys : List Polygon} {S : Set Pt} (hx : ExactAt lib S) (hg : GoodInput polys S) (hs : GoodShapes lib S) {workers : Nat}
    {xs : List Inserted} {sea : List Tile} (h : CoastLoads lib polys workers xs sea)
    (hsize : ∀ x ∈ xs, ∀ b, serializeFeature (fun _ => []) [] true x.feature = .ok b → b.length < 2 ^ 32) : CoastFacts lib polys S xs sea := by
  obtain ⟨ws, s, hw, hr, he, rfl, hf⟩ := h
  obtain ⟨p1, p2, p3, p4, p5, _, _, p8⟩ := C34_partition lib polys ws workers hw s hr he
  have hright := C34_true lib polys S hx hg ws workers hw s hr
  obtain ⟨nodes, n1, n2, _⟩ := C34_seaside_tree lib polys ws workers hw s hr he
  have hsub : (seaTiles s.1.log).Sublist (leaves (s.1.log ++ s.1.q.handled)) := by
    rw [leaves_append]; exact (seaTiles_sublist _).trans (List.sublist_append_left _ _)
  have hleaf : ∀ t b, .db t b ∈ s.1.q.handled → t ∈ leaves (s.1.log ++ s.1.q.handled) := fun t b h =>
    mem_leaves.2 (.inr (.inr ⟨b, List.mem_append.2 (.inr h)⟩))
  have hone : ∀ x ∈ xs, ∃ t b, CoastEv.db t b ∈ s.1.q.handled ∧ x.tile = some t ∧ Storable x.feature ∧
      serializeFeature (fun _ => []) [] true x.feature = .ok b := by
    intro x hxm
    obtain ⟨e, he, t, b, rfl, k⟩ := forall₂_mem_left hf.flip x hxm
    exact ⟨t, b, he, k⟩
  have p3' := p3
  rw [leaves_append, List.pairwise_append] at p3'
  have htiles : xs.map (·.tile) = (leaves s.1.q.handled).map some := by
    clear hone hright p3 p4 p5 p1 p2 p8 hleaf hsub hsize
    generalize s.1.q.handled = hs at hf
    induction hf with
    | nil => rfl
    | cons h0 _ ih =>
      obtain ⟨t, b, rfl, h1, _⟩ := h0
      rw [List.map_cons, ih, h1]
      rfl
  constructor
  · intro t ht
    obtain ⟨a, b, c⟩ := p2 t (hsub.subset ht)
    exact ⟨a, b, c, hright _ (List.mem_append.2 (.inl (mem_seaTiles.1 ht)))⟩
  · exact p3.sublist hsub
  · exact ⟨nodes, n1, n2⟩
  · intro x hxm
    obtain ⟨t, b, h1, h2, h3, h4⟩ := hone x hxm
    obtain ⟨k, ps, k1, k2, k3, k4, k5, _⟩ := hright _ (List.mem_append.2 (.inr h1))
    obtain ⟨t', b', e1, e2⟩ := p4 _ h1
    injection e1 with e1 _
    subst e1
    obtain ⟨v1, _, _⟩ := p2 t (hleaf t b h1)
    have hne : ps ≠ [] := by
      rintro rfl
      unfold serializeFeature serializeGeometry at k2
      cases k2
    rw [serialize_fast lib.mask (fun _ => []) [] []] at k2
    have := storable_unique h3 (made_storable hs v1 e2 hne k3) h4 k2 (hsize x hxm b h4)
    refine ⟨t, ps, ⟨h2, ⟨v1, e2⟩, ⟨k, k1, this⟩, k4, k5⟩, ⟨v1, e2, k3⟩, hne, h3, ?_⟩
    intro u hu hm
    exact p3'.2.2 u ((seaTiles_sublist _).subset hu) t (mem_leaves.2 (.inr (.inr ⟨b, h1⟩))) hm
  · have h1 : xs.length = (leaves s.1.q.handled).length := by
      have := congrArg List.length htiles
      simpa using this
    have h2 := (leaves_perm (coast_end hr he).1).length_eq
    have h3 := coastProgress_perm (coast_end hr he).1
    obtain ⟨_, _, _, _, c5⟩ := coastTasks_all lib _ _ (fun t => zoom4_z) ws hw
    have h4 : coastProgress s.1.q.handled = 0 := by
      unfold coastProgress
      rw [List.sum_eq_zero_iff_forall_eq_nat]
      intro x hx
      obtain ⟨ev, hm, rfl⟩ := List.mem_map.1 hx
      obtain ⟨_, _, rfl, _⟩ := p4 ev hm
      rfl
    rw [coastProgress_append, p8, h4] at h3
    rw [leaves_append, List.length_append] at h2
    omega
  · have hnd : (xs.map (·.tile)).Nodup := by
      rw [htiles]
      refine List.Nodup.map (fun a b h => by injection h) ?_
      have := p3'.2.1
      exact this.imp (by rintro a _ h rfl; exact h (.inl ⟨Nat.le_refl _, by simp, by simp⟩))
    exact hnd
  · intro q hv hz p hp hin hl
    obtain ⟨q', v1, v2, v3⟩ := sea_tile_of hv hz hin 10 (by omega)
    have h1 : 0 < timesCovered (leaves (s.1.log ++ s.1.q.handled)) q' := by rw [p1 q' v1 (by omega)]; omega
    obtain ⟨t, ht, ha⟩ := List.countP_pos_iff.1 h1
    have ha := of_decide_eq_true ha
    have hit : InTile t p := sea_inTile_anc ha (by omega) v3
    rcases mem_leaves.1 ht with h | h | ⟨b, h⟩
    · exact absurd (hright _ h p hp (sea_inTile_box hit)) hl
    · refine .inl ⟨t, mem_seaTiles.2 ?_, hit⟩
      rcases List.mem_append.1 h with h | h
      · exact h
      · obtain ⟨_, _, hc, _⟩ := p4 _ h
        cases hc
    · refine .inr ?_
      rcases List.mem_append.1 h with h | h
      · exact absurd rfl (p5 _ h t b)
      · obtain ⟨x, hxm, t', b', e1, e2, _⟩ := forall₂_mem_left hf _ h
        injection e1 with e1 _
        subst e1
        exact ⟨x, hxm, t, e2, hit⟩

/-- the bytes of each feature are those of a polygon that was cut out -/
theorem coast_bytes {lib : CoastLib} {polys : List Polygon} {S : Set Pt} (hx : ExactAt lib S) (hg : GoodInput polys S) {workers : Nat}
    {xs : List Inserted} {sea : List Tile} (h : CoastLoads lib polys workers xs sea) : ∀ x ∈ xs, ∃ t ps, ∃ k : UInt64, ∃ b, CoastCut lib t ps ∧
      serializeFeature (fun _ => []) [] true ⟨k.toNat, 0, 0, 21, [], .polygon ps⟩ = .ok b ∧ serializeFeature (fun _ => []) [] true x.feature = .ok b := by
  obtain ⟨ws, s, hw, hr, he, rfl, hf⟩ := h
  have hright := C34_true lib polys S hx hg ws workers hw s hr
  obtain ⟨_, p2, _, p4, _⟩ := C34_partition lib polys ws workers hw s hr he
  intro x hxm
  obtain ⟨e, he, t, b, rfl, _, _, h4⟩ := forall₂_mem_left hf.flip x hxm
  obtain ⟨t', b', e1, hz⟩ := p4 _ he
  injection e1 with e1 _
  subst e1
  obtain ⟨hv, _⟩ := p2 t (mem_leaves.2 (.inr (.inr ⟨b, List.mem_append.2 (.inr he)⟩)))
  obtain ⟨k, ps, k1, k2, k3, k4, k5, _⟩ := hright _ (List.mem_append.2 (.inr he))
  rw [serialize_fast lib.mask (fun _ => []) [] []] at k2
  exact ⟨t, ps, _, b, ⟨hv, hz, k3⟩, k2, h4⟩

/-! ### the features can be imported -/

theorem varint_long : ∀ (k v : Nat), 128 ^ k ≤ v → k + 1 ≤ (encVarint v).length := by
  intro k
  induction k with
  | zero => intro v _; exact encVarint_length_pos v
  | succ k ih =>
    intro v h
    have h1 : 128 ^ k ≤ v / 128 := by rw [Nat.le_div_iff_mul_le (by norm_num)]; rw [pow_succ] at h; exact h
    have h2 : 128 ≤ v := le_trans (by rw [pow_succ]; exact Nat.le_mul_of_pos_left _ (by positivity)) h
    rw [encVarint, if_neg (by omega), List.length_cons]
    have := ih _ h1
    omega

theorem flatMap_long {α : Type} (f : α → Bytes) (h : ∀ a, 0 < (f a).length) : ∀ l : List α, l.length ≤ (l.flatMap f).length := by
  intro l
  induction l with
  | nil => simp
  | cons a l ih => rw [List.flatMap_cons, List.length_append, List.length_cons]; have := h a; omega

theorem serDeltas_length : ∀ (l : List XY) (c : XY), (serDeltas c l).1.length = 2 * l.length := by
  intro l
  induction l with
  | nil => intro c; rfl
  | cons p l ih => intro c; rw [serDeltas]; simp [ih p]; omega

/-- the stored form of a polygon feature of a tile of level 10 has more than 32 bytes -/
theorem coast_long {mk : Line → Bytes} {dec : List Meta} {fast : Bool} {id : Nat} (hid : 2 ^ 56 ≤ id) {ps : List Polygon} (h4 : ∀ q ∈ ps, 4 ≤ q.outer.length) {b : Bytes}
    (h : serializeFeature mk dec fast ⟨id, 0, 0, 21, [], .polygon ps⟩ = .ok b) : 32 ≤ b.length := by
  unfold serializeFeature serializeGeometry at h
  cases ps with
  | nil => cases h
  | cons q ps =>
    have h4 := h4 q (by simp)
    simp only [serElements, List.isEmpty_cons, Bool.false_eq_true, if_false, Res.ok_bind] at h
    injection h with h
    subst h
    have e64 : ∀ v, 0 < (encS64 v).length := fun v => encVarint_length_pos _
    have hel : 11 ≤ (((q :: ps).length : Int) :: (serPolygons magicXY (q :: ps)).1).length := by
      simp only [serPolygons, serPoints, List.length_cons, List.length_append, serDeltas_length]
      omega
    generalize (((q :: ps).length : Int) :: (serPolygons magicXY (q :: ps)).1) = els at hel ⊢
    have h1 := flatMap_long encS64 e64 els
    have h2 := flatMap_long encS64 e64 (featureHeader ⟨id, 0, 0, 21, [], .polygon (q :: ps)⟩)
    have h3 : (featureHeader ⟨id, 0, 0, 21, [], .polygon (q :: ps)⟩).length = 7 := rfl
    have h5 := varint_long 8 id (by norm_num; omega)
    have hp := encVarint_length_pos
    simp only [encMessage, List.flatMap_cons, List.flatMap_append, List.flatMap_nil, List.length_append, PbfField.enc, List.length_nil]
    generalize hA : (List.flatMap encS64 els).length = A at *
    generalize hB : (List.flatMap encS64 (featureHeader ⟨id, 0, 0, 21, [], .polygon (q :: ps)⟩)).length = B at *
    have i1 := hp (8 * 1 + 2)
    have i2 := hp B
    have i3 := hp (8 * 2)
    have i4 := hp (8 * 7 + 2)
    have i5 := hp (8 * 1)
    have i6 := hp 3
    have i7 := hp (8 * 2 + 2)
    have i8 := hp A
    have i9 := hp ((encVarint (8 * 1)).length + (encVarint 3).length + ((encVarint (8 * 2 + 2)).length + ((encVarint A).length + A) + 0))
    omega

theorem coast_key {t : Tile} (hv : t.Valid) (hz : t.z = 10) {k : UInt64} (h : keyOfTile t = .ok k) : 2 ^ 56 ≤ k.toNat := by
  have h1 := keyToTile_keyOfTile (keyFits_of_valid hv (by omega)) h
  have h2 := keyToTile_nat k
  rw [h1] at h2
  rw [h2] at hz
  simp only at hz
  omega

end Tiles
