import Verif.Proof.CoastSea
import Verif.Props.C52
import Verif.Proof.PackSize
/-! C69: a polygon library that works with squares of 4096 units, exact at their centres; it meets all assumptions about shapes and sizes. -/
namespace Tiles
open Spec

/-- a square -/
def coarseBox (c : Int × Int) : Box := ⟨⟨4096 * c.1, 4096 * c.2⟩, ⟨4096 * c.1 + 4096, 4096 * c.2 + 4096⟩⟩

def coarsePath (c : Int × Int) : Line := boxToPath (coarseBox c)

/-- half a unit off its centre -/
def coarseCentre (c : Int × Int) : Pt := cellCentre (4096 * c.1 + 2048, 4096 * c.2 + 2048)

/-- the squares with their centre in a box -/
def coarseCells (b : Box) : List (Int × Int) :=
  (List.range ((b.max.x + 2047) / 4096 - (b.min.x + 2047) / 4096).toNat).flatMap fun (i : Nat) =>
    (List.range ((b.max.y + 2047) / 4096 - (b.min.y + 2047) / 4096).toNat).map fun (j : Nat) => ((b.min.x + 2047) / 4096 + (i : Int), (b.min.y + 2047) / 4096 + (j : Int))

def coarsePts : Set Pt := {p | ∃ c, p = coarseCentre c}

def coarseLib : CoastLib where
  inter g b := .ok (if coarseCells b ≠ [] ∧ (coarseCells b).all (fun c => inPaths g (coarseCentre c)) then [boxToPath b]
    else ((coarseCells b).filter (fun c => inPaths g (coarseCentre c))).map coarsePath)
  diff b gs := ((coarseCells b).filter (fun c => !inSets gs (coarseCentre c))).map (fun c => .mk (coarsePath c) false [])
  correct := id
  mask _ := []

theorem mem_coarseCells {b : Box} {c : Int × Int} : c ∈ coarseCells b ↔ InBox b (coarseCentre c) := by
  obtain ⟨i, j⟩ := c
  simp only [coarseCells, List.mem_flatMap, List.mem_range, List.mem_map, Prod.mk.injEq, InBox, coarseCentre, cellCentre, half_le, half_le']
  constructor
  · rintro ⟨a, ha, b', hb, rfl, rfl⟩; omega
  · rintro ⟨h1, h2, h3, h4⟩
    exact ⟨(i - (b.min.x + 2047) / 4096).toNat, by omega, (j - (b.min.y + 2047) / 4096).toNat, by omega, by omega, by omega⟩

theorem coarseCells_nodup (b : Box) : (coarseCells b).Nodup := by
  unfold coarseCells
  rw [List.nodup_flatMap]
  refine ⟨fun y _ => ?_, ?_⟩
  · exact List.Nodup.map (fun a b h => by injection h; omega) List.nodup_range
  · refine List.Pairwise.imp ?_ List.nodup_range
    intro a b hab
    simp only [List.disjoint_left, List.mem_map]
    rintro t ⟨x, _, rfl⟩ ⟨x', _, h⟩
    injection h with h; omega

theorem inRing_coarse (c d : Int × Int) : inRing (coarsePath c) (coarseCentre d) = decide (d = c) := by
  obtain ⟨i, j⟩ := c
  obtain ⟨i', j'⟩ := d
  rw [coarsePath, coarseCentre, inRing_boxPath _ (by simp [coarseBox]) (by simp [coarseBox]), Bool.eq_iff_iff, decide_eq_true_eq, decide_eq_true_eq, Prod.mk.injEq]
  simp only [InBox, cellCentre, half_le, half_le', coarseBox]
  omega

theorem inPaths_coarse {cs : List (Int × Int)} (hn : cs.Nodup) (d : Int × Int) :
    inPaths (cs.map coarsePath) (coarseCentre d) = decide (d ∈ cs) := by
  induction cs with
  | nil => rfl
  | cons c cs ih =>
    rw [List.nodup_cons] at hn
    rw [List.map_cons, inPaths_cons, inRing_coarse, ih hn.2]
    by_cases h : d = c
    · subst h; simp [hn.1]
    · simp [h]

theorem treePaths_coarse (cs : List (Int × Int)) : treePaths (cs.map (fun c => .mk (coarsePath c) false [])) = cs.map coarsePath := by
  induction cs with
  | nil => rfl
  | cons c cs ih =>
    rw [List.map_cons, List.map_cons, treePaths, ih]
    rfl

theorem coarseCells_ne {b : Box} (h : coarseCells b ≠ []) : b.min.x ≤ b.max.x ∧ b.min.y ≤ b.max.y := by
  obtain ⟨c, hc⟩ := List.exists_mem_of_ne_nil _ h
  rw [mem_coarseCells] at hc
  obtain ⟨i, j⟩ := c
  simp only [InBox, coarseCentre, cellCentre, half_le, half_le'] at hc
  omega

theorem coarseLib_exact : ExactAt coarseLib coarsePts := by
  refine ⟨?_, ?_, ?_, fun ps p _ => rfl⟩
  · rintro g b r h p ⟨c, rfl⟩
    injection h with h; subst h
    split
    · rename_i hall
      obtain ⟨e1, e2⟩ := coarseCells_ne hall.1
      show xor (inRing (boxToPath b) (coarseCentre c)) false = _
      rw [Bool.xor_false, coarseCentre, inRing_boxPath b e1 e2, ← coarseCentre]
      by_cases hin : InBox b (coarseCentre c)
      · rw [decide_eq_true hin, Bool.and_true, (List.all_eq_true.1 hall.2) c (mem_coarseCells.2 hin)]
      · rw [decide_eq_false hin, Bool.and_false]
    rw [inPaths_coarse ((coarseCells_nodup b).filter _), Bool.eq_iff_iff, decide_eq_true_eq, List.mem_filter, mem_coarseCells]
    simp [and_comm]
  · rintro g b r h hf p ⟨c, rfl⟩ hin
    injection h with h; subst h
    split at hf
    · rename_i hall
      obtain ⟨e1, e2⟩ := coarseCells_ne hall.1
      rw [if_pos hall]
      show xor (inRing (boxToPath b) (coarseCentre c)) false = _
      rw [Bool.xor_false, coarseCentre, inRing_boxPath b e1 e2, ← coarseCentre, decide_eq_true hin]
    rename_i hall
    rw [if_neg hall]
    clear hall
    have hnd := (coarseCells_nodup b).filter (fun c => inPaths g (coarseCentre c))
    generalize hcs : (coarseCells b).filter (fun c => inPaths g (coarseCentre c)) = cs at *
    match cs, hf with
    | [], hf => simp [isFull] at hf
    | _ :: _ :: _, hf => simp [isFull] at hf
    | [d], hf =>
      obtain ⟨i, j⟩ := d
      have hd : (i, j) ∈ coarseCells b := by
        have : (i, j) ∈ (coarseCells b).filter (fun c => inPaths g (coarseCentre c)) := by rw [hcs]; simp
        exact (List.mem_filter.1 this).1
      rw [mem_coarseCells] at hd
      obtain ⟨bi, bj⟩ := b
      obtain ⟨x0, y0⟩ := bi
      obtain ⟨x1, y1⟩ := bj
      obtain ⟨i', j'⟩ := c
      rw [inPaths_coarse hnd]
      simp only [InBox, coarseCentre, cellCentre, half_le, half_le'] at hd hin
      have hall : ∀ q ∈ coarsePath (i, j), q ∈ boxToPath ⟨⟨x0, y0⟩, ⟨x1, y1⟩⟩ := by
        simp only [isFull, List.map_cons, List.map_nil, Bool.and_eq_true, List.all_eq_true, decide_eq_true_eq] at hf
        exact hf.2
      have h1 := hall ⟨4096 * i, 4096 * j⟩ (by simp [coarsePath, coarseBox, boxToPath])
      have h3 := hall ⟨4096 * i + 4096, 4096 * j + 4096⟩ (by simp [coarsePath, coarseBox, boxToPath])
      simp only [boxToPath, List.mem_cons, XY.mk.injEq, List.not_mem_nil, or_false] at h1 h3
      simp only [List.mem_singleton, Prod.mk.injEq, decide_eq_true_eq]
      omega
  · rintro b gs p ⟨c, rfl⟩
    show inPaths (treePaths (((coarseCells b).filter (fun c => !inSets gs (coarseCentre c))).map (fun c => .mk (coarsePath c) false []))) _ = _
    rw [treePaths_coarse, inPaths_coarse ((coarseCells_nodup b).filter _), Bool.eq_iff_iff, decide_eq_true_eq, List.mem_filter, mem_coarseCells]
    simp

/-- the square as a polygon -/
def coarsePolygon (c : Int × Int) : Polygon := ⟨coarsePath c ++ [⟨4096 * c.1, 4096 * c.2⟩], []⟩

theorem coarse_fixed : ∀ (cs : List (Int × Int)) (acc : List Polygon),
    toFixedPolygon acc (cs.map (fun c => .mk (coarsePath c) false [])) = .ok (acc ++ cs.map coarsePolygon) := by
  intro cs
  induction cs with
  | nil => intro acc; simp [toFixedPolygon]
  | cons c cs ih =>
    intro acc
    have h := ih (acc ++ [coarsePolygon c])
    rw [List.map_cons, toFixedPolygon]
    simp only [Bool.not_false, verify_true, Res.ok_bind, toFixedInners]
    rw [List.map_cons, show acc ++ coarsePolygon c :: cs.map coarsePolygon = acc ++ [coarsePolygon c] ++ cs.map coarsePolygon by simp, ← h]
    rfl

theorem coarseLib_works : Works coarseLib := ⟨fun g b => ⟨_, rfl⟩, fun b gs => ⟨_, coarse_fixed _ _⟩, fun ps h => h⟩

theorem coarseLib_fills : Fills coarseLib coarsePts := by
  rintro g b r h ⟨p, ⟨c, rfl⟩, hin⟩ hcov
  injection h with h; subst h
  rw [if_pos ⟨List.ne_nil_of_mem (mem_coarseCells.2 hin), List.all_eq_true.2 (fun c hc => hcov _ ⟨c, rfl⟩ (mem_coarseCells.1 hc))⟩]
  simp [isFull, boxToPath]

theorem coarsePts_dense : Dense coarsePts := by
  intro t hv hz
  have hk : (1 : Int) ≤ 2 ^ (20 - t.z) := by exact_mod_cast Nat.one_le_two_pow
  have e : ∀ n : Nat, (n : Int) * 4096 * 2 ^ (20 - t.z) = 4096 * (n * 2 ^ (20 - t.z)) := fun n => by ring
  have e' : ∀ n : Nat, ((n : Int) + 1) * 4096 * 2 ^ (20 - t.z) = 4096 * (n * 2 ^ (20 - t.z)) + 4096 * 2 ^ (20 - t.z) := fun n => by ring
  refine ⟨⟨coarseCentre ((t.x : Int) * 2 ^ (20 - t.z), (t.y : Int) * 2 ^ (20 - t.z)), ⟨_, rfl⟩, ?_⟩,
    coarseCentre ((t.x : Int) * 2 ^ (20 - t.z) - 1, (t.y : Int) * 2 ^ (20 - t.z)), ⟨_, rfl⟩, ?_, ?_⟩
  · simp only [InBox, coarseCentre, cellCentre, half_le, half_le', insertBounds, pxBounds, e, e']
    omega
  · simp only [InBox, coarseCentre, cellCentre, half_le, half_le', drawBounds, pxBounds, kOverdraw, e, e']
    omega
  · simp only [InBox, coarseCentre, cellCentre, half_le, half_le', insertBounds, pxBounds, e, e']
    omega

/-- what this library cuts out: squares, at most 1026² of them, one of them in the tile -/
theorem coarse_cut {t : Tile} {ps : List Polygon} (h : CoastCut coarseLib t ps) :
    ∃ cs : List (Int × Int), ps = cs.map coarsePolygon ∧ (∀ c ∈ cs, InBox (drawBounds t) (coarseCentre c)) ∧ cs.length ≤ 1026 * 1026 ∧
      ∃ c ∈ cs, InBox (insertBounds t) (coarseCentre c) := by
  obtain ⟨hv, hz, gs, p, i, h1, h2, h3, h4⟩ := h
  have hsol : coarseLib.diff (drawBounds t) gs = ((coarseCells (drawBounds t)).filter (fun c => !inSets gs (coarseCentre c))).map (fun c => .mk (coarsePath c) false []) := rfl
  have hnd := (coarseCells_nodup (drawBounds t)).filter (fun c => !inSets gs (coarseCentre c))
  have hlen : (coarseCells (drawBounds t)).length ≤ 1026 * 1026 := by
    have key : ∀ n : Nat, ((((n : Int) + 1) * 4096 * 2 ^ (20 - 10) + 4096 + 2047) / 4096 - ((n : Int) * 4096 * 2 ^ (20 - 10) - 4096 + 2047) / 4096).toNat = 1026 := by
      intro n; omega
    have ex : (coarseCells (drawBounds t)).length = (((drawBounds t).max.x + 2047) / 4096 - ((drawBounds t).min.x + 2047) / 4096).toNat *
        (((drawBounds t).max.y + 2047) / 4096 - ((drawBounds t).min.y + 2047) / 4096).toNat := by
      simp [coarseCells, List.length_flatMap, List.map_const']
    rw [ex]
    simp only [drawBounds, pxBounds, hz, kOverdraw]
    rw [key, key]
  rw [hsol] at h1 h3
  generalize hcs : (coarseCells (drawBounds t)).filter (fun c => !inSets gs (coarseCentre c)) = cs at h1 h3 hnd
  rw [coarse_fixed, List.nil_append] at h1
  injection h1 with h1
  subst h1
  have hin : ∀ c ∈ cs, InBox (drawBounds t) (coarseCentre c) := by
    intro c hc
    rw [← hcs] at hc
    exact mem_coarseCells.1 (List.mem_filter.1 hc).1
  refine ⟨cs, h2, hin, ?_, ?_⟩
  · rw [← hcs]; exact (List.length_filter_le _ _).trans hlen
  · rw [treePaths_coarse] at h3
    injection h3 with h3
    rw [← h3] at h4
    have : ∃ c, InBox (insertBounds t) (coarseCentre c) ∧ inPaths (cs.map coarsePath) (coarseCentre c) = true := by
      split at h4
      · rename_i hall
        obtain ⟨c, hc⟩ := List.exists_mem_of_ne_nil _ hall.1
        exact ⟨c, mem_coarseCells.1 hc, (List.all_eq_true.1 hall.2) c hc⟩
      · obtain ⟨l, hl⟩ := List.exists_mem_of_ne_nil _ h4
        obtain ⟨c, hc, _⟩ := List.mem_map.1 hl
        obtain ⟨a, b⟩ := List.mem_filter.1 hc
        exact ⟨c, mem_coarseCells.1 a, b⟩
    obtain ⟨c, k1, k2⟩ := this
    rw [inPaths_coarse hnd, decide_eq_true_eq] at k2
    exact ⟨c, k2, k1⟩

/-- each square lies in the rectangle that it was cut out of -/
theorem coarse_inside {t : Tile} (hz : t.z = 10) {c : Int × Int} (h : InBox (drawBounds t) (coarseCentre c)) :
    (drawBounds t).min.x ≤ 4096 * c.1 ∧ 4096 * c.1 + 4096 ≤ (drawBounds t).max.x ∧ (drawBounds t).min.y ≤ 4096 * c.2 ∧ 4096 * c.2 + 4096 ≤ (drawBounds t).max.y := by
  simp only [InBox, coarseCentre, cellCentre, half_le, half_le', drawBounds, pxBounds, kOverdraw, hz] at h ⊢
  omega

theorem coarse_points {c : Int × Int} {v : XY} (h : v ∈ (coarsePolygon c).outer) : (v.x = 4096 * c.1 ∨ v.x = 4096 * c.1 + 4096) ∧ (v.y = 4096 * c.2 ∨ v.y = 4096 * c.2 + 4096) := by
  simp only [coarsePolygon, coarsePath, coarseBox, boxToPath, List.mem_append, List.mem_cons, List.not_mem_nil, or_false] at h
  rcases h with (rfl | rfl | rfl | rfl) | rfl <;> simp

theorem coarse_ring {c : Int × Int} {r : Line} (h : r ∈ (coarsePolygon c).outer :: (coarsePolygon c).inners) : r = (coarsePolygon c).outer := by
  simpa [coarsePolygon] using h

theorem coarse_outer_length (c : Int × Int) : (coarsePolygon c).outer.length = 5 := rfl

theorem coarse_shapes : GoodShapes coarseLib coarsePts := by
  constructor
  · intro t ps h q hq r hr
    obtain ⟨cs, rfl, _⟩ := coarse_cut h
    obtain ⟨c, _, rfl⟩ := List.mem_map.1 hq
    rw [coarse_ring hr, coarse_outer_length]
    norm_num
  · intro t ps h
    obtain ⟨cs, rfl, _, h2, _⟩ := coarse_cut h
    refine ⟨by rw [List.length_map]; omega, fun q hq => ?_⟩
    obtain ⟨c, _, rfl⟩ := List.mem_map.1 hq
    simp [coarsePolygon]
  · intro t ps h q hq r hr v hv
    have hz := h.2.1
    obtain ⟨cs, rfl, h1, _⟩ := coarse_cut h
    obtain ⟨c, hc, rfl⟩ := List.mem_map.1 hq
    rw [coarse_ring hr] at hv
    have k1 := coarse_inside hz (h1 c hc)
    have k2 := coarse_points hv
    simp only [InBox]
    refine ⟨?_, ?_, ?_, ?_⟩ <;> rw [Int.cast_le] <;> omega
  · intro t ps h q hq i hi
    obtain ⟨cs, rfl, _⟩ := coarse_cut h
    obtain ⟨c, _, rfl⟩ := List.mem_map.1 hq
    simp [coarsePolygon] at hi
  · intro t ps h
    have hz := h.2.1
    obtain ⟨cs, rfl, _, _, c, hc, hin⟩ := coarse_cut h
    have hmem : ∀ v ∈ (coarsePolygon c).outer, v ∈ envelopePoints (.polygon (cs.map coarsePolygon)) := by
      intro v hv
      exact List.mem_flatMap.2 ⟨coarsePolygon c, List.mem_map.2 ⟨c, hc, rfl⟩, hv⟩
    have h1 := (foldl_expand (envelopePoints (.polygon (cs.map coarsePolygon))) inverseBox).2.2.2.2.1 _ (hmem ⟨4096 * c.1, 4096 * c.2⟩ (by simp [coarsePolygon]))
    simp only [InBox, coarseCentre, cellCentre, half_le, half_le', insertBounds, pxBounds, hz] at hin
    simp only [touches, side, hz, boundingBox]
    dsimp only at h1
    omega

theorem zigzag_le {v : Int} {k : Nat} (h : |v| ≤ k) : zigzag v ≤ 2 * k := by
  obtain ⟨h1, h2⟩ := abs_le.1 h
  unfold zigzag
  split <;> omega

theorem s64_short {v : Int} (h : |v| ≤ 2 ^ 33) : (encS64 v).length ≤ 5 :=
  varint_len 4 _ (lt_of_le_of_lt (zigzag_le (k := 2 ^ 33) (by simpa using h)) (by norm_num))

theorem flatMap_short {α : Type} (f : α → Bytes) {k : Nat} : ∀ l : List α, (∀ a ∈ l, (f a).length ≤ k) → (l.flatMap f).length ≤ k * l.length := by
  intro l h
  induction l with
  | nil => simp
  | cons a l ih =>
    rw [List.flatMap_cons, List.length_append, List.length_cons]
    have := h a (by simp)
    have := ih (fun b hb => h b (by simp [hb]))
    rw [Nat.mul_add]; omega

/-- not far from the map -/
def NearMap (p : XY) : Prop := -4096 ≤ p.x ∧ p.x ≤ 2 ^ 32 + 4096 ∧ -4096 ≤ p.y ∧ p.y ≤ 2 ^ 32 + 4096

theorem deltas_short : ∀ (l : List XY) (c : XY), NearMap c → (∀ p ∈ l, NearMap p) → (∀ v ∈ (serDeltas c l).1, |v| ≤ 2 ^ 33) ∧ NearMap (serDeltas c l).2 := by
  intro l
  induction l with
  | nil => intro c hc _; exact ⟨by simp [serDeltas], hc⟩
  | cons p l ih =>
    intro c hc h
    have hp := h p (by simp)
    obtain ⟨h1, h2⟩ := ih p hp (fun x hx => h x (by simp [hx]))
    rw [serDeltas]
    refine ⟨fun v hv => ?_, h2⟩
    unfold NearMap at hc hp
    simp only [List.mem_cons] at hv
    rcases hv with rfl | rfl | hv
    · rw [abs_le]; constructor <;> omega
    · rw [abs_le]; constructor <;> omega
    · exact h1 v hv

theorem coarse_polygons_short : ∀ (cs : List (Int × Int)) (p : XY), NearMap p → (∀ c ∈ cs, ∀ v ∈ (coarsePolygon c).outer, NearMap v) →
    (∀ v ∈ (serPolygons p (cs.map coarsePolygon)).1, |v| ≤ 2 ^ 33) ∧ (serPolygons p (cs.map coarsePolygon)).1.length = 12 * cs.length := by
  intro cs
  induction cs with
  | nil => intro p _ _; simp [serPolygons]
  | cons c cs ih =>
    intro p hp h
    obtain ⟨h1, h2⟩ := deltas_short (coarsePolygon c).outer p hp (h c (by simp))
    obtain ⟨h3, h4⟩ := ih _ h2 (fun c hc => h c (by simp [hc]))
    have e : serPolygons p ((c :: cs).map coarsePolygon) = (((coarsePolygon c).outer.length : Int) :: (serDeltas p (coarsePolygon c).outer).1 ++ 0 ::
        (serPolygons (serDeltas p (coarsePolygon c).outer).2 (cs.map coarsePolygon)).1, (serPolygons (serDeltas p (coarsePolygon c).outer).2 (cs.map coarsePolygon)).2) := rfl
    rw [e]
    refine ⟨fun v hv => ?_, ?_⟩
    · simp only [List.cons_append, List.mem_cons, List.mem_append] at hv
      rcases hv with rfl | hv | rfl | hv
      · rw [coarse_outer_length]; norm_num
      · exact h1 v hv
      · norm_num
      · exact h3 v hv
    · simp only [List.cons_append, List.length_cons, List.length_append, serDeltas_length, coarse_outer_length, h4]
      omega

theorem coarse_near {t : Tile} (hv : t.Valid) (hz : t.z = 10) {c : Int × Int} (h : InBox (drawBounds t) (coarseCentre c)) : ∀ v ∈ (coarsePolygon c).outer, NearMap v := by
  intro v hv'
  have k1 := coarse_inside hz h
  have k2 := coarse_points hv'
  have hx := hv.1
  have hy := hv.2
  rw [hz] at hx hy
  simp only [drawBounds, pxBounds, kOverdraw, hz] at k1
  unfold NearMap
  norm_num at hx hy k1 ⊢
  omega

theorem masks_coarse (mk : Line → Bytes) (cs : List (Int × Int)) :
    (cs.map coarsePolygon).flatMap (fun p => mk p.outer :: p.inners.map mk) = cs.map (fun c => mk (coarsePolygon c).outer) := by
  induction cs with
  | nil => rfl
  | cons c cs ih => rw [List.map_cons, List.flatMap_cons, ih]; rfl

theorem coarse_size {t : Tile} {ps : List Polygon} (h : CoastCut coarseLib t ps) {mk : Line → Bytes} (hmk : ∀ l, (mk l).length ≤ l.length) {dec : List Meta} {fast : Bool}
    {k : UInt64} {b : Bytes} (hb : serializeFeature mk dec fast ⟨k.toNat, 0, 0, 21, [], .polygon ps⟩ = .ok b) : b.length ≤ 2 ^ 27 := by
  have hv := h.1
  have hz := h.2.1
  have hcut := h
  obtain ⟨cs, rfl, h1, h2, h3⟩ := coarse_cut h
  have hne : cs.map coarsePolygon ≠ [] := by
    obtain ⟨c, hc, _⟩ := h3
    exact List.ne_nil_of_mem (List.mem_map.2 ⟨c, hc, rfl⟩)
  have hst := made_storable (k := k) coarse_shapes hv hz hne hcut.2.2
  have hnear : ∀ c ∈ cs, ∀ v ∈ (coarsePolygon c).outer, NearMap v := fun c hc => coarse_near hv hz (h1 c hc)
  obtain ⟨s1, s2⟩ := coarse_polygons_short cs magicXY (by unfold NearMap; decide) hnear
  have hpts : ∀ p ∈ envelopePoints (.polygon (cs.map coarsePolygon)), NearMap p := by
    intro p hp
    obtain ⟨q, hq, hp⟩ := List.mem_flatMap.1 hp
    obtain ⟨c, hc, rfl⟩ := List.mem_map.1 hq
    exact hnear c hc p (by simpa [coarsePolygon] using hp)
  obtain ⟨_, ⟨p1, m1, e1⟩, ⟨p2, m2, e2⟩, ⟨p3, m3, e3⟩, ⟨p4, m4, e4⟩⟩ := boundingBox_spec hst.coords hst.points
  have n1 := hpts p1 m1
  have n2 := hpts p2 m2
  have n3 := hpts p3 m3
  have n4 := hpts p4 m4
  unfold NearMap at n1 n2 n3 n4
  have hhead : ∀ v ∈ featureHeader ⟨k.toNat, 0, 0, 21, [], .polygon (cs.map coarsePolygon)⟩, |v| ≤ 2 ^ 33 := by
    intro v hv
    simp only [featureHeader, List.mem_cons, List.not_mem_nil, or_false] at hv
    have hoff : kFixedCoordMagicOffset = 2 ^ 31 - 1 := by decide
    rcases hv with rfl | rfl | rfl | rfl | rfl | rfl | rfl
    · norm_num
    · norm_num
    · rw [← e1, hoff, abs_le]; constructor <;> omega
    · rw [← e1, ← e3, abs_le]; constructor <;> omega
    · rw [← e2, hoff, abs_le]; constructor <;> omega
    · rw [← e2, ← e4, abs_le]; constructor <;> omega
    · have : toI64 0 = 0 := by decide
      rw [this]; norm_num
  have b1 := flatMap_short encS64 _ (fun v hv => s64_short (hhead v hv))
  have hl7 : (featureHeader ⟨k.toNat, 0, 0, 21, [], .polygon (cs.map coarsePolygon)⟩).length = 7 := rfl
  rw [hl7] at b1
  have b2 := flatMap_short encS64 (((cs.map coarsePolygon).length : Int) :: (serPolygons magicXY (cs.map coarsePolygon)).1) (k := 5) (fun v hv => by
    rcases List.mem_cons.1 hv with rfl | hv
    · refine s64_short ?_
      rw [abs_le, List.length_map]; constructor <;> omega
    · exact s64_short (s1 v hv))
  rw [List.length_cons, s2] at b2
  have b3 : ((makeSimplifyMask mk (.polygon (cs.map coarsePolygon))).flatMap (fun m => (PbfField.bytes 6 m).enc)).length ≤ 7 * cs.length := by
    have e : makeSimplifyMask mk (.polygon (cs.map coarsePolygon)) = cs.map (fun c => mk (coarsePolygon c).outer) := by
      simp only [makeSimplifyMask]
      exact masks_coarse mk cs
    rw [e, List.flatMap_map]
    refine flatMap_short _ cs (fun c _ => ?_)
    have h5 := hmk (coarsePolygon c).outer
    rw [coarse_outer_length] at h5
    have i1 := varint_len 0 (8 * 6 + 2) (by norm_num)
    have i2 := varint_len 0 (mk (coarsePolygon c).outer).length (by omega)
    simp only [PbfField.enc, List.length_append]
    omega
  unfold serializeFeature serializeGeometry at hb
  have hem : (cs.map coarsePolygon).isEmpty = false := by simpa using hne
  simp only [serElements, hem, Bool.false_eq_true, if_false, Res.ok_bind] at hb
  injection hb with hb
  subst hb
  generalize (((cs.map coarsePolygon).length : Int) :: (serPolygons magicXY (cs.map coarsePolygon)).1) = els at b2 ⊢
  have hmeta : featureMetaFields dec fast [] = [] := by unfold featureMetaFields; split <;> simp
  have hmask : (List.flatMap PbfField.enc (if fast then [] else (makeSimplifyMask mk (.polygon (cs.map coarsePolygon))).map (.bytes 6))).length ≤ 7 * cs.length := by
    split
    · simp
    · rw [List.flatMap_map]; exact b3
  simp only [encMessage, List.flatMap_cons, List.flatMap_append, List.flatMap_nil, List.length_append, PbfField.enc, List.length_nil, hmeta]
  generalize hA : (List.flatMap encS64 els).length = A at *
  generalize hB : (List.flatMap encS64 (featureHeader ⟨k.toNat, 0, 0, 21, [], .polygon (cs.map coarsePolygon)⟩)).length = B at *
  have i1 := varint_len 0 (8 * 1 + 2) (by norm_num)
  have i2 := varint_len 0 B (by norm_num; omega)
  have i3 := varint_len 0 (8 * 2) (by norm_num)
  have i4 := varint_len 0 (8 * 7 + 2) (by norm_num)
  have i5 := varint_len 0 (8 * 1) (by norm_num)
  have i6 := varint_len 0 3 (by norm_num)
  have i7 := varint_len 0 (8 * 2 + 2) (by norm_num)
  have i8 := varint_len 4 A (by norm_num; omega)
  have i9 := varint_len 4 ((encVarint (8 * 1)).length + (encVarint 3).length + ((encVarint (8 * 2 + 2)).length + ((encVarint A).length + A) + 0)) (by rw [show (128 : Nat) ^ (4 + 1) = 34359738368 by norm_num]; omega)
  have i10 := varint_len 9 k.toNat (by have := k.toNat_lt; norm_num at this ⊢; omega)
  omega

end Tiles
