import Verif.Props.C70
import Mathlib.Topology.Order.Compact
/-! An example of a library that meets `ClipLib` and `LineLib`: every segment is cut at the border of the box, and the ends are rounded down. -/
namespace Tiles
open Spec

theorem onSeg_zero (a b : XY) : onSeg a b 0 = ((a.x : ℝ), (a.y : ℝ)) := by simp [onSeg]
theorem onSeg_one (a b : XY) : onSeg a b 1 = ((b.x : ℝ), (b.y : ℝ)) := by simp [onSeg]

/-- what of a segment lies in the box -/
def segIn (box : Box) (a b : XY) : Set ℝ := {t | (0 ≤ t ∧ t ≤ 1) ∧ BoxHas box (onSeg a b t)}

theorem segIn_compact (box : Box) (a b : XY) : IsCompact (segIn box a b) := by
  have h1 : segIn box a b = Set.Icc 0 1 ∩ {t | BoxHas box (onSeg a b t)} := by
    ext t; simp [segIn, Set.mem_Icc]
  rw [h1]
  refine isCompact_Icc.inter_right ?_
  have c1 : Continuous (fun t : ℝ => (a.x : ℝ) + t * (b.x - a.x)) := by fun_prop
  have c2 : Continuous (fun t : ℝ => (a.y : ℝ) + t * (b.y - a.y)) := by fun_prop
  exact (isClosed_le continuous_const c1).inter ((isClosed_le c1 continuous_const).inter ((isClosed_le continuous_const c2).inter (isClosed_le c2 continuous_const)))

/-- a point of the plane, rounded down -/
noncomputable def floorPt (p : ℝ × ℝ) : XY := ⟨⌊p.1⌋, ⌊p.2⌋⟩

/-- the part of a segment in the box -/
noncomputable def segPart (box : Box) (a b : XY) : List Line :=
  open Classical in if (segIn box a b).Nonempty then [[floorPt (onSeg a b (sInf (segIn box a b))), floorPt (onSeg a b (sSup (segIn box a b)))]] else []

noncomputable def segInter (box : Box) (ls : List Line) : List Line := ls.flatMap (fun l => (l.zip l.tail).flatMap (fun e => segPart box e.1 e.2))

theorem next_zip {l : Line} {a b : XY} (h : Next l a b) : (a, b) ∈ l.zip l.tail := by
  induction l with
  | nil => have := (next_mem h).1; cases this
  | cons x l ih =>
    rcases next_cons h with ⟨rfl, l', rfl⟩ | h
    · simp
    · have h2 := ih h
      cases l with
      | nil => simp at h2
      | cons y l =>
        simp only [List.tail_cons, List.zip_cons_cons, List.mem_cons] at h2 ⊢
        exact .inr h2

theorem floorPt_in {box : Box} {p : ℝ × ℝ} (h : BoxHas box p) : Around 0 box (floorPt p) := by
  obtain ⟨h1, h2, h3, h4⟩ := h
  simp only [Around, floorPt]
  have a1 := Int.le_floor.2 h1
  have a3 := Int.le_floor.2 h3
  have a2 : (⌊p.1⌋ : ℝ) ≤ box.max.x := (Int.floor_le p.1).trans h2
  have a4 : (⌊p.2⌋ : ℝ) ≤ box.max.y := (Int.floor_le p.2).trans h4
  have a2 : ⌊p.1⌋ ≤ box.max.x := by exact_mod_cast a2
  have a4 : ⌊p.2⌋ ≤ box.max.y := by exact_mod_cast a4
  omega

theorem floorPt_near (p : ℝ × ℝ) : |((floorPt p).x : ℝ) - p.1| ≤ 1 ∧ |((floorPt p).y : ℝ) - p.2| ≤ 1 := by
  have h1 := Int.floor_le p.1
  have h2 := Int.lt_floor_add_one p.1
  have h3 := Int.floor_le p.2
  have h4 := Int.lt_floor_add_one p.2
  simp only [floorPt, abs_le]
  refine ⟨⟨?_, ?_⟩, ?_, ?_⟩ <;> linarith

theorem seg_ends {box : Box} {a b : XY} (h : (segIn box a b).Nonempty) :
    sInf (segIn box a b) ∈ segIn box a b ∧ sSup (segIn box a b) ∈ segIn box a b ∧ ∀ u ∈ segIn box a b, sInf (segIn box a b) ≤ u ∧ u ≤ sSup (segIn box a b) := by
  have hc := segIn_compact box a b
  exact ⟨hc.sInf_mem h, hc.sSup_mem h, fun u hu => ⟨csInf_le hc.bddBelow hu, le_csSup hc.bddAbove hu⟩⟩

theorem segPart_mem {box : Box} {ls : List Line} {part : Line} (h : part ∈ segInter box ls) :
    ∃ a b, (segIn box a b).Nonempty ∧ part = [floorPt (onSeg a b (sInf (segIn box a b))), floorPt (onSeg a b (sSup (segIn box a b)))] := by
  obtain ⟨l, _, h⟩ := List.mem_flatMap.1 h
  obtain ⟨e, _, h⟩ := List.mem_flatMap.1 h
  unfold segPart at h
  split at h
  · rename_i hne
    exact ⟨e.1, e.2, hne, List.mem_singleton.1 h⟩
  · cases h

theorem segPart_of {box : Box} {ls : List Line} {l : Line} (hl : l ∈ ls) {a b : XY} (h : Next l a b) (hne : (segIn box a b).Nonempty) :
    [floorPt (onSeg a b (sInf (segIn box a b))), floorPt (onSeg a b (sSup (segIn box a b)))] ∈ segInter box ls := by
  refine List.mem_flatMap.2 ⟨l, hl, List.mem_flatMap.2 ⟨(a, b), next_zip h, ?_⟩⟩
  unfold segPart
  rw [if_pos hne]
  exact List.mem_singleton.2 rfl

/-- no point of a segment in the box is further away from its part in the result than a unit -/
theorem seg_covered {box : Box} {a b : XY} (hne : (segIn box a b).Nonempty) (u : ℝ) (u0 : 0 ≤ u) (u1 : u ≤ 1) (hu : BoxHas box (onSeg a b u)) :
    ∃ v : ℝ, 0 ≤ v ∧ v ≤ 1 ∧ CloseBy (1 : Int) (onSeg (floorPt (onSeg a b (sInf (segIn box a b)))) (floorPt (onSeg a b (sSup (segIn box a b)))) v) (onSeg a b u) := by
  obtain ⟨k1, k2, k3⟩ := seg_ends hne
  have inu : u ∈ segIn box a b := ⟨⟨u0, u1⟩, hu⟩
  obtain ⟨m1, m2⟩ := k3 u inu
  generalize sInf (segIn box a b) = lo at *
  generalize sSup (segIn box a b) = hi at *
  obtain ⟨c1, c2⟩ := floorPt_near (onSeg a b lo)
  obtain ⟨d1, d2⟩ := floorPt_near (onSeg a b hi)
  by_cases hlh : lo = hi
  · have hul : u = lo := le_antisymm (by rw [hlh]; exact m2) m1
    refine ⟨0, le_rfl, zero_le_one, ?_⟩
    rw [onSeg_zero, hul]
    simpa [CloseBy] using ⟨c1, c2⟩
  · have hpos : 0 < hi - lo := by
      have := lt_of_le_of_ne (m1.trans m2) hlh
      linarith
    have hv : (u - lo) / (hi - lo) * (hi - lo) = u - lo := div_mul_cancel₀ _ hpos.ne'
    refine ⟨(u - lo) / (hi - lo), div_nonneg (by linarith) hpos.le, (div_le_one hpos).2 (by linarith), ?_⟩
    have v0 : 0 ≤ (u - lo) / (hi - lo) := div_nonneg (by linarith) hpos.le
    have v1 : (u - lo) / (hi - lo) ≤ 1 := (div_le_one hpos).2 (by linarith)
    have r1 := mix_close v0 v1 c1 d1
    have r2 := mix_close v0 v1 c2 d2
    generalize (u - lo) / (hi - lo) = v at *
    have hu : u = lo + v * (hi - lo) := by linarith
    simp only [onSeg, CloseBy, Int.cast_one] at *
    refine ⟨?_, ?_⟩
    · convert r1 using 2
      rw [hu]; ring
    · convert r2 using 2
      rw [hu]; ring

theorem seg_lines : LineLib 1 segInter where
  stays := by
    intro box ls l hl a b h _ ha hb
    have in0 : (0 : ℝ) ∈ segIn box a b := by
      refine ⟨⟨le_rfl, zero_le_one⟩, ?_⟩
      rw [onSeg_zero]
      obtain ⟨h1, h2, h3, h4⟩ := ha
      refine ⟨?_, ?_, ?_, ?_⟩ <;> simp only <;> exact_mod_cast (by omega)
    have in1 : (1 : ℝ) ∈ segIn box a b := by
      refine ⟨⟨zero_le_one, le_rfl⟩, ?_⟩
      rw [onSeg_one]
      obtain ⟨h1, h2, h3, h4⟩ := hb
      refine ⟨?_, ?_, ?_, ?_⟩ <;> simp only <;> exact_mod_cast (by omega)
    obtain ⟨k1, k2, k3⟩ := seg_ends ⟨0, in0⟩
    have e0 : sInf (segIn box a b) = 0 := le_antisymm (k3 0 in0).1 k1.1.1
    have e1 : sSup (segIn box a b) = 1 := le_antisymm k2.1.2 (k3 1 in1).2
    refine ⟨_, segPart_of hl h ⟨0, in0⟩, ?_⟩
    rw [e0, e1, onSeg_zero, onSeg_one]
    simp only [floorPt, Int.floor_intCast]
    exact List.infix_rfl
  crosses := by
    intro box ls l hl a b h s t s0 s1 t0 t1 hs ht _
    have ins : s ∈ segIn box a b := ⟨⟨s0, s1⟩, hs⟩
    exact ⟨_, segPart_of hl h ⟨s, ins⟩, _, _, List.infix_rfl, fun u u0 u1 hu => seg_covered ⟨s, ins⟩ u u0 u1 hu⟩

theorem seg_clip : ClipLib 1 segInter C62_clipper id where
  lines := by
    intro box ls part hp p hpp
    obtain ⟨a, b, hne, rfl⟩ := segPart_mem hp
    obtain ⟨k1, k2, _⟩ := seg_ends hne
    have : Around 0 box p := by
      simp only [List.mem_cons, List.not_mem_nil, or_false] at hpp
      rcases hpp with rfl | rfl
      · exact floorPt_in k1.2
      · exact floorPt_in k2.2
    simp only [Around] at this ⊢
    omega
  accepts := C62_lib.accepts
  tree := by
    intro paths box nodes h
    obtain ⟨h1, h2⟩ := C62_lib.tree paths box nodes h
    refine ⟨h1, fun q hq r hr p hp => ?_⟩
    have := h2 q hq r hr p hp
    simp only [Around] at this ⊢
    omega
  turns := C62_lib.turns

end Tiles
