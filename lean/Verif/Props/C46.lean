import Verif.Model.Clip
import Mathlib.Tactic.ByContra
/-! C46 — clipping points keeps exactly the points strictly inside the box, in order. -/
namespace Tiles

/-- specification: strictly inside -/
def Spec.Inside (b : Box) (p : XY) : Prop := b.min.x < p.x ∧ p.x < b.max.x ∧ b.min.y < p.y ∧ p.y < b.max.y

instance (b : Box) : DecidablePred (Spec.Inside b) := fun p => by unfold Spec.Inside; infer_instance

theorem clipPointLoop_eq (box : Box) (l out : List XY) :
    clipPointLoop box out l = out ++ l.filter (fun p => Spec.Inside box p) := by
  induction l generalizing out with
  | nil => simp [clipPointLoop]
  | cons a l ih =>
    have h : withinBox a box = decide (Spec.Inside box a) := by
      rw [Bool.eq_iff_iff, decide_eq_true_iff]; simp [withinBox, Spec.Inside, and_assoc]
    by_cases hi : Spec.Inside box a
    · simp [clipPointLoop, h, hi, ih]
    · simp [clipPointLoop, h, hi, ih]

/-- some point inside: exactly the inside points, in order -/
theorem C46_keeps_inside (p : List XY) (box : Box) (h : ∃ q ∈ p, Spec.Inside box q) :
    ∃ out, clipPoint p box = .point out ∧ out.Sublist p ∧ out ≠ [] ∧
      (∀ q, out.count q = if Spec.Inside box q then p.count q else 0) := by
  refine ⟨p.filter (fun q => Spec.Inside box q), ?_, List.filter_sublist, ?_, ?_⟩
  · have hne : (p.filter (fun q => decide (Spec.Inside box q))).isEmpty = false := by
      obtain ⟨q, hq, hi⟩ := h
      rw [List.isEmpty_eq_false_iff]
      exact List.ne_nil_of_mem (List.mem_filter.2 ⟨hq, by simpa using hi⟩)
    simp [clipPoint, clipPointLoop_eq, hne]
  · obtain ⟨q, hq, hi⟩ := h
    exact List.ne_nil_of_mem (List.mem_filter.2 ⟨hq, by simpa using hi⟩)
  · intro q
    split
    · rename_i hi; exact List.count_filter (by simpa using hi)
    · rename_i hi
      exact List.count_eq_zero.2 (fun hm => hi (by simpa using (List.mem_filter.1 hm).2))

/-- no point inside: null; and null only then -/
theorem C46_null_iff (p : List XY) (box : Box) :
    clipPoint p box = .null ↔ ∀ q ∈ p, ¬ Spec.Inside box q := by
  simp only [clipPoint, clipPointLoop_eq, List.nil_append]
  constructor
  · intro h q hq hi
    split at h
    · rename_i he
      have : q ∈ p.filter (fun q => decide (Spec.Inside box q)) := List.mem_filter.2 ⟨hq, by simpa using hi⟩
      rw [List.isEmpty_iff.1 he] at this
      cases this
    · cases h
  · intro h
    have : p.filter (fun q => decide (Spec.Inside box q)) = [] := by
      rw [List.filter_eq_nil_iff]
      intro a ha; simpa using h a ha
    simp [this]

/-- points on the border are dropped -/
theorem C46_border_dropped (box : Box) (q : XY)
    (h : q.x = box.min.x ∨ q.x = box.max.x ∨ q.y = box.min.y ∨ q.y = box.max.y) :
    clipPoint [q] box = .null := by
  rw [C46_null_iff]
  rintro a ha ⟨h1, h2, h3, h4⟩
  rw [List.mem_singleton] at ha; subst ha
  omega

/-- hypotheses met: three of five points survive -/
example : clipPoint [⟨1, 1⟩, ⟨0, 5⟩, ⟨9, 9⟩, ⟨10, 3⟩, ⟨5, 5⟩] ⟨⟨0, 0⟩, ⟨10, 10⟩⟩ =
    .point [⟨1, 1⟩, ⟨9, 9⟩, ⟨5, 5⟩] := by decide

/-! ### lines -/

/-- Clipping lines returns exactly the pieces of the intersection that have at least two points, in order. -/
theorem C46_lines (inter : Box → List Line → List Line) (l : List Line) (box : Box) (h : ∃ q ∈ inter box l, 2 ≤ q.length) :
    ∃ out, clipPolyline inter l box = .polyline out ∧ out.Sublist (inter box l) ∧ out ≠ [] ∧
      ∀ q, out.count q = if 2 ≤ q.length then (inter box l).count q else 0 := by
  have hne : ((inter box l).filter (fun q => ¬ q.length < 2)) ≠ [] := by
    obtain ⟨q, hq, h2⟩ := h
    exact List.ne_nil_of_mem (List.mem_filter.2 ⟨hq, by simpa using h2⟩)
  refine ⟨_, ?_, List.filter_sublist, hne, ?_⟩
  · have he := List.isEmpty_eq_false_iff.2 hne
    rw [clipPolyline]
    simp only [he]
    rfl
  · intro q
    split
    · rename_i hi; exact List.count_filter (by simpa using hi)
    · rename_i hi
      exact List.count_eq_zero.2 (fun hm => hi (by simpa using (List.mem_filter.1 hm).2))

/-- Null exactly when no piece has two points. -/
theorem C46_lines_null_iff (inter : Box → List Line → List Line) (l : List Line) (box : Box) :
    clipPolyline inter l box = .null ↔ ∀ q ∈ inter box l, q.length < 2 := by
  constructor
  · intro h q hq
    by_contra hc
    obtain ⟨out, h1, _⟩ := C46_lines inter l box ⟨q, hq, by omega⟩
    rw [h] at h1; cases h1
  · intro h
    have : (inter box l).filter (fun q => decide (¬ q.length < 2)) = [] := by
      rw [List.filter_eq_nil_iff]
      intro a ha; simpa using h a ha
    rw [clipPolyline, this]; rfl

/-- what clipping `g` may return: points strictly inside; lines of at least two points; the same kind of geometry, not empty -/
def Spec.ClipResult (g : Geometry) (box : Box) : Geometry → Prop
  | .null => True
  | .point p => (∃ p', g = .point p' ∧ p.Sublist p') ∧ p ≠ [] ∧ ∀ q ∈ p, Spec.Inside box q
  | .polyline l => (∃ l', g = .polyline l') ∧ l ≠ [] ∧ ∀ q ∈ l, 2 ≤ q.length
  | .polygon _ => ∃ p', g = .polygon p'

/-- Whatever is clipped: lines in the result have at least two points, point sets and line sets are not empty, and the kind of geometry
is kept or becomes null. -/
theorem C46_result (inter : Box → List Line → List Line) (clipper : List Line → Box → Option (List PolyNode)) (correct : List Polygon → List Polygon)
    (g : Geometry) (box : Box) (r : Geometry) (h : clipGeometry inter clipper correct g box = .ok r) :
    Spec.ClipResult g box r := by
  cases g with
  | null => injection h with h; subst h; trivial
  | point p =>
    injection h with h
    by_cases hc : ∃ q ∈ p, Spec.Inside box q
    · obtain ⟨out, h1, h2, h3, h4⟩ := C46_keeps_inside p box hc
      rw [h1] at h; subst h
      refine ⟨⟨p, rfl, h2⟩, h3, fun q hq => ?_⟩
      by_contra hi
      have := h4 q
      rw [if_neg hi] at this
      exact List.count_eq_zero.1 this hq
    · rw [(C46_null_iff p box).2 (by simpa using hc)] at h; subst h; trivial
  | polyline l =>
    injection h with h
    by_cases hc : ∃ q ∈ inter box l, 2 ≤ q.length
    · obtain ⟨out, h1, h2, h3, h4⟩ := C46_lines inter l box hc
      rw [h1] at h; subst h
      refine ⟨⟨l, rfl⟩, h3, fun q hq => ?_⟩
      by_contra hi
      have := h4 q
      rw [if_neg hi] at this
      exact List.count_eq_zero.1 this hq
    · rw [(C46_lines_null_iff inter l box).2 (by simpa using hc)] at h; subst h; trivial
  | polygon p =>
    rw [clipGeometry, clipPolygon, Res.bind_eq_ok] at h
    obtain ⟨subj, _, h⟩ := h
    cases hcl : clipper subj box with
    | none => rw [hcl] at h; cases h
    | some nodes =>
      rw [hcl] at h
      cases nodes with
      | nil => injection h with h; subst h; trivial
      | cons a l =>
        dsimp only at h
        rw [Res.bind_eq_ok] at h
        obtain ⟨out, _, h⟩ := h
        injection h with h; subst h
        exact ⟨p, rfl⟩

/-- hypotheses met: of three pieces one is a single point -/
example : clipPolyline (fun _ _ => [[⟨1, 1⟩, ⟨2, 2⟩], [⟨5, 5⟩], [⟨7, 7⟩, ⟨8, 8⟩, ⟨9, 9⟩]]) [[⟨1, 1⟩, ⟨9, 9⟩]] ⟨⟨0, 0⟩, ⟨10, 10⟩⟩ =
    .polyline [[⟨1, 1⟩, ⟨2, 2⟩], [⟨7, 7⟩, ⟨8, 8⟩, ⟨9, 9⟩]] := by decide

end Tiles
