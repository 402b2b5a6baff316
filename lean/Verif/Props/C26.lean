import Verif.Model.Fixed
import Mathlib.Data.List.Destutter
/-! C26 — shifting to a zoom level: exact result, never degenerate output. -/
namespace Tiles

/-- specification: the coordinate at zoom `z`, i.e. divided by 2^(20-z) and rounded down -/
def floorTo (z : Nat) (p : XY) : XY := ⟨p.x / 2 ^ (20 - z), p.y / 2 ^ (20 - z)⟩

/-- specification: a line at zoom `z` — all points rounded, runs of equal points collapsed -/
def lineAt (z : Nat) (l : Line) : Line := (l.map (floorTo z)).destutter (· ≠ ·)

/-- no two consecutive points are equal -/
def NoRepeat (l : Line) : Prop := l.IsChain (· ≠ ·)

/-- what it means for a geometry to be drawable -/
def WellFormed : Geometry → Prop
  | .null => True
  | .point p => p ≠ [] ∧ NoRepeat p
  | .polyline l => l ≠ [] ∧ ∀ p ∈ l, 2 ≤ p.length ∧ NoRepeat p
  | .polygon ps => ps ≠ [] ∧ ∀ p ∈ ps, (3 ≤ p.outer.length ∧ NoRepeat p.outer) ∧
      ∀ r ∈ p.inners, 3 ≤ r.length ∧ NoRepeat r

theorem shiftXY_eq (z : Nat) (p : XY) : shiftXY (20 - z) p = floorTo z p := by
  simp [shiftXY, floorTo, Int.shiftRight_eq_div_pow]

theorem transformEraseGo_eq {α : Type} [DecidableEq α] (fn : α → α) (last : α) (l : List α) :
    transformEraseGo fn last l = List.destutter' (· ≠ ·) last (l.map fn) := by
  induction l generalizing last with
  | nil => simp [transformEraseGo]
  | cons e es ih =>
    simp only [transformEraseGo, List.map_cons, List.destutter'_cons]
    by_cases h : last = fn e
    · simp [← h, ih]
    · simp [h, ih]

theorem transformErase_eq (z : Nat) (l : Line) :
    transformErase (shiftXY (20 - z)) l = lineAt z l := by
  have : shiftXY (20 - z) = floorTo z := funext (shiftXY_eq z)
  rw [this]
  cases l with
  | nil => rfl
  | cons e es => simp [transformErase, lineAt, List.destutter, transformEraseGo_eq]

theorem lineAt_noRepeat (z : Nat) (l : Line) : NoRepeat (lineAt z l) :=
  List.isChain_destutter _ _

/-- null stays null -/
theorem C26_shift_null (z : Nat) : shiftGeometry .null z = .ok .null := rfl

/-- points: exactly the rounded points with runs collapsed -/
theorem C26_shift_point (p : List XY) (z : Nat) (hz : z ≤ 20) :
    shiftGeometry (.point p) z = .ok (if p = [] then .null else .point (lineAt z p)) := by
  cases p with
  | nil => rfl
  | cons a l =>
    have h := transformErase_eq z (a :: l)
    have hne : lineAt z (a :: l) ≠ [] := by
      simp only [lineAt, List.map_cons, List.destutter]
      exact List.destutter'_ne_nil _ _
    simp only [shiftGeometry, deltaZ, hz, if_true, List.isEmpty_cons, Bool.false_eq_true, if_false,
      Res.ok_bind, Res.pure_eq, shiftPoint, h, List.isEmpty_iff, hne]
    simp

/-- polylines: exactly the rounded, collapsed lines that still have two points, in order;
null when none is left -/
theorem C26_shift_polyline (l : List Line) (z : Nat) (hz : z ≤ 20) :
    shiftGeometry (.polyline l) z = .ok
      (let kept := (l.map (lineAt z)).filter (fun p => 2 ≤ p.length)
       if kept = [] then .null else .polyline kept) := by
  have h : (fun x => transformErase (shiftXY (20 - z)) x) = lineAt z :=
    funext (transformErase_eq z)
  have h' : transformErase (shiftXY (20 - z)) = lineAt z := h
  simp only [shiftGeometry, deltaZ, hz, if_true, Res.ok_bind, Res.pure_eq, shiftPolyline, h',
    List.isEmpty_iff, Nat.not_lt]

/-- polygons: outer rings must keep three points, inner rings with fewer are dropped -/
theorem C26_shift_polygon (ps : List Polygon) (z : Nat) (hz : z ≤ 20) :
    shiftGeometry (.polygon ps) z = .ok
      (let kept := (ps.map (fun p => (⟨lineAt z p.outer,
          (p.inners.map (lineAt z)).filter (fun r => 3 ≤ r.length)⟩ : Polygon))).filter
          (fun p => 3 ≤ p.outer.length)
       if kept = [] then .null else .polygon kept) := by
  have h' : transformErase (shiftXY (20 - z)) = lineAt z := funext (transformErase_eq z)
  have h2 : shiftOnePolygon (20 - z) = fun p => (⟨lineAt z p.outer,
      (p.inners.map (lineAt z)).filter (fun r => 3 ≤ r.length)⟩ : Polygon) := by
    funext p; simp only [shiftOnePolygon, h', Nat.not_lt]
  simp only [shiftGeometry, deltaZ, hz, if_true, Res.ok_bind, Res.pure_eq, shiftPolygon, h2,
    List.isEmpty_iff, Nat.not_lt]

/-- whatever goes in, a successful shift never yields degenerate output -/
theorem C26_shift_wellFormed (g g' : Geometry) (z : Nat) (hz : z ≤ 20)
    (h : shiftGeometry g z = .ok g') : WellFormed g' := by
  cases g with
  | null => rw [C26_shift_null] at h; cases h; trivial
  | point p =>
    rw [C26_shift_point _ _ hz] at h
    cases h
    split
    · trivial
    · rename_i hne
      refine ⟨?_, lineAt_noRepeat z p⟩
      cases p with
      | nil => exact absurd rfl hne
      | cons a l =>
        simp only [lineAt, List.map_cons, List.destutter]
        exact List.destutter'_ne_nil _ _
  | polyline l =>
    rw [C26_shift_polyline _ _ hz] at h
    cases h
    simp only
    split
    · trivial
    · rename_i hne
      refine ⟨hne, fun p hp => ?_⟩
      simp only [List.mem_filter, List.mem_map, decide_eq_true_eq] at hp
      obtain ⟨⟨q, _, rfl⟩, h2⟩ := hp
      exact ⟨h2, lineAt_noRepeat z q⟩
  | polygon ps =>
    rw [C26_shift_polygon _ _ hz] at h
    cases h
    simp only
    split
    · trivial
    · rename_i hne
      refine ⟨hne, fun p hp => ?_⟩
      simp only [List.mem_filter, List.mem_map, decide_eq_true_eq] at hp
      obtain ⟨⟨q, _, rfl⟩, h2⟩ := hp
      refine ⟨⟨h2, lineAt_noRepeat z _⟩, fun r hr => ?_⟩
      simp only [List.mem_filter, List.mem_map, decide_eq_true_eq] at hr
      obtain ⟨⟨q', _, rfl⟩, h3⟩ := hr
      exact ⟨h3, lineAt_noRepeat z _⟩

/-- above zoom 20 the shift amount is negative: undefined behaviour, never reached by the callers
(tile_spec.h:18 rejects such tiles first) -/
theorem C26_shift_above_max_zoom (p : XY) (l : List XY) (z : Nat) (hz : 20 < z) :
    shiftGeometry (.point (p :: l)) z = .ub := by
  have : ¬ z ≤ 20 := by omega
  simp [shiftGeometry, deltaZ, this]

-- non-vacuity: two points collapse at zoom 18, one line disappears, negative coordinates round down
example : shiftGeometry (.polyline [[⟨0, 0⟩, ⟨3, 3⟩, ⟨4, 4⟩, ⟨-1, 9⟩], [⟨0, 0⟩, ⟨1, 1⟩]]) 18
    = .ok (.polyline [[⟨0, 0⟩, ⟨1, 1⟩, ⟨-1, 2⟩]]) := by decide

end Tiles
