import Verif.Model.Clip
/-! C48 — clipping polygons: which rings go into the clipper, and that its solution is copied completely with each
ring closed.  The clipper itself is a parameter. -/
namespace Tiles

namespace Spec

/-- a closed ring: the path plus its first point -/
def close : List XY → List XY
  | [] => []
  | p :: ps => p :: ps ++ [p]

mutual
/-- the polygons of a solution tree: each outer contour with the contours of the holes directly below it,
and the polygons inside these holes -/
def polysOf : List PolyNode → List (List XY × List (List XY))
  | [] => []
  | .mk c _ hs :: rest => (c, holesOf hs) :: (polysBelow hs ++ polysOf rest)
def holesOf : List PolyNode → List (List XY)
  | [] => []
  | .mk c _ _ :: rest => c :: holesOf rest
def polysBelow : List PolyNode → List (List XY × List (List XY))
  | [] => []
  | .mk _ _ os :: rest => polysOf os ++ polysBelow rest
end

mutual
/-- outer contours and holes alternate, no contour is empty (what Clipper documents for a PolyTree) -/
def AltOuter : List PolyNode → Prop
  | [] => True
  | .mk c h hs :: rest => c ≠ [] ∧ h = false ∧ AltHole hs ∧ AltOuter rest
def AltHole : List PolyNode → Prop
  | [] => True
  | .mk c h os :: rest => c ≠ [] ∧ h = true ∧ AltOuter os ∧ AltHole rest
end

def closePoly (q : List XY × List (List XY)) : Polygon := ⟨close q.1, q.2.map close⟩

end Spec

open Spec

theorem pathToRing_ok {c : List XY} (h : c ≠ []) : pathToRing c = .ok (close c) := by
  cases c with
  | nil => exact absurd rfl h
  | cons a l => rfl

mutual
theorem toFixedPolygon_spec (nodes : List PolyNode) (acc : List Polygon) (h : AltOuter nodes) :
    ∃ out, toFixedPolygon acc nodes = .ok (acc ++ out) ∧ out.Perm ((polysOf nodes).map closePoly) := by
  match nodes, h with
  | [], _ => exact ⟨[], by simp [toFixedPolygon], by simp [polysOf]⟩
  | .mk c hf hs :: rest, h =>
    rw [AltOuter] at h
    obtain ⟨hc, hh, h1, h2⟩ := h
    obtain ⟨o1, e1, p1⟩ := toFixedInners_spec hs acc [] h1
    obtain ⟨o2, e2, p2⟩ := toFixedPolygon_spec rest (acc ++ o1 ++ [⟨close c, (holesOf hs).map close⟩]) h2
    refine ⟨o1 ++ [⟨close c, (holesOf hs).map close⟩] ++ o2, ?_, ?_⟩
    · subst hh
      simp only [toFixedPolygon, Bool.not_false, verify_true, Res.ok_bind, pathToRing_ok hc, e1, List.nil_append]
      simpa using e2
    · simp only [polysOf, List.map_cons, List.map_append, closePoly]
      have : (o1 ++ [(⟨close c, (holesOf hs).map close⟩ : Polygon)] ++ o2).Perm
          (⟨close c, (holesOf hs).map close⟩ :: (o1 ++ o2)) := by
        rw [List.append_assoc]
        exact List.perm_middle
      refine this.trans ((p1.append p2).cons _)
theorem toFixedInners_spec (nodes : List PolyNode) (acc : List Polygon) (inners : List Line) (h : AltHole nodes) :
    ∃ out, toFixedInners acc inners nodes = .ok (acc ++ out, inners ++ (holesOf nodes).map close) ∧
      out.Perm ((polysBelow nodes).map closePoly) := by
  match nodes, h with
  | [], _ => exact ⟨[], by simp [toFixedInners, holesOf], by simp [polysBelow]⟩
  | .mk c hf os :: rest, h =>
    rw [AltHole] at h
    obtain ⟨hc, hh, h1, h2⟩ := h
    obtain ⟨o1, e1, p1⟩ := toFixedPolygon_spec os acc h1
    obtain ⟨o2, e2, p2⟩ := toFixedInners_spec rest (acc ++ o1) (inners ++ [close c]) h2
    refine ⟨o1 ++ o2, ?_, ?_⟩
    · subst hh
      simp only [toFixedInners, verify_true, Res.ok_bind, pathToRing_ok hc, e1, e2, holesOf, List.map_cons]
      simp
    · simp only [polysBelow, List.map_append]
      exact p1.append p2
end

theorem openRings_ok (rs : List Line) (h : ∀ r ∈ rs, r ≠ []) : openRings rs = .ok (rs.map List.dropLast) := by
  induction rs with
  | nil => rfl
  | cons r rs ih =>
    have h1 : openRing r = .ok r.dropLast := by
      have : r ≠ [] := h r (by simp)
      simp [openRing, this]
    simp [openRings, h1, ih (fun x hx => h x (by simp [hx]))]

theorem openRings_ub (rs : List Line) (h : [] ∈ rs) : openRings rs = .ub := by
  induction rs with
  | nil => cases h
  | cons r rs ih =>
    by_cases hr : r = []
    · subst hr; rfl
    · have h1 : openRing r = .ok r.dropLast := by simp [openRing, hr]
      have : [] ∈ rs := by
        rcases List.mem_cons.1 h with h | h
        · exact absurd h.symm hr
        · exact h
      simp [openRings, h1, ih this]

/-- all rings of a multi polygon, outer before inners -/
def Spec.ringsOf (ps : List Polygon) : List Line := ps.flatMap (fun p => p.outer :: p.inners)

theorem clipSubject_ok (ps : List Polygon) (h : ∀ r ∈ ringsOf ps, r ≠ []) :
    clipSubject ps = .ok ((ringsOf ps).map List.dropLast) := by
  induction ps with
  | nil => rfl
  | cons p ps ih =>
    have h1 : openRing p.outer = .ok p.outer.dropLast := by
      have : p.outer ≠ [] := h p.outer (by simp [ringsOf])
      simp [openRing, this]
    have h2 := openRings_ok p.inners (fun r hr => h r (by
      simp only [ringsOf, List.flatMap_cons, List.mem_append, List.mem_cons]; exact .inl (.inr hr)))
    have h3 := ih (fun r hr => h r (by
      simp only [ringsOf, List.flatMap_cons, List.mem_append]; exact .inr hr))
    simp [clipSubject, h1, h2, h3, ringsOf]

/-- clipping when the clipper accepts the rings: null exactly when the solution is empty; otherwise all polygons of the
solution, each ring closed with its first point, none lost, none duplicated (before boost's `correct`). -/
theorem C48_solution_copied (clipper : List Line → Box → Option (List PolyNode))
    (correct : List Polygon → List Polygon) (p : List Polygon) (box : Box) (nodes : List PolyNode)
    (hne : ∀ r ∈ ringsOf p, r ≠ [])
    (hs : clipper ((ringsOf p).map List.dropLast) box = some nodes) (ha : AltOuter nodes) :
    (nodes = [] ∧ clipPolygon clipper correct p box = .ok .null) ∨
    (nodes ≠ [] ∧ ∃ out, clipPolygon clipper correct p box = .ok (.polygon (correct out)) ∧
      out.Perm ((polysOf nodes).map closePoly)) := by
  simp only [clipPolygon, clipSubject_ok p hne, Res.ok_bind, hs]
  cases nodes with
  | nil => exact .inl ⟨rfl, rfl⟩
  | cons n ns =>
    obtain ⟨out, e, hp⟩ := toFixedPolygon_spec (n :: ns) [] ha
    refine .inr ⟨by simp, out, ?_, hp⟩
    simp [e]

/-- every ring of the result (before `correct`) starts and ends with the same point -/
theorem C48_rings_closed (nodes : List PolyNode) (out : List Polygon) (ha : AltOuter nodes)
    (h : toFixedPolygon [] nodes = .ok out) :
    ∀ r ∈ ringsOf out, r.head? = r.getLast? := by
  obtain ⟨out', e, hp⟩ := toFixedPolygon_spec nodes [] ha
  rw [h] at e; injection e with e; simp at e; subst e
  intro r hr
  have hcl : ∀ c : List XY, (close c).head? = (close c).getLast? := by
    intro c; cases c with
    | nil => rfl
    | cons a l =>
      have : close (a :: l) = (a :: l) ++ [a] := rfl
      rw [this, List.getLast?_concat]; rfl
  obtain ⟨q, hq, hr⟩ := List.mem_flatMap.1 hr
  obtain ⟨s, hs, rfl⟩ := List.mem_map.1 (hp.mem_iff.1 hq)
  rcases List.mem_cons.1 hr with rfl | hr
  · exact hcl _
  · obtain ⟨c, _, rfl⟩ := List.mem_map.1 hr
    exact hcl _

/-- finding: a polygon with an empty inner ring (as produced by the OSM reader, see C40) is undefined behaviour here -/
theorem C48_empty_inner_ub (clipper : List Line → Box → Option (List PolyNode))
    (correct : List Polygon → List Polygon) (p : Polygon) (ps : List Polygon) (box : Box)
    (ho : p.outer ≠ []) (h : [] ∈ p.inners) :
    clipPolygon clipper correct (p :: ps) box = .ub := by
  have h1 : openRing p.outer = .ok p.outer.dropLast := by simp [openRing, ho]
  simp [clipPolygon, clipSubject, h1, openRings_ub _ h]

/-- hypotheses met: a square with a hole that contains an island -/
example : AltOuter [.mk [⟨0,0⟩, ⟨9,0⟩, ⟨9,9⟩] false [.mk [⟨1,1⟩, ⟨3,1⟩, ⟨3,3⟩] true [.mk [⟨2,2⟩] false []]]] ∧
    toFixedPolygon [] [.mk [⟨0,0⟩, ⟨9,0⟩, ⟨9,9⟩] false [.mk [⟨1,1⟩, ⟨3,1⟩, ⟨3,3⟩] true [.mk [⟨2,2⟩] false []]]] =
      .ok [⟨[⟨2,2⟩, ⟨2,2⟩], []⟩, ⟨[⟨0,0⟩, ⟨9,0⟩, ⟨9,9⟩, ⟨0,0⟩], [[⟨1,1⟩, ⟨3,1⟩, ⟨3,3⟩, ⟨1,1⟩]]⟩] := by
  constructor
  · simp [AltOuter, AltHole]
  · simp [toFixedPolygon, toFixedInners, pathToRing]

end Tiles
