import Verif.Model.Fixed
/-
Model of /repo/src/fixed/algo/clip.cc.  `boost::geometry::within(point, box)` is the strict comparison in both
coordinates; Clipper and boost's line intersection are parameters.
-/
namespace Tiles

/-- `boost::geometry::within(point, box)` (clip.cc:24): strictly inside -/
def withinBox (p : XY) (b : Box) : Bool :=
  decide (b.min.x < p.x) && decide (p.x < b.max.x) && (decide (b.min.y < p.y) && decide (p.y < b.max.y))

/-- clip.cc:20-34, the loop of `clip(fixed_point, box)` -/
def clipPointLoop (box : Box) : List XY → List XY → List XY
  | out, [] => out
  | out, p :: ps => if withinBox p box then clipPointLoop box (out ++ [p]) ps else clipPointLoop box out ps

/-- clip.cc:20-34 `clip(fixed_point, box)` -/
def clipPoint (p : List XY) (box : Box) : Geometry :=
  let out := clipPointLoop box [] p
  if out.isEmpty then .null else .point out

/-- clip.cc:36-46 `clip(fixed_polyline, box)`; `inter` is `boost::geometry::intersection(box, in, out)` -/
def clipPolyline (inter : Box → List Line → List Line) (l : List Line) (box : Box) : Geometry :=
  let out := (inter box l).filter (fun q => ¬ q.length < 2)
  if out.isEmpty then .null else .polyline out

/-- Clipper's `PolyNode`: contour, hole flag, children -/
inductive PolyNode where
  | mk (contour : List XY) (hole : Bool) (childs : List PolyNode)

namespace PolyNode
def contour : PolyNode → List XY | mk c _ _ => c
def hole : PolyNode → Bool | mk _ h _ => h
def childs : PolyNode → List PolyNode | mk _ _ c => c
end PolyNode

/-- clip.cc:49-58 `path_to_ring`: the closing point is added -/
def pathToRing (path : List XY) : Res Line :=
  match path with
  | [] => .throw_
  | p :: ps => .ok (p :: ps ++ [p])

mutual
/-- clip.cc:60-73: the loop over outer contours; `acc` is `polygon` -/
def toFixedPolygon (acc : List Polygon) : List PolyNode → Res (List Polygon)
  | [] => .ok acc
  | .mk contour hole childs :: rest => do
    verify (!hole)
    let outer ← pathToRing contour
    let (acc, inners) ← toFixedInners acc [] childs
    toFixedPolygon (acc ++ [⟨outer, inners⟩]) rest
/-- clip.cc:65-70: the loop over the holes of one contour; islands in a hole are appended first -/
def toFixedInners (acc : List Polygon) (inners : List Line) : List PolyNode → Res (List Polygon × List Line)
  | [] => .ok (acc, inners)
  | .mk contour hole childs :: rest => do
    verify hole
    let r ← pathToRing contour
    let acc ← toFixedPolygon acc childs
    toFixedInners acc (inners ++ [r]) rest
end

/-- clip.cc:85-88 / 92-95: a ring without its last point; `pop_back` on an empty vector is undefined. -/
def openRing (r : Line) : Res Line := if r.isEmpty then .ub else .ok r.dropLast

/-- clip.cc:90-96 -/
def openRings : List Line → Res (List Line)
  | [] => .ok []
  | r :: rs => do
    let a ← openRing r
    let b ← openRings rs
    return a :: b

/-- clip.cc:81-97: the subject paths -/
def clipSubject : List Polygon → Res (List Line)
  | [] => .ok []
  | p :: ps => do
    let o ← openRing p.outer
    let i ← openRings p.inners
    let r ← clipSubject ps
    return o :: i ++ r

/-- clip.cc:76-114 `clip(fixed_polygon, box)`.  `clipper paths box` is the polygon tree of the intersection
(`none` = AddPaths failed), `correct` is boost::geometry::correct. -/
def clipPolygon (clipper : List Line → Box → Option (List PolyNode)) (correct : List Polygon → List Polygon)
    (p : List Polygon) (box : Box) : Res Geometry := do
  let subject ← clipSubject p
  match clipper subject box with
  | none => .throw_
  | some [] => return .null
  | some nodes => do
    let out ← toFixedPolygon [] nodes
    return .polygon (correct out)

/-- clip.cc:16-18, 116-119: `clip(fixed_geometry, box)` -/
def clipGeometry (inter : Box → List Line → List Line) (clipper : List Line → Box → Option (List PolyNode)) (correct : List Polygon → List Polygon)
    (g : Geometry) (box : Box) : Res Geometry :=
  match g with
  | .null => .ok .null
  | .point p => .ok (clipPoint p box)
  | .polyline l => .ok (clipPolyline inter l box)
  | .polygon p => clipPolygon clipper correct p box

end Tiles
