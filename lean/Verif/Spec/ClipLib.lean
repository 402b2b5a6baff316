import Verif.Props.C46
import Verif.Props.C48
import Mathlib.Data.List.Forall2
/-! Specification: what is assumed about the libraries that clip geometries (boost::geometry, Clipper). -/
namespace Tiles.Spec

/-- within `e` units of the box (`e` is the error of computed intersections, which are rounded to integers) -/
def Around (e : Int) (b : Box) (p : XY) : Prop := b.min.x - e ≤ p.x ∧ p.x ≤ b.max.x + e ∧ b.min.y - e ≤ p.y ∧ p.y ≤ b.max.y + e

/-- twice the signed area of a closed path (shoelace formula); the last point is joined to the first -/
def area2 (p : Line) : Int := ((p.zip (p.tail ++ p.take 1)).map (fun e => e.1.x * e.2.y - e.2.x * e.1.y)).sum

/-- the same ring, perhaps in the other direction -/
def SameRing (a b : Line) : Prop := b = a ∨ b = a.reverse

/-- what is assumed about `boost::geometry::intersection` of a box and lines (`inter`), Clipper (`clipper`: `none` = AddPaths returned false) and
`boost::geometry::correct` (`correct`):
* nothing in a result lies outside of the box by more than `e`;
* Clipper accepts the paths if one of them has an area (it removes repeated and collinear points, which does not change the area, and refuses what has
  less than three points then);
* its result is a tree in which outer contours and holes alternate;
* `correct` turns rings round (they are closed already), nothing else. -/
structure ClipLib (e : Int) (inter : Box → List Line → List Line) (clipper : List Line → Box → Option (List PolyNode)) (correct : List Polygon → List Polygon) : Prop where
  lines : ∀ box l, ∀ q ∈ inter box l, ∀ p ∈ q, Around e box p
  accepts : ∀ paths box, (∃ p ∈ paths, area2 p ≠ 0) → clipper paths box ≠ none
  tree : ∀ paths box nodes, clipper paths box = some nodes → AltOuter nodes ∧ ∀ q ∈ polysOf nodes, ∀ r ∈ q.1 :: q.2, ∀ p ∈ r, Around e box p
  turns : ∀ ps, (∀ r ∈ ringsOf ps, r.head? = r.getLast?) →
    List.Forall₂ (fun p q => SameRing p.outer q.outer ∧ List.Forall₂ SameRing p.inners q.inners) ps (correct ps)

/-- polygons that can be clipped: no ring is empty, one has an area -/
def Clippable : Geometry → Prop
  | .polygon ps => (∀ r ∈ ringsOf ps, r ≠ []) ∧ ∃ r ∈ ringsOf ps, area2 r.dropLast ≠ 0
  | _ => True

/-- how far a coordinate of a tile may lie outside of the tile, at the tile's zoom level: 4096 units of level 20, and the error of the libraries -/
def InMargin (e : Int) (z : Nat) (p : XY) : Prop :=
  (-(4096 + e)) / 2 ^ (20 - z) ≤ p.x ∧ p.x ≤ 4096 + (4096 + e) / 2 ^ (20 - z) ∧
  (-(4096 + e)) / 2 ^ (20 - z) ≤ p.y ∧ p.y ≤ 4096 + (4096 + e) / 2 ^ (20 - z)

end Tiles.Spec
