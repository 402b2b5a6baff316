import Verif.Model.Fixed
import Verif.Model.FeatureHandler
import Mathlib.Data.Rat.Floor
/-
Model of /repo/include/tiles/fixed/algo/area.h, and of `boost::geometry::area` as far as it is used there (cartesian strategy, clockwise and closed rings,
computed in `double` for 64-bit integer coordinates).  `fl` is the rounding of one `double` operation; what is assumed about it is said in Spec/Area.
Infinities and NaN do not occur (the values stay below 2^200) and are left out.
-/
namespace Tiles
variable (fl : ℚ → ℚ)

/-- boost strategies/area/cartesian.hpp `apply`: one segment, `(x1 + x2) * (y1 - y2)` on coordinates converted to `double` -/
def areaTerm (p q : XY) : ℚ := fl (fl (fl p.x + fl q.x) * fl (fl p.y - fl q.y))

/-- `ring_area::apply`: the sum over the segments of the ring -/
def ringSum (s : ℚ) : Line → ℚ
  | p :: q :: l => ringSum (fl (s + areaTerm fl p q)) (q :: l)
  | _ => s

/-- `ring_area::apply`: rings of less than four points have no area -/
def ringArea (r : Line) : ℚ := if r.length < 4 then 0 else fl (ringSum fl 0 r / 2)

/-- `calculate_polygon_sum`: outer ring and the sum over the inner rings (which have the other direction) -/
def polygonArea (p : Polygon) : ℚ := fl (ringArea fl p.outer + p.inners.foldl (fun s r => fl (s + ringArea fl r)) 0)

/-- area.h:11-13: the sum over the polygons -/
def multiArea (ps : List Polygon) : ℚ := ps.foldl (fun s p => fl (s + polygonArea fl p)) 0

/-- conversion of a `double` to `int64_t`: towards zero, undefined when it does not fit -/
def toInt64 (v : ℚ) : Res Int :=
  let i : Int := if 0 ≤ v then ⌊v⌋ else ⌈v⌉
  if -2 ^ 63 ≤ i ∧ i < 2 ^ 63 then .ok i else .ub

/-- area.h:7-25.  There is no `area(fixed_point)`: for a point the visitor's call converts it to a `fixed_geometry` again and thus calls itself without end. -/
def geometryArea : Geometry → Res Int
  | .null => .ok 0
  | .point _ => .ub
  | .polyline _ => .ok 0
  | .polygon ps => toInt64 (multiArea fl ps)

/-- tile_builder.cc:30-34: 16 * 16 -/
def kScreenPixelArea : Int := (4096 / 256) * (4096 / 256)

/-- tile_builder.cc:122: `area(f.geometry_) < kScreenPixelArea`, for polygons and empty geometries -/
def smallerThanPixel (g : Geometry) : Res Bool := do
  let a ← geometryArea fl g
  return decide (a < kScreenPixelArea)

end Tiles
