import Verif.Model.Tile
/-
Fixed-point geometry: /repo/include/tiles/fixed/fixed_geometry.h:19-47,
/repo/include/tiles/fixed/algo/shift.h, /repo/include/tiles/util.h:86-103 and
/repo/include/tiles/db/tile_index.h:62-73.

`fixed_coord_t` is int64_t; coordinates are unbounded integers here.  Where the
code relies on the 64-bit range the theorems carry explicit range hypotheses.
boost::geometry containers are lists; boost's polygon closing/orientation
helpers are not part of this file.
-/
namespace Tiles

/-- `fixed_xy` (fixed_geometry.h:21); `operator==` (fixed_geometry.h:56-59) is structural. -/
structure XY where
  x : Int
  y : Int
  deriving Repr, DecidableEq, Inhabited

/-- `fixed_box` (fixed_geometry.h:26) -/
structure Box where
  min : XY
  max : XY
  deriving Repr, DecidableEq, Inhabited

/-- `fixed_line`, `fixed_ring` -/
abbrev Line := List XY

/-- `fixed_simple_polygon`: an outer ring and inner rings -/
structure Polygon where
  outer : Line
  inners : List Line
  deriving Repr, DecidableEq, Inhabited

/-- `fixed_geometry` (fixed_geometry.h:40-47) -/
inductive Geometry where
  | null
  | point (p : List XY)
  | polyline (l : List Line)
  | polygon (p : List Polygon)
  deriving Repr, DecidableEq, Inhabited

def kTileSize : Nat := 4096          -- constants.h:7
def kMaxZoomLevel : Nat := 20        -- constants.h:8-9
/-- fixed_geometry.h:32: `map_size(20) - 1` -/
def kFixedCoordMax : Nat := 4096 * 2 ^ 20 - 1
/-- fixed_geometry.h:33 -/
def kFixedCoordMagicOffset : Nat := kFixedCoordMax / 2

/-- shift.h:13 `uint32_t delta_z = 20 - z`: for `z > 20` the unsigned difference is
at least 2^32-11, and shifting an int64_t by it is undefined. -/
def deltaZ (z : Nat) : Res Nat := if z ≤ 20 then .ok (20 - z) else .ub

/-- shift.h:12-16 on one point, given the shift amount -/
def shiftXY (d : Nat) (p : XY) : XY := ⟨p.x >>> d, p.y >>> d⟩

/-- util.h:86-103 `transform_erase`, the loop with `it` at `last`. -/
def transformEraseGo {α : Type} [DecidableEq α] (fn : α → α) (last : α) : List α → List α
  | [] => [last]
  | e :: es =>
    if last = fn e then transformEraseGo fn last es
    else last :: transformEraseGo fn (fn e) es

/-- util.h:86-103 `transform_erase` -/
def transformErase {α : Type} [DecidableEq α] (fn : α → α) : List α → List α
  | [] => []
  | e :: es => transformEraseGo fn (fn e) es

/-- shift.h:28-35 -/
def shiftPoint (d : Nat) (p : List XY) : Geometry :=
  let q := transformErase (shiftXY d) p
  if q.isEmpty then .null else .point q

/-- shift.h:37-49 -/
def shiftPolyline (d : Nat) (l : List Line) : Geometry :=
  let q := (l.map (transformErase (shiftXY d))).filter (fun p => ¬ p.length < 2)
  if q.isEmpty then .null else .polyline q

/-- shift.h:52-58, one polygon -/
def shiftOnePolygon (d : Nat) (p : Polygon) : Polygon :=
  ⟨transformErase (shiftXY d) p.outer,
   (p.inners.map (transformErase (shiftXY d))).filter (fun r => ¬ r.length < 3)⟩

/-- shift.h:51-69 -/
def shiftPolygon (d : Nat) (p : List Polygon) : Geometry :=
  let q := (p.map (shiftOnePolygon d)).filter (fun p => ¬ p.outer.length < 3)
  if q.isEmpty then .null else .polygon q

/-- shift.h:71-74 (`shift(fixed_null, z)` does not shift, shift.h:10) -/
def shiftGeometry (g : Geometry) (z : Nat) : Res Geometry :=
  match g with
  | .null => .ok .null
  | .point p => if p.isEmpty then .ok .null else do return shiftPoint (← deltaZ z) p
  | .polyline l => do return shiftPolyline (← deltaZ z) l
  | .polygon p => do return shiftPolygon (← deltaZ z) p

/-- shift.h:18-21 -/
def shiftBox (d : Nat) (b : Box) : Box := ⟨shiftXY d b.min, shiftXY d b.max⟩

/-- `static_cast<uint32_t>(c / kTileSize)` (C++ division truncates; the cast wraps). -/
def tileCoord (c : Int) : Nat := ((c.tdiv kTileSize) % (2 ^ 32 : Nat)).toNat

/-- `geo::make_tile_range(x_1, y_1, x_2, y_2, z)` (external header geo/tile.h):
row-major enumeration, both ends inclusive. -/
def geoTileRange (x1 y1 x2 y2 z : Nat) : List Tile :=
  (List.range' y1 (y2 + 1 - y1)).flatMap fun y =>
    (List.range' x1 (x2 + 1 - x1)).map fun x => ⟨x, y, z⟩

/-- tile_index.h:63-73 `make_tile_range(box, z)` -/
def makeTileRange (box : Box) (z : Nat := 10) : Res (List Tile) := do
  let d ← deltaZ z
  let b := shiftBox d box
  return geoTileRange (tileCoord b.min.x) (tileCoord b.min.y) (tileCoord b.max.x) (tileCoord b.max.y) z

end Tiles
