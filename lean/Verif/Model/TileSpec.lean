import Verif.Model.Fixed
/-
Model of /repo/include/tiles/mvt/tile_spec.h.  `proj::tile_bounds_pixel` (library geo): the square of 4096 pixels of the tile.
Coordinates are int64_t in the code and stay below 2^45 here.
-/
namespace Tiles

/-- tile_spec.h:13 -/
def kOverdraw : Int := 4096

/-- tile_spec.h:47-49 -/
structure TileSpec where
  tile : Tile
  px : Box
  insert : Box
  draw : Box
  deriving DecidableEq, Repr

/-- the px bounds of a tile (tile_spec.h:24) -/
def pxBounds (t : Tile) : Box := ⟨⟨t.x * 4096, t.y * 4096⟩, ⟨(t.x + 1) * 4096, (t.y + 1) * 4096⟩⟩

/-- tile_spec.h:26-30: the px bounds at zoom level 20 -/
def insertBounds (t : Tile) : Box :=
  let p := pxBounds t
  ⟨⟨p.min.x * 2 ^ (20 - t.z), p.min.y * 2 ^ (20 - t.z)⟩, ⟨p.max.x * 2 ^ (20 - t.z), p.max.y * 2 ^ (20 - t.z)⟩⟩

/-- tile_spec.h:32-37 -/
def drawBounds (t : Tile) : Box :=
  let p := pxBounds t
  ⟨⟨p.min.x * 2 ^ (20 - t.z) - kOverdraw, p.min.y * 2 ^ (20 - t.z) - kOverdraw⟩,
   ⟨p.max.x * 2 ^ (20 - t.z) + kOverdraw, p.max.y * 2 ^ (20 - t.z) + kOverdraw⟩⟩

/-- tile_spec.h:17-45, the constructor -/
def tileSpec (t : Tile) : Res TileSpec := do
  verify (decide (t.z ≤ kMaxZoomLevel))
  verify (decide (t.x < 2 ^ t.z) && decide (t.y < 2 ^ t.z))
  return ⟨t, pxBounds t, insertBounds t, drawBounds t⟩

end Tiles
