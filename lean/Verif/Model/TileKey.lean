import Verif.Model.Tile
/-
Model of /repo/include/tiles/db/tile_index.h:18-60 (database keys).
`tile_key_t` is `uint64_t`, modelled by `UInt64` with the same operators.
-/
namespace Tiles

-- tile_index.h:20-31
def kTileKeyZShift : UInt64 := 59
def kTileKeyZBits : UInt64 := 5
def kTileKeyZMask : UInt64 := ((1 <<< kTileKeyZBits) - 1)
def kTileKeyYShift : UInt64 := 38
def kTileKeyYBits : UInt64 := 21
def kTileKeyYMask : UInt64 := ((1 <<< kTileKeyYBits) - 1)
def kTileKeyXShift : UInt64 := 17
def kTileKeyXBits : UInt64 := 21
def kTileKeyXMask : UInt64 := ((1 <<< kTileKeyXBits) - 1)
def kTileKeyNShift : UInt64 := 0
def kTileKeyNBits : UInt64 := 17
def kTileKeyNMask : UInt64 := ((1 <<< kTileKeyNBits) - 1)

/-- tile_index.h:33-45 `tile_to_key(x, y, z, n)` -/
def tileToKey (x y z n : UInt64) : Res UInt64 := do
  verify ((x &&& kTileKeyXMask) == x && (y &&& kTileKeyYMask) == y &&
    (z &&& kTileKeyZMask) == z && (n &&& kTileKeyNMask) == n)
  let key : UInt64 := 0
  let key := key ||| ((z &&& kTileKeyZMask) <<< kTileKeyZShift)
  let key := key ||| ((y &&& kTileKeyYMask) <<< kTileKeyYShift)
  let key := key ||| ((x &&& kTileKeyXMask) <<< kTileKeyXShift)
  let key := key ||| ((n &&& kTileKeyNMask) <<< kTileKeyNShift)
  return key

/-- tile_index.h:51-56 `key_to_tile`; the casts to uint32_t lose nothing
because the masks are 21 and 5 bits wide. -/
def keyToTile (key : UInt64) : Tile :=
  ⟨((key >>> kTileKeyXShift) &&& kTileKeyXMask).toUInt32.toNat,
   ((key >>> kTileKeyYShift) &&& kTileKeyYMask).toUInt32.toNat,
   ((key >>> kTileKeyZShift) &&& kTileKeyZMask).toUInt32.toNat⟩

/-- tile_index.h:58-60 `key_to_n` -/
def keyToN (key : UInt64) : UInt64 := (key >>> kTileKeyNShift) &&& kTileKeyNMask

end Tiles
