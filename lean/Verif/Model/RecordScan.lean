import Verif.Model.TileKey
import Verif.Model.Tile
/-
Model of the LMDB cursor scan in /repo/include/tiles/get_tile.h:82-102
(`pack_records_foreach(cursor, query_tile, fn)`).

The features table is modelled by the list of its (key, value) entries in key
order (`DbSorted`): this is the contract of an LMDB INTEGERKEY database
(tile_database.h:75-79), which is trusted.  `SET_RANGE k` positions at the first
entry with key ≥ k, `NEXT` advances by one.
-/
namespace Tiles

/-- `geo::tile_bounds` (half open), result of `geo::tile::bounds_on_z` -/
structure TileBounds where
  minx : Nat
  miny : Nat
  maxx : Nat
  maxy : Nat
  deriving Repr, DecidableEq

/-- `geo::tile::bounds_on_z(z)` (external header geo/tile.h), used at get_tile.h:86. -/
def Tile.boundsOnZ (t : Tile) (z : Nat) : TileBounds :=
  if z < t.z then
    ⟨t.x / 2 ^ (t.z - z), t.y / 2 ^ (t.z - z), t.x / 2 ^ (t.z - z) + 1, t.y / 2 ^ (t.z - z) + 1⟩
  else
    ⟨t.x * 2 ^ (z - t.z), t.y * 2 ^ (z - t.z), (t.x + 1) * 2 ^ (z - t.z), (t.y + 1) * 2 ^ (z - t.z)⟩

/-- tile_index.h:62 -/
def kTileDefaultIndexZoomLvl : Nat := 10

variable {V : Type}

/-- entries in strictly increasing key order -/
def DbSorted (db : List (UInt64 × V)) : Prop := db.Pairwise (fun a b => a.1 < b.1)

/-- get_tile.h:92-94: SET_RANGE key_begin, then NEXT while `el->first < key_end`. -/
def scanRow (db : List (UInt64 × V)) (keyBegin keyEnd : UInt64) : List (UInt64 × V) :=
  (db.dropWhile (fun e => e.1 < keyBegin)).takeWhile (fun e => e.1 < keyEnd)

/-- get_tile.h:87-101, the loop over `n` rows starting at row `y`
(`fn` is called with the tile and the value; the record list inside a value is
covered by property C05). -/
def scanRows (db : List (UInt64 × V)) (b : TileBounds) : (y n : Nat) → Res (List (Tile × V))
  | _, 0 => .ok []
  | y, n + 1 => do
    let kb ← tileToKey (UInt64.ofNat b.minx) (UInt64.ofNat y) (UInt64.ofNat kTileDefaultIndexZoomLvl) 0
    let ke ← tileToKey (UInt64.ofNat b.maxx) (UInt64.ofNat y) (UInt64.ofNat kTileDefaultIndexZoomLvl) 0
    let rest ← scanRows db b (y + 1) n
    .ok ((scanRow db kb ke).map (fun e => (keyToTile e.1, e.2)) ++ rest)

/-- get_tile.h:82-102 `pack_records_foreach(cursor, query_tile, fn)`:
the sequence of (tile, value) pairs visited. -/
def scanQuery (db : List (UInt64 × V)) (q : Tile) : Res (List (Tile × V)) :=
  let b := q.boundsOnZ kTileDefaultIndexZoomLvl
  scanRows db b b.miny (b.maxy - b.miny)

end Tiles
