import Verif.Model.Basic
/-
`geo::tile` (external header geo/tile.h, not in /repo; modelled from its use in
/repo/src/db/bq_tree.cc, /repo/include/tiles/db/quad_tree.h and
/repo/include/tiles/db/tile_index.h).  Coordinates are unbounded naturals;
`parent` of a zoom-0 tile wraps z to 2^32-1 exactly as the uint32_t arithmetic
of the library does.
-/
namespace Tiles

/-- `geo::tile{x_, y_, z_}` -/
structure Tile where
  x : Nat
  y : Nat
  z : Nat
  deriving Repr, DecidableEq, Inhabited

namespace Tile

/-- `geo::tile::parent()`; `z_ - 1` in uint32_t arithmetic. -/
def parent (t : Tile) : Tile :=
  ⟨t.x / 2, t.y / 2, (t.z + (2 ^ 32 - 1)) % 2 ^ 32⟩

/-- `geo::tile::quad_pos()` : `((y_ & 1) << 1) | (x_ & 1)`. -/
def quadPos (t : Tile) : Nat := (t.y % 2) * 2 + t.x % 2

/-- the `i`-th of `geo::tile::direct_children()`; the same enumeration as the
four tiles following `as_tile_range().begin()` (used in bq_tree.cc:117-120). -/
def child (t : Tile) (i : Nat) : Tile :=
  ⟨2 * t.x + i % 2, 2 * t.y + i / 2 % 2, t.z + 1⟩

/-- a tile of the pyramid: `x, y < 2^z`. -/
def Valid (t : Tile) : Prop := t.x < 2 ^ t.z ∧ t.y < 2 ^ t.z

instance (t : Tile) : Decidable t.Valid := by unfold Valid; infer_instance

/-- the root `geo::tile{0,0,0}` -/
def root : Tile := ⟨0, 0, 0⟩

end Tile
end Tiles
