import Verif.Model.Tile
/-
Specification vocabulary for the tile pyramid, independent of the code:
which square a tile is, and when one tile lies in another.
-/
namespace Tiles.Spec

/-- `a` is `b` or one of the tiles that contain `b`. -/
def AncOrSelf (a b : Tile) : Prop :=
  a.z ≤ b.z ∧ a.x = b.x / 2 ^ (b.z - a.z) ∧ a.y = b.y / 2 ^ (b.z - a.z)

instance (a b : Tile) : Decidable (AncOrSelf a b) := by unfold AncOrSelf; infer_instance

/-- two tiles share area: one contains the other. -/
def Meet (a b : Tile) : Prop := AncOrSelf a b ∨ AncOrSelf b a

instance (a b : Tile) : Decidable (Meet a b) := by unfold Meet; infer_instance

/-- side length of a zoom-`z` tile in fixed (zoom 20, 4096 px) coordinates. -/
def side (z : Nat) : Nat := 4096 * 2 ^ (20 - z)

/-- the point `(px,py)` (fixed coordinates) lies in the half-open square of tile `t`. -/
def PointIn (t : Tile) (px py : Nat) : Prop :=
  t.x * side t.z ≤ px ∧ px < (t.x + 1) * side t.z ∧
  t.y * side t.z ≤ py ∧ py < (t.y + 1) * side t.z

instance (t : Tile) (px py : Nat) : Decidable (PointIn t px py) := by
  unfold PointIn; infer_instance

end Tiles.Spec
