import Verif.Model.Convert
import Verif.Spec.Tile
import Mathlib.Analysis.SpecialFunctions.Arsinh
import Mathlib.Analysis.SpecialFunctions.Trigonometric.Arctan
/-! Specification: the map (spherical Mercator projection of a square around the equator), and what is assumed about the library that computes it. -/
namespace Tiles.Spec
open Real

/-- degrees -/
structure LatLng where
  lat : ℝ
  lng : ℝ

/-- how far to the east on the map, as a share of its width -/
noncomputable def mapX (p : LatLng) : ℝ := (p.lng + 180) / 360
/-- how far to the south on the map, as a share of its height -/
noncomputable def mapY (p : LatLng) : ℝ := (1 - arsinh (tan (p.lat * (π / 180))) / π) / 2

/-- the latitude of the northern border of the map (about 85.05 degrees) -/
noncomputable def maxLat : ℝ := arctan (sinh π) * (180 / π)

/-- a place on the map -/
def OnMap (p : LatLng) : Prop := |p.lng| ≤ 180 ∧ |p.lat| ≤ maxLat

/-- the library computes positions on the map of 2^32 x 2^32 units with an error of at most `e` units (rounding included), and never negative ones -/
structure GeoLib (e : ℝ) (px : LatLng → XY) : Prop where
  nonneg : ∀ p, OnMap p → 0 ≤ (px p).x ∧ 0 ≤ (px p).y
  x : ∀ p, OnMap p → |((px p).x : ℝ) - mapX p * 2 ^ 32| ≤ e
  y : ∀ p, OnMap p → |((px p).y : ℝ) - mapY p * 2 ^ 32| ≤ e

/-- the way back (`mx`: column to Mercator x, `my`: row to Mercator y, `inv`: Mercator x and y to place): from positions on the map to places, with errors of `d` degrees -/
structure GeoBack (d : ℝ) {M : Type} (mx my : Int → M) (inv : M → M → LatLng) : Prop where
  lng : ∀ x y : Int, |(inv (mx x) (my y)).lng - (x * 360 / 2 ^ 32 - 180)| ≤ d
  lat : ∀ x y : Int, |(inv (mx x) (my y)).lat - arctan (sinh (π * (1 - 2 * (y / 2 ^ 32)))) * (180 / π)| ≤ d

/-- the tile of a zoom level that contains a place, in the usual numbering (OpenStreetMap wiki, "Slippy map tilenames") -/
noncomputable def slippyTile (z : Nat) (p : LatLng) : Tile := ⟨⌊mapX p * 2 ^ z⌋₊, ⌊mapY p * 2 ^ z⌋₊, z⟩

/-- the place lies in the tile and not within `e` units of level 20 of its border -/
def WellInside (e : ℝ) (q : Tile) (p : LatLng) : Prop :=
  q.x + e / side q.z ≤ mapX p * 2 ^ q.z ∧ mapX p * 2 ^ q.z + e / side q.z < q.x + 1 ∧
  q.y + e / side q.z ≤ mapY p * 2 ^ q.z ∧ mapY p * 2 ^ q.z + e / side q.z < q.y + 1

end Tiles.Spec
