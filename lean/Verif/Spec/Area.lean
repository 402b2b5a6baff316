import Verif.Model.Area
import Verif.Spec.ClipLib
/-! Specification: what is assumed about `double` arithmetic, and areas. -/
namespace Tiles.Spec

/-- integers, and their halves, up to 2^53 are represented exactly -/
def ExactSmall (fl : ℚ → ℚ) : Prop := ∀ k : Int, |k| ≤ 2 ^ 53 → fl k = k ∧ fl (k / 2) = k / 2

/-- each operation has a relative error of at most 2^-53 -/
def Accurate (fl : ℚ → ℚ) : Prop := ∀ q : ℚ, |fl q - q| ≤ |q| / 2 ^ 53

/-- Twice the area of the polygons, by the shoelace formula: outer rings count positive if they are counterclockwise on the map (the y-axis points
downwards), holes count negative if they have the other direction. -/
def areaTwice (ps : List Polygon) : Int := ((ringsOf ps).map (fun r => - area2 r)).sum

end Tiles.Spec
