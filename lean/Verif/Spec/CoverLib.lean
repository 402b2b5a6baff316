import Verif.Spec.FaithLib
/-! Specification for C78: what is assumed of the simplification of joined lines. -/
namespace Tiles.Spec

/-- what is assumed of the simplification of lines (Douglas-Peucker in `geo::simplify`), in addition to `FaithLib`: from every point of the line it is not further than `τ`
units (of the zoom level, `n` is the size of the unit) to the simplified line -/
def CoverLib (τ : ℝ) (simplify : Nat → Line → Line) : Prop := ∀ (n : Nat) (l : Line), Follows (τ * n) l (OnLines [simplify n l])

/-- two points of the plane are less than `d` apart in each coordinate -/
def NearBy (d : ℝ) (p q : ℝ × ℝ) : Prop := |p.1 - q.1| < d ∧ |p.2 - q.2| < d

end Tiles.Spec
