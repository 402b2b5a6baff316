import Mathlib.Data.Rat.Floor
import Verif.Spec.Tile
import Verif.Model.Coastline
/-
Specification vocabulary for the coastline loader: which points a set of closed paths covers by the even-odd rule (the fill rule the code
asks Clipper for), what is assumed of Clipper, and what the events of the loader say about tiles.
-/
namespace Tiles.Spec

/-- a point of the plane, in fixed coordinates -/
abbrev Pt := ℚ × ℚ

/-- the point lies in the closed box -/
def InBox (b : Box) (p : Pt) : Prop := (b.min.x : ℚ) ≤ p.1 ∧ p.1 ≤ b.max.x ∧ (b.min.y : ℚ) ≤ p.2 ∧ p.2 ≤ b.max.y

instance (b : Box) (p : Pt) : Decidable (InBox b p) := by unfold InBox; infer_instance

/-- the edge crosses the ray that leaves the point in direction of growing x -/
def crosses (p : Pt) (a b : XY) : Bool :=
  (decide ((a.y : ℚ) > p.2) != decide ((b.y : ℚ) > p.2)) &&
    decide ((a.x : ℚ) + (p.2 - a.y) * (b.x - a.x) / (b.y - a.y) > p.1)

/-- parity of the number of edges that cross the ray; the last point is connected to `first` -/
def crossFrom (p : Pt) (first : XY) : Line → Bool
  | [] => false
  | [a] => crosses p a first
  | a :: b :: l => xor (crosses p a b) (crossFrom p first (b :: l))

/-- the point is inside of the closed path, by the even-odd rule -/
def inRing (l : Line) (p : Pt) : Bool :=
  match l with
  | [] => false
  | a :: l => crossFrom p a (a :: l)

/-- ... of several paths -/
def inPaths (ls : List Line) (p : Pt) : Bool := ls.foldr (fun l b => xor (inRing l p) b) false

/-- ... of several sets of paths -/
def inSets (gs : List (List Line)) (p : Pt) : Bool := gs.foldr (fun g b => xor (inPaths g p) b) false

/-- the point is in the area of polygons (all rings, even-odd rule) -/
def inPolygons (ps : List Polygon) (p : Pt) : Bool := inPaths (ps.flatMap (fun q => q.outer :: q.inners)) p

/-- What is assumed of the polygon library: at the points `S` the results cover what they should.  (Clipper works with integers, its
results are moved by rounding; `S` are the points where this does not matter.)  `full`: a result that is one path of four corners of the
rectangle is the rectangle. -/
structure ExactAt (lib : CoastLib) (S : Set Pt) : Prop where
  inter : ∀ g b r, lib.inter g b = .ok r → ∀ p ∈ S, inPaths r p = (inPaths g p && decide (InBox b p))
  full : ∀ g b r, lib.inter g b = .ok r → isFull r b = true → ∀ p ∈ S, InBox b p → inPaths r p = true
  diff : ∀ b gs, ∀ p ∈ S, inPaths (treePaths (lib.diff b gs)) p = (decide (InBox b p) && !inSets gs p)
  correct : ∀ ps, ∀ p ∈ S, inPolygons (lib.correct ps) p = inPolygons ps p

/-- land, as the input describes it -/
def Land (polys : List Polygon) (p : Pt) : Prop := ∃ q ∈ polys, inPaths (q.outer :: q.inners) p = true

/-- polygons with holes inside of their outer rings, which do not overlap at the points `S` -/
structure GoodInput (polys : List Polygon) (S : Set Pt) : Prop where
  holes : ∀ q ∈ polys, ∀ i ∈ q.inners, ∀ p ∈ S, inRing i p = true → inRing q.outer p = true
  nonempty : ∀ q ∈ polys, q.outer ≠ []
  disjoint : ∀ p ∈ S, (polys.countP (fun q => inPaths (q.outer :: q.inners) p)) ≤ 1

/-- the tiles the events decide about -/
def leaves : List CoastEv → List Tile
  | [] => []
  | .land t :: es => t :: leaves es
  | .sea t :: es => t :: leaves es
  | .db t _ :: es => t :: leaves es
  | .tick _ :: es => leaves es

/-- in how many of the tiles a tile lies -/
def timesCovered (ts : List Tile) (q : Tile) : Nat := ts.countP (fun t => decide (AncOrSelf t q))

/-- the polygons are what is left of the tile with its margin when some paths are taken away, and something of it lies in the tile -/
def CutOut (lib : CoastLib) (t : Tile) (ps : List Polygon) : Prop :=
  ∃ gs p i, toFixedPolygon [] (lib.diff (drawBounds t) gs) = .ok p ∧ ps = lib.correct p ∧
    lib.inter (treePaths (lib.diff (drawBounds t) gs)) (insertBounds t) = .ok i ∧ i ≠ []

/-- what an event says about the points of its tile is true: a sea tile has no land, a land tile only land, and the polygon of a feature is
the sea.  The polygon also reaches into the margin around the tile (`drawBounds`); there, whatever it leaves out is land. -/
def Right (lib : CoastLib) (land : Pt → Prop) (S : Set Pt) : CoastEv → Prop
  | .land t => ∀ p ∈ S, InBox (insertBounds t) p → land p
  | .sea t => ∀ p ∈ S, InBox (insertBounds t) p → ¬ land p
  | .db t bytes => ∃ (k : UInt64) (ps : List Polygon), keyOfTile t = .ok k ∧
      serializeFeature lib.mask [] true ⟨k.toNat, 0, 0, 21, [], .polygon ps⟩ = .ok bytes ∧ CutOut lib t ps ∧
      (∀ p ∈ S, InBox (insertBounds t) p → (inPolygons ps p = true ↔ ¬ land p)) ∧
      (∀ p ∈ S, inPolygons ps p = true → InBox (drawBounds t) p) ∧
      (∀ p ∈ S, InBox (drawBounds t) p → inPolygons ps p = false → land p)
  | .tick _ => True

end Tiles.Spec
