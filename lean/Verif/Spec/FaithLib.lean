import Verif.Spec.LineLib
import Verif.Spec.OsmData
/-! Specification for C71: lines that follow others, and what is assumed of the libraries about the shape of their results. -/
namespace Tiles.Spec

/-- the point lies on one of the lines -/
def OnLines (ls : List Line) (p : ℝ × ℝ) : Prop := ∃ l ∈ ls, ∃ a b, Next l a b ∧ ∃ s : ℝ, 0 ≤ s ∧ s ≤ 1 ∧ p = onSeg a b s

/-- from every point of the line it is not further than `d` to the points with `P` -/
def Follows (d : ℝ) (l : Line) (P : ℝ × ℝ → Prop) : Prop :=
  ∀ a b, Next l a b → ∀ u : ℝ, 0 ≤ u → u ≤ 1 → ∃ p, P p ∧ CloseBy d (onSeg a b u) p

/-- the point lies on the border of the box -/
def OnBorder (b : Box) (p : ℝ × ℝ) : Prop := BoxHas b p ∧ (p.1 = b.min.x ∨ p.1 = b.max.x ∨ p.2 = b.min.y ∨ p.2 = b.max.y)

/-- what is assumed about the shape of the results of the libraries:
* what `boost::geometry::intersection` leaves of lines follows the lines, to the error `e`;
* the outlines of what Clipper leaves of polygons follow the outlines of the polygons and the border of the box, to the error `e`;
* a simplified line follows the line, to the error `τ` in units of the zoom level (`n` is the size of the unit). -/
structure FaithLib (e : Int) (τ : ℝ) (inter : Box → List Line → List Line) (clipper : List Line → Box → Option (List PolyNode)) (simplify : Nat → Line → Line) : Prop where
  lines : ∀ box ls, ∀ part ∈ inter box ls, Follows e part (OnLines ls)
  outlines : ∀ paths box nodes, clipper paths box = some nodes → ∀ q ∈ polysOf nodes, ∀ r ∈ q.1 :: q.2,
    Follows e (close r) (fun p => OnLines (paths.map close) p ∨ OnBorder box p)
  simplifies : ∀ (n : Nat) (l : Line), Follows (τ * n) (simplify n l) (OnLines [l])

/-- the places of the nodes of a ring, with the first one again at the end (unless the ring ends at the same point of the map, in units of level 20) -/
def ringPlaces {L : Type} (conv : L → XY) (nodes : List (Option L)) : List L :=
  match (nodes.filterMap id).head?, (nodes.filterMap id).getLast? with
  | some a, some b => if conv a = conv b then nodes.filterMap id else nodes.filterMap id ++ [a]
  | _, _ => nodes.filterMap id

/-- `A` and `B` are the ends of a straight piece of the way or of the outline of the area (of the nodes that are kept by the mask `bits`) -/
def Piece (conv : LatLng → XY) (bits : Line → List Bool) (s : OsmShape LatLng) (A B : LatLng) : Prop :=
  match s with
  | .node _ => False
  | .way nodes => [A, B] <:+: keptPlaces (bits ((nodes.filterMap id).map conv)) nodes
  | .area items => ∃ nodes, (AreaItem.outer nodes ∈ items ∨ AreaItem.inner nodes ∈ items) ∧
      [A, B] <:+: keptPlaces (bits ((ringPlaces conv nodes).map conv)) ((ringPlaces conv nodes).map some)

/-- the point of the tile (in its units) belongs to the way or to the outline of the area -/
def OnShape (conv : LatLng → XY) (bits : Line → List Bool) (q : Tile) (s : OsmShape LatLng) (p : ℝ × ℝ) : Prop :=
  ∃ A B, Piece conv bits s A B ∧ ∃ t : ℝ, 0 ≤ t ∧ t ≤ 1 ∧ p = inTile q (between A B t)

/-- how far the frame that is drawn around a tile is outside of it, in the tile's units (4096 units of level 20) -/
noncomputable def frameDist (q : Tile) : ℝ := 4096 / 2 ^ (20 - q.z)

/-- the point lies on the frame that is drawn around the tile -/
def OnFrame (q : Tile) (p : ℝ × ℝ) : Prop :=
  -frameDist q ≤ p.1 ∧ p.1 ≤ 4096 + frameDist q ∧ -frameDist q ≤ p.2 ∧ p.2 ≤ 4096 + frameDist q ∧
  (p.1 = -frameDist q ∨ p.1 = 4096 + frameDist q ∨ p.2 = -frameDist q ∨ p.2 = 4096 + frameDist q)

end Tiles.Spec
