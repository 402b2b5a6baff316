import Verif.Spec.Tile
import Verif.Model.QuadTree
/-
Depth-first (pre-) order of the tile pyramid, and what a quad tree index is about: a list of
elements, numbered 0, 1, 2, .., grouped by tile.
-/
namespace Tiles.Spec

/-- `a` comes before (or is) `b` in depth-first order: it contains `b`, or it lies in an earlier
child of a common ancestor. -/
def PreOrd (a b : Tile) : Prop :=
  AncOrSelf a b ∨ ∃ (c : Tile) (i j : Nat), i < j ∧ j < 4 ∧ AncOrSelf (c.child i) a ∧ AncOrSelf (c.child j) b

/-- all tiles of the input are different, offsets and sizes are 32-bit values -/
structure QOk (es : List QInput) : Prop where
  nodup : (es.map (·.tile)).Nodup
  off : ∀ e ∈ es, e.offset < 2 ^ 32
  size : ∀ e ∈ es, e.size < 2 ^ 32

/-- the tile of each element: entry `e` stands for `e.size` elements -/
def owners (es : List QInput) : List Tile := es.flatMap (fun e => List.replicate e.size e.tile)

/-- numbers of the elements whose tile shares area with `q` -/
def wanted (q : Tile) (es : List QInput) : List Nat :=
  (List.range (owners es).length).filter (fun j => ∃ t, (owners es)[j]? = some t ∧ Meet t q)

/-- the entries of the list are stored one after the other from element `a` on; element `j` has address `p j` -/
def Laid (p : Nat → Nat) : Nat → List QInput → Prop
  | _, [] => True
  | a, e :: l => e.offset = p a ∧ Laid p (a + e.size) l

/-- the reported spans `(address of the first element, number of elements)` are, in order, exactly `elems` -/
def Spans (p : Nat → Nat) (r : List (Nat × Nat)) (elems : List Nat) : Prop :=
  ∃ l : List (Nat × Nat), r = l.map (fun x => (p x.1, x.2)) ∧ l.flatMap (fun x => List.range' x.1 x.2) = elems

end Tiles.Spec
