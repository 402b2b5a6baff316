import Verif.Model.FeatureIO
import Mathlib.Data.List.Chain
/-! Joining lines at their ends. -/
namespace Tiles.Spec

/-- line number `i` (empty if there is none) -/
def lineNo (pts : List Line) (i : Nat) : Line := pts.getD i []

/-- line `i` ends at `p` -/
def EndsAt (pts : List Line) (i : Nat) (p : XY) : Prop := (lineNo pts i).head? = some p ∨ (lineNo pts i).getLast? = some p

/-- line `i` starts where it ends -/
def Closed (pts : List Line) (i : Nat) : Prop := (lineNo pts i).head? = (lineNo pts i).getLast?

/-- exactly two lines end at `p`, namely `i` and `j`, and each with one of its ends only -/
def Junction (pts : List Line) (p : XY) (i j : Nat) : Prop :=
  i ≠ j ∧ EndsAt pts i p ∧ EndsAt pts j p ∧ (∀ k, EndsAt pts k p → k = i ∨ k = j) ∧ ¬ Closed pts i ∧ ¬ Closed pts j

/-- a line as it is, or (`true`) backwards -/
def orient (pts : List Line) (e : Nat × Bool) : Line := if e.2 then (lineNo pts e.1).reverse else lineNo pts e.1

/-- consecutive lines meet, and nothing else ends there -/
def Linked (pts : List Line) (a b : Nat × Bool) : Prop :=
  ∃ p, (orient pts a).getLast? = some p ∧ (orient pts b).head? = some p ∧ Junction pts p a.1 b.1

/-- one line after the other; the common points only once -/
def glue : List Line → Line
  | [] => []
  | l :: ls => l ++ (ls.map List.tail).flatten

/-- `out` are the lines `pts` joined: every line is used exactly once, lines are joined only where exactly two line ends meet, and there they
always are (except at the reserved point `nowhere`) -/
def Joined (nowhere : XY) (pts out : List Line) : Prop := ∃ chains : List (List (Nat × Bool)),
  out = chains.map (fun c => glue (c.map (orient pts))) ∧
  (chains.flatten.map (·.1)).Perm (List.range pts.length) ∧
  (∀ c ∈ chains, c ≠ [] ∧ c.IsChain (Linked pts)) ∧
  (∀ p i j, p ≠ nowhere → Junction pts p i j → ∃ c ∈ chains, i ∈ c.map (·.1) ∧ j ∈ c.map (·.1))

/-- the same without an exception -/
def JoinedEverywhere (pts out : List Line) : Prop := ∃ chains : List (List (Nat × Bool)),
  out = chains.map (fun c => glue (c.map (orient pts))) ∧
  (chains.flatten.map (·.1)).Perm (List.range pts.length) ∧
  (∀ c ∈ chains, c ≠ [] ∧ c.IsChain (Linked pts)) ∧
  (∀ p i j, Junction pts p i j → ∃ c ∈ chains, i ∈ c.map (·.1) ∧ j ∈ c.map (·.1))

/-- the segments of a line, without direction -/
def segments : Line → List (XY × XY)
  | a :: b :: l => (if a.x < b.x ∨ (a.x = b.x ∧ a.y ≤ b.y) then (a, b) else (b, a)) :: segments (b :: l)
  | _ => []

/-- the lines of a line feature -/
def featureLines (f : Feature) : List Line := match f.geometry with
  | .polyline ls => ls
  | _ => []

/-- a feature of non-empty lines -/
def LineFeature (f : Feature) : Prop := f.geometry = .polyline (featureLines f) ∧ (∀ l ∈ featureLines f, l ≠ []) ∧ (featureLines f).length < 2 ^ 32 - 1

/-- the features `out` are the features `fs` aggregated: one for every set of metadata; it has the metadata, the smallest id, and the lines of
the features with these metadata, joined and then simplified with `simp` -/
def Aggregated (nowhere : XY) (simp : Line → Line) (fs out : List Feature) : Prop :=
  (out.map (·.metas)).Nodup ∧ (∀ f ∈ fs, ∃ g ∈ out, g.metas = f.metas) ∧
  ∀ g ∈ out, ∃ (group : List Feature) (joined : List Line), group.Perm (fs.filter (fun f => decide (f.metas = g.metas))) ∧ Joined nowhere (group.flatMap featureLines) joined ∧
    g.geometry = .polyline (joined.map simp) ∧ (∃ f ∈ group, f.id = g.id) ∧ ∀ f ∈ group, g.id ≤ f.id

/-- the polygons of a feature -/
def featurePolygons (f : Feature) : List Polygon := match f.geometry with
  | .polygon ps => ps
  | _ => []

/-- the polygon features `out` are the polygon features `fs` aggregated: one for every set of metadata; it has the metadata, the smallest id, and the
polygons of exactly the features with these metadata, in the order of their ids -/
def PolygonsAggregated (fs out : List Feature) : Prop :=
  (out.map (·.metas)).Nodup ∧ (∀ f ∈ fs, ∃ g ∈ out, g.metas = f.metas) ∧
  ∀ g ∈ out, ∃ group : List Feature, group.Perm (fs.filter (fun f => decide (f.metas = g.metas))) ∧ group.Pairwise (fun a b => a.id ≤ b.id) ∧
    g.geometry = .polygon (group.flatMap featurePolygons) ∧ (∃ f ∈ group, f.id = g.id) ∧ ∀ f ∈ group, g.id ≤ f.id

end Tiles.Spec
