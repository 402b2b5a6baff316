import Verif.Spec.FaithLib
/-! Specification for C77: the outlines of areas, what is assumed about the clipping of areas, and what it means that an outline is seen in a tile. -/
namespace Tiles.Spec

/-- the segment from `a` to `b` belongs to one of the outlines (each ends where it begins; the last point is not repeated) -/
def Edge (paths : List Line) (a b : XY) : Prop := ∃ r ∈ paths, Next (close r) a b

/-- Proper outlines: each has three corners or more, no corner is used twice, two edges meet in a joint corner only, and they come closer to each other than
`2 e` in the neighbourhood (of size `m`) of a joint corner only. -/
structure Outlines (e : Int) (m : ℝ) (paths : List Line) : Prop where
  corners : ∀ r ∈ paths, 3 ≤ r.length
  once : paths.flatten.Nodup
  meet : ∀ a b c d, Edge paths a b → Edge paths c d → (a, b) ≠ (c, d) → ∀ s t : ℝ, 0 ≤ s → s ≤ 1 → 0 ≤ t → t ≤ 1 → onSeg a b s = onSeg c d t →
    (b = c ∧ s = 1 ∧ t = 0) ∨ (d = a ∧ t = 1 ∧ s = 0)
  apart : ∀ a b c d, Edge paths a b → Edge paths c d → (a, b) ≠ (c, d) → ∀ s t : ℝ, 0 ≤ s → s ≤ 1 → 0 ≤ t → t ≤ 1 → CloseBy (2 * e) (onSeg a b s) (onSeg c d t) →
    ∃ v : XY, (v = a ∨ v = b) ∧ (v = c ∨ v = d) ∧ CloseBy m (onSeg a b s) (v.x, v.y) ∧ CloseBy m (onSeg c d t) (v.x, v.y)

/-- the point lies in the box, not within `m` of its border -/
def InsideBy (m : ℝ) (b : Box) (p : ℝ × ℝ) : Prop := b.min.x + m ≤ p.1 ∧ p.1 + m ≤ b.max.x ∧ b.min.y + m ≤ p.2 ∧ p.2 + m ≤ b.max.y

/-- what is assumed about Clipper's intersection of a box and areas, in addition to `ClipLib`:
* of an edge of proper outlines that comes into the box by `m` there is an edge in the result from which no point of it there is more than `e` away;
* the holes of a polygon of the result lie inside of it, to the error `e`. -/
structure PolyLib (e : Int) (clipper : List Line → Box → Option (List PolyNode)) : Prop where
  covers : ∀ (m : ℝ) paths box nodes, Outlines e m paths → clipper paths box = some nodes → ∀ a b, Edge paths a b →
    (∃ s : ℝ, 0 ≤ s ∧ s ≤ 1 ∧ InsideBy m box (onSeg a b s)) →
    ∃ q ∈ polysOf nodes, ∃ r ∈ q.1 :: q.2, ∃ c d, Next (close r) c d ∧
      ∀ u : ℝ, 0 ≤ u → u ≤ 1 → InsideBy m box (onSeg a b u) → ∃ v : ℝ, 0 ≤ v ∧ v ≤ 1 ∧ CloseBy e (onSeg c d v) (onSeg a b u)
  holes : ∀ paths box nodes, clipper paths box = some nodes → ∀ q ∈ polysOf nodes, ∀ r ∈ q.2, ∀ p ∈ r,
    (∃ o ∈ q.1, o.x ≤ p.x + e) ∧ (∃ o ∈ q.1, p.x ≤ o.x + e) ∧ (∃ o ∈ q.1, o.y ≤ p.y + e) ∧ (∃ o ∈ q.1, p.y ≤ o.y + e)

/-- In the layer `name` of the tile there is an area feature with this id and these tags, and in one of its outlines the points `a` and `b` are next to each
other, for which `P a b` holds. -/
def AreaSeen (layers : List ClientLayer) (name : Bytes) (id : Int) (tags : List (Bytes × Typed)) (P : XY → XY → Prop) : Prop :=
  ∃ L ∈ layers, L.name = name ∧ ∃ c ∈ L.features, (c.id : Int) = id ∧ c.type = 3 ∧ c.tags.Perm tags ∧
    ∃ part ∈ c.parts, part.closed = true ∧ ∃ a b, Next (close part.points) a b ∧ P a b

/-- A client sees the edge from `a` to `b` (in units of level 20) of an area as far as it lies in the tile, in the layer, with the id and the tags: if what lies in
the tile is not too short (two points of it are a unit of the tile and four times the error of the library apart), then there is an edge in the tile from which no
point of it is further away than the error and one unit. -/
def EdgeSeen (e : Int) (q : Tile) (layers : List ClientLayer) (name : Bytes) (id : Int) (tags : List (Bytes × Typed)) (a b : XY) : Prop :=
  ∀ s t : ℝ, 0 ≤ s → s ≤ 1 → 0 ≤ t → t ≤ 1 → TileHas q (onSeg a b s) → TileHas q (onSeg a b t) →
    ¬ (|(onSeg a b s).1 - (onSeg a b t).1| < 4 * e + 2 ^ (20 - q.z) ∧ |(onSeg a b s).2 - (onSeg a b t).2| < 4 * e + 2 ^ (20 - q.z)) →
    AreaSeen layers name id tags (fun a' b' => ∀ u : ℝ, 0 ≤ u → u ≤ 1 → TileHas q (onSeg a b u) →
      ∃ v : ℝ, 0 ≤ v ∧ v ≤ 1 ∧ CloseBy (e / 2 ^ (20 - q.z) + 1) (onSeg a' b' v) (tilePos q (onSeg a b u)))

/-- the outlines of an area, of the nodes that are kept by a mask (one bit for each node of a ring) -/
def keptOutline {L : Type} (conv : L → XY) (bits : Line → List Bool) (nodes : List (Option L)) : Line :=
  ((keptPlaces (bits ((ringPlaces conv nodes).map conv)) ((ringPlaces conv nodes).map some)).map conv).dropLast

/-- the nodes of the rings of an area, in their order -/
def ringNodes {L : Type} (items : List (AreaItem L)) : List (List (Option L)) :=
  items.filterMap fun | .outer nodes => some nodes | .inner nodes => some nodes | .other => none

/-- An area that can be drawn at a level: its outlines (of the nodes that simplification keeps at the level) are proper, and the inner ones lie in the box of
the outer ones. -/
structure ProperArea (e : Int) (conv : LatLng → XY) (bits : Line → List Bool) (items : List (AreaItem LatLng)) : Prop where
  outlines : Outlines e 4096 ((ringNodes items).map (keptOutline conv bits))
  inside : ∀ nodes, AreaItem.inner nodes ∈ items → ∀ p ∈ keptOutline conv bits nodes,
    (∃ os, AreaItem.outer os ∈ items ∧ ∃ o ∈ keptOutline conv bits os, o.x ≤ p.x) ∧ (∃ os, AreaItem.outer os ∈ items ∧ ∃ o ∈ keptOutline conv bits os, p.x ≤ o.x) ∧
    (∃ os, AreaItem.outer os ∈ items ∧ ∃ o ∈ keptOutline conv bits os, o.y ≤ p.y) ∧ (∃ os, AreaItem.outer os ∈ items ∧ ∃ o ∈ keptOutline conv bits os, p.y ≤ o.y)

end Tiles.Spec
