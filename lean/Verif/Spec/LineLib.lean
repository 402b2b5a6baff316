import Verif.Spec.ClipLib
import Verif.Spec.Mercator
import Verif.Spec.MvtTile
/-! Specification for C70: points on segments, what is assumed about the clipping of lines, and what it means that a line is seen in a tile. -/
namespace Tiles.Spec

/-- the point of the plane at the share `t` of the way from `a` to `b` -/
noncomputable def onSeg (a b : XY) (t : ℝ) : ℝ × ℝ := (a.x + t * (b.x - a.x), a.y + t * (b.y - a.y))

/-- two points of the plane are at most `d` apart in each coordinate -/
def CloseBy (d : ℝ) (p q : ℝ × ℝ) : Prop := |p.1 - q.1| ≤ d ∧ |p.2 - q.2| ≤ d

/-- the point lies in the box (the border included) -/
def BoxHas (b : Box) (p : ℝ × ℝ) : Prop := b.min.x ≤ p.1 ∧ p.1 ≤ b.max.x ∧ b.min.y ≤ p.2 ∧ p.2 ≤ b.max.y

/-- the point lies in the box, not on its border -/
def InsideOf (b : Box) (p : XY) : Prop := b.min.x < p.x ∧ p.x < b.max.x ∧ b.min.y < p.y ∧ p.y < b.max.y

/-- the point lies in the half-open square of the tile -/
def TileHas (q : Tile) (p : ℝ × ℝ) : Prop :=
  (q.x : ℝ) * side q.z ≤ p.1 ∧ p.1 < (q.x + 1 : ℝ) * side q.z ∧ (q.y : ℝ) * side q.z ≤ p.2 ∧ p.2 < (q.y + 1 : ℝ) * side q.z

/-- `a` and then `b` are next to each other in the line -/
def Next (l : Line) (a b : XY) : Prop := [a, b] <:+: l

/-- what is assumed about `boost::geometry::intersection` of a box and lines, in addition to `ClipLib`:
* a segment with both ends inside of the box stays as it is;
* of a segment that crosses the box there is a segment in the result from which no point of it in the box is more than `e` away, unless what lies in
  the box is not longer than `2 e` (then the ends may be rounded to the same point). -/
structure LineLib (e : Int) (inter : Box → List Line → List Line) : Prop where
  stays : ∀ box ls, ∀ l ∈ ls, ∀ a b, Next l a b → a ≠ b → InsideOf box a → InsideOf box b → ∃ part ∈ inter box ls, Next part a b
  crosses : ∀ box ls, ∀ l ∈ ls, ∀ a b, Next l a b →
    ∀ s t : ℝ, 0 ≤ s → s ≤ 1 → 0 ≤ t → t ≤ 1 → BoxHas box (onSeg a b s) → BoxHas box (onSeg a b t) → ¬ CloseBy (2 * e) (onSeg a b s) (onSeg a b t) →
    ∃ part ∈ inter box ls, ∃ c d, Next part c d ∧ ∀ u : ℝ, 0 ≤ u → u ≤ 1 → BoxHas box (onSeg a b u) → ∃ v : ℝ, 0 ≤ v ∧ v ≤ 1 ∧ CloseBy e (onSeg c d v) (onSeg a b u)

/-- In the layer `name` of the tile there is a line feature with this id and these tags, and in one of its lines the points `a` and `b` are next to each
other, for which `P a b` holds. -/
def LineSeen (layers : List ClientLayer) (name : Bytes) (id : Int) (tags : List (Bytes × Typed)) (P : XY → XY → Prop) : Prop :=
  ∃ L ∈ layers, L.name = name ∧ ∃ c ∈ L.features, (c.id : Int) = id ∧ c.type = 2 ∧ c.tags.Perm tags ∧
    ∃ part ∈ c.parts, part.closed = false ∧ ∃ a b, Next part.points a b ∧ P a b

/-- the place of a point (in units of level 20) in a tile, in the tile's units (4096 to a side) -/
noncomputable def tilePos (q : Tile) (p : ℝ × ℝ) : ℝ × ℝ := (p.1 / 2 ^ (20 - q.z) - q.x * 4096, p.2 / 2 ^ (20 - q.z) - q.y * 4096)

/-- the place of a point (in units of level 20) in a tile, rounded down to the tile's units -/
def placeIn (q : Tile) (p : XY) : XY := ⟨p.x / 2 ^ (20 - q.z) - q.x * 4096, p.y / 2 ^ (20 - q.z) - q.y * 4096⟩

/-- A client sees the segment from `a` to `b` (in units of level 20) as far as it lies in the tile, in the layer, with the id and the tags:
* if both ends lie in the tile, it runs between the places of these, unless they have the same place;
* if what lies in the tile is not too short (two points of it are a unit of the tile and twice the error of the library apart), then there is a segment in the
  tile from which no point of it is further away than the error and one unit. -/
def SegmentSeen (e : Int) (q : Tile) (layers : List ClientLayer) (name : Bytes) (id : Int) (tags : List (Bytes × Typed)) (a b : XY) : Prop :=
  (TileHas q (a.x, a.y) → TileHas q (b.x, b.y) → placeIn q a ≠ placeIn q b → LineSeen layers name id tags (fun a' b' => a' = placeIn q a ∧ b' = placeIn q b)) ∧
  (∀ s t : ℝ, 0 ≤ s → s ≤ 1 → 0 ≤ t → t ≤ 1 → TileHas q (onSeg a b s) → TileHas q (onSeg a b t) →
    ¬ (|(onSeg a b s).1 - (onSeg a b t).1| < 2 * e + 2 ^ (20 - q.z) ∧ |(onSeg a b s).2 - (onSeg a b t).2| < 2 * e + 2 ^ (20 - q.z)) →
    LineSeen layers name id tags (fun a' b' => ∀ u : ℝ, 0 ≤ u → u ≤ 1 → TileHas q (onSeg a b u) →
      ∃ v : ℝ, 0 ≤ v ∧ v ≤ 1 ∧ CloseBy (e / 2 ^ (20 - q.z) + 1) (onSeg a' b' v) (tilePos q (onSeg a b u))))

/-- the place of a point of the map (in shares of the map's width and height) in a tile, in the tile's units (4096 to a side) -/
noncomputable def inTile (q : Tile) (p : ℝ × ℝ) : ℝ × ℝ := ((p.1 * 2 ^ q.z - q.x) * 4096, (p.2 * 2 ^ q.z - q.y) * 4096)

/-- the point of the map at the share `t` of the straight line between two places -/
noncomputable def between (a b : LatLng) (t : ℝ) : ℝ × ℝ := (mapX a + t * (mapX b - mapX a), mapY a + t * (mapY b - mapY a))

/-- the point of the map lies in the tile, and not within `g` units of level 20 of its border -/
def Deep (g : ℝ) (q : Tile) (p : ℝ × ℝ) : Prop :=
  q.x + g / side q.z ≤ p.1 * 2 ^ q.z ∧ p.1 * 2 ^ q.z + g / side q.z < q.x + 1 ∧
  q.y + g / side q.z ≤ p.2 * 2 ^ q.z ∧ p.2 * 2 ^ q.z + g / side q.z < q.y + 1

/-- the places of the nodes of a way that are kept by a mask (one bit for each node with a place) -/
def keptPlaces {L : Type} (bits : List Bool) (nodes : List (Option L)) : List L := (((nodes.filterMap id).zip bits).filter (·.2)).map (·.1)

end Tiles.Spec
