import Verif.Spec.Coastline
import Verif.Props.C52
/-
Specification vocabulary for the sea on the map: what the coastline loader leaves for the other steps of the import, and what is assumed of the
shapes that the polygon library makes.
-/
namespace Tiles.Spec

/-- the point lies in the tile; each point of the map lies in exactly one tile of each level -/
def InTile (t : Tile) (p : Pt) : Prop :=
  (t.x : ℚ) * side t.z ≤ p.1 ∧ p.1 < ((t.x : ℚ) + 1) * side t.z ∧ (t.y : ℚ) * side t.z ≤ p.2 ∧ p.2 < ((t.y : ℚ) + 1) * side t.z

/-- the polygons are cut out (as above) for a tile of level 10 of the map -/
def CoastCut (lib : CoastLib) (t : Tile) (ps : List Polygon) : Prop := t.Valid ∧ t.z = 10 ∧ CutOut lib t ps

/-- What is assumed of the polygons that Clipper makes for a tile of level 10 (after boost's `correct`): their rings are closed (with four points or more) and lie
in the rectangle that was cut out, holes lie inside of the outer rings, and if something is left in the tile then the box around it says so. -/
structure GoodShapes (lib : CoastLib) (S : Set Pt) : Prop where
  rings : ∀ t ps, CoastCut lib t ps → ∀ q ∈ ps, ∀ r ∈ q.outer :: q.inners, 4 ≤ r.length ∧ r.length < 2 ^ 62
  counts : ∀ t ps, CoastCut lib t ps → ps.length < 2 ^ 62 ∧ ∀ q ∈ ps, q.inners.length < 2 ^ 62
  inside : ∀ t ps, CoastCut lib t ps → ∀ q ∈ ps, ∀ r ∈ q.outer :: q.inners, ∀ v ∈ r, InBox (drawBounds t) (v.x, v.y)
  holes : ∀ t ps, CoastCut lib t ps → ∀ q ∈ ps, ∀ i ∈ q.inners, ∀ p ∈ S, inRing i p = true → inRing q.outer p = true
  near : ∀ t ps, CoastCut lib t ps → touches (boundingBox (.polygon ps)) t

/-- Loading the coastline of these land polygons (load_coastlines.cc) has come to its end: `xs` are the features whose bytes the main thread inserted, each for
one tile of level 10; `sea` are the tiles of which the seaside tree is built. -/
def CoastLoads (lib : CoastLib) (polys : List Polygon) (workers : Nat) (xs : List Inserted) (sea : List Tile) : Prop :=
  ∃ ws s, coastTasks lib (polys.map coastOf) (tilesOfZoom 4) = .ok ws ∧ Reach CoastStep (coastInit ws workers) s ∧ .cExit ∈ s.2 ∧ sea = seaTiles s.1.log ∧
    List.Forall₂ (fun e x => ∃ t b, e = .db t b ∧ x.tile = some t ∧ Storable x.feature ∧ serializeFeature (fun _ => []) [] true x.feature = .ok b) s.1.q.handled xs

/-- a feature that shows the sea of its tile: at the points `S` of the tile it covers what is not land, around the tile at most the margin -/
structure ShowsSea (land : Pt → Prop) (S : Set Pt) (x : Inserted) (t : Tile) (ps : List Polygon) : Prop where
  tile : x.tile = some t
  level : t.Valid ∧ t.z = 10
  feature : ∃ k : UInt64, keyOfTile t = .ok k ∧ x.feature = ⟨k.toNat, 0, 0, 21, [], .polygon ps⟩
  sea : ∀ p ∈ S, InBox (insertBounds t) p → (inPolygons ps p = true ↔ ¬ land p)
  margin : ∀ p ∈ S, inPolygons ps p = true → InBox (drawBounds t) p

end Tiles.Spec
