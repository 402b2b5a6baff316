import Verif.Model.Fixed
/-
Model of /repo/src/osm/read_osm_geometry.cc.  An OSM node reference is its location: `none` = invalid, `some l` with
an opaque location `l`; `conv` stands for `latlng_to_fixed` (floating point, not modelled).
-/
namespace Tiles
variable {L : Type}

/-- read_osm_geometry.cc:13-21 (node) -/
def readOsmNode (conv : L → XY) (loc : Option L) : Geometry :=
  match loc with
  | none => .null
  | some l => .point [conv l]

/-- read_osm_geometry.cc:23-33 `nodes_to_fixed` -/
def nodesToFixed (conv : L → XY) : List (Option L) → Line
  | [] => []
  | some l :: ns => conv l :: nodesToFixed conv ns
  | none :: ns => nodesToFixed conv ns

/-- read_osm_geometry.cc:35-45 (way) -/
def readOsmWay (conv : L → XY) (nodes : List (Option L)) : Geometry :=
  let line := nodesToFixed conv nodes
  if line.length < 2 then .null else .polyline [line]

/-- the items of an osmium::Area -/
inductive AreaItem (L : Type) where
  | outer (nodes : List (Option L))
  | inner (nodes : List (Option L))
  | other
  deriving Repr

/-- read_osm_geometry.cc:58-60, 75-77: close the ring -/
def closeRing (r : Line) : Line :=
  match r.head?, r.getLast? with
  | some a, some b => if a = b then r else r ++ [a]
  | _, _ => r

/-- read_osm_geometry.cc:72-81 the inner ring that is left in `inners()`: a short ring loses its last point
(`inners().back().pop_back()` pops a point, not the ring); on an empty ring this is undefined. -/
def readInner (conv : L → XY) (nodes : List (Option L)) : Res Line :=
  let r := closeRing (nodesToFixed conv nodes)
  if r.length < 3 then (if r.isEmpty then .ub else .ok r.dropLast) else .ok r

/-- read_osm_geometry.cc:48-86: the loop; `none` = `return fixed_null{}`.
`polygon` is kept in order, its back is the last element. -/
def readAreaLoop (conv : L → XY) : List Polygon → List (AreaItem L) → Res (Option (List Polygon))
  | polygon, [] => .ok (some polygon)
  | polygon, .outer nodes :: items =>
    let r := closeRing (nodesToFixed conv nodes)
    if r.length < 3 then .ok none else readAreaLoop conv (polygon ++ [⟨r, []⟩]) items
  | polygon, .inner nodes :: items =>
    match polygon.getLast? with
    | none => .throw_
    | some p => do
      let r ← readInner conv nodes
      readAreaLoop conv (polygon.dropLast ++ [⟨p.outer, p.inners ++ [r]⟩]) items
  | polygon, .other :: items => readAreaLoop conv polygon items

/-- read_osm_geometry.cc:47-93 (area) -/
def readOsmArea (conv : L → XY) (items : List (AreaItem L)) : Res Geometry := do
  match ← readAreaLoop conv [] items with
  | none => return .null
  | some [] => return .null
  | some (p :: ps) => return .polygon (p :: ps)

end Tiles
