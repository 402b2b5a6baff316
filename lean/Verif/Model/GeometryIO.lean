import Verif.Model.Fixed
import Verif.Model.Pbf
/-
Model of /repo/src/fixed/io/serialize.cc, /repo/src/fixed/io/deserialize.cc, /repo/include/tiles/fixed/algo/delta.h and
/repo/include/tiles/fixed/algo/make_simplify_mask.h.

Coordinates and deltas are unbounded integers (int64_t in the code; signed overflow is excluded by hypotheses of the theorems).
The mask codec of the `geo` library is external and a parameter.
-/
namespace Tiles

/-- one element of a packed sint64 field (protozero `packed_field_sint64::add_element`) -/
def encS64 (v : Int) : Bytes := encVarint (zigzag v)

/-- serialize.cc:28-31: the deltas of the points (delta.h:14-19), and the encoders' positions afterwards -/
def serDeltas (cur : XY) : List XY → List Int × XY
  | [] => ([], cur)
  | p :: ps =>
    let r := serDeltas p ps
    ((p.x - cur.x) :: (p.y - cur.y) :: r.1, r.2)

/-- serialize.cc:24-32 `serialize_points`: the elements added, and the encoders' positions afterwards -/
def serPoints (cur : XY) (pts : List XY) : List Int × XY :=
  let r := serDeltas cur pts
  ((pts.length : Int) :: r.1, r.2)

/-- serialize.cc:73-75 and 102-104: several lines one after the other -/
def serLines (cur : XY) : List Line → List Int × XY
  | [] => ([], cur)
  | l :: ls =>
    let a := serPoints cur l
    let b := serLines a.2 ls
    (a.1 ++ b.1, b.2)

/-- serialize.cc:97-105: the loop over polygons -/
def serPolygons (cur : XY) : List Polygon → List Int × XY
  | [] => ([], cur)
  | p :: ps =>
    let a := serPoints cur p.outer
    let b := serLines a.2 p.inners
    let c := serPolygons b.2 ps
    (a.1 ++ (p.inners.length : Int) :: (b.1 ++ c.1), c.2)

/-- both delta coders start at the centre of the map (serialize.cc:46-47, deserialize.cc:45-46) -/
def magicXY : XY := ⟨kFixedCoordMagicOffset, kFixedCoordMagicOffset⟩

/-- the elements of the packed field; throws on null and on empty geometries (serialize.cc:20-22, 49, 70, 94) -/
def serElements : Geometry → Res (Nat × List Int)
  | .null => .throw_
  | .point p => if p.isEmpty then .throw_ else .ok (1, (serPoints magicXY p).1)
  | .polyline l => if l.isEmpty then .throw_ else .ok (2, (l.length : Int) :: (serLines magicXY l).1)
  | .polygon p => if p.isEmpty then .throw_ else .ok (3, (p.length : Int) :: (serPolygons magicXY p).1)

/-- serialize.cc:34-112 `serialize(fixed_geometry)` -/
def serializeGeometry (g : Geometry) : Res Bytes := do
  let (type, els) ← serElements g
  return encMessage [.varint 1 type, .bytes 2 (els.flatMap encS64)]

/-- deserialize.cc:18-47, 56-91: a decoder: the rest of the packed field, the positions of the delta decoders, and for the
simplifying decoder the masks (as bits) not used yet -/
structure GeoDec where
  rest : Bytes
  cur : XY
  masks : Option (List (List Bool))

/-- deserialize.cc:36-41 `get_next` -/
def GeoDec.next (d : GeoDec) : Res (Int × GeoDec) :=
  if d.rest.isEmpty then .throw_ else do
  let (v, r) ← decVarint d.rest
  return (unzigzag v, { d with rest := r })

/-- deserialize.cc:30-31, 76-77, 80-81: the next point -/
def GeoDec.nextPoint (d : GeoDec) : Res (XY × GeoDec) := do
  let (dx, d) ← d.next
  let (dy, d) ← d.next
  let p : XY := ⟨d.cur.x + dx, d.cur.y + dy⟩
  return (p, { d with cur := p })

/-- deserialize.cc:28-33 -/
def GeoDec.points : Nat → GeoDec → Res (Line × GeoDec)
  | 0, d => .ok ([], d)
  | n + 1, d => do
    let (p, d) ← d.nextPoint
    let (ps, d) ← GeoDec.points n d
    return (p :: ps, d)

/-- deserialize.cc:73-83: points whose bit is not set are decoded and dropped -/
def GeoDec.masked : List Bool → GeoDec → Res (Line × GeoDec)
  | [], d => .ok ([], d)
  | b :: bs, d => do
    let (p, d) ← d.nextPoint
    let (ps, d) ← GeoDec.masked bs d
    return (if b then p :: ps else ps, d)

/-- deserialize.cc:23-34 and 63-86 `deserialize_points`.  A negative size makes `reserve` throw. -/
def GeoDec.line (d : GeoDec) : Res (Line × GeoDec) :=
  match d.masks with
  | none => do
    let (size, d) ← d.next
    if size < 0 then .throw_ else GeoDec.points size.toNat d
  | some [] => .throw_
  | some (m :: ms) => do
    let (size, d) ← d.next
    verify (decide (size = m.length))
    let (l, d) ← GeoDec.masked m d
    return (l, { d with masks := some ms })

/-- a loop calling `deserialize_points` (deserialize.cc:114-117, 130-133) -/
def GeoDec.lines : Nat → GeoDec → Res (List Line × GeoDec)
  | 0, d => .ok ([], d)
  | n + 1, d => do
    let (l, d) ← d.line
    let (ls, d) ← GeoDec.lines n d
    return (l :: ls, d)

/-- a count; negative ones make `resize` throw (deserialize.cc:111-114, 123-126, 130-131) -/
def GeoDec.count (d : GeoDec) : Res (Nat × GeoDec) := do
  let (c, d) ← d.next
  if c < 0 then .throw_ else return (c.toNat, d)

/-- deserialize.cc:127-135 -/
def GeoDec.polygons : Nat → GeoDec → Res (List Polygon × GeoDec)
  | 0, d => .ok ([], d)
  | n + 1, d => do
    let (o, d) ← d.line
    let (c, d) ← d.count
    let (is, d) ← GeoDec.lines c d
    let (ps, d) ← GeoDec.polygons n d
    return (⟨o, is⟩ :: ps, d)

/-- deserialize.cc:137-140: remove small rings -/
def dropSmallRings (ps : List Polygon) : List Polygon :=
  (ps.map (fun p => (⟨p.outer, p.inners.filter (fun i => ¬ i.length < 4)⟩ : Polygon))).filter (fun p => ¬ p.outer.length < 4)

/-- deserialize.cc:102-147 `deserialize_point`, `deserialize_polyline`, `deserialize_polygon` -/
def GeoDec.geometry (type : Nat) (d : GeoDec) : Res Geometry :=
  if type = 1 then do
    let (l, _) ← d.line
    return .point l
  else if type = 2 then do
    let (c, d) ← d.count
    let (ls, _) ← GeoDec.lines c d
    return .polyline ls
  else if type = 3 then do
    let (c, d) ← d.count
    let (ps, _) ← GeoDec.polygons c d
    let q := dropSmallRings ps
    return if q.isEmpty then .null else .polygon q
  else .throw_

/-- deserialize.cc:149-185 `deserialize(geo)` (`masks = none`) and `deserialize(geo, masks, z)` (masks already read for the
zoom level).  A field of the right tag with a wrong wire type is outside of protozero's contract (`ub`). -/
def deserializeGeometry (bs : Bytes) (masks : Option (List (List Bool)) := none) : Res Geometry := do
  if bs.isEmpty then .throw_ else
  let (f, rest) ← decField bs
  match f with
  | .varint tag type =>
    if tag ≠ 1 then .throw_ else
    let type := type % 2 ^ 32
    if type = 0 ∨ 3 < type then .throw_ else
    if rest.isEmpty then .throw_ else do
    let (g, _) ← decField rest
    match g with
    | .bytes tag data =>
      if tag ≠ 2 then .throw_
      else GeoDec.geometry type ⟨data, magicXY, if type = 1 then none else masks⟩
    | .varint tag _ => if tag ≠ 2 then .throw_ else .ub
    | .fixed64 tag _ => if tag ≠ 2 then .throw_ else .ub
    | .fixed32 tag _ => if tag ≠ 2 then .throw_ else .ub
  | .bytes tag _ => if tag ≠ 1 then .throw_ else .ub
  | .fixed64 tag _ => if tag ≠ 1 then .throw_ else .ub
  | .fixed32 tag _ => if tag ≠ 1 then .throw_ else .ub

/-- make_simplify_mask.h:9-39: one mask per line or ring, in the order of serialization; `mk` is the external
`geo::serialize_simplify_mask(geo::make_simplify_mask(line))` -/
def makeSimplifyMask (mk : Line → Bytes) : Geometry → List Bytes
  | .null => []
  | .point _ => []
  | .polyline l => l.map mk
  | .polygon p => p.flatMap (fun p => mk p.outer :: p.inners.map mk)

end Tiles
