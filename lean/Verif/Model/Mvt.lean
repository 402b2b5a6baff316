import Verif.Model.Fixed
import Verif.Model.Pbf
/-
Model of /repo/src/mvt/encode_geometry.cc.  `packed_field_uint32` (protozero, external) writes each element as a varint and
rolls the field back when no element was added.
-/
namespace Tiles

/-- encode_geometry.cc:20-22 `encode_command` (uint32_t arithmetic; cmd < 8, so the "or" is a sum) -/
def encodeCommand (cmd count : Nat) : Nat := (cmd % 8 + count * 8) % 2 ^ 32

/-- the implicit conversion int64_t → int32_t -/
def narrow32 (v : Int) : Int := (v + 2 ^ 31) % 2 ^ 32 - 2 ^ 31

/-- protozero `encode_zigzag32(int32_t)` -/
def zigzag32 (v : Int) : Nat := zigzag (narrow32 v)

/-- encode_geometry.cc:43-46: the points of a multi point, both delta encoders start at `cur` -/
def encodePoints (cur : XY) : List XY → List Nat
  | [] => []
  | p :: ps => zigzag32 (p.x - cur.x) :: zigzag32 (p.y - cur.y) :: encodePoints p ps

/-- encode_geometry.cc:61-67: the loop over LINE_TO points; returns the elements and the last position -/
def encodeLineTo (cur : XY) : List XY → Res (List Nat × XY)
  | [] => .ok ([], cur)
  | p :: ps => do
    verify (decide (p.x - cur.x ≠ 0) || decide (p.y - cur.y ≠ 0))
    let (els, last) ← encodeLineTo p ps
    return (zigzag32 (p.x - cur.x) :: zigzag32 (p.y - cur.y) :: els, last)

/-- encode_geometry.cc:50-72 `encode_path` -/
def encodePath (close : Bool) (cur : XY) (c : Line) : Res (List Nat × XY) :=
  match c with
  | [] => .throw_
  | [_] => .throw_
  | p :: rest => do
    let limit := if close then c.length - 2 else c.length - 1
    let (els, last) ← encodeLineTo p (rest.take limit)
    return ([encodeCommand 1 1, zigzag32 (p.x - cur.x), zigzag32 (p.y - cur.y), encodeCommand 2 limit] ++ els ++
      (if close then [encodeCommand 7 1] else []), last)

/-- encode_geometry.cc:82-84 and 97-102: several paths one after the other -/
def encodePaths (close : Bool) (cur : XY) : List Line → Res (List Nat × XY)
  | [] => .ok ([], cur)
  | l :: ls => do
    let (a, cur) ← encodePath close cur l
    let (b, cur) ← encodePaths close cur ls
    return (a ++ b, cur)

/-- encode_geometry.cc:106-109 `encode_geometry`: the fields added to the feature; `org` = min corner of `px_bounds_` -/
def encodeGeometryFields (org : XY) : Geometry → Res (List PbfField)
  | .null => .ok []                                                                                     -- 32-33
  | .point p => .ok (.varint 3 1 :: packedField 4 (encodeCommand 1 p.length :: encodePoints org p))     -- 35-48
  | .polyline ls => do                                                                                  -- 74-86
    let (els, _) ← encodePaths false org ls
    return .varint 3 2 :: packedField 4 els
  | .polygon ps => do                                                                                   -- 88-104
    verify (!ps.isEmpty)
    let (els, _) ← encodePaths true org (ps.flatMap (fun p => p.outer :: p.inners))
    return .varint 3 3 :: packedField 4 els

end Tiles
