import Verif.Model.GeometryIO
import Verif.Model.SharedMetadata
/-
Model of /repo/include/tiles/feature/serialize.h, deserialize.h, feature.h and /repo/src/fixed/algo/bounding_box.cc.
The simplification mask codec (library geo) is a parameter: `mk` makes and serializes the mask of a line, `rd` reads it for a zoom level.
-/
namespace Tiles

/-- feature.h:21-27 -/
structure Feature where
  id : Nat
  layer : Nat
  zmin : Nat
  zmax : Nat
  metas : List Meta
  geometry : Geometry
  deriving DecidableEq, Repr

def kInvalidZoomLevel : Nat := 63                        -- feature.h:17
def kInvalidBoxHint : Int := 2 ^ 63 - 1                  -- feature.h:18-19
def kInvalidLayer : Nat := 2 ^ 64 - 1                    -- deserialize.h:27

/-- boost's empty box (`assign_inverse`) -/
def inverseBox : Box := ⟨⟨2 ^ 63 - 1, 2 ^ 63 - 1⟩, ⟨-2 ^ 63, -2 ^ 63⟩⟩

/-- boost `expand(box, point)` -/
def expandBox (b : Box) (p : XY) : Box :=
  ⟨⟨min b.min.x p.x, min b.min.y p.y⟩, ⟨max b.max.x p.x, max b.max.y p.y⟩⟩

/-- the points boost's `envelope` looks at: of a polygon only the outer ring, unless it is empty -/
def envelopePoints : Geometry → List XY
  | .null => []
  | .point p => p
  | .polyline l => l.flatten
  | .polygon p => p.flatMap (fun q => if q.outer.isEmpty then q.inners.flatten else q.outer)

/-- bounding_box.cc:7-35 `bounding_box(fixed_geometry)` -/
def boundingBox (g : Geometry) : Box :=
  match g with
  | .null => ⟨⟨0, 0⟩, ⟨0, 0⟩⟩
  | g => (envelopePoints g).foldl expandBox inverseBox

/-- the int64_t with the bits of a size_t -/
def toI64 (n : Nat) : Int := bitsI64 (n % 2 ^ 64)

/-- serialize.h:22-36: the header -/
def featureHeader (f : Feature) : List Int :=
  let box := boundingBox f.geometry
  [f.zmin, f.zmax, box.min.x - kFixedCoordMagicOffset, box.max.x - box.min.x,
   box.min.y - kFixedCoordMagicOffset, box.max.y - box.min.y, toI64 f.layer]

/-- serialize.h:43-74: metadata; `dec` is the table of the shared metadata coder -/
def featureMetaFields (dec : List Meta) (fast : Bool) (metas : List Meta) : List PbfField :=
  if fast then metas.map (fun m => .bytes 4 m.key) ++ metas.map (fun m => .bytes 5 m.value)
  else
    let coded := metas.filterMap (metaEncode dec)
    let uncoded := metas.filter (fun m => (metaEncode dec m).isNone)
    (if coded.isEmpty then [] else [.bytes 3 (coded.flatMap encVarint)]) ++
      (uncoded.map (fun m => .bytes 4 m.key) ++ uncoded.map (fun m => .bytes 5 m.value))

/-- serialize.h:16-86 `serialize_feature` -/
def serializeFeature (mk : Line → Bytes) (dec : List Meta) (fast : Bool) (f : Feature) : Res Bytes := do
  let g ← serializeGeometry f.geometry
  return encMessage (.bytes 1 ((featureHeader f).flatMap encS64) :: .varint 2 f.id ::
    (featureMetaFields dec fast f.metas ++
      ((if fast then [] else (makeSimplifyMask mk f.geometry).map (.bytes 6)) ++ [.bytes 7 g])))

/-- deserialize.h:40-43: the next element of the header -/
def headerNext (bs : Bytes) : Res (Int × Bytes) :=
  if bs.isEmpty then .throw_ else do
  let (v, r) ← decVarint bs
  return (unzigzag v, r)

/-- `static_cast<uint32_t>(int64_t)` -/
def toU32 (v : Int) : Nat := (v % 2 ^ 32).toNat
/-- `static_cast<size_t>(int64_t)` -/
def toU64 (v : Int) : Nat := (v % 2 ^ 64).toNat

/-- local variables of `deserialize_feature` (deserialize.h:22-34) -/
structure FeatState where
  id : Nat := 0
  zmin : Nat := kInvalidZoomLevel
  zmax : Nat := kInvalidZoomLevel
  layer : Nat := kInvalidLayer
  fill : Nat := 0
  metas : List Meta := []
  masks : List Bytes := []
  geometry : Geometry := .null

/-- deserialize.h:46-79: the header; `none` = return nullopt -/
def readHeader (box : Box) (zoom : Nat) (st : FeatState) (bs : Bytes) : Res (Option FeatState) := do
  let (a, bs) ← headerNext bs
  let zmin := toU32 a
  if zoom ≠ kInvalidZoomLevel ∧ zoom < zmin then return none else do
  let (a, bs) ← headerNext bs
  let zmax := toU32 a
  if zoom ≠ kInvalidZoomLevel ∧ zmax < zoom then return none else do
  let (a, bs) ← headerNext bs
  let (b, bs) ← headerNext bs
  let minx := kFixedCoordMagicOffset + a
  let maxx := minx + b
  if box.min.x ≠ kInvalidBoxHint ∧ box.max.x ≠ kInvalidBoxHint ∧ (maxx < box.min.x ∨ minx > box.max.x) then return none else do
  let (a, bs) ← headerNext bs
  let (b, bs) ← headerNext bs
  let miny := kFixedCoordMagicOffset + a
  let maxy := miny + b
  if box.min.y ≠ kInvalidBoxHint ∧ box.max.y ≠ kInvalidBoxHint ∧ (maxy < box.min.y ∨ miny > box.max.y) then return none else do
  let (l, bs) ← headerNext bs
  verify bs.isEmpty
  return some { st with zmin := zmin, zmax := zmax, layer := toU64 l }

/-- deserialize.h:86-88: decode the coded metadata -/
def decodeMetas (dec : List Meta) : List Nat → Res (List Meta)
  | [] => .ok []
  | i :: is => do
    let m ← metaDecode dec i
    let ms ← decodeMetas dec is
    return m :: ms

/-- deserialize.h:38-121: one field.  A known tag with a wrong wire type is outside of protozero's contract (`ub`);
unknown tags are skipped. -/
def featField (rd : Bytes → Nat → List Bool) (dec : List Meta) (box : Box) (zoom : Nat) (st : FeatState) :
    PbfField → Res (Option FeatState)
  | .bytes tag d =>
    if tag = 1 then readHeader box zoom st d
    else if tag = 2 then .ub
    else if tag = 3 then do
      verify st.metas.isEmpty
      let ids ← decPacked d
      let ms ← decodeMetas dec ids
      return some { st with metas := ms, fill := ms.length }
    else if tag = 4 then return some { st with metas := st.metas ++ [⟨d, []⟩] }
    else if tag = 5 then do
      verify (decide (st.fill < st.metas.length))
      return some { st with metas := st.metas.modify st.fill (fun m => ⟨m.key, d⟩), fill := st.fill + 1 }
    else if tag = 6 then return some { st with masks := st.masks ++ [d] }
    else if tag = 7 then
      if zoom ≠ kInvalidZoomLevel ∧ st.masks ≠ [] then do
        let g ← deserializeGeometry d (some (st.masks.map (fun m => rd m zoom)))
        if g = .null then return none else return some { st with masks := [], geometry := g }
      else do
        let g ← deserializeGeometry d
        return some { st with masks := [], geometry := g }
    else return some st
  | .varint tag v =>
    if tag = 2 then return some { st with id := v }
    else if 1 ≤ tag ∧ tag ≤ 7 then .ub else return some st
  | .fixed64 tag _ => if 1 ≤ tag ∧ tag ≤ 7 then .ub else return some st
  | .fixed32 tag _ => if 1 ≤ tag ∧ tag ≤ 7 then .ub else return some st

/-- deserialize.h:37-122: the loop over the message; `fuel` = number of bytes -/
def featLoop (rd : Bytes → Nat → List Bool) (dec : List Meta) (box : Box) (zoom : Nat) :
    Nat → Bytes → FeatState → Res (Option FeatState)
  | _, [], st => .ok (some st)
  | 0, _ :: _, _ => .ub
  | fuel + 1, bs, st => do
    let (f, r) ← decField bs
    match ← featField rd dec box zoom st f with
    | none => return none
    | some st => featLoop rd dec box zoom fuel r st

/-- deserialize.h:15-128 `deserialize_feature` -/
def deserializeFeature (rd : Bytes → Nat → List Bool) (dec : List Meta) (bs : Bytes)
    (box : Box := ⟨⟨kInvalidBoxHint, kInvalidBoxHint⟩, ⟨kInvalidBoxHint, kInvalidBoxHint⟩⟩) (zoom : Nat := kInvalidZoomLevel) :
    Res (Option Feature) := do
  match ← featLoop rd dec box zoom bs.length bs {} with
  | none => return none
  | some st => do
    verify (decide (st.fill = st.metas.length))
    verify (decide (st.layer ≠ kInvalidLayer))
    return some ⟨st.id, st.layer, st.zmin, st.zmax, st.metas, st.geometry⟩

end Tiles
