import Verif.Model.Mvt
import Verif.Model.TileSpec
import Verif.Model.FeatureIO
import Verif.Model.LayerNames
import Verif.Model.Metadata
/-
Model of /repo/src/mvt/tile_builder.cc.

Parameters (`RenderCtx`): `clip` (clip.cc, modelled in Model/Clip up to the clipping libraries), `tiny` (area(g) < 256),
`aggregate` (aggregate_line_features at the tile's zoom level).  Counters and statistics output are left out.
-/
namespace Tiles

/-- the parts of `render_ctx` the builder reads (get_tile.h:21-39), and the external functions -/
structure RenderCtx where
  layerNames : List Bytes
  aggLines : Bool
  aggPolygons : Bool
  dropSubpixel : Bool
  clip : Geometry → Box → Res Geometry
  tiny : Geometry → Bool
  aggregate : Nat → List Feature → List Feature

/-- tile_builder.cc:36-213 `layer_builder`: `out` are the fields written to `pb_` -/
structure LayerBuilder where
  hasGeometry : Bool := false
  lineBuf : List Feature := []
  polyBuf : List Feature := []
  out : List PbfField
  keys : List (Bytes × Nat) := []
  values : List (Bytes × Nat) := []
  nodeIds : List Nat := []
  lineIds : List Nat := []
  polyIds : List Nat := []

/-- tile_builder.cc:37-47 -/
def LayerBuilder.init (name : Bytes) : LayerBuilder :=
  { out := [.varint 15 2, .bytes 1 name, .varint 5 4096] }

/-- "layer" -/
def layerKey : Bytes := [108, 97, 121, 101, 114]

/-- tile_builder.cc:100: key "layer" or prefix "__" -/
def hiddenKey (k : Bytes) : Bool := decide (k = layerKey) || decide (k.take 2 = [95, 95])

/-- tile_builder.cc:95-106: the tags of one feature -/
def writeMetadata (keys values : List (Bytes × Nat)) : List Meta → List (Bytes × Nat) × List (Bytes × Nat) × List Nat
  | [] => (keys, values, [])
  | m :: ms =>
    if hiddenKey m.key then writeMetadata keys values ms
    else
      let (keys, k) := getOrCreateIndex keys m.key
      let (values, v) := getOrCreateIndex values m.value
      let (keys, values, t) := writeMetadata keys values ms
      (keys, values, k :: v :: t)

/-- tile_builder.cc:77-93 `write_feature`; tags are uint32_t -/
def writeFeature (org : XY) (b : LayerBuilder) (f : Feature) : Res LayerBuilder :=
  match f.geometry with
  | .null => .ok b
  | g => do
    let fs ← encodeGeometryFields org g
    let (keys, values, t) := writeMetadata b.keys b.values f.metas
    return { b with hasGeometry := true, keys := keys, values := values,
                    out := b.out ++ [.bytes 2 (encMessage (fs ++ .varint 1 f.id :: packedField 2 (t.map (· % 2 ^ 32))))] }

/-- tile_builder.cc:71-72 / 118-119 / 133-134: clip and shift -/
def drawGeometry (ctx : RenderCtx) (s : TileSpec) (g : Geometry) : Res Geometry := do
  let c ← ctx.clip g s.draw
  shiftGeometry c s.tile.z

/-- tile_builder.cc:50-57: whether a feature with this id and type was added before, and the id sets afterwards -/
def LayerBuilder.seen (b : LayerBuilder) (f : Feature) : Bool × LayerBuilder :=
  match f.geometry with
  | .null => (false, b)
  | .point _ => if f.id ∈ b.nodeIds then (true, b) else (false, { b with nodeIds := f.id :: b.nodeIds })
  | .polyline _ => if f.id ∈ b.lineIds then (true, b) else (false, { b with lineIds := f.id :: b.lineIds })
  | .polygon _ => if f.id ∈ b.polyIds then (true, b) else (false, { b with polyIds := f.id :: b.polyIds })

/-- tile_builder.cc:49-75 `layer_builder::add_feature` -/
def LayerBuilder.add (ctx : RenderCtx) (s : TileSpec) (b : LayerBuilder) (f : Feature) : Res LayerBuilder :=
  let (dup, b) := b.seen f
  if dup then .ok b
  else
    match f.geometry with
    | .null => .ok b
    | .polyline _ => if ctx.aggLines then .ok { b with lineBuf := b.lineBuf ++ [f] } else drawNow b
    | .polygon _ => if ctx.aggPolygons then .ok { b with polyBuf := b.polyBuf ++ [f] } else drawNow b
    | .point _ => drawNow b
where
  drawNow (b : LayerBuilder) : Res LayerBuilder := do
    let g ← drawGeometry ctx s f.geometry
    writeFeature s.px.min b { f with geometry := g }

/-- tile_builder.cc:117-127 -/
def writePolygons (ctx : RenderCtx) (s : TileSpec) (b : LayerBuilder) : List Feature → Res LayerBuilder
  | [] => .ok b
  | f :: fs => do
    let g ← drawGeometry ctx s f.geometry
    if f.layer ≠ 0 ∧ ctx.dropSubpixel ∧ ctx.tiny g then writePolygons ctx s b fs
    else do
      let b ← writeFeature s.px.min b { f with geometry := g }
      writePolygons ctx s b fs

/-- tile_builder.cc:131-136 -/
def writeLines (ctx : RenderCtx) (s : TileSpec) (b : LayerBuilder) : List Feature → Res LayerBuilder
  | [] => .ok b
  | f :: fs => do
    let g ← drawGeometry ctx s f.geometry
    let b ← writeFeature s.px.min b { f with geometry := g }
    writeLines ctx s b fs

/-- tile_builder.cc:111-138 `aggregate_geometry` -/
def LayerBuilder.aggregateGeometry (ctx : RenderCtx) (s : TileSpec) (b : LayerBuilder) : Res LayerBuilder := do
  let b ← if ctx.aggPolygons ∧ b.polyBuf ≠ [] then writePolygons ctx s b b.polyBuf else .ok b
  if ctx.aggLines ∧ b.lineBuf ≠ [] then writeLines ctx s b (ctx.aggregate s.tile.z b.lineBuf) else .ok b

/-- tile_builder.cc:141-147 / 149-153: the table of a cache; an index out of range would be undefined behaviour -/
def cacheTable (m : List (Bytes × Nat)) : Res (List Bytes) :=
  match fillSorted (List.replicate m.length []) m with
  | .ok t => .ok t
  | _ => .ub

/-- tile_builder.cc:153-183: the values -/
def valueFields : List Bytes → Res (List PbfField)
  | [] => .ok []
  | v :: vs => do
    let m ← mvtValue v
    let r ← valueFields vs
    return .bytes 4 m :: r

/-- tile_builder.cc:140-193 `layer_builder::finish` -/
def LayerBuilder.finish (b : LayerBuilder) : Res Bytes := do
  let keys ← cacheTable b.keys
  let values ← cacheTable b.values
  let vf ← valueFields values
  return encMessage (b.out ++ keys.map (.bytes 3) ++ vf)

/-- `builders_` (tile_builder.cc:287), an ordered map -/
abbrev Builders := List (Nat × LayerBuilder)

/-- tile_builder.cc:218-225 `get_or_create` in the ordered map, then `add_feature` -/
def Builders.add (ctx : RenderCtx) (s : TileSpec) (f : Feature) (name : Bytes) : Builders → Res Builders
  | [] => do
    let b ← (LayerBuilder.init name).add ctx s f
    return [(f.layer, b)]
  | (i, b) :: bs =>
    if f.layer < i then do
      let b' ← (LayerBuilder.init name).add ctx s f
      return (f.layer, b') :: (i, b) :: bs
    else if f.layer = i then do
      let b ← b.add ctx s f
      return (i, b) :: bs
    else do
      let bs ← Builders.add ctx s f name bs
      return (i, b) :: bs

/-- tile_builder.cc:218-225 `impl::add_feature` -/
def tileAdd (ctx : RenderCtx) (s : TileSpec) (bs : Builders) (f : Feature) : Res Builders := do
  let name ← at_ ctx.layerNames f.layer
  bs.add ctx s f name

/-- a sequence of `add_feature` calls -/
def tileAddAll (ctx : RenderCtx) (s : TileSpec) (bs : Builders) : List Feature → Res Builders
  | [] => .ok bs
  | f :: fs => do
    let bs ← tileAdd ctx s bs f
    tileAddAll ctx s bs fs

/-- tile_builder.cc:231-237: the layers -/
def tileLayers (ctx : RenderCtx) (s : TileSpec) : Builders → Res (List PbfField)
  | [] => .ok []
  | (_, b) :: bs => do
    let b ← b.aggregateGeometry ctx s
    if b.hasGeometry then do
      let l ← b.finish
      let r ← tileLayers ctx s bs
      return .bytes 3 l :: r
    else tileLayers ctx s bs

/-- "tiles_debug_info" and "tile_id" (tile_builder.cc:240, 254) -/
def debugLayerName : Bytes := [116, 105, 108, 101, 115, 95, 100, 101, 98, 117, 103, 95, 105, 110, 102, 111]
def debugKey : Bytes := [116, 105, 108, 101, 95, 105, 100]

/-- tile_builder.cc:239-280: the debug layer; `label` is the formatted tile number (fmt, external) -/
def debugLayer (s : TileSpec) (label : Bytes) : Res Bytes := do
  let b := LayerBuilder.init debugLayerName
  let (keys, k) := getOrCreateIndex b.keys debugKey
  let (values, v) := getOrCreateIndex b.values (encodeString label)
  let pt : Geometry := .point [⟨s.px.min.x + (s.px.max.x - s.px.min.x).tdiv 2, s.px.min.y + (s.px.max.y - s.px.min.y).tdiv 2⟩]
  let f1 ← encodeGeometryFields s.px.min pt
  let line : Geometry := .polyline [[⟨s.px.min.x, s.px.min.y⟩, ⟨s.px.min.x, s.px.max.y⟩, ⟨s.px.max.x, s.px.max.y⟩,
    ⟨s.px.max.x, s.px.min.y⟩, ⟨s.px.min.x, s.px.min.y⟩]]
  let f2 ← encodeGeometryFields s.px.min line
  { b with keys := keys, values := values,
           out := b.out ++ [.bytes 2 (encMessage (packedField 2 [k, v] ++ f1)), .bytes 2 (encMessage f2)] : LayerBuilder }.finish

/-- tile_builder.cc:227-283 `impl::finish`; `debug = some label` when `tb_render_debug_info_` -/
def tileFinish (ctx : RenderCtx) (s : TileSpec) (bs : Builders) (debug : Option Bytes := none) : Res Bytes := do
  let ls ← tileLayers ctx s bs
  match debug with
  | none => return encMessage ls
  | some label => do
    let d ← debugLayer s label
    return encMessage (ls ++ [.bytes 3 d])

end Tiles
