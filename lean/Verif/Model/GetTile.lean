import Verif.Model.TileBuilder
import Verif.Model.BqTree
import Verif.Model.IndexedPack
import Verif.Model.PackFile
import Verif.Model.RecordScan
/-
Model of /repo/include/tiles/get_tile.h (rendering a tile and answering a request).  Performance counters are left out.

Simplification: the code unpacks, reads and adds one feature after the other, the model one pack after the other; this changes nothing
but which failure is reported when several occur (Model/GetTileSeq has the statements in the order of the code, with the counters; theorem C65_same).  Tables of the database are functions from keys (the `tiles` table) or key-ordered
lists (the `features` table, as in Model/RecordScan).
-/
namespace Tiles

/-- get_tile.h:23-39 `render_ctx`; the members used by the builder are in `RenderCtx`.  `rd` reads simplification masks, `dec` is the
metadata decoder, `deflate` is zlib's function when `compress_result_`, `label` formats the debug label when `tb_render_debug_info_`. -/
structure GetCtx extends RenderCtx where
  maxPrepared : Int
  seaside : List Nat
  rd : Bytes → Nat → List Bool
  dec : List Meta
  deflate : Option (Bytes → Bytes)
  ignorePrepared : Bool
  ignoreSeaside : Bool
  label : Option (Tile → Bytes)

/-- "coastline" -/
def coastlineName : Bytes := [99, 111, 97, 115, 116, 108, 105, 110, 101]

/-- get_tile.h:64-70: the square.  `boost::geometry::correct` leaves this ring as it is (closed and clockwise). -/
def squareOf (b : Box) : Geometry :=
  .polygon [⟨[⟨b.min.x, b.min.y⟩, ⟨b.min.x, b.max.y⟩, ⟨b.max.x, b.max.y⟩, ⟨b.max.x, b.min.y⟩, ⟨b.min.x, b.min.y⟩], []⟩]

/-- `tile_to_key(geo::tile)` (tile_index.h:47-50) -/
def keyOfTile (t : Tile) : Res UInt64 := tileToKey (UInt64.ofNat t.x) (UInt64.ofNat t.y) (UInt64.ofNat t.z) 0

/-- get_tile.h:61-77: the feature of one seaside tile -/
def seasideFeature (t : Tile) : Res Feature := do
  let s ← tileSpec t
  let k ← keyOfTile t
  return ⟨k.toNat, 0, 0, kMaxZoomLevel + 1, [⟨layerKey, coastlineName⟩], squareOf s.draw⟩

/-- get_tile.h:61-79 -/
def seasideFeatures : List Tile → Res (List Feature)
  | [] => .ok []
  | t :: ts => do
    let f ← seasideFeature t
    let fs ← seasideFeatures ts
    return f :: fs

/-- get_tile.h:54-80 `render_seaside` -/
def renderSeaside (ctx : GetCtx) (s : TileSpec) (bs : Builders) : Res Builders := do
  let leafs ← bqAllLeafs ctx.seaside s.tile
  let fs ← seasideFeatures leafs
  tileAddAll ctx.toRenderCtx s bs fs

/-- get_tile.h:116-132: the features of one pack that are not skipped -/
def readKept (ctx : GetCtx) (box : Box) (z : Nat) : List Bytes → Res (List Feature)
  | [] => .ok []
  | s :: ss => do
    let f ← deserializeFeature ctx.rd ctx.dec s box z
    let fs ← readKept ctx box z ss
    return f.toList ++ fs

/-- get_tile.h:112-135: all packs -/
def readPacked (ctx : GetCtx) (s : TileSpec) : List (Tile × Bytes) → Res (List Feature)
  | [] => .ok []
  | (t, p) :: ps => do
    let ss ← unpackTile t p s.tile
    let fs ← readKept ctx s.draw s.tile.z ss
    let gs ← readPacked ctx s ps
    return fs ++ gs

/-- get_tile.h:104-137 `render_features`: the builder and `added_features` -/
def renderFeatures (ctx : GetCtx) (s : TileSpec) (bs : Builders) (packs : List (Tile × Bytes)) : Res (Builders × Nat) := do
  let fs ← readPacked ctx s packs
  let bs ← tileAddAll ctx.toRenderCtx s bs fs
  return (bs, fs.length)

/-- get_tile.h:139-176 `get_tile(ctx, tile, foreach_pack, pc)`; `packs` is what `foreach_pack` passes on -/
def renderTile (ctx : GetCtx) (tile : Tile) (packs : List (Tile × Bytes)) : Res (Option Bytes) := do
  let s ← tileSpec tile
  let bs ← renderSeaside ctx s []
  let (bs, n) ← renderFeatures ctx s bs packs
  let full ← if ctx.ignoreSeaside then bqContains ctx.seaside tile else .ok false
  if full = true ∧ n = 0 then return none
  else do
    let bytes ← tileFinish ctx.toRenderCtx s bs (ctx.label.map (· tile))
    if bytes = [] then return none
    else match ctx.deflate with
      | some z => return some (z bytes)
      | none => return some bytes

/-- get_tile.h:97-99 / 211: the packs of the records of one database value -/
def fetchRecords (pf : PackFile) (t : Tile) : List PackRecord → Res (List (Tile × Bytes))
  | [] => .ok []
  | r :: rs => do
    let p ← pf.get r
    let ps ← fetchRecords pf t rs
    return (t, p) :: ps

/-- get_tile.h:92-100, 210-212: the packs of the scanned database values -/
def fetchValues (pf : PackFile) : List (Tile × Bytes) → Res (List (Tile × Bytes))
  | [] => .ok []
  | (t, v) :: es => do
    let rs ← packRecordsDeserialize v
    let ps ← fetchRecords pf t rs
    let qs ← fetchValues pf es
    return ps ++ qs

/-- get_tile.h:210-212 (and prepare_tiles.cc:155-176): everything `pack_records_foreach` leads to for a tile -/
def packsOf (features : List (UInt64 × Bytes)) (pf : PackFile) (tile : Tile) : Res (List (Tile × Bytes)) := do
  let es ← scanQuery features tile
  fetchValues pf es

/-- get_tile.h:178-227 `get_tile(db_handle, pack_handle, ctx, tile, pc)`; `tiles` is the table of prepared tiles -/
def getTile (tiles : UInt64 → Option Bytes) (features : List (UInt64 × Bytes)) (pf : PackFile) (ctx : GetCtx) (tile : Tile) :
    Res (Option Bytes) := do
  verify (decide (tile.z ≤ kMaxZoomLevel))
  if ctx.ignorePrepared = false ∧ (tile.z : Int) ≤ ctx.maxPrepared then do
    let k ← keyOfTile tile
    match tiles k with
    | some t => return some t
    | none => do
      let c ← bqContains ctx.seaside tile
      if c then renderTile ctx tile [] else return none
  else do
    let ps ← packsOf features pf tile
    renderTile ctx tile ps

end Tiles
