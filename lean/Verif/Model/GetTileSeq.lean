import Verif.Model.GetTile
import Verif.Model.PerfCounter
/-
Model of /repo/include/tiles/get_tile.h, statement by statement, with the calls on the performance counter: packs are fetched, unpacked, their features read and added
one after the other, in the order of the code.  (Model/GetTile has the steps one after the other, for all features at once.)
Simplification: the strings of one pack are found before the first of them is read.
-/
namespace Tiles
open PerfTask PerfOp Traced

/-- get_tile.h:61-79 -/
def seasideSeq (ctx : GetCtx) (s : TileSpec) (bs : Builders) : List Tile → Traced Builders
  | [] => pure bs
  | t :: ts => do
    let f ← lift (seasideFeature t)
    tick [.start addSeaside]
    let bs ← lift (tileAdd ctx.toRenderCtx s bs f)
    tick [.stop addSeaside]
    seasideSeq ctx s bs ts

/-- get_tile.h:54-80 -/
def renderSeasideSeq (ctx : GetCtx) (s : TileSpec) (bs : Builders) : Traced Builders := do
  tick [.start findSeaside]
  let leafs ← lift (bqAllLeafs ctx.seaside s.tile)
  tick [.stop findSeaside]
  seasideSeq ctx s bs leafs

/-- get_tile.h:116-132: the features of one pack; `n` is `added_features` -/
def featuresSeq (ctx : GetCtx) (s : TileSpec) (bs : Builders) (n : Nat) : List Bytes → Traced (Builders × Nat)
  | [] => pure (bs, n)
  | str :: strs => do
    tick [.start deserOkay, .start deserSkip]
    let f ← lift (deserializeFeature ctx.rd ctx.dec str s.draw s.tile.z)
    match f with
    | none => do
      tick [.stop deserSkip, .start iter]
      featuresSeq ctx s bs n strs
    | some f => do
      tick [.stop deserOkay, .start add]
      let bs ← lift (tileAdd ctx.toRenderCtx s bs f)
      tick [.stop add]
      featuresSeq ctx s bs (n + 1) strs

/-- get_tile.h:112-135: one pack -/
def packSeq (ctx : GetCtx) (s : TileSpec) (bs : Builders) (n : Nat) (t : Tile) (pack : Bytes) : Traced (Builders × Nat) := do
  tick [.stop query, .stop iter]
  let strs ← lift (unpackTile t pack s.tile)
  let r ← featuresSeq ctx s bs n strs
  tick [.start iter]
  return r

/-- get_tile.h:97-99, 211: the packs of one database value -/
def recordsSeq (pf : PackFile) (ctx : GetCtx) (s : TileSpec) (t : Tile) (bs : Builders) (n : Nat) : List PackRecord → Traced (Builders × Nat)
  | [] => pure (bs, n)
  | r :: rs => do
    let pack ← lift (pf.get r)
    let (bs, n) ← packSeq ctx s bs n t pack
    recordsSeq pf ctx s t bs n rs

/-- get_tile.h:92-100, 210-212: all database values -/
def valuesSeq (pf : PackFile) (ctx : GetCtx) (s : TileSpec) (bs : Builders) (n : Nat) : List (Tile × Bytes) → Traced (Builders × Nat)
  | [] => pure (bs, n)
  | (t, v) :: es => do
    let rs ← lift (packRecordsDeserialize v)
    let (bs, n) ← recordsSeq pf ctx s t bs n rs
    valuesSeq pf ctx s bs n es

/-- get_tile.h:151-176: what happens after the features were added; `n` is `rendered_features` -/
def finishSeq (ctx : GetCtx) (tile : Tile) (s : TileSpec) (bs : Builders) (n : Nat) : Traced (Option Bytes) := do
  let full ← lift (if ctx.ignoreSeaside then bqContains ctx.seaside tile else .ok false)
  if full = true ∧ n = 0 then return none
  else do
    tick [.start finish]
    let bytes ← lift (tileFinish ctx.toRenderCtx s bs (ctx.label.map (· tile)))
    tick [.stop finish, .stop render]
    if bytes = [] then return none
    else match ctx.deflate with
      | some z => do
        tick [.start compress, .stop compress, .append resultSize (z bytes).length]
        return some (z bytes)
      | none => do
        tick [.append resultSize bytes.length]
        return some bytes

/-- get_tile.h:139-176; `packs` is `foreach_pack` -/
def renderTileSeq (ctx : GetCtx) (tile : Tile) (packs : TileSpec → Builders → Traced (Builders × Nat)) : Traced (Option Bytes) := do
  tick [.start render]
  let s ← lift (tileSpec tile)
  let bs ← renderSeasideSeq ctx s []
  tick [.start query]
  let (bs, n) ← packs s bs
  finishSeq ctx tile s bs n

/-- get_tile.h:188-214, within the scope of `total` -/
def getTileBody (tiles : UInt64 → Option Bytes) (features : List (UInt64 × Bytes)) (pf : PackFile) (ctx : GetCtx) (tile : Tile) : Traced (Option Bytes) :=
  if ctx.ignorePrepared = false ∧ (tile.z : Int) ≤ ctx.maxPrepared then do
    tick [.start fetch]
    let k ← lift (keyOfTile tile)
    let t := tiles k
    tick [.stop fetch]
    match t with
    | some t => return some t
    | none => do
      let c ← lift (bqContains ctx.seaside tile)
      if c then renderTileSeq ctx tile (fun _ bs => pure (bs, 0)) else return none
  else
    renderTileSeq ctx tile (fun s bs => do
      let es ← lift (scanQuery features tile)
      valuesSeq pf ctx s bs 0 es)

/-- get_tile.h:178-215 -/
def getTileSeq (tiles : UInt64 → Option Bytes) (features : List (UInt64 × Bytes)) (pf : PackFile) (ctx : GetCtx) (tile : Tile) : Traced (Option Bytes) := do
  lift (verify (decide (tile.z ≤ kMaxZoomLevel)))
  inScope total (getTileBody tiles features pf ctx tile)

/-- the arguments of a call of `get_tile`: the table of prepared tiles, the feature records, the pack file, the context and the tile -/
structure TileCall where
  tiles : UInt64 → Option Bytes
  features : List (UInt64 × Bytes)
  pf : PackFile
  ctx : GetCtx
  tile : Tile

/-- the call, with what it does to the counter -/
def TileCall.run (c : TileCall) : Traced (Option Bytes) := getTileSeq c.tiles c.features c.pf c.ctx c.tile

end Tiles
