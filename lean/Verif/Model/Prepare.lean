import Verif.Model.GetTile
import Verif.Model.Parallel
/-
Model of /repo/src/db/prepare_tiles.cc.  Interleaving semantics as in Model/Parallel: `get_batch` (under the mutex) and the write
transaction of a worker are one step each, rendering one tile is one step.  The features table and the pack file do not change during the
run, so rendering is a function of the tile.  Statistics (prepare_tiles.cc:75-98 `finish`) are in Model/PrepStats.
-/
namespace Tiles

/-- `geo::make_tile_range(minx, miny, maxx, maxy, 10)` kept as its bounds (external header geo/tile.h), both ends inclusive -/
structure BaseRange where
  minx : Nat
  miny : Nat
  maxx : Nat
  maxy : Nat
  deriving Repr, DecidableEq

/-- `geo::tile_range_on_z(base, z)` (external header geo/tile.h): the tiles of zoom level `z` that share area with the base range, row by row -/
def tileRangeOnZ (b : BaseRange) (z : Nat) : List Tile :=
  if z ≤ kTileDefaultIndexZoomLvl then
    let d := 2 ^ (kTileDefaultIndexZoomLvl - z)
    geoTileRange (b.minx / d) (b.miny / d) (b.maxx / d) (b.maxy / d) z
  else
    let d := 2 ^ (z - kTileDefaultIndexZoomLvl)
    geoTileRange (b.minx * d) (b.miny * d) ((b.maxx + 1) * d - 1) ((b.maxy + 1) * d - 1) z

/-- prepare_tiles.cc:34-44, 100-103 `prepare_manager`; `rest` is what is left of `curr_range_` -/
structure PrepMgr where
  maxZ : Nat
  curZ : Nat
  base : BaseRange
  rest : List Tile

/-- prepare_tiles.cc:35-44 the constructor -/
def PrepMgr.init (base : BaseRange) (maxZ : Nat) : PrepMgr := ⟨maxZ, 0, base, tileRangeOnZ base 0⟩

/-- prepare_tiles.cc:54-71: the loop with `n` rounds to go; dereferencing the iterator of an empty range would be `ub` -/
def PrepMgr.batchLoop : Nat → PrepMgr → Res (List Tile × PrepMgr)
  | 0, m => .ok ([], m)
  | n + 1, m =>
    if m.curZ > m.maxZ then .ok ([], m)
    else match m.rest with
      | [] => .ub
      | t :: r => do
        let m := if r = [] then { m with curZ := m.curZ + 1, rest := tileRangeOnZ m.base (m.curZ + 1) } else { m with rest := r }
        let (ts, m) ← PrepMgr.batchLoop n m
        return (t :: ts, m)

/-- prepare_tiles.cc:46-73 `get_batch`: `batch_size` is 2^9, `batch_inc` is 2^max(9 - curr_zoomlevel_, 0) -/
def PrepMgr.getBatch (m : PrepMgr) : Res (List Tile × PrepMgr) :=
  PrepMgr.batchLoop (2 ^ 9 / 2 ^ (9 - m.curZ)) m

/-- prepare_tiles.cc:116-123: the bounds of all tiles in the features table (start values: the limits of uint32_t) -/
def dbBounds (keys : List UInt64) : BaseRange :=
  keys.foldl (fun b k =>
    let t := keyToTile k
    ⟨min b.minx t.x, min b.miny t.y, max b.maxx t.x, max b.maxy t.y⟩) ⟨2 ^ 32 - 1, 2 ^ 32 - 1, 0, 0⟩

/-- prepare_tiles.cc:106-132 `make_prepare_manager` -/
def makePrepMgr (keys : List UInt64) (maxZ : Nat) : Res PrepMgr := do
  let b := dbBounds keys
  verify (decide (b.minx ≠ 2 ^ 32 - 1) && decide (b.miny ≠ 2 ^ 32 - 1))
  return PrepMgr.init b maxZ

/-- shared state: the manager, the table of prepared tiles, the stored highest prepared zoom level, the number of workers not yet
finished, and whether the process was terminated by an exception in a worker.  Ghost: `handed` are the tiles handed out so far, in order;
`stored` the tiles whose batch was written (or needed no writing). -/
structure PrepShared where
  mgr : PrepMgr
  tiles : UInt64 → Option Bytes
  maxPrepared : Option Nat
  running : Nat
  aborted : Bool
  handed : List Tile
  stored : List Tile

/-- where a thread is -/
inductive PrepPc where
  /-- worker at line 149 -/
  | fetch
  /-- worker at line 166: tiles still to render, and the rendered ones in reverse order -/
  | render (todo : List Tile) (done : List (Tile × Option Bytes))
  /-- worker at line 184 -/
  | store (done : List (Tile × Option Bytes))
  /-- worker returned -/
  | stop
  /-- the main thread at line 202 -/
  | join
  /-- the main thread returned -/
  | finished
  deriving DecidableEq

/-- prepare_tiles.cc:192-196: puts in a transaction -/
def putTiles (tiles : UInt64 → Option Bytes) : List (Tile × Option Bytes) → Res (UInt64 → Option Bytes)
  | [] => .ok tiles
  | (_, none) :: ts => putTiles tiles ts
  | (t, some v) :: ts => do
    let k ← keyOfTile t
    putTiles (fun k' => if k' = k then some v else tiles k') ts

/-- prepare_tiles.cc:147-200 (workers) and 202-208 (main thread).  An exception in a worker terminates the process. -/
def prepStep (render : Tile → Res (Option Bytes)) (s : PrepShared) (p : PrepPc) : Option (PrepShared × PrepPc) :=
  if s.aborted then none else
  match p with
  | .fetch =>
    match s.mgr.getBatch with
    | .ok ([], m) => some ({ s with mgr := m, running := s.running - 1 }, .stop)
    | .ok (t :: ts, m) => some ({ s with mgr := m, handed := s.handed ++ t :: ts }, .render (t :: ts) [])
    | _ => some ({ s with aborted := true }, .stop)
  | .render (t :: todo) done =>
    match render t with
    | .ok r => some (s, .render todo ((t, r) :: done))
    | _ => some ({ s with aborted := true }, .stop)
  | .render [] done => some (s, .store done.reverse)
  | .store done =>
    match putTiles s.tiles done with
    | .ok tb => some ({ s with tiles := tb, stored := s.stored ++ done.map (·.1) }, .fetch)
    | _ => some ({ s with aborted := true }, .stop)
  | .stop => none
  | .join => if s.running = 0 then some ({ s with maxPrepared := some s.mgr.maxZ }, .finished) else none
  | .finished => none

/-- prepare_tiles.cc:134-202: `workers` = `hardware_concurrency()` -/
def prepInit (m : PrepMgr) (tiles : UInt64 → Option Bytes) (maxPrepared : Option Nat) (workers : Nat) : PrepShared × List PrepPc :=
  (⟨m, tiles, maxPrepared, workers, false, [], []⟩, .join :: List.replicate workers .fetch)

/-- prepare_tiles.cc:138-142, 159-177: what a worker computes for a tile -/
def prepRender (features : List (UInt64 × Bytes)) (pf : PackFile) (ctx : GetCtx) (t : Tile) : Res (Option Bytes) := do
  let ps ← packsOf features pf t
  renderTile { ctx with ignoreSeaside := true, aggLines := true, aggPolygons := true } t ps

end Tiles
