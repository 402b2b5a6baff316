import Verif.Model.FeatureIO
import Verif.Model.FeaturePack
import Verif.Model.PackFile
import Verif.Model.GetTile
import Verif.Model.Parallel
/-
Model of /repo/include/tiles/db/feature_inserter_mt.h: any number of threads call `insert`, then the inserter is destroyed.
Interleaving semantics as in Model/Parallel.  A critical section of a bucket is one step; so are one access to the atomic `cache_size_`
and the unsynchronized read of one `mem_size_` in `flush` (line 102; formally a data race).

LMDB (external): a table is a function from keys to values; there is at most one write transaction, its changes are seen by nobody else
until they are committed, and leaving the scope without commit drops them.

Simplifications: sizes and offsets are naturals (no wrap-around of 64 bits); the tiles of `cache_` are a parameter (the code: all tiles
of zoom level 10, row by row, `cacheTiles`), and the binary search of `get_bucket` is the search in that list.  A call that throws is
abandoned and the thread goes on with its next call.  An exception in the destructor terminates the process.
-/
namespace Tiles

/-- feature_inserter_mt.h:37-45: the tiles of the buckets -/
def cacheTiles : List Tile := geoTileRange 0 0 1023 1023 kTileDefaultIndexZoomLvl

/-- the calls a thread makes -/
inductive InsCall where
  /-- `insert(feature)` -/
  | feature (f : Feature)
  /-- `insert(tile, value)` followed by `flush()` (load_coastlines.cc:317-318) -/
  | value (t : Tile) (v : Bytes)

/-- feature_inserter_mt.h:56-60: the tiles and the serialized feature (serialize.h:16-18: `fast`, no metadata coder) -/
def InsCall.plan : InsCall → Res (List Tile × Bytes)
  | .feature f => do
    let range ← makeTileRange (boundingBox f.geometry)
    verify (decide (range ≠ []))
    let v ← serializeFeature (fun _ => []) [] true f
    return (range, v)
  | .value t v => .ok ([t], v)

/-- feature_inserter_mt.h:22-28, 168-173 and the database.  `running` counts the threads that have not returned yet.  Ghost: `failed`
tells whether some flush threw an exception. -/
structure InsShared where
  cacheSize : Nat
  memSize : Tile → Nat
  mem : Tile → List Bytes
  mutex : Bool
  db : UInt64 → Option Bytes
  txn : Option (UInt64 → Option Bytes)
  pf : PackFile
  running : Nat
  failed : Bool

/-- what follows a flush: the remaining calls of the thread, or (`none`) the end of the destructor -/
abbrev InsCont := Option (List InsCall)

inductive InsPc where
  /-- between two calls -/
  | idle (todo : List InsCall)
  /-- before line 70, with the tiles still to do -/
  | bump (v : Bytes) (tiles : List Tile) (todo : List InsCall)
  /-- before line 71 -/
  | add (v : Bytes) (t : Tile) (tiles : List Tile) (todo : List InsCall)
  /-- before line 91 -/
  | check (up lo : Nat) (k : InsCont)
  /-- before line 94 -/
  | lock (up lo : Nat) (k : InsCont)
  /-- before line 95 -/
  | recheck (up lo : Nat) (k : InsCont)
  /-- in the loop of line 101: buckets to look at, and `buckets` in reverse order -/
  | scan (lo : Nat) (rest : List Tile) (found : List (Nat × Tile)) (k : InsCont)
  /-- in the loop of line 111: the rest of `buckets`, and `queue` -/
  | take (lo : Nat) (rest : List Tile) (queue : List (Tile × List Bytes)) (k : InsCont)
  /-- before line 134 -/
  | begin (queue : List (Tile × List Bytes)) (k : InsCont)
  /-- in the loop of line 137, or before line 149 -/
  | write (queue : List (Tile × List Bytes)) (k : InsCont)
  /-- the thread returned -/
  | stop
  /-- the owner, before the destructor: waits for the threads -/
  | join
  /-- the destructor returned -/
  | finished
  /-- the destructor threw: `std::terminate` -/
  | terminated

/-- after `flush` -/
def insNext : InsCont → InsPc
  | some todo => .idle todo
  | none => .finished

/-- after an exception in `flush` -/
def insThrow : InsCont → InsPc
  | some todo => .idle todo
  | none => .terminated

/-- feature_inserter_mt.h:99-106: pairs of size and address; addresses are ordered by row and column -/
def bucketLe (a b : Nat × Tile) : Bool :=
  decide (a.1 < b.1) || (a.1 == b.1 && (decide (a.2.y < b.2.y) || (a.2.y == b.2.y && decide (a.2.x ≤ b.2.x))))

/-- feature_inserter_mt.h:138-147: one pack is appended to the pack file and its record put into the transaction.  (A crash between the
two is, for the committed table and the pack file, a crash after both.) -/
def writeBucket (crc : Bytes → UInt32) (view : UInt64 → Option Bytes) (pf : PackFile) (t : Tile) (fs : List Bytes) :
    Res ((UInt64 → Option Bytes) × PackFile) := do
  let k ← keyOfTile t
  let p ← packFeaturesPlain crc fs
  let (pf, r) := pf.append p
  let v ← match view k with
    | some dat => packRecordsUpdate dat r
    | none => .ok (packRecordsSerialize [r])
  return (fun k' => if k' = k then some v else view k', pf)

/-- one step of a thread; `upper` and `lower` are `kCacheThresholdUpper`, `kCacheThresholdLower` -/
def insStep (crc : Bytes → UInt32) (cache : List Tile) (upper lower : Nat) (s : InsShared) : InsPc → Option (InsShared × InsPc)
  -- lines 55-67
  | .idle [] => some ({ s with running := s.running - 1 }, .stop)
  | .idle (c :: todo) => match c.plan with
    | .ok (tiles, v) => some (s, .bump v tiles todo)
    | _ => some (s, .idle todo)
  -- lines 69-76
  | .bump _ [] todo => some (s, .check upper lower (some todo))
  | .bump v (t :: tiles) todo => some ({ s with cacheSize := s.cacheSize + v.length }, .add v t tiles todo)
  | .add v t tiles todo =>
    if t ∈ cache then
      some ({ s with memSize := fun t' => if t' = t then s.memSize t + v.length else s.memSize t',
                     mem := fun t' => if t' = t then s.mem t ++ [v] else s.mem t' }, .bump v tiles todo)
    else some (s, .idle todo)
  -- lines 91-97
  | .check up lo k => if s.cacheSize ≤ up then some (s, insNext k) else some (s, .lock up lo k)
  | .lock up lo k => if s.mutex then none else some ({ s with mutex := true }, .recheck up lo k)
  | .recheck up lo k => if s.cacheSize ≤ up then some ({ s with mutex := false }, insNext k) else some (s, .scan lo cache [] k)
  -- lines 99-109
  | .scan lo (t :: rest) found k => some (s, .scan lo rest (if s.memSize t > 0 then (s.memSize t, t) :: found else found) k)
  | .scan lo [] found k =>
    if found = [] then some ({ s with mutex := false }, insNext k)
    else some (s, .take lo ((sortBy bucketLe found.reverse).map (·.2)) [] k)
  -- lines 111-132
  | .take _ [] queue k => some ({ s with mutex := false }, .begin queue k)
  | .take lo (t :: rest) queue k =>
    if s.cacheSize < lo then some ({ s with mutex := false }, .begin queue k)
    else some ({ s with cacheSize := s.cacheSize - s.memSize t, memSize := fun t' => if t' = t then 0 else s.memSize t',
                        mem := fun t' => if t' = t then [] else s.mem t' }, .take lo rest (queue ++ [(t, s.mem t)]) k)
  -- lines 134-149
  | .begin queue k => match s.txn with
    | none => some ({ s with txn := some s.db }, .write queue k)
    | some _ => none
  | .write ((t, fs) :: queue) k => match s.txn with
    | some view => match writeBucket crc view s.pf t fs with
      | .ok (view, pf) => some ({ s with txn := some view, pf := pf }, .write queue k)
      | _ => some ({ s with txn := none, failed := true }, insThrow k)
    | none => none
  | .write [] k => match s.txn with
    | some view => some ({ s with db := view, txn := none }, insNext k)
    | none => none
  | .stop => none
  -- line 48
  | .join => if s.running = 0 then some (s, .check 0 0 none) else none
  | .finished => none
  | .terminated => none

/-- the owner and the threads; the buckets are empty, the database and the pack file may have content -/
def insInit (db : UInt64 → Option Bytes) (pf : PackFile) (calls : List (List InsCall)) : InsShared × List InsPc :=
  (⟨0, fun _ => 0, fun _ => [], false, db, none, pf, calls.length, false⟩, .join :: calls.map .idle)

end Tiles
