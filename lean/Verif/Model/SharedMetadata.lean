import Verif.Model.Metadata
import Verif.Model.Ranges
/-
Model of /repo/include/tiles/db/shared_metadata.h.

`uint64_t` counts are naturals.  The concurrent queue (moodycamel, external) is a bag: a bulk dequeue takes any part of it.
Each flush runs its counting part under a mutex (shared_metadata.h:59), so flushes are sequential.
-/
namespace Tiles

/-- shared_metadata.h:22-112 `shared_metadata_builder`: queued entries and the counts so far -/
structure MetaBuilder where
  queue : List Meta
  counts : List (Meta × Nat)
  deriving Repr

def metaEq (a b : Meta) : Bool := decide (a = b)

/-- shared_metadata.h:53-57: sort the dequeued entries and count each run -/
def countRuns (buf : List Meta) : List (Meta × Nat) :=
  (equalRanges metaEq (sortBy metaLe buf)).filterMap (fun g => g.head?.map (fun m => (m, g.length)))

/-- shared_metadata.h:60-65: concat and `std::inplace_merge` of two sorted ranges (= stable sort of the concatenation) -/
def mergeCounts (counts bufCounts : List (Meta × Nat)) : List (Meta × Nat) :=
  sortBy (fun a b => metaLe a.1 b.1) (counts ++ bufCounts)

/-- shared_metadata.h:70-78: the callback on one run -/
def combineRun : List (Meta × Nat) → Res (List (Meta × Nat))
  | [a] => .ok [a]
  | [a, b] => .ok [(a.1, a.2 + b.2), (b.1, 0)]
  | _ => .throw_

/-- shared_metadata.h:67-78 over all runs -/
def combineRuns : List (List (Meta × Nat)) → Res (List (Meta × Nat))
  | [] => .ok []
  | g :: gs => do
    let a ← combineRun g
    let b ← combineRuns gs
    return a ++ b

/-- shared_metadata.h:53-79: add the dequeued entries `buf` to the counts -/
def addCounts (counts : List (Meta × Nat)) (buf : List Meta) : Res (List (Meta × Nat)) := do
  let c ← combineRuns (equalRanges (fun a b => metaEq a.1 b.1) (mergeCounts counts (countRuns buf)))
  return c.filter (fun p => p.2 ≠ 0)

/-- One step of the builder: `update` enqueues (shared_metadata.h:30-31); `flush` dequeues some nonempty part `buf` of the
queue (shared_metadata.h:46-51) and counts it.  Any thread may do either at any time. -/
inductive MetaStep : MetaBuilder → List Meta → MetaBuilder → Prop where
  | update (s : MetaBuilder) (data : List Meta) : MetaStep s data ⟨s.queue ++ data, s.counts⟩
  | flush (s : MetaBuilder) (buf rest : List Meta) (counts : List (Meta × Nat)) (hq : (buf ++ rest).Perm s.queue)
      (hb : buf ≠ []) (hc : addCounts s.counts buf = .ok counts) : MetaStep s [] ⟨rest, counts⟩

/-- any history; `all` collects what was passed to `update` -/
inductive MetaReach : MetaBuilder → List Meta → Prop where
  | start : MetaReach ⟨[], []⟩ []
  | step {s s' : MetaBuilder} {all data : List Meta} : MetaReach s all → MetaStep s data s' → MetaReach s' (all ++ data)

/-- shared_metadata.h:88-90: the table that is stored.  (`std::sort` leaves the order of equal counts open; the model
keeps the metadata order.) -/
def metaTable (counts : List (Meta × Nat)) : List (Meta × Nat) :=
  sortBy (fun a b => decide (b.2 ≤ a.2)) (counts.filter (fun p => p.2 ≠ 1))

/-- shared_metadata.h:95-103: the stored bytes -/
def metaTableBytes (tbl : List Meta) : Bytes :=
  encMessage (tbl.flatMap (fun m => [.bytes 1 m.key, .bytes 1 m.value]))

/-- shared_metadata.h:158-167: pairs of strings; `get_string` on another wire type is not checked in release builds -/
def readMetaPairs : List PbfField → Res (List Meta)
  | [] => .ok []
  | .bytes _ _ :: [] => .throw_
  | .bytes _ k :: .bytes _ v :: rest => do
    let r ← readMetaPairs rest
    return ⟨k, v⟩ :: r
  | _ => .ub

/-- shared_metadata.h:150-168 `load_shared_metadata`; `none` = no such key in the database -/
def loadSharedMetadata (stored : Option Bytes) : Res (List Meta) :=
  match stored with
  | none => .ok []
  | some b => do
    let fs ← decMessage b
    readMetaPairs fs

/-- shared_metadata.h:120 `decode` -/
def metaDecode (dec : List Meta) (id : Nat) : Res Meta := at_ dec id

/-- `std::pair<metadata, uint64_t>` comparison, not greater -/
def metaIdxLe (a b : Meta × Nat) : Bool := if a.1 = b.1 then decide (a.2 ≤ b.2) else metaLe a.1 b.1

/-- shared_metadata.h:128-135: the encoder's table -/
def metaEncData (dec : List Meta) : List (Meta × Nat) := sortBy metaIdxLe dec.zipIdx

/-- shared_metadata.h:137-145 `encode`; `std::lower_bound` on a sorted range = the first element not less than `q` -/
def metaEncode (dec : List Meta) (q : Meta) : Option Nat :=
  match ((metaEncData dec).dropWhile (fun a => !metaLe q a.1)).head? with
  | none => none
  | some a => if a.1 ≠ q then none else some a.2

end Tiles
