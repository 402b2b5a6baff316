import Verif.Model.Repack
import Verif.Model.GetTile
/-
Model of /repo/src/db/feature_pack.cc:74-115, `pack_features(db_handle, pack_handle, pack_fn)`: the index is read and emptied in one
transaction, then the pack file is rewritten (Model/Repack), and after each batch of results the new records are put into the index in one
transaction.

LMDB (external): the features table is a function from keys to values; a cursor walks through its entries in key order; the changes of a
transaction become visible, and survive a crash, all at once with `commit`.  So a crash leaves the table of the last committed transaction.
-/
namespace Tiles

/-- feature_pack.cc:84-95: the loop over the entries, with `tasks` -/
def packTasks : List (UInt64 × Bytes) → List TileRecord → Res (List TileRecord)
  | [], tasks => .ok tasks
  | (k, v) :: es, tasks => do
    let tile := keyToTile k
    let records ← packRecordsDeserialize v
    verify (!records.isEmpty)
    match tasks.getLast? with
    | some t =>
      if t.tile = tile then packTasks es (tasks.dropLast ++ [{ t with records := t.records ++ records }])
      else packTasks es (tasks ++ [⟨tile, records⟩])
    | none => packTasks es (tasks ++ [⟨tile, records⟩])

/-- feature_pack.cc:109-112: the puts of one transaction -/
def putRecords : (UInt64 → Option Bytes) → List (Tile × PackRecord) → Res (UInt64 → Option Bytes)
  | db, [] => .ok db
  | db, (tile, r) :: us => do
    let k ← keyOfTile tile
    putRecords (fun k' => if k' = k then some (packRecordsSerialize [r]) else db k') us

/-- The committed features table, the pack file at the start, and the rewriting under way (`none`: before line 80). -/
structure PackDb where
  db : UInt64 → Option Bytes
  pf : PackFile
  run : Option Repack

/-- the pack file -/
def PackDb.file (s : PackDb) : PackFile := match s.run with | none => s.pf | some r => r.pf

/-- feature_pack.cc:74-115; `entries` are the entries of the table at the start, in key order.  The callback is called at the three
places of repack_features.h where the updates are flushed. -/
def packDbStep (f : Tile → List Bytes → Bytes) (mem batch : Nat) (entries : List (UInt64 × Bytes)) (c : RepackChoice) (s : PackDb) :
    Option (Res PackDb) :=
  match s.run with
  | none => some (do
      let tasks ← packTasks entries []
      return { s with db := fun _ => none, run := some (repackInit s.pf tasks) })
  | some r => match repackStep f mem batch c r with
    | none => none
    | some r' => some (do
        let db ← if r.pc = .flush ∨ r.pc = .flushStash ∨ r.pc = .flushLast then putRecords s.db r.updates else .ok s.db
        let r' ← r'
        return { s with db := db, run := some r' })

/-- the states of a run that starts in `s0` -/
inductive PackReach (f : Tile → List Bytes → Bytes) (mem batch : Nat) (entries : List (UInt64 × Bytes)) (s0 : PackDb) : PackDb → Prop
  | init : PackReach f mem batch entries s0 s0
  | step {s s' : PackDb} (c : RepackChoice) : PackReach f mem batch entries s0 s → packDbStep f mem batch entries c s = some (.ok s') →
    PackReach f mem batch entries s0 s'

/-- the table with these entries -/
def tableOf (entries : List (UInt64 × Bytes)) : UInt64 → Option Bytes := fun k => (entries.find? (fun e => e.1 == k)).map (·.2)

/-- before the run -/
def packDbInit (entries : List (UInt64 × Bytes)) (pf : PackFile) : PackDb := ⟨tableOf entries, pf, none⟩

end Tiles
