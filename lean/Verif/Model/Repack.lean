import Verif.Model.Defrag
/-
Model of /repo/include/tiles/db/repack_features.h:50-72, 250-266, 279-373: rewriting the pack file.

Only the main thread touches the pack file and the members of `repack_memory_manager`.  The worker threads (line 347) take work items,
call `pack_features` on the copied packs, and hand out the results; all that the main thread sees of them is the order in which the results
arrive.  So here an item of `inflight` is a task that was enqueued and whose result was not taken by the main thread yet, and every
`dequeue` may get the result of any of them, or time out.  The condition of the loops at 335 and 339 reads two counters; C33 shows that it
can be true while results are left, so the loops may stop at any time here (an over-approximation); line 371 then throws.

Simplifications: `pack_features` is a function of the tile and the packs that does not throw (an exception in a worker ends the process);
the progress output is left out.
-/
namespace Tiles

/-- where the main thread is -/
inductive RepackPc where
  | fill (enqueued : Nat)      -- 311
  | defrag                     -- 349
  | head                       -- 350
  | results (n : Nat)          -- 339, called at 351
  | flush                      -- 352
  | take (n : Nat)             -- 315, called at 353
  | stash                      -- 253, called at 355
  | resize                     -- 258-259
  | flushStash                 -- 356
  | drain                      -- 335, called at 358
  | flushLast                  -- 359
  | check                      -- 368
  | done
  deriving DecidableEq, Repr

/-- `repack_memory_manager` (lines 268-276), the work and results under way, and what the callback has received so far -/
structure Repack where
  pf : PackFile
  tasks : List TileRecord
  inflight : List (Tile × List Bytes)
  stash : List (Tile × PackRecord)
  insOff : Nat
  updates : List (Tile × PackRecord)
  table : List (Tile × PackRecord)
  pc : RepackPc
  deriving Repr

/-- what the environment decides: nothing, a dequeue that times out, the result of the `i`-th item, the counters read as zero; and the
number of steps granted to the defragmentation -/
inductive RepackChoice where
  | go
  | timeout
  | result (i : Nat)
  | quit
  | steps (fuel : Nat)

/-- the packs of a task: lines 297-299 -/
def readTask (pf : PackFile) : List PackRecord → Res (List Bytes)
  | [] => .ok []
  | r :: rs => do
    let b ← pf.get r
    let bs ← readTask pf rs
    return b :: bs

/-- lines 50-55, 295-307: `dequeue_task`, read, enqueue; also returns the number of bytes -/
def Repack.enqueue (s : Repack) : Res (Repack × Nat) := do
  verify (!s.tasks.isEmpty)
  match s.tasks.getLast? with
  | none => .ub
  | some t =>
    let packs ← readTask s.pf t.records
    return ({ s with tasks := s.tasks.dropLast, inflight := s.inflight ++ [(t.tile, packs)] }, (t.records.map (·.size)).sum)

/-- lines 57-72 -/
def Repack.insertResult (s : Repack) (tile : Tile) (buf : Bytes) : Res Repack :=
  match s.tasks.getLast? with
  | none =>
    let (pf, r) := s.pf.append buf
    .ok { s with pf := pf, updates := s.updates ++ [(tile, r)] }
  | some t => match t.records.getLast? with
    | none => .ub
    | some low => do
      verify (decide (s.insOff ≤ low.offset))
      if low.offset - s.insOff < buf.length then
        let (pf, r) := s.pf.append buf
        return { s with pf := pf, stash := s.stash ++ [(tile, r)] }
      else
        let (pf, r) := s.pf.insert s.insOff buf
        return { s with pf := pf, updates := s.updates ++ [(tile, r)], insOff := s.insOff + buf.length }

/-- lines 262-266 with the callback storing the updates -/
def Repack.flushed (s : Repack) : Repack := { s with table := s.table ++ s.updates, updates := [] }

/-- lines 323-332: a dequeue -/
def Repack.dequeue (f : Tile → List Bytes → Bytes) (s : Repack) (i : Nat) : Option (Res Repack) :=
  match s.inflight[i]? with
  | none => none
  | some (tile, packs) => some (Repack.insertResult { s with inflight := s.inflight.eraseIdx i } tile (f tile packs))

/-- the next pc -/
def Repack.goto (s : Repack) (pc : RepackPc) : Repack := { s with pc := pc }

/-- One step of lines 348-373; `mem` is `kRepackInFlightMemory`, `batch` is `kRepackBatchSize`; `none`: this choice is not possible here. -/
def repackStep (f : Tile → List Bytes → Bytes) (mem batch : Nat) (c : RepackChoice) (s : Repack) : Option (Res Repack) :=
  match s.pc, c with
  | .fill n, .go =>
    if s.tasks ≠ [] ∧ n < mem then
      some (do
        let (s, k) ← s.enqueue
        return s.goto (.fill (n + k)))
    else some (.ok (s.goto .defrag))
  | .defrag, .steps fuel => match defragmentPackFile fuel s.pf s.tasks with
    | none => none
    | some r => some (do
        let (pf, tasks) ← r
        return { s with pf := pf, tasks := tasks, pc := .head })
  | .head, .go => if s.tasks ≠ [] then some (.ok (s.goto (.results batch))) else some (.ok (s.goto .stash))
  | .results n, .go => if n = 0 then some (.ok (s.goto .flush)) else none
  | .results _, .quit => some (.ok (s.goto .flush))
  | .results n, .timeout => if n = 0 then none else some (.ok (s.goto (.results (n - 1))))
  | .results n, .result i =>
    if n = 0 then none
    else match s.dequeue f i with
      | none => none
      | some r => some (do
          let s ← r
          return s.goto (.results (n - 1)))
  | .flush, .go => some (.ok (s.flushed.goto (.take batch)))
  | .take n, .go =>
    if s.tasks ≠ [] ∧ 0 < n then
      some (do
        let (s, _) ← s.enqueue
        return s.goto (.take (n - 1)))
    else some (.ok (s.goto .head))
  | .stash, .go => match s.stash with
    | [] => some (do
        verify s.tasks.isEmpty
        return s.goto .resize)
    | (tile, r) :: rest => some (do
        verify s.tasks.isEmpty
        let (pf, r') ← s.pf.move s.insOff r
        return { s with pf := pf, updates := s.updates ++ [(tile, r')], insOff := s.insOff + r.size, stash := rest })
  | .resize, .go => some (.ok { s with pf := s.pf.resize s.insOff, pc := .flushStash })
  | .flushStash, .go => some (.ok (s.flushed.goto .drain))
  | .drain, .quit => some (.ok (s.goto .flushLast))
  | .drain, .timeout => some (.ok s)
  | .drain, .result i => match s.dequeue f i with
    | none => none
    | some r => some r
  | .flushLast, .go => some (.ok (s.flushed.goto .check))
  | .check, .go => some (do
      verify s.tasks.isEmpty
      verify s.inflight.isEmpty
      return s.goto .done)
  | _, _ => none

/-- lines 283-289 -/
def repackInit (pf : PackFile) (tasks : List TileRecord) : Repack := ⟨pf, repackTasks tasks, [], [], 0, [], [], .fill 0⟩

/-- what can be reached -/
inductive RepackReach (f : Tile → List Bytes → Bytes) (mem batch : Nat) (s0 : Repack) : Repack → Prop
  | init : RepackReach f mem batch s0 s0
  | step {s s' : Repack} (c : RepackChoice) : RepackReach f mem batch s0 s → repackStep f mem batch c s = some (.ok s') → RepackReach f mem batch s0 s'

end Tiles
