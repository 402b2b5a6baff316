import Verif.Model.Prepare
import Mathlib.Data.Rat.Defs
/-
The statistics of /repo/src/db/prepare_tiles.cc (lines 25-32, 54-57, 75-98), on top of Model/Prepare: the same threads, with the calls of `finish` (each under the mutex: one step) and
the counting in `get_batch`.
Simplifications: sums are not bounded (64 bits in the code); a duration is a number of nanoseconds, given by `dur` for each tile (a tile is rendered once in a run).  Formatting of the line is left
out (fmt).
-/
namespace Tiles

/-- prepare_tiles.cc:26-32 `prepare_stats` -/
structure LevelStats where
  total : Nat
  finished : Nat
  empty : Nat
  size : Nat
  dur : Nat
  deriving DecidableEq, Repr

/-- prepare_tiles.cc:91-97: a line of the log, with its figures in the order of the code -/
structure PrepLine where
  z : Nat
  dur : Nat
  total : Nat
  avg : ℚ
  empty : Nat
  deriving DecidableEq

/-- `stats_` and what was logged.  Ghost: `counted` are the tiles `finish` was called for. -/
structure PrepLedger where
  stats : Nat → LevelStats
  log : List PrepLine
  counted : List Tile

/-- prepare_tiles.cc:40 -/
def PrepLedger.init : PrepLedger := ⟨fun _ => ⟨0, 0, 0, 0, 0⟩, [], []⟩

/-- prepare_tiles.cc:54-57: `curr_zoomlevel_` of each round of the loop in `get_batch` that hands out a tile -/
def PrepMgr.rounds : Nat → PrepMgr → List Nat
  | 0, _ => []
  | n + 1, m =>
    if m.curZ > m.maxZ then []
    else match m.rest with
      | [] => []
      | _ :: r => m.curZ :: PrepMgr.rounds n (if r = [] then { m with curZ := m.curZ + 1, rest := tileRangeOnZ m.base (m.curZ + 1) } else { m with rest := r })

/-- prepare_tiles.cc:59 `++stats_[curr_zoomlevel_].n_total_`, for all rounds -/
def PrepLedger.handOut (l : PrepLedger) : List Nat → PrepLedger
  | [] => l
  | z :: zs => PrepLedger.handOut { l with stats := fun w => if w = z then { l.stats w with total := (l.stats w).total + 1 } else l.stats w } zs

/-- prepare_tiles.cc:91-97 -/
def prepLine (z : Nat) (s : LevelStats) : PrepLine :=
  ⟨z, s.dur, s.total, if s.total = s.empty then 0 else (s.size : ℚ) / ((s.total - s.empty : Nat) : ℚ), s.empty⟩

/-- prepare_tiles.cc:75-98 `finish` (`stats_.at` is in `prepStatStep`); `n_empty_` is incremented for tiles that are not empty, as in the code -/
def PrepLedger.finish (l : PrepLedger) (curZ : Nat) (t : Tile) (size dur : Nat) : PrepLedger :=
  let s := l.stats t.z
  let s : LevelStats := ⟨s.total, s.finished + 1, if size ≠ 0 then s.empty + 1 else s.empty, s.size + size, s.dur + dur⟩
  let l : PrepLedger := { l with stats := fun w => if w = t.z then s else l.stats w, counted := l.counted ++ [t] }
  if t.z = curZ ∨ s.finished < s.total then l
  else { l with log := l.log ++ [prepLine t.z s] }

/-- a worker between `get_tile` and `finish`: the arguments of the call -/
abbrev PrepCall := Option (Tile × Nat × Nat)

/-- `task.result_ ? task.result_->size() : 0` -/
def resultSize : Option Bytes → Nat
  | some b => b.length
  | none => 0

/-- prepare_tiles.cc:147-200 with the statistics.  `stats_.at` throws for a level that there is not: the process ends. -/
def prepStatStep (render : Tile → Res (Option Bytes)) (dur : Tile → Nat) (s : PrepShared × PrepLedger) (p : PrepPc × PrepCall) :
    Option ((PrepShared × PrepLedger) × (PrepPc × PrepCall)) :=
  if s.1.aborted then none else
  match p.2 with
  | some (t, size, d) =>
    if t.z ≤ s.1.mgr.maxZ then some ((s.1, s.2.finish s.1.mgr.curZ t size d), (p.1, none))
    else some (({ s.1 with aborted := true }, s.2), (.stop, none))
  | none =>
    match prepStep render s.1 p.1 with
    | none => none
    | some (s', p') =>
      match p.1 with
      | .fetch => some ((s', s.2.handOut (s.1.mgr.rounds (2 ^ 9 / 2 ^ (9 - s.1.mgr.curZ)))), (p', none))
      | .render (t :: _) _ => match render t with
        | .ok r => some ((s', s.2), (p', some (t, resultSize r, dur t)))
        | _ => some ((s', s.2), (p', none))
      | _ => some ((s', s.2), (p', none))

/-- prepare_tiles.cc:134-202 -/
def prepStatInit (m : PrepMgr) (tiles : UInt64 → Option Bytes) (maxPrepared : Option Nat) (workers : Nat) : (PrepShared × PrepLedger) × List (PrepPc × PrepCall) :=
  let s := prepInit m tiles maxPrepared workers
  ((s.1, .init), s.2.map (fun p => (p, none)))

end Tiles
