import Verif.Model.Basic
import Mathlib.Data.Rat.Floor
/-
Model of /repo/include/tiles/perf_counter.h and src/perf_counter.cc.  The clock is a parameter: every operation comes with the time at which it reads the clock
(`std::chrono::high_resolution_clock`, in nanoseconds).
Simplification: sizes passed to `append` are below 2^64 and sums are not formed here (the report adds doubles).
-/
namespace Tiles

/-- perf_counter.h:11-32 -/
inductive PerfTask where
  | resultSize
  | total | fetch | render | compress
  | findSeaside | addSeaside
  | query | iter | deserOkay | deserSkip | add | finish
  deriving DecidableEq, Repr

/-- the calls on a counter -/
inductive PerfOp where
  | start (t : PerfTask)
  | stop (t : PerfTask)
  | append (t : PerfTask) (v : Nat)
  deriving DecidableEq, Repr

/-- perf_counter.h:34-72: `none` is `kInvalidTimePoint` -/
structure Perf where
  running : PerfTask → Option Int
  finished : PerfTask → List Nat

/-- perf_counter.h:40-44 -/
def perfInit : Perf := ⟨fun _ => none, fun _ => []⟩

/-- perf_counter.h:46-68: `append`, `start`, `stop`.  The difference of two time points is signed and pushed as an unsigned number. -/
def perfStep (p : Perf) (now : Int) : PerfOp → Perf
  | .append t v => { p with finished := fun u => if u = t then p.finished t ++ [v] else p.finished u }
  | .start t => { p with running := fun u => if u = t then some now else p.running u }
  | .stop t => match p.running t with
    | none => p
    | some s => ⟨fun u => if u = t then none else p.running u, fun u => if u = t then p.finished t ++ [((now - s) % 2 ^ 64).toNat] else p.finished u⟩

/-- a sequence of calls, each at its time -/
def perfRun (p : Perf) : List (Int × PerfOp) → Perf
  | [] => p
  | (now, op) :: l => perfRun (perfStep p now op) l

/-- the task of a call -/
def PerfOp.task : PerfOp → PerfTask
  | .start t => t
  | .stop t => t
  | .append t _ => t

/-- perf_counter.cc:27 `m[m.size() * .95]`: the index of `q95`; `fl` rounds to a `double` -/
def q95Index (fl : ℚ → ℚ) (n : Nat) : Nat := ⌊fl (fl n * fl (19 / 20))⌋₊

/-- perf_counter.cc:15-29 `print` of a task with at least one value: number of values, the value at 95%, the last value, of the sorted list `m` -/
def perfReport (fl : ℚ → ℚ) (m : List Nat) : Res (Nat × Nat × Nat) :=
  let m := m.mergeSort
  match m[q95Index fl m.length]?, m.getLast? with
  | some q, some b => .ok (m.length, q, b)
  | _, _ => .ub

/-- code that calls the counter: the calls it makes, in order, and its outcome -/
structure Traced (α : Type) where
  ops : List PerfOp
  res : Res α

namespace Traced
variable {α β : Type}

/-- sequencing of statements -/
def bind (x : Traced α) (f : α → Traced β) : Traced β :=
  match x.res with
  | .ok a => ⟨x.ops ++ (f a).ops, (f a).res⟩
  | .throw_ => ⟨x.ops, .throw_⟩
  | .ub => ⟨x.ops, .ub⟩

instance : Monad Traced where
  pure a := ⟨[], .ok a⟩
  bind := bind

/-- a statement that does not use the counter -/
def lift (r : Res α) : Traced α := ⟨[], r⟩

/-- calls on the counter -/
def tick (ops : List PerfOp) : Traced Unit := ⟨ops, .ok ()⟩

/-- perf_counter.h:95-126 `scoped_perf_counter`: stopped when the scope is left, by exceptions too -/
def inScope (t : PerfTask) (x : Traced α) : Traced α := ⟨.start t :: x.ops ++ [.stop t], x.res⟩

end Traced

end Tiles
