import Verif.Model.Sort
/-
Model of /repo/include/tiles/util_parallel.h: interleaving semantics.  A state holds the shared variables and one program
counter per thread; one step lets one thread make one move.  Threads are chosen without any fairness or order assumption.
Simplifications: sequentially consistent memory (mutexes and `std::atomic` with the default order); `std::mutex` critical
sections of `in_order_queue` that contain no call into user code are one step.
-/
namespace Tiles
variable {T : Type}

/-- one thread of a list of threads makes a move; `step` is what a thread can do -/
inductive ThreadStep {S P : Type} (step : S → P → Option (S × P)) : S × List P → S × List P → Prop
  | mk (s s' : S) (a b : List P) (p p' : P) (h : step s p = some (s', p')) :
      ThreadStep step (s, a ++ p :: b) (s', a ++ p' :: b)

/-- reflexive transitive closure -/
inductive Reach {S : Type} (R : S → S → Prop) (s : S) : S → Prop
  | refl : Reach R s s
  | step {t u : S} (h : Reach R s t) (r : R t u) : Reach R s u

/-! ### `sequential_until_finish` (util_parallel.h:14-38) -/

/-- util_parallel.h:33-37: the shared variables.  `mutex` tells whether the mutex is locked; `calls` counts the calls of `fn_` so far,
`out` is the list of values returned by `process()`, in the order of the returns (ghost variables). -/
structure SeqShared (T : Type) where
  mutex : Bool
  finished : Bool
  counter : Nat
  calls : Nat
  out : List (Option (Nat × T))

/-- where a thread is in `process()` -/
inductive SeqPc (T : Type) where
  /-- not in `process()` -/
  | idle
  /-- after line 20 -/
  | locked
  /-- inside `fn_()`, line 25, which is its `n`-th call -/
  | calling (n : Nat)
  /-- after line 25 -/
  | called (t : Option T)
  /-- before the destruction of the lock guard, with the value to return -/
  | returning (r : Option (Nat × T))

/-- util_parallel.h:19-31 `process()`.  `fn n` is what the `n`-th call of `fn_` returns (`none` for a value that converts to false). -/
def seqStep (fn : Nat → Option T) (s : SeqShared T) : SeqPc T → Option (SeqShared T × SeqPc T)
  | .idle => if s.mutex then none else some ({ s with mutex := true }, .locked)
  | .locked =>
    if s.finished then some (s, .returning none) else some ({ s with calls := s.calls + 1 }, .calling s.calls)
  | .calling n => some (s, .called (fn n))
  | .called none => some ({ s with finished := true }, .returning none)
  | .called (some t) => some ({ s with counter := s.counter + 1 }, .returning (some (s.counter, t)))
  | .returning r => some ({ s with mutex := false, out := s.out ++ [r] }, .idle)

/-- any number of threads outside of `process()` -/
def seqInit (threads : Nat) : SeqShared T × List (SeqPc T) := (⟨false, false, 0, 0, []⟩, List.replicate threads .idle)

/-! ### `in_order_queue` (util_parallel.h:40-105) -/

/-- calls of the user function: begin and end (ghost) -/
inductive IoEv (T : Type) where
  | enter (x : Nat × T)
  | leave (x : Nat × T)

/-- util_parallel.h:100-104, the shared variables; `log` records the calls of `fn` (ghost).  The end of `queue` is the back of the vector. -/
structure IoShared (T : Type) where
  dirty : Bool
  active : Bool
  next : Nat
  queue : List (Nat × T)
  log : List (IoEv T)

/-- where a thread is in `process_in_order` -/
inductive IoPc (T : Type) where
  /-- before line 44 -/
  | start (i : Nat) (t : T)
  /-- before line 53 -/
  | run (i : Nat) (t : T)
  /-- in `fn`, line 53 -/
  | inFn (i : Nat) (t : T)
  /-- before line 54 -/
  | after (i : Nat)
  /-- before line 61 -/
  | loop
  /-- at line 88, `todo` is what is left of `ready` -/
  | batch (todo ready : List (Nat × T))
  /-- in `fn`, line 89 -/
  | inBatch (x : Nat × T) (todo ready : List (Nat × T))
  /-- returned -/
  | done

/-- util_parallel.h:70-79: take consecutive items from the back of the queue; here the list starts with the back -/
def takeReady : Nat → List (Nat × T) → List (Nat × T) × List (Nat × T)
  | _, [] => ([], [])
  | n, x :: q =>
    if x.1 ≠ n then ([], x :: q)
    else
      let r := takeReady (n + 1) q
      (x :: r.1, r.2)

/-- util_parallel.h:63-68 -/
def ioSorted (s : IoShared T) : List (Nat × T) :=
  if s.dirty then sortBy (fun a b => decide (b.1 ≤ a.1)) s.queue else s.queue

/-- util_parallel.h:43-98 `process_in_order` -/
def ioStep (s : IoShared T) : IoPc T → Option (IoShared T × IoPc T)
  | .start i t =>
    if s.next ≠ i ∨ s.active = true then
      some ({ s with dirty := true, queue := s.queue ++ [(i, t)] }, .done)
    else some ({ s with active := true }, .run i t)
  | .run i t => some ({ s with log := s.log ++ [.enter (i, t)] }, .inFn i t)
  | .inFn i t => some ({ s with log := s.log ++ [.leave (i, t)] }, .after i)
  | .after i => some ({ s with next := i + 1 }, .loop)
  | .loop =>
    let r := takeReady s.next (ioSorted s).reverse
    if r.1.isEmpty then some ({ s with dirty := false, queue := r.2.reverse, active := false }, .done)
    else some ({ s with dirty := false, queue := r.2.reverse }, .batch r.1 r.1)
  | .batch (x :: todo) ready => some ({ s with log := s.log ++ [.enter x] }, .inBatch x todo ready)
  | .inBatch x todo ready => some ({ s with log := s.log ++ [.leave x] }, .batch todo ready)
  | .batch [] ready =>
    match ready.getLast? with
    | none => none  -- `ready` is not empty here
    | some x => some ({ s with next := x.1 + 1 }, .loop)
  | .done => none

/-- one call of `process_in_order` per item, from as many threads -/
def ioInit (calls : List (Nat × T)) : IoShared T × List (IoPc T) :=
  (⟨false, false, 0, [], []⟩, calls.map (fun c => .start c.1 c.2))

/-! ### `queue_wrapper`, workers and the loops that collect results -/

/-- a task: what it hands out while it runs, further tasks or results, in this order
(load_coastlines.cc:187-243: up to four children each become a task, a result or neither; repack_features.h:301-303: one result) -/
inductive WTask (R : Type) where
  | mk (emits : List (WTask R ⊕ R))

/-- one `queue_wrapper` (util_parallel.h:107-140): the counter and the contents of the concurrent queue -/
structure WQueue (A : Type) where
  pending : Nat
  items : List A

/-- shared state: the queue of tasks, the queue of results, and the results the collecting thread has handled -/
structure DrainShared (R : Type) where
  work : WQueue (WTask R)
  result : WQueue R
  handled : List R

/-- worker (load_coastlines.cc:293-306; util_parallel.h:147-163) and collector program counters -/
inductive DrainPc (R : Type) where
  /-- worker: before `dequeue` -/
  | wIdle
  /-- worker: running a task with this much left to hand out -/
  | wRun (emits : List (WTask R ⊕ R))
  /-- worker: in `enqueue` of a task, after `++pending_` -/
  | wPutWork (t : WTask R) (emits : List (WTask R ⊕ R))
  /-- worker: in `enqueue` of a result, after `++pending_` -/
  | wPutResult (r : R) (emits : List (WTask R ⊕ R))
  /-- worker: left its loop -/
  | wExit
  /-- collector: about to read the first counter of the loop condition -/
  | cFirst
  /-- collector: the first queue was finished; about to read the second counter -/
  | cSecond
  /-- collector: before `dequeue` -/
  | cDequeue
  /-- collector: handling a result -/
  | cGot (r : R)
  /-- collector: left the loop -/
  | cExit

/-- `dequeue` (util_parallel.h:121-123) of the element at position `k` (`none`: time-out).  The concurrent queue has no global
order between producers, hence any element may come. -/
def WQueue.take {A : Type} (q : WQueue A) (k : Option Nat) : Option (A × WQueue A) :=
  match k with
  | none => none
  | some k => match q.items[k]? with
    | none => none
    | some a => some (a, { q with items := q.items.eraseIdx k })

/-- one move of one thread.  `workFirst` selects the order in which the collecting loop evaluates its condition:
load_coastlines.cc:311 `while (!geo_queue.finished() || !db_queue.finished())` reads the task queue's counter first;
repack_features.h:335 `while (!(result_queue.finished() && work_queue.finished()))` reads the result queue's counter first.
`k` resolves the non-determinism of `dequeue`; `quit` whether a worker checks `finished()` (load_coastlines.cc:293) or tries again. -/
def drainStep {R : Type} (workFirst : Bool) (k : Option Nat) (quit : Bool) (s : DrainShared R) :
    DrainPc R → Option (DrainShared R × DrainPc R)
  | .wIdle =>
    if quit then (if s.work.pending = 0 then some (s, .wExit) else none)
    else match s.work.take k with
      | none => some (s, .wIdle)
      | some (.mk emits, q) => some ({ s with work := q }, .wRun emits)
  | .wRun (.inl t :: es) => some ({ s with work := { s.work with pending := s.work.pending + 1 } }, .wPutWork t es)
  | .wRun (.inr r :: es) => some ({ s with result := { s.result with pending := s.result.pending + 1 } }, .wPutResult r es)
  | .wRun [] => some ({ s with work := { s.work with pending := s.work.pending - 1 } }, .wIdle)
  | .wPutWork t es => some ({ s with work := { s.work with items := s.work.items ++ [t] } }, .wRun es)
  | .wPutResult r es => some ({ s with result := { s.result with items := s.result.items ++ [r] } }, .wRun es)
  | .wExit => none
  | .cFirst =>
    if (if workFirst then s.work.pending else s.result.pending) = 0 then some (s, .cSecond) else some (s, .cDequeue)
  | .cSecond =>
    if (if workFirst then s.result.pending else s.work.pending) = 0 then some (s, .cExit) else some (s, .cDequeue)
  | .cDequeue =>
    match s.result.take k with
    | none => some (s, .cFirst)
    | some (r, q) => some ({ s with result := q }, .cGot r)
  | .cGot r =>
    some ({ s with handled := s.handled ++ [r], result := { s.result with pending := s.result.pending - 1 } }, .cFirst)
  | .cExit => none

/-- any thread, any resolution of the non-determinism -/
def DrainStep {R : Type} (workFirst : Bool) (s t : DrainShared R × List (DrainPc R)) : Prop :=
  ∃ k quit, ThreadStep (drainStep workFirst k quit) s t

/-- tasks in the queue (load_coastlines.cc:276-281, repack_features.h:346), idle workers, one collector at the top of its loop -/
def drainInit {R : Type} (tasks : List (WTask R)) (workers : Nat) : DrainShared R × List (DrainPc R) :=
  (⟨⟨tasks.length, tasks⟩, ⟨0, []⟩, []⟩, .cFirst :: List.replicate workers .wIdle)

end Tiles
