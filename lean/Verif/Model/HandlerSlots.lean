import Verif.Model.Parallel
/-
Model of /repo/src/osm/load_osm.cc:85-108: the pool of feature handlers and `get_handler`, called by the threads of the pipeline
(load_osm.cc:111-136) at any time and any number of times.
Simplifications: reads and writes of `handlers[i].first` are sequentially consistent single steps, although they are not atomic in C++
(see `C53_race`); a handler is its index; what a thread does with its handler is between `holds` and the next `idle`; thread ids are
naturals, and `std::thread::id{}` (no thread) is `none`.
-/
namespace Tiles

/-- load_osm.cc:85-86 -/
def handlerCount (hardware : Nat) : Nat := max 2 hardware

/-- load_osm.cc:88-95: the shared variables; `log` lists the calls of `get_handler` that returned: the thread and the handler (ghost) -/
structure SlotShared where
  slots : List (Option Nat)
  next : Nat
  log : List (Nat × Nat)
deriving DecidableEq

/-- where a thread is -/
inductive SlotPc where
  /-- not in `get_handler` and not using a handler -/
  | idle
  /-- in `std::find_if`, about to look at entry `i` -/
  | scan (i : Nat)
  /-- before line 104 -/
  | fetch
  /-- before line 105, with the value of `slot` -/
  | write (slot : Nat)
  /-- `get_handler` has returned handler `k`, which the thread uses -/
  | holds (k : Nat)
  /-- `utl::verify` of line 105 has thrown -/
  | failed
deriving DecidableEq

/-- a thread: its id and where it is -/
structure SlotThread where
  id : Nat
  pc : SlotPc
deriving DecidableEq

/-- load_osm.cc:96-108 -/
def slotStep (s : SlotShared) (t : SlotThread) : Option (SlotShared × SlotThread) :=
  match t.pc with
  | .idle => some (s, { t with pc := .scan 0 })
  | .scan i =>
    match s.slots[i]? with
    | none => some (s, { t with pc := .fetch })
    | some o =>
      if o = some t.id then some ({ s with log := s.log ++ [(t.id, i)] }, { t with pc := .holds i })
      else some (s, { t with pc := .scan (i + 1) })
  | .fetch => some ({ s with next := s.next + 1 }, { t with pc := .write s.next })
  | .write k =>
    if k < s.slots.length then
      some ({ s with slots := s.slots.set k (some t.id), log := s.log ++ [(t.id, k)] }, { t with pc := .holds k })
    else some (s, { t with pc := .failed })
  | .holds _ => some (s, { t with pc := .idle })
  | .failed => none

/-- `size` handlers that belong to no thread (load_osm.cc:91-95), and the threads -/
def slotInit (size : Nat) (ids : List Nat) : SlotShared × List SlotThread :=
  (⟨List.replicate size none, 0, []⟩, ids.map (⟨·, .idle⟩))

end Tiles
