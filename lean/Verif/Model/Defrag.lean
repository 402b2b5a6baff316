import Verif.Model.PackFile
import Verif.Model.Sort
import Verif.Model.Tile
/-
Model of /repo/include/tiles/db/repack_features.h:18-260, `repack_memory_manager`: the order of the tasks and the defragmentation of the
pack file.

Simplifications: a pair (`task_idx`, `record_idx`) is the position of the record in the concatenation of the record lists of all tasks,
which has the same order; so an `owned_pack` is a number.  `size_t` subtractions that would wrap around are `.ub` here (they are shown not
to happen).  `std::sort` is stable here; the keys are different for records that do not overlap and are not empty.
-/
namespace Tiles

/-- repack_features.h:18-21 -/
structure TileRecord where
  tile : Tile
  records : List PackRecord
  deriving DecidableEq, Repr

/-- the offset of the last record, `records_.back().offset_` -/
def TileRecord.backOffset (t : TileRecord) : Nat := match t.records.getLast? with | some r => r.offset | none => 0

/-- repack_features.h:37-48: the constructor -/
def repackTasks (tasks : List TileRecord) : List TileRecord :=
  sortBy (fun a b => decide (b.backOffset ≤ a.backOffset))
    ((tasks.filter (fun t => !t.records.isEmpty)).map
      (fun t => { t with records := sortBy (fun a b => decide (b.offset ≤ a.offset)) t.records }))

/-- subtraction of `size_t` values -/
def subU (a b : Nat) : Res Nat := if b ≤ a then .ok (a - b) else .ub

/-- repack_features.h:81, 115-118: `q_frag`, `q_frag_idx`, `q_defrag` and the captured `last_task_idx`, `last_record_idx` -/
structure FragQ where
  frag : List Nat
  idx : Nat
  defrag : List Nat
  last : Option Nat
  deriving DecidableEq, Repr

/-- repack_features.h:119-151: the loop of `refresh_defrag_queue` -/
def refreshLoop (cur : Nat) : Nat → FragQ → Res FragQ
  | 0, _ => .ub
  | fuel + 1, q =>
    if q.frag = [] ∧ q.defrag = [] then .ok q
    else if q.frag.length ≤ q.idx then do
      verify (decide (q.last ≠ some cur))
      refreshLoop cur fuel ⟨q.defrag, 0, [], some cur⟩
    else match q.frag[q.idx]?, q.frag.getLast? with
      | some e, some b =>
        if e < cur then refreshLoop cur fuel { q with idx := q.idx + 1 }
        else if b < cur then refreshLoop cur fuel { q with frag := q.frag.dropLast }
        else match q.defrag.getLast? with
          | some d => if d < cur then refreshLoop cur fuel { q with defrag := q.defrag.dropLast } else .ok q
          | none => .ok q
      | _, _ => .ub

/-- repack_features.h:116-152 `refresh_defrag_queue`; the loop runs at most so often (`refresh_total`) -/
def refreshQ (cur : Nat) (q : FragQ) : Res FragQ := refreshLoop cur (3 * q.defrag.length + 2 * q.frag.length + 1) q

/-- the variables of `defragment_pack_file`: the pack file, the records (updated in place), the queues, `end_offset`, and the record the
two loops of lines 202-204 are at -/
structure Defrag where
  pf : PackFile
  recs : List PackRecord
  q : FragQ
  endOff : Nat
  cur : Nat
  deriving DecidableEq, Repr

namespace Defrag

/-- `refresh_defrag_queue()` -/
def refresh (s : Defrag) : Res Defrag := do
  let q ← refreshQ s.cur s.q
  return { s with q := q }

/-- `*e.record_` -/
def recOf (s : Defrag) (e : Nat) : Res PackRecord := match s.recs[e]? with | some r => .ok r | none => .ub

/-- `q_frag.back()` -/
def fragBack (s : Defrag) : Res Nat := match s.q.frag.getLast? with | some e => .ok e | none => .ub

/-- repack_features.h:154-158 -/
def peekLast (s : Defrag) : Res (Nat × Defrag) := do
  let s ← s.refresh
  verify (!s.q.frag.isEmpty)
  let e ← s.fragBack
  return (e, s)

/-- repack_features.h:159-163 -/
def peekNext (s : Defrag) : Res (Nat × Defrag) := do
  let s ← s.refresh
  verify (!s.q.frag.isEmpty)
  let e ← at_ s.q.frag s.q.idx
  return (e, s)

/-- repack_features.h:164-170 -/
def getLast (s : Defrag) : Res (Nat × Defrag) := do
  let s ← s.refresh
  verify (!s.q.frag.isEmpty)
  let e ← s.fragBack
  return (e, { s with q := { s.q with frag := s.q.frag.dropLast } })

/-- repack_features.h:171-175 -/
def getNext (s : Defrag) : Res (Nat × Defrag) := do
  let s ← s.refresh
  verify (!s.q.frag.isEmpty)
  let e ← at_ s.q.frag s.q.idx
  return (e, { s with q := { s.q with idx := s.q.idx + 1 } })

/-- repack_features.h:176-179 -/
def insertOffset (s : Defrag) : Res (Nat × Defrag) := do
  let s ← s.refresh
  match s.q.defrag.getLast? with
  | none => return (0, s)
  | some d =>
    let r ← s.recOf d
    return (r.endOffset, s)

/-- repack_features.h:180-195 -/
def beginSpace (s : Defrag) : Res (Nat × Defrag) := do
  let s ← s.refresh
  if s.q.frag = [] ∧ s.q.defrag = [] then return (s.endOff, s)
  else if s.q.defrag = [] then
    let (e, s) ← s.peekNext
    let r ← s.recOf e
    return (r.offset, s)
  else if s.q.frag = [] then
    match s.q.defrag.getLast? with
    | none => .ub
    | some d =>
      let r ← s.recOf d
      let n ← subU s.endOff r.endOffset
      return (n, s)
  else
    let (e, s) ← s.peekNext
    let r ← s.recOf e
    match s.q.defrag.getLast? with
    | none => .ub
    | some d =>
      let rd ← s.recOf d
      verify (decide (rd.endOffset ≤ r.offset))
      return (r.offset - rd.endOffset, s)

/-- repack_features.h:196-200 -/
def endSpace (s : Defrag) : Res (Nat × Defrag) := do
  let s ← s.refresh
  if s.q.frag = [] then return (s.endOff, s)
  else
    let e ← s.fragBack
    let r ← s.recOf e
    let n ← subU s.endOff r.endOffset
    return (n, s)

/-- repack_features.h:212-214, 240-242: the record is moved to the end of what is still to be filled -/
def place (s : Defrag) : Res Defrag := do
  let r ← s.recOf s.cur
  let off ← subU s.endOff r.size
  let (pf, r') ← s.pf.move off r
  verify (decide (r'.offset ≠ 0))
  return { s with pf := pf, recs := s.recs.set s.cur r', endOff := off, cur := s.cur + 1 }

/-- repack_features.h:224-227, 233-236: record `e` is moved to the front and added to `q_defrag` -/
def moveDown (s : Defrag) (off e : Nat) : Res Defrag := do
  let r ← s.recOf e
  verify (decide (off ≤ r.offset))
  let (pf, r') ← s.pf.move off r
  return { s with pf := pf, recs := s.recs.set e r', q := { s.q with defrag := s.q.defrag ++ [e] } }

end Defrag

/-- where the code is: line 203, line 219, line 221 -/
inductive DefragPc where
  | record
  | outer
  | inner
  deriving DecidableEq, Repr

/-- repack_features.h:202-244: from one of the loop heads to the next; `none`: the loops are finished -/
def defragStep (s : Defrag) : DefragPc → Res (Option (Defrag × DefragPc))
  | .record =>
    if s.cur < s.recs.length then do
      verify (!s.q.frag.isEmpty)
      let (back, s) ← s.peekLast
      if back = s.cur then
        let s ← s.place
        return some (s, .record)
      else return some (s, .outer)
    else .ok none
  | .outer => do
    let (space, s) ← s.endSpace
    let r ← s.recOf s.cur
    if space < r.size then return some (s, .inner)
    else
      let s ← s.place
      return some (s, .record)
  | .inner => do
    let (space, s) ← s.beginSpace
    let (last, s) ← s.peekLast
    let r ← s.recOf last
    if space < r.size then
      let (off, s) ← s.insertOffset
      let (next, s) ← s.getNext
      let s ← s.moveDown off next
      return some (s, .inner)
    else
      let (off, s) ← s.insertOffset
      let (blocker, s) ← s.getLast
      let s ← s.moveDown off blocker
      return some (s, .outer)

/-- `none`: not finished after so many steps -/
def defragRun : Nat → Defrag → DefragPc → Option (Res Defrag)
  | 0, _, _ => none
  | fuel + 1, s, pc => match defragStep s pc with
    | .ok none => some (.ok s)
    | .ok (some (s', pc')) => defragRun fuel s' pc'
    | .throw_ => some .throw_
    | .ub => some .ub

/-- pack_file.h:22-24 `operator<` -/
def PackRecord.le (a b : PackRecord) : Bool := decide (a.offset < b.offset) || (a.offset == b.offset && decide (a.size ≤ b.size))

/-- repack_features.h:80-108 -/
def defragInit (pf : PackFile) (tasks : List TileRecord) : Res Defrag := do
  let recs := tasks.flatMap (·.records)
  let used := (recs.map (·.size)).sum
  let largest := (recs.map (·.size)).foldl max 0
  verify (decide (used ≤ pf.size))
  verify (decide (largest < pf.size - used))
  return ⟨pf, recs, ⟨sortBy (fun a b => PackRecord.le (recs.getD a default) (recs.getD b default)) (List.range recs.length), 0, [], none⟩, pf.size, 0⟩

/-- the tasks with the updated records -/
def withRecords : List TileRecord → List PackRecord → List TileRecord
  | [], _ => []
  | t :: ts, rs => { t with records := rs.take t.records.length } :: withRecords ts (rs.drop t.records.length)

/-- repack_features.h:74-248 `defragment_pack_file`; `none`: not finished after `fuel` steps -/
def defragmentPackFile (fuel : Nat) (pf : PackFile) (tasks : List TileRecord) : Option (Res (PackFile × List TileRecord)) :=
  match defragInit pf tasks with
  | .ok s => match defragRun fuel s .record with
    | some (.ok s) => some (.ok (s.pf, withRecords tasks s.recs))
    | some .throw_ => some .throw_
    | some .ub => some .ub
    | none => none
  | .throw_ => some .throw_
  | .ub => some .ub

end Tiles
