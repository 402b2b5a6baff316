import Verif.Model.Fixed
import Verif.Model.GeometryIO
/-
Model of /repo/src/osm/hybrid_node_idx.cc and /repo/include/tiles/osm/hybrid_node_idx.h: the node index (builder, single
lookup, batch lookup, and writing the found locations into ways).

Simplifications
* `osm_id_t` (int64_t) and `fixed_coord_t` (int64_t) are unbounded integers; `std::abs` of the smallest id and the overflow of
  `last_id_ + 1` are kept as `ub`.
* osmium's `mmap_vector_file` is a list; statistics counters (cc:409-410, 427-432, 498-504) are left out of the builder's state.
* `std::lower_bound` is what it is on a range sorted by id (that the index is sorted is part of C19).
* a loop counter `int i` (cc:243) is unbounded.
-/
namespace Tiles

/-- cc:54-67 `id_offset` -/
structure IdOffset where
  id : Int
  offset : Nat
  deriving Repr, DecidableEq

/-- cc:69-74 `hybrid_node_idx::impl` -/
structure NodeIdx where
  idx : List IdOffset
  dat : Bytes
  deriving Repr, DecidableEq

/-- `std::abs(osm_id_t)`: undefined for the smallest value (cc:95, 174, 177, 185, 353) -/
def absId (id : Int) : Res Int := if id ≤ -2 ^ 63 then .ub else .ok (id.natAbs : Int)

/-- cc:453-458 `push_fixed(uint32_t)`, with the conversion of the argument to uint32_t -/
def fixed32 (v : Int) : Bytes := leBytes 4 (v % 2 ^ 32).toNat

/-- cc:76-85 `read_fixed` (reading behind the mapped file is undefined) -/
def readFixed : Bytes → Res (Int × Bytes)
  | a :: b :: c :: d :: rest => .ok ((leNat [a, b, c, d] : Nat), rest)
  | _ => .ub

/-- cc:460-467 `get_varint_size` -/
def varintSize (v : Nat) : Nat :=
  if v < 128 then 1 else varintSize (v / 128) + 1
  termination_by v
  decreasing_by omega

/-! ### builder (cc:337-505) -/

/-- the builder's state (cc:486-496); `idx`/`dat` are the vectors of the index being built -/
structure NodeBuilder where
  idx : List IdOffset
  dat : Bytes
  lastId : Int
  lastPos : XY
  span : List XY
  written : Nat
  deriving Repr, DecidableEq

/-- cc:490-496 -/
def NodeBuilder.init : NodeBuilder := ⟨[], [], -2 ^ 63, ⟨0, 0⟩, [], 0⟩

/-- cc:395-411: how many of the points after `cur` go into the span of `cur`: up to the first whose deltas need more than
nine bytes -/
def spanRun (cur : XY) : List XY → Nat
  | [] => 0
  | p :: ps =>
    if varintSize (zigzag (p.x - cur.x)) + varintSize (zigzag (p.y - cur.y)) > 2 * 4 + 1 then 0
    else spanRun p ps + 1

/-- cc:423-424: the deltas of the points after the first one of a span -/
def encDeltas (cur : XY) : List XY → Bytes
  | [] => []
  | p :: ps => encS64 (p.x - cur.x) ++ encS64 (p.y - cur.y) ++ encDeltas p ps

/-- cc:392-433: the bytes of the coordinate spans for the points collected -/
def encCoords : List XY → Bytes
  | [] => []
  | p :: ps =>
    encVarint (2 * spanRun p ps) ++ fixed32 p.x ++ fixed32 p.y ++ encDeltas p (ps.take (spanRun p ps)) ++
      encCoords (ps.drop (spanRun p ps))
  termination_by l => l.length
  decreasing_by simp; omega

/-- cc:381-437 `push_coord_span` -/
def NodeBuilder.pushCoordSpan (b : NodeBuilder) : NodeBuilder :=
  if b.span.isEmpty then b
  else
    let fresh := b.idx.isEmpty || decide (b.written > 1024)
    { b with
      idx := if fresh then b.idx ++ [⟨b.lastId - b.span.length + 1, b.dat.length⟩] else b.idx
      dat := b.dat ++ encCoords b.span
      written := (if fresh then 0 else b.written) + b.span.length
      span := [] }

/-- cc:439-441 `push_empty_span` -/
def NodeBuilder.pushEmptySpan (b : NodeBuilder) (next : Int) : NodeBuilder :=
  { b with dat := b.dat ++ encVarint (2 * (next - b.lastId - 1).toNat + 1) }

/-- cc:344-374 `push` -/
def NodeBuilder.push (b : NodeBuilder) (id : Int) (pos : XY) : Res NodeBuilder := do
  verify (decide (0 ≤ pos.x ∧ 0 ≤ pos.y ∧ pos.x ≤ 2 ^ 32 - 1 ∧ pos.y ≤ 2 ^ 32 - 1))
  let a ← absId id
  if a = b.lastId then
    verify (decide (pos = b.lastPos))
    return b
  else
    verify (decide (a > b.lastId))
    let b := if b.lastId + 1 ≠ a ∧ ¬ b.span.isEmpty then b.pushCoordSpan.pushEmptySpan a else b
    return { b with lastId := a, lastPos := pos, span := b.span ++ [pos] }

/-- cc:376-379 `finish` (`last_id_ + 1` overflows for the largest id) -/
def NodeBuilder.finish (b : NodeBuilder) : Res NodeIdx :=
  if b.lastId = 2 ^ 63 - 1 then .ub
  else
    let b := b.pushCoordSpan.pushEmptySpan (b.lastId + 1)
    .ok ⟨b.idx, b.dat⟩

/-- pushing nodes one after the other (h:57-62, load_osm.cc:65-68) -/
def NodeBuilder.pushAll (b : NodeBuilder) : List (Int × XY) → Res NodeBuilder
  | [] => .ok b
  | (id, pos) :: ns => do
    let b ← b.push id pos
    b.pushAll ns

/-- a whole first pass (load_osm.cc:60-78): push every node, then `finish` -/
def buildNodeIdx (nodes : List (Int × XY)) : Res NodeIdx := do
  let b ← NodeBuilder.init.pushAll nodes
  b.finish

/-- closing the builder and opening the two files again (h:22, cc:323-324): osmium's `mmap_vector_file` drops the zero bytes at
the end of the data file (the index file cannot end in an empty entry) -/
def NodeIdx.reopen (n : NodeIdx) : NodeIdx := ⟨n.idx, (n.dat.reverse.dropWhile (· == 0)).reverse⟩

/-! ### single lookup (cc:87-145) -/

/-- cc:96-98, 190-192 `std::lower_bound` by id: the position of the first entry whose id is not smaller -/
def lowerBoundId (idx : List IdOffset) (a : Int) : Nat := (idx.takeWhile (fun o => decide (o.id < a))).length

/-- cc:104-106, 196-198: the entry of the id itself or else the one before (`--it` on the first is undefined) -/
def entryFor (idx : List IdOffset) (a : Int) : Res IdOffset :=
  let it := lowerBoundId idx a
  match idx[it]? with
  | some e =>
    if e.id ≠ a then (if it = 0 then .ub else match idx[it - 1]? with | some e => .ok e | none => .ub)
    else .ok e
  | none => if it = 0 then .ub else match idx[it - 1]? with | some e => .ok e | none => .ub

/-- one delta pair read (cc:133-136, 258-261) -/
def readDelta (cur : XY) (rest : Bytes) : Res (XY × Bytes) := do
  let (dx, rest) ← decVarint rest
  let (dy, rest) ← decVarint rest
  return (⟨cur.x + unzigzag dx, cur.y + unzigzag dy⟩, rest)

/-- cc:132-142: the `n` further nodes of a span, the last one read is `cur` with id `curr - 1`; `inl` is the early return -/
def scanSpan (a : Int) : Nat → XY → Int → Bytes → Res (XY ⊕ (Int × Bytes))
  | 0, _, curr, rest => .ok (.inr (curr, rest))
  | n + 1, cur, curr, rest => do
    let (p, rest) ← readDelta cur rest
    if curr = a then return .inl p
    else scanSpan a n p (curr + 1) rest

/-- cc:111-144: the loop over the spans; `fuel` bounds the number of spans (every round reads at least one byte; C19 shows that
the bytes left are fuel enough) -/
def scanSpans (a : Int) : Nat → Int → Bytes → Res (Option XY)
  | 0, _, _ => .ub
  | fuel + 1, curr, rest =>
    if curr ≤ a ∧ rest ≠ [] then do
      let (header, rest) ← decVarint rest
      if header % 2 = 1 then
        if header / 2 = 0 then return none
        else scanSpans a fuel (curr + (header / 2 : Nat)) rest
      else
        let (x, rest) ← readFixed rest
        let (y, rest) ← readFixed rest
        if curr = a then return some ⟨x, y⟩
        else
          match ← scanSpan a (header / 2) ⟨x, y⟩ (curr + 1) rest with
          | .inl p => return some p
          | .inr (curr, rest) => scanSpans a fuel curr rest
    else return none

/-- cc:87-145 `get_coords(nodes, id)` -/
def getCoords (n : NodeIdx) (id : Int) : Res (Option XY) :=
  match n.idx with
  | [] => .ok none
  | e0 :: _ => do
    let a ← absId id
    if lowerBoundId n.idx a = 0 ∧ e0.id ≠ a then return none
    else
      let e ← entryFor n.idx a
      scanSpans a (n.dat.length + 1) e.id (n.dat.drop e.offset)

/-! ### batch lookup (cc:147-295) -/

/-- protozero `skip_varint`: moves behind the varint, throws at the end of the buffer and behind ten bytes -/
def skipVarint (rest : Bytes) : Res Bytes := do
  let (_, rest) ← decVarint rest
  return rest

/-- cc:243-246, 284-288: skip `n` delta pairs -/
def skipDeltas : Nat → Bytes → Res Bytes
  | 0, rest => .ok rest
  | n + 1, rest => do
    let rest ← skipVarint rest
    let rest ← skipVarint rest
    skipDeltas n rest

/-- `Location::set_x(int32_t)` of an int64_t: the value modulo 2^32 -/
def wrap32 (v : Int) : Int := (v + 2 ^ 31) % 2 ^ 32 - 2 ^ 31

/-- cc:165-169 -/
inductive FsmState where
  | fromIndex | atSpanStart | inSpan
  deriving Repr, DecidableEq

/-- a query: an id and the location (named by a number) the result goes to -/
abbrev NodeQuery := Int × Nat

/-- the local variables of the batch lookup (cc:157-185) and the locations behind the pointers -/
structure BatchState where
  st : FsmState
  curr : Int
  rest : Bytes
  size : Int
  pos : Int
  cur : XY
  qs : List NodeQuery
  locs : Nat → XY

/-- writing one location through its pointer -/
def setLoc (l : Nat → XY) (i : Nat) (p : XY) : Nat → XY := fun j => if j = i then p else l j

/-- cc:267-271: the locations of the queries answered are set (`set_x`, `set_y` convert to int32_t) -/
def setLocs (p : XY) : List NodeQuery → (Nat → XY) → (Nat → XY)
  | [], l => l
  | q :: qs, l => setLocs p qs (setLoc l q.2 ⟨wrap32 p.x, wrap32 p.y⟩)

/-- cc:254-264: read deltas until the id is reached, `n = a - curr` of them (with `curr > a` the code would walk into one of the
two checks and throw; here the check behind the loop throws) -/
def walkSpan (a size : Int) : Nat → XY → Int → Int → Bytes → Res (XY × Int × Int × Bytes)
  | 0, cur, curr, pos, rest => .ok (cur, curr, pos, rest)
  | n + 1, cur, curr, pos, rest => do
    verify (!rest.isEmpty)
    verify (decide (pos < size))
    let (p, rest) ← readDelta cur rest
    walkSpan a size n p (curr + 1) (pos + 1) rest

/-- one round of the `while` loop (cc:184-294); `none` is the return at the end of the data (cc:212) or leaving the loop (cc:184) -/
def batchStep (n : NodeIdx) (s : BatchState) : Res (Option BatchState) :=
  match s.qs with
  | [] => .ok none
  | q :: _ =>
    let a : Int := q.1.natAbs
    match s.st with
    | .fromIndex => do
      match n.idx with
      | [] => .ub
      | e0 :: _ =>
        verify (¬ (lowerBoundId n.idx a = 0 ∧ e0.id ≠ a))
        let e ← entryFor n.idx a
        return some { s with curr := e.id, rest := n.dat.drop e.offset, st := .atSpanStart }
    | .atSpanStart => do
      let (header, rest) ← decVarint s.rest
      if header % 2 = 1 then
        if header / 2 = 0 then return none
        else return some { s with curr := s.curr + (header / 2 : Nat), rest := rest, size := (header / 2 : Nat), st := .atSpanStart }
      else
        let size : Int := (header / 2 : Nat) + 1
        if a < s.curr then
          let (x, rest) ← readFixed rest
          let (y, rest) ← readFixed rest
          return some { s with
            rest := rest, size := size, pos := 0, cur := ⟨x, y⟩, st := .inSpan
            qs := s.qs.dropWhile (fun q => decide ((q.1.natAbs : Int) < s.curr)) }
        else if a < s.curr + size then
          let (x, rest) ← readFixed rest
          let (y, rest) ← readFixed rest
          return some { s with rest := rest, size := size, pos := 0, cur := ⟨x, y⟩, st := .inSpan }
        else
          let rest ← skipDeltas (size - 1).toNat (rest.drop 8)
          return some { s with rest := rest, size := size, pos := 0, curr := s.curr + size, st := .atSpanStart }
    | .inSpan =>
      if a < s.curr + (s.size - s.pos) then do
        let (cur, curr, pos, rest) ← walkSpan a s.size (a - s.curr).toNat s.cur s.curr s.pos s.rest
        verify (decide (a = curr))
        return some { s with
          cur := cur, curr := curr, pos := pos, rest := rest, st := .inSpan
          locs := setLocs cur (s.qs.takeWhile (fun q => decide ((q.1.natAbs : Int) = a))) s.locs
          qs := s.qs.dropWhile (fun q => decide ((q.1.natAbs : Int) = a)) }
      else if a > s.curr + 1024 then .ok (some { s with st := .fromIndex })
      else do
        let k := (s.size - (s.pos + 1)).toNat
        let rest ← skipDeltas k s.rest
        return some { s with rest := rest, pos := s.size, curr := s.curr + k + 1, st := .atSpanStart }

/-- the loop, for at most `fuel` rounds (`none`: not finished by then) -/
def batchRun (n : NodeIdx) : Nat → BatchState → Res (Option (Nat → XY))
  | 0, _ => .ok none
  | fuel + 1, s => do
    match ← batchStep n s with
    | none => return some s.locs
    | some s => batchRun n fuel s

/-- cc:173-180: the state in which the loop starts: the queries sorted by `srt` (`std::sort`, by absolute id), those before the
first index entry skipped -/
def batchInit (n : NodeIdx) (srt : List NodeQuery → List NodeQuery) (qs : List NodeQuery) (locs : Nat → XY) : BatchState :=
  ⟨.fromIndex, -2 ^ 63, [], 0, 0, ⟨0, 0⟩,
   (srt qs).dropWhile (fun q => decide ((q.1.natAbs : Int) < match n.idx with | e :: _ => e.id | [] => 0)), locs⟩

/-- cc:147-295 `get_coords(nodes, queries)`, for at most `fuel` rounds of the loop -/
def getCoordsBatch (n : NodeIdx) (srt : List NodeQuery → List NodeQuery) (fuel : Nat) (qs : List NodeQuery) (locs : Nat → XY) :
    Res (Option (Nat → XY)) :=
  match n.idx with
  | [] => .ok (some locs)
  | _ :: _ =>
    if qs.any (fun q => decide (q.1 ≤ -2 ^ 63)) then .ub
    else batchRun n fuel (batchInit n srt qs locs)

/-! ### locations of ways (cc:297-318) -/

/-- h:18-19: osmium's `coordinate_precision` is 10000000 (an int) -/
def xOffset : Int := 1800000000
def yOffset : Int := 900000000

/-- h:57-62 `node`: what is pushed for a node with this osmium location -/
def nodePos (loc : XY) : XY := ⟨loc.x + xOffset, loc.y + yOffset⟩

/-- osmium `Location::valid` -/
def locValid (l : XY) : Bool :=
  decide (-1800000000 ≤ l.x ∧ l.x ≤ 1800000000 ∧ -900000000 ≤ l.y ∧ l.y ≤ 900000000)

/-- an int32_t difference (cc:314-315); `strict`: overflow is undefined, as in the C++ standard; otherwise it wraps, as compilers
implement it -/
def subI32 (strict : Bool) (a b : Int) : Res Int :=
  if strict ∧ ¬ (-2 ^ 31 ≤ a - b ∧ a - b < 2 ^ 31) then .ub else .ok (wrap32 (a - b))

/-- cc:313-316: every queried location once more, shifted back -/
def shiftBack (strict : Bool) : List NodeQuery → (Nat → XY) → Res (Nat → XY)
  | [], l => .ok l
  | q :: qs, l => do
    let x ← subI32 strict (l q.2).x xOffset
    let y ← subI32 strict (l q.2).y yOffset
    shiftBack strict qs (setLoc l q.2 ⟨x, y⟩)

/-- cc:297-318 `update_locations` on a buffer: the node references of its ways in order; reference number `i` has location `i` -/
def updateLocations (n : NodeIdx) (srt : List NodeQuery → List NodeQuery) (strict : Bool) (fuel : Nat) (refs : List Int) (locs : Nat → XY) :
    Res (Option (Nat → XY)) :=
  let qs : List NodeQuery := refs.zipIdx
  if qs.isEmpty then .ok (some locs)
  else do
    match ← getCoordsBatch n srt fuel qs locs with
    | none => return none
    | some l => return some (← shiftBack strict (srt qs) l)

end Tiles
