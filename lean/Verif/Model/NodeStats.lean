import Verif.Model.NodeIdx
/-! Model of the statistics the builder of the node index keeps (src/osm/hybrid_node_idx.cc:337-505), and of
`hybrid_node_idx::way` (cc:327-335).  The builder without its counters is `NodeBuilder` (Model/NodeIdx). -/
namespace Tiles

/-- cc:498-505: `stat_nodes_`, `stat_spans_`, `stat_coord_chars_` (an array of seven) and `stat_span_cum_sizes_` (an array of five);
simplification: the counters are unbounded -/
structure NodeStats where
  nodes : Nat
  spans : Nat
  chars : List Nat
  cum : List Nat
  deriving Repr, DecidableEq

/-- cc:498-505: all zero -/
def NodeStats.init : NodeStats := ⟨0, 0, List.replicate 7 0, List.replicate 5 0⟩

/-- cc:502-503 `kStatSpanCumSizeLimits` -/
def spanLimits : List Nat := [1, 64, 100, 1000, 10000]

/-- `++array[i]` (cc:408-409); undefined out of bounds -/
def bumpAt (l : List Nat) (i : Nat) : Res (List Nat) := if i < l.length then .ok (l.modify i (· + 1)) else .ub

/-- cc:397-410: the counters of the deltas of a span that begins with `cur`, up to the point that does not fit (`spanRun`) -/
def countRun (cur : XY) : List XY → List Nat → Res (List Nat)
  | [], c => .ok c
  | p :: ps, c =>
    let sx := varintSize (zigzag (p.x - cur.x))
    let sy := varintSize (zigzag (p.y - cur.y))
    if sx + sy > 2 * 4 + 1 then .ok c
    else do
      let c ← bumpAt c (if sx < 10 then sx else 0)
      let c ← bumpAt c (if sy < 10 then sy else 0)
      countRun p ps c

/-- cc:391-434: the counters for the spans of the points collected -/
def countSpans : List XY → NodeStats → Res NodeStats
  | [], st => .ok st
  | p :: ps, st => do
    let chars ← countRun p ps st.chars
    let size := spanRun p ps + 1
    countSpans (ps.drop (spanRun p ps))
      { st with chars := chars, spans := st.spans + 1, cum := List.zipWith (fun lim c => if size ≤ lim then c + 1 else c) spanLimits st.cum }
  termination_by l => l.length
  decreasing_by simp; omega

/-- cc:337-505: the builder with its counters -/
structure CountedBuilder where
  b : NodeBuilder
  st : NodeStats
  deriving Repr, DecidableEq

/-- cc:490-505 -/
def CountedBuilder.init : CountedBuilder := ⟨NodeBuilder.init, NodeStats.init⟩

/-- cc:381-437 `push_coord_span` -/
def CountedBuilder.pushCoordSpan (s : CountedBuilder) : Res CountedBuilder :=
  if s.b.span.isEmpty then .ok s
  else do
    let st ← countSpans s.b.span s.st
    return ⟨s.b.pushCoordSpan, st⟩

/-- cc:344-374 `push` -/
def CountedBuilder.push (s : CountedBuilder) (id : Int) (pos : XY) : Res CountedBuilder := do
  verify (decide (0 ≤ pos.x ∧ 0 ≤ pos.y ∧ pos.x ≤ 2 ^ 32 - 1 ∧ pos.y ≤ 2 ^ 32 - 1))
  let a ← absId id
  if a = s.b.lastId then
    verify (decide (pos = s.b.lastPos))
    return s
  else
    verify (decide (a > s.b.lastId))
    let s : CountedBuilder := ⟨s.b, { s.st with nodes := s.st.nodes + 1 }⟩
    if s.b.lastId + 1 ≠ a ∧ ¬ s.b.span.isEmpty then
      let s ← s.pushCoordSpan
      let b := s.b.pushEmptySpan a
      return ⟨{ b with lastId := a, lastPos := pos, span := b.span ++ [pos] }, s.st⟩
    else
      return ⟨{ s.b with lastId := a, lastPos := pos, span := s.b.span ++ [pos] }, s.st⟩

/-- pushing nodes one after the other (h:57-62, load_osm.cc:65-68) -/
def CountedBuilder.pushAll (s : CountedBuilder) : List (Int × XY) → Res CountedBuilder
  | [] => .ok s
  | (id, pos) :: ns => do
    let s ← s.push id pos
    s.pushAll ns

/-- a whole first pass (load_osm.cc:60-78): push every node, `finish` (cc:376-379), `dump_stats` (cc:467-484) -/
def countedBuild (nodes : List (Int × XY)) : Res (NodeIdx × NodeStats) := do
  let s ← CountedBuilder.init.pushAll nodes
  if s.b.lastId = 2 ^ 63 - 1 then .ub
  else
    let s ← s.pushCoordSpan
    let b := s.b.pushEmptySpan (s.b.lastId + 1)
    return (⟨b.idx, b.dat⟩, s.st)

/-- cc:327-335 `hybrid_node_idx::way`: the locations written to the references of a way, one after the other.  The difference is
one of 64-bit integers (`fixed_coord_t`), cut to 32 bits. -/
def wayLocations (n : NodeIdx) : List Int → Res (List XY)
  | [] => .ok []
  | ref :: refs => do
    match ← getCoords n ref with
    | none => .throw_
    | some c =>
      let rest ← wayLocations n refs
      return ⟨wrap32 (c.x - xOffset), wrap32 (c.y - yOffset)⟩ :: rest

end Tiles
