import Verif.Model.Tile
/-
Model of the quad tree index: /repo/src/db/quad_tree.cc and /repo/include/tiles/db/quad_tree.h.

uint32_t sums are taken modulo 2^32; words are naturals below 2^32.
-/
namespace Tiles

def kQuadChildOffset : Nat := 28            -- quad_tree.h:51-52
def kQuadOffsetMask : Nat := 2 ^ 28 - 1     -- quad_tree.h:53-54

/-- quad_tree.h:66-69 `quad_tree_input` -/
structure QInput where
  tile : Tile
  offset : Nat
  size : Nat
  deriving Repr, DecidableEq, Inhabited

/-- quad_tree.cc:9-12 `tmp_quad_node_t` with child pointers followed (`none` = nullptr). -/
inductive Qt where
  | none
  | node (off self sub : Nat) (c0 c1 c2 c3 : Qt)
  deriving Repr, DecidableEq, Inhabited

namespace Qt

def child : Qt → Nat → Qt
  | node _ _ _ c0 c1 c2 c3, i => match i with
    | 0 => c0 | 1 => c1 | 2 => c2 | _ => c3
  | none, _ => none

def off : Qt → Nat
  | node o .. => o
  | none => 2 ^ 32 - 1

def sub : Qt → Nat
  | node _ _ s .. => s
  | none => 0

def isNode : Qt → Bool
  | node .. => true
  | none => false

def count : Qt → Nat
  | node _ _ _ c0 c1 c2 c3 => 1 + count c0 + count c1 + count c2 + count c3
  | none => 0

/-- quad_tree.cc:49-51: attach `c` as child `pos`, lower the offset, add the subtree size. -/
def attach (n : Qt) (pos : Nat) (c : Qt) : Qt :=
  match n with
  | node o s t c0 c1 c2 c3 =>
    let o := min o c.off
    let t := (t + c.sub) % 2 ^ 32
    match pos with
    | 0 => node o s t c c1 c2 c3
    | 1 => node o s t c0 c c2 c3
    | 2 => node o s t c0 c1 c c3
    | _ => node o s t c0 c1 c2 c
  | none => none

/-- quad_tree.cc:43-46: the node inserted for a parent that is not in the map -/
def fresh : Qt := node (2 ^ 32 - 1) 0 0 none none none none

end Qt

/-- `std::map<geo::tile, tmp_quad_node_t>` as an association list: `m[k] = f(m[k])` -/
def mapUpdate {α : Type} (m : List (Tile × α)) (k : Tile) (f : Option α → α) : List (Tile × α) :=
  match m with
  | [] => [(k, f none)]
  | (k', v) :: rest => if k' = k then (k', f (some v)) :: rest else (k', v) :: mapUpdate rest k f

/-- quad_tree.cc:27-34: the inputs of zoom `z` (a later input for the same tile overwrites) -/
def qInputs (input : List QInput) (z : Nat) : List (Tile × Qt) :=
  input.foldl (fun m e =>
    if e.tile.z = z then mapUpdate m e.tile (fun _ => .node e.offset e.size e.size .none .none .none .none) else m) []

/-- quad_tree.cc:41-51 -/
def qAttach (m : List (Tile × Qt)) (e : Tile × Qt) : List (Tile × Qt) :=
  mapUpdate m e.1.parent (fun o => (o.getD Qt.fresh).attach e.1.quadPos e.2)

/-- quad_tree.cc:37-53: the level map at zoom `maxz - d` after the levels below were attached -/
def qLevel (input : List QInput) (maxz : Nat) : Nat → List (Tile × Qt)
  | 0 => qInputs input maxz
  | d + 1 => (qLevel input maxz d).foldl qAttach (qInputs input (maxz - (d + 1)))

/-- highest zoom level of the input, at least the root's (`nodes.size() - 1 + root_z`) -/
def qMaxZ (root : Tile) (input : List QInput) : Nat := input.foldl (fun a e => max a e.tile.z) root.z

/-- quad_tree.cc:16-58 `make_tmp_quad_tree` -/
def makeTmpQuadTree (root : Tile) (input : List QInput) : Res Qt :=
  if input.any (fun e => e.tile.z < root.z || (e.tile.z = root.z && e.tile ≠ root)) then .throw_
  else match qLevel input (qMaxZ root input) (qMaxZ root input - root.z) with
    | [(k, n)] => if k = root then .ok n else .throw_
    | _ => .throw_

/-- quad_tree.cc:82-94 for child `i` of the node stored at `off` -/
def qSerChild (off : Nat) (node : Qt) (s : List Nat × List (Nat × Qt)) (i : Nat) : List Nat × List (Nat × Qt) :=
  match node.child i with
  | .none => s
  | .node o se su c0 c1 c2 c3 =>
    let vec := s.1.modify off (fun w => (if w = 0 then s.1.length % 2 ^ 32 else w) ||| 1 <<< (i + kQuadChildOffset))
    (vec ++ [0, 0, 0, 0], (s.1.length, .node o se su c0 c1 c2 c3) :: s.2)

/-- quad_tree.cc:78-80 -/
def qSerData (off : Nat) (node : Qt) (vec : List Nat) : List Nat :=
  match node with
  | .node o se su .. => ((vec.set (off + 1) o).set (off + 2) se).set (off + 3) su
  | .none => vec

/-- quad_tree.cc:74-95; `fuel` is the number of nodes and never runs out -/
def qSerLoop : Nat → List Nat → List (Nat × Qt) → Res (List Nat)
  | _, vec, [] => .ok vec
  | 0, _, _ :: _ => .ub
  | fuel + 1, vec, (off, node) :: stack =>
    let s := [0, 1, 2, 3].foldl (qSerChild off node) (qSerData off node vec, stack)
    qSerLoop fuel s.1 s.2

/-- quad_tree.cc:60-97 `serialize_quad_tree` -/
def qSerialize (root : Qt) : Res (List Nat) := qSerLoop root.count [0, 0, 0, 0] [(0, root)]

/-- quad_tree.cc:99-119 `make_quad_tree`, as words -/
def makeQuadTreeWords (root : Tile) (input : List QInput) : Res (List Nat) :=
  if input.isEmpty then .ok [0, 0, 0, 0]
  else do
    let t ← makeTmpQuadTree root input
    qSerialize t

/-- quad_tree.cc:113-118: the string -/
def makeQuadTree (root : Tile) (input : List QInput) : Res Bytes := do
  let ws ← makeQuadTreeWords root input
  return ws.flatMap (leBytes 4)

/-- `read_nth<quad_entry_t>(base, n)` (bin_utils.h:28-31) for `base` pointing to index `base` of `buf`;
reading behind the buffer is undefined behaviour. -/
def readNth (buf : Bytes) (base n : Nat) : Res Nat :=
  if base + 4 * n + 4 ≤ buf.length then .ok (leNat ((buf.drop (base + 4 * n)).take 4)) else .ub

/-- quad_tree.h:81-93: is the query the root or above it?  `fuel` ≥ the zoom of the tile. -/
def qAbove (query : Tile) : Nat → Tile → Bool
  | 0, p => p = query
  | fuel + 1, p => if p = query then true else if p.z = 0 then false else qAbove query fuel p.parent

/-- quad_tree.h:96-104: the trace, already reversed (kept with its back at the head);
`none` = the early return.  `fuel` ≥ the zoom of the query. -/
def qTrace (root : Tile) : Nat → List Tile → Option (List Tile)
  | _, [] => none
  | fuel, back :: trace =>
    if back.parent = root then some (root :: back :: trace)
    else if back.z = 0 ∨ back.z < root.z then none
    else match fuel with
      | 0 => none
      | fuel + 1 => qTrace root fuel (back.parent :: back :: trace)

/-- quad_tree.h:134-139 -/
def qChildOffset (curr pos : Nat) : Nat :=
  (List.range pos).foldl (fun offset i => if curr.testBit (kQuadChildOffset + i) then offset + 4 else offset)
    (curr &&& kQuadOffsetMask)

/-- quad_tree.h:113-117: the span of the entries at the current node itself -/
def qSelfSpan (rd : Nat → Res Nat) (offset self : Nat) : Res (List (Nat × Nat)) :=
  if self ≠ 0 then do
    let o ← rd (offset + 1)
    return [(o, self)]
  else return []

/-- quad_tree.h:106-140: the descent; the calls of `fn` are returned as a list. -/
def qWalkLoop (rd : Nat → Res Nat) (query : Tile) (offset : Nat) : List Tile → Res (List (Nat × Nat))
  | [] => .ok []
  | t :: rest =>
    if t = query then do
      let o ← rd (offset + 1)
      let n ← rd (offset + 3)
      return [(o, n)]
    else do
      let self ← rd (offset + 2)
      let here ← qSelfSpan rd offset self
      let curr ← rd offset
      if curr = 0 then return here
      else match rest with
        | [] => .throw_
        | next :: _ =>
          if !curr.testBit (kQuadChildOffset + next.quadPos) then return here
          else do
            let r ← qWalkLoop rd query (qChildOffset curr next.quadPos) rest
            return here ++ r

/-- quad_tree.h:74-141 `walk_quad_tree`; `rd n` reads the n-th word from the tree base. -/
def walkQuadTree (rd : Nat → Res Nat) (root query : Tile) : Res (List (Nat × Nat)) := do
  let total ← rd 3
  if total = 0 then return []
  else if qAbove query root.z root then do
    let o ← rd 1
    let n ← rd 3
    return [(o, n)]
  else match qTrace root query.z [query] with
    | none => return []
    | some trace => qWalkLoop rd query 0 trace

end Tiles
