import Verif.Model.Tile
/-
Model of the seaside tree: /repo/src/db/bq_tree.cc and /repo/include/tiles/db/bq_tree.h.

Words (`bq_node_t` = uint32_t) are naturals; the only place where a value could exceed 32 bits is
`storage |= vec.size()` (bq_tree.cc:176), where the conversion to uint32_t is modelled.
-/
namespace Tiles

/-- bq_tree.cc:150-153 `bq_tmp_node_t` with its child pointers followed:
`empty` is a null pointer, `leaf` a node with `leaf_ = true`. -/
inductive Bq where
  | empty
  | leaf
  | inner (c0 c1 c2 c3 : Bq)
  deriving Repr, DecidableEq, Inhabited

namespace Bq

/-- `children_[i]` -/
def child : Bq → Nat → Bq
  | inner c0 c1 c2 c3, i => match i with
    | 0 => c0 | 1 => c1 | 2 => c2 | _ => c3
  | _, _ => empty

/-- bq_tree.cc:204-206: `if (!parent.leaf_) parent.children_[pos] = sub` -/
def setChild (n : Bq) (pos : Nat) (sub : Bq) : Bq :=
  match n with
  | inner c0 c1 c2 c3 => match pos with
    | 0 => inner sub c1 c2 c3
    | 1 => inner c0 sub c2 c3
    | 2 => inner c0 c1 sub c3
    | _ => inner c0 c1 c2 sub
  | n => n

def isInner : Bq → Bool
  | inner .. => true
  | _ => false

/-- number of inner nodes (= number of words of the serialized tree) -/
def innerCount : Bq → Nat
  | inner c0 c1 c2 c3 => 1 + innerCount c0 + innerCount c1 + innerCount c2 + innerCount c3
  | _ => 0

end Bq

def kBqTrueOffset : Nat := 28       -- bq_tree.cc:30
def kBqFalseOffset : Nat := 24      -- bq_tree.cc:31
def kBqOffsetMask : Nat := 2 ^ 24 - 1  -- bq_tree.cc:33-34
def kEmptyRoot : Nat := 0           -- bq_tree.cc:36
def kFullRoot : Nat := 2 ^ 32 - 1   -- bq_tree.cc:37

/-- bq_tree.cc:203-206: `nodes[z-1][tile.parent()]` (default inserted when missing), then attach.
The level map is an association list; `std::map`'s iteration order has no influence on the result
because different keys are updated independently. -/
def bqAttach (m : List (Tile × Bq)) (t : Tile) (sub : Bq) : List (Tile × Bq) :=
  match m with
  | [] => [(t.parent, (Bq.inner .empty .empty .empty .empty).setChild t.quadPos sub)]
  | (k, n) :: rest =>
    if k = t.parent then (k, n.setChild t.quadPos sub) :: rest
    else (k, n) :: bqAttach rest t sub

/-- bq_tree.cc:193-198: level `z` after the first loop (each distinct input tile once) -/
def bqLeaves (tiles : List Tile) (z : Nat) : List (Tile × Bq) :=
  tiles.foldl (fun m t =>
    if t.z = z then (if m.any (fun e => e.1 = t) then m else m ++ [(t, .leaf)]) else m) []

/-- bq_tree.cc:200-208: the level map at zoom `maxz - d`, after the levels below were attached -/
def bqLevel (tiles : List Tile) (maxz : Nat) : Nat → List (Tile × Bq)
  | 0 => bqLeaves tiles maxz
  | d + 1 => (bqLevel tiles maxz d).foldl (fun m e => bqAttach m e.1 e.2) (bqLeaves tiles (maxz - (d + 1)))

/-- `nodes.size() - 1` after the first loop (bq_tree.cc:192-198) -/
def bqMaxZ (tiles : List Tile) : Nat := tiles.foldl (fun a t => max a t.z) 0

/-- one iteration of bq_tree.cc:166-182 for child number `i` of the node stored at `off` -/
def bqSerChild (off : Nat) (node : Bq) (s : List Nat × List (Nat × Bq)) (i : Nat) :
    List Nat × List (Nat × Bq) :=
  match node.child i with
  | .empty => (s.1.modify off (fun w => w ||| 1 <<< (i + kBqFalseOffset)), s.2)
  | .leaf => (s.1.modify off (fun w => w ||| 1 <<< (i + kBqTrueOffset)), s.2)
  | .inner c0 c1 c2 c3 =>
    let vec := s.1.modify off (fun w =>
      if w &&& kBqOffsetMask = 0 then (w ||| s.1.length) % 2 ^ 32 else w)
    (vec ++ [0], (s.1.length, .inner c0 c1 c2 c3) :: s.2)

/-- bq_tree.cc:162-183: the stack loop.  `fuel` bounds the number of iterations
(the number of inner nodes); it never runs out. -/
def bqSerLoop : Nat → List Nat → List (Nat × Bq) → Res (List Nat)
  | _, vec, [] => .ok vec
  | 0, _, _ :: _ => .ub
  | fuel + 1, vec, (off, node) :: stack =>
    let s := [0, 1, 2, 3].foldl (bqSerChild off node) (vec, stack)
    bqSerLoop fuel s.1 s.2

/-- bq_tree.cc:155-185 `serialize_bq_tree` -/
def bqSerialize (root : Bq) : Res (List Nat) := bqSerLoop root.innerCount [0] [(0, root)]

/-- bq_tree.cc:187-217 `make_bq_tree`: the words of the tree -/
def makeBqTree (tiles : List Tile) : Res (List Nat) :=
  if tiles.isEmpty then .ok [kEmptyRoot]
  else
    match bqLevel tiles (bqMaxZ tiles) (bqMaxZ tiles) with
    | [(_, root)] => if root = .leaf then .ok [kFullRoot] else bqSerialize root
    | _ => .throw_

/-- bq_tree.cc:63-69: the trace from below the root down to `q`; the vector is kept with its back
at the head of the list, i.e. already reversed.  `fuel` counts the pushes that the
`trace.size() <= 22` check still admits. -/
def bqTrace : Nat → List Tile → Res (List Tile)
  | _, [] => .ub
  | fuel, back :: trace =>
    if back.parent = Tile.root then .ok (back :: trace)
    else match fuel with
      | 0 => .throw_
      | fuel + 1 => bqTrace fuel (back.parent :: back :: trace)

/-- bq_tree.cc:84-89: offset of child `pos` -/
def bqChildOffset (curr pos : Nat) : Nat :=
  (List.range pos).foldl (fun offset i =>
    if !curr.testBit (i + kBqFalseOffset) && !curr.testBit (i + kBqTrueOffset) then offset + 1
    else offset) (curr &&& kBqOffsetMask)

/-- bq_tree.cc:72-94: descend along the trace -/
def bqDescend (nodes : List Nat) (curr : Nat) : List Tile → Res (Option Bool × Nat)
  | [] => .ok (none, curr)
  | tile :: trace =>
    if curr.testBit (tile.quadPos + kBqFalseOffset) then .ok (some false, 0)
    else if curr.testBit (tile.quadPos + kBqTrueOffset) then .ok (some true, 0)
    else do
      let next ← at_ nodes (bqChildOffset curr tile.quadPos)
      bqDescend nodes next trace

/-- bq_tree.cc:53-95 `find_parent_leaf` (kInvalidNode, never used, is 0 here) -/
def bqFindParentLeaf (nodes : List Nat) (q : Tile) : Res (Option Bool × Nat) := do
  let root ← at_ nodes 0
  if root = kFullRoot then return (some true, 0)
  else if root = kEmptyRoot then return (some false, 0)
  else if q = Tile.root then return (none, root)
  else do
    let trace ← bqTrace 22 [q]
    bqDescend nodes root trace

/-- bq_tree.cc:97-100 `contains` -/
def bqContains (nodes : List Nat) (q : Tile) : Res Bool := do
  let r ← bqFindParentLeaf nodes q
  return r.1.getD false

/-- bq_tree.cc:119-132: one popped node; state = (result, stack, child_count) -/
def bqLeafsChild (nodes : List Nat) (tile : Tile) (node : Nat)
    (s : List Tile × List (Tile × Nat) × Nat) (i : Nat) : Res (List Tile × List (Tile × Nat) × Nat) :=
  let c := tile.child i
  if node.testBit (c.quadPos + kBqTrueOffset) then .ok (s.1 ++ [c], s.2.1, s.2.2)
  else if node.testBit (c.quadPos + kBqFalseOffset) then .ok s
  else do
    let w ← at_ nodes ((node &&& kBqOffsetMask) + s.2.2)
    return (s.1, (c, w) :: s.2.1, s.2.2 + 1)

/-- bq_tree.cc:113-133: the stack loop; `fuel` bounds the iterations.  Simplification: for node
arrays not produced by `make_bq_tree` the bound may be too small. -/
def bqLeafsLoop (nodes : List Nat) : Nat → List Tile → List (Tile × Nat) → Res (List Tile)
  | _, result, [] => .ok result
  | 0, _, _ :: _ => .ub
  | fuel + 1, result, (tile, node) :: stack => do
    let s ← bqLeafsChild nodes tile node (result, stack, 0) 0
    let s ← bqLeafsChild nodes tile node s 1
    let s ← bqLeafsChild nodes tile node s 2
    let s ← bqLeafsChild nodes tile node s 3
    bqLeafsLoop nodes fuel s.1 s.2.1

/-- bq_tree.cc:102-135 `all_leafs` -/
def bqAllLeafs (nodes : List Nat) (q : Tile) : Res (List Tile) := do
  let p ← bqFindParentLeaf nodes q
  match p.1 with
  | some true => return [q]
  | some false => return []
  | none => bqLeafsLoop nodes nodes.length [] [(q, p.2)]

/-- bq_tree.cc:137-140 `string_view()` -/
def bqStringView (nodes : List Nat) : Bytes := nodes.flatMap (leBytes 4)

/-- bq_tree.cc:45-51 the constructor from a string -/
def bqFromString (s : Bytes) : Res (List Nat) := do
  verify (s.length % 4 == 0)
  return (List.range (s.length / 4)).map (fun i => leNat ((s.drop (4 * i)).take 4))

end Tiles
