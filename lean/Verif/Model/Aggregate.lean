import Verif.Model.FeatureIO
import Verif.Model.Ranges
/-
Model of /repo/src/feature/aggregate_line_features.cc.

A `line_handle*` is the position of the handle in the vector.  The lines of one group are numbered as in `make_line_handles`, so a leaf of
the tree of joined lines is the number of its line.  `oneway_` is never set (line 47) and left out, with the branches for it.  `std::sort`
is stable here.  `simplify` (library geo) is a parameter.
-/
namespace Tiles

/-- fixed_geometry.h:23-24 -/
def invalidXY : XY := ⟨2 ^ 63 - 1, 2 ^ 63 - 1⟩

/-- aggregate_line_features.cc:22-31 without the end points: `feature_`/`geo_idx_` (a leaf), or `left_` and `right_`; and `reversed_` -/
inductive JTree where
  | leaf (line : Nat) (reversed : Bool)
  | node (left right : JTree) (reversed : Bool)
  deriving DecidableEq, Repr

/-- aggregate_line_features.cc:114-129 `mark_reversed` -/
def JTree.flip : JTree → JTree
  | .leaf i r => .leaf i (!r)
  | .node a b r => .node a.flip b.flip (!r)

/-- aggregate_line_features.cc:22-31: a line, given or joined (the end points matter only at the root) -/
structure JLine where
  from_ : XY
  to_ : XY
  tree : JTree
  deriving DecidableEq, Repr

/-- the handles; `none`: moved away -/
abbrev Slots := List (Option JLine)

/-- aggregate_line_features.cc:33-51 `make_line_handles`, for the lines of the group starting with number `i` -/
def makeHandles : Nat → List Line → Res Slots
  | _, [] => .ok []
  | i, l :: ls => match l.head?, l.getLast? with
    | some a, some b => do
      let rest ← makeHandles (i + 1) ls
      return some ⟨a, b, .leaf i false⟩ :: rest
    | _, _ => .ub

/-- aggregate_line_features.cc:61-64 -/
def idxLe (a b : XY × Nat) : Bool :=
  decide (a.1.x < b.1.x) || (a.1.x == b.1.x && (decide (a.1.y < b.1.y) || (a.1.y == b.1.y && decide (a.2 ≤ b.2))))

/-- `std::unique` -/
def uniqueAdj {α : Type} [DecidableEq α] : List α → List α
  | [] => []
  | [a] => [a]
  | a :: b :: l => if a = b then uniqueAdj (b :: l) else a :: uniqueAdj (b :: l)

/-- aggregate_line_features.cc:55-58 -/
def idxEntries : Nat → Slots → List (XY × Nat)
  | _, [] => []
  | i, some l :: ls => (l.from_, i) :: (l.to_, i) :: idxEntries (i + 1) ls
  | i, none :: ls => idxEntries (i + 1) ls

/-- aggregate_line_features.cc:54-68 -/
def makeIdx (s : Slots) : List (XY × Nat) := uniqueAdj (sortBy idxLe (idxEntries 0 s))

/-- aggregate_line_features.cc:76-79, 83: the handles with an end at `pos` -/
def entriesAt (idx : List (XY × Nat)) (pos : XY) : List Nat :=
  ((idx.dropWhile (fun e => decide (e.1.x < pos.x) || (e.1.x == pos.x && decide (e.1.y < pos.y)))).takeWhile (fun e => e.1 == pos)).map (·.2)

/-- the line in a handle -/
def Slots.get (s : Slots) (i : Nat) : Option JLine := s[i]?.join

/-- aggregate_line_features.cc:103-108 -/
def burnLine (pos : XY) (l : JLine) : JLine :=
  { l with from_ := if l.from_ = pos then invalidXY else l.from_, to_ := if l.to_ = pos then invalidXY else l.to_ }

/-- aggregate_line_features.cc:97-109 -/
def burn (pos : XY) : List Nat → Slots → Slots
  | [], s => s
  | j :: js, s => match s.get j with
    | none => burn pos js s
    | some l => burn pos js (s.set j (some (burnLine pos l)))

/-- aggregate_line_features.cc:81-90: the last handle that is neither this one nor moved away -/
def lastOther (s : Slots) (self : Nat) (es : List Nat) : Option Nat :=
  (es.filter (fun j => decide (j ≠ self) && (s.get j).isSome)).getLast?

/-- aggregate_line_features.cc:70-112 `find_incident_line` -/
def findIncident (idx : List (XY × Nat)) (s : Slots) (self : Nat) (pos : XY) : Option Nat × Slots :=
  if pos = invalidXY then (none, s)
  else if (entriesAt idx pos).length = 2 then (lastOther s self (entriesAt idx pos), s)
  else (none, burn pos (entriesAt idx pos) s)

/-- aggregate_line_features.cc:137-165: lines are added at the start -/
def joinFrom (idx : List (XY × Nat)) (it : Nat) : Nat → Slots → Res Slots
  | 0, _ => .ub
  | fuel + 1, s => match s.get it with
    | none => .ub
    | some l => match findIncident idx s it l.from_ with
      | (none, s) => .ok s
      | (some j, s) => match s.get j with
        | none => .ok s
        | some o =>
          if o.from_ = o.to_ then .ok s
          else if l.from_ = o.to_ then
            joinFrom idx it fuel ((s.set j none).set it (some ⟨o.from_, l.to_, .node o.tree l.tree false⟩))
          else joinFrom idx it fuel ((s.set j none).set it (some ⟨o.to_, l.to_, .node o.tree.flip l.tree false⟩))

/-- aggregate_line_features.cc:171-199: lines are added at the end -/
def joinTo (idx : List (XY × Nat)) (it : Nat) : Nat → Slots → Res Slots
  | 0, _ => .ub
  | fuel + 1, s => match s.get it with
    | none => .ub
    | some l => match findIncident idx s it l.to_ with
      | (none, s) => .ok s
      | (some j, s) => match s.get j with
        | none => .ok s
        | some o =>
          if o.from_ = o.to_ then .ok s
          else if l.to_ = o.from_ then
            joinTo idx it fuel ((s.set j none).set it (some ⟨l.from_, o.to_, .node l.tree o.tree false⟩))
          else joinTo idx it fuel ((s.set j none).set it (some ⟨l.from_, o.from_, .node l.tree o.tree.flip false⟩))

/-- aggregate_line_features.cc:132-199: one handle -/
def joinAt (idx : List (XY × Nat)) (s : Slots) (it : Nat) : Res Slots := match s.get it with
  | none => .ok s
  | some l =>
    if l.from_ = l.to_ then .ok s
    else do
      let s ← joinFrom idx it (s.length + 1) s
      match s.get it with
      | none => .ub
      | some l => if l.from_ = l.to_ then .ok s else joinTo idx it (s.length + 1) s

/-- aggregate_line_features.cc:131-200, from handle `it` on -/
def joinAll (idx : List (XY × Nat)) : Nat → Nat → Slots → Res Slots
  | 0, _, s => .ok s
  | n + 1, it, s => do
    let s ← joinAt idx s it
    joinAll idx n (it + 1) s

/-- aggregate_line_features.cc:53-201 -/
def joinLines (s : Slots) : Res Slots := joinAll (makeIdx s) s.length 0 s

/-- aggregate_line_features.cc:216-244: the points of a joined line, appended to what is there already.  (The stack visits the tree in this
order.) -/
def emitTree (pts : List Line) : JTree → Line → Res Line
  | .leaf i rev, acc => do
    let g ← at_ pts i
    let skip := if acc.isEmpty then 0 else 1
    return if rev then acc ++ (g.take (g.length - skip)).reverse else acc ++ g.drop skip
  | .node a b rev, acc =>
    if rev then do
      let acc ← emitTree pts b acc
      emitTree pts a acc
    else do
      let acc ← emitTree pts a acc
      emitTree pts b acc

/-- aggregate_line_features.cc:209-247: a line of its own, or a joined one -/
def emitLine (pts : List Line) : JTree → Res Line
  | .leaf i _ => at_ pts i
  | t => emitTree pts t []

/-- aggregate_line_features.cc:203-250 -/
def aggregateGeometry (pts : List Line) : Slots → Res (List Line)
  | [] => .ok []
  | none :: s => aggregateGeometry pts s
  | some l :: s => do
    let g ← emitLine pts l.tree
    let gs ← aggregateGeometry pts s
    return g :: gs

/-- the joined lines of a group -/
def joinGroup (pts : List Line) : Res (List Line) := do
  let s ← makeHandles 0 pts
  let s ← joinLines s
  aggregateGeometry pts s

/-- lexicographic order of `std::vector<metadata>` -/
def metasLe : List Meta → List Meta → Bool
  | [], _ => true
  | _ :: _, [] => false
  | a :: as, b :: bs => if a = b then metasLe as bs else metaLe a b

/-- aggregate_line_features.cc:255-257 -/
def lineFeatureLe (a b : Feature) : Bool := if a.metas = b.metas then decide (a.id ≤ b.id) else metasLe a.metas b.metas

/-- aggregate_line_features.cc:37-39: `mpark::get` throws for other geometries -/
def linesOfGroup : List Feature → Res (List Line)
  | [] => .ok []
  | f :: fs => match f.geometry with
    | .polyline l => do
      verify (decide (l.length < 2 ^ 32 - 1))
      let ls ← linesOfGroup fs
      return l ++ ls
    | _ => .throw_

/-- aggregate_line_features.cc:263-278; the layer and the zoom levels are those of a new `feature` (feature.h:22-24) -/
def aggregateGroup (simplify : Nat → Line → Line) (z : Nat) (g : List Feature) : Res Feature := match g with
  | [] => .ub
  | f :: _ => do
    let pts ← linesOfGroup g
    let ls ← joinGroup pts
    return ⟨f.id, kInvalidLayer, 0, 0, f.metas, .polyline (if z ≤ kMaxZoomLevel then ls.map (simplify (2 ^ (kMaxZoomLevel - z))) else ls)⟩

/-- aggregate_line_features.cc:260-278, over all groups -/
def aggregateGroups (simplify : Nat → Line → Line) (z : Nat) : List (List Feature) → Res (List Feature)
  | [] => .ok []
  | g :: gs => do
    let f ← aggregateGroup simplify z g
    let fs ← aggregateGroups simplify z gs
    return f :: fs

/-- aggregate_line_features.cc:252-281 -/
def aggregateLineFeatures (simplify : Nat → Line → Line) (z : Nat) (features : List Feature) : Res (List Feature) :=
  aggregateGroups simplify z (equalRanges (fun a b => decide (a.metas = b.metas)) (sortBy lineFeatureLe features))

/-! ### src/feature/aggregate_polygon_features.cc -/

/-- aggregate_polygon_features.cc:25-30: `mpark::get` throws for other geometries -/
def polygonsOfGroup : List Feature → Res (List Polygon)
  | [] => .ok []
  | f :: fs => match f.geometry with
    | .polygon p => do
      let ps ← polygonsOfGroup fs
      return p ++ ps
    | _ => .throw_

/-- aggregate_polygon_features.cc:24-41: one group.  `simplify` leaves polygons as they are (simplify.h:23-25); the shift `1ULL << (20 - z)` is undefined for
z > 20 (the difference is unsigned).  The layer and the zoom levels are those of a new `feature` (feature.h:22-24). -/
def aggregatePolygonGroup (z : Nat) (g : List Feature) : Res Feature := match g with
  | [] => .ub
  | f :: _ => do
    let ps ← polygonsOfGroup g
    if kMaxZoomLevel < z then .ub
    else return ⟨f.id, kInvalidLayer, 0, 0, f.metas, .polygon ps⟩

/-- aggregate_polygon_features.cc:20-41 -/
def aggregatePolygonGroups (z : Nat) : List (List Feature) → Res (List Feature)
  | [] => .ok []
  | g :: gs => do
    let f ← aggregatePolygonGroup z g
    let fs ← aggregatePolygonGroups z gs
    return f :: fs

/-- aggregate_polygon_features.cc:13-44; sorted by (metadata, id) as the lines -/
def aggregatePolygonFeatures (z : Nat) (features : List Feature) : Res (List Feature) :=
  aggregatePolygonGroups z (equalRanges (fun a b => decide (a.metas = b.metas)) (sortBy lineFeatureLe features))

end Tiles
