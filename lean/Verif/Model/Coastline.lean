import Verif.Model.Parallel
import Verif.Model.TileSpec
import Verif.Model.Clip
import Verif.Model.FeatureIO
import Verif.Model.GetTile
/-
Model of /repo/src/osm/load_coastlines.cc: dividing the map into land, sea and tiles with coast.

The polygon library (Clipper, and boost's `correct`) is the parameter `CoastLib`.  A task is turned into the tree of everything it hands
out; the threads work on these trees in any order.  An exception in a worker ends the program (`std::terminate`).  The shapefile is read in
Model/Shapefile.  Text output is left out.
-/
namespace Tiles

/-- what is used of Clipper and boost: intersection of paths with a rectangle (load_coastlines.cc:113-123, `verify` may throw); difference of
a rectangle and all paths (lines 156-163); `correct` (line 175).  `mask` makes simplification masks (not used for fast serialization). -/
structure CoastLib where
  inter : List Line → Box → Res (List Line)
  diff : Box → List (List Line) → List PolyNode
  correct : List Polygon → List Polygon
  mask : Line → Bytes

/-- load_coastlines.cc:32-38 -/
structure Coast where
  box : Box
  geo : List Line

/-- load_coastlines.cc:259-267, one polygon of the shapefile -/
def coastOf (p : Polygon) : Coast := ⟨boundingBox (.polygon [p]), p.outer :: p.inners⟩

mutual
/-- `ClosedPathsFromPolyTree` (library Clipper): the contours that are not empty -/
def treePaths : List PolyNode → List Line
  | [] => []
  | n :: ns => nodePaths n ++ treePaths ns
def nodePaths : PolyNode → List Line
  | .mk contour _ childs => (if contour.isEmpty then [] else [contour]) ++ treePaths childs
end

/-- load_coastlines.cc:74-90 `bounding_box(cl::Paths)` -/
def pathsBox (ps : List Line) : Box :=
  ps.flatten.foldl (fun b p => ⟨⟨min b.min.x p.x, min b.min.y p.y⟩, ⟨max b.max.x p.x, max b.max.y p.y⟩⟩)
    ⟨⟨2 ^ 63 - 1, 2 ^ 63 - 1⟩, ⟨-2 ^ 63, -2 ^ 63⟩⟩

/-- load_coastlines.cc:92-97 `touches` -/
def boxTouches (a b : Box) : Bool :=
  !(decide (a.min.x > b.max.x) || decide (a.max.x < b.min.x)) && !(decide (a.min.y > b.max.y) || decide (a.max.y < b.min.y))

/-- load_coastlines.cc:99-104 `within` -/
def boxWithin (outer inner : Box) : Bool :=
  decide (outer.min.x ≤ inner.min.x) && decide (outer.max.x ≥ inner.max.x) && decide (outer.min.y ≤ inner.min.y) && decide (outer.max.y ≥ inner.max.y)

/-- load_coastlines.cc:106-111 `box_to_path` -/
def boxToPath (b : Box) : Line := [b.min, ⟨b.max.x, b.min.y⟩, b.max, ⟨b.min.x, b.max.y⟩]

/-- load_coastlines.cc:211-215: one path, of four corners of the rectangle -/
def isFull (paths : List Line) (draw : Box) : Bool := match paths with
  | [p] => decide (p.length = 4) && p.all (fun q => decide (q ∈ boxToPath draw))
  | _ => false

section
variable (lib : CoastLib)

/-- load_coastlines.cc:194-222: the coastlines that matter in a tile; `none`: it is land -/
def matchCoast (insert draw : Box) : List Coast → Res (Option (List Coast))
  | [] => .ok (some [])
  | c :: cs =>
    if !boxTouches insert c.box then matchCoast insert draw cs
    else if boxWithin insert c.box then do
      let r ← matchCoast insert draw cs
      return r.map (c :: ·)
    else do
      let g ← lib.inter c.geo draw
      if g.isEmpty then matchCoast insert draw cs
      else if isFull g draw then return none
      else do
        let r ← matchCoast insert draw cs
        return r.map (⟨pathsBox g, g⟩ :: ·)

/-- load_coastlines.cc:153-181 `finalize_tile` -/
def finalizeTile (id : UInt64) (draw insert : Box) (ms : List Coast) : Res (Option Bytes) := do
  let sol := lib.diff draw (ms.map (·.geo))
  verify (decide (sol.length ≠ 0))
  let i ← lib.inter (treePaths sol) insert
  if i.isEmpty then return none
  else do
    let p ← toFixedPolygon [] sol
    let b ← serializeFeature lib.mask [] true ⟨id.toNat, 0, 0, kMaxZoomLevel + 1, [], .polygon (lib.correct p)⟩
    return some b

/-- what a task does: count a tile as land (line 225, 239), append it to the sea tiles (228, 229), report progress (226, 230, 241), hand a
feature to the database thread (237) -/
inductive CoastEv where
  | land (t : Tile)
  | sea (t : Tile)
  | tick (z : Nat)
  | db (t : Tile) (feature : Bytes)

/-- everything but the features goes directly to shared variables (atomics, or under a mutex) -/
def CoastEv.direct : CoastEv → Bool
  | .db _ _ => false
  | _ => true

/-- load_coastlines.cc:187-243, one child; `sub` makes the task of line 232 -/
def coastChild (sub : Tile → List Coast → Res (WTask CoastEv)) (child : Tile) (cs : List Coast) : Res (List (WTask CoastEv ⊕ CoastEv)) := do
  let s ← tileSpec child
  let m ← matchCoast lib s.insert s.draw cs
  match m with
  | none => return [.inr (.land child), .inr (.tick child.z)]
  | some [] => return [.inr (.sea child), .inr (.tick child.z)]
  | some (c :: ms) =>
    if child.z < 10 then do
      let t ← sub child (c :: ms)
      return [.inl t]
    else do
      let id ← keyOfTile child
      let f ← finalizeTile lib id s.draw s.insert (c :: ms)
      match f with
      | some b => return [.inr (.db child b), .inr (.tick child.z)]
      | none => return [.inr (.land child), .inr (.tick child.z)]

/-- load_coastlines.cc:183-244 `process_coastline` and all the tasks it makes, at most so many levels -/
def coastTask : Nat → Tile → List Coast → Res (WTask CoastEv)
  | 0, _, _ => .ub
  | d + 1, t, cs => do
    let e0 ← coastChild lib (coastTask d) (t.child 0) cs
    let e1 ← coastChild lib (coastTask d) (t.child 1) cs
    let e2 ← coastChild lib (coastTask d) (t.child 2) cs
    let e3 ← coastChild lib (coastTask d) (t.child 3) cs
    return .mk (e0 ++ e1 ++ e2 ++ e3)

/-- `geo::tile_iterator(z)` (library geo): the tiles of a zoom level -/
def tilesOfZoom (z : Nat) : List Tile := (List.range (2 ^ z)).flatMap (fun y => (List.range (2 ^ z)).map (fun x => ⟨x, y, z⟩))

/-- the tasks for the tiles -/
def coastTasks (cs : List Coast) : List Tile → Res (List (WTask CoastEv))
  | [] => .ok []
  | t :: ts => do
    let w ← coastTask lib (10 - t.z) t cs
    let ws ← coastTasks cs ts
    return w :: ws

end

/-- load_coastlines.cc:48-66, 284-285: the queues, and the shared variables as the list of what was done to them -/
structure CoastShared where
  q : DrainShared CoastEv
  log : List CoastEv

/-- load_coastlines.cc:287-321: one move of a worker or of the database thread -/
def coastStep (k : Option Nat) (quit : Bool) (s : CoastShared) (pc : DrainPc CoastEv) : Option (CoastShared × DrainPc CoastEv) :=
  match pc with
  | .wRun (.inr r :: es) =>
    if r.direct then some ({ s with log := s.log ++ [r] }, .wRun es)
    else (drainStep true k quit s.q (.wRun (.inr r :: es))).map (fun r => ({ s with q := r.1 }, r.2))
  | pc => (drainStep true k quit s.q pc).map (fun r => ({ s with q := r.1 }, r.2))

/-- any thread, any resolution of the non-determinism -/
def CoastStep (s t : CoastShared × List (DrainPc CoastEv)) : Prop := ∃ k quit, ThreadStep (coastStep k quit) s t

/-- load_coastlines.cc:276-311: the queue holds the tasks of zoom level 4, the workers start -/
def coastInit (tasks : List (WTask CoastEv)) (workers : Nat) : CoastShared × List (DrainPc CoastEv) :=
  (⟨(drainInit tasks workers).1, []⟩, (drainInit tasks workers).2)

/-- load_coastlines.cc:285: `fully_seaside` -/
def seaTiles (log : List CoastEv) : List Tile := log.filterMap (fun e => match e with | .sea t => some t | _ => none)

/-- load_coastlines.cc:55-57: what the ticks add up to; the shift expression is `1 << ((10 - z) * 1) << (10 - z)` -/
def coastProgress (log : List CoastEv) : Nat := (log.map (fun e => match e with | .tick z => (1 <<< ((10 - z) * 1)) <<< (10 - z) | _ => 0)).sum

end Tiles
