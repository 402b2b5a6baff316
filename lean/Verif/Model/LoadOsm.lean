import Verif.Model.NodeIdx
import Verif.Model.FeatureHandler
/-
Model of /repo/src/osm/load_osm.cc:52-137: the two passes over an OSM file. The first builds the node index; the second is a pipeline of three filters: buffers are
read in order, then (in parallel) `update_locations` puts the places of the nodes into the ways of a buffer and the buffer is given to a feature handler, then
(one buffer after the other, in the order of the file) the multipolygon manager gets the buffer, and the areas that it completes are given to a feature handler.
Simplifications: reading is a step that cannot fail; the number of buffers in the pipeline (`thread_count * 4`) is not limited; the work on a buffer is a single step, because
buffers are not shared and the node index is constant in the second pass (what the handlers do with the objects is `LoadStep`, in which the objects of a thread may be
handled at any time; the handler of a thread is its own, C53).  `R` are the relations, which only the multipolygon manager looks at.  The osmium multipolygon manager and
assembler are a parameter `asm`: which areas are completed by a buffer, after the buffers before it.  An invalid location is `none` (osmium asks `valid()` of it).
-/
namespace Tiles
variable {R L : Type}

/-- the tags of an object -/
abbrev TagList := List (Bytes × Bytes)

/-- the objects of a file; the location of a node is in units of 10^-7 degrees (x: longitude, y: latitude) -/
inductive OsmEntity (R : Type) where
  | node (id : Int) (tags : TagList) (loc : XY)
  | way (id : Int) (tags : TagList) (refs : List Int)
  | relation (r : R)

/-- the objects of a buffer after `update_locations` -/
inductive LocatedEntity (R : Type) where
  | node (id : Int) (tags : TagList) (loc : Option XY)
  | way (id : Int) (tags : TagList) (nodes : List (Int × Option XY))
  | relation (r : R)

/-- what is given to a handler -/
structure OsmItem (L : Type) where
  id : Int
  tags : TagList
  shape : OsmShape L

/-- `osmium::Location::valid` -/
def validLoc (p : XY) : Option XY := if locValid p then some p else none

/-- the nodes of a buffer (hybrid_node_idx.h:55-60 `hybrid_node_idx_builder::node` gets each of them) -/
def bufferNodes : List (OsmEntity R) → List (Int × XY)
  | [] => []
  | .node id _ loc :: b => (id, loc) :: bufferNodes b
  | _ :: b => bufferNodes b

/-- load_osm.cc:59-80: the first pass -/
def passOne (file : List (List (OsmEntity R))) : Res NodeIdx := buildNodeIdx (file.flatten |> bufferNodes |>.map (fun n => (n.1, nodePos n.2)))

/-- hybrid_node_idx.cc:298-308: the node references of the ways of a buffer -/
def bufferRefs : List (OsmEntity R) → List Int
  | [] => []
  | .way _ _ refs :: b => refs ++ bufferRefs b
  | _ :: b => bufferRefs b

/-- the locations of the references, put into the ways; the first reference has number `i` -/
def putLocations (l : Nat → XY) : Nat → List (OsmEntity R) → List (LocatedEntity R)
  | _, [] => []
  | i, .node id tags loc :: b => .node id tags (validLoc loc) :: putLocations l i b
  | i, .way id tags refs :: b => .way id tags ((refs.zipIdx i).map (fun r => (r.1, validLoc (l r.2)))) :: putLocations l (i + refs.length) b
  | i, .relation r :: b => .relation r :: putLocations l i b

/-- `osmium::Location::undefined_coordinate` -/
def undefinedLoc : XY := ⟨2147483647, 2147483647⟩

/-- load_osm.cc:123 `update_locations`; the references come without locations from the file -/
def locateBuffer (n : NodeIdx) (srt : List NodeQuery → List NodeQuery) (strict : Bool) (fuel : Nat) (b : List (OsmEntity R)) : Res (Option (List (LocatedEntity R))) := do
  match ← updateLocations n srt strict fuel (bufferRefs b) (fun _ => undefinedLoc) with
  | none => return none
  | some l => return some (putLocations l 0 b)

/-- feature_handler.cc:109-116: what a handler is given of a buffer (`deg`: the place in degrees) -/
def bufferItems (deg : XY → L) : List (LocatedEntity R) → List (OsmItem L)
  | [] => []
  | .node id tags loc :: b => ⟨id, tags, .node (loc.map deg)⟩ :: bufferItems deg b
  | .way id tags nodes :: b => ⟨id, tags, .way (nodes.map (fun n => n.2.map deg))⟩ :: bufferItems deg b
  | .relation _ :: b => bufferItems deg b

/-- the pipeline: buffers that were not read yet, that were read, that were handled (with their numbers in the file), that the multipolygon manager has got (in this order),
and the objects that each thread has got -/
structure PipeState (R L : Type) where
  unread : List (Nat × List (OsmEntity R))
  ready : List (Nat × List (OsmEntity R))
  located : List (Nat × List (LocatedEntity R))
  assembled : List (List (LocatedEntity R))
  got : List (List (OsmItem L))

/-- the objects are given to thread `i` -/
def giveTo (got : List (List (OsmItem L))) (i : Nat) (os : List (OsmItem L)) : List (List (OsmItem L)) := got.modify i (· ++ os)

/-- load_osm.cc:110-136 -/
inductive PipeStep (n : NodeIdx) (srt : List NodeQuery → List NodeQuery) (strict : Bool) (deg : XY → L) (asm : List (List (LocatedEntity R)) → List (LocatedEntity R) → List (OsmItem L)) :
    PipeState R L → PipeState R L → Prop
  /-- lines 113-121 -/
  | read (s : PipeState R L) (b) (rest) : s.unread = b :: rest → PipeStep n srt strict deg asm s { s with unread := rest, ready := s.ready ++ [b] }
  /-- lines 122-128, by thread `i` -/
  | handle (s : PipeState R L) (r1 r2) (k) (b) (l) (i fuel : Nat) : s.ready = r1 ++ (k, b) :: r2 → i < s.got.length → locateBuffer n srt strict fuel b = .ok (some l) →
      PipeStep n srt strict deg asm s { s with ready := r1 ++ r2, located := s.located ++ [(k, l)], got := giveTo s.got i (bufferItems deg l) }
  /-- lines 129-136, by thread `i`: the next one in the order of the file -/
  | areas (s : PipeState R L) (r1 r2) (k) (l) (i : Nat) : s.located = r1 ++ (k, l) :: r2 → k = s.assembled.length → i < s.got.length →
      PipeStep n srt strict deg asm s { s with located := r1 ++ r2, assembled := s.assembled ++ [l], got := giveTo s.got i (asm s.assembled l) }

/-- before the second pass -/
def pipeInit (threads : Nat) (file : List (List (OsmEntity R))) : PipeState R L := ⟨(file.zipIdx).map (fun b => (b.2, b.1)), [], [], [], List.replicate threads []⟩

/-- the pipeline has come to its end -/
def PipeState.Ended (s : PipeState R L) : Prop := s.unread = [] ∧ s.ready = [] ∧ s.located = []

end Tiles
