import Verif.Model.LoadOsm
import Verif.Spec.NodeIdx
import Verif.Spec.OsmData
/-! Specification for C72: what an OSM file says. -/
namespace Tiles.Spec
variable {R L : Type}

/-- the nodes of a file, with their ids and places -/
def nodesIn (file : List (List (OsmEntity R))) : List (Int × XY) :=
  file.flatten.filterMap (fun o => match o with | .node id _ loc => some (id, loc) | _ => none)

/-- an object of a file with these nodes: the nodes of a way have the places that the file gives them, and no place if they are not in the file -/
def withPlaces (nodes : List (Int × XY)) : OsmEntity R → LocatedEntity R
  | .node id tags loc => .node id tags (some loc)
  | .way id tags refs => .way id tags (refs.map (fun r => (r, nodeAt nodes r)))
  | .relation r => .relation r

/-- what a handler is told about an object of a file with these nodes -/
def itemOf (deg : XY → L) (nodes : List (Int × XY)) : OsmEntity R → Option (OsmItem L)
  | .node id tags loc => some ⟨id, tags, .node (some (deg loc))⟩
  | .way id tags refs => some ⟨id, tags, .way (refs.map (fun r => (nodeAt nodes r).map deg))⟩
  | .relation _ => none

/-- the areas that the assembler makes of buffers, given one after the other -/
def areasOf (asm : List (List (LocatedEntity R)) → List (LocatedEntity R) → List (OsmItem L)) : List (List (LocatedEntity R)) → List (List (LocatedEntity R)) → List (OsmItem L)
  | _, [] => []
  | before, b :: bs => asm before b ++ areasOf asm (before ++ [b]) bs

/-- everything in the file: nodes and ways, and the areas that the assembler makes of it -/
def fileItems (deg : XY → L) (asm : List (List (LocatedEntity R)) → List (LocatedEntity R) → List (OsmItem L)) (file : List (List (OsmEntity R))) : List (OsmItem L) :=
  file.flatten.filterMap (itemOf deg (nodesIn file)) ++ areasOf asm [] (file.map (List.map (withPlaces (nodesIn file))))

/-- a file that can be loaded: its nodes have places and are sorted by id (of equal ones up to the sign, the places are the same); ids are 64-bit numbers -/
structure GoodFile (file : List (List (OsmEntity R))) : Prop where
  nodes : ∀ n ∈ nodesIn file, -(2 ^ 63 - 1) < n.1 ∧ n.1 < 2 ^ 63 - 1 ∧ locValid n.2 = true
  sorted : (nodesIn file).Pairwise (fun a b => a.1.natAbs ≤ b.1.natAbs ∧ (a.1.natAbs = b.1.natAbs → a.2 = b.2))
  ways : ∀ id tags rs, OsmEntity.way id tags rs ∈ file.flatten → -2 ^ 63 ≤ id ∧ id < 2 ^ 63 ∧ ∀ r ∈ rs, -2 ^ 63 < r

/-- a location of OSM (in units of 10^-7 degrees) as latitude and longitude -/
noncomputable def degrees (p : XY) : LatLng := ⟨p.y / 10 ^ 7, p.x / 10 ^ 7⟩

def itemDatum (o : OsmItem LatLng) : Datum := ⟨o.id, o.tags, o.shape⟩

/-- the OSM objects of a file -/
noncomputable def fileData (asm : List (List (LocatedEntity R)) → List (LocatedEntity R) → List (OsmItem LatLng)) (file : List (List (OsmEntity R))) : List Datum :=
  (fileItems degrees asm file).map itemDatum

/-- what a file says about an object: the tags, and where it is; areas are made by the assembler -/
inductive FromFile (asm : List (List (LocatedEntity R)) → List (LocatedEntity R) → List (OsmItem LatLng)) (file : List (List (OsmEntity R))) : Datum → Prop
  | node (id tags loc) (h : .node id tags loc ∈ file.flatten) : FromFile asm file ⟨id, tags, .node (some (degrees loc))⟩
  | way (id tags refs) (h : .way id tags refs ∈ file.flatten) : FromFile asm file ⟨id, tags, .way (refs.map (fun r => (nodeAt (nodesIn file) r).map degrees))⟩
  | area (o : OsmItem LatLng) (h : o ∈ areasOf asm [] (file.map (List.map (withPlaces (nodesIn file))))) : FromFile asm file (itemDatum o)

/-- Loading a file (load_osm.cc) has come to its end: the first pass built the node index, in the second the buffers of the file went through the pipeline with `threads`
threads in any order, and the threads ran the profile `p` on what they got, in any interleaving; `fs` are the features that each thread handed to the inserter, `m` the
meta table afterwards (there is no coastline). -/
def FileLoads (ctx : ProfileCtx LatLng) (p : LuaProfile) (numeral : Bytes → Option Int) (srt : List NodeQuery → List NodeQuery) (strict : Bool) (threads : Nat)
    (asm : List (List (LocatedEntity R)) → List (LocatedEntity R) → List (OsmItem LatLng)) (file : List (List (OsmEntity R))) (fs : List (List Feature)) (m : MetaTable) : Prop :=
  ∃ n pipe, passOne file = .ok n ∧ Reach (PipeStep n srt strict degrees asm) (pipeInit threads file) pipe ∧ pipe.Ended ∧
    ∃ s names coding, Reach (LoadStep ctx) (loadInit (pipe.got.map (List.map fun o => p.object numeral o.id o.tags o.shape))) s ∧
      s.2 = fs.map (.next [] ·) ∧ s.1.metas.queue = [] ∧ loadStore s.1 = .ok (names, coding) ∧ m = ⟨none, some names, some coding⟩

end Tiles.Spec
