import Verif.Model.LuaProfile
import Verif.Model.RenderCtx
import Verif.Model.FeatureHandler
import Verif.Spec.Mercator
import Verif.Spec.MvtTile
import Verif.Spec.ProfileTable
/-
Specification vocabulary for C68: the OSM data that is imported, and the result of loading it.
-/
namespace Tiles.Spec

/-- an object of the input, as the handlers get it: nodes, ways and areas with the places of their nodes (`none`: the place is not known) -/
structure Datum where
  id : Int
  tags : List (Bytes × Bytes)
  shape : OsmShape LatLng

/-- the nodes of an object -/
def itemNodes {L : Type} : AreaItem L → List (Option L)
  | .outer nodes => nodes
  | .inner nodes => nodes
  | .other => []

def shapeNodes {L : Type} : OsmShape L → List (Option L)
  | .node loc => [loc]
  | .way nodes => nodes
  | .area items => items.flatMap itemNodes

/-- the number of nodes, and of rings of an area -/
def shapeSize {L : Type} (s : OsmShape L) : Nat := (shapeNodes s).length + match s with | .area items => items.length | _ => 0

/-- what a client is told about an attribute -/
def Attr.shown (toDouble : Int → Nat) : Attr → Typed
  | .text s => .str s
  | .number n => .double (toDouble n)
  | .integer n => .int n

/-- the tags of an object, as a rule shows them -/
def RuleOut.shown (numeral : Bytes → Option Int) (toDouble : Int → Nat) (v : Tags) (r : RuleOut) : List (Bytes × Typed) :=
  (r.attributes numeral v).map (fun a => (a.1, a.2.shown toDouble))

/-- the geometry type of the vector tile format: point, line, polygon -/
def Datum.type (d : Datum) : Nat := match d.shape with | .node _ => 1 | .way _ => 2 | .area _ => 3

/-- Loading a file with these objects (load_osm.cc) has come to its end: the objects were spread over any number of threads in any way, each ran the
profile `p`; `fs` are the features that each thread handed to the inserter, `m` the meta table afterwards (there is no coastline). -/
def OsmLoads (ctx : ProfileCtx LatLng) (p : LuaProfile) (numeral : Bytes → Option Int) (data : List Datum) (fs : List (List Feature)) (m : MetaTable) : Prop :=
  ∃ objs s names coding, objs.flatten.Perm (data.map fun d => p.object numeral d.id d.tags d.shape) ∧ Reach (LoadStep ctx) (loadInit objs) s ∧
    s.2 = fs.map (.next [] ·) ∧ s.1.metas.queue = [] ∧ loadStore s.1 = .ok (names, coding) ∧ m = ⟨none, some names, some coding⟩

end Tiles.Spec
