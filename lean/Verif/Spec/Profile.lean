import Verif.Model.FeatureHandler
/-
Specification vocabulary for C50: what a profile says about an object, read off the list of its calls.
-/
namespace Tiles.Spec
variable {L : Type} (ctx : ProfileCtx L)

/-- a call that fails: areas and zoom levels do not come in pairs, or they are given for an object without readable geometry -/
def fails (o : OsmObj L) : PfCall → Bool
  | .approvedMinByArea args => decide (args.length % 2 = 1) || (match readOsm ctx.conv o.shape with | .throw_ => true | _ => false)
  | _ => false

/-- the calls that count: those before the first one that fails -/
def counting (o : OsmObj L) : List PfCall := o.calls.takeWhile (fun c => !fails ctx o c)

/-- the area of the object -/
def areaOf (o : OsmObj L) : Int :=
  match readOsm ctx.conv o.shape with
  | .ok g => match ctx.area g with | .ok a => a | _ => 0
  | _ => 0

/-- reading the object has a result or fails, and so has computing its area if the profile asks for it (C63 says when) -/
structure Fine (o : OsmObj L) : Prop where
  reads : readOsm ctx.conv o.shape ≠ .ub
  area : ∀ args, .approvedMinByArea args ∈ o.calls → args.length % 2 = 0 → ∀ g, readOsm ctx.conv o.shape = .ok g → ∃ a, ctx.area g = .ok a

/-- zoom level and area limit, pair by pair -/
def pairsOf : List Int → List (Int × Int)
  | a :: b :: l => (a, b) :: pairsOf l
  | _ => []

/-- the zoom levels a call approves the object for: all, from a minimum on, or from the level beside the first limit above its area
(`-1` = no limit) -/
def approval (o : OsmObj L) : PfCall → Option (Nat × Nat)
  | .approvedMin min => some (min.toNat, 21)
  | .approvedFull => some (0, 21)
  | .approvedMinByArea args =>
    ((pairsOf args).find? (fun p => decide (p.2 = -1 ∨ areaOf ctx o < p.2))).map (fun p => ((p.1 % 2 ^ 32).toNat, 21))
  | _ => none

/-- the layer a call selects -/
def layerOf : PfCall → Option Bytes
  | .targetLayer name => some name
  | _ => none

/-- the metadata a call adds (C37 and C42 say what a client reads for it) -/
def addedBy (o : OsmObj L) : PfCall → List Meta
  | .addBool key v => [⟨key, encodeBool v⟩]
  | .addString key v => [⟨key, encodeString v⟩]
  | .addNumeric key bits => [⟨key, encodeNumeric bits⟩]
  | .addInteger key v => [⟨key, encodeInteger v⟩]
  | .tagAsBool key => addTagAsBool o.tags [] key
  | .tagAsString key => addTagAsString o.tags [] key
  | .tagAsNumeric key => addTagAsNumeric ctx.stod o.tags [] key
  | .tagAsInteger key => addTagAsInteger ctx.toDouble o.tags [] key
  | _ => []

/-- the last approval wins -/
def zoomOf (o : OsmObj L) : Option (Nat × Nat) := ((counting ctx o).filterMap (approval ctx o)).getLast?
/-- the last layer wins -/
def layerName (o : OsmObj L) : Bytes := ((counting ctx o).filterMap layerOf).getLast?.getD []
/-- everything added -/
def added (o : OsmObj L) : List Meta := (counting ctx o).flatMap (addedBy ctx o)

/-- `metas` is `all` with one entry for each key, the one with the least value, in key order -/
structure OnePerKey (all metas : List Meta) : Prop where
  sorted : (metas.map (·.key)).Pairwise (fun a b => bytesLe a b = true ∧ a ≠ b)
  keys : ∀ k, k ∈ metas.map (·.key) ↔ k ∈ all.map (·.key)
  least : ∀ e ∈ metas, e ∈ all ∧ ∀ e' ∈ all, e'.key = e.key → bytesLe e.value e'.value = true

/-- the object is wanted: approved, and it has a geometry -/
def isWanted (o : OsmObj L) : Bool := (zoomOf ctx o).isSome && (match readOsm ctx.conv o.shape with | .ok .null => false | _ => true)

/-- the stored feature is the one the profile describes; `names` are the layer names of the database -/
structure Describes (names : List Bytes) (o : OsmObj L) (f : Feature) : Prop where
  id : (f.id : Int) = o.id % 2 ^ 64
  layer : names[f.layer]? = some (layerName ctx o)
  layer_named : layerName ctx o ≠ []
  zoom : zoomOf ctx o = some (f.zmin, f.zmax)
  metas : OnePerKey (added ctx o) f.metas
  geometry : readOsm ctx.conv o.shape = .ok f.geometry

end Tiles.Spec
