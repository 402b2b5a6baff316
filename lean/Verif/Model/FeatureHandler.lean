import Verif.Model.FeatureIO
import Verif.Model.LayerNames
import Verif.Model.OsmGeometry
import Verif.Model.Parallel
/-
Model of /repo/include/tiles/osm/pending_feature.h and /repo/src/osm/feature_handler.cc, and of the part of
/repo/src/osm/load_osm.cc:80-151 that runs one handler per thread and stores the two tables at the end.

The Lua profile is arbitrary: what it does when called with an object is the list of calls it makes on the pending feature (a script
sees nothing but the id and the tags of the object and its own variables, and the calls that change the pending feature return nothing).
A C++ exception in a call becomes a Lua error: the script stops there, and the handler goes on (feature_handler.cc:80-85).

Parameters: `conv` (latlng_to_fixed), `area` (fixed/algo/area.h, modelled in Model/Area), `stod`, `toDouble`.
-/
namespace Tiles

/-- what `read_osm_geometry` is called with -/
inductive OsmShape (L : Type) where
  | node (loc : Option L)
  | way (nodes : List (Option L))
  | area (items : List (AreaItem L))

/-- read_osm_geometry.h: the three overloads -/
def readOsm {L : Type} (conv : L → XY) : OsmShape L → Res Geometry
  | .node loc => .ok (readOsmNode conv loc)
  | .way nodes => .ok (readOsmWay conv nodes)
  | .area items => readOsmArea conv items

/-- the calls of a profile that change a pending feature (feature_handler.cc:19-38) -/
inductive PfCall where
  | approvedMin (min : UInt32)
  | approvedFull
  /-- the variadic arguments, as the script passes them -/
  | approvedMinByArea (args : List Int)
  | targetLayer (name : Bytes)
  | addBool (key : Bytes) (v : Bool)
  | addString (key v : Bytes)
  | addNumeric (key : Bytes) (bits : Nat)
  | addInteger (key : Bytes) (v : Int)
  | tagAsBool (key : Bytes)
  | tagAsString (key : Bytes)
  | tagAsNumeric (key : Bytes)
  | tagAsInteger (key : Bytes)

/-- an object of the input and what the profile does with it -/
structure OsmObj (L : Type) where
  id : Int
  tags : List (Bytes × Bytes)
  shape : OsmShape L
  calls : List PfCall

/-- pending_feature.h:139-148 -/
structure Pending where
  approved : Bool
  zmin : Nat
  zmax : Nat
  layer : Bytes
  metas : List Meta
  geometry : Option Geometry
  deriving Repr

/-- pending_feature.h:19-23 (`zoom_levels_` is value-initialized) -/
def pendingInit : Pending := ⟨false, 0, 0, [], [], none⟩

/-- the parameters -/
structure ProfileCtx (L : Type) where
  conv : L → XY
  area : Geometry → Res Int
  stod : Bytes → Option Nat
  toDouble : Int → Nat

variable {L : Type} (ctx : ProfileCtx L)

/-- pending_feature.h:76-79 `set_approved` -/
def setApproved (p : Pending) (min max : Nat) : Pending := { p with approved := true, zmin := min, zmax := max }

/-- pending_feature.h:47-49 `set_approved_min` -/
def setApprovedMin (p : Pending) (min : Nat) : Pending := setApproved p min (kMaxZoomLevel + 1)

/-- pending_feature.h:67-73: the loop over pairs; the first element of a pair is converted to uint32_t -/
def approveByArea (area : Int) (p : Pending) : List Int → Pending
  | min :: limit :: args =>
    if limit = -1 ∨ area < limit then setApprovedMin p (min % 2 ^ 32).toNat else approveByArea area p args
  | _ => p

/-- pending_feature.h:62-64 and feature_handler.cc:94-96: the geometry is read once -/
def readGeometry (o : OsmObj L) (p : Pending) : Res Geometry :=
  match p.geometry with
  | some g => .ok g
  | none => readOsm ctx.conv o.shape

/-- pending_feature.h:58-74 `set_approved_min_by_area` -/
def setApprovedMinByArea (o : OsmObj L) (p : Pending) (args : List Int) : Res Pending := do
  verify (decide (args.length % 2 = 0))
  let g ← readGeometry ctx o p
  let a ← ctx.area g
  return approveByArea a { p with geometry := some g } args

/-- one call of the profile -/
def applyCall (o : OsmObj L) (p : Pending) : PfCall → Res Pending
  | .approvedMin min => .ok (setApprovedMin p min.toNat)
  | .approvedFull => .ok (setApproved p 0 (kMaxZoomLevel + 1))
  | .approvedMinByArea args => setApprovedMinByArea ctx o p args
  | .targetLayer name => .ok { p with layer := name }
  | .addBool key v => .ok { p with metas := p.metas ++ [⟨key, encodeBool v⟩] }
  | .addString key v => .ok { p with metas := p.metas ++ [⟨key, encodeString v⟩] }
  | .addNumeric key bits => .ok { p with metas := p.metas ++ [⟨key, encodeNumeric bits⟩] }
  | .addInteger key v => .ok { p with metas := p.metas ++ [⟨key, encodeInteger v⟩] }
  | .tagAsBool key => .ok { p with metas := addTagAsBool o.tags p.metas key }
  | .tagAsString key => .ok { p with metas := addTagAsString o.tags p.metas key }
  | .tagAsNumeric key => .ok { p with metas := addTagAsNumeric ctx.stod o.tags p.metas key }
  | .tagAsInteger key => .ok { p with metas := addTagAsInteger ctx.toDouble o.tags p.metas key }

/-- feature_handler.cc:80-85: the script runs until its end or its first error -/
def runProfile (o : OsmObj L) (p : Pending) : List PfCall → Res Pending
  | [] => .ok p
  | c :: cs => match applyCall ctx o p c with
    | .ok p => runProfile o p cs
    | .throw_ => .ok p
    | .ub => .ub

/-- feature_handler.cc:87-107: what is to be stored; the layer is still a name (the field `layer` of the feature is not set yet) -/
def pendingFeature (o : OsmObj L) : Res (Option (Bytes × Feature)) := do
  let p ← runProfile ctx o pendingInit o.calls
  if !p.approved then return none else
  verify (decide (p.layer ≠ []))
  let g ← readGeometry ctx o p
  if g = .null then return none else
  return some (p.layer, ⟨(o.id % 2 ^ 64).toNat, 0, p.zmin, p.zmax, finishMetadata p.metas, g⟩)

/-! ### several threads -/

/-- the builders shared by the handlers (load_osm.cc:80-81) -/
structure HandlerShared where
  names : NameMap
  metas : MetaBuilder

/-- where a thread is in `handle_feature`; `todo`: the objects it will still handle, `done`: the features it has inserted -/
inductive HandlerPc (L : Type) where
  | next (todo : List (OsmObj L)) (done : List Feature)
  /-- before line 102 -/
  | update (layer : Bytes) (f : Feature) (todo : List (OsmObj L)) (done : List Feature)
  /-- before line 105 -/
  | index (layer : Bytes) (f : Feature) (todo : List (OsmObj L)) (done : List Feature)
  /-- before the call of `insert`, line 104 -/
  | insert (f : Feature) (todo : List (OsmObj L)) (done : List Feature)
  /-- an exception left `handle_feature` -/
  | failed

/-- feature_handler.cc:72-108 `handle_feature`, one access to shared data at a time -/
def handlerStep (s : HandlerShared) : HandlerPc L → Option (HandlerShared × HandlerPc L)
  | .next [] _ => none
  | .next (o :: todo) done => match pendingFeature ctx o with
    | .ok (some (layer, f)) => some (s, .update layer f todo done)
    | .ok none => some (s, .next todo done)
    | _ => some (s, .failed)
  | .update layer f todo done =>
    some ({ s with metas := { s.metas with queue := s.metas.queue ++ f.metas } }, .index layer f todo done)
  | .index layer f todo done =>
    let (names, i) := getLayerIdx s.names layer
    some ({ s with names := names }, .insert { f with layer := i } todo done)
  | .insert f todo done => some (s, .next todo (done ++ [f]))
  | .failed => none

/-- a step of a thread, or a flush of the metadata builder (shared_metadata.h:34-36, done by a thread after its update; here at any time) -/
inductive LoadStep : HandlerShared × List (HandlerPc L) → HandlerShared × List (HandlerPc L) → Prop
  | thread {s t : HandlerShared × List (HandlerPc L)} (h : ThreadStep (handlerStep ctx) s t) : LoadStep s t
  | flush (s : HandlerShared) (ps : List (HandlerPc L)) (buf rest : List Meta) (counts : List (Meta × Nat))
      (hq : (buf ++ rest).Perm s.metas.queue) (hb : buf ≠ []) (hc : addCounts s.metas.counts buf = .ok counts) :
      LoadStep (s, ps) ({ s with metas := ⟨rest, counts⟩ }, ps)

/-- load_osm.cc:80-108: new builders, one handler per thread; `objs` tells which objects each thread gets, in order -/
def loadInit (objs : List (List (OsmObj L))) : HandlerShared × List (HandlerPc L) :=
  (⟨layerNamesInit, ⟨[], []⟩⟩, objs.map (.next · []))

/-- load_osm.cc:145-150: the stored values (`store` flushes until the queue is empty, which `LoadStep` allows at any time) -/
def loadStore (s : HandlerShared) : Res (Bytes × Bytes) := do
  let names ← storeLayerNames s.names
  return (names, metaTableBytes ((metaTable s.metas.counts).map (·.1)))

end Tiles
