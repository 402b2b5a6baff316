import Verif.Model.Pbf
/-
Model of /repo/include/tiles/db/layer_names.h.  The map is an association list; every access is under the mutex
(layer_names.h:45), so requests of several threads are a sequence.
-/
namespace Tiles

/-- "coastline" (layer_names.h:18) -/
def kLayerCoastlineName : Bytes := [99, 111, 97, 115, 116, 108, 105, 110, 101]

/-- `std::map<std::string, size_t>` -/
abbrev NameMap := List (Bytes × Nat)

/-- layer_names.h:40-42, the constructor -/
def layerNamesInit : NameMap := [(kLayerCoastlineName, 0)]

/-- `utl::get_or_create_index(map, key)` (external): the stored index, or the current size as a new index -/
def getOrCreateIndex {κ : Type} [DecidableEq κ] (m : List (κ × Nat)) (key : κ) : List (κ × Nat) × Nat :=
  match m.lookup key with
  | some i => (m, i)
  | none => (m ++ [(key, m.length)], m.length)

/-- layer_names.h:44-47 -/
def getLayerIdx (m : NameMap) (name : Bytes) : NameMap × Nat := getOrCreateIndex m name

/-- a sequence of requests and the answers -/
def layerRequests (m : NameMap) : List Bytes → NameMap × List Nat
  | [] => (m, [])
  | n :: ns =>
    let (m, i) := getLayerIdx m n
    let (m, is) := layerRequests m ns
    (m, i :: is)

/-- layer_names.h:52-54: `sorted.at(idx) = name` for all entries -/
def fillSorted (sorted : List Bytes) : NameMap → Res (List Bytes)
  | [] => .ok sorted
  | (name, idx) :: m => if idx < sorted.length then fillSorted (sorted.set idx name) m else .throw_

/-- layer_names.h:20-28 `write_layer_names` -/
def writeLayerNames (names : List Bytes) : Bytes := encMessage (names.map (.bytes 1 ·))

/-- layer_names.h:49-59 `store`: the bytes written -/
def storeLayerNames (m : NameMap) : Res Bytes := do
  let sorted ← fillSorted (List.replicate m.length []) m
  return writeLayerNames sorted

/-- layer_names.h:33-35: `get_string` of each field (another wire type is not checked in release builds) -/
def readStrings : List PbfField → Res (List Bytes)
  | [] => .ok []
  | .bytes _ d :: fs => do
    let r ← readStrings fs
    return d :: r
  | _ => .ub

/-- layer_names.h:30-37, 65-74 `get_layer_names` -/
def loadLayerNames (stored : Option Bytes) : Res (List Bytes) :=
  match stored with
  | none => .ok [kLayerCoastlineName]
  | some b => do
    let fs ← decMessage b
    readStrings fs

end Tiles
