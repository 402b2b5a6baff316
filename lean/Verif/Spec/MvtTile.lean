import Verif.Spec.Mvt
import Verif.Spec.Value
/-
Specification: how a client reads a vector tile (vector_tile.proto 2.1): layers, features, tags resolved through the layer's tables.
-/
namespace Tiles.Spec

structure ClientFeature where
  id : Nat
  type : Nat
  parts : List MvtPart
  tags : List (Bytes × Typed)
  deriving DecidableEq, Repr

structure ClientLayer where
  version : Nat
  name : Bytes
  extent : Nat
  features : List ClientFeature
  deriving DecidableEq, Repr

/-- all entries or nothing -/
def collect {α : Type} : List (Option α) → Option (List α)
  | [] => some []
  | none :: _ => none
  | some a :: l => (collect l).map (a :: ·)

def varintOf (tag : Nat) : PbfField → Option Nat
  | .varint t v => if t = tag then some v else none
  | _ => none

def bytesOf (tag : Nat) : PbfField → Option Bytes
  | .bytes t d => if t = tag then some d else none
  | _ => none

/-- tag pairs: indices into the key table and the value table -/
def resolve (keys : List Bytes) (values : List Typed) : List Nat → Option (List (Bytes × Typed))
  | [] => some []
  | [_] => none
  | k :: v :: r =>
    match keys[k]?, values[v]?, resolve keys values r with
    | some k, some v, some r => some ((k, v) :: r)
    | _, _, _ => none

/-- field 2 of a feature: packed, absent when empty -/
def tagIndices (fs : List PbfField) : Option (List Nat) :=
  match fs.filterMap (bytesOf 2) with
  | [] => some []
  | [d] => (match decPacked d with | .ok l => some l | _ => none)
  | _ => none

/-- field 1 of a feature: 0 when absent -/
def clientId (fs : List PbfField) : Option Nat :=
  match fs.filterMap (varintOf 1) with
  | [] => some 0
  | [id] => some id
  | _ => none

def clientFeature (keys : List Bytes) (values : List Typed) (msg : Bytes) : Option ClientFeature :=
  match decMessage msg with
  | .ok fs =>
    match clientId fs, clientGeometry fs, (tagIndices fs).bind (resolve keys values) with
    | some id, some (t, ps), some tags => some ⟨id, t, ps, tags⟩
    | _, _, _ => none
  | _ => none

def clientLayer (msg : Bytes) : Option ClientLayer :=
  match decMessage msg with
  | .ok fs =>
    match fs.filterMap (varintOf 15), fs.filterMap (bytesOf 1), fs.filterMap (varintOf 5) with
    | [ver], [name], [ext] =>
      (collect ((fs.filterMap (bytesOf 4)).map clientValue)).bind fun values =>
      (collect ((fs.filterMap (bytesOf 2)).map (clientFeature (fs.filterMap (bytesOf 3)) values))).map fun feats =>
        ⟨ver, name, ext, feats⟩
    | _, _, _ => none
  | _ => none

def clientTile (msg : Bytes) : Option (List ClientLayer) :=
  match decMessage msg with
  | .ok fs => collect ((fs.filterMap (bytesOf 3)).map clientLayer)
  | _ => none

/-- what a stored value means (metadata.h:11-17) -/
def valueMeaning : Bytes → Option Typed
  | [] => none
  | t :: r =>
    if t = 0 then some (.bool false)
    else if t = 1 then some (.bool true)
    else if t = 2 then some (.str r)
    else if t = 3 then (if r.length = 8 then some (.double (leNat r)) else none)
    else if t = 4 then (if r.length = 8 then some (.int (if leNat r < 2 ^ 63 then leNat r else (leNat r : Int) - 2 ^ 64)) else none)
    else none

end Tiles.Spec
