import Verif.Model.Pbf
import Verif.Model.Sort
/-
Model of /repo/include/tiles/feature/metadata.h, of the value export in /repo/src/mvt/tile_builder.cc and of
/repo/include/tiles/osm/pending_feature.h (metadata part).

A `double` is its 64-bit object representation; `std::stod` and the conversion int64 → double are parameters.
-/
namespace Tiles

/-- metadata.h:53-71 `metadata` -/
structure Meta where
  key : Bytes
  value : Bytes
  deriving DecidableEq, Repr

/-- object representation of an int64_t (two's complement) -/
def i64Bits (v : Int) : Nat := (v % 2 ^ 64).toNat
/-- the int64_t with this object representation -/
def bitsI64 (n : Nat) : Int := if n < 2 ^ 63 then n else (n : Int) - 2 ^ 64

/-- metadata.h:19-23 -/
def encodeBool (v : Bool) : Bytes := [if v then 1 else 0]
/-- metadata.h:25-37 -/
def encodeString (v : Bytes) : Bytes := 2 :: v
/-- metadata.h:39-44 -/
def encodeNumeric (bits : Nat) : Bytes := 3 :: leBytes 8 bits
/-- metadata.h:46-51 -/
def encodeInteger (v : Int) : Bytes := 4 :: leBytes 8 (i64Bits v)

/-- tile_builder.cc:153-182: the fields of the MVT `Value` message written for a stored value -/
def mvtValueFields (value : Bytes) : Res (List PbfField) :=
  match value with
  | [] => .throw_
  | t :: rest =>
    if t = 0 then .ok [.varint 7 0]
    else if t = 1 then .ok [.varint 7 1]
    else if t = 2 then .ok [.bytes 1 rest]
    else if t = 3 then
      if value.length ≠ 1 + 8 then .throw_ else .ok [.fixed64 3 (leNat (rest.take 8))]
    else if t = 4 then
      if value.length ≠ 1 + 8 then .throw_ else .ok [.varint 6 (zigzag (bitsI64 (leNat (rest.take 8))))]
    else .throw_

/-- the message -/
def mvtValue (value : Bytes) : Res Bytes := do
  let fs ← mvtValueFields value
  return encMessage fs

/-- osmium `get_value_by_key`: the value of the first tag with this key -/
def tagValue (tags : List (Bytes × Bytes)) (key : Bytes) : Option Bytes := (tags.find? (fun t => t.1 = key)).map (·.2)

/-- "true" -/
def kTrue : Bytes := [116, 114, 117, 101]

/-- pending_feature.h:101-105 `add_tag_as_bool` -/
def addTagAsBool (tags : List (Bytes × Bytes)) (m : List Meta) (tag : Bytes) : List Meta :=
  match tagValue tags tag with
  | some v => m ++ [⟨tag, encodeBool (v ≠ kTrue)⟩]
  | none => m

/-- pending_feature.h:107-111 `add_tag_as_string` -/
def addTagAsString (tags : List (Bytes × Bytes)) (m : List Meta) (tag : Bytes) : List Meta :=
  match tagValue tags tag with
  | some v => m ++ [⟨tag, encodeString v⟩]
  | none => m

/-- pending_feature.h:113-121 `add_tag_as_numeric`; `stod v = none` = it throws (swallowed) -/
def addTagAsNumeric (stod : Bytes → Option Nat) (tags : List (Bytes × Bytes)) (m : List Meta) (tag : Bytes) : List Meta :=
  match tagValue tags tag with
  | some v => match stod v with
    | some d => m ++ [⟨tag, encodeNumeric d⟩]
    | none => m
  | none => m

/-- decimal digits at the front of a string -/
def digitVal (ds : Bytes) : Nat := ds.foldl (fun a c => a * 10 + (c.toNat - 48)) 0

/-- `std::from_chars` for int64_t: optional '-', then digits; trailing characters are left over; out of range is an error -/
def fromCharsI64 (v : Bytes) : Option Int :=
  let neg := v.head? = some 45
  let ds := (if neg then v.drop 1 else v).takeWhile (fun c => 48 ≤ c.toNat && c.toNat ≤ 57)
  let n : Int := if neg then -(digitVal ds : Int) else digitVal ds
  if ds = [] then none
  else if -(2 : Int) ^ 63 ≤ n ∧ n < (2 : Int) ^ 63 then some n else none

/-- pending_feature.h:123-131 `add_tag_as_integer`: stores the parsed number with add_numeric;
`toDouble` is the implicit conversion int64_t → double. -/
def addTagAsInteger (toDouble : Int → Nat) (tags : List (Bytes × Bytes)) (m : List Meta) (tag : Bytes) : List Meta :=
  match tagValue tags tag with
  | some v => match fromCharsI64 v with
    | some n => m ++ [⟨tag, encodeNumeric (toDouble n)⟩]
    | none => m
  | none => m

/-- `std::string` comparison: lexicographic by octet -/
def bytesLe : Bytes → Bytes → Bool
  | [], _ => true
  | _ :: _, [] => false
  | a :: as, b :: bs => if a.toNat < b.toNat then true else if b.toNat < a.toNat then false else bytesLe as bs

/-- metadata.h:66-68 `operator<` as "not greater": lexicographic by key, then value -/
def metaLe (a b : Meta) : Bool := if a.key = b.key then bytesLe a.value b.value else bytesLe a.key b.key

/-- `std::unique` with equality of keys: keep the first of each run -/
def uniqueKeys : List Meta → List Meta
  | [] => []
  | a :: l => match uniqueKeys l with
    | [] => [a]
    | b :: r => if a.key = b.key then a :: r else a :: b :: r

/-- pending_feature.h:133-137 `finish_metadata` (utl::erase_duplicates = sort, unique, erase) -/
def finishMetadata (m : List Meta) : List Meta := uniqueKeys (sortBy metaLe m)

end Tiles
