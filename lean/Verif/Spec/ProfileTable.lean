import Verif.Model.LuaProfile
/-
Specification vocabulary for C66: what the two profiles say, as tables.  A table is a list of rules; the first rule whose conditions hold for the
tags of an object decides: the object is stored as the rule says, or (rules without a layer) not at all.  An object without a rule is not stored.
-/
namespace Tiles.Spec

/-- the values of the tags of an object -/
abbrev Tags := Bytes → Option Bytes

/-- a tag is present (`none`), or has one of some values -/
abbrev TagCond := Bytes × Option (List Bytes)

def tagHolds (v : Tags) (c : TagCond) : Bool :=
  match v c.1, c.2 with
  | none, _ => false
  | some _, none => true
  | some x, some xs => xs.contains x

/-- an attribute of the stored feature -/
inductive Attr where
  | text (s : Bytes)
  /-- a number, which is stored as a `double` -/
  | number (n : Int)
  | integer (n : Int)
deriving DecidableEq

/-- where the attributes come from -/
inductive AttrRule where
  /-- a constant text -/
  | const (key value : Bytes)
  /-- the text of the tag, if there is one -/
  | copy (key : Bytes)
  /-- the number at the front of the tag, if there is one -/
  | number (key : Bytes)
  /-- the levels of an elevator or of steps (see C66_levels) -/
  | levels

/-- the attributes that a rule for attributes gives; `numeral` is the value of a numeral -/
def AttrRule.attrs (numeral : Bytes → Option Int) (v : Tags) : AttrRule → List (Bytes × Attr)
  | .const k x => [(k, .text x)]
  | .copy k => match v k with | some x => [(k, .text x)] | none => []
  | .number k => match v k with | some x => (match fromCharsI64 x with | some n => [(k, .number n)] | none => []) | none => []
  | .levels => match v b!"level" with
    | none => []
    | some l => match splitLevel l with
      | none => []
      | some (a, b) => match numeral a, numeral b with
        | some x, some y => [(b!"from_level", .integer x), (b!"to_level", .integer y)]
        | some x, none => [(b!"from_level", .integer x)]
        | none, _ => []

/-- how it is stored: the layer, the first zoom level — beside the first area that is larger than the area of the object (`none`: any) —, the attributes -/
structure RuleOut where
  layer : Bytes
  zoom : List (Nat × Option Int)
  attrs : List AttrRule

structure Rule where
  /-- all of these hold, each if one of its conditions does -/
  conds : List (List TagCond)
  out : Option RuleOut

def Rule.fires (v : Tags) (r : Rule) : Bool := r.conds.all (fun d => d.any (tagHolds v))

/-- the first rule decides -/
def decideBy (table : List Rule) (v : Tags) : Option RuleOut :=
  match table.find? (fun r => r.fires v) with
  | some r => r.out
  | none => none

/-- the first zoom level for an area -/
def levelFor (area : Int) : List (Nat × Option Int) → Option Nat
  | [] => none
  | (z, none) :: _ => some z
  | (z, some limit) :: l => if area < limit then some z else levelFor area l

/-- the attributes of the stored feature -/
def RuleOut.attributes (numeral : Bytes → Option Int) (v : Tags) (r : RuleOut) : List (Bytes × Attr) := r.attrs.flatMap (AttrRule.attrs numeral v)

/-- what is stored for an attribute (what a client reads for it: C37) -/
def Attr.stored (toDouble : Int → Nat) : Attr → Bytes
  | .text s => encodeString s
  | .number n => encodeNumeric (toDouble n)
  | .integer n => encodeInteger n

/-! ### the tables -/

/-- a tag has one of the values -/
abbrev among (k : Bytes) (vs : List Bytes) : TagCond := (k, some vs)
/-- there is a tag -/
abbrev present (k : Bytes) : TagCond := (k, none)
/-- from a zoom level on -/
abbrev fromLevel (z : Nat) : List (Nat × Option Int) := [(z, none)]
/-- three zoom levels, for areas below 10^8, below 10^10, and others -/
abbrev byArea (a b c : Nat) : List (Nat × Option Int) := [(a, some (10 ^ 8)), (b, some (10 ^ 10)), (c, none)]
/-- a rule with alternatives -/
abbrev rule (conds : List TagCond) (layer : Bytes) (zoom : List (Nat × Option Int)) (attrs : List AttrRule) : Rule := ⟨[conds], some ⟨layer, zoom, attrs⟩⟩
/-- not stored -/
abbrev ruleNone (conds : List TagCond) : Rule := ⟨[conds], none⟩

def placeAttrs : List AttrRule := [.copy b!"place", .copy b!"name", .number b!"population"]
def roadAttrs : List AttrRule := [.copy b!"highway", .copy b!"name"]

/-- full.lua, nodes -/
def fullNodes : List Rule := [
  rule [among b!"place" [b!"city"]] b!"cities" (fromLevel 5) placeAttrs,
  rule [among b!"place" [b!"town", b!"borough"]] b!"cities" (fromLevel 9) placeAttrs,
  rule [among b!"place" [b!"suburb", b!"village"]] b!"cities" (fromLevel 11) placeAttrs,
  ruleNone [present b!"place"],
  rule [among b!"highway" [b!"elevator"]] b!"indoor" (fromLevel 18) [.const b!"indoor" b!"elevator", .levels]]

/-- the roads that begin at zoom level 5 and 9 -/
def largeRoads : List Bytes := [b!"motorway", b!"trunk"]
def mediumRoads : List Bytes := [b!"motorway_link", b!"trunk_link", b!"primary", b!"secondary", b!"tertiary", b!"aeroway"]
def smallRoads : List Bytes := [b!"residential", b!"living_street", b!"primary_link", b!"secondary_link", b!"tertiary_link", b!"unclassified", b!"service"]

/-- sidings, museum railways and so on -/
def minorRail : List TagCond := [among b!"usage" [b!"industrial", b!"military", b!"test", b!"tourism"], among b!"service" [b!"yard", b!"spur"],
  among b!"railway:preserved" [b!"yes"]]

def waterways : List Rule := [
  rule [among b!"waterway" [b!"river", b!"canal"]] b!"waterway" (fromLevel 8) [],
  rule [among b!"waterway" [b!"stream"]] b!"waterway" (fromLevel 13) [],
  rule [among b!"waterway" [b!"ditch", b!"drain"]] b!"waterway" (fromLevel 15) []]

/-- full.lua, ways -/
def fullWays : List Rule := [
  rule [among b!"highway" [b!"elevator"]] b!"indoor" (fromLevel 18) [.const b!"indoor" b!"elevator", .levels],
  rule [among b!"highway" largeRoads] b!"road" (fromLevel 5) (roadAttrs ++ [.copy b!"ref"]),
  rule [among b!"highway" mediumRoads] b!"road" (fromLevel 9) (roadAttrs ++ [.copy b!"ref"]),
  rule [among b!"highway" (smallRoads ++ [b!"track", b!"cycleway", b!"path"])] b!"road" (fromLevel 12) roadAttrs,
  rule [among b!"highway" [b!"steps"]] b!"road" (fromLevel 12) (roadAttrs ++ [.levels]),
  rule [among b!"highway" [b!"footway"]] b!"road" (fromLevel 12) (roadAttrs ++ [.number b!"level"]),
  ruleNone [present b!"highway"],
  ⟨[[among b!"railway" [b!"rail", b!"subway", b!"tram"]], minorRail], some ⟨b!"rail", fromLevel 14, [.const b!"rail" b!"detail", .number b!"level"]⟩⟩,
  rule [among b!"railway" [b!"subway", b!"tram"]] b!"rail" (fromLevel 10) [.const b!"rail" b!"secondary", .number b!"level"],
  rule [among b!"railway" [b!"rail"]] b!"rail" (fromLevel 5) [.const b!"rail" b!"primary", .number b!"level"]] ++ waterways

/-- an area of layer `landuse` -/
abbrev landuse (conds : List TagCond) (kind : Bytes) : Rule := rule conds b!"landuse" (byArea 14 10 8) [.const b!"landuse" kind]

/-- public buildings and their grounds -/
def complexConds : List TagCond := [among b!"leisure" [b!"sports_centre"],
  among b!"amenity" [b!"hospital", b!"police", b!"fire_station", b!"kindergarten", b!"school", b!"place_of_worship", b!"university"]]

/-- the end of both tables for areas -/
def commonAreas : List Rule := [
  landuse [among b!"landuse" [b!"cemetery"]] b!"cemetery",
  rule [among b!"landuse" [b!"brownfield", b!"greenfield", b!"construction"]] b!"construction" (byArea 14 10 8) [],
  rule [among b!"natural" [b!"water"], among b!"waterway" [b!"riverbank", b!"basin", b!"pond"], among b!"leisure" [b!"swimming_pool"]] b!"water"
    [(12, some (10 ^ 6)), (0, none)] [],
  landuse [among b!"natural" [b!"beach"]] b!"beach",
  rule [among b!"highway" [b!"pedestrian", b!"service"], among b!"amenity" [b!"parking"]] b!"pedestrian" (byArea 12 10 8) [],
  rule [among b!"leisure" [b!"pitch"]] b!"sport" (byArea 14 12 8) []]

/-- full.lua, areas -/
def fullAreas : List Rule := [
  rule [present b!"building"] b!"building" (byArea 14 12 10) [],
  rule [among b!"landuse" [b!"residential", b!"retail", b!"industrial", b!"commercial"]] b!"landuse" (byArea 14 10 8) [.copy b!"landuse"],
  landuse [among b!"landuse" [b!"quarry", b!"farmyard", b!"railway"]] b!"industrial",
  landuse complexConds b!"complex",
  landuse [among b!"landuse" [b!"forest"], among b!"natural" [b!"wood", b!"oarchard", b!"scrub"]] b!"nature_heavy",
  landuse [among b!"landuse" [b!"farmland", b!"vineyard", b!"plant_nursery", b!"meadow", b!"grass"], among b!"natural" [b!"grassland"]] b!"nature_light",
  landuse [among b!"leisure" [b!"park", b!"garden", b!"playground", b!"stadium"],
    among b!"landuse" [b!"recreation_ground", b!"greenhouse_horticulture", b!"allotments"]] b!"park"] ++ commonAreas ++ [
  rule [among b!"public_transport" [b!"platform", b!"stop_area"]] b!"landuse" (byArea 12 10 8) [.const b!"landuse" b!"public_transport", .number b!"level"],
  rule [present b!"indoor"] b!"indoor" (fromLevel 18) [.copy b!"indoor", .copy b!"name", .copy b!"shop", .number b!"level"]]

/-- background.lua, nodes -/
def backgroundNodes : List Rule := [
  rule [among b!"place" [b!"country"]] b!"region" (fromLevel 3) placeAttrs,
  rule [among b!"place" [b!"state", b!"region", b!"province"]] b!"region" (fromLevel 7) placeAttrs,
  rule [among b!"place" [b!"city"]] b!"cities" (fromLevel 6) placeAttrs,
  rule [among b!"place" [b!"town", b!"borough"]] b!"cities" (fromLevel 9) placeAttrs,
  rule [among b!"place" [b!"suburb", b!"village"]] b!"cities" (fromLevel 11) placeAttrs]

/-- background.lua, ways -/
def backgroundWays : List Rule := [
  rule [among b!"highway" largeRoads] b!"road" (fromLevel 5) (roadAttrs ++ [.copy b!"ref"]),
  rule [among b!"highway" mediumRoads] b!"road" (fromLevel 9) (roadAttrs ++ [.copy b!"ref"]),
  rule [among b!"highway" smallRoads] b!"road" (fromLevel 12) roadAttrs,
  rule [among b!"highway" [b!"footway", b!"track", b!"steps", b!"cycleway", b!"path"]] b!"road" (fromLevel 14) roadAttrs,
  ruleNone [present b!"highway"],
  ⟨[[among b!"railway" [b!"rail", b!"light_rail", b!"subway", b!"tram", b!"narrow_gauge"]], minorRail], some ⟨b!"rail", fromLevel 14, [.const b!"rail" b!"detail"]⟩⟩,
  rule [among b!"railway" [b!"subway", b!"tram", b!"light_rail", b!"narrow_gauge"]] b!"rail" (fromLevel 10) [.const b!"rail" b!"secondary"],
  rule [among b!"railway" [b!"rail"]] b!"rail" (fromLevel 5) [.const b!"rail" b!"primary"]] ++ waterways

/-- background.lua, areas -/
def backgroundAreas : List Rule := [rule [present b!"building"] b!"building" (byArea 14 12 10) [], landuse complexConds b!"complex"] ++ commonAreas

/-- the tables of a profile -/
structure Tables where
  nodes : List Rule
  ways : List Rule
  areas : List Rule

def fullTables : Tables := ⟨fullNodes, fullWays, fullAreas⟩
def backgroundTables : Tables := ⟨backgroundNodes, backgroundWays, backgroundAreas⟩

/-- the table for a kind of object -/
def Tables.of {L : Type} (t : Tables) : OsmShape L → List Rule
  | .node _ => t.nodes
  | .way _ => t.ways
  | .area _ => t.areas

end Tiles.Spec
