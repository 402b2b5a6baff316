import Verif.Model.FeatureHandler
/-
Model of the profiles /repo/profile/full.lua and /repo/profile/background.lua, as data: the part of Lua they are written in (conditions on tags,
`if`, calls on the object, and the block that reads levels), what a program of this kind does with an object (the list of its calls on the pending
feature, which Model/FeatureHandler executes), and the two programs, line by line.

Lua (LuaJIT) and sol are external.  `numeral` is what `tonumber`, and the conversion to `int64_t` when the number is passed to `add_integer`, make of
an optional minus sign and digits; `none` is a Lua error, which ends the script.  (Both are exact for numbers of moderate size; C66 says where this is used.)
`[%d]` is `isdigit` in the "C" locale.
-/
namespace Tiles

/-- `b!"text"`: the octets of a string -/
macro:max "b!" s:str : term => do
  let ts := (s.getString.toUTF8.toList.map fun c => Lean.Syntax.mkNumLit (toString c.toNat)).toArray
  `(([$ts,*] : List UInt8))

/-- the conditions in the profiles -/
inductive LuaCond where
  /-- `obj:has_tag(key, value)` -/
  | hasTag (key value : Bytes)
  /-- `obj:has_any_tag(key, values...)` -/
  | hasAny (key : Bytes) (values : List Bytes)
  /-- `a or b` -/
  | or (a b : LuaCond)

/-- the statements in the profiles -/
inductive LuaStmt where
  | skip
  | seq (a b : LuaStmt)
  /-- a call on the object with constant arguments -/
  | call (c : PfCall)
  /-- `if c then t else e end` -/
  | ite (c : LuaCond) (t e : LuaStmt)
  /-- the block of full.lua:37-43 (the same in lines 53-59 and 95-101) -/
  | levels

infixr:30 " ;; " => LuaStmt.seq
infixr:35 " or' " => LuaCond.or

/-- pending_feature.h:27-45: `has_tag`, `has_any_tag` -/
def LuaCond.eval (tags : List (Bytes × Bytes)) : LuaCond → Bool
  | .hasTag key value => decide (value = (tagValue tags key).getD [])
  | .hasAny key [] => (tagValue tags key).isSome
  | .hasAny key (v :: vs) => (v :: vs).any (fun v => decide ((tagValue tags key).getD [] = v))
  | .or a b => a.eval tags || b.eval tags

/-- `[%d]` -/
def luaDigit (c : UInt8) : Bool := 48 ≤ c.toNat && c.toNat ≤ 57

/-- the pattern `-?[%d]+` at the front of a string: what it matches and the rest.  (It is greedy, and less digits never help: a digit would follow.) -/
def numeralAt (s : Bytes) : Option (Bytes × Bytes) :=
  let sign := if s.head? = some 45 then [45] else []
  let r := s.drop sign.length
  if r.takeWhile luaDigit = [] then none else some (sign ++ r.takeWhile luaDigit, r.dropWhile luaDigit)

/-- `level:match("(-?[%d]+)")`: the first position at which the pattern matches -/
def matchOne : Bytes → Option Bytes
  | [] => none
  | c :: s => match numeralAt (c :: s) with
    | some (n, _) => some n
    | none => matchOne s

/-- the pattern `(-?[%d]+);(-?[%d]+)` at the front of a string -/
def pairAt (s : Bytes) : Option (Bytes × Bytes) :=
  match numeralAt s with
  | some (n, 59 :: r) => (numeralAt r).map (fun m => (n, m.1))
  | _ => none

/-- `level:match("(-?[%d]+);(-?[%d]+)")` -/
def matchTwo : Bytes → Option (Bytes × Bytes)
  | [] => none
  | c :: s => match pairAt (c :: s) with
    | some p => some p
    | none => matchTwo s

/-- full.lua:1-13 `split_level`, before `tonumber` -/
def splitLevel (level : Bytes) : Option (Bytes × Bytes) :=
  match matchTwo level with
  | some p => some p
  | none => (matchOne level).map (fun n => (n, n))

/-- full.lua:37-43: the calls, and whether the script goes on -/
def levelCalls (numeral : Bytes → Option Int) (tags : List (Bytes × Bytes)) : List PfCall × Bool :=
  match tagValue tags b!"level" with
  | none => ([], true)
  | some level => match splitLevel level with
    | none => ([], true)
    | some (a, b) => match numeral a with
      | none => ([], false)
      | some x => match numeral b with
        | none => ([.addInteger b!"from_level" x], false)
        | some y => ([.addInteger b!"from_level" x, .addInteger b!"to_level" y], true)

/-- what a program does with an object: its calls, and whether it gets to its end -/
def LuaStmt.exec (numeral : Bytes → Option Int) (tags : List (Bytes × Bytes)) : LuaStmt → List PfCall × Bool
  | .skip => ([], true)
  | .seq a b =>
    if (a.exec numeral tags).2 then ((a.exec numeral tags).1 ++ (b.exec numeral tags).1, (b.exec numeral tags).2) else a.exec numeral tags
  | .call c => ([c], true)
  | .ite c t e => if c.eval tags then t.exec numeral tags else e.exec numeral tags
  | .levels => levelCalls numeral tags

/-- a profile: three functions (feature_handler.cc:40-42) -/
structure LuaProfile where
  node : LuaStmt
  way : LuaStmt
  area : LuaStmt

/-- feature_handler.cc:110-121: the function called for a kind of object -/
def LuaProfile.body {L : Type} (p : LuaProfile) : OsmShape L → LuaStmt
  | .node _ => p.node
  | .way _ => p.way
  | .area _ => p.area

/-- an object, with the calls the profile makes for it -/
def LuaProfile.object {L : Type} (p : LuaProfile) (numeral : Bytes → Option Int) (id : Int) (tags : List (Bytes × Bytes)) (shape : OsmShape L) : OsmObj L :=
  ⟨id, tags, shape, ((p.body shape).exec numeral tags).1⟩

namespace Lua
/-! abbreviations, as in the Lua source -/
abbrev is (k v : Bytes) : LuaCond := .hasTag k v
abbrev any (k : Bytes) (vs : List Bytes := []) : LuaCond := .hasAny k vs
abbrev approvedMin (z : UInt32) : LuaStmt := .call (.approvedMin z)
abbrev byArea (args : List Int) : LuaStmt := .call (.approvedMinByArea args)
abbrev layer (n : Bytes) : LuaStmt := .call (.targetLayer n)
abbrev addString (k v : Bytes) : LuaStmt := .call (.addString k v)
abbrev tagString (k : Bytes) : LuaStmt := .call (.tagAsString k)
abbrev tagInteger (k : Bytes) : LuaStmt := .call (.tagAsInteger k)
end Lua

open Lua

/-! ### /repo/profile/full.lua -/

/-- full.lua:15-45 -/
def fullNode : LuaStmt :=
  .ite (any b!"place")
    (.ite (is b!"place" b!"city") (approvedMin 5)
      (.ite (is b!"place" b!"town" or' is b!"place" b!"borough") (approvedMin 9)
        (.ite (is b!"place" b!"suburb" or' is b!"place" b!"village") (approvedMin 11) .skip)) ;;
     layer b!"cities" ;;
     tagString b!"place" ;;
     tagString b!"name" ;;
     tagInteger b!"population")
    (.ite (is b!"highway" b!"elevator")
      (approvedMin 18 ;;
       layer b!"indoor" ;;
       addString b!"indoor" b!"elevator" ;;
       .levels)
      .skip)

/-- full.lua:61-104 -/
def fullRoad : LuaStmt :=
  layer b!"road" ;;
  tagString b!"highway" ;;
  tagString b!"name" ;;
  .ite (is b!"highway" b!"motorway" or' is b!"highway" b!"trunk")
    (approvedMin 5 ;; tagString b!"ref")
    (.ite (is b!"highway" b!"motorway_link" or' is b!"highway" b!"trunk_link" or' is b!"highway" b!"primary" or' is b!"highway" b!"secondary" or'
           is b!"highway" b!"tertiary" or' is b!"highway" b!"aeroway")
      (approvedMin 9 ;; tagString b!"ref")
      (.ite (is b!"highway" b!"residential" or' is b!"highway" b!"living_street" or' is b!"highway" b!"primary_link" or' is b!"highway" b!"secondary_link" or'
             is b!"highway" b!"tertiary_link" or' is b!"highway" b!"unclassified" or' is b!"highway" b!"service" or' is b!"highway" b!"footway" or'
             is b!"highway" b!"track" or' is b!"highway" b!"steps" or' is b!"highway" b!"cycleway" or' is b!"highway" b!"path")
        (approvedMin 12) .skip)) ;;
  .ite (is b!"highway" b!"steps") .levels
    (.ite (is b!"highway" b!"footway") (tagInteger b!"level") .skip)

/-- full.lua:116-123, and background.lua:76-83 -/
def luaMinor : LuaCond :=
  is b!"usage" b!"industrial" or' is b!"usage" b!"military" or' is b!"usage" b!"test" or' is b!"usage" b!"tourism" or' is b!"service" b!"yard" or'
  is b!"service" b!"spur" or' is b!"railway" b!"miniature" or' is b!"railway:preserved" b!"yes"

/-- full.lua:108-139 -/
def fullRail : LuaStmt :=
  tagInteger b!"level" ;;
  .ite (is b!"railway" b!"disused" or' is b!"railway" b!"abandoned")
    (layer b!"rail" ;; approvedMin 14 ;; addString b!"rail" b!"old")
    (.ite luaMinor
      (tagInteger b!"level" ;; layer b!"rail" ;; approvedMin 14 ;; addString b!"rail" b!"detail")
      (.ite (is b!"railway" b!"subway" or' is b!"railway" b!"tram")
        (layer b!"rail" ;; approvedMin 10 ;; addString b!"rail" b!"secondary")
        (layer b!"rail" ;; approvedMin 5 ;; addString b!"rail" b!"primary")))

/-- full.lua:142-152, and background.lua:103-113 -/
def luaWaterway : LuaStmt :=
  layer b!"waterway" ;;
  .ite (is b!"waterway" b!"river" or' is b!"waterway" b!"canal") (approvedMin 8)
    (.ite (is b!"waterway" b!"stream") (approvedMin 13)
      (.ite (is b!"waterway" b!"ditch" or' is b!"waterway" b!"drain") (approvedMin 15) .skip))

/-- full.lua:47-165 -/
def fullWay : LuaStmt :=
  .ite (any b!"highway")
    (.ite (is b!"highway" b!"elevator")
      (approvedMin 18 ;; layer b!"indoor" ;; addString b!"indoor" b!"elevator" ;; .levels)
      fullRoad)
    (.ite (any b!"railway" [b!"rail", b!"subway", b!"tram"]) fullRail
      (.ite (any b!"waterway") luaWaterway .skip))

/-- full.lua:177-179 and the same in many places -/
def byAreaLanduse : LuaStmt := byArea [14, 100000000, 10, 10000000000, 8, -1]

/-- full.lua:167-302 -/
def fullArea : LuaStmt :=
  .ite (any b!"building") (layer b!"building" ;; byArea [14, 100000000, 12, 10000000000, 10, -1]) <|
  .ite (any b!"landuse" [b!"residential", b!"retail", b!"industrial", b!"commercial"]) (layer b!"landuse" ;; tagString b!"landuse" ;; byAreaLanduse) <|
  .ite (any b!"landuse" [b!"quarry", b!"farmyard", b!"railway"]) (layer b!"landuse" ;; addString b!"landuse" b!"industrial" ;; byAreaLanduse) <|
  .ite (is b!"leisure" b!"sports_centre" or' is b!"amenity" b!"hospital" or' is b!"amenity" b!"police" or' is b!"amenity" b!"fire_station" or'
        is b!"amenity" b!"kindergarten" or' is b!"amenity" b!"school" or' is b!"amenity" b!"place_of_worship" or' is b!"amenity" b!"university")
    (layer b!"landuse" ;; addString b!"landuse" b!"complex" ;; byAreaLanduse) <|
  .ite (is b!"landuse" b!"forest" or' is b!"natural" b!"wood" or' is b!"natural" b!"oarchard" or' is b!"natural" b!"scrub")
    (layer b!"landuse" ;; addString b!"landuse" b!"nature_heavy" ;; byAreaLanduse) <|
  .ite (is b!"landuse" b!"farmland" or' is b!"landuse" b!"vineyard" or' is b!"landuse" b!"plant_nursery" or' is b!"landuse" b!"meadow" or'
        is b!"natural" b!"grassland" or' is b!"landuse" b!"grass")
    (layer b!"landuse" ;; addString b!"landuse" b!"nature_light" ;; byAreaLanduse) <|
  .ite (is b!"leisure" b!"park" or' is b!"leisure" b!"garden" or' is b!"leisure" b!"playground" or' is b!"leisure" b!"stadium" or'
        is b!"landuse" b!"recreation_ground" or' is b!"landuse" b!"greenhouse_horticulture" or' is b!"landuse" b!"allotments")
    (layer b!"landuse" ;; addString b!"landuse" b!"park" ;; byAreaLanduse) <|
  .ite (is b!"landuse" b!"cemetery") (layer b!"landuse" ;; addString b!"landuse" b!"cemetery" ;; byAreaLanduse) <|
  .ite (is b!"landuse" b!"brownfield" or' is b!"landuse" b!"greenfield" or' is b!"landuse" b!"construction")
    (layer b!"construction" ;; byAreaLanduse) <|
  .ite (is b!"natural" b!"water" or' is b!"waterway" b!"riverbank" or' is b!"waterway" b!"basin" or' is b!"waterway" b!"pond" or' is b!"leisure" b!"swimming_pool")
    (layer b!"water" ;; byArea [12, 1000000, 10, 10000, 0, -1]) <|
  .ite (is b!"natural" b!"beach") (layer b!"landuse" ;; addString b!"landuse" b!"beach" ;; byAreaLanduse) <|
  .ite (is b!"highway" b!"pedestrian" or' is b!"highway" b!"service" or' is b!"amenity" b!"parking")
    (layer b!"pedestrian" ;; byArea [12, 100000000, 10, 10000000000, 8, -1]) <|
  .ite (is b!"leisure" b!"pitch") (layer b!"sport" ;; byArea [14, 100000000, 12, 10000000000, 8, -1]) <|
  .ite (is b!"public_transport" b!"platform" or' is b!"public_transport" b!"stop_area")
    (layer b!"landuse" ;; addString b!"landuse" b!"public_transport" ;; tagInteger b!"level" ;; byArea [12, 100000000, 10, 10000000000, 8, -1]) <|
  .ite (any b!"indoor")
    (layer b!"indoor" ;; tagString b!"indoor" ;; tagString b!"name" ;; tagString b!"shop" ;; tagInteger b!"level" ;; approvedMin 18)
  .skip

def fullProfile : LuaProfile := ⟨fullNode, fullWay, fullArea⟩

/-! ### /repo/profile/background.lua -/

/-- background.lua:1-30 -/
def backgroundNode : LuaStmt :=
  .ite (any b!"place")
    (.ite (is b!"place" b!"country") (approvedMin 3 ;; layer b!"region")
      (.ite (any b!"place" [b!"state", b!"region", b!"province"]) (approvedMin 7 ;; layer b!"region")
        (.ite (is b!"place" b!"city") (approvedMin 6 ;; layer b!"cities")
          (.ite (is b!"place" b!"town" or' is b!"place" b!"borough") (approvedMin 9 ;; layer b!"cities")
            (.ite (is b!"place" b!"suburb" or' is b!"place" b!"village") (approvedMin 11 ;; layer b!"cities") .skip)))) ;;
     tagString b!"place" ;;
     tagString b!"name" ;;
     tagInteger b!"population")
    .skip

/-- background.lua:34-67 -/
def backgroundRoad : LuaStmt :=
  layer b!"road" ;;
  tagString b!"highway" ;;
  tagString b!"name" ;;
  .ite (is b!"highway" b!"motorway" or' is b!"highway" b!"trunk")
    (approvedMin 5 ;; tagString b!"ref")
    (.ite (is b!"highway" b!"motorway_link" or' is b!"highway" b!"trunk_link" or' is b!"highway" b!"primary" or' is b!"highway" b!"secondary" or'
           is b!"highway" b!"tertiary" or' is b!"highway" b!"aeroway")
      (approvedMin 9 ;; tagString b!"ref")
      (.ite (is b!"highway" b!"residential" or' is b!"highway" b!"living_street" or' is b!"highway" b!"primary_link" or' is b!"highway" b!"secondary_link" or'
             is b!"highway" b!"tertiary_link" or' is b!"highway" b!"unclassified" or' is b!"highway" b!"service")
        (approvedMin 12)
        (.ite (is b!"highway" b!"footway" or' is b!"highway" b!"track" or' is b!"highway" b!"steps" or' is b!"highway" b!"cycleway" or' is b!"highway" b!"path")
          (approvedMin 14) .skip)))

/-- background.lua:70-100 -/
def backgroundRail : LuaStmt :=
  .ite (is b!"railway" b!"disused" or' is b!"railway" b!"abandoned")
    (layer b!"rail" ;; approvedMin 14 ;; addString b!"rail" b!"old")
    (.ite luaMinor
      (layer b!"rail" ;; approvedMin 14 ;; addString b!"rail" b!"detail")
      (.ite (is b!"railway" b!"subway" or' is b!"railway" b!"tram" or' is b!"railway" b!"light_rail" or' is b!"railway" b!"narrow_gauge")
        (layer b!"rail" ;; approvedMin 10 ;; addString b!"rail" b!"secondary")
        (layer b!"rail" ;; approvedMin 5 ;; addString b!"rail" b!"primary")))

/-- background.lua:32-126 -/
def backgroundWay : LuaStmt :=
  .ite (any b!"highway") backgroundRoad
    (.ite (any b!"railway" [b!"rail", b!"light_rail", b!"subway", b!"tram", b!"narrow_gauge"]) backgroundRail
      (.ite (any b!"waterway") luaWaterway .skip))

/-- background.lua:128-245 -/
def backgroundArea : LuaStmt :=
  .ite (any b!"building") (layer b!"building" ;; byArea [14, 100000000, 12, 10000000000, 10, -1]) <|
  .ite (is b!"leisure" b!"sports_centre" or' is b!"amenity" b!"hospital" or' is b!"amenity" b!"police" or' is b!"amenity" b!"fire_station" or'
        is b!"amenity" b!"kindergarten" or' is b!"amenity" b!"school" or' is b!"amenity" b!"place_of_worship" or' is b!"amenity" b!"university")
    (layer b!"landuse" ;; addString b!"landuse" b!"complex" ;; byAreaLanduse) <|
  .ite (is b!"landuse" b!"cemetery") (layer b!"landuse" ;; addString b!"landuse" b!"cemetery" ;; byAreaLanduse) <|
  .ite (is b!"landuse" b!"brownfield" or' is b!"landuse" b!"greenfield" or' is b!"landuse" b!"construction")
    (layer b!"construction" ;; byAreaLanduse) <|
  .ite (is b!"natural" b!"water" or' is b!"waterway" b!"riverbank" or' is b!"waterway" b!"basin" or' is b!"waterway" b!"pond" or' is b!"leisure" b!"swimming_pool")
    (layer b!"water" ;; byArea [12, 1000000, 10, 10000, 0, -1]) <|
  .ite (is b!"natural" b!"beach") (layer b!"landuse" ;; addString b!"landuse" b!"beach" ;; byAreaLanduse) <|
  .ite (is b!"highway" b!"pedestrian" or' is b!"highway" b!"service" or' is b!"amenity" b!"parking")
    (layer b!"pedestrian" ;; byArea [12, 100000000, 10, 10000000000, 8, -1]) <|
  .ite (is b!"leisure" b!"pitch") (layer b!"sport" ;; byArea [14, 100000000, 12, 10000000000, 8, -1])
  .skip

def backgroundProfile : LuaProfile := ⟨backgroundNode, backgroundWay, backgroundArea⟩

end Tiles
