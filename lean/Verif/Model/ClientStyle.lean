import Mathlib.Algebra.Order.Field.Rat
import Verif.Model.FeatureHandler
import Verif.Model.LuaProfile
import Verif.Spec.MvtTile
/-
Model of the two styles of the client, /repo/client/style-default.js and /repo/client/style-background.js, as data, and of what the map library
(mapbox-gl.js, external) does with the parts of a style that decide *whether* a layer of the style paints a feature: the source-layer, `minzoom`,
`filter`, the kind of the layer, the text of a label, and the `match` of a data-driven colour.  Widths, colours and fonts are not modelled,
the collision of labels is not either: "paints" means that the layer takes the feature.

A feature is what a client reads in a tile (`Spec.ClientFeature`): its geometry type (1: points, 2: lines, 3: areas) and its tags.  `above k n` is the comparison
`[">", ["coalesce", ["get", k], 0], n]` of doubles, which is the client's; `zoom` is the zoom level of the map (any rational number).
-/
namespace Tiles

open Spec

/-- a property as text: `["get", key]` for a text -/
def textOf (tags : List (Bytes × Typed)) (key : Bytes) : Option Bytes :=
  match tags.find? (fun m => m.1 == key) with
  | some (_, .str s) => some s
  | _ => none

/-- the filters in the styles -/
inductive StyleFilter where
  /-- no filter -/
  | always
  /-- `["==", key, value]` and `["==", ["get", key], value]` -/
  | eq (key value : Bytes)
  /-- `["!=", ["get", key], value]` -/
  | ne (key value : Bytes)
  /-- `["!in", key, values...]` -/
  | notIn (key : Bytes) (values : List Bytes)
  /-- `["has", key]` -/
  | has (key : Bytes)
  /-- `[">", ["zoom"], n]` -/
  | zoomAbove (n : Nat)
  /-- `[">=", ["zoom"], n]` -/
  | zoomFrom (n : Nat)
  /-- `[">", ["coalesce", ["get", key], 0], n]` -/
  | above (key : Bytes) (n : Nat)
  /-- `["all", a, b]` -/
  | and (a b : StyleFilter)
  /-- `["any", a, b]` -/
  | or (a b : StyleFilter)

/-- the filters, by the specification of styles of the map library: a property that is missing equals nothing -/
def StyleFilter.eval (zoom : ℚ) (above : Bytes → Nat → Bool) (tags : List (Bytes × Typed)) : StyleFilter → Bool
  | .always => true
  | .eq k x => textOf tags k == some x
  | .ne k x => textOf tags k != some x
  | .notIn k xs => match textOf tags k with | some x => !xs.contains x | none => true
  | .has k => tags.any (fun m => m.1 == k)
  | .zoomAbove n => decide ((n : ℚ) < zoom)
  | .zoomFrom n => decide ((n : ℚ) ≤ zoom)
  | .above k n => above k n
  | .and a b => a.eval zoom above tags && b.eval zoom above tags
  | .or a b => a.eval zoom above tags || b.eval zoom above tags

/-- the kinds of layers of a style -/
inductive StyleKind where
  | fill
  | line
  /-- a label at points, with the text of a property -/
  | label (key : Bytes)
  /-- a label along lines (`"symbol-placement": "line"`) -/
  | labelAlong (key : Bytes)

/-- which geometries a kind of layer takes -/
def StyleKind.takes (type : Nat) (tags : List (Bytes × Typed)) : StyleKind → Bool
  | .fill => type == 3
  | .line => type == 2 || type == 3
  | .label k => (match textOf tags k with | some (_ :: _) => true | _ => false)
  | .labelAlong k => (type == 2 || type == 3) && (match textOf tags k with | some (_ :: _) => true | _ => false)

/-- a layer of a style -/
structure StyleLayer where
  id : Bytes
  kind : StyleKind
  /-- `source-layer` -/
  source : Bytes
  minzoom : Nat := 0
  filter : StyleFilter := .always
  /-- `["match", ["get", key], value, colour, ..., colour]`: the key and the values that have a colour; the last colour (magenta, red) is for all others -/
  colours : Option (Bytes × List Bytes) := none

/-- the layer of the style paints a feature that is on a layer of the tile -/
def StyleLayer.paints (zoom : ℚ) (above : Bytes → Nat → Bool) (source : Bytes) (type : Nat) (tags : List (Bytes × Typed)) (l : StyleLayer) : Bool :=
  l.source == source && decide ((l.minzoom : ℚ) ≤ zoom) && l.filter.eval zoom above tags && l.kind.takes type tags

/-- the ids of the layers of a style that paint a feature, from below -/
def paintedBy (style : List StyleLayer) (zoom : ℚ) (above : Bytes → Nat → Bool) (source : Bytes) (type : Nat) (tags : List (Bytes × Typed)) : List Bytes :=
  (style.filter (StyleLayer.paints zoom above source type tags)).map (·.id)

/-- it is painted in a colour that is for values that the style does not know -/
def wrongColour (style : List StyleLayer) (zoom : ℚ) (above : Bytes → Nat → Bool) (source : Bytes) (type : Nat) (tags : List (Bytes × Typed)) : Bool :=
  style.any fun l => l.paints zoom above source type tags && match l.colours with
    | none => false
    | some (k, xs) => match textOf tags k with | some x => !xs.contains x | none => true

/-- style-default.js:97-110, style-background.js:45-58 -/
def landuseColours : List Bytes := [b!"complex", b!"commercial", b!"industrial", b!"residential", b!"retail", b!"construction", b!"nature_light", b!"nature_heavy",
  b!"park", b!"cemetery", b!"beach"]

/-- style-default.js:150, style-background.js:103 -/
def narrowRoads : List Bytes := [b!"footway", b!"track", b!"steps", b!"cycleway", b!"path", b!"unclassified"]

/-- style-default.js:259-262, style-background.js:224-227 -/
def refFilter : StyleFilter :=
  .or (.eq b!"highway" b!"motorway") (.or (.eq b!"highway" b!"trunk") (.or (.eq b!"highway" b!"secondary") (.zoomAbove 11)))

/-- style-default.js:86-253, style-background.js:31-207: the same in both, as far as it is modelled (the layer "background" has no source) -/
def styleBase : List StyleLayer := [
  { id := b!"coastline", kind := .fill, source := b!"coastline" },
  { id := b!"landuse", kind := .fill, source := b!"landuse", colours := some (b!"landuse", landuseColours) },
  { id := b!"water", kind := .fill, source := b!"water" },
  { id := b!"sport", kind := .fill, source := b!"sport" },
  { id := b!"pedestrian", kind := .fill, source := b!"pedestrian" },
  { id := b!"waterway", kind := .line, source := b!"waterway" },
  { id := b!"road_back", kind := .line, source := b!"road", filter := .notIn b!"highway" narrowRoads },
  { id := b!"road", kind := .line, source := b!"road" },
  { id := b!"rail_old", kind := .line, source := b!"rail", filter := .eq b!"rail" b!"old" },
  { id := b!"rail_detail", kind := .line, source := b!"rail", filter := .eq b!"rail" b!"detail" },
  { id := b!"rail_secondary", kind := .line, source := b!"rail", filter := .eq b!"rail" b!"secondary" },
  { id := b!"rail_primary", kind := .line, source := b!"rail", filter := .eq b!"rail" b!"primary" },
  { id := b!"building", kind := .fill, source := b!"building" }]

/-- style-default.js:82-336 -/
def styleDefault : List StyleLayer := styleBase ++ [
  { id := b!"road-ref-shield", kind := .labelAlong b!"ref", source := b!"road", minzoom := 6, filter := .and (.has b!"ref") refFilter },
  { id := b!"road-name-text", kind := .labelAlong b!"name", source := b!"road", minzoom := 15 },
  { id := b!"towns", kind := .label b!"name", source := b!"cities", filter := .ne b!"place" b!"city" },
  { id := b!"cities", kind := .label b!"name", source := b!"cities", filter := .eq b!"place" b!"city" }]

/-- style-background.js:27-321 -/
def styleBackground : List StyleLayer := styleBase ++ [
  { id := b!"road-ref-shield", kind := .labelAlong b!"ref", source := b!"road", minzoom := 6, filter := refFilter },
  { id := b!"road-name-text", kind := .labelAlong b!"name", source := b!"road", minzoom := 15 },
  { id := b!"towns", kind := .label b!"name", source := b!"cities",
    filter := .and (.ne b!"place" b!"city") (.or (.zoomFrom 11) (.above b!"population" 10000)) },
  { id := b!"cities", kind := .label b!"name", source := b!"cities", filter := .eq b!"place" b!"city" }]

end Tiles
