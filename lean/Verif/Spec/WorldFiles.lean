import Verif.Model.ShapeZip
import Verif.Spec.Shapefile
import Verif.Spec.Mercator
/-
Specification vocabulary for the two files of an import: the archive with the land polygons (the OSM file: Spec/OsmFile).
-/
namespace Tiles.Spec

/-- the value of a double (IEEE 754 binary64) with this object representation, unless it is infinite or not a number -/
noncomputable def doubleValue (bits : Nat) : ℝ :=
  (if bits / 2 ^ 63 % 2 = 1 then -1 else 1) *
    (if bits / 2 ^ 52 % 2 ^ 11 = 0 then (bits % 2 ^ 52 : ℕ) * (2 : ℝ) ^ (-1074 : ℤ)
     else (2 ^ 52 + bits % 2 ^ 52 : ℕ) * (2 : ℝ) ^ (((bits / 2 ^ 52 % 2 ^ 11 : ℕ) : ℤ) - 1075))

/-- the place of a point of a shapefile -/
noncomputable def ShpPoint.place (p : ShpPoint) : LatLng := ⟨doubleValue p.lat, doubleValue p.lng⟩

/-- the places of the points of the ring of a polygon -/
noncomputable def ShpPolygon.outline (p : ShpPolygon) : List LatLng := (p.rings.headD []).map ShpPoint.place

/-- the land polygons on the map, if each has one ring -/
noncomputable def landOf (conv : LatLng → XY) (ps : List ShpPolygon) : List Polygon := ps.map (fun p => ⟨p.outline.map conv, []⟩)

/-- how the program puts a point of a shapefile on the map -/
noncomputable def shpConv (conv : LatLng → XY) (lat lng : Nat) : XY := conv ⟨doubleValue lat, doubleValue lng⟩

/-- the characters of ".shp" -/
def shpSuffix : Bytes := [46, 115, 104, 112]

/-- The archive has the polygons: its first entry with a name in ".shp" is a shapefile (of any header) with these polygons, each with one ring. -/
structure LandArchive (zip : ZipArchive) (ps : List ShpPolygon) : Prop where
  entry : ∃ (pre : List ZipEntry) (name pad1 pad2 : Bytes) (post : List (Option ZipEntry)), zip = some (pre.map some ++ some ⟨name, some (shpFile pad1 pad2 ps)⟩ :: post) ∧ (∀ e ∈ pre, ¬ shpSuffix <:+ e.name) ∧ shpSuffix <:+ name ∧
    pad1.length = 24 ∧ pad2.length = 64 ∧ (shpFile pad1 pad2 ps).length < 2 ^ 64
  count : ps.length < 2 ^ 31 - 1
  polygons : ∀ p ∈ ps, p.Ok ∧ p.rings.length = 1

end Tiles.Spec
