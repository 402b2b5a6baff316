import Verif.Model.Shapefile
/-
Model of /repo/src/osm/load_shapefile.cc:106-143: the archive of the coastline.  The library miniz is a parameter: `none` is a file that it does not accept; an entry is `none` if
its header cannot be read, and the contents of an entry are `none` if they cannot be extracted.  Simplification: a name has less than 512 bytes and no byte 0 (miniz cuts it off there).
-/
namespace Tiles

/-- an entry of the archive: name and contents -/
structure ZipEntry where
  name : Bytes
  data : Option Bytes

/-- an archive as miniz reads it -/
abbrev ZipArchive := Option (List (Option ZipEntry))

/-- ".shp" -/
def dotShp : Bytes := [46, 115, 104, 112]

/-- load_shapefile.cc:115-134: the loop over the entries -/
def findShp : List (Option ZipEntry) → Res Bytes
  | [] => .throw_
  | none :: _ => .throw_
  | some e :: es =>
    if e.name.length < 4 ∨ e.name.drop (e.name.length - 4) ≠ dotShp then findShp es
    else match e.data with
      | none => .throw_
      | some b => .ok b

/-- load_shapefile.cc:106-135 `load_buffer` -/
def loadBuffer (zip : ZipArchive) : Res Bytes := match zip with
  | none => .throw_
  | some es => findShp es

/-- load_shapefile.cc:137-143 `load_shapefile`: the polygons that the consumer gets -/
def loadShapefile (conv : Nat → Nat → XY) (zip : ZipArchive) : Res (List Polygon) := do
  let buf ← loadBuffer zip
  readShapefile conv buf

end Tiles
