import Verif.Model.Fixed
/-
Model of /repo/include/tiles/fixed/convert.h.  The projection itself is computed by the library `geo` (webmercator.h, not part of the repository); it is a
parameter here, and what is assumed about it is said in Spec/Mercator.
-/
namespace Tiles

/-- convert.h:10-17 `latlng_to_fixed`: `px` is `proj::merc_to_pixel(geo::latlng_to_merc(pos), kFixedDefaultZoomLevel)`.  Coordinates are limited upwards
only. -/
def latlngToFixed {L : Type} (px : L → XY) (pos : L) : XY := ⟨min (px pos).x kFixedCoordMax, min (px pos).y kFixedCoordMax⟩

/-- convert.h:19-23 `fixed_to_latlng`: `mx`, `my` are `proj::pixel_to_merc_x/_y( , kFixedDefaultZoomLevel)`, `inv` is `geo::merc_to_latlng` -/
def fixedToLatlng {M L : Type} (mx my : Int → M) (inv : M → M → L) (pos : XY) : L := inv (mx pos.x) (my pos.y)

end Tiles
