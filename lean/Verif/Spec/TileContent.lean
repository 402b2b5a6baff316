import Verif.Proof.TileBuilder
/-
Specification: what a tile has to contain, given the features added to it.
-/
namespace Tiles.Spec

/-- same id, same geometry type -/
def sameFeature (a b : Feature) : Bool := decide (a.id = b.id) && decide (typeOf a.geometry = typeOf b.geometry)

/-- of several features with equal id and type only the first counts -/
def firsts : List Feature → List Feature
  | [] => []
  | f :: fs => f :: (firsts fs).filter (fun g => !sameFeature f g)

def isLine (f : Feature) : Bool := decide (typeOf f.geometry = 2)
def isPoly (f : Feature) : Bool := decide (typeOf f.geometry = 3)
def nonNull (f : Feature) : Bool := decide (f.geometry ≠ .null)

/-- the different features of a layer -/
def unique (fs : List Feature) : List Feature := firsts (fs.filter nonNull)

/-- drawn one by one, in the order added -/
def direct (ctx : RenderCtx) (fs : List Feature) : List Feature :=
  (unique fs).filter (fun f => !(ctx.aggLines && isLine f) && !(ctx.aggPolygons && isPoly f))

/-- drawn after these when polygons are buffered -/
def bufferedPolys (ctx : RenderCtx) (fs : List Feature) : List Feature :=
  if ctx.aggPolygons then (unique fs).filter isPoly else []

/-- the lines to be joined when lines are buffered -/
def bufferedLines (ctx : RenderCtx) (fs : List Feature) : List Feature :=
  if ctx.aggLines then (unique fs).filter isLine else []

def joinedLines (ctx : RenderCtx) (z : Nat) (fs : List Feature) : List Feature :=
  if bufferedLines ctx fs = [] then [] else ctx.aggregate z (bufferedLines ctx fs)

/-- a feature as it is drawn: clipped to the tile and moved to its zoom level -/
def drawn (ctx : RenderCtx) (s : TileSpec) (f : Feature) : Feature :=
  { f with geometry := match drawGeometry ctx s f.geometry with | .ok g => g | _ => .null }

/-- buffered polygons smaller than a pixel may be dropped, but not those of the coastline layer (layer 0) -/
def dropped (ctx : RenderCtx) (f : Feature) : Bool := decide (f.layer ≠ 0) && ctx.dropSubpixel && ctx.tiny f.geometry

/-- everything the layer has to show -/
def layerContent (ctx : RenderCtx) (s : TileSpec) (fs : List Feature) : List Feature :=
  ((direct ctx fs).map (drawn ctx s) ++
   ((bufferedPolys ctx fs).map (drawn ctx s)).filter (fun f => !dropped ctx f) ++
   (joinedLines ctx s.tile.z fs).map (drawn ctx s)).filter nonNull

/-- everything that is clipped -/
def candidates (ctx : RenderCtx) (s : TileSpec) (fs : List Feature) : List Feature :=
  direct ctx fs ++ bufferedPolys ctx fs ++ joinedLines ctx s.tile.z fs

/-- the features of layer `i`, in the order added -/
def ofLayer (fs : List Feature) (i : Nat) : List Feature := fs.filter (fun f => decide (f.layer = i))

/-- the layers of the tile, by index; a layer without drawn features is absent -/
def tileContent (ctx : RenderCtx) (s : TileSpec) (fs : List Feature) : List ClientLayer :=
  (List.range ctx.layerNames.length).filterMap fun i =>
    let c := layerContent ctx s (ofLayer fs i)
    if c = [] then none else some ⟨2, ctx.layerNames[i]?.getD [], 4096, c.map (view s.px.min)⟩

/-- the layer messages (field 3) of a tile -/
def layerMessages (tile : Bytes) : List Bytes :=
  match decMessage tile with
  | .ok fs => fs.filterMap (bytesOf 3)
  | _ => []

/-- the clipped features of layer `i` can be drawn and written: clipping does not fail, the drawn coordinates are within 2^30 of
the tile's corner, ids are 64-bit and the exported values are well-formed -/
structure LayerOk (ctx : RenderCtx) (s : TileSpec) (fs : List Feature) : Prop where
  draws : ∀ f ∈ candidates ctx s fs, ∃ g, drawGeometry ctx s f.geometry = .ok g ∧ NearTile s.px.min g
  ids : ∀ f ∈ candidates ctx s fs, f.id < 2 ^ 64
  values : ∀ f ∈ candidates ctx s fs, ∀ m ∈ exported f.metas, ∃ t, valueMeaning m.value = some t

end Tiles.Spec
