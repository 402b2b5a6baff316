import Verif.Props.C63
import Verif.Props.C73
import Verif.Props.C77c
/-! C79: Areas are drawn at the prepared levels, too, unless less than a pixel is left of them. -/
namespace Tiles
open Spec

/-- of the polygons, at least a pixel of the screen (16 x 16 units) is left after they were clipped to the tile and their corners rounded to the units of its level -/
def Spec.LargeHere (clip : Geometry → Box → Res Geometry) (q : Tile) (qs : List Polygon) : Prop :=
  ∀ c out, clip (.polygon qs) (drawBounds q) = .ok c → shiftGeometry c q.z = .ok (.polygon out) → ((ringsOf out).map List.length).sum ≤ 2 ^ 23 ∧ 512 ≤ areaTwice out

section
variable {e : Int} {inter : Box → List Line → List Line} {clipper : List Line → Box → Option (List PolyNode)} {correct : List Polygon → List Polygon}

/-- what is not smaller than a pixel is not dropped -/
theorem large_not_tiny {fl : ℚ → ℚ} (hfl : ExactSmall fl) (hl : ClipLib e inter clipper correct) (he : 0 ≤ e) (he' : e ≤ 2048) (ctx : RenderCtx)
    (hctx : ctx.clip = clipGeometry inter clipper correct) (htiny : ∀ g b, smallerThanPixel fl g = .ok b → ctx.tiny g = b) (q : Tile) (hq : q.Valid) (hz : q.z ≤ 20)
    {qs : List Polygon} (hc : Clippable (.polygon qs)) (hlarge : LargeHere ctx.clip q qs) {out : List Polygon} (hout : drawGeometry ctx (specOf q) (.polygon qs) = .ok (.polygon out)) :
    ctx.tiny (.polygon out) = false := by
  obtain ⟨c, h1, h2, hcl⟩ := C62_clip hl he (.polygon qs) hc (drawBounds q)
  rw [← hctx] at h1
  have h3 : shiftGeometry c q.z = .ok (.polygon out) := by
    have h3 : (do let c ← ctx.clip (.polygon qs) (drawBounds q); shiftGeometry c q.z) = .ok (.polygon out) := hout
    rwa [h1, Res.ok_bind] at h3
  obtain ⟨h4, h5⟩ := hlarge c out h1 h3
  have hmargin : ∀ l ∈ ringsOf out, ∀ p ∈ l, InMargin e q.z (rel (specOf q).px.min p) := by
    intro l hlr p hp
    obtain ⟨l', h4, rfl⟩ := shifted_lines hz h3 l hlr
    obtain ⟨P, hP, rfl⟩ := mem_lineAt hp
    exact margin_of_around (h2 l' h4 P hP)
  have hclosed : ∀ l ∈ ringsOf out, l.head? = l.getLast? := by
    intro l hlr
    obtain ⟨l', h4, rfl⟩ := shifted_lines hz h3 l hlr
    exact C27_rings_stay_closed _ _ (hcl qs rfl l' h4)
  rw [htiny _ _ (C63_pixel hfl he he' q hq hz out hclosed hmargin h4), decide_eq_false_iff_not]
  omega

/-- A client sees each edge of an area feature also in a tile where areas are drawn after the other features and those below a pixel are left out, if at least a pixel is left of it. -/
theorem C79_area {fl : ℚ → ℚ} (hfl : ExactSmall fl) (hl : ClipLib e inter clipper correct) (hp : PolyLib e clipper) (he : 0 ≤ e) (he' : e ≤ 2048) (ctx : RenderCtx)
    (hctx : ctx.clip = clipGeometry inter clipper correct) (htiny : ∀ g b, smallerThanPixel fl g = .ok b → ctx.tiny g = b)
    (q : Tile) (hv : q.Valid) (hz : q.z ≤ 20) (fs : List Feature) (f : Feature) (hf : f ∈ fs) (name : Bytes) (hname : ctx.layerNames[f.layer]? = some name)
    (hone : ∀ g ∈ fs, g.layer = f.layer → g.id = f.id → typeOf g.geometry = typeOf f.geometry → g.geometry = f.geometry ∧ g.metas.Perm f.metas)
    (ps : List Polygon) (hg : f.geometry = .polygon ps) (hlarge : LargeHere ctx.clip q ps) (hc : Clippable (.polygon ps)) (hout : Outlines e 4096 ((ringsOf ps).map List.dropLast))
    (a b : XY) (hab : Edge ((ringsOf ps).map List.dropLast) a b) :
    EdgeSeen e q (tileContent ctx (specOf q) fs) name f.id (tagsOf f.metas) a b :=
  area_edges hl hp he ctx hctx q hz fs f hf name hname hone ps hg (fun _ _ h => large_not_tiny hfl hl he he' ctx hctx htiny q hv hz hc hlarge h) hc hout a b hab

/-- the edges of an imported area are seen in a tile that is drawn from these features -/
theorem stored_large {fl : ℚ → ℚ} (hfl : ExactSmall fl) (hl : ClipLib e inter clipper correct) (hp : PolyLib e clipper) (he : 0 ≤ e) (he' : e ≤ 2048) (ctx : RenderCtx)
    (hctx : ctx.clip = clipGeometry inter clipper correct) (htiny : ∀ g b, smallerThanPixel fl g = .ok b → ctx.tiny g = b) (q : Tile) (hv : q.Valid) (hz : q.z ≤ 20)
    {simp : Line → List Bool} {xs : List Inserted} {leafs : List Tile} {gs : List Feature}
    (hfrom : ∀ g ∈ gs, ∃ x ∈ xs, StoredAs simp x.feature g)
    (hall : ∀ x ∈ xs, x.feature.zmin ≤ q.z → q.z ≤ x.feature.zmax → boxMeets x.feature q → x.Reaches q → withoutSmallRings (simplified simp x.feature.geometry) ≠ .null →
      ∃ g ∈ gs, StoredAs simp x.feature g)
    {f : Feature} (hf : whole f ∈ xs) (hok : FeatureOk f) (hdraw : Drawable simp f) (hz1 : f.zmin ≤ q.z) (hz2 : q.z ≤ f.zmax) (name : Bytes) (hname : ctx.layerNames[f.layer]? = some name)
    (hlayer : f.layer ≠ 0)
    (hone : ∀ x ∈ xs, x.feature.layer = f.layer → x.feature.id = f.id → typeOf x.feature.geometry = 3 → x.feature = f)
    (ps qs : List Polygon) (hg : f.geometry = .polygon ps) (hq : withoutSmallRings (simplified simp (.polygon ps)) = .polygon qs) (hlarge : LargeHere ctx.clip q qs)
    (hout : Outlines e 4096 ((ringsOf qs).map List.dropLast)) (a b : XY) (hab : Edge ((ringsOf qs).map List.dropLast) a b)
    (ha : InBoxOf (envelopePoints f.geometry) a) (hb : InBoxOf (envelopePoints f.geometry) b) :
    EdgeSeen e q (tileContent ctx (specOf q) (leafs.map seaSquare ++ gs)) name f.id (tagsOf f.metas) a b := by
  refine stored_edges hl hp he ctx hctx q hz hfrom hall hf hok hdraw hz1 hz2 name hname hlayer hone ps qs hg hq (fun _ out h => ?_) hout a b hab ha hb
  have hst : StoredAs simp f { f with geometry := withoutSmallRings (simplified simp f.geometry) } := ⟨f.metas, .refl _, rfl⟩
  have hclip := (stored_renderable hok hdraw hst).polygon
  dsimp only at hclip
  rw [hg, hq] at hclip
  exact large_not_tiny hfl hl he he' ctx hctx htiny q hv hz hclip hlarge h
end

/-- After a complete import (as in C54 and C62) the server answers every tile of the prepared levels, and a client sees there, of every imported area (not of
the coastline layer) that is visible at the zoom level, whose outlines are proper after simplification and of which at least a pixel is left in the tile, every edge of the outlines, as far
as it lies in the tile: in the layer of the area, with its id and tags (unless another area of the layer has the same id). -/
theorem C79_served {ι : Type} (env : ImportEnv ι) (coast osm : Bool) (hsrt : SortsByKey env.srt)
    (hm : ∀ l z, (env.rd (env.mkMask l) z).length = l.length) (hw : 0 < env.workers)
    (hin : ∀ fs i, env.loads coast osm fs i → (env.decOf i).length ≤ 2 ^ 64 ∧ (∀ x ∈ fs.flatten, Importable env.mkMask (env.decOf i) plainOf x) ∧ fs.flatten.length < 2 ^ 32)
    (runs : List (List String)) (hacts : changes runs = [.load coast osm, .pack, .tiles]) (a b : TileDb ι) (hr : Imports (importParts env) runs a b)
    (hsmall : SmallPacks b.features) (hsize : b.pf.reopen.size < 2 ^ 64) (features : List (UInt64 × Bytes)) (hdb : EntriesOf b.features features)
    (ctx : GetCtx) (hctx : ∃ m, env.ctxOf b.info = { ctx with maxPrepared := m }) (hrd : ctx.rd = env.rd) (hdec : ctx.dec = env.decOf b.info) (hc : Serving ctx 10)
    -- the libraries
    (e : Int) (he : 0 ≤ e) (he' : e ≤ 2048) (inter : Box → List Line → List Line) (clipper : List Line → Box → Option (List PolyNode))
    (correct : List Polygon → List Polygon) (hl : ClipLib e inter clipper correct) (hpl : PolyLib e clipper) (hclip : ctx.clip = clipGeometry inter clipper correct)
    (simplify : Nat → Line → Line) (hagg : ∀ z fs out, aggregateLineFeatures simplify z fs = .ok out → ctx.aggregate z fs = out)
    (fl : ℚ → ℚ) (hfl : ExactSmall fl) (htiny : ∀ g b, smallerThanPixel fl g = .ok b → ctx.tiny g = b) :
    ∃ fs, env.loads coast osm fs b.info ∧
      ((∀ x ∈ fs.flatten, x.feature.layer < ctx.layerNames.length) → 0 < ctx.layerNames.length → ∀ sea, SeaTree sea ctx.seaside →
        ∀ q : Tile, q.Valid → q.z ≤ 10 →
        InArea (dbBounds (features.map (·.1))) q ∨ (∃ t ∈ sea, AncOrSelf t q) ∨ (∀ t ∈ sea, ¬ AncOrSelf q t) →
        (∀ x ∈ fs.flatten, Drawable (fun l => env.rd (env.mkMask l) q.z) x.feature) →
        (∀ gs i, (∀ g ∈ gs, (∃ t, g = seaSquare t) ∨ ∃ x ∈ fs.flatten, StoredAs (fun l => env.rd (env.mkMask l) q.z) x.feature g) →
          ∀ f ∈ candidates (drawing ctx 10 q).toRenderCtx (specOf q) (ofLayer gs i), NoLongLine (drawing ctx 10 q).toRenderCtx q f) →
        ∃ bytes layers, getTile b.tiles features b.pf.reopen ctx q = .ok (if bytes = [] then none else some (ctx.encode bytes)) ∧
          (bytes.length < 2 ^ 32 → clientTile bytes = some layers ∧ (bytes = [] ↔ layers = [])) ∧
          ∀ f, whole f ∈ fs.flatten → f.zmin ≤ q.z → q.z ≤ f.zmax → f.layer ≠ 0 →
            (∀ x ∈ fs.flatten, x.feature.layer = f.layer → x.feature.id = f.id → typeOf x.feature.geometry = 3 → x.feature = f) →
            ∃ name, ctx.layerNames[f.layer]? = some name ∧ ∀ ps qs, f.geometry = .polygon ps →
              withoutSmallRings (simplified (fun l => env.rd (env.mkMask l) q.z) (.polygon ps)) = .polygon qs → LargeHere ctx.clip q qs → Outlines e 4096 ((ringsOf qs).map List.dropLast) →
              ∀ a b, Edge ((ringsOf qs).map List.dropLast) a b → InBoxOf (envelopePoints f.geometry) a → InBoxOf (envelopePoints f.geometry) b →
              EdgeSeen e q layers name f.id (tagsOf f.metas) a b) := by
  obtain ⟨fs, h1, h2⟩ := served_drawn env coast osm hsrt hm hw hin runs hacts a b hr hsmall hsize features hdb ctx hctx hrd hdec hc e he (by norm_num at he' ⊢; omega) inter clipper correct hl hclip simplify hagg
  obtain ⟨_, himp, _⟩ := hin _ _ h1
  refine ⟨fs, h1, fun hlay hpos sea hsea q hv hz10 hwhere hdraw hshort => ?_⟩
  obtain ⟨leafs, gs, bytes, layers, _, h4, h5, h6, h7, h8, _⟩ := h2 hlay hpos sea hsea q hv (by omega) (.inr hwhere) hdraw hshort
  refine ⟨bytes, layers, h7, h8, fun f hf hz1 hz2 hl0 hone => ?_⟩
  have hnm := List.getElem?_eq_getElem (hlay (whole f) hf)
  refine ⟨_, hnm, fun ps qs hg hq hlarge hout a b hab ha hb => ?_⟩
  have hdr : (drawing ctx 10 q).clip = ctx.clip ∧ (drawing ctx 10 q).tiny = ctx.tiny ∧ (drawing ctx 10 q).layerNames = ctx.layerNames := by
    rw [drawing]; split <;> exact ⟨rfl, rfl, rfl⟩
  rw [h6]
  exact stored_large hfl hl hpl he he' (drawing ctx 10 q).toRenderCtx (hdr.1.trans hclip) (by rw [hdr.2.1]; exact htiny) q hv (by omega)
    (fun g hg => by obtain ⟨x, k1, _, _, k2⟩ := h4 g hg; exact ⟨x, k1, k2⟩) h5 hf
    (himp _ hf).toPackable.toFeatureOk (hdraw _ hf) hz1 hz2 _ ((congrArg (fun l : List Bytes => l[f.layer]?) hdr.2.2).trans hnm) hl0 hone ps qs hg hq (by rw [hdr.1]; exact hlarge) hout a b hab ha hb

/-! ### from OSM data -/

section
variable {S : OsmSetting} {t : Tables} {e : Int} {g : ℝ} {data : List Datum}

/-- Areas are drawn at the prepared levels, too: whatever is imported with a shipped profile (as in C68), the server answers every tile up to level 10, and a client sees there, of every area
that the table of the profile gives a layer for at the level, that can be drawn there (`ProperArea`) and of which at least a pixel is left in the tile (`LargeHere`), every edge of its
outlines as far as it lies in the tile: in an area feature of the layer of the table, with the id of the area and exactly the attributes of the table, there is an edge from
which nothing that lies in the tile is further away than the errors of the libraries and a unit (unless it is shorter than that). -/
theorem C79_areas (hS : S.Ok t e g) (hD : S.Fits data) (he' : e ≤ 2048)
    (hlib : ∃ inter clipper correct, ClipLib e inter clipper correct ∧ PolyLib e clipper ∧ S.base.clip = clipGeometry inter clipper correct)
    (hpixel : ∃ fl, ExactSmall fl ∧ ∀ g b, smallerThanPixel fl g = .ok b → S.base.tiny g = b)
    (hends : ∀ z, ∀ l : Line, l.head? = l.getLast? → (keep (S.rd (S.mkMask l) z) l).head? = (keep (S.rd (S.mkMask l) z) l).getLast?)
    (runs : List (List String)) (hacts : changes runs = [.load false true, .pack, .tiles]) (a b : TileDb MetaTable)
    (hr : Imports (importParts (S.env data)) runs a b) (hsmall : SmallPacks b.features) (hsize : b.pf.reopen.size < 2 ^ 64) (features : List (UInt64 × Bytes))
    (hdb : EntriesOf b.features features) (ctx : GetCtx) (hctx : makeRenderCtx S.base (preparedString b.maxPrepared) b.info = .ok ctx)
    (q : Tile) (hv : q.Valid) (hz10 : q.z ≤ 10) (hshort : S.ShortLines data ctx q) :
    ∃ bytes layers, getTile b.tiles features b.pf.reopen ctx q = .ok (if bytes = [] then none else some (ctx.encode bytes)) ∧
      (bytes.length < 2 ^ 32 → clientTile bytes = some layers ∧ (bytes = [] ↔ layers = [])) ∧
      ∀ d ∈ data, ∀ items, d.shape = .area items → ∀ r, d.rule t = some r →
        ∀ z, levelFor (areaOf S.prof (d.obj S.profile S.numeral)) r.zoom = some z → z ≤ q.z →
        ProperArea e S.prof.conv (fun l => S.rd (S.mkMask l) q.z) items →
        (∀ ps qs, readOsm S.prof.conv d.shape = .ok (.polygon ps) → withoutSmallRings (simplified (fun l => S.rd (S.mkMask l) q.z) (.polygon ps)) = .polygon qs → LargeHere S.base.clip q qs) →
        (∀ d' ∈ data, d'.id % 2 ^ 64 = d.id % 2 ^ 64 → d'.type = 3 → d' = d) →
        ∀ A B, Piece S.prof.conv (fun l => S.rd (S.mkMask l) q.z) d.shape A B →
          ∀ s s' : ℝ, 0 ≤ s → s ≤ 1 → 0 ≤ s' → s' ≤ 1 → Deep g q (between A B s) → Deep g q (between A B s') →
            ¬ (|(inTile q (between A B s)).1 - (inTile q (between A B s')).1| < (4 * e + 2 * g) / 2 ^ (20 - q.z) + 1 ∧
               |(inTile q (between A B s)).2 - (inTile q (between A B s')).2| < (4 * e + 2 * g) / 2 ^ (20 - q.z) + 1) →
            AreaSeen layers r.layer (d.id % 2 ^ 64) (r.shown S.numeral S.prof.toDouble (tagValue d.tags)) (fun p p' =>
              ∀ u : ℝ, 0 ≤ u → u ≤ 1 → Deep g q (between A B u) → ∃ v : ℝ, 0 ≤ v ∧ v ≤ 1 ∧ CloseBy ((e + g) / 2 ^ (20 - q.z) + 1) (onSeg p p' v) (inTile q (between A B u))) := by
  obtain ⟨px, hgeo, hconv⟩ := hS.places
  obtain ⟨inter, clipper, correct, hlib, hpoly, hclip⟩ := hlib
  obtain ⟨fl, hfl, htiny⟩ := hpixel
  obtain ⟨simplify, hagg⟩ := hS.joins
  obtain ⟨g1, g2, g3⟩ := hS.error
  have hin := osm_in hS hD
  obtain ⟨hmax, _, _, _, fs0, _, hload0⟩ := imports_loaded (S.env data) false true hS.work (fun fs m h => (hin fs m h).2) runs hacts a b hr hsmall
  obtain ⟨names0, tbl0, hl0⟩ := osm_loaded hS.shipped hS.numerals hD.toGoodData hload0
  obtain ⟨b1, b2, h3, h4, h5⟩ := hl0.table
  rw [hmax, h3] at hctx
  rw [ctx_of (by norm_num) h4 h5] at hctx
  injection hctx with hctx
  have hctxOf : (S.env data).ctxOf b.info = { ctx with maxPrepared := -1 } := by
    show (match makeRenderCtx S.base none b.info with | .ok c => c | _ => S.base) = _
    rw [h3, ← hctx, ctx_first h4 h5]
  have hdec0 : (S.env data).decOf b.info = tbl0 := (osm_importable hS hD hload0 hl0).1
  obtain ⟨_, ⟨_, _, fs, rfl, hload⟩, hserve⟩ := C79_served (S.env data) false true hS.sorts hS.masks hS.work hin runs hacts a b hr hsmall hsize features hdb
    ctx ⟨-1, hctxOf⟩ (by rw [← hctx]; exact hS.reads) (by rw [hdec0, ← hctx]) ⟨by rw [← hctx], by rw [← hctx], by rw [← hctx], by rw [← hctx]⟩
    e g1 he' inter clipper correct hlib hpoly (by rw [← hctx]; exact hclip) simplify (by intro z fs out h; rw [← hctx]; exact hagg z fs out h) fl hfl
    (by intro g b h; rw [← hctx]; exact htiny g b h)
  obtain ⟨names, tbl, hl⟩ := osm_loaded hS.shipped hS.numerals hD.toGoodData hload
  obtain ⟨_, _, _, himp⟩ := osm_importable hS hD hload hl
  have hnames : ctx.layerNames = names := by
    obtain ⟨b1', b2', k1, k2, k3⟩ := hl.table
    rw [h3] at k1
    injection k1 with _ k1 _
    rw [← k1, h4] at k2
    injection k2 with k2
    rw [← hctx]
    exact k2
  have hclip' : ctx.clip = S.base.clip := by rw [← hctx]
  obtain ⟨bytes, layers, m1, m2, m3⟩ := hserve (fun x hx => by obtain ⟨f, hf, rfl⟩ := mem_whole.1 hx; rw [hnames]; exact (himp f hf).2.1) (by rw [hnames]; exact hl.few.1) []
    ⟨by rw [← hctx]; rfl, by rw [← hctx]; simp, by simp⟩ q hv hz10 (.inr (.inr (by simp))) (fun x hx => by obtain ⟨f, hf, rfl⟩ := mem_whole.1 hx; exact (himp f hf).2.2 q.z (by omega))
    (fun gs i h => hshort fs b.info hload gs i (fun y hy => (h y hy).imp_right (by rintro ⟨x, hx, hs⟩; obtain ⟨f, hf, rfl⟩ := mem_whole.1 hx; exact ⟨f, hf, hs⟩)))
  refine ⟨bytes, layers, m1, m2, areas_seen_if (Big := LargeHere S.base.clip q) hS hD hends hl q (by omega) layers fun f hf hz1 hz2 hl0 hone => ?_⟩
  rw [← hnames, ← hclip']
  exact m3 f (mem_whole.2 ⟨f, hf, rfl⟩) hz1 hz2 hl0 (fun x hx => by obtain ⟨f', hf', rfl⟩ := mem_whole.1 hx; exact hone f' hf')
end

/-! ### with a coastline, and from files -/

/-- a server that was started like this decides by the same function what is smaller than a pixel -/
theorem ctx_tiny {base ctx : GetCtx} {pr : Option Bytes} {m : MetaTable} (h : makeRenderCtx base pr m = .ok ctx) : ctx.tiny = base.tiny := by
  unfold makeRenderCtx at h
  dsimp only at h
  have key : ∀ {mx : Int} {sea : List Nat}, (loadLayerNames m.names >>= fun names => loadSharedMetadata m.coding >>= fun dec =>
      (pure { base with maxPrepared := mx, seaside := sea, layerNames := names, dec := dec, ignorePrepared := false, ignoreSeaside := false,
                        label := none, aggLines := false, aggPolygons := false, dropSubpixel := true } : Res GetCtx)) = .ok ctx → ctx.tiny = base.tiny := by
    intro mx sea h
    obtain ⟨n, _, h⟩ := Res.bind_eq_ok.1 h
    obtain ⟨d, _, h⟩ := Res.bind_eq_ok.1 h
    rw [Res.pure_eq] at h
    injection h with h
    rw [← h]
  split at h
  · obtain ⟨x, _, h⟩ := Res.bind_eq_ok.1 h
    split at h
    · obtain ⟨y, _, h⟩ := Res.bind_eq_ok.1 h; exact key h
    · obtain ⟨y, _, h⟩ := Res.bind_eq_ok.1 h; exact key h
  · obtain ⟨x, _, h⟩ := Res.bind_eq_ok.1 h
    split at h
    · obtain ⟨y, _, h⟩ := Res.bind_eq_ok.1 h; exact key h
    · obtain ⟨y, _, h⟩ := Res.bind_eq_ok.1 h; exact key h

section
variable {W : WorldSetting} {t : Tables} {e : Int} {g : ℝ} {data : List Datum} {pts : Set Pt}

/-- As `C79_areas`, after the import of any coastline and any OSM data (C69). -/
theorem C79_world (hS : W.Ok t e g) (hD : W.Fits data) (hmany : data.length < 2 ^ 31) (hC : W.CoastFits pts) (he' : e ≤ 2048)
    (hlib : ∃ inter clipper correct, ClipLib e inter clipper correct ∧ PolyLib e clipper ∧ W.base.clip = clipGeometry inter clipper correct)
    (hpixel : ∃ fl, ExactSmall fl ∧ ∀ g b, smallerThanPixel fl g = .ok b → W.base.tiny g = b)
    (hends : ∀ z, ∀ l : Line, l.head? = l.getLast? → (keep (W.rd (W.mkMask l) z) l).head? = (keep (W.rd (W.mkMask l) z) l).getLast?)
    (runs : List (List String)) (hacts : changes runs = [.load true true, .pack, .tiles]) (a b : TileDb MetaTable)
    (hr : Imports (importParts (W.env data)) runs a b) (hsmall : SmallPacks b.features)
    (hsize : b.pf.reopen.size < 2 ^ 64) (features : List (UInt64 × Bytes)) (hdb : EntriesOf b.features features) (ctx : GetCtx)
    (hctx : makeRenderCtx W.base (preparedString b.maxPrepared) b.info = .ok ctx)
    (q : Tile) (hv : q.Valid) (hz10 : q.z ≤ 10) (hshort : W.ShortLines data ctx q) :
    ∃ bytes layers, getTile b.tiles features b.pf.reopen ctx q = .ok (if bytes = [] then none else some (ctx.encode bytes)) ∧
      (bytes.length < 2 ^ 32 → clientTile bytes = some layers ∧ (bytes = [] ↔ layers = [])) ∧
      AreasSeenIf (LargeHere W.base.clip q) W.toOsmSetting t e g data q layers := by
  obtain ⟨inter, clipper, correct, hclib, hpoly, hclip⟩ := hlib
  obtain ⟨fl, hfl, htiny⟩ := hpixel
  have htiny' : ctx.tiny = W.base.tiny := ctx_tiny hctx
  obtain ⟨cs, sea, fs, m0, names, tbl, _, _, hl, ⟨c1, _, c3, _⟩, hcf, _, heach, h3, _⟩ := world_served_all hS hD hmany hC runs hacts a b hr hsmall hsize features hdb ctx hctx
  obtain ⟨bytes, layers, leafs, gs, k2, k3, k4, k5, k6⟩ := h3 q hv hz10 hshort
  have k3' := fun x hx n1 n2 n3 n4 => k3 x hx (shows_found (heach x hx).1 hv (show q.z ≤ 20 by omega) n1 n2 n3 n4).1 (shows_found (heach x hx).1 hv (show q.z ≤ 20 by omega) n1 n2 n3 n4).2
  refine ⟨bytes, layers, k4, k5, areas_seen_if hS hD hends hl q (by omega) layers fun f hf hz1 hz2 hl0 huniq => ?_⟩
  have hmem : ∀ {x : Inserted}, x ∈ (cs :: fs.map (List.map whole)).flatten ↔ x ∈ cs ∨ ∃ f ∈ fs.flatten, x = whole f := by
    intro x
    rw [List.flatten_cons, List.mem_append, mem_whole]
  have hw : whole f ∈ (cs :: fs.map (List.map whole)).flatten := hmem.2 (.inr ⟨f, hf, rfl⟩)
  obtain ⟨_, _, _, _, hst, _⟩ := hl.from_data f hf
  have hdr : (drawing ctx 10 q).clip = ctx.clip ∧ (drawing ctx 10 q).tiny = ctx.tiny ∧ (drawing ctx 10 q).layerNames = ctx.layerNames := by
    rw [drawing]; split <;> exact ⟨rfl, rfl, rfl⟩
  refine ⟨_, hst.layer, fun ps qs hg hq hlarge hout p p' hab ha hb => ?_⟩
  rw [k6]
  refine stored_large hfl hclib hpoly hS.error.1 he' (drawing ctx 10 q).toRenderCtx (hdr.1.trans (c3.trans hclip)) (by rw [hdr.2.1, htiny']; exact htiny) q hv (by omega)
    (fun g hg => by obtain ⟨x, n1, _, _, n2⟩ := k2 g hg; exact ⟨x, n1, n2⟩) k3' hw
    (heach _ hw).1.toPackable.toFeatureOk ((heach _ hw).2 q.z (by omega)) hz1 hz2 _ (by rw [hdr.2.2, c1]; exact hst.layer) hl0 (fun x hx n1 n2 n3 => ?_) ps qs hg hq
    (by rw [hdr.1, c3]; exact hlarge) hout p p' hab ha hb
  rcases hmem.1 hx with hx | ⟨f', hf', rfl⟩
  · obtain ⟨_, ps, h1, _⟩ := hcf.shows x hx
    obtain ⟨k, _, h2⟩ := h1.feature
    rw [h2] at n1
    exact absurd n1.symm hl0
  · exact huniq f' hf' n1 n2 n3
end

section
variable {R : Type} {asm : List (List (LocatedEntity R)) → List (LocatedEntity R) → List (OsmItem LatLng)} {file : List (List (OsmEntity R))} {srt : List NodeQuery → List NodeQuery}
  {strict : Bool} {threads : Nat} {zip : ZipArchive} {ps : List ShpPolygon} {S : OsmSetting} {t : Tables} {e : Int} {g : ℝ}

/-- `AreasSeenIf` for the areas that are made of the ways and relations of a file -/
def Spec.FileAreasSeenIf (Big : List Polygon → Prop) (S : OsmSetting) (t : Tables) (e : Int) (g : ℝ) (asm : List (List (LocatedEntity R)) → List (LocatedEntity R) → List (OsmItem LatLng))
    (file : List (List (OsmEntity R))) (q : Tile) (layers : List ClientLayer) : Prop :=
  ∀ o ∈ areasOf asm [] (file.map (List.map (withPlaces (nodesIn file)))), (∀ o' ∈ areasOf asm [] (file.map (List.map (withPlaces (nodesIn file)))), o'.id % 2 ^ 64 = o.id % 2 ^ 64 → o' = o) →
    ∀ items, o.shape = .area items → ∀ r, decideBy t.areas (tagValue o.tags) = some r →
    ∀ z, levelFor (areaOf S.prof (S.profile.object S.numeral o.id o.tags o.shape)) r.zoom = some z → z ≤ q.z →
    ProperArea e S.prof.conv (fun l => S.rd (S.mkMask l) q.z) items →
    (∀ ps qs, readOsm S.prof.conv o.shape = .ok (.polygon ps) → withoutSmallRings (simplified (fun l => S.rd (S.mkMask l) q.z) (.polygon ps)) = .polygon qs → Big qs) →
    ∀ A B, Piece S.prof.conv (fun l => S.rd (S.mkMask l) q.z) o.shape A B →
      ∀ s s' : ℝ, 0 ≤ s → s ≤ 1 → 0 ≤ s' → s' ≤ 1 → Deep g q (between A B s) → Deep g q (between A B s') →
        ¬ (|(inTile q (between A B s)).1 - (inTile q (between A B s')).1| < (4 * e + 2 * g) / 2 ^ (20 - q.z) + 1 ∧
           |(inTile q (between A B s)).2 - (inTile q (between A B s')).2| < (4 * e + 2 * g) / 2 ^ (20 - q.z) + 1) →
        AreaSeen layers r.layer (o.id % 2 ^ 64) (r.shown S.numeral S.prof.toDouble (tagValue o.tags)) (fun p p' =>
          ∀ u : ℝ, 0 ≤ u → u ≤ 1 → Deep g q (between A B u) → ∃ v : ℝ, 0 ≤ v ∧ v ≤ 1 ∧ CloseBy ((e + g) / 2 ^ (20 - q.z) + 1) (onSeg p p' v) (inTile q (between A B u)))

theorem file_areas_seen_if {Big : List Polygon → Prop} {q : Tile} {layers : List ClientLayer} (h : AreasSeenIf Big S t e g (fileData asm file) q layers) :
    FileAreasSeenIf Big S t e g asm file q layers := by
  intro o ho hone items hsh r hr z hzl hzq hproper hbig A B hAB
  refine h (itemDatum o) (mem_fileData.2 (.area o ho)) items hsh r (by
    show decideBy (t.of o.shape) (tagValue o.tags) = some r
    rw [hsh]; exact hr) z hzl hzq hproper hbig (fun d' hd' hid hty => ?_) A B hAB
  rcases mem_fileData.1 hd' with ⟨id', tags', loc', h⟩ | ⟨id', tags', refs', h⟩ | ⟨o', h⟩
  · cases hty
  · cases hty
  · rw [hone o' h hid]

/-- After the import of an OSM file: the areas that are made of its ways and relations are drawn at the prepared levels, as in `C79_areas`. -/
theorem C79_file (hf : GoodFile file) (hsrt : SortsByAbsId srt) (hwrap : strict = true → ∀ m ∈ nodesIn file, m.2.x ≤ 347483647)
    (hS : S.Ok t e g) (hD : S.Fits (fileData asm file)) (he' : e ≤ 2048)
    (hlib : ∃ inter clipper correct, ClipLib e inter clipper correct ∧ PolyLib e clipper ∧ S.base.clip = clipGeometry inter clipper correct)
    (hpixel : ∃ fl, ExactSmall fl ∧ ∀ g b, smallerThanPixel fl g = .ok b → S.base.tiny g = b)
    (hends : ∀ z, ∀ l : Line, l.head? = l.getLast? → (keep (S.rd (S.mkMask l) z) l).head? = (keep (S.rd (S.mkMask l) z) l).getLast?)
    (runs : List (List String)) (hacts : changes runs = [.load false true, .pack, .tiles]) (a b : TileDb MetaTable)
    (hr : Imports (importParts (S.fileEnv srt strict threads asm file)) runs a b) (hsmall : SmallPacks b.features) (hsize : b.pf.reopen.size < 2 ^ 64) (features : List (UInt64 × Bytes))
    (hdb : EntriesOf b.features features) (ctx : GetCtx) (hctx : makeRenderCtx S.base (preparedString b.maxPrepared) b.info = .ok ctx)
    (q : Tile) (hv : q.Valid) (hz10 : q.z ≤ 10) (hshort : S.ShortLines (fileData asm file) ctx q) :
    ∃ bytes layers, getTile b.tiles features b.pf.reopen ctx q = .ok (if bytes = [] then none else some (ctx.encode bytes)) ∧
      (bytes.length < 2 ^ 32 → clientTile bytes = some layers ∧ (bytes = [] ↔ layers = [])) ∧
      FileAreasSeenIf (LargeHere S.base.clip q) S t e g asm file q layers := by
  obtain ⟨bytes, layers, h1, h2, h3⟩ := C79_areas hS hD he' hlib hpixel hends runs hacts a b (file_imports hf hsrt hwrap hr) hsmall hsize features hdb ctx hctx q hv hz10 hshort
  exact ⟨bytes, layers, h1, h2, file_areas_seen_if h3⟩

variable {W : WorldSetting} {pts : Set Pt}

/-- After the import of the archive with the land polygons and of an OSM file (C73): the areas that are made of its ways and relations are drawn at the prepared levels. -/
theorem C79_files (hland : LandArchive zip ps) (hp : W.polys = landOf W.prof.conv ps) (hf : GoodFile file) (hsrt : SortsByAbsId srt)
    (hwrap : strict = true → ∀ m ∈ nodesIn file, m.2.x ≤ 347483647) (hS : W.Ok t e g) (hD : W.Fits (fileData asm file)) (hmany : (fileData asm file).length < 2 ^ 31)
    (hC : W.CoastFits pts) (he' : e ≤ 2048)
    (hlib : ∃ inter clipper correct, ClipLib e inter clipper correct ∧ PolyLib e clipper ∧ W.base.clip = clipGeometry inter clipper correct)
    (hpixel : ∃ fl, ExactSmall fl ∧ ∀ g b, smallerThanPixel fl g = .ok b → W.base.tiny g = b)
    (hends : ∀ z, ∀ l : Line, l.head? = l.getLast? → (keep (W.rd (W.mkMask l) z) l).head? = (keep (W.rd (W.mkMask l) z) l).getLast?)
    (runs : List (List String)) (hacts : changes runs = [.load true true, .pack, .tiles]) (a b : TileDb MetaTable)
    (hr : Imports (importParts (W.filesEnv zip srt strict threads asm file)) runs a b) (hsmall : SmallPacks b.features)
    (hsize : b.pf.reopen.size < 2 ^ 64) (features : List (UInt64 × Bytes)) (hdb : EntriesOf b.features features) (ctx : GetCtx)
    (hctx : makeRenderCtx W.base (preparedString b.maxPrepared) b.info = .ok ctx)
    (q : Tile) (hv : q.Valid) (hz10 : q.z ≤ 10) (hshort : W.ShortLines (fileData asm file) ctx q) :
    ∃ bytes layers, getTile b.tiles features b.pf.reopen ctx q = .ok (if bytes = [] then none else some (ctx.encode bytes)) ∧
      (bytes.length < 2 ^ 32 → clientTile bytes = some layers ∧ (bytes = [] ↔ layers = [])) ∧
      FileAreasSeenIf (LargeHere W.base.clip q) W.toOsmSetting t e g asm file q layers := by
  obtain ⟨bytes, layers, h1, h2, h3⟩ := C79_world hS hD hmany hC he' hlib hpixel hends runs hacts a b (files_imports hland hp hf hsrt hwrap hr) hsmall hsize features hdb ctx hctx q hv hz10 hshort
  exact ⟨bytes, layers, h1, h2, file_areas_seen_if h3⟩
end
end Tiles
