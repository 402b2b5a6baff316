import Verif.Props.C73
import Verif.Props.C77
/-! C77 with a coastline, and from the input files. -/
namespace Tiles
open Spec

/-- a server that was started like this draws areas one by one -/
theorem ctx_one_by_one {base ctx : GetCtx} {pr : Option Bytes} {m : MetaTable} (h : makeRenderCtx base pr m = .ok ctx) : ctx.aggPolygons = false := by
  unfold makeRenderCtx at h
  dsimp only at h
  have key : ∀ {mx : Int} {sea : List Nat}, (loadLayerNames m.names >>= fun names => loadSharedMetadata m.coding >>= fun dec =>
      (pure { base with maxPrepared := mx, seaside := sea, layerNames := names, dec := dec, ignorePrepared := false, ignoreSeaside := false,
                        label := none, aggLines := false, aggPolygons := false, dropSubpixel := true } : Res GetCtx)) = .ok ctx → ctx.aggPolygons = false := by
    intro mx sea h
    obtain ⟨n, _, h⟩ := Res.bind_eq_ok.1 h
    obtain ⟨d, _, h⟩ := Res.bind_eq_ok.1 h
    rw [Res.pure_eq] at h
    injection h with h
    rw [← h]
  split at h
  · obtain ⟨x, _, h⟩ := Res.bind_eq_ok.1 h
    split at h
    · obtain ⟨y, _, h⟩ := Res.bind_eq_ok.1 h; exact key h
    · obtain ⟨y, _, h⟩ := Res.bind_eq_ok.1 h; exact key h
  · obtain ⟨x, _, h⟩ := Res.bind_eq_ok.1 h
    split at h
    · obtain ⟨y, _, h⟩ := Res.bind_eq_ok.1 h; exact key h
    · obtain ⟨y, _, h⟩ := Res.bind_eq_ok.1 h; exact key h

section
variable {W : WorldSetting} {t : Tables} {e : Int} {g : ℝ} {data : List Datum} {pts : Set Pt}

/-- Areas are drawn in a world with a coastline, too: as `C77_areas`, after the import of any coastline and any OSM data (C69). -/
theorem C77_world (hS : W.Ok t e g) (hD : W.Fits data) (hmany : data.length < 2 ^ 31) (hC : W.CoastFits pts)
    (hlib : ∃ inter clipper correct, ClipLib e inter clipper correct ∧ PolyLib e clipper ∧ W.base.clip = clipGeometry inter clipper correct)
    (hends : ∀ z, ∀ l : Line, l.head? = l.getLast? → (keep (W.rd (W.mkMask l) z) l).head? = (keep (W.rd (W.mkMask l) z) l).getLast?)
    (runs : List (List String)) (hacts : changes runs = [.load true true, .pack, .tiles]) (a b : TileDb MetaTable)
    (hr : Imports (importParts (W.env data)) runs a b) (hsmall : SmallPacks b.features)
    (hsize : b.pf.reopen.size < 2 ^ 64) (features : List (UInt64 × Bytes)) (hdb : EntriesOf b.features features) (ctx : GetCtx)
    (hctx : makeRenderCtx W.base (preparedString b.maxPrepared) b.info = .ok ctx)
    (q : Tile) (hv : q.Valid) (hz10 : 10 < q.z) (hz : q.z ≤ 20) (hshort : W.ShortLines data ctx q) :
    ∃ bytes layers, getTile b.tiles features b.pf.reopen ctx q = .ok (if bytes = [] then none else some (ctx.encode bytes)) ∧
      (bytes.length < 2 ^ 32 → clientTile bytes = some layers ∧ (bytes = [] ↔ layers = [])) ∧
      AreasSeen W.toOsmSetting t e g data q layers := by
  obtain ⟨inter, clipper, correct, hclib, hpoly, hclip⟩ := hlib
  have hone := ctx_one_by_one hctx
  obtain ⟨cs, sea, fs, m0, names, tbl, _, _, hl, ⟨c1, _, c3, _⟩, hcf, _, heach, h3⟩ := world_served hS hD hmany hC runs hacts a b hr hsmall hsize features hdb ctx hctx
  obtain ⟨bytes, layers, leafs, gs, k1, k2, k3, k4, k5, k6, _⟩ := h3 q hv hz hshort (.inl (by omega))
  refine ⟨bytes, layers, k4, k5, areas_seen hS hD hends hl q hz layers fun f hf hz1 hz2 hl0 huniq => ?_⟩
  have hmem : ∀ {x : Inserted}, x ∈ (cs :: fs.map (List.map whole)).flatten ↔ x ∈ cs ∨ ∃ f ∈ fs.flatten, x = whole f := by
    intro x
    rw [List.flatten_cons, List.mem_append, mem_whole]
  have hw : whole f ∈ (cs :: fs.map (List.map whole)).flatten := hmem.2 (.inr ⟨f, hf, rfl⟩)
  obtain ⟨_, _, _, _, hst, _⟩ := hl.from_data f hf
  refine ⟨_, hst.layer, fun ps qs hg hq hout p p' hab ha hb => ?_⟩
  rw [k6, drawing, if_neg (by omega)]
  refine stored_edges hclib hpoly hS.error.1 ctx.toRenderCtx (c3.trans hclip) q hz (fun g hg => by obtain ⟨x, n1, _, _, n2⟩ := k2 g hg; exact ⟨x, n1, n2⟩) k3 hw
    (heach _ hw).1.toPackable.toFeatureOk ((heach _ hw).2 q.z hz) hz1 hz2 _ (by rw [c1]; exact hst.layer) hl0 (fun x hx n1 n2 n3 => ?_) ps qs hg hq (by simp [hone]) hout p p' hab ha hb
  rcases hmem.1 hx with hx | ⟨f', hf', rfl⟩
  · obtain ⟨_, ps, h1, _⟩ := hcf.shows x hx
    obtain ⟨k, _, h2⟩ := h1.feature
    rw [h2] at n1
    exact absurd n1.symm hl0
  · exact huniq f' hf' n1 n2 n3
end

section
variable {R : Type} {asm : List (List (LocatedEntity R)) → List (LocatedEntity R) → List (OsmItem LatLng)} {file : List (List (OsmEntity R))} {srt : List NodeQuery → List NodeQuery}
  {strict : Bool} {threads : Nat} {zip : ZipArchive} {ps : List ShpPolygon} {S : OsmSetting} {t : Tables} {e : Int} {g : ℝ}

/-- `AreasSeen` for the areas that are made of the ways and relations of a file -/
def Spec.FileAreasSeen (S : OsmSetting) (t : Tables) (e : Int) (g : ℝ) (asm : List (List (LocatedEntity R)) → List (LocatedEntity R) → List (OsmItem LatLng)) (file : List (List (OsmEntity R)))
    (q : Tile) (layers : List ClientLayer) : Prop :=
  ∀ o ∈ areasOf asm [] (file.map (List.map (withPlaces (nodesIn file)))), (∀ o' ∈ areasOf asm [] (file.map (List.map (withPlaces (nodesIn file)))), o'.id % 2 ^ 64 = o.id % 2 ^ 64 → o' = o) →
    ∀ items, o.shape = .area items → ∀ r, decideBy t.areas (tagValue o.tags) = some r →
    ∀ z, levelFor (areaOf S.prof (S.profile.object S.numeral o.id o.tags o.shape)) r.zoom = some z → z ≤ q.z →
    ProperArea e S.prof.conv (fun l => S.rd (S.mkMask l) q.z) items →
    ∀ A B, Piece S.prof.conv (fun l => S.rd (S.mkMask l) q.z) o.shape A B →
      ∀ s s' : ℝ, 0 ≤ s → s ≤ 1 → 0 ≤ s' → s' ≤ 1 → Deep g q (between A B s) → Deep g q (between A B s') →
        ¬ (|(inTile q (between A B s)).1 - (inTile q (between A B s')).1| < (4 * e + 2 * g) / 2 ^ (20 - q.z) + 1 ∧
           |(inTile q (between A B s)).2 - (inTile q (between A B s')).2| < (4 * e + 2 * g) / 2 ^ (20 - q.z) + 1) →
        AreaSeen layers r.layer (o.id % 2 ^ 64) (r.shown S.numeral S.prof.toDouble (tagValue o.tags)) (fun p p' =>
          ∀ u : ℝ, 0 ≤ u → u ≤ 1 → Deep g q (between A B u) → ∃ v : ℝ, 0 ≤ v ∧ v ≤ 1 ∧ CloseBy ((e + g) / 2 ^ (20 - q.z) + 1) (onSeg p p' v) (inTile q (between A B u)))

theorem file_areas_seen {q : Tile} {layers : List ClientLayer} (h : AreasSeen S t e g (fileData asm file) q layers) : FileAreasSeen S t e g asm file q layers := by
  intro o ho hone items hsh r hr z hzl hzq hproper A B hAB
  refine h (itemDatum o) (mem_fileData.2 (.area o ho)) items hsh r (by
    show decideBy (t.of o.shape) (tagValue o.tags) = some r
    rw [hsh]; exact hr) z hzl hzq hproper (fun d' hd' hid hty => ?_) A B hAB
  rcases mem_fileData.1 hd' with ⟨id', tags', loc', h⟩ | ⟨id', tags', refs', h⟩ | ⟨o', h⟩
  · cases hty
  · cases hty
  · rw [hone o' h hid]

/-- After the import of an OSM file: the areas that are made of its ways and relations are drawn, as in `C77_areas`. -/
theorem C77_file (hf : GoodFile file) (hsrt : SortsByAbsId srt) (hwrap : strict = true → ∀ m ∈ nodesIn file, m.2.x ≤ 347483647)
    (hS : S.Ok t e g) (hD : S.Fits (fileData asm file))
    (hlib : ∃ inter clipper correct, ClipLib e inter clipper correct ∧ PolyLib e clipper ∧ S.base.clip = clipGeometry inter clipper correct)
    (hends : ∀ z, ∀ l : Line, l.head? = l.getLast? → (keep (S.rd (S.mkMask l) z) l).head? = (keep (S.rd (S.mkMask l) z) l).getLast?)
    (runs : List (List String)) (hacts : changes runs = [.load false true, .pack, .tiles]) (a b : TileDb MetaTable)
    (hr : Imports (importParts (S.fileEnv srt strict threads asm file)) runs a b) (hsmall : SmallPacks b.features) (hsize : b.pf.reopen.size < 2 ^ 64) (features : List (UInt64 × Bytes))
    (hdb : EntriesOf b.features features) (ctx : GetCtx) (hctx : makeRenderCtx S.base (preparedString b.maxPrepared) b.info = .ok ctx)
    (q : Tile) (hv : q.Valid) (hz10 : 10 < q.z) (hz : q.z ≤ 20) (hshort : S.ShortLines (fileData asm file) ctx q) :
    ∃ bytes layers, getTile b.tiles features b.pf.reopen ctx q = .ok (if bytes = [] then none else some (ctx.encode bytes)) ∧
      (bytes.length < 2 ^ 32 → clientTile bytes = some layers ∧ (bytes = [] ↔ layers = [])) ∧
      FileAreasSeen S t e g asm file q layers := by
  obtain ⟨bytes, layers, h1, h2, h3⟩ := C77_areas hS hD hlib hends runs hacts a b (file_imports hf hsrt hwrap hr) hsmall hsize features hdb ctx hctx q hv hz10 hz hshort
  exact ⟨bytes, layers, h1, h2, file_areas_seen h3⟩

variable {W : WorldSetting} {pts : Set Pt}

/-- After the import of the archive with the land polygons and of an OSM file (C73): the areas that are made of its ways and relations are drawn. -/
theorem C77_files (hland : LandArchive zip ps) (hp : W.polys = landOf W.prof.conv ps) (hf : GoodFile file) (hsrt : SortsByAbsId srt)
    (hwrap : strict = true → ∀ m ∈ nodesIn file, m.2.x ≤ 347483647) (hS : W.Ok t e g) (hD : W.Fits (fileData asm file)) (hmany : (fileData asm file).length < 2 ^ 31)
    (hC : W.CoastFits pts)
    (hlib : ∃ inter clipper correct, ClipLib e inter clipper correct ∧ PolyLib e clipper ∧ W.base.clip = clipGeometry inter clipper correct)
    (hends : ∀ z, ∀ l : Line, l.head? = l.getLast? → (keep (W.rd (W.mkMask l) z) l).head? = (keep (W.rd (W.mkMask l) z) l).getLast?)
    (runs : List (List String)) (hacts : changes runs = [.load true true, .pack, .tiles]) (a b : TileDb MetaTable)
    (hr : Imports (importParts (W.filesEnv zip srt strict threads asm file)) runs a b) (hsmall : SmallPacks b.features)
    (hsize : b.pf.reopen.size < 2 ^ 64) (features : List (UInt64 × Bytes)) (hdb : EntriesOf b.features features) (ctx : GetCtx)
    (hctx : makeRenderCtx W.base (preparedString b.maxPrepared) b.info = .ok ctx)
    (q : Tile) (hv : q.Valid) (hz10 : 10 < q.z) (hz : q.z ≤ 20) (hshort : W.ShortLines (fileData asm file) ctx q) :
    ∃ bytes layers, getTile b.tiles features b.pf.reopen ctx q = .ok (if bytes = [] then none else some (ctx.encode bytes)) ∧
      (bytes.length < 2 ^ 32 → clientTile bytes = some layers ∧ (bytes = [] ↔ layers = [])) ∧
      FileAreasSeen W.toOsmSetting t e g asm file q layers := by
  obtain ⟨bytes, layers, h1, h2, h3⟩ := C77_world hS hD hmany hC hlib hends runs hacts a b (files_imports hland hp hf hsrt hwrap hr) hsmall hsize features hdb ctx hctx q hv hz10 hz hshort
  exact ⟨bytes, layers, h1, h2, file_areas_seen h3⟩
end
end Tiles
