import Verif.Props.C73
import Verif.Props.C78
/-! C78 with a coastline, and from the input files. -/
namespace Tiles
open Spec

section
variable {W : WorldSetting} {t : Tables} {e : Int} {g τ : ℝ} {data : List Datum} {pts : Set Pt}

/-- Streets are drawn at the prepared levels of a world with a coastline, too: as `C78_streets`, after the import of any coastline and any OSM data (C69). -/
theorem C78_world (hS : W.Ok t e g) (hD : W.Fits data) (hmany : data.length < 2 ^ 31) (hC : W.CoastFits pts) (hτ : 0 ≤ τ)
    (hlib : ∃ inter clipper correct simplify, LineLib e inter ∧ CoverLib τ simplify ∧ W.base.clip = clipGeometry inter clipper correct ∧
      ∀ z fs out, aggregateLineFeatures simplify z fs = .ok out → W.base.aggregate z fs = out)
    (runs : List (List String)) (hacts : changes runs = [.load true true, .pack, .tiles]) (a b : TileDb MetaTable)
    (hr : Imports (importParts (W.env data)) runs a b) (hsmall : SmallPacks b.features)
    (hsize : b.pf.reopen.size < 2 ^ 64) (features : List (UInt64 × Bytes)) (hdb : EntriesOf b.features features) (ctx : GetCtx)
    (hctx : makeRenderCtx W.base (preparedString b.maxPrepared) b.info = .ok ctx)
    (q : Tile) (hv : q.Valid) (hz10 : q.z ≤ 10) (hshort : W.ShortLines data ctx q) :
    ∃ bytes layers, getTile b.tiles features b.pf.reopen ctx q = .ok (if bytes = [] then none else some (ctx.encode bytes)) ∧
      (bytes.length < 2 ^ 32 → clientTile bytes = some layers ∧ (bytes = [] ↔ layers = [])) ∧
      StreetsKept W.toOsmSetting t e g τ data q layers := by
  obtain ⟨inter, clipper, correct, simplify, hline, hcover, hclip, hagg⟩ := hlib
  obtain ⟨cs, sea, fs, m0, names, tbl, _, _, hl, ⟨c1, _, c3, c4⟩, hcf, _, heach, h3, _⟩ := world_served_all hS hD hmany hC runs hacts a b hr hsmall hsize features hdb ctx hctx
  obtain ⟨bytes, layers, leafs, gs, k2, k3, k4, k5, k6⟩ := h3 q hv hz10 hshort
  have k3' := fun x hx n1 n2 n3 n4 => k3 x hx (shows_found (heach x hx).1 hv (show q.z ≤ 20 by omega) n1 n2 n3 n4).1 (shows_found (heach x hx).1 hv (show q.z ≤ 20 by omega) n1 n2 n3 n4).2
  refine ⟨bytes, layers, k4, k5, streets_kept hS hD hl q (by omega) layers fun f hf hz1 hz2 huniq => ?_⟩
  have hmem : ∀ {x : Inserted}, x ∈ (cs :: fs.map (List.map whole)).flatten ↔ x ∈ cs ∨ ∃ f ∈ fs.flatten, x = whole f := by
    intro x
    rw [List.flatten_cons, List.mem_append, mem_whole]
  have hcoast : ∀ x ∈ cs, typeOf x.feature.geometry ≠ 2 := by
    intro x hx hty
    obtain ⟨_, ps, h1, _⟩ := hcf.shows x hx
    obtain ⟨k, _, h2⟩ := h1.feature
    rw [h2] at hty
    cases hty
  have hw : whole f ∈ (cs :: fs.map (List.map whole)).flatten := hmem.2 (.inr ⟨f, hf, rfl⟩)
  obtain ⟨_, _, _, _, hst, _⟩ := hl.from_data f hf
  have hdr : (drawing ctx 10 q).clip = ctx.clip ∧ (drawing ctx 10 q).aggregate = ctx.aggregate ∧ (drawing ctx 10 q).layerNames = ctx.layerNames := by
    rw [drawing]; split <;> exact ⟨rfl, rfl, rfl⟩
  refine ⟨_, hst.layer, fun ls hg l hlm a b hab s s0 s1 hdeep a' b' hab' s' s0' s1' hfar => ?_⟩
  rw [k6]
  obtain ⟨x, hx, n1, n2, n3, n4⟩ := stored_joined hline hS.error.1 hτ hcover (drawing ctx 10 q).toRenderCtx (hdr.1.trans (c3.trans hclip)) q (by omega) (by rw [drawing, if_pos hz10])
    (fun fs out ho => by rw [hdr.2.1, c4]; exact hagg q.z fs out ho) (leafs := leafs)
    (fun g hg => by obtain ⟨x, n1, _, _, n2⟩ := k2 g hg; exact ⟨x, n1, n2⟩) k3'
    (fun g hg => by obtain ⟨x, n1, _, _, n2⟩ := k2 g hg; exact (stored_renderable (heach x n1).1.toPackable.toFeatureOk ((heach x n1).2 q.z (by omega)) n2).line) hw
    (heach _ hw).1.toPackable.toFeatureOk hz1 hz2 _ (by rw [hdr.2.2, c1]; exact hst.layer) (fun x hx n1 n2 n3 => by
      rcases hmem.1 hx with hx | ⟨f', hf', rfl⟩
      · exact absurd n3 (hcoast x hx)
      · exact huniq f' hf' n1 n2 n3) ls hg l hlm a b hab s s0 s1 hdeep a' b' hab' s' s0' s1' hfar
  rcases hmem.1 hx with hx | ⟨f', hf', rfl⟩
  · exact absurd n3 (hcoast x hx)
  · exact ⟨f', hf', n1, n2, n3, n4⟩
end

section
variable {R : Type} {asm : List (List (LocatedEntity R)) → List (LocatedEntity R) → List (OsmItem LatLng)} {file : List (List (OsmEntity R))} {srt : List NodeQuery → List NodeQuery}
  {strict : Bool} {threads : Nat} {zip : ZipArchive} {ps : List ShpPolygon} {S : OsmSetting} {t : Tables} {e : Int} {g τ : ℝ}

/-- `StreetsKept` for the ways of a file -/
def Spec.FileStreetsKept (S : OsmSetting) (t : Tables) (e : Int) (g τ : ℝ) (file : List (List (OsmEntity R))) (q : Tile) (layers : List ClientLayer) : Prop :=
  ∀ id tags refs, .way id tags refs ∈ file.flatten → (∀ tags' refs', .way id tags' refs' ∈ file.flatten → tags' = tags ∧ refs' = refs) →
    ∀ r, decideBy t.ways (tagValue tags) = some r → ∀ places : List (Option LatLng), places = refs.map (fun i => (nodeAt (nodesIn file) i).map degrees) →
    ∀ z, levelFor (areaOf S.prof (S.profile.object S.numeral id tags (.way places))) r.zoom = some z → z ≤ q.z →
    ∀ A B, [A, B] <:+: keptPlaces (S.rd (S.mkMask ((places.filterMap (fun x => x)).map S.prof.conv)) q.z) places →
    ∀ s : ℝ, 0 ≤ s → s ≤ 1 → Deep (2 * e + g + (2 + τ) * 2 ^ (20 - q.z)) q (between A B s) →
    ∀ A' B', [A', B'] <:+: keptPlaces (S.rd (S.mkMask ((places.filterMap (fun x => x)).map S.prof.conv)) q.z) places →
    ∀ s' : ℝ, 0 ≤ s' → s' ≤ 1 → ¬ NearBy (2 * τ + 1 + 2 * g / 2 ^ (20 - q.z)) (inTile q (between A B s)) (inTile q (between A' B' s')) →
    ∃ id' tags' refs', .way id' tags' refs' ∈ file.flatten ∧ (∃ r', decideBy t.ways (tagValue tags') = some r' ∧ r'.layer = r.layer ∧
        (r'.shown S.numeral S.prof.toDouble (tagValue tags')).Perm (r.shown S.numeral S.prof.toDouble (tagValue tags))) ∧
      LineSeen layers r.layer (id' % 2 ^ 64) (r.shown S.numeral S.prof.toDouble (tagValue tags)) (fun p p' =>
        ∃ v : ℝ, 0 ≤ v ∧ v ≤ 1 ∧ CloseBy ((e + g) / 2 ^ (20 - q.z) + 2 + τ) (onSeg p p' v) (inTile q (between A B s)))

theorem file_streets_kept (hf : GoodFile file) (hasm : MakesAreas asm) {q : Tile} {layers : List ClientLayer} (h3 : StreetsKept S t e g τ (fileData asm file) q layers) :
    FileStreetsKept S t e g τ file q layers := by
  intro id tags refs hn hone r hr places hpl z hzl hzq A B hAB s s0 s1 hd A' B' hAB' s' s0' s1' hfar
  subst hpl
  obtain ⟨d', hd', hty, ⟨r', i1, i2, i3⟩, i4⟩ := h3 ⟨id, tags, .way (refs.map (fun i => (nodeAt (nodesIn file) i).map degrees))⟩ (mem_fileData.2 (.way id tags refs hn)) _ rfl r hr z hzl hzq (fun d' hd' hid hty => by
    rcases mem_fileData.1 hd' with ⟨id', tags', loc', h⟩ | ⟨id', tags', refs', h⟩ | ⟨o, h⟩
    · cases hty
    · have i1 := hf.ways _ _ _ hn
      have i2 := hf.ways _ _ _ h
      have := id_inj ⟨i2.1, i2.2.1⟩ ⟨i1.1, i1.2.1⟩ hid
      subst this
      obtain ⟨rfl, rfl⟩ := hone tags' refs' h
      rfl
    · rw [areas_type hasm _ _ o h] at hty
      cases hty) A B hAB s s0 s1 hd A' B' hAB' s' s0' s1' hfar
  rcases mem_fileData.1 hd' with ⟨id', tags', loc', h⟩ | ⟨id', tags', refs', h⟩ | ⟨o, h⟩
  · cases hty
  · exact ⟨id', tags', refs', h, ⟨r', i1, i2, i3⟩, i4⟩
  · rw [areas_type hasm _ _ o h] at hty
    cases hty

/-- After the import of an OSM file: its ways are drawn at the prepared levels, as in `C78_streets`, at the places that the file gives to the ids of their nodes. -/
theorem C78_file (hf : GoodFile file) (hsrt : SortsByAbsId srt) (hwrap : strict = true → ∀ m ∈ nodesIn file, m.2.x ≤ 347483647) (hasm : MakesAreas asm)
    (hS : S.Ok t e g) (hD : S.Fits (fileData asm file)) (hτ : 0 ≤ τ)
    (hlib : ∃ inter clipper correct simplify, ClipLib e inter clipper correct ∧ LineLib e inter ∧ CoverLib τ simplify ∧ S.base.clip = clipGeometry inter clipper correct ∧
      ∀ z fs out, aggregateLineFeatures simplify z fs = .ok out → S.base.aggregate z fs = out)
    (runs : List (List String)) (hacts : changes runs = [.load false true, .pack, .tiles]) (a b : TileDb MetaTable)
    (hr : Imports (importParts (S.fileEnv srt strict threads asm file)) runs a b) (hsmall : SmallPacks b.features) (hsize : b.pf.reopen.size < 2 ^ 64) (features : List (UInt64 × Bytes))
    (hdb : EntriesOf b.features features) (ctx : GetCtx) (hctx : makeRenderCtx S.base (preparedString b.maxPrepared) b.info = .ok ctx)
    (q : Tile) (hv : q.Valid) (hz10 : q.z ≤ 10) (hshort : S.ShortLines (fileData asm file) ctx q) :
    ∃ bytes layers, getTile b.tiles features b.pf.reopen ctx q = .ok (if bytes = [] then none else some (ctx.encode bytes)) ∧
      (bytes.length < 2 ^ 32 → clientTile bytes = some layers ∧ (bytes = [] ↔ layers = [])) ∧
      FileStreetsKept S t e g τ file q layers := by
  obtain ⟨bytes, layers, h1, h2, h3⟩ := C78_streets hS hD hτ hlib runs hacts a b (file_imports hf hsrt hwrap hr) hsmall hsize features hdb ctx hctx q hv hz10 hshort
  exact ⟨bytes, layers, h1, h2, file_streets_kept hf hasm h3⟩

variable {W : WorldSetting} {pts : Set Pt}

/-- After the import of the archive with the land polygons and of an OSM file (C73): the ways of the file are drawn at the prepared levels. -/
theorem C78_files (hland : LandArchive zip ps) (hp : W.polys = landOf W.prof.conv ps) (hf : GoodFile file) (hsrt : SortsByAbsId srt)
    (hwrap : strict = true → ∀ m ∈ nodesIn file, m.2.x ≤ 347483647) (hasm : MakesAreas asm) (hS : W.Ok t e g) (hD : W.Fits (fileData asm file)) (hmany : (fileData asm file).length < 2 ^ 31)
    (hC : W.CoastFits pts) (hτ : 0 ≤ τ)
    (hlib : ∃ inter clipper correct simplify, LineLib e inter ∧ CoverLib τ simplify ∧ W.base.clip = clipGeometry inter clipper correct ∧
      ∀ z fs out, aggregateLineFeatures simplify z fs = .ok out → W.base.aggregate z fs = out)
    (runs : List (List String)) (hacts : changes runs = [.load true true, .pack, .tiles]) (a b : TileDb MetaTable)
    (hr : Imports (importParts (W.filesEnv zip srt strict threads asm file)) runs a b) (hsmall : SmallPacks b.features)
    (hsize : b.pf.reopen.size < 2 ^ 64) (features : List (UInt64 × Bytes)) (hdb : EntriesOf b.features features) (ctx : GetCtx)
    (hctx : makeRenderCtx W.base (preparedString b.maxPrepared) b.info = .ok ctx)
    (q : Tile) (hv : q.Valid) (hz10 : q.z ≤ 10) (hshort : W.ShortLines (fileData asm file) ctx q) :
    ∃ bytes layers, getTile b.tiles features b.pf.reopen ctx q = .ok (if bytes = [] then none else some (ctx.encode bytes)) ∧
      (bytes.length < 2 ^ 32 → clientTile bytes = some layers ∧ (bytes = [] ↔ layers = [])) ∧
      FileStreetsKept W.toOsmSetting t e g τ file q layers := by
  obtain ⟨bytes, layers, h1, h2, h3⟩ := C78_world hS hD hmany hC hτ hlib runs hacts a b (files_imports hland hp hf hsrt hwrap hr) hsmall hsize features hdb ctx hctx q hv hz10 hshort
  exact ⟨bytes, layers, h1, h2, file_streets_kept hf hasm h3⟩
end
end Tiles
