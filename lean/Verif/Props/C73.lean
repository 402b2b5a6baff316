import Verif.Spec.WorldFiles
import Verif.Props.C39
import Verif.Props.C72
import Verif.Props.C69
/-
C73: from the two input files — the archive with the land polygons and the OSM file — to the client.
-/
namespace Tiles
open Spec

theorem suffix4 (n : Bytes) : (n.length < 4 ∨ n.drop (n.length - 4) ≠ dotShp) ↔ ¬ Spec.shpSuffix <:+ n := by
  constructor
  · rintro h ⟨p, rfl⟩
    rcases h with h | h
    · rw [List.length_append, show Spec.shpSuffix.length = 4 from rfl] at h; omega
    · apply h
      rw [List.length_append, show Spec.shpSuffix.length = 4 from rfl, Nat.add_sub_cancel, List.drop_left]; rfl
  · intro h
    by_contra hc
    rw [not_or, not_not] at hc
    exact h ⟨n.take (n.length - 4), by rw [show Spec.shpSuffix = dotShp from rfl, ← hc.2, List.take_append_drop]⟩

theorem findShp_first {pre : List ZipEntry} (hpre : ∀ e ∈ pre, ¬ Spec.shpSuffix <:+ e.name) {name : Bytes} (hn : Spec.shpSuffix <:+ name) (data : Option Bytes) (post : List (Option ZipEntry)) :
    findShp (pre.map some ++ some ⟨name, data⟩ :: post) = match data with | none => .throw_ | some b => .ok b := by
  induction pre with
  | nil =>
    rw [List.map_nil, List.nil_append, findShp, if_neg (by rw [suffix4]; exact not_not.2 hn)]
    cases data <;> rfl
  | cons e pre ih =>
    rw [List.map_cons, List.cons_append, findShp, if_pos ((suffix4 _).2 (hpre e (by simp)))]
    exact ih (fun e he => hpre e (by simp [he]))

/-- Reading the archive gives its land polygons, each point where the map library puts its place. -/
theorem C73_land (conv : LatLng → XY) {zip : ZipArchive} {ps : List ShpPolygon} (h : LandArchive zip ps) : loadShapefile (shpConv conv) zip = .ok (landOf conv ps) := by
  obtain ⟨pre, name, pad1, pad2, post, rfl, h1, h2, h3, h4, h5⟩ := h.entry
  rw [loadShapefile, loadBuffer, findShp_first h1 h2, Res.ok_bind,
    C39_single_ring_partial (shpConv conv) pad1 pad2 ps h3 h4 h.count h5 (fun p hp => (h.polygons p hp).1) (fun p hp => (h.polygons p hp).2)]
  congr 1
  refine List.map_congr_left fun p hp => ?_
  obtain ⟨r, hr⟩ := List.length_eq_one_iff.1 (h.polygons p hp).2
  simp [shpExpected, ShpPolygon.outline, hr, shpConv, ShpPoint.place]

/-- An archive without such an entry is refused, and so is one that cannot be read. -/
theorem C73_refused (conv : Nat → Nat → XY) :
    loadShapefile conv none = .throw_ ∧
    (∀ pre : List ZipEntry, (∀ e ∈ pre, ¬ Spec.shpSuffix <:+ e.name) → loadShapefile conv (some (pre.map some)) = .throw_ ∧
      (∀ post, loadShapefile conv (some (pre.map some ++ none :: post)) = .throw_) ∧
      ∀ name post, Spec.shpSuffix <:+ name → loadShapefile conv (some (pre.map some ++ some ⟨name, none⟩ :: post)) = .throw_) := by
  refine ⟨rfl, fun pre hpre => ⟨?_, fun post => ?_, fun name post hn => ?_⟩⟩
  · have : findShp (pre.map some) = .throw_ := by
      induction pre with
      | nil => rfl
      | cons e pre ih =>
        rw [List.map_cons, findShp, if_pos ((suffix4 _).2 (hpre e (by simp)))]
        exact ih (fun e he => hpre e (by simp [he]))
    rw [loadShapefile, loadBuffer, this]; rfl
  · have : findShp (pre.map some ++ none :: post) = .throw_ := by
      induction pre with
      | nil => rfl
      | cons e pre ih =>
        rw [List.map_cons, List.cons_append, findShp, if_pos ((suffix4 _).2 (hpre e (by simp)))]
        exact ih (fun e he => hpre e (by simp [he]))
    rw [loadShapefile, loadBuffer, this]; rfl
  · rw [loadShapefile, loadBuffer, findShp_first hpre hn]; rfl

/-- The vertices of the land polygons are where the Mercator projection puts the points of the archive, to the error of the map library. -/
theorem C73_places {g : ℝ} {px : LatLng → XY} (hg : 1 ≤ g) (hgeo : GeoLib g px) {ps : List ShpPolygon} {P : ShpPolygon} (hP : P ∈ ps) (hon : ∀ l ∈ P.outline, OnMap l) :
    ∃ q ∈ landOf (latlngToFixed px) ps, q.inners = [] ∧ List.Forall₂ (fun (l : LatLng) (v : XY) => |(v.x : ℝ) - mapX l * 2 ^ 32| ≤ g ∧ |(v.y : ℝ) - mapY l * 2 ^ 32| ≤ g) P.outline q.outer := by
  refine ⟨_, List.mem_map.2 ⟨P, hP, rfl⟩, rfl, ?_⟩
  rw [List.forall₂_map_right_iff, List.forall₂_same]
  intro l hl
  obtain ⟨x, y, k1, _, _, k2, k3⟩ := C64_near hg hgeo l (hon l hl)
  rw [k1]
  exact ⟨by simpa using k2, by simpa using k3⟩

section
variable {R : Type} {asm : List (List (LocatedEntity R)) → List (LocatedEntity R) → List (OsmItem LatLng)} {file : List (List (OsmEntity R))} {srt : List NodeQuery → List NodeQuery}
  {strict : Bool} {threads : Nat} {zip : ZipArchive} {ps : List ShpPolygon}

/-- what the loading of the two files can hand to the database: the coastline is read from the archive and loaded, then the OSM file (import.cc:80-94) -/
def Spec.WorldSetting.FilesLoad (W : WorldSetting) (zip : ZipArchive) (srt : List NodeQuery → List NodeQuery) (strict : Bool) (threads : Nat)
    (asm : List (List (LocatedEntity R)) → List (LocatedEntity R) → List (OsmItem LatLng)) (file : List (List (OsmEntity R))) (xs : List (List Inserted)) (m : MetaTable) : Prop :=
  ∃ polys cs sea fs m0 nodes, loadShapefile (shpConv W.prof.conv) zip = .ok polys ∧ CoastLoads W.lib polys W.coastWorkers cs sea ∧
    FileLoads W.prof W.profile W.numeral srt strict threads asm file fs m0 ∧ xs = cs :: fs.map (List.map whole) ∧
    makeBqTree sea = .ok nodes ∧ m = { m0 with seaside := some (bqStringView nodes) }

/-- the import of the two files (the other parts are those of `OsmSetting.env`) -/
noncomputable def Spec.WorldSetting.filesEnv (W : WorldSetting) (zip : ZipArchive) (srt : List NodeQuery → List NodeQuery) (strict : Bool) (threads : Nat)
    (asm : List (List (LocatedEntity R)) → List (LocatedEntity R) → List (OsmItem LatLng)) (file : List (List (OsmEntity R))) : ImportEnv MetaTable :=
  { W.toOsmSetting.env [] with loads := fun coast osm xs m => coast = true ∧ osm = true ∧ W.FilesLoad zip srt strict threads asm file xs m }

variable {W : WorldSetting} {t : Tables} {e : Int} {g τ : ℝ} {pts : Set Pt}

theorem files_imports (hz : LandArchive zip ps) (hp : W.polys = landOf W.prof.conv ps) (hf : GoodFile file) (hsrt : SortsByAbsId srt)
    (hwrap : strict = true → ∀ m ∈ nodesIn file, m.2.x ≤ 347483647) {runs : List (List String)} {a b : TileDb MetaTable}
    (h : Imports (importParts (W.filesEnv zip srt strict threads asm file)) runs a b) : Imports (importParts (W.env (fileData asm file))) runs a b := by
  induction runs generalizing a with
  | nil => exact h
  | cons tasks runs ih =>
    obtain ⟨c, h1, h2⟩ := h
    refine ⟨c, loads_mono (en := W.filesEnv zip srt strict threads asm file) (loads := (W.env (fileData asm file)).loads) ?_ h1, ih h2⟩
    rintro c o xs m ⟨h3, h4, polys, cs, sea, fs, m0, nodes, h5, h6, h7, h8, h9, h10⟩
    rw [C73_land W.prof.conv hz] at h5
    injection h5 with h5
    subst h5
    exact ⟨h3, h4, cs, sea, fs, m0, h8, by rw [hp]; exact h6, C72_loads hf hsrt hwrap h7, nodes, h9, h10⟩

/-- After the import of the two files the server starts. -/
theorem C73_starts (hz : LandArchive zip ps) (hp : W.polys = landOf W.prof.conv ps) (hf : GoodFile file) (hsrt : SortsByAbsId srt)
    (hwrap : strict = true → ∀ m ∈ nodesIn file, m.2.x ≤ 347483647) (hS : W.Ok t e g) (hD : W.Fits (fileData asm file)) (hmany : (fileData asm file).length < 2 ^ 31)
    (hC : W.CoastFits pts) (runs : List (List String)) (hacts : changes runs = [.load true true, .pack, .tiles]) (a b : TileDb MetaTable)
    (hr : Imports (importParts (W.filesEnv zip srt strict threads asm file)) runs a b) (hsmall : SmallPacks b.features) :
    ∃ ctx, makeRenderCtx W.base (preparedString b.maxPrepared) b.info = .ok ctx ∧ ctx.maxPrepared = 10 :=
  C69_starts hS hD hmany hC runs hacts a b (files_imports hz hp hf hsrt hwrap hr) hsmall

/-- The two files reach the client: after the import of the archive with the land polygons and of the OSM file (in any runs of the program that load, pack and prepare; any division
into buffers, any number of threads, any order of events) the server answers every request for a tile (below level 10: in the area of the features, or where the tile is all sea or has none), and
* the tile is drawn from squares and polygons that show the sea, which is what the polygons of the archive leave, and exactly the sea;
* every node of the file that the table of the profile gives a layer is seen where it is;
* above level 10, every way of the file that the table gives a layer is seen along its nodes;
* everything a client sees is sea, in the layer of the coastline, or an object of the file, with its attributes, in its place. -/
theorem C73_served (hland : LandArchive zip ps) (hp : W.polys = landOf W.prof.conv ps) (hf : GoodFile file) (hsrt : SortsByAbsId srt)
    (hwrap : strict = true → ∀ m ∈ nodesIn file, m.2.x ≤ 347483647) (hasm : MakesAreas asm) (hS : W.Ok t e g) (hD : W.Fits (fileData asm file)) (hmany : (fileData asm file).length < 2 ^ 31)
    (hC : W.CoastFits pts)
    (hlib : ∃ inter clipper correct simplify, ClipLib e inter clipper correct ∧ LineLib e inter ∧ FaithLib e τ inter clipper simplify ∧ W.base.clip = clipGeometry inter clipper correct ∧
      ∀ z fs out, aggregateLineFeatures simplify z fs = .ok out → W.base.aggregate z fs = out)
    (hends : ∀ z, ∀ l : Line, l.head? = l.getLast? → (keep (W.rd (W.mkMask l) z) l).head? = (keep (W.rd (W.mkMask l) z) l).getLast?)
    (runs : List (List String)) (hacts : changes runs = [.load true true, .pack, .tiles]) (a b : TileDb MetaTable)
    (hr : Imports (importParts (W.filesEnv zip srt strict threads asm file)) runs a b) (hsmall : SmallPacks b.features)
    (hsize : b.pf.reopen.size < 2 ^ 64) (features : List (UInt64 × Bytes)) (hdb : EntriesOf b.features features) (ctx : GetCtx)
    (hctx : makeRenderCtx W.base (preparedString b.maxPrepared) b.info = .ok ctx) :
    ∃ cs sea, CoastLoads W.lib (landOf W.prof.conv ps) W.coastWorkers cs sea ∧ ∀ q : Tile, q.Valid → q.z ≤ 20 → W.ShortLines (fileData asm file) ctx q →
      10 ≤ q.z ∨ InArea (dbBounds (features.map (·.1))) q ∨ (∃ t ∈ sea, AncOrSelf t q) ∨ (∀ t ∈ sea, ¬ AncOrSelf q t) →
      ∃ bytes layers, getTile b.tiles features b.pf.reopen ctx q = .ok (if bytes = [] then none else some (ctx.encode bytes)) ∧
        (bytes.length < 2 ^ 32 → clientTile bytes = some layers ∧ (bytes = [] ↔ layers = [])) ∧
        (∃ leafs gs, layers = tileContent (drawing ctx 10 q).toRenderCtx (specOf q) (leafs.map seaSquare ++ gs) ∧
          SeaDrawn (landOf W.prof.conv ps) pts (fun l => W.rd (W.mkMask l) q.z) cs q leafs gs) ∧
        FileNodesSeen W.toOsmSetting t g file q layers ∧
        (10 < q.z → FileStreetsSeen W.toOsmSetting t e g file q layers) ∧
        ∀ L ∈ layers, ∀ c ∈ L.features, (∀ part ∈ c.parts, ∀ p ∈ part.points, InMargin e q.z p) ∧
          ((L.name = kLayerCoastlineName ∧ c.type = 3 ∧ c.tags = [] ∧ ((∃ t ∈ sea, AncOrSelf t q ∨ AncOrSelf q t) ∨ ∃ x ∈ cs, Shows q x.feature ∧ c.id = x.feature.id)) ∨
           DrawnInPlace W.toOsmSetting t e g τ (fileData asm file) q L c) := by
  obtain ⟨inter, clipper, correct, simplify, hclib, hline, hfaith, hclip, hagg⟩ := hlib
  obtain ⟨cs, sea, fs, m0, names, tbl, h1, h2, hl, ⟨c1, c2, c3, c4⟩, hcf, htree, heach, h3⟩ :=
    world_served hS hD hmany hC runs hacts a b (files_imports hland hp hf hsrt hwrap hr) hsmall hsize features hdb ctx hctx
  rw [hp] at h1 h3
  refine ⟨cs, sea, h1, fun q hv hz hshort hwhere => ?_⟩
  obtain ⟨bytes, layers, leafs, gs, k1, k2, k3, k4, k5, k6, k7, k8, k9⟩ := h3 q hv hz hshort hwhere
  have hmem : ∀ {x : Inserted}, x ∈ (cs :: fs.map (List.map whole)).flatten ↔ x ∈ cs ∨ ∃ f ∈ fs.flatten, x = whole f := by
    intro x
    rw [List.flatten_cons, List.mem_append, mem_whole]
  have hcoast : ∀ x ∈ cs, ∃ k ps, x.feature = ⟨k, 0, 0, 21, [], .polygon ps⟩ := by
    intro x hx
    obtain ⟨_, ps, h1, _⟩ := hcf.shows x hx
    obtain ⟨k, _, h2⟩ := h1.feature
    exact ⟨_, ps, h2⟩
  refine ⟨bytes, layers, k4, k5, ⟨leafs, gs, k6, k7⟩, file_nodes_seen hf hasm k9, fun hz10 => ?_, fun L hL c hc => ⟨((k8 L hL).2.2.2 c hc).1, ?_⟩⟩
  · refine file_streets_seen hf hasm (streets_seen hS hD hl q hz layers (fun f hf' hz1 hz2 hone => ?_))
    have hw : whole f ∈ (cs :: fs.map (List.map whole)).flatten := hmem.2 (.inr ⟨f, hf', rfl⟩)
    obtain ⟨_, _, _, _, hst, _⟩ := hl.from_data f hf'
    refine ⟨_, hst.layer, fun ls hg l hlm p p' hab => ?_⟩
    rw [k6, drawing, if_neg (by omega)]
    refine stored_seen hline ctx.toRenderCtx (c3.trans hclip) q hz c2 (fun g hg => by obtain ⟨x, n1, _, _, n2⟩ := k2 g hg; exact ⟨x, n1, n2⟩) k3 hw
      (heach _ hw).1.toPackable.toFeatureOk hz1 hz2 _ (by rw [c1]; exact hst.layer) (fun x hx n1 n2 n3 => ?_) ls hg l hlm p p' hab
    rcases hmem.1 hx with hx | ⟨f', hf', rfl⟩
    · obtain ⟨k, ps, he⟩ := hcoast x hx
      rw [he] at n3
      cases n3
    · exact hone f' hf' n1 n2 n3
  · have hcont := C71_content hclib hfaith (drawing ctx 10 q).toRenderCtx (by rw [← hclip, ← c3, drawing]; split <;> rfl) q hz (fun fs out ho => by
        rw [show (drawing ctx 10 q).aggregate = ctx.aggregate by rw [drawing]; split <;> rfl, c4]
        exact hagg q.z fs out ho) (leafs.map seaSquare ++ gs) (fun g hg => by
      rcases List.mem_append.1 hg with hg | hg
      · obtain ⟨t, ht, rfl⟩ := List.mem_map.1 hg
        obtain ⟨leafs', n1, _, n2, _⟩ := htree.leafs hv hz
        rw [k1] at n1; injection n1 with n1; subst n1
        exact sea_renderable (n2 t ht).1 (n2 t ht).2
      · obtain ⟨f, n1, _, _, n2⟩ := k2 g hg
        exact stored_renderable (heach f n1).1.toPackable.toFeatureOk ((heach f n1).2 q.z hz) n2)
    have hc' := hc
    have hL' := hL
    rw [k6] at hL
    obtain ⟨i, n1, n2⟩ := hcont L hL
    obtain ⟨y, hy, rfl, hid, hne, hty, htags, hplace⟩ := n2 c hc
    by_cases hosm : ∃ f ∈ fs.flatten, StoredAs (fun l => W.rd (W.mkMask l) q.z) f y
    · right
      refine drawn_in_place hS hD hends hl hz (ctx := (drawing ctx 10 q).toRenderCtx) ?_ (fun y => ∃ f ∈ fs.flatten, StoredAs (fun l => W.rd (W.mkMask l) q.z) f y) (fun y hy => hy) (fun y' hy' ls hls => ?_) hosm
        ?_ hid hne hty htags hplace
      · rw [drawing]
        by_cases h : q.z ≤ 10
        · rw [if_pos h]; simp [h]
        · rw [if_neg h, c2]; simp [h]
      · rcases List.mem_append.1 hy' with hy' | hy'
        · obtain ⟨t, _, rfl⟩ := List.mem_map.1 hy'
          cases hls
        · obtain ⟨x, n3, _, _, n4⟩ := k2 y' hy'
          rcases hmem.1 n3 with hx | ⟨f, hf', rfl⟩
          · obtain ⟨k, ps, he⟩ := hcoast x hx
            obtain ⟨ms, _, rfl⟩ := n4
            rw [he] at hls
            simp only [simplified, withoutSmallRings] at hls
            split at hls <;> cases hls
          · exact ⟨f, hf', n4⟩
      · rw [← c1, ← n1, drawing]; split <;> rfl
    · left
      have hn0 : y.layer = 0 → L.name = kLayerCoastlineName := by
        intro h0
        rw [h0, show (drawing ctx 10 q).layerNames = ctx.layerNames by rw [drawing]; split <;> rfl, c1, hl.coast] at n1
        injection n1 with n1
        exact n1.symm
      rcases List.mem_append.1 hy with hy | hy
      · obtain ⟨u, hu, rfl⟩ := List.mem_map.1 hy
        obtain ⟨leafs', o1, _, o2, _, hleaf⟩ := htree.leafs hv hz
        rw [k1] at o1; injection o1 with o1; subst o1
        refine ⟨hn0 rfl, hty, htags.trans (sea_tags u), .inl ?_⟩
        by_cases hcov : ∃ t ∈ sea, AncOrSelf t q
        · obtain ⟨t', ht', hanc⟩ := hcov
          exact ⟨t', ht', .inl hanc⟩
        · obtain ⟨hm1, hm2, _⟩ := (hleaf hcov u).1 hu
          exact ⟨u, hm1.1, .inr hm2⟩
      · obtain ⟨x, n3, n5, _, n4⟩ := k2 y hy
        rcases hmem.1 n3 with hx | ⟨f, hf', rfl⟩
        · obtain ⟨k, ps, he⟩ := hcoast x hx
          obtain ⟨ms, hms, rfl⟩ := n4
          rw [he] at hty htags hne hms
          refine ⟨hn0 (by rw [he]), ?_, ?_, .inr ⟨x, hx, n5, hid⟩⟩
          · rw [hty]
            simp only [simplified, withoutSmallRings] at hne ⊢
            split at hne
            · exact absurd rfl hne
            · rfl
          · rw [htags, hms.eq_nil]; rfl
        · exact absurd ⟨f, hf', n4⟩ hosm

/-- The import of the two files can end with exit code 0, on top of any database, if memory and file sizes suffice. -/
theorem C73_completes (hland : LandArchive zip ps) (hp : W.polys = landOf W.prof.conv ps) (hf : GoodFile file) (hsrt : SortsByAbsId srt)
    (hwrap : strict = true → ∀ m ∈ nodesIn file, m.2.x ≤ 347483647) (ht : 0 < threads) (hS : W.Ok t e g) (hD : W.Fits (fileData asm file)) (hmany : (fileData asm file).length < 2 ^ 31)
    (hC : W.CoastFits pts) (hcw : 0 < W.coastWorkers)
    -- the tasks of the coastline do not fail (C34_no_failure)
    (hws : ∃ ws, coastTasks W.lib ((landOf W.prof.conv ps).map coastOf) (tilesOfZoom 4) = .ok ws)
    (tasks : List String) (hf' : Asked tasks "features") (hp' : Asked tasks "pack") (ht' : Asked tasks "tiles") (hc : Asked tasks "coastlines") (hbatch : 0 < W.batch) (hmem : W.mem < 2 ^ 62)
    -- something is imported
    (hsome : ∀ xs m cs sea fs m0, W.Loads (fileData asm file) xs m cs sea fs m0 → xs.flatten ≠ [])
    -- memory and sizes (C67)
    (hroom : ∀ xs m cs sea fs m0, W.Loads (fileData asm file) xs m cs sea fs m0 → insertBytes xs ≤ W.mem ∧
      (∀ u : Tile, u.Valid → u.z = 10 → tileBytes W.mkMask ((W.env (fileData asm file)).decOf m) xs u ≤ 2 ^ 30) ∧ packBytes W.mkMask ((W.env (fileData asm file)).decOf m) xs < 2 ^ 62)
    (hshort : ∀ m ctx, makeRenderCtx W.base none m = .ok ctx → ∀ q : Tile, q.Valid → q.z ≤ 10 → W.ShortLines (fileData asm file) ctx q) (a : TileDb MetaTable) :
    ∃ b, runImport (importParts (W.filesEnv zip srt strict threads asm file)) tasks a true b ∧ b.maxPrepared = some 10 ∧ SmallPacks b.features ∧ b.pf.reopen.size < 2 ^ 63 := by
  obtain ⟨ws, hws⟩ := hws
  rw [← hp] at hws
  obtain ⟨_, cs, _, _, hcoast⟩ := C69_coast_ends W.lib W.polys pts hC.toCoastlineOk ws W.coastWorkers hcw hws _ .refl
  generalize seaTiles _ = sea at hcoast
  obtain ⟨n, hn, hperm⟩ := C72_objects file hf srt hsrt strict hwrap degrees asm threads
  obtain ⟨pipe, h1, h2⟩ := C72_can_end file hf srt hsrt strict hwrap degrees asm threads ht n hn _ .refl
  obtain ⟨_, s, fs, b1, b2, h3, h4, h5, h6⟩ := load_ends hS hD (pipe.got.map (List.map fun o => W.profile.object W.numeral o.id o.tags o.shape)) (by
    rw [fileData, List.map_map, ← List.map_flatten]
    exact (hperm pipe h1 h2).map _) _ .refl
  have hfl : FileLoads W.prof W.profile W.numeral srt strict threads asm file fs ⟨none, some b1, some b2⟩ := ⟨n, pipe, hn, h1, h2, s, b1, b2, h3, h4, h5, h6, rfl⟩
  have hl := C72_loads hf hsrt hwrap hfl
  generalize (⟨none, some b1, some b2⟩ : MetaTable) = m0 at hfl hl
  have hcf := coast_facts hC.exact hC.input hC.shapes hcoast (fun x hx b hb => by
    obtain ⟨u, ps, id, b', h1, h2, h3⟩ := coast_bytes hC.exact hC.input hcoast x hx
    rw [hb] at h3
    injection h3 with h3
    rw [h3]
    exact hC.records u ps h1 id [] b' (.inl h2))
  obtain ⟨nodes, hn', _⟩ := hcf.tree
  have hload : W.Loads (fileData asm file) (cs :: fs.map (List.map whole)) { m0 with seaside := some (bqStringView nodes) } cs sea fs m0 := ⟨rfl, hcoast, hl, nodes, hn', rfl⟩
  obtain ⟨b, k1, k2⟩ := world_completes hS hD hmany hC tasks hf' hp' ht' hc hbatch hmem hload (hsome _ _ _ _ _ _ hload) (hroom _ _ _ _ _ _ hload) hshort a
  refine ⟨b, loads_mono (en := { W.env (fileData asm file) with loads := fun coast osm xs' m' => coast = true ∧ osm = true ∧ xs' = _ ∧ m' = _ })
    (loads := (W.filesEnv zip srt strict threads asm file).loads) ?_ k1, k2⟩
  rintro c o xs m ⟨h7, h8, rfl, rfl⟩
  exact ⟨h7, h8, _, cs, sea, fs, m0, nodes, C73_land W.prof.conv hland, by rw [← hp]; exact hcoast, hfl, rfl, hn', rfl⟩

end
end Tiles
