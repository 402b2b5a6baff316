import Verif.Props.C73
import Verif.Props.C69b
import Verif.Props.C72b
/-! C73: all conditions are met: an archive with a strip of land and a small OSM file, imported and served. -/
namespace Tiles
open Spec

/-! ### the archive -/

/-- 90 and 2925 / 65536 as doubles -/
def bits90 : Nat := 1029 * 2 ^ 52 + 13 * 2 ^ 47
def bitsLat : Nat := 1018 * 2 ^ 52 + 877 * 2 ^ 41

theorem double_zero : doubleValue 0 = 0 := by norm_num [doubleValue]
theorem double_90 : doubleValue bits90 = 90 := by
  have h1 : bits90 / 2 ^ 63 % 2 = 0 := by decide
  have h2 : bits90 / 2 ^ 52 % 2 ^ 11 = 1029 := by decide
  have h3 : bits90 % 2 ^ 52 = 13 * 2 ^ 47 := by decide
  rw [doubleValue, h1, h2, h3]
  norm_num
theorem double_lat : doubleValue bitsLat = 2925 / 65536 := by
  have h1 : bitsLat / 2 ^ 63 % 2 = 0 := by decide
  have h2 : bitsLat / 2 ^ 52 % 2 ^ 11 = 1018 := by decide
  have h3 : bitsLat % 2 ^ 52 = 877 * 2 ^ 41 := by decide
  rw [doubleValue, h1, h2, h3]
  norm_num

/-- a strip of land along the equator: from 0 to 90 degrees east, from 0 to 0.0446 degrees north -/
def stripPolygon : ShpPolygon := ⟨List.replicate 32 0, [[⟨0, bitsLat⟩, ⟨bits90, bitsLat⟩, ⟨bits90, 0⟩, ⟨0, 0⟩, ⟨0, bitsLat⟩]]⟩

/-- an archive like that of osmdata.openstreetmap.de: a text and the shapefile in it -/
def stripZip : ZipArchive := some [some ⟨b!"README.txt", none⟩, some ⟨b!"land_polygons.shp", some (shpFile (List.replicate 24 0) (List.replicate 64 0) [stripPolygon])⟩, none]

theorem strip_archive : LandArchive stripZip [stripPolygon] where
  entry := ⟨[⟨b!"README.txt", none⟩], b!"land_polygons.shp", List.replicate 24 0, List.replicate 64 0, [none], rfl,
    by intro e he; rw [List.mem_singleton.1 he, ← suffix4]; decide +kernel, ⟨b!"land_polygons", rfl⟩, rfl, rfl, by decide +kernel⟩
  count := by norm_num
  polygons := by
    intro p hp
    rw [List.mem_singleton.1 hp]
    refine ⟨⟨by decide +kernel, by simp [stripPolygon], by simp [stripPolygon], ?_, by decide +kernel⟩, rfl⟩
    intro q hq
    simp only [stripPolygon, ShpPolygon.points, List.flatten_cons, List.flatten_nil, List.append_nil, List.mem_cons, List.not_mem_nil, or_false] at hq
    rcases hq with rfl | rfl | rfl | rfl | rfl <;> decide

def stripBox : Box := ⟨⟨2 ^ 31, 2 ^ 31 - 532480⟩, ⟨3 * 2 ^ 30, 2 ^ 31⟩⟩
def stripLand : Polygon := ⟨boxToPath stripBox ++ [stripBox.min], []⟩

theorem strip_fixed {lng lat : ℝ} {x y : Int} (hx : (lng + 180) / 360 * 2 ^ 32 = x) (hlat : 0 ≤ lat ∧ lat ≤ 9 / 200) (hy : (1 / 2 - lat / 360) * 2 ^ 32 = y) (hk : (0 ≤ x ∧ x < 2 ^ 32 - 1) ∧ 0 ≤ y ∧ y < 2 ^ 32 - 1) :
    fileDemo.prof.conv ⟨lat, lng⟩ = ⟨x, y⟩ := by
  have e : fileDemo.prof.conv ⟨lat, lng⟩ = latlngToFixed linPx ⟨lat, lng⟩ := rfl
  have h1 : ⌊mapX ⟨lat, lng⟩ * 2 ^ 32⌋ = x := by
    rw [mapX]
    have h : ((lng + 180) / 360 : ℝ) * 2 ^ 32 = x := hx
    dsimp only
    rw [h, Int.floor_intCast]
  rw [e, latlngToFixed, linPx]
  dsimp only
  rw [if_pos hlat, h1, hy, Int.floor_intCast]
  simp only [kFixedCoordMax]
  congr 1 <;> omega

theorem strip_land : [stripLand] = landOf fileDemo.prof.conv [stripPolygon] := by
  have p1 : fileDemo.prof.conv ⟨2925 / 65536, 0⟩ = ⟨2 ^ 31, 2 ^ 31 - 532480⟩ := strip_fixed (by norm_num) (by norm_num) (by norm_num) (by norm_num)
  have p2 : fileDemo.prof.conv ⟨2925 / 65536, 90⟩ = ⟨3 * 2 ^ 30, 2 ^ 31 - 532480⟩ := strip_fixed (by norm_num) (by norm_num) (by norm_num) (by norm_num)
  have p3 : fileDemo.prof.conv ⟨0, 90⟩ = ⟨3 * 2 ^ 30, 2 ^ 31⟩ := strip_fixed (by norm_num) (by norm_num) (by norm_num) (by norm_num)
  have p4 : fileDemo.prof.conv ⟨0, 0⟩ = ⟨2 ^ 31, 2 ^ 31⟩ := strip_fixed (by norm_num) (by norm_num) (by norm_num) (by norm_num)
  simp only [landOf, ShpPolygon.outline, stripPolygon, List.headD_cons, List.map_cons, List.map_nil, ShpPoint.place, double_zero, double_90, double_lat, p1, p2, p3, p4]
  rfl

/-! ### the coastline -/

theorem strip_is_land (c : Int × Int) : Land [stripLand] (coarseCentre c) ↔ InBox stripBox (coarseCentre c) := by
  simp only [Land, List.mem_singleton, exists_eq_left]
  show xor (inRing (boxToPath stripBox ++ [stripBox.min]) (coarseCentre c)) false = true ↔ _
  rw [Bool.xor_false, inRing_close (path := boxToPath stripBox) (r := boxToPath stripBox ++ [stripBox.min]) rfl, coarseCentre, inRing_boxPath _ (by decide) (by decide), decide_eq_true_eq]

theorem strip_input : GoodInput [stripLand] coarsePts := by
  refine ⟨?_, ?_, fun p _ => List.countP_le_length⟩
  · intro q hq i hi; rw [List.mem_singleton.1 hq] at hi; simp [stripLand] at hi
  · intro q hq; rw [List.mem_singleton.1 hq]; simp [stripLand, boxToPath]

theorem strip_tasks : ∃ ws, coastTasks coarseLib ([stripLand].map coastOf) (tilesOfZoom 4) = .ok ws := by
  refine C34_no_failure coarseLib coarseLib_works [stripLand] coarsePts coarseLib_exact coarseLib_fills coarsePts_dense strip_input ?_
  intro t hz hv
  refine .inl ⟨coarseCentre ((t.x : Int) * 1024, (t.y : Int) * 1024), ⟨_, rfl⟩, ?_, ?_⟩
  · simp only [InBox, coarseCentre, cellCentre, half_le, half_le', drawBounds, pxBounds, hz, kOverdraw]
    omega
  · rw [strip_is_land]
    simp only [InBox, coarseCentre, cellCentre, half_le, half_le', stripBox]
    omega

/-- the setting of C72 (full.lua) with this coastline -/
noncomputable def filesDemo : WorldSetting := { fileDemo with lib := coarseLib, polys := [stripLand], coastWorkers := 3 }

theorem strip_fits : filesDemo.CoastFits coarsePts where
  exact := coarseLib_exact
  input := strip_input
  shapes := coarse_shapes
  records := world_fits.records
  areas := world_fits.areas

section
variable {pre post : List Datum} {d : Datum} {r : RuleOut} {gm : Geometry} {z : Nat} {ms : List Meta} {xs : List (List Inserted)} {m m0 : MetaTable} {cs : List Inserted} {sea : List Tile} {fs : List (List Feature)}

theorem files_loaded (h : Lone pre d post r gm z ms) (hD : fileDemo.Fits (pre ++ d :: post)) (hn : (pre ++ d :: post).length < 2 ^ 31) (hl : filesDemo.Loads (pre ++ d :: post) xs m cs sea fs m0) :
    CoastFacts coarseLib [stripLand] coarsePts cs sea ∧ (filesDemo.env (pre ++ d :: post)).decOf m = [] ∧ ∃ i < 13, xs.flatten = cs ++ [whole (loneFeature d gm z ms i)] := by
  obtain ⟨names, tbl, nodes, hf⟩ := world_facts (W := filesDemo) fileDemo_ok hD hn strip_fits hl
  obtain ⟨hd, i, hi, hfs⟩ := lone_result h hl.2.2.1
  obtain ⟨nodes', _, rfl⟩ := hl.2.2.2
  refine ⟨hf.coast, hd, i, hi, ?_⟩
  rw [hl.1, List.flatten_cons, ← List.map_flatten, hfs]
  rfl

/-- what is loaded of a coastline with the coarse library -/
theorem coarse_each {polys : List Polygon} (hcf : CoastFacts coarseLib polys coarsePts cs sea) : ∀ x ∈ cs, ∃ (k : UInt64) (rs : List (Int × Int)) (t : Tile), x.tile = some t ∧ t.Valid ∧ t.z = 10 ∧ rs ≠ [] ∧
    CoastCut coarseLib t (rs.map coarsePolygon) ∧ x.feature = ⟨k.toNat, 0, 0, 21, [], .polygon (rs.map coarsePolygon)⟩ := by
  intro x hx
  obtain ⟨t, ps, h1, h2, _⟩ := hcf.shows x hx
  obtain ⟨rs, rfl, _, _, c, hc, _⟩ := coarse_cut h2
  obtain ⟨k, _, h3⟩ := h1.feature
  exact ⟨k, rs, t, h1.tile, h1.level.1, h1.level.2, List.ne_nil_of_mem hc, h2, h3⟩

theorem coarse_copies {polys : List Polygon} (hcf : CoastFacts coarseLib polys coarsePts cs sea) : ∀ x ∈ cs, copies x ≤ 1 := by
  classical
  intro x hx
  obtain ⟨_, _, t, h1, _⟩ := coarse_each hcf x hx
  obtain ⟨f, o⟩ := x
  dsimp only at h1
  subst h1
  unfold copies
  rw [← List.countP_eq_length_filter]
  refine le_trans (le_of_eq (List.countP_congr (q := fun u => u == t) fun u _ => ?_)) (?_ : cacheTiles.count t ≤ 1)
  · rw [decide_eq_true_eq, beq_iff_eq]
    exact ⟨fun h => Eq.symm h, fun h => Eq.symm h⟩
  exact List.nodup_iff_count_le_one.1 cacheTiles_nodup t

theorem coarse_sizes {polys : List Polygon} (hcf : CoastFacts coarseLib polys coarsePts cs sea) : ∀ x ∈ cs, insertedSize x.feature ≤ 2 ^ 27 ∧ indexedSize C52_mk [] x.feature ≤ 2 ^ 27 := by
  intro x hx
  obtain ⟨k, rs, t, _, _, _, _, h1, h2⟩ := coarse_each hcf x hx
  rw [h2]
  constructor
  · unfold insertedSize
    split
    · rename_i b hb
      exact coarse_size h1 (by simp) hb
    · omega
  · unfold indexedSize
    split
    · rename_i b hb
      exact coarse_size h1 (by simp [C52_mk]) hb
    · omega

theorem files_room (h : Lone pre d post r gm z ms) (hD : fileDemo.Fits (pre ++ d :: post)) (hn : (pre ++ d :: post).length < 2 ^ 31) (hl : filesDemo.Loads (pre ++ d :: post) xs m cs sea fs m0) :
    insertBytes xs ≤ filesDemo.mem ∧ (∀ u : Tile, u.Valid → u.z = 10 → tileBytes filesDemo.mkMask ((filesDemo.env (pre ++ d :: post)).decOf m) xs u ≤ 2 ^ 30) ∧
      packBytes filesDemo.mkMask ((filesDemo.env (pre ++ d :: post)).decOf m) xs < 2 ^ 62 := by
  classical
  obtain ⟨hcf, hd, i, hi, hxs⟩ := files_loaded h hD hn hl
  obtain ⟨⟨a, h1, h2, h3⟩, b, h4, h5, h6⟩ := lone_size h hi
  generalize loneFeature d gm z ms i = F at *
  have hfew := hcf.few
  have hsz := coarse_sizes hcf
  have hcp := coarse_copies hcf
  have hc : copies (whole F) ≤ 2 ^ 20 := by
    unfold copies
    exact (List.length_filter_le _ _).trans (le_of_eq cacheTiles_length)
  have hs : insertedSize F ≤ 200 := by unfold insertedSize; rw [h1]; dsimp only; omega
  have hx : indexedSize C52_mk [] F ≤ 200 := by unfold indexedSize; rw [h4]; dsimp only; omega
  have hm := Nat.mul_le_mul hc (Nat.add_le_add_right hs 15)
  have hm' := Nat.mul_le_mul hc (Nat.add_le_add_right hx 182)
  rw [hd, show filesDemo.mkMask = C52_mk from rfl, show filesDemo.mem = 2 ^ 50 from rfl]
  refine ⟨?_, fun u _ _ => ?_, ?_⟩
  · have hb := sum_le_mul (fun x => copies x * (insertedSize x.feature + 15)) (2 ^ 27 + 15) cs (fun x hx => by
      have h1 := hcp x hx
      have h2 := (hsz x hx).1
      have h3 := Nat.mul_le_mul h1 (Nat.add_le_add_right h2 15)
      omega)
    have hb2 := Nat.mul_le_mul_right (2 ^ 27 + 15) hfew
    rw [insertBytes, hxs, List.map_append, List.sum_append]
    simp only [List.map_cons, List.map_nil, List.sum_cons, List.sum_nil, show (whole F).feature = F from rfl]
    generalize copies (whole F) * _ = k at hm
    generalize (List.map (fun x => copies x * (insertedSize x.feature + 15)) cs).sum = k2 at hb
    omega
  · have hone := world_once (t := u) hcf.once (fun x hx => by obtain ⟨_, _, t, h1, _⟩ := coarse_each hcf x hx; exact ⟨t, h1⟩)
    rw [tileBytes, goesTo, hxs, List.filter_append, List.map_append, List.map_append, List.sum_append, List.map_map]
    have hb := sum_le_mul ((fun f => indexedSize C52_mk [] f + 182) ∘ fun x : Inserted => x.feature) (2 ^ 27 + 182) (cs.filter (fun x => decide (x.At u))) (fun x hx => by
      have h2 := (hsz x (List.mem_filter.1 hx).1).2
      dsimp only [Function.comp]
      omega)
    have hb2 := Nat.mul_le_mul_right (2 ^ 27 + 182) hone
    have hb3 : ((List.map (fun x : Inserted => x.feature) ([whole F].filter (fun x => decide (x.At u)))).map (fun f => indexedSize C52_mk [] f + 182)).sum ≤ 382 := by
      rw [List.filter_cons, List.filter_nil]
      split <;> simp [whole] <;> omega
    exact le_trans (Nat.add_le_add_right (Nat.add_le_add (le_trans hb hb2) hb3) 69) (by norm_num)
  · have hb := sum_le_mul (fun x => copies x * (indexedSize C52_mk [] x.feature + 182)) (2 ^ 27 + 182) cs (fun x hx => by
      have h1 := hcp x hx
      have h2 := (hsz x hx).2
      have h3 := Nat.mul_le_mul h1 (Nat.add_le_add_right h2 182)
      omega)
    have hb2 := Nat.mul_le_mul_right (2 ^ 27 + 182) hfew
    rw [packBytes, hxs, List.map_append, List.sum_append]
    simp only [List.map_cons, List.map_nil, List.sum_cons, List.sum_nil, show (whole F).feature = F from rfl]
    generalize copies (whole F) * _ = k at hm'
    generalize (List.map (fun x => copies x * (indexedSize C52_mk [] x.feature + 182)) cs).sum = k2 at hb
    omega

/-- points, lines and polygons with small rings are drawn with short lines -/
theorem mixed_short (ctx : RenderCtx) (hclip : ctx.clip = clipGeometry segInter C62_clipper id) (hagg : ctx.aggregate = C62_agg) (q : Tile) (gs : List Feature) (i : Nat)
    (hgs : ∀ g ∈ gs, (∃ ps, g.geometry = .polygon ps ∧ ∀ r ∈ ringsOf ps, r.length = 5) ∨ (∃ p, g.geometry = .point [p]) ∨ ((∃ ls, g.geometry = .polyline ls) ∧ LineFeature g))
    (f : Feature) (hf : f ∈ candidates ctx (specOf q) (ofLayer gs i)) : NoLongLine ctx q f := by
  have hgeo : (∃ ps, f.geometry = .polygon ps ∧ ∀ r ∈ ringsOf ps, r.length = 5) ∨ (∃ p, f.geometry = .point [p]) ∨ ∃ ls, f.geometry = .polyline ls := by
    rcases candidates_from hf with h | h
    · rcases hgs f (List.mem_filter.1 h).1 with h | h | h
      · exact .inl h
      · exact .inr (.inl h)
      · exact .inr (.inr h.1)
    · refine .inr (.inr (joined_from (simplify := fun _ l => l) (z := q.z) (fun fs out ho => ?_) (fun g hg hl => ?_) h).1)
      · rw [hagg, C62_agg, ho]
      · rcases hgs g (List.mem_filter.1 hg).1 with ⟨ps, hp, _⟩ | ⟨p, hp⟩ | h
        · simp [isLine, hp, typeOf] at hl
        · simp [isLine, hp, typeOf] at hl
        · exact h.2
  intro c hc l hl
  have hc : ctx.clip f.geometry (drawBounds q) = .ok c := hc
  rw [hclip] at hc
  rcases hgeo with ⟨ps, hp, hr⟩ | ⟨p, hp⟩ | ⟨ls, hls⟩
  · -- as in C69
    let g0 : Feature := ⟨0, 0, 0, 21, [], .polygon ps⟩
    let ctx0 : RenderCtx := { ctx with clip := clipGeometry C62_inter C62_clipper id, aggLines := false, aggPolygons := false }
    refine short_rings ctx0 rfl q [g0] 0 (fun g hg => .inr ⟨ps, by rw [List.mem_singleton.1 hg], hr⟩) g0 ?_ c ?_ l hl
    · have h3 : ofLayer [g0] 0 = [g0] := rfl
      rw [candidates, h3, List.mem_append, List.mem_append]
      refine .inl (.inl ?_)
      rw [direct, List.mem_filter]
      exact ⟨by rw [show unique [g0] = [g0] from rfl]; simp, rfl⟩
    · rw [hp] at hc
      exact hc
  · rw [hp] at hc
    have : c = .point [p] ∨ c = .null := by
      rw [clipGeometry, clipPoint, clipPointLoop] at hc
      split at hc
      · injection hc with hc; exact .inl hc.symm
      · injection hc with hc; exact .inr hc.symm
    rcases this with rfl | rfl
    · simp only [allLines, List.mem_singleton] at hl
      subst hl
      norm_num
    · cases hl
  · rw [hls] at hc
    injection hc with hc
    rw [clipPolyline] at hc
    subst hc
    split at hl
    · cases hl
    · exact segInter_short _ _ l (List.mem_filter.1 hl).1

theorem files_short (h : Lone pre d post r gm z ms) (hD : fileDemo.Fits (pre ++ d :: post)) (hn : (pre ++ d :: post).length < 2 ^ 31) (ctx : GetCtx) (hctx : ctx.clip = fileDemo.base.clip)
    (hagg : ctx.aggregate = C62_agg) (q : Tile) : filesDemo.ShortLines (pre ++ d :: post) ctx q := by
  intro xs m cs sea fs m0 hl gs i hgs f hf
  obtain ⟨hcf, _, j, _, hxs⟩ := files_loaded h hD hn hl
  refine mixed_short _ ?_ ?_ q gs i (fun g hg => ?_) f hf
  · show (drawing ctx 10 q).clip = _
    rw [drawing]; split <;> exact hctx
  · show (drawing ctx 10 q).aggregate = _
    rw [drawing]; split <;> exact hagg
  · rcases hgs g hg with ⟨t, rfl⟩ | ⟨x, hx, ms', _, rfl⟩
    · refine .inl ⟨_, rfl, ?_⟩
      intro r hr
      simp only [ringsOf, List.flatMap_cons, List.flatMap_nil, List.append_nil, List.mem_singleton] at hr
      subst hr
      rfl
    · rw [hxs, List.mem_append, List.mem_singleton] at hx
      rcases hx with hx | rfl
      · obtain ⟨k, rs, t, _, _, _, hne, _, h2⟩ := coarse_each hcf x hx
        refine .inl ⟨rs.map coarsePolygon, ?_, fun r hr => coarse_rings hr⟩
        dsimp only
        rw [h2]
        exact coarse_stored hne q.z
      · right
        rcases h.simple with ⟨p, rfl⟩ | ⟨l, rfl, hne⟩
        · exact .inl ⟨p, rfl⟩
        · have hk : keep (C52_rd (C52_mk l) 0) l = l := keep_all _
          have : withoutSmallRings (simplified (fun l => filesDemo.rd (filesDemo.mkMask l) q.z) (loneFeature d (.polyline [l]) z ms j).geometry) = .polyline [l] := by
            simp only [loneFeature, simplified, withoutSmallRings, List.map_cons, List.map_nil]
            exact congrArg (fun l => Geometry.polyline [l]) hk
          dsimp only [whole]
          refine .inr ⟨⟨_, this⟩, ?_⟩
          rw [this]
          exact ⟨rfl, by simpa [featureLines] using hne, by simp [featureLines]⟩

end

/-! ### served -/

/-- in the tile 10/600/511: a point of the sea, and one on land -/
def stripSea : Int × Int := (600 * 1024, 511 * 1024 + 100)
def stripShore : Int × Int := (600 * 1024, 511 * 1024 + 1000)

theorem strip_points : ¬ Land [stripLand] (coarseCentre stripSea) ∧ Land [stripLand] (coarseCentre stripShore) ∧ InTile ⟨600, 511, 10⟩ (coarseCentre stripSea) ∧ InTile ⟨600, 511, 10⟩ (coarseCentre stripShore) := by
  refine ⟨?_, ?_, ?_, ?_⟩
  · rw [strip_is_land]
    simp only [InBox, coarseCentre, cellCentre, half_le, half_le', stripBox, stripSea]
    omega
  · rw [strip_is_land]
    simp only [InBox, coarseCentre, cellCentre, half_le, half_le', stripBox, stripShore]
    omega
  · simp only [InTile, coarseCentre, cellCentre, stripSea, side]
    norm_num
  · simp only [InTile, coarseCentre, cellCentre, stripShore, side]
    norm_num

/-- All conditions of `C73_completes`, `C73_starts` and `C73_served` are met: the archive with the strip of land and the file with the street are imported with full.lua and 3 threads,
on top of anything; then the server starts, and
* of the tile 10/600/511, which has land on a part of it, polygons are drawn; one of them has the point of the sea in it, and not the point on land;
* who asks for the tile 12/2560/2047 sees a line from where the projection puts the node 1 to where it puts the node 2, and all that is seen is sea or that street. -/
example (a : TileDb MetaTable) : ∃ (b : TileDb MetaTable) (ctx : GetCtx),
    Imports (importParts (filesDemo.filesEnv stripZip querySort false 3 noAreas streetFile)) [["coastlines", "features", "pack", "tiles"]] a b ∧
    makeRenderCtx filesDemo.base (preparedString b.maxPrepared) b.info = .ok ctx ∧
    ∀ features, EntriesOf b.features features →
      (∃ bytes layers leafs gs, getTile b.tiles features b.pf.reopen ctx ⟨600, 511, 10⟩ = .ok (if bytes = [] then none else some (ctx.encode bytes)) ∧
        (bytes.length < 2 ^ 32 → clientTile bytes = some layers) ∧ layers = tileContent (drawing ctx 10 ⟨600, 511, 10⟩).toRenderCtx (specOf ⟨600, 511, 10⟩) (leafs.map seaSquare ++ gs) ∧
        leafs = [] ∧ ∃ g ∈ gs, g.layer = 0 ∧ ∃ ps, g.geometry = .polygon ps ∧ inPolygons ps (coarseCentre stripSea) = true ∧ inPolygons ps (coarseCentre stripShore) = false) ∧
      ∃ bytes layers, getTile b.tiles features b.pf.reopen ctx ⟨2560, 2047, 12⟩ = .ok (if bytes = [] then none else some (ctx.encode bytes)) ∧
        (bytes.length < 2 ^ 32 → clientTile bytes = some layers) ∧
        LineSeen layers b!"road" 9 [(b!"highway", .str b!"residential"), (b!"name", .str b!"Rheinstrasse")] (fun p p' =>
          CloseBy (512 / 2 ^ 8 + 1) (p.x, p.y) (inTile ⟨2560, 2047, 12⟩ (mapX (degrees (eq44 450300000)), mapY (degrees (eq44 450300000)))) ∧
          CloseBy (512 / 2 ^ 8 + 1) (p'.x, p'.y) (inTile ⟨2560, 2047, 12⟩ (mapX (degrees (eq44 450600000)), mapY (degrees (eq44 450600000))))) ∧
        ∀ L ∈ layers, ∀ c ∈ L.features, (L.name = kLayerCoastlineName ∧ c.type = 3) ∨
          (L.name = b!"road" ∧ c.id = 9 ∧ c.type = 2 ∧ c.tags.Perm [(b!"highway", .str b!"residential"), (b!"name", .str b!"Rheinstrasse")]) := by
  obtain ⟨w1, w2, w3, w4⟩ := strip_points
  have hfit' : fileDemo.Fits ([bareNode 1 450300000, bench 2, bareNode 3 452400000] ++ fileStreet :: []) := by rw [← streetFile_data]; exact streetFile_fits
  have hshort : ∀ {ctx : GetCtx} {pr : Option Bytes} {m : MetaTable}, makeRenderCtx fileDemo.base pr m = .ok ctx → ∀ q, filesDemo.ShortLines (fileData noAreas streetFile) ctx q := by
    intro ctx pr m h q
    rw [streetFile_data]
    exact files_short streetFile_lone hfit' (by simp) ctx (ctx_clip h) (ctx_aggregate h) q
  have hmany : (fileData noAreas streetFile).length < 2 ^ 31 := by rw [streetFile_data]; simp
  obtain ⟨b, h1, h2, h3, h4⟩ := C73_completes (W := filesDemo) (threads := 3) (strict := false) strip_archive strip_land streetFile_good querySort_sorts (by simp) (by decide) fileDemo_ok streetFile_fits hmany strip_fits
    (by decide) (by rw [show filesDemo.prof.conv = fileDemo.prof.conv from rfl, ← strip_land]; exact strip_tasks) ["coastlines", "features", "pack", "tiles"] (.inr (by simp)) (.inr (by simp)) (.inr (by simp)) (.inr (by simp))
    (by decide) (by norm_num [filesDemo, fileDemo, streetDemo, osmDemo])
    (fun xs m cs sea fs m0 h => by rw [streetFile_data] at h; obtain ⟨_, _, i, _, hx⟩ := files_loaded streetFile_lone hfit' (by simp) h; rw [hx]; simp)
    (fun xs m cs sea fs m0 h => by rw [streetFile_data] at h ⊢; exact files_room streetFile_lone hfit' (by simp) h) (fun m ctx h q _ _ => hshort h q) a
  have himp : Imports (importParts (filesDemo.filesEnv stripZip querySort false 3 noAreas streetFile)) [["coastlines", "features", "pack", "tiles"]] a b := ⟨b, h1, rfl⟩
  have hacts : changes [["coastlines", "features", "pack", "tiles"]] = [.load true true, .pack, .tiles] := by simp [changes, actsOf, Asked]
  obtain ⟨ctx, h5, _⟩ := C73_starts (W := filesDemo) strip_archive strip_land streetFile_good querySort_sorts (by simp) fileDemo_ok streetFile_fits hmany strip_fits _ hacts a b himp h3
  have htags : (⟨b!"road", fromLevel 12, roadAttrs⟩ : RuleOut).shown fileDemo.numeral fileDemo.prof.toDouble (tagValue streetTags) =
      [(b!"highway", .str b!"residential"), (b!"name", .str b!"Rheinstrasse")] := by
    show RuleOut.shown fromCharsI64 osmDemo.prof.toDouble (tagValue streetTags) ⟨b!"road", fromLevel 12, roadAttrs⟩ = _
    rfl
  refine ⟨b, ctx, himp, h5, fun features hdb => ?_⟩
  obtain ⟨cs, sea, hload, hserve⟩ := C73_served (W := filesDemo) (τ := 0) strip_archive strip_land streetFile_good querySort_sorts (by simp) noAreas_areas fileDemo_ok streetFile_fits hmany strip_fits
    ⟨segInter, C62_clipper, id, fun _ l => l, seg_clip, seg_lines, seg_faith, rfl, fun z fs out h => by
        show C62_agg z fs = out
        rw [C62_agg, h]⟩ (fun z l h => by rw [show keep (filesDemo.rd (filesDemo.mkMask l) z) l = l from keep_all l]; exact h) _ hacts a b himp h3 (by omega) features hdb ctx h5
  rw [show filesDemo.prof.conv = fileDemo.prof.conv from rfl, ← strip_land] at hload hserve
  refine ⟨?_, ?_⟩
  · obtain ⟨bytes, layers, k1, k2, ⟨leafs, gs, k3, k4⟩, _⟩ := hserve ⟨600, 511, 10⟩ (by decide) (by decide) (hshort h5 _) (.inl (by decide))
    have hleafs : leafs = [] := by
      rw [List.eq_nil_iff_forall_not_mem]
      intro t ht
      have htq : t = ⟨600, 511, 10⟩ := by
        rcases k4.within t ht with h | ⟨h, hz⟩
        · exact h
        · exact (ancOrSelf_same_z h (by have := h.1; dsimp only at this ⊢; omega)).symm
      subst htq
      obtain ⟨hlt, _⟩ := k4.squares _ ⟨_, rfl⟩ w4 w2 _ ht (by
        simp only [InBox, coarseCentre, cellCentre, half_le, half_le', drawBounds, pxBounds, kOverdraw, stripShore]
        omega)
      exact absurd hlt (by decide)
    refine ⟨bytes, layers, leafs, gs, k1, fun h => (k2 h).1, k3, hleafs, ?_⟩
    rcases k4.sea _ ⟨_, rfl⟩ w3 w1 with ⟨t, ht, _⟩ | ⟨x, hx, t, ps, j1, j2, j3, j4⟩
    · rw [hleafs] at ht; cases ht
    · obtain ⟨k, _, hf⟩ := j1.feature
      have hmeet := sea_meet (by rw [j1.level.2]; omega) (by decide) j2 w3
      have htq : t = ⟨600, 511, 10⟩ := by
        rcases hmeet with h | h
        · exact ancOrSelf_same_z h (by rw [j1.level.2])
        · exact (ancOrSelf_same_z h (by rw [j1.level.2])).symm
      subst htq
      have hcf := coast_facts (lib := coarseLib) (polys := [stripLand]) (S := coarsePts) strip_fits.exact strip_fits.input strip_fits.shapes hload (fun x hx b hb => by
        obtain ⟨u, ps, id, b', h1, h2, h3⟩ := coast_bytes (lib := coarseLib) (polys := [stripLand]) (S := coarsePts) strip_fits.exact strip_fits.input hload x hx
        rw [hb] at h3
        injection h3 with h3
        rw [h3]
        exact strip_fits.records u ps h1 id [] b' (.inl h2))
      obtain ⟨t', ps', i1, i2, _⟩ := hcf.shows x hx
      obtain ⟨k', _, hf'⟩ := i1.feature
      rw [hf] at hf'
      injection hf' with _ _ _ _ _ hps
      injection hps with hps
      subst hps
      obtain ⟨rs, rfl, _, _, c, hc, _⟩ := coarse_cut i2
      have hst := coarse_stored (List.ne_nil_of_mem hc) 10
      have hst' : withoutSmallRings (simplified (fun l => filesDemo.rd (filesDemo.mkMask l) 10) x.feature.geometry) = .polygon (rs.map coarsePolygon) := by rw [hf]; exact hst
      obtain ⟨g, hg, ms, _, rfl⟩ := j4 (by
        show withoutSmallRings (simplified (fun l => filesDemo.rd (filesDemo.mkMask l) 10) x.feature.geometry) ≠ .null
        rw [hst']; simp)
      refine ⟨_, hg, by rw [hf], _, hst', j3, ?_⟩
      have := (j1.sea _ ⟨_, rfl⟩ (sea_inTile_box w4)).not.2 (fun h => h w2)
      simpa using this
  · obtain ⟨bytes, layers, k1, k2, _, _, k3, k4⟩ := hserve ⟨2560, 2047, 12⟩ (by decide) (by decide) (hshort h5 _) (.inl (by decide))
    refine ⟨bytes, layers, k1, fun h => (k2 h).1, ?_, fun L hL c hc => ?_⟩
    · have hseg := k3 (by decide) 9 streetTags [1, 4, 2, 3] (by simp [streetFile]) (by
        intro tags' refs' h
        simp only [streetFile, List.flatten_cons, List.flatten_nil, List.append_nil, List.cons_append, List.nil_append, List.mem_cons, List.not_mem_nil, or_false, reduceCtorEq, false_or, OsmEntity.way.injEq] at h
        exact h.2) _ streetFile_lone.rule _ street_nodes.symm 12 streetFile_lone.zoom (by decide) (degrees (eq44 450300000)) (degrees (eq44 450600000)) (by
          have hk : keptPlaces (filesDemo.rd (filesDemo.mkMask (([some (degrees (eq44 450300000)), none, some (degrees (eq44 450600000)), some (degrees (eq44 452400000))].filterMap (fun x => x)).map filesDemo.prof.conv)) 12)
              [some (degrees (eq44 450300000)), none, some (degrees (eq44 450600000)), some (degrees (eq44 452400000))] = [degrees (eq44 450300000), degrees (eq44 450600000), degrees (eq44 452400000)] := by
            simp [keptPlaces, filesDemo, fileDemo, streetDemo, osmDemo, C52_rd, C52_mk]
          exact ⟨[], [degrees (eq44 452400000)], hk.symm⟩)
      have := hseg.1 (file_row (by norm_num)) (file_row (by norm_num)) (by
        rintro ⟨h, _⟩
        rw [inTile, inTile, mapX, mapX, eq44_lng, eq44_lng] at h
        norm_num [abs_lt] at h)
      rw [show filesDemo.toOsmSetting = fileDemo from rfl, htags] at this
      norm_num at this ⊢
      exact this
    · rcases (k4 L hL c hc).2 with h | ⟨d, hd, r, hr, m1, m2, m3, m4, _⟩
      · exact .inl ⟨h.1, h.2.1⟩
      · right
        rw [streetFile_data] at hd
        have hds : d = fileStreet := by
          rcases List.mem_append.1 hd with h | h
          · rw [streetFile_lone.others d (List.mem_append_left _ h)] at hr; cases hr
          · simpa using h
        subst hds
        rw [streetFile_lone.rule] at hr
        injection hr with hr
        subst hr
        rw [show fileStreet.tags = streetTags from rfl, show filesDemo.toOsmSetting = fileDemo from rfl, htags] at m4
        have hid : (fileStreet.id % 2 ^ 64 : Int) = 9 := by show (9 % 2 ^ 64 : Int) = 9; norm_num
        rw [hid] at m2
        exact ⟨m1, by omega, m3, m4⟩

/-- the vertices of the strip: where the projection puts them -/
example : ∃ q ∈ landOf (latlngToFixed linPx) [stripPolygon], q.inners = [] ∧
    List.Forall₂ (fun (l : LatLng) (v : XY) => |(v.x : ℝ) - mapX l * 2 ^ 32| ≤ 512 ∧ |(v.y : ℝ) - mapY l * 2 ^ 32| ≤ 512) stripPolygon.outline q.outer := by
  refine C73_places (by norm_num) lin_lib (by simp) ?_
  intro l hl
  simp only [ShpPolygon.outline, stripPolygon, List.headD_cons, List.map_cons, List.map_nil, ShpPoint.place, double_zero, double_90, double_lat, List.mem_cons, List.not_mem_nil, or_false] at hl
  have h45 : (45 : ℝ) ≤ maxLat := by
    have hpi := Real.pi_gt_three
    have : (1 : ℝ) ≤ Real.sinh Real.pi := by
      have := Real.self_le_sinh_iff.2 Real.pi_pos.le
      linarith
    have h3 := Real.arctan_mono this
    rw [Real.arctan_one] at h3
    have h4 : Real.pi / 4 * (180 / Real.pi) ≤ Real.arctan (Real.sinh Real.pi) * (180 / Real.pi) := mul_le_mul_of_nonneg_right h3 (by positivity)
    have h5 : Real.pi / 4 * (180 / Real.pi) = 45 := by field_simp; norm_num
    rw [maxLat]
    linarith
  have key : ∀ a b : ℝ, 0 ≤ a → a ≤ 45 → 0 ≤ b → b ≤ 90 → OnMap ⟨a, b⟩ := by
    intro a b h1 h2 h3 h4
    refine ⟨?_, ?_⟩
    · show |b| ≤ _
      rw [abs_of_nonneg h3]; linarith
    · show |a| ≤ _
      rw [abs_of_nonneg h1]; linarith
  rcases hl with rfl | rfl | rfl | rfl | rfl <;> exact key _ _ (by norm_num) (by norm_num) (by norm_num) (by norm_num)

/-- archives that are refused: without a shapefile; the shapefile is damaged -/
example : loadShapefile (shpConv fileDemo.prof.conv) (some [some ⟨b!"README.txt", none⟩]) = .throw_ ∧
    loadShapefile (shpConv fileDemo.prof.conv) (some [some ⟨b!"README.txt", none⟩, some ⟨b!"land.shp", none⟩]) = .throw_ := by
  have h := (C73_refused (shpConv fileDemo.prof.conv)).2 [⟨b!"README.txt", none⟩] (by intro e he; rw [List.mem_singleton.1 he, ← suffix4]; decide +kernel)
  exact ⟨h.1, h.2.2 b!"land.shp" [] ⟨b!"land", rfl⟩⟩

end Tiles
