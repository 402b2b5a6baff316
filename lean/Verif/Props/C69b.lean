import Verif.Props.C69
import Verif.Proof.CoarseLib
/-! C69: a world with a continent and a city: all conditions of C69 are met. -/
namespace Tiles
open Spec

/-! ### lines stay short -/

theorem world_fixed : ∀ (ls : List Line) (acc : List Polygon), (∀ l ∈ ls, l ≠ []) → ∃ qs,
    toFixedPolygon acc (ls.map (fun p => .mk p false [])) = .ok (acc ++ qs) ∧ ∀ r ∈ ringsOf qs, ∃ l ∈ ls, r.length = l.length + 1 := by
  intro ls
  induction ls with
  | nil => intro acc _; exact ⟨[], by simp [toFixedPolygon], by simp [ringsOf]⟩
  | cons l ls ih =>
    intro acc h
    cases l with
    | nil => exact absurd rfl (h [] (by simp))
    | cons p l =>
      obtain ⟨qs, h1, h2⟩ := ih (acc ++ [⟨p :: l ++ [p], []⟩]) (fun l hl => h l (by simp [hl]))
      refine ⟨⟨p :: l ++ [p], []⟩ :: qs, ?_, ?_⟩
      · rw [List.map_cons, toFixedPolygon]
        simp only [Bool.not_false, verify_true, Res.ok_bind, toFixedInners, pathToRing]
        rw [h1]; simp
      · intro r hr
        simp only [ringsOf, List.flatMap_cons, List.mem_append, List.mem_cons, List.not_mem_nil, or_false] at hr
        rcases hr with rfl | hr
        · exact ⟨p :: l, by simp, by simp⟩
        · obtain ⟨l', a, b⟩ := h2 r hr
          exact ⟨l', by simp [a], b⟩

theorem short_rings (ctx : RenderCtx) (hctx : ctx.clip = clipGeometry C62_inter C62_clipper id) (q : Tile) (gs : List Feature) (i : Nat)
    (hgs : ∀ g ∈ gs, (∃ p, g.geometry = .point [p]) ∨ ∃ ps, g.geometry = .polygon ps ∧ ∀ r ∈ ringsOf ps, r.length = 5)
    (f : Feature) (hf : f ∈ candidates ctx (specOf q) (ofLayer gs i)) : NoLongLine ctx q f := by
  have hsub : ∀ g ∈ ofLayer gs i, g ∈ gs := fun g hg => (List.mem_filter.1 hg).1
  have hmem : f ∈ gs := by
    rcases candidates_from hf with h | h
    · exact hsub f h
    · rw [joinedLines] at h
      have hb : bufferedLines ctx (ofLayer gs i) = [] := by
        rw [List.eq_nil_iff_forall_not_mem]
        intro g hg
        obtain ⟨h1, h2⟩ := bufferedLines_from hg
        rcases hgs g (hsub g h1) with ⟨p, hp⟩ | ⟨ps, hp, _⟩
        · simp [isLine, hp, typeOf] at h2
        · simp [isLine, hp, typeOf] at h2
      rw [if_pos hb] at h
      cases h
  intro c hc l hl
  have hc : ctx.clip f.geometry (drawBounds q) = .ok c := hc
  rw [hctx] at hc
  rcases hgs f hmem with ⟨p, h⟩ | ⟨ps, h, hr⟩
  · rw [h] at hc
    have : c = .point [p] ∨ c = .null := by
      rw [clipGeometry, clipPoint, clipPointLoop] at hc
      split at hc
      · injection hc with hc; exact .inl hc.symm
      · injection hc with hc; exact .inr hc.symm
    rcases this with rfl | rfl
    · simp only [allLines, List.mem_singleton] at hl
      subst hl
      norm_num
    · cases hl
  · rw [h, clipGeometry, clipPolygon, clipSubject_ok _ (fun r hr' => by have := hr r hr'; intro hc; rw [hc] at this; simp at this), Res.ok_bind, C62_clipper] at hc
    split at hc
    · cases hc
    · injection hc with hc; subst hc; cases hl
    · rename_i nodes hn hne
      split at hne
      · cases hne
      injection hne with hne
      obtain ⟨qs, h1, h2⟩ := world_fixed (((ringsOf ps).map List.dropLast).filter (fun p => !p.isEmpty && p.all (C62_in (drawBounds q)))) [] (by
        intro l hl hc
        subst hc
        have := (List.mem_filter.1 hl).2
        simp at this)
      rw [← hne, h1] at hc
      injection hc with hc
      subst hc
      obtain ⟨l', h3, h4⟩ := h2 l hl
      obtain ⟨r, h5, rfl⟩ := List.mem_map.1 (List.mem_filter.1 h3).1
      have := hr r h5
      rw [h4, List.length_dropLast]
      omega

/-! ### the world -/

/-- a continent, from the middle of the tiles 512 of level 10 to the middle of the tiles 768 -/
def worldBox : Box := ⟨⟨2 ^ 31 + 2 ^ 21, 2 ^ 31 + 2 ^ 21⟩, ⟨3 * 2 ^ 30 + 2 ^ 21, 3 * 2 ^ 30 + 2 ^ 21⟩⟩
def worldLand : Polygon := ⟨boxToPath worldBox, []⟩

/-- the setting of C68 (a city, full.lua) with this coastline -/
noncomputable def worldDemo : WorldSetting := { osmDemo with lib := coarseLib, polys := [worldLand], coastWorkers := 3 }

theorem world_land (c : Int × Int) : Land [worldLand] (coarseCentre c) ↔ InBox worldBox (coarseCentre c) := by
  simp only [Land, List.mem_singleton, exists_eq_left]
  show xor (inRing (boxToPath worldBox) (coarseCentre c)) false = true ↔ _
  rw [Bool.xor_false, coarseCentre, inRing_boxPath _ (by decide) (by decide), decide_eq_true_eq]

theorem world_input : GoodInput [worldLand] coarsePts := by
  refine ⟨?_, ?_, fun p _ => List.countP_le_length⟩
  · intro q hq i hi; rw [List.mem_singleton.1 hq] at hi; simp [worldLand] at hi
  · intro q hq; rw [List.mem_singleton.1 hq]; simp [worldLand, boxToPath]

theorem world_tasks : ∃ ws, coastTasks coarseLib ([worldLand].map coastOf) (tilesOfZoom 4) = .ok ws := by
  refine C34_no_failure coarseLib coarseLib_works [worldLand] coarsePts coarseLib_exact coarseLib_fills coarsePts_dense world_input ?_
  intro t hz hv
  by_cases hc : 513 ≤ t.x ∧ t.x ≤ 767 ∧ 513 ≤ t.y ∧ t.y ≤ 767
  · refine .inr ⟨worldLand, by simp, ?_⟩
    rintro p ⟨c, rfl⟩ hin
    have := (world_land c).2 (by
      simp only [InBox, coarseCentre, cellCentre, half_le, half_le', drawBounds, pxBounds, hz, kOverdraw, worldBox] at hin ⊢
      omega)
    obtain ⟨q, hq, h⟩ := this
    rw [List.mem_singleton.1 hq] at h
    exact h
  · refine .inl ⟨coarseCentre (if t.x ≤ 512 then (t.x : Int) * 1024 else (t.x : Int) * 1024 + 1023,
      if t.y ≤ 512 then (t.y : Int) * 1024 else (t.y : Int) * 1024 + 1023), ⟨_, rfl⟩, ?_, ?_⟩
    · simp only [InBox, coarseCentre, cellCentre, half_le, half_le', drawBounds, pxBounds, hz, kOverdraw]
      split <;> split <;> omega
    · rw [world_land]
      simp only [InBox, coarseCentre, cellCentre, half_le, half_le', worldBox]
      split <;> split <;> omega

theorem coarse_stored {cs : List (Int × Int)} (hne : cs ≠ []) (z : Nat) :
    withoutSmallRings (simplified (fun l => C52_rd (C52_mk l) z) (.polygon (cs.map coarsePolygon))) = .polygon (cs.map coarsePolygon) := by
  have h1 : simplified (fun l => C52_rd (C52_mk l) z) (.polygon (cs.map coarsePolygon)) = .polygon (cs.map coarsePolygon) := by
    simp only [simplified, List.map_map]
    rfl
  rw [h1]
  have h2 : (cs.map coarsePolygon).filter (fun p => decide (4 ≤ p.outer.length)) = cs.map coarsePolygon := by
    rw [List.filter_eq_self]
    intro p hp
    obtain ⟨c, _, rfl⟩ := List.mem_map.1 hp
    rw [coarse_outer_length]; rfl
  have h3 : (cs.map coarsePolygon).map (fun p => (⟨p.outer, p.inners.filter (fun i => decide (4 ≤ i.length))⟩ : Polygon)) = cs.map coarsePolygon := by
    rw [List.map_map]
    exact List.map_congr_left fun c _ => rfl
  rw [withoutSmallRings, h2, h3]
  cases cs with
  | nil => exact absurd rfl hne
  | cons c cs => rfl

theorem coarse_rings {cs : List (Int × Int)} {r : Line} (h : r ∈ ringsOf (cs.map coarsePolygon)) : r.length = 5 := by
  obtain ⟨q, hq, hr⟩ := List.mem_flatMap.1 h
  obtain ⟨c, _, rfl⟩ := List.mem_map.1 hq
  rw [coarse_ring hr, coarse_outer_length]

theorem coarse_area (c : Int × Int) : area2 (coarsePolygon c).outer.dropLast ≠ 0 := by
  have : area2 (coarsePolygon c).outer.dropLast = 2 * (4096 * 4096) ∨ area2 (coarsePolygon c).outer.dropLast = -(2 * (4096 * 4096)) := by
    simp only [coarsePolygon, coarsePath, coarseBox, boxToPath, area2, List.cons_append, List.nil_append, List.dropLast, List.zip, List.zipWith, List.tail, List.take, List.map, List.sum_cons, List.sum_nil]
    first
      | (left; ring; done)
      | (right; ring)
  omega

theorem world_fits : worldDemo.CoastFits coarsePts where
  exact := coarseLib_exact
  input := world_input
  shapes := coarse_shapes
  records := by
    intro t ps h k dec b hb
    have hb : serializeFeature (fun _ => []) [] true ⟨k.toNat, 0, 0, 21, [], .polygon ps⟩ = .ok b ∨ serializeFeature C52_mk dec false ⟨k.toNat, 0, 0, 21, [], .polygon ps⟩ = .ok b := hb
    have : b.length ≤ 2 ^ 27 := by
      rcases hb with hb | hb
      · exact coarse_size h (by simp) hb
      · exact coarse_size h (by simp [C52_mk]) hb
    omega
  areas := by
    intro t ps h z _ qs hqs
    obtain ⟨cs, rfl, _, _, c, hc, _⟩ := coarse_cut h
    have hne : cs ≠ [] := List.ne_nil_of_mem hc
    have hqs : withoutSmallRings (simplified (fun l => C52_rd (C52_mk l) z) (.polygon (cs.map coarsePolygon))) = .polygon qs := hqs
    rw [coarse_stored hne] at hqs
    injection hqs with hqs
    subst hqs
    exact ⟨_, List.mem_flatMap.2 ⟨coarsePolygon c, List.mem_map.2 ⟨c, hc, rfl⟩, List.mem_cons_self⟩, coarse_area c⟩

section
variable {xs : List (List Inserted)} {m m0 : MetaTable} {cs : List Inserted} {sea : List Tile} {fs : List (List Feature)}

theorem world_loaded (h : worldDemo.Loads osmDemoData xs m cs sea fs m0) : CoastFacts coarseLib [worldLand] coarsePts cs sea ∧ (worldDemo.env osmDemoData).decOf m = [] ∧
    ∃ i < 13, xs.flatten = cs ++ [whole (osmDemoFeature i)] := by
  obtain ⟨names, tbl, nodes, hf⟩ := world_facts (W := worldDemo) osmDemo_ok osmDemo_fits (by simp [osmDemoData]) world_fits h
  obtain ⟨hd, i, hi, hfs⟩ := osmDemo_result h.2.2.1
  obtain ⟨nodes', _, rfl⟩ := h.2.2.2
  refine ⟨hf.coast, hd, i, hi, ?_⟩
  rw [h.1, List.flatten_cons, ← List.map_flatten, hfs]
  rfl

theorem world_each (h : worldDemo.Loads osmDemoData xs m cs sea fs m0) : ∀ x ∈ cs, ∃ (k : UInt64) (rs : List (Int × Int)) (t : Tile), x.tile = some t ∧ t.Valid ∧ t.z = 10 ∧ rs ≠ [] ∧
    CoastCut coarseLib t (rs.map coarsePolygon) ∧ x.feature = ⟨k.toNat, 0, 0, 21, [], .polygon (rs.map coarsePolygon)⟩ := by
  intro x hx
  obtain ⟨t, ps, h1, h2, _⟩ := (world_loaded h).1.shows x hx
  obtain ⟨rs, rfl, _, _, c, hc, _⟩ := coarse_cut h2
  obtain ⟨k, _, h3⟩ := h1.feature
  exact ⟨k, rs, t, h1.tile, h1.level.1, h1.level.2, List.ne_nil_of_mem hc, h2, h3⟩

theorem world_copies (h : worldDemo.Loads osmDemoData xs m cs sea fs m0) : ∀ x ∈ cs, copies x ≤ 1 := by
  classical
  intro x hx
  obtain ⟨_, _, t, h1, _⟩ := world_each h x hx
  obtain ⟨f, o⟩ := x
  dsimp only at h1
  subst h1
  unfold copies
  rw [← List.countP_eq_length_filter]
  refine le_trans (le_of_eq (List.countP_congr (q := fun u => u == t) fun u _ => ?_)) (?_ : cacheTiles.count t ≤ 1)
  · rw [decide_eq_true_eq, beq_iff_eq]
    exact ⟨fun h => Eq.symm h, fun h => Eq.symm h⟩
  exact List.nodup_iff_count_le_one.1 cacheTiles_nodup t

theorem world_sizes (h : worldDemo.Loads osmDemoData xs m cs sea fs m0) : ∀ x ∈ cs, insertedSize x.feature ≤ 2 ^ 27 ∧ indexedSize C52_mk [] x.feature ≤ 2 ^ 27 := by
  intro x hx
  obtain ⟨k, rs, t, _, _, _, _, h1, h2⟩ := world_each h x hx
  rw [h2]
  constructor
  · unfold insertedSize
    split
    · rename_i b hb
      exact coarse_size h1 (by simp) hb
    · omega
  · unfold indexedSize
    split
    · rename_i b hb
      exact coarse_size h1 (by simp [C52_mk]) hb
    · omega

theorem sum_le_mul {α : Type} (f : α → Nat) (k : Nat) : ∀ l : List α, (∀ a ∈ l, f a ≤ k) → (l.map f).sum ≤ l.length * k := by
  intro l h
  induction l with
  | nil => simp
  | cons a l ih =>
    have := h a (by simp)
    have := ih (fun b hb => h b (by simp [hb]))
    simp only [List.map_cons, List.sum_cons, List.length_cons, Nat.add_mul]
    omega

theorem world_once {t : Tile} : ∀ {cs : List Inserted}, (cs.map (·.tile)).Nodup → (∀ x ∈ cs, ∃ u, x.tile = some u) → ∀ [∀ x : Inserted, Decidable (x.At t)],
    (cs.filter (fun x => decide (x.At t))).length ≤ 1 := by
  intro cs hn hs _
  have h1 : (cs.filter (fun x => decide (x.At t))).length = (cs.map (·.tile)).count (some t) := by
    rw [← List.countP_eq_length_filter, List.count, List.countP_map]
    refine List.countP_congr fun x hx => ?_
    obtain ⟨u, hu⟩ := hs x hx
    obtain ⟨f, o⟩ := x
    dsimp only at hu
    subst hu
    rw [decide_eq_true_eq]
    show u = t ↔ (some u == some t) = true
    simp
  rw [h1]
  exact List.nodup_iff_count_le_one.1 hn _

theorem world_room (h : worldDemo.Loads osmDemoData xs m cs sea fs m0) : insertBytes xs ≤ worldDemo.mem ∧
      (∀ u : Tile, u.Valid → u.z = 10 → tileBytes worldDemo.mkMask ((worldDemo.env osmDemoData).decOf m) xs u ≤ 2 ^ 30) ∧
      packBytes worldDemo.mkMask ((worldDemo.env osmDemoData).decOf m) xs < 2 ^ 62 := by
  classical
  obtain ⟨hcf, hd, i, hi, hxs⟩ := world_loaded h
  obtain ⟨⟨a, h1, h2, h3⟩, b, h4, h5, h6⟩ := osmDemo_size hi
  have hfew := hcf.few
  have hsz := world_sizes h
  have hcp := world_copies h
  have hc : copies (whole (osmDemoFeature i)) ≤ 2 ^ 20 := by
    unfold copies
    exact (List.length_filter_le _ _).trans (le_of_eq cacheTiles_length)
  have hs : insertedSize (osmDemoFeature i) ≤ 200 := by unfold insertedSize; rw [h1]; dsimp only; omega
  have hx : indexedSize C52_mk [] (osmDemoFeature i) ≤ 200 := by unfold indexedSize; rw [h4]; dsimp only; omega
  have hm := Nat.mul_le_mul hc (Nat.add_le_add_right hs 15)
  have hm' := Nat.mul_le_mul hc (Nat.add_le_add_right hx 182)
  rw [hd, show worldDemo.mkMask = C52_mk from rfl, show worldDemo.mem = 2 ^ 50 from rfl]
  refine ⟨?_, fun u _ _ => ?_, ?_⟩
  · have hb := sum_le_mul (fun x => copies x * (insertedSize x.feature + 15)) (2 ^ 27 + 15) cs (fun x hx => by
      have h1 := hcp x hx
      have h2 := (hsz x hx).1
      have h3 := Nat.mul_le_mul h1 (Nat.add_le_add_right h2 15)
      omega)
    have hb2 := Nat.mul_le_mul_right (2 ^ 27 + 15) hfew
    rw [insertBytes, hxs, List.map_append, List.sum_append]
    simp only [List.map_cons, List.map_nil, List.sum_cons, List.sum_nil, show (whole (osmDemoFeature i)).feature = osmDemoFeature i from rfl]
    generalize copies (whole (osmDemoFeature i)) * _ = k at hm
    generalize (List.map (fun x => copies x * (insertedSize x.feature + 15)) cs).sum = k2 at hb
    omega
  · have hone := world_once (t := u) hcf.once (fun x hx => by obtain ⟨_, _, t, h1, _⟩ := world_each h x hx; exact ⟨t, h1⟩)
    rw [tileBytes, goesTo, hxs, List.filter_append, List.map_append, List.map_append, List.sum_append, List.map_map]
    have hb := sum_le_mul ((fun f => indexedSize C52_mk [] f + 182) ∘ fun x : Inserted => x.feature) (2 ^ 27 + 182) (cs.filter (fun x => decide (x.At u))) (fun x hx => by
      have h2 := (hsz x (List.mem_filter.1 hx).1).2
      dsimp only [Function.comp]
      omega)
    have hb2 := Nat.mul_le_mul_right (2 ^ 27 + 182) hone
    have hb3 : ((List.map (fun x : Inserted => x.feature) ([whole (osmDemoFeature i)].filter (fun x => decide (x.At u)))).map (fun f => indexedSize C52_mk [] f + 182)).sum ≤ 382 := by
      rw [List.filter_cons, List.filter_nil]
      split <;> simp [whole] <;> omega
    exact le_trans (Nat.add_le_add_right (Nat.add_le_add (le_trans hb hb2) hb3) 69) (by norm_num)
  · have hb := sum_le_mul (fun x => copies x * (indexedSize C52_mk [] x.feature + 182)) (2 ^ 27 + 182) cs (fun x hx => by
      have h1 := hcp x hx
      have h2 := (hsz x hx).2
      have h3 := Nat.mul_le_mul h1 (Nat.add_le_add_right h2 182)
      omega)
    have hb2 := Nat.mul_le_mul_right (2 ^ 27 + 182) hfew
    rw [packBytes, hxs, List.map_append, List.sum_append]
    simp only [List.map_cons, List.map_nil, List.sum_cons, List.sum_nil, show (whole (osmDemoFeature i)).feature = osmDemoFeature i from rfl]
    generalize copies (whole (osmDemoFeature i)) * _ = k at hm'
    generalize (List.map (fun x => copies x * (indexedSize C52_mk [] x.feature + 182)) cs).sum = k2 at hb
    omega

end

theorem world_short (ctx : GetCtx) (hctx : ctx.clip = C62_ctx.clip) (q : Tile) : worldDemo.ShortLines osmDemoData ctx q := by
  intro xs m cs sea fs m0 h gs i hgs f hf
  obtain ⟨_, _, j, _, hxs⟩ := world_loaded h
  refine short_rings _ ?_ q gs i (fun g hg => ?_) f hf
  · show (drawing ctx 10 q).clip = _
    rw [drawing]
    split <;> exact hctx
  · rcases hgs g hg with ⟨t, rfl⟩ | ⟨x, hx, ms, _, rfl⟩
    · refine .inr ⟨_, rfl, ?_⟩
      intro r hr
      simp only [ringsOf, List.flatMap_cons, List.flatMap_nil, List.append_nil, List.mem_singleton] at hr
      subst hr
      rfl
    · rw [hxs, List.mem_append, List.mem_singleton] at hx
      rcases hx with hx | rfl
      · obtain ⟨k, rs, t, _, _, _, hne, _, h2⟩ := world_each h x hx
        refine .inr ⟨rs.map coarsePolygon, ?_, fun r hr => coarse_rings hr⟩
        dsimp only
        rw [h2]
        exact coarse_stored hne q.z
      · exact .inl ⟨_, rfl⟩

/-- in the tile 10/512/600: a point of the sea, and one on land -/
def worldSea : Int × Int := (512 * 1024 + 100, 600 * 1024)
def worldShore : Int × Int := (512 * 1024 + 600, 600 * 1024)

theorem world_points : ¬ Land [worldLand] (coarseCentre worldSea) ∧ Land [worldLand] (coarseCentre worldShore) ∧ InTile ⟨512, 600, 10⟩ (coarseCentre worldSea) ∧ InTile ⟨512, 600, 10⟩ (coarseCentre worldShore) := by
  refine ⟨?_, ?_, ?_, ?_⟩
  · rw [world_land]
    simp only [InBox, coarseCentre, cellCentre, half_le, half_le', worldBox, worldSea]
    omega
  · rw [world_land]
    simp only [InBox, coarseCentre, cellCentre, half_le, half_le', worldBox, worldShore]
    omega
  · simp only [InTile, coarseCentre, cellCentre, worldSea, side]
    norm_num
  · simp only [InTile, coarseCentre, cellCentre, worldShore, side]
    norm_num

/-- All conditions are met: continent and city are imported on top of anything; then the server starts, and
* of the tile 10/512/600, which has land on a part of it, polygons are drawn; one of them has the point of the sea in it, and not the point on land;
* who asks for the tile 12/2560/2560 sees the city. -/
example (a : TileDb MetaTable) : ∃ (b : TileDb MetaTable) (ctx : GetCtx), Imports (importParts (worldDemo.env osmDemoData)) [["coastlines", "features", "pack", "tiles"]] a b ∧
    makeRenderCtx worldDemo.base (preparedString b.maxPrepared) b.info = .ok ctx ∧
    ∀ features, EntriesOf b.features features →
      (∃ bytes layers leafs gs, getTile b.tiles features b.pf.reopen ctx ⟨512, 600, 10⟩ = .ok (if bytes = [] then none else some (ctx.encode bytes)) ∧
        (bytes.length < 2 ^ 32 → clientTile bytes = some layers) ∧ layers = tileContent (drawing ctx 10 ⟨512, 600, 10⟩).toRenderCtx (specOf ⟨512, 600, 10⟩) (leafs.map seaSquare ++ gs) ∧
        leafs = [] ∧ ∃ g ∈ gs, g.layer = 0 ∧ ∃ ps, g.geometry = .polygon ps ∧ inPolygons ps (coarseCentre worldSea) = true ∧ inPolygons ps (coarseCentre worldShore) = false) ∧
      ∃ bytes layers, getTile b.tiles features b.pf.reopen ctx ⟨2560, 2560, 12⟩ = .ok (if bytes = [] then none else some (ctx.encode bytes)) ∧
        (bytes.length < 2 ^ 32 → clientTile bytes = some layers) ∧ ∃ L ∈ layers, L.name = b!"cities" ∧ ∃ c ∈ L.features, c.id = 7 ∧ c.type = 1 := by
  obtain ⟨w1, w2, w3, w4⟩ := world_points
  obtain ⟨b, h1, h2, h3, h4⟩ := C69_completes (W := worldDemo) osmDemo_ok osmDemo_fits (by simp [osmDemoData]) world_fits (by decide) world_tasks
    ["coastlines", "features", "pack", "tiles"] (.inr (by simp)) (.inr (by simp)) (.inr (by simp)) (.inr (by simp))
    (by decide) (by norm_num [worldDemo, osmDemo]) (fun xs m cs sea fs m0 h => by obtain ⟨_, _, i, _, hx⟩ := world_loaded h; rw [hx]; simp)
    (fun xs m cs sea fs m0 h => world_room h) (fun m ctx h q _ _ => world_short ctx (ctx_clip h) q) a
  have himp : Imports (importParts (worldDemo.env osmDemoData)) [["coastlines", "features", "pack", "tiles"]] a b := ⟨b, h1, rfl⟩
  have hacts : changes [["coastlines", "features", "pack", "tiles"]] = [.load true true, .pack, .tiles] := by simp [changes, actsOf, Asked]
  obtain ⟨ctx, h5, _⟩ := C69_starts (W := worldDemo) osmDemo_ok osmDemo_fits (by simp [osmDemoData]) world_fits _ hacts a b himp h3
  refine ⟨b, ctx, himp, h5, fun features hdb => ?_⟩
  obtain ⟨cs, sea, hload, hserve⟩ := C69_served (W := worldDemo) osmDemo_ok osmDemo_fits (by simp [osmDemoData]) world_fits _ hacts a b himp h3 (by omega) features hdb ctx h5
  refine ⟨?_, ?_⟩
  · obtain ⟨bytes, layers, leafs, gs, k1, k2, k3, k4, _⟩ := hserve ⟨512, 600, 10⟩ (by decide) (by decide) (world_short ctx (ctx_clip h5) _) (.inl (by decide))
    have hleafs : leafs = [] := by
      rw [List.eq_nil_iff_forall_not_mem]
      intro t ht
      have htq : t = ⟨512, 600, 10⟩ := by
        rcases k4.within t ht with h | ⟨h, hz⟩
        · exact h
        · exact (ancOrSelf_same_z h (by have := h.1; dsimp only at this ⊢; omega)).symm
      subst htq
      obtain ⟨hlt, _⟩ := k4.squares _ ⟨_, rfl⟩ w4 w2 _ ht (by
        simp only [InBox, coarseCentre, cellCentre, half_le, half_le', drawBounds, pxBounds, kOverdraw, worldShore]
        omega)
      exact absurd hlt (by decide)
    refine ⟨bytes, layers, leafs, gs, k1, fun h => (k2 h).1, k3, hleafs, ?_⟩
    rcases k4.sea _ ⟨_, rfl⟩ w3 w1 with ⟨t, ht, _⟩ | ⟨x, hx, t, ps, j1, j2, j3, j4⟩
    · rw [hleafs] at ht; cases ht
    · obtain ⟨k, _, hf⟩ := j1.feature
      have hmeet := sea_meet (by rw [j1.level.2]; omega) (by decide) j2 w3
      have htq : t = ⟨512, 600, 10⟩ := by
        rcases hmeet with h | h
        · exact ancOrSelf_same_z h (by rw [j1.level.2])
        · exact (ancOrSelf_same_z h (by rw [j1.level.2])).symm
      subst htq
      have hcf := coast_facts (lib := coarseLib) (polys := [worldLand]) (S := coarsePts) world_fits.exact world_fits.input world_fits.shapes hload (fun x hx b hb => by
        obtain ⟨u, ps, id, b', h1, h2, h3⟩ := coast_bytes (lib := coarseLib) (polys := [worldLand]) (S := coarsePts) world_fits.exact world_fits.input hload x hx
        rw [hb] at h3
        injection h3 with h3
        rw [h3]
        exact world_fits.records u ps h1 id [] b' (.inl h2))
      obtain ⟨t', ps', i1, i2, _⟩ := hcf.shows x hx
      obtain ⟨k', _, hf'⟩ := i1.feature
      rw [hf] at hf'
      injection hf' with _ _ _ _ _ hps
      injection hps with hps
      subst hps
      obtain ⟨rs, rfl, _, _, c, hc, _⟩ := coarse_cut i2
      have hst := coarse_stored (List.ne_nil_of_mem hc) 10
      have hst' : withoutSmallRings (simplified (fun l => worldDemo.rd (worldDemo.mkMask l) 10) x.feature.geometry) = .polygon (rs.map coarsePolygon) := by rw [hf]; exact hst
      obtain ⟨g, hg, ms, _, rfl⟩ := j4 (by
        show withoutSmallRings (simplified (fun l => worldDemo.rd (worldDemo.mkMask l) 10) x.feature.geometry) ≠ .null
        rw [hst']; simp)
      refine ⟨_, hg, by rw [hf], _, hst', j3, ?_⟩
      have := (j1.sea _ ⟨_, rfl⟩ (sea_inTile_box w4)).not.2 (fun h => h w2)
      simpa using this
  · obtain ⟨bytes, layers, leafs, gs, k1, k2, _, _, _, k4⟩ := hserve ⟨2560, 2560, 12⟩ (by decide) (by decide) (world_short ctx (ctx_clip h5) _) (.inl (by decide))
    obtain ⟨p1, p2⟩ := C64_place_at (2684616704 / 2 ^ 32) (2684616704 / 2 ^ 32)
    have hw : WellInside 1 ⟨2560, 2560, 12⟩ osmDemoPlace := by
      rw [WellInside, osmDemoPlace, p1, p2]
      norm_num [side]
    obtain ⟨_, L, m1, m2, c, m3, m4, m5, _⟩ := k4 osmDemoCity (by simp [osmDemoData]) osmDemoPlace rfl _ osmDemo_rule 5 rfl (by decide) hw (by
      intro d' hd' hid _
      simp only [osmDemoData, List.mem_cons, List.not_mem_nil, or_false] at hd'
      rcases hd' with rfl | rfl
      · rfl
      · exact absurd hid (by decide))
    refine ⟨bytes, layers, k1, fun h => (k2 h).1, L, m1, m2, c, m3, ?_, m5⟩
    have : (c.id : Int) = 7 % 2 ^ 64 := m4
    omega

end Tiles
