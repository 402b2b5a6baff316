import Verif.Proof.ClipLine
/-! C70: all conditions of `C70_streets` are met: a street, from the file to the client. -/
namespace Tiles
open Spec

noncomputable def streetDemo : OsmSetting := { osmDemo with base := { C62_ctx with clip := clipGeometry segInter C62_clipper id } }

/-- three places in a row, from west to east: the first two are in the tile 12/2560/2560, the third is two tiles further to the east -/
noncomputable def streetA : LatLng := C64_place (2684616704 / 2 ^ 32) (2684616704 / 2 ^ 32)
noncomputable def streetB : LatLng := C64_place (2684747776 / 2 ^ 32) (2684616704 / 2 ^ 32)
noncomputable def streetC : LatLng := C64_place (2686844928 / 2 ^ 32) (2684616704 / 2 ^ 32)

def streetTags : List (Bytes × Bytes) := [(b!"name", b!"Rheinstrasse"), (b!"highway", b!"residential"), (b!"surface", b!"asphalt")]
/-- the street; the place of one of its nodes is not known -/
noncomputable def street : Datum := ⟨9, streetTags, .way [some streetA, none, some streetB, some streetC]⟩
noncomputable def streetData : List Datum := [street]

def streetMetas : List Meta := [⟨b!"highway", encodeString b!"residential"⟩, ⟨b!"name", encodeString b!"Rheinstrasse"⟩]
def streetLine : Line := [⟨2684616704, 2684616704⟩, ⟨2684747776, 2684616704⟩, ⟨2686844928, 2684616704⟩]
def streetFeature (i : Nat) : Feature := ⟨9, i, 12, 21, streetMetas, .polyline [streetLine]⟩

theorem street_ok : streetDemo.Ok fullTables 1 1 where
  shipped := .full
  numerals := fun s n h => fromChars_range h
  doubles := osmDemo_ok.doubles
  sorts := osmDemo_ok.sorts
  masks := osmDemo_ok.masks
  keeps := osmDemo_ok.keeps
  work := osmDemo_ok.work
  reads := rfl
  error := ⟨by omega, by norm_num, le_rfl⟩
  clip := ⟨segInter, C62_clipper, id, seg_clip, rfl⟩
  joins := osmDemo_ok.joins
  places := osmDemo_ok.places

theorem conv_place (x y : Nat) (hx : x < 2 ^ 32 - 1) (hy : y < 2 ^ 32 - 1) : streetDemo.prof.conv (C64_place (x / 2 ^ 32) (y / 2 ^ 32)) = ⟨x, y⟩ := by
  obtain ⟨h1, h2⟩ := C64_place_at (x / 2 ^ 32) (y / 2 ^ 32)
  have e : streetDemo.prof.conv (C64_place (x / 2 ^ 32) (y / 2 ^ 32)) = latlngToFixed (fun p => ⟨⌊mapX p * 2 ^ 32⌋, ⌊mapY p * 2 ^ 32⌋⟩) (C64_place (x / 2 ^ 32) (y / 2 ^ 32)) := rfl
  have hf : ∀ n : Nat, ⌊((n : ℝ) / 2 ^ 32 * 2 ^ 32 : ℝ)⌋ = n := by
    intro n
    rw [div_mul_cancel₀ _ (by positivity)]
    exact Int.floor_natCast n
  rw [e, latlngToFixed]
  dsimp only
  rw [h1, h2, hf, hf]
  simp only [kFixedCoordMax]
  congr 1 <;> omega

theorem street_places : streetDemo.prof.conv streetA = ⟨2684616704, 2684616704⟩ ∧ streetDemo.prof.conv streetB = ⟨2684747776, 2684616704⟩ ∧
    streetDemo.prof.conv streetC = ⟨2686844928, 2684616704⟩ := by
  have h1 := conv_place 2684616704 2684616704 (by norm_num) (by norm_num)
  have h2 := conv_place 2684747776 2684616704 (by norm_num) (by norm_num)
  have h3 := conv_place 2686844928 2684616704 (by norm_num) (by norm_num)
  norm_num at h1 h2 h3
  norm_num [streetA, streetB, streetC, h1, h2, h3]

theorem street_on {l : LatLng} (h : l ∈ [streetA, streetB, streetC]) : OnMap l := by
  simp only [List.mem_cons, List.not_mem_nil, or_false] at h
  rcases h with rfl | rfl | rfl
  · exact C64_place_on (by norm_num) (by norm_num) (by norm_num) (by norm_num)
  · exact C64_place_on (by norm_num) (by norm_num) (by norm_num) (by norm_num)
  · exact C64_place_on (by norm_num) (by norm_num) (by norm_num) (by norm_num)

theorem street_good : GoodData streetDemo.prof streetDemo.profile streetDemo.numeral streetData := by
  have hd' : ∀ d ∈ streetData, d = street := by intro d hd; simpa [streetData] using hd
  have hfine := C66_fine streetDemo.prof streetDemo.numeral .full street.id street.tags street.shape (by simp [street])
  refine ⟨fun d hd => ?_, fun d hd => ?_, fun d hd l hl => ?_, fun d hd ps h => ?_, fun d hd => ?_, fun d hd => ?_, by simp [streetData]⟩
  · rw [hd' d hd]; exact hfine.1
  · rw [hd' d hd]; exact hfine.2
  · rw [hd' d hd] at hl
    refine street_on ?_
    simpa [street, shapeNodes] using hl
  · rw [hd' d hd] at h
    have : Res.ok (readOsmWay streetDemo.prof.conv [some streetA, none, some streetB, some streetC]) = .ok (.polygon ps) := h
    simp [readOsmWay, nodesToFixed] at this
  · rw [hd' d hd]
    show ∀ kv ∈ streetTags, kv.2.length < 2 ^ 32 - 1
    decide +kernel
  · rw [hd' d hd]; simp [shapeSize, shapeNodes, street]

theorem street_rule : street.rule fullTables = some ⟨b!"road", fromLevel 12, roadAttrs⟩ := by
  show decideBy fullTables.ways (tagValue streetTags) = _
  rfl

theorem street_read : readOsm streetDemo.prof.conv street.shape = .ok (.polyline [streetLine]) := by
  obtain ⟨h1, h2, h3⟩ := street_places
  show Res.ok (readOsmWay streetDemo.prof.conv [some streetA, none, some streetB, some streetC]) = _
  simp [readOsmWay, nodesToFixed, h1, h2, h3, streetLine]

theorem street_loaded {fs : List (List Feature)} {m : MetaTable} {names : List Bytes} {tbl : List Meta}
    (h : OsmLoaded streetDemo.prof streetDemo.profile fullTables streetDemo.numeral streetData fs m names tbl) : ∃ i < 13, fs.flatten = [streetFeature i] := by
  have hall : ∀ f ∈ fs.flatten, ∃ i < 13, f = streetFeature i := by
    intro f hf
    obtain ⟨d, hd, r, hr, hst, hne, hde⟩ := h.from_data f hf
    simp only [streetData, List.mem_cons, List.not_mem_nil, or_false] at hd
    subst hd
    rw [street_rule] at hr
    injection hr with hr
    subst hr
    have h1 : f.metas = streetMetas := by
      have hp := metas_perm Shipped.full street_rule hst
      have hq : (⟨b!"road", fromLevel 12, roadAttrs⟩ : RuleOut).attributes streetDemo.numeral (tagValue street.tags) =
          [(b!"highway", .text b!"residential"), (b!"name", .text b!"Rheinstrasse")] := by
        show RuleOut.attributes fromCharsI64 (tagValue streetTags) ⟨b!"road", fromLevel 12, roadAttrs⟩ = _
        rfl
      rw [hq] at hp
      have hp2 : f.metas.Perm streetMetas := hp
      have hs1 : f.metas.Pairwise (fun x y => bytesLe x.key y.key = true ∧ x.key ≠ y.key) := List.pairwise_map.1 hde.metas.sorted
      have hs2 : streetMetas.Pairwise (fun x y => bytesLe x.key y.key = true ∧ x.key ≠ y.key) := by decide +kernel
      exact List.Perm.eq_of_pairwise (fun a b _ _ h h' => absurd (bytesLe_antisymm h.1 h'.1) h.2) hs1 hs2 hp2
    have h2 : f.geometry = .polyline [streetLine] := by
      have := hst.geometry
      rw [show (street.obj streetDemo.profile streetDemo.numeral).shape = street.shape from rfl, street_read] at this
      injection this with this
      exact this.symm
    have h3 : f.id = 9 := by
      have : (f.id : Int) = 9 % 2 ^ 64 := hst.id
      omega
    have h4 : f.zmin = 12 := by
      have := hst.first
      injection this with this
      exact this.symm
    have h5 : f.layer < names.length := (List.getElem?_eq_some_iff.1 hst.layer).1
    refine ⟨f.layer, by have := h.few.2; omega, ?_⟩
    have h6 := hst.last
    cases f
    simp only at h1 h2 h3 h4 h6
    rw [h1, h2, h3, h4, h6]
    rfl
  obtain ⟨f, hf, _, hde⟩ := h.all_data street (by simp [streetData]) _ _ street_rule street_read (by simp)
  obtain ⟨i, hi, hfi⟩ := hall f hf
  refine ⟨i, hi, ?_⟩
  have hone : fs.flatten.length ≤ 1 := h.count
  match hfs : fs.flatten, hone, hf with
  | [x], _, hf =>
    rw [List.mem_singleton] at hf
    rw [← hf, hfi]

theorem street_sizes : ∀ i < 13, (match serializeFeature (fun _ => []) [] true (streetFeature i), serializeFeature C52_mk [] false (streetFeature i) with
    | .ok a, .ok b => decide (32 ≤ a.length ∧ a.length < 200 ∧ 32 ≤ b.length ∧ b.length < 200)
    | _, _ => false) = true := by decide +kernel

theorem street_result {fs : List (List Feature)} {m : MetaTable} (h : OsmLoads streetDemo.prof streetDemo.profile streetDemo.numeral streetData fs m) :
    (streetDemo.env streetData).decOf m = [] ∧ ∃ i < 13, fs.flatten = [streetFeature i] := by
  obtain ⟨names, tbl, hl⟩ := osm_loaded Shipped.full (fun s n h => fromChars_range h) street_good h
  obtain ⟨i, hi, hfs⟩ := street_loaded hl
  refine ⟨?_, i, hi, hfs⟩
  have ht : tbl = [] := by
    rw [List.eq_nil_iff_forall_not_mem]
    intro x hx
    have h1 := (hl.several x).1 hx
    rw [hfs] at h1
    have h2 : streetMetas.Nodup := by decide +kernel
    have h3 := List.nodup_iff_count_le_one.1 h2 x
    have h4 : [streetFeature i].flatMap (·.metas) = streetMetas := by simp [streetFeature]
    rw [h4] at h1
    omega
  obtain ⟨b1, b2, h3, h4, h5⟩ := hl.table
  show (match loadSharedMetadata m.coding with | .ok tbl => tbl | _ => []) = []
  rw [h3]
  dsimp only
  rw [h5, ht]

theorem street_size {i : Nat} (hi : i < 13) : (∃ a, serializeFeature (fun _ => []) [] true (streetFeature i) = .ok a ∧ 32 ≤ a.length ∧ a.length < 200) ∧
    ∃ b, serializeFeature C52_mk [] false (streetFeature i) = .ok b ∧ 32 ≤ b.length ∧ b.length < 200 := by
  have := street_sizes i hi
  split at this
  · rename_i a b ha hb
    have := of_decide_eq_true this
    exact ⟨⟨a, ha, this.1, this.2.1⟩, b, hb, this.2.2⟩
  · cases this

theorem street_fits : streetDemo.Fits streetData := by
  refine ⟨street_good, fun fs m h f hf b hb => ?_, fun d hd ps h => ?_⟩
  · obtain ⟨hd, i, hi, hfs⟩ := street_result h
    rw [hfs, List.mem_singleton] at hf
    subst hf
    rw [hd] at hb
    obtain ⟨⟨a, h1, h2, h3⟩, a', h4, h5, h6⟩ := street_size hi
    rcases hb with hb | hb
    · rw [h1] at hb; injection hb with hb; subst hb; omega
    · rw [show streetDemo.mkMask = C52_mk from rfl, h4] at hb; injection hb with hb; subst hb; omega
  · exfalso
    simp only [streetData, List.mem_cons, List.not_mem_nil, or_false] at hd
    rw [hd, street_read] at h
    cases h

theorem segInter_short (box : Box) (ls : List Line) : ∀ l ∈ segInter box ls, l.length < 2 ^ 29 := by
  intro l hl
  obtain ⟨a, b, _, rfl⟩ := segPart_mem hl
  norm_num

theorem street_short (ctx : GetCtx) (hctx : ctx.clip = streetDemo.base.clip) (hagg : ctx.aggregate = C62_agg) (q : Tile) : streetDemo.ShortLines streetData ctx q := by
  intro fs m h gs i hgs f hf
  obtain ⟨_, j, _, hfs⟩ := street_result h
  have hclip : (drawing ctx 10 q).clip = clipGeometry segInter C62_clipper id := by
    rw [drawing]; split <;> exact hctx
  have hagg' : (drawing ctx 10 q).aggregate = C62_agg := by
    rw [drawing]; split <;> exact hagg
  have hfrom : ∀ g ∈ gs, (∃ t, g = seaSquare t) ∨ (g.geometry = .polyline [streetLine] ∧ LineFeature g) := by
    intro g hg
    rcases hgs g hg with ⟨t, rfl⟩ | ⟨f, h1, ms, _, rfl⟩
    · exact .inl ⟨t, rfl⟩
    · rw [hfs, List.mem_singleton] at h1
      subst h1
      have hk : keep (C52_rd (C52_mk streetLine) 0) streetLine = streetLine := keep_all _
      have : withoutSmallRings (simplified (fun l => streetDemo.rd (streetDemo.mkMask l) q.z) (streetFeature j).geometry) = .polyline [streetLine] := by
        simp only [streetFeature, simplified, withoutSmallRings, List.map_cons, List.map_nil]
        exact congrArg (fun l => Geometry.polyline [l]) hk
      refine .inr ⟨this, ?_⟩
      rw [this]
      exact ⟨rfl, by simp [featureLines, streetLine], by simp [featureLines]⟩
  have hgeo : (∃ t, f = seaSquare t) ∨ ∃ ls, f.geometry = .polyline ls := by
    rcases candidates_from hf with h | h
    · rcases hfrom f (List.mem_filter.1 h).1 with h | h
      · exact .inl h
      · exact .inr ⟨_, h.1⟩
    · refine .inr (joined_from (simplify := fun _ l => l) (z := q.z) (fun fs out ho => ?_) (fun g hg hl => ?_) h).1
      · show (drawing ctx 10 q).aggregate q.z fs = out
        rw [hagg', C62_agg, ho]
      · rcases hfrom g (List.mem_filter.1 hg).1 with ⟨t, rfl⟩ | h
        · cases hl
        · exact h.2
  rcases hgeo with ⟨t, rfl⟩ | ⟨ls, hls⟩
  · -- squares are clipped as in C62
    intro c hc
    have hctx' : ({ (drawing ctx 10 q).toRenderCtx with clip := clipGeometry C62_inter C62_clipper id, aggLines := false, aggPolygons := false } : RenderCtx).clip = clipGeometry C62_inter C62_clipper id := rfl
    refine short_points [] (by simp) { (drawing ctx 10 q).toRenderCtx with clip := clipGeometry C62_inter C62_clipper id, aggLines := false, aggPolygons := false } hctx' q [seaSquare t] 0 (simp := fun _ => [])
      (by intro g hg; exact .inl ⟨t, by simpa using hg⟩) (seaSquare t) ?_ c ?_
    · have h0 : ∀ ctx : RenderCtx, ctx.aggLines = false → ctx.aggPolygons = false → seaSquare t ∈ candidates ctx (specOf q) (ofLayer [seaSquare t] 0) := by
        intro ctx h1 h2
        have h3 : ofLayer [seaSquare t] 0 = [seaSquare t] := rfl
        rw [candidates, h3, List.mem_append, List.mem_append]
        refine .inl (.inl ?_)
        rw [direct, h1, h2, List.mem_filter]
        exact ⟨by rw [show unique [seaSquare t] = [seaSquare t] from rfl]; simp, rfl⟩
      exact h0 _ rfl rfl
    · rw [show (drawing ctx 10 q).toRenderCtx.clip = clipGeometry segInter C62_clipper id from hclip] at hc
      exact hc
  · intro c hc l hl
    rw [show (drawing ctx 10 q).toRenderCtx.clip = clipGeometry segInter C62_clipper id from hclip, hls] at hc
    injection hc with hc
    rw [clipPolyline] at hc
    subst hc
    split at hl
    · cases hl
    · exact segInter_short _ _ l (List.mem_filter.1 hl).1

theorem ctx_aggregate {base ctx : GetCtx} {pr : Option Bytes} {m : MetaTable} (h : makeRenderCtx base pr m = .ok ctx) : ctx.aggregate = base.aggregate := by
  unfold makeRenderCtx at h
  dsimp only at h
  have key : ∀ {mx : Int} {sea : List Nat}, (loadLayerNames m.names >>= fun names => loadSharedMetadata m.coding >>= fun dec =>
      (pure { base with maxPrepared := mx, seaside := sea, layerNames := names, dec := dec, ignorePrepared := false, ignoreSeaside := false,
                        label := none, aggLines := false, aggPolygons := false, dropSubpixel := true } : Res GetCtx)) = .ok ctx → ctx.aggregate = base.aggregate := by
    intro mx sea h
    obtain ⟨n, _, h⟩ := Res.bind_eq_ok.1 h
    obtain ⟨d, _, h⟩ := Res.bind_eq_ok.1 h
    rw [Res.pure_eq] at h
    injection h with h
    rw [← h]
  split at h
  · obtain ⟨x, _, h⟩ := Res.bind_eq_ok.1 h
    split at h
    · obtain ⟨y, _, h⟩ := Res.bind_eq_ok.1 h; exact key h
    · obtain ⟨y, _, h⟩ := Res.bind_eq_ok.1 h; exact key h
  · obtain ⟨x, _, h⟩ := Res.bind_eq_ok.1 h
    split at h
    · obtain ⟨y, _, h⟩ := Res.bind_eq_ok.1 h; exact key h
    · obtain ⟨y, _, h⟩ := Res.bind_eq_ok.1 h; exact key h

theorem street_room {fs : List (List Feature)} {m : MetaTable} (h : OsmLoads streetDemo.prof streetDemo.profile streetDemo.numeral streetData fs m) : insertBytes (fs.map (List.map whole)) ≤ streetDemo.mem ∧
      (∀ u : Tile, u.Valid → u.z = 10 → tileBytes streetDemo.mkMask ((streetDemo.env streetData).decOf m) (fs.map (List.map whole)) u ≤ 2 ^ 30) ∧
      packBytes streetDemo.mkMask ((streetDemo.env streetData).decOf m) (fs.map (List.map whole)) < 2 ^ 62 := by
  classical
  obtain ⟨hd, i, hi, hfs⟩ := street_result h
  obtain ⟨⟨a, h1, h2, h3⟩, b, h4, h5, h6⟩ := street_size hi
  have hc : copies (whole (streetFeature i)) ≤ 2 ^ 20 := by
    unfold copies
    exact (List.length_filter_le _ _).trans (le_of_eq cacheTiles_length)
  have hfs' : (fs.map (List.map whole)).flatten = [whole (streetFeature i)] := by rw [← List.map_flatten, hfs]; rfl
  have hs : insertedSize (streetFeature i) ≤ 200 := by unfold insertedSize; rw [h1]; dsimp only; omega
  have hx : indexedSize C52_mk [] (streetFeature i) ≤ 200 := by unfold indexedSize; rw [h4]; dsimp only; omega
  have hm := Nat.mul_le_mul hc (Nat.add_le_add_right hs 15)
  have hm' := Nat.mul_le_mul hc (Nat.add_le_add_right hx 182)
  rw [hd, show streetDemo.mkMask = C52_mk from rfl, show streetDemo.mem = 2 ^ 50 from rfl]
  refine ⟨?_, fun u _ _ => ?_, ?_⟩
  · rw [insertBytes, hfs']
    simp only [List.map_cons, List.map_nil, List.sum_cons, List.sum_nil, show (whole (streetFeature i)).feature = streetFeature i from rfl]
    generalize copies (whole (streetFeature i)) * _ = k at hm
    omega
  · rw [tileBytes, goesTo, hfs', List.filter_cons, List.filter_nil]
    split <;> simp [whole] <;> omega
  · rw [packBytes, hfs']
    simp only [List.map_cons, List.map_nil, List.sum_cons, List.sum_nil, show (whole (streetFeature i)).feature = streetFeature i from rfl]
    generalize copies (whole (streetFeature i)) * (indexedSize C52_mk [] (streetFeature i) + 182) = k at hm'
    omega

theorem street_kept (z : Nat) : keptPlaces (streetDemo.rd (streetDemo.mkMask (([some streetA, none, some streetB, some streetC].filterMap id).map streetDemo.prof.conv)) z)
    [some streetA, none, some streetB, some streetC] = [streetA, streetB, streetC] := by
  simp [keptPlaces, streetDemo, osmDemo, C52_rd, C52_mk]

/-- All conditions are met: a file with a street is imported with full.lua, on top of anything; then the server starts, and who asks for the tile 12/2560/2560
sees, with the name of the street, a line from about (1024, 1024) to about (1536, 1024), and from there on to the east border of the tile. -/
example (a : TileDb MetaTable) : ∃ (b : TileDb MetaTable) (ctx : GetCtx), Imports (importParts (streetDemo.env streetData)) [["features", "pack", "tiles"]] a b ∧
    makeRenderCtx streetDemo.base (preparedString b.maxPrepared) b.info = .ok ctx ∧
    ∀ features, EntriesOf b.features features → ∃ bytes layers, getTile b.tiles features b.pf.reopen ctx ⟨2560, 2560, 12⟩ = .ok (if bytes = [] then none else some (ctx.encode bytes)) ∧
      (bytes.length < 2 ^ 32 → clientTile bytes = some layers) ∧
      LineSeen layers b!"road" 9 [(b!"highway", .str b!"residential"), (b!"name", .str b!"Rheinstrasse")] (fun p p' =>
        CloseBy (1 / 2 ^ 8 + 1) (p.x, p.y) (1024, 1024) ∧ CloseBy (1 / 2 ^ 8 + 1) (p'.x, p'.y) (1536, 1024)) ∧
      LineSeen layers b!"road" 9 [(b!"highway", .str b!"residential"), (b!"name", .str b!"Rheinstrasse")] (fun p p' =>
        ∀ x : ℝ, 1536 ≤ x → x ≤ 4095 → ∃ v : ℝ, 0 ≤ v ∧ v ≤ 1 ∧ CloseBy (2 / 2 ^ 8 + 1) (onSeg p p' v) (x, 1024)) := by
  obtain ⟨b, h1, h2, h3, h4⟩ := C68_completes street_ok street_fits ["features", "pack", "tiles"] (.inr (by simp)) (.inr (by simp)) (.inr (by simp))
    (by simp [Asked]) (by decide) (by norm_num [streetDemo, osmDemo]) ⟨street, by simp [streetData], _, _, street_rule, street_read, by simp⟩
    (fun fs m h => street_room h) (fun m ctx h q _ _ => street_short ctx (ctx_clip h) (ctx_aggregate h) q) a
  have himp : Imports (importParts (streetDemo.env streetData)) [["features", "pack", "tiles"]] a b := ⟨b, h1, rfl⟩
  have hacts : changes [["features", "pack", "tiles"]] = [.load false true, .pack, .tiles] := by simp [changes, actsOf, Asked]
  obtain ⟨ctx, h5, _⟩ := C68_starts street_ok street_fits _ hacts a b himp h3
  refine ⟨b, ctx, himp, h5, fun features hdb => ?_⟩
  obtain ⟨bytes, layers, k1, k2, k3⟩ := C70_streets street_ok street_fits ⟨segInter, C62_clipper, id, seg_clip, seg_lines, rfl⟩ _ hacts a b himp h3 (by omega) features hdb ctx h5
    ⟨2560, 2560, 12⟩ (by decide) (by decide) (by decide) (street_short ctx (ctx_clip h5) (ctx_aggregate h5) _)
  refine ⟨bytes, layers, k1, fun h => (k2 h).1, ?_⟩
  have hseg := k3 street (by simp [streetData]) _ rfl _ street_rule 12 rfl (by decide) (by
    intro d' hd' _ _
    simpa [streetData] using hd')
  rw [street_kept] at hseg
  obtain ⟨a1, a2⟩ := C64_place_at (2684616704 / 2 ^ 32) (2684616704 / 2 ^ 32)
  obtain ⟨b1, b2⟩ := C64_place_at (2684747776 / 2 ^ 32) (2684616704 / 2 ^ 32)
  obtain ⟨c1, c2⟩ := C64_place_at (2686844928 / 2 ^ 32) (2684616704 / 2 ^ 32)
  have htags : (⟨b!"road", fromLevel 12, roadAttrs⟩ : RuleOut).shown streetDemo.numeral streetDemo.prof.toDouble (tagValue street.tags) =
      [(b!"highway", .str b!"residential"), (b!"name", .str b!"Rheinstrasse")] := by
    show RuleOut.shown fromCharsI64 streetDemo.prof.toDouble (tagValue streetTags) ⟨b!"road", fromLevel 12, roadAttrs⟩ = _
    rfl
  rw [htags] at hseg
  have hid : (street.id % 2 ^ 64 : Int) = 9 := by show (9 % 2 ^ 64 : Int) = 9; norm_num
  rw [hid] at hseg
  constructor
  · have := (hseg streetA streetB ⟨[], [streetC], rfl⟩).1
      (by rw [WellInside, streetA, a1, a2]; norm_num [side])
      (by rw [WellInside, streetB, b1, b2]; norm_num [side])
      (by rw [streetA, streetB, a1, a2, b1, b2]; norm_num [inTile, abs_lt])
    rw [streetA, streetB, a1, a2, b1, b2] at this
    norm_num [inTile] at this ⊢
    exact this
  · have := (hseg streetB streetC ⟨[streetA], [], rfl⟩).2 0 (1 / 4) (by norm_num) (by norm_num) (by norm_num) (by norm_num)
      (by rw [Deep, between, streetB, streetC, b1, b2, c1, c2]; norm_num [side])
      (by rw [Deep, between, streetB, streetC, b1, b2, c1, c2]; norm_num [side])
      (by rw [between, between, streetB, streetC, b1, b2, c1, c2]; norm_num [inTile, abs_lt])
    obtain ⟨L, m1, m2, c, m3, m4, m5, m6, part, m7, m8, p, p', m9, m10⟩ := this
    refine ⟨L, m1, m2, c, m3, m4, m5, m6, part, m7, m8, p, p', m9, fun x hx1 hx2 => ?_⟩
    have hu := m10 ((x - 1536) / 8192) (by linarith) (by linarith)
      (by
        rw [Deep, between, streetB, streetC, b1, b2, c1, c2]
        norm_num [side]
        constructor <;> linarith)
    have hp : inTile ⟨2560, 2560, 12⟩ (between streetB streetC ((x - 1536) / 8192)) = (x, 1024) := by
      rw [between, streetB, streetC, b1, b2, c1, c2, inTile]
      norm_num
      ring
    rw [hp] at hu
    norm_num at hu ⊢
    exact hu

end Tiles
