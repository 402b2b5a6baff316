import Verif.Props.C71b
import Verif.Props.C78
/-! C78: all conditions of `C78_streets` are met: a motorway, from the file to the client at level 10. -/
namespace Tiles
open Spec

/-- a simplification that drops points: what is within a unit of the first point becomes a straight line -/
def bigOnly (n : Nat) (l : Line) : Line := match l with
  | a :: b :: m => if (b :: m).all (fun p => |p.x - a.x| ≤ n && |p.y - a.y| ≤ n) then [a, (b :: m).getLast (by simp)] else l
  | _ => l

theorem bigOnly_covers : CoverLib 1 bigOnly := by
  intro n l c d hcd u u0 u1
  match l with
  | [] => have := (next_mem hcd).1; cases this
  | [x] => have := hcd.length_le; simp at this
  | a :: b :: m =>
    have hbig : bigOnly n (a :: b :: m) = if (b :: m).all (fun p => |p.x - a.x| ≤ n && |p.y - a.y| ≤ n) then [a, (b :: m).getLast (by simp)] else a :: b :: m := rfl
    rw [hbig]
    split
    · rename_i hall
      rw [List.all_eq_true] at hall
      have hnear : ∀ p ∈ a :: b :: m, CloseBy n ((p.x : ℝ), (p.y : ℝ)) ((a.x : ℝ), (a.y : ℝ)) := by
        intro p hp
        rcases List.mem_cons.1 hp with rfl | hp
        · simp [CloseBy]
        · have := hall p hp
          simp only [Bool.and_eq_true, decide_eq_true_eq] at this
          have t1 : |(p.x : ℝ) - (a.x : ℝ)| ≤ (n : ℝ) := by exact_mod_cast this.1
          have t2 : |(p.y : ℝ) - (a.y : ℝ)| ≤ (n : ℝ) := by exact_mod_cast this.2
          exact ⟨t1, t2⟩
      refine ⟨onSeg a ((b :: m).getLast (by simp)) 0, ⟨_, by simp, _, _, ⟨[], [], rfl⟩, 0, le_refl _, zero_le_one, rfl⟩, ?_⟩
      obtain ⟨c1, c2⟩ := hnear c (next_mem hcd).1
      obtain ⟨d1, d2⟩ := hnear d (next_mem hcd).2
      have r1 := mix_close u0 u1 c1 d1
      have r2 := mix_close u0 u1 c2 d2
      simp only [sub_self, mul_zero, add_zero] at r1 r2
      rw [onSeg_zero, one_mul]
      exact ⟨r1, r2⟩
    · exact ⟨_, ⟨_, by simp, c, d, hcd, u, u0, u1, rfl⟩, by simp [CloseBy]⟩

example : bigOnly 4 [⟨0, 0⟩, ⟨1, 3⟩, ⟨2, 0⟩] = [⟨0, 0⟩, ⟨2, 0⟩] := by decide +kernel

def mwayTags : List (Bytes × Bytes) := [(b!"name", b!"Rheinstrasse"), (b!"highway", b!"motorway"), (b!"surface", b!"asphalt")]
/-- the motorway; the place of one of its nodes is not known -/
noncomputable def mway : Datum := ⟨9, mwayTags, .way [some streetA, none, some streetB, some streetC]⟩
noncomputable def mwayData : List Datum := [mway]

def mwayMetas : List Meta := [⟨b!"highway", encodeString b!"motorway"⟩, ⟨b!"name", encodeString b!"Rheinstrasse"⟩]
def mwayLine : Line := [⟨2684616704, 2684616704⟩, ⟨2684747776, 2684616704⟩, ⟨2686844928, 2684616704⟩]
def mwayFeature (i : Nat) : Feature := ⟨9, i, 5, 21, mwayMetas, .polyline [mwayLine]⟩

theorem mway_good : GoodData streetDemo.prof streetDemo.profile streetDemo.numeral mwayData := by
  have hd' : ∀ d ∈ mwayData, d = mway := by intro d hd; simpa [mwayData] using hd
  have hfine := C66_fine streetDemo.prof streetDemo.numeral .full mway.id mway.tags mway.shape (by simp [mway])
  refine ⟨fun d hd => ?_, fun d hd => ?_, fun d hd l hl => ?_, fun d hd ps h => ?_, fun d hd => ?_, fun d hd => ?_, by simp [mwayData]⟩
  · rw [hd' d hd]; exact hfine.1
  · rw [hd' d hd]; exact hfine.2
  · rw [hd' d hd] at hl
    refine street_on ?_
    simpa [mway, shapeNodes] using hl
  · rw [hd' d hd] at h
    have : Res.ok (readOsmWay streetDemo.prof.conv [some streetA, none, some streetB, some streetC]) = .ok (.polygon ps) := h
    simp [readOsmWay, nodesToFixed] at this
  · rw [hd' d hd]
    show ∀ kv ∈ mwayTags, kv.2.length < 2 ^ 32 - 1
    decide +kernel
  · rw [hd' d hd]; simp [shapeSize, shapeNodes, mway]

theorem mway_rule : mway.rule fullTables = some ⟨b!"road", fromLevel 5, roadAttrs ++ [.copy b!"ref"]⟩ := by
  show decideBy fullTables.ways (tagValue mwayTags) = _
  rfl

theorem mway_read : readOsm streetDemo.prof.conv mway.shape = .ok (.polyline [mwayLine]) := by
  obtain ⟨h1, h2, h3⟩ := street_places
  show Res.ok (readOsmWay streetDemo.prof.conv [some streetA, none, some streetB, some streetC]) = _
  simp [readOsmWay, nodesToFixed, h1, h2, h3, mwayLine]

theorem mway_loaded {fs : List (List Feature)} {m : MetaTable} {names : List Bytes} {tbl : List Meta}
    (h : OsmLoaded streetDemo.prof streetDemo.profile fullTables streetDemo.numeral mwayData fs m names tbl) : ∃ i < 13, fs.flatten = [mwayFeature i] := by
  have hall : ∀ f ∈ fs.flatten, ∃ i < 13, f = mwayFeature i := by
    intro f hf
    obtain ⟨d, hd, r, hr, hst, hne, hde⟩ := h.from_data f hf
    simp only [mwayData, List.mem_cons, List.not_mem_nil, or_false] at hd
    subst hd
    rw [mway_rule] at hr
    injection hr with hr
    subst hr
    have h1 : f.metas = mwayMetas := by
      have hp := metas_perm Shipped.full mway_rule hst
      have hq : (⟨b!"road", fromLevel 5, roadAttrs ++ [.copy b!"ref"]⟩ : RuleOut).attributes streetDemo.numeral (tagValue mway.tags) =
          [(b!"highway", .text b!"motorway"), (b!"name", .text b!"Rheinstrasse")] := by
        show RuleOut.attributes fromCharsI64 (tagValue mwayTags) ⟨b!"road", fromLevel 5, roadAttrs ++ [.copy b!"ref"]⟩ = _
        rfl
      rw [hq] at hp
      have hp2 : f.metas.Perm mwayMetas := hp
      have hs1 : f.metas.Pairwise (fun x y => bytesLe x.key y.key = true ∧ x.key ≠ y.key) := List.pairwise_map.1 hde.metas.sorted
      have hs2 : mwayMetas.Pairwise (fun x y => bytesLe x.key y.key = true ∧ x.key ≠ y.key) := by decide +kernel
      exact List.Perm.eq_of_pairwise (fun a b _ _ h h' => absurd (bytesLe_antisymm h.1 h'.1) h.2) hs1 hs2 hp2
    have h2 : f.geometry = .polyline [mwayLine] := by
      have := hst.geometry
      rw [show (mway.obj streetDemo.profile streetDemo.numeral).shape = mway.shape from rfl, mway_read] at this
      injection this with this
      exact this.symm
    have h3 : f.id = 9 := by
      have : (f.id : Int) = 9 % 2 ^ 64 := hst.id
      omega
    have h4 : f.zmin = 5 := by
      have := hst.first
      injection this with this
      exact this.symm
    have h5 : f.layer < names.length := (List.getElem?_eq_some_iff.1 hst.layer).1
    refine ⟨f.layer, by have := h.few.2; omega, ?_⟩
    have h6 := hst.last
    cases f
    simp only at h1 h2 h3 h4 h6
    rw [h1, h2, h3, h4, h6]
    rfl
  obtain ⟨f, hf, _, hde⟩ := h.all_data mway (by simp [mwayData]) _ _ mway_rule mway_read (by simp)
  obtain ⟨i, hi, hfi⟩ := hall f hf
  refine ⟨i, hi, ?_⟩
  have hone : fs.flatten.length ≤ 1 := h.count
  match hfs : fs.flatten, hone, hf with
  | [x], _, hf =>
    rw [List.mem_singleton] at hf
    rw [← hf, hfi]

theorem mway_sizes : ∀ i < 13, (match serializeFeature (fun _ => []) [] true (mwayFeature i), serializeFeature C52_mk [] false (mwayFeature i) with
    | .ok a, .ok b => decide (32 ≤ a.length ∧ a.length < 200 ∧ 32 ≤ b.length ∧ b.length < 200)
    | _, _ => false) = true := by decide +kernel

theorem mway_result {fs : List (List Feature)} {m : MetaTable} (h : OsmLoads streetDemo.prof streetDemo.profile streetDemo.numeral mwayData fs m) :
    (streetDemo.env mwayData).decOf m = [] ∧ ∃ i < 13, fs.flatten = [mwayFeature i] := by
  obtain ⟨names, tbl, hl⟩ := osm_loaded Shipped.full (fun s n h => fromChars_range h) mway_good h
  obtain ⟨i, hi, hfs⟩ := mway_loaded hl
  refine ⟨?_, i, hi, hfs⟩
  have ht : tbl = [] := by
    rw [List.eq_nil_iff_forall_not_mem]
    intro x hx
    have h1 := (hl.several x).1 hx
    rw [hfs] at h1
    have h2 : mwayMetas.Nodup := by decide +kernel
    have h3 := List.nodup_iff_count_le_one.1 h2 x
    have h4 : [mwayFeature i].flatMap (·.metas) = mwayMetas := by simp [mwayFeature]
    rw [h4] at h1
    omega
  obtain ⟨b1, b2, h3, h4, h5⟩ := hl.table
  show (match loadSharedMetadata m.coding with | .ok tbl => tbl | _ => []) = []
  rw [h3]
  dsimp only
  rw [h5, ht]

theorem mway_size {i : Nat} (hi : i < 13) : (∃ a, serializeFeature (fun _ => []) [] true (mwayFeature i) = .ok a ∧ 32 ≤ a.length ∧ a.length < 200) ∧
    ∃ b, serializeFeature C52_mk [] false (mwayFeature i) = .ok b ∧ 32 ≤ b.length ∧ b.length < 200 := by
  have := mway_sizes i hi
  split at this
  · rename_i a b ha hb
    have := of_decide_eq_true this
    exact ⟨⟨a, ha, this.1, this.2.1⟩, b, hb, this.2.2⟩
  · cases this

theorem mway_fits : streetDemo.Fits mwayData := by
  refine ⟨mway_good, fun fs m h f hf b hb => ?_, fun d hd ps h => ?_⟩
  · obtain ⟨hd, i, hi, hfs⟩ := mway_result h
    rw [hfs, List.mem_singleton] at hf
    subst hf
    rw [hd] at hb
    obtain ⟨⟨a, h1, h2, h3⟩, a', h4, h5, h6⟩ := mway_size hi
    rcases hb with hb | hb
    · rw [h1] at hb; injection hb with hb; subst hb; omega
    · rw [show streetDemo.mkMask = C52_mk from rfl, h4] at hb; injection hb with hb; subst hb; omega
  · exfalso
    simp only [mwayData, List.mem_cons, List.not_mem_nil, or_false] at hd
    rw [hd, mway_read] at h
    cases h

/-- however the tile is drawn, no long line is drawn -/
theorem mway_rc (rc : RenderCtx) (hclip : rc.clip = clipGeometry segInter C62_clipper id) (hagg' : rc.aggregate = C62_agg) (q : Tile) (fs : List (List Feature)) (m : MetaTable)
    (h : OsmLoads streetDemo.prof streetDemo.profile streetDemo.numeral mwayData fs m) (gs : List Feature) (i : Nat)
    (hgs : ∀ x ∈ gs, (∃ t, x = seaSquare t) ∨ ∃ f ∈ fs.flatten, StoredAs (fun l => streetDemo.rd (streetDemo.mkMask l) q.z) f x) (f : Feature)
    (hf : f ∈ candidates rc (specOf q) (ofLayer gs i)) : NoLongLine rc q f := by
  obtain ⟨_, j, _, hfs⟩ := mway_result h
  have hfrom : ∀ g ∈ gs, (∃ t, g = seaSquare t) ∨ (g.geometry = .polyline [mwayLine] ∧ LineFeature g) := by
    intro g hg
    rcases hgs g hg with ⟨t, rfl⟩ | ⟨f, h1, ms, _, rfl⟩
    · exact .inl ⟨t, rfl⟩
    · rw [hfs, List.mem_singleton] at h1
      subst h1
      have hk : keep (C52_rd (C52_mk mwayLine) 0) mwayLine = mwayLine := keep_all _
      have : withoutSmallRings (simplified (fun l => streetDemo.rd (streetDemo.mkMask l) q.z) (mwayFeature j).geometry) = .polyline [mwayLine] := by
        simp only [mwayFeature, simplified, withoutSmallRings, List.map_cons, List.map_nil]
        exact congrArg (fun l => Geometry.polyline [l]) hk
      refine .inr ⟨this, ?_⟩
      rw [this]
      exact ⟨rfl, by simp [featureLines, mwayLine], by simp [featureLines]⟩
  have hgeo : (∃ t, f = seaSquare t) ∨ ∃ ls, f.geometry = .polyline ls := by
    rcases candidates_from hf with h | h
    · rcases hfrom f (List.mem_filter.1 h).1 with h | h
      · exact .inl h
      · exact .inr ⟨_, h.1⟩
    · refine .inr (joined_from (simplify := fun _ l => l) (z := q.z) (fun fs out ho => ?_) (fun g hg hl => ?_) h).1
      · show rc.aggregate q.z fs = out
        rw [hagg', C62_agg, ho]
      · rcases hfrom g (List.mem_filter.1 hg).1 with ⟨t, rfl⟩ | h
        · cases hl
        · exact h.2
  rcases hgeo with ⟨t, rfl⟩ | ⟨ls, hls⟩
  · -- squares are clipped as in C62
    intro c hc
    have hctx' : ({ rc with clip := clipGeometry C62_inter C62_clipper id, aggLines := false, aggPolygons := false } : RenderCtx).clip = clipGeometry C62_inter C62_clipper id := rfl
    refine short_points [] (by simp) { rc with clip := clipGeometry C62_inter C62_clipper id, aggLines := false, aggPolygons := false } hctx' q [seaSquare t] 0 (simp := fun _ => [])
      (by intro g hg; exact .inl ⟨t, by simpa using hg⟩) (seaSquare t) ?_ c ?_
    · have h0 : ∀ ctx : RenderCtx, ctx.aggLines = false → ctx.aggPolygons = false → seaSquare t ∈ candidates ctx (specOf q) (ofLayer [seaSquare t] 0) := by
        intro ctx h1 h2
        have h3 : ofLayer [seaSquare t] 0 = [seaSquare t] := rfl
        rw [candidates, h3, List.mem_append, List.mem_append]
        refine .inl (.inl ?_)
        rw [direct, h1, h2, List.mem_filter]
        exact ⟨by rw [show unique [seaSquare t] = [seaSquare t] from rfl]; simp, rfl⟩
      exact h0 _ rfl rfl
    · rw [show rc.clip = clipGeometry segInter C62_clipper id from hclip] at hc
      exact hc
  · intro c hc l hl
    rw [show rc.clip = clipGeometry segInter C62_clipper id from hclip, hls] at hc
    injection hc with hc
    rw [clipPolyline] at hc
    subst hc
    split at hl
    · cases hl
    · exact segInter_short _ _ l (List.mem_filter.1 hl).1

theorem mway_short (ctx : GetCtx) (hctx : ctx.clip = streetDemo.base.clip) (hagg : ctx.aggregate = C62_agg) (q : Tile) : streetDemo.ShortLines mwayData ctx q :=
  fun fs m h gs i hgs f hf => mway_rc (drawing ctx 10 q).toRenderCtx (by rw [drawing]; split <;> exact hctx) (by rw [drawing]; split <;> exact hagg) q fs m h gs i hgs f hf

theorem mway_room {fs : List (List Feature)} {m : MetaTable} (h : OsmLoads streetDemo.prof streetDemo.profile streetDemo.numeral mwayData fs m) : insertBytes (fs.map (List.map whole)) ≤ streetDemo.mem ∧
      (∀ u : Tile, u.Valid → u.z = 10 → tileBytes streetDemo.mkMask ((streetDemo.env mwayData).decOf m) (fs.map (List.map whole)) u ≤ 2 ^ 30) ∧
      packBytes streetDemo.mkMask ((streetDemo.env mwayData).decOf m) (fs.map (List.map whole)) < 2 ^ 62 := by
  classical
  obtain ⟨hd, i, hi, hfs⟩ := mway_result h
  obtain ⟨⟨a, h1, h2, h3⟩, b, h4, h5, h6⟩ := mway_size hi
  have hc : copies (whole (mwayFeature i)) ≤ 2 ^ 20 := by
    unfold copies
    exact (List.length_filter_le _ _).trans (le_of_eq cacheTiles_length)
  have hfs' : (fs.map (List.map whole)).flatten = [whole (mwayFeature i)] := by rw [← List.map_flatten, hfs]; rfl
  have hs : insertedSize (mwayFeature i) ≤ 200 := by unfold insertedSize; rw [h1]; dsimp only; omega
  have hx : indexedSize C52_mk [] (mwayFeature i) ≤ 200 := by unfold indexedSize; rw [h4]; dsimp only; omega
  have hm := Nat.mul_le_mul hc (Nat.add_le_add_right hs 15)
  have hm' := Nat.mul_le_mul hc (Nat.add_le_add_right hx 182)
  rw [hd, show streetDemo.mkMask = C52_mk from rfl, show streetDemo.mem = 2 ^ 50 from rfl]
  refine ⟨?_, fun u _ _ => ?_, ?_⟩
  · rw [insertBytes, hfs']
    simp only [List.map_cons, List.map_nil, List.sum_cons, List.sum_nil, show (whole (mwayFeature i)).feature = mwayFeature i from rfl]
    generalize copies (whole (mwayFeature i)) * _ = k at hm
    omega
  · rw [tileBytes, goesTo, hfs', List.filter_cons, List.filter_nil]
    split <;> simp [whole] <;> omega
  · rw [packBytes, hfs']
    simp only [List.map_cons, List.map_nil, List.sum_cons, List.sum_nil, show (whole (mwayFeature i)).feature = mwayFeature i from rfl]
    generalize copies (whole (mwayFeature i)) * (indexedSize C52_mk [] (mwayFeature i) + 182) = k at hm'
    omega

theorem mway_kept (z : Nat) : keptPlaces (streetDemo.rd (streetDemo.mkMask (([some streetA, none, some streetB, some streetC].filterMap id).map streetDemo.prof.conv)) z)
    [some streetA, none, some streetB, some streetC] = [streetA, streetB, streetC] := by
  simp [keptPlaces, streetDemo, osmDemo, C52_rd, C52_mk]

/-- All conditions are met: a file with a motorway is imported with full.lua, on top of anything; then the server starts, and who asks for the tile 10/640/640 (which was prepared) sees,
with the name of the motorway, a line at about (x, 256) for every x from 384 to 2432. -/
example (a : TileDb MetaTable) : ∃ (b : TileDb MetaTable) (ctx : GetCtx), Imports (importParts (streetDemo.env mwayData)) [["features", "pack", "tiles"]] a b ∧
    makeRenderCtx streetDemo.base (preparedString b.maxPrepared) b.info = .ok ctx ∧
    ∀ features, EntriesOf b.features features → ∃ bytes layers, getTile b.tiles features b.pf.reopen ctx ⟨640, 640, 10⟩ = .ok (if bytes = [] then none else some (ctx.encode bytes)) ∧
      (bytes.length < 2 ^ 32 → clientTile bytes = some layers) ∧
      ∀ x : ℝ, 384 ≤ x → x ≤ 2432 → LineSeen layers b!"road" 9 [(b!"highway", .str b!"motorway"), (b!"name", .str b!"Rheinstrasse")] (fun p p' =>
        ∃ v : ℝ, 0 ≤ v ∧ v ≤ 1 ∧ CloseBy (2 / 2 ^ 10 + 2) (onSeg p p' v) (x, 256)) := by
  obtain ⟨b, h1, h2, h3, h4⟩ := C68_completes street_ok mway_fits ["features", "pack", "tiles"] (.inr (by simp)) (.inr (by simp)) (.inr (by simp))
    (by simp [Asked]) (by decide) (by norm_num [streetDemo, osmDemo]) ⟨mway, by simp [mwayData], _, _, mway_rule, mway_read, by simp⟩
    (fun fs m h => mway_room h) (fun m ctx h q _ _ => mway_short ctx (ctx_clip h) (ctx_aggregate h) q) a
  have himp : Imports (importParts (streetDemo.env mwayData)) [["features", "pack", "tiles"]] a b := ⟨b, h1, rfl⟩
  have hacts : changes [["features", "pack", "tiles"]] = [.load false true, .pack, .tiles] := by simp [changes, actsOf, Asked]
  obtain ⟨ctx, h5, _⟩ := C68_starts street_ok mway_fits _ hacts a b himp h3
  refine ⟨b, ctx, himp, h5, fun features hdb => ?_⟩
  obtain ⟨bytes, layers, k1, k2, k3⟩ := C78_streets (τ := 0) street_ok mway_fits le_rfl ⟨segInter, C62_clipper, id, fun _ l => l, seg_clip, seg_lines,
      fun n l a b hab u u0 u1 => ⟨_, ⟨l, by simp, a, b, hab, u, u0, u1, rfl⟩, by simp [CloseBy]⟩, rfl, fun z fs out h => by
      show C62_agg z fs = out
      rw [C62_agg, h]⟩ _ hacts a b himp h3 (by omega) features hdb ctx h5
    ⟨640, 640, 10⟩ (by decide) (by decide) (mway_short ctx (ctx_clip h5) (ctx_aggregate h5) _)
  refine ⟨bytes, layers, k1, fun h => (k2 h).1, fun x hx1 hx2 => ?_⟩
  have hseg := k3 mway (by simp [mwayData]) _ rfl _ mway_rule 5 rfl (by decide) (by
    intro d' hd' _ _
    simpa [mwayData] using hd')
  rw [mway_kept] at hseg
  obtain ⟨a1, a2⟩ := C64_place_at (2684616704 / 2 ^ 32) (2684616704 / 2 ^ 32)
  obtain ⟨b1, b2⟩ := C64_place_at (2684747776 / 2 ^ 32) (2684616704 / 2 ^ 32)
  obtain ⟨c1, c2⟩ := C64_place_at (2686844928 / 2 ^ 32) (2684616704 / 2 ^ 32)
  have htags : (⟨b!"road", fromLevel 5, roadAttrs ++ [.copy b!"ref"]⟩ : RuleOut).shown streetDemo.numeral streetDemo.prof.toDouble (tagValue mway.tags) =
      [(b!"highway", .str b!"motorway"), (b!"name", .str b!"Rheinstrasse")] := by
    show RuleOut.shown fromCharsI64 streetDemo.prof.toDouble (tagValue mwayTags) ⟨b!"road", fromLevel 5, roadAttrs ++ [.copy b!"ref"]⟩ = _
    rfl
  rw [htags] at hseg
  have hp : inTile ⟨640, 640, 10⟩ (between streetB streetC ((x - 384) / 2048)) = (x, 256) := by
    rw [between, streetB, streetC, b1, b2, c1, c2, inTile]
    norm_num
    ring
  have hp' : inTile ⟨640, 640, 10⟩ (between streetA streetB 0) = (256, 256) := by
    rw [between, streetA, streetB, a1, a2, b1, b2, inTile]
    norm_num
  obtain ⟨d', hd', _, _, hseen⟩ := hseg streetB streetC ⟨[streetA], [], rfl⟩ ((x - 384) / 2048) (by linarith) (by linarith)
    (by
      rw [Deep, between, streetB, streetC, b1, b2, c1, c2]
      norm_num [side]
      constructor <;> linarith) streetA streetB ⟨[], [streetC], rfl⟩ 0 le_rfl zero_le_one (by
      rw [hp, hp']
      rintro ⟨h, _⟩
      norm_num [abs_lt] at h
      linarith)
  have hd' : d' = mway := by simpa [mwayData] using hd'
  subst hd'
  have hid : (mway.id % 2 ^ 64 : Int) = 9 := by show (9 % 2 ^ 64 : Int) = 9; norm_num
  rw [hid, hp] at hseen
  refine seen_tags (.refl _) ?_ hseen
  rintro p p' ⟨v, v0, v1, hv⟩
  refine ⟨v, v0, v1, ?_⟩
  norm_num at hv ⊢
  exact hv

end Tiles
