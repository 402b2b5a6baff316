import Verif.Proof.GetTile
/-! C29 — requests are answered from the right source. -/
namespace Tiles
open Spec

/-- the compressed or plain form -/
def GetCtx.encode (ctx : GetCtx) (b : Bytes) : Bytes := match ctx.deflate with | some z => z b | none => b

/-- the tile with its bounds -/
def specOf (q : Tile) : TileSpec := ⟨q, pxBounds q, insertBounds q, drawBounds q⟩

/-! ### the decision -/

/-- Requests above zoom level 20 are refused. -/
theorem C29_too_deep (tiles : UInt64 → Option Bytes) (features : List (UInt64 × Bytes)) (pf : PackFile) (ctx : GetCtx) (q : Tile) (h : 20 < q.z) :
    getTile tiles features pf ctx q = .throw_ := by
  rw [getTile, decide_eq_false (show ¬ q.z ≤ kMaxZoomLevel by show ¬ q.z ≤ 20; omega)]
  rfl

/-- Up to the highest prepared zoom level a stored tile is returned as it is. -/
theorem C29_stored (tiles : UInt64 → Option Bytes) (features : List (UInt64 × Bytes)) (pf : PackFile) (ctx : GetCtx) (q : Tile) (hv : q.Valid)
    (hz : q.z ≤ 20) (hi : ctx.ignorePrepared = false) (hp : (q.z : Int) ≤ ctx.maxPrepared) (k : UInt64) (hk : keyOfTile q = .ok k) (v : Bytes)
    (ht : tiles k = some v) : getTile tiles features pf ctx q = .ok (some v) := by
  rw [getTile, decide_eq_true (show q.z ≤ kMaxZoomLevel from hz), verify_true, Res.ok_bind, if_pos ⟨hi, hp⟩, hk, Res.ok_bind, ht]
  rfl

/-- Without a stored tile, there: nothing, unless the tile lies in a seaside tile. -/
theorem C29_nothing (tiles : UInt64 → Option Bytes) (features : List (UInt64 × Bytes)) (pf : PackFile) (ctx : GetCtx) (q : Tile) (hv : q.Valid)
    (hz : q.z ≤ 20) (hi : ctx.ignorePrepared = false) (hp : (q.z : Int) ≤ ctx.maxPrepared) (k : UInt64) (hk : keyOfTile q = .ok k)
    (ht : tiles k = none) (sea : List Tile) (hs : SeaTree sea ctx.seaside) (hc : ¬ ∃ t ∈ sea, AncOrSelf t q) :
    getTile tiles features pf ctx q = .ok none := by
  rw [getTile, decide_eq_true (show q.z ≤ kMaxZoomLevel from hz), verify_true, Res.ok_bind, if_pos ⟨hi, hp⟩, hk, Res.ok_bind, ht]
  dsimp only
  rw [hs.contains hv hz, Res.ok_bind, decide_eq_false hc]
  rfl

/-- In a seaside tile: a tile without any stored feature. -/
theorem C29_seaside (tiles : UInt64 → Option Bytes) (features : List (UInt64 × Bytes)) (pf : PackFile) (ctx : GetCtx) (q : Tile) (hv : q.Valid)
    (hz : q.z ≤ 20) (hi : ctx.ignorePrepared = false) (hp : (q.z : Int) ≤ ctx.maxPrepared) (k : UInt64) (hk : keyOfTile q = .ok k)
    (ht : tiles k = none) (sea : List Tile) (hs : SeaTree sea ctx.seaside) (hc : ∃ t ∈ sea, AncOrSelf t q) :
    getTile tiles features pf ctx q = renderTile ctx q [] := by
  rw [getTile, decide_eq_true (show q.z ≤ kMaxZoomLevel from hz), verify_true, Res.ok_bind, if_pos ⟨hi, hp⟩, hk, Res.ok_bind, ht]
  dsimp only
  rw [hs.contains hv hz, Res.ok_bind, decide_eq_true hc]
  rfl

/-- Above the highest prepared zoom level, or if prepared tiles are to be ignored, the tile is rendered from the packs, and the table of
prepared tiles plays no role. -/
theorem C29_live (tiles : UInt64 → Option Bytes) (features : List (UInt64 × Bytes)) (pf : PackFile) (ctx : GetCtx) (q : Tile)
    (hz : q.z ≤ 20) (hi : ctx.ignorePrepared = true ∨ ctx.maxPrepared < q.z) :
    getTile tiles features pf ctx q = (packsOf features pf q >>= fun ps => renderTile ctx q ps) := by
  rw [getTile, decide_eq_true (show q.z ≤ kMaxZoomLevel from hz), verify_true, Res.ok_bind, if_neg]
  rintro ⟨h1, h2⟩
  rcases hi with hi | hi
  · rw [hi] at h1; cases h1
  · omega

/-- Which packs: those of the records, in their order, of all index tiles (zoom level 10) that share area with the requested tile, in key
order. -/
theorem C29_packs (features : List (UInt64 × Bytes)) (hs : DbSorted features) (pf : PackFile) (q : Tile) (hv : q.Valid) (hz : q.z ≤ 20)
    (recs : UInt64 × Bytes → List PackRecord) (data : PackRecord → Bytes)
    (hrecs : ∀ e ∈ features, (keyToTile e.1).z = 10 → Meet (keyToTile e.1) q → packRecordsDeserialize e.2 = .ok (recs e) ∧ ∀ r ∈ recs e, pf.get r = .ok (data r)) :
    packsOf features pf q = .ok ((features.filter (fun e => decide ((keyToTile e.1).z = 10 ∧ Meet (keyToTile e.1) q))).flatMap
      (fun e => (recs e).map (fun r => (keyToTile e.1, data r)))) := by
  rw [packsOf, C02_scan_exact features hs q hv hz, Res.ok_bind]
  have hr : ∀ (t : Tile) (rs : List PackRecord), (∀ r ∈ rs, pf.get r = .ok (data r)) → fetchRecords pf t rs = .ok (rs.map (fun r => (t, data r))) := by
    intro t rs h
    induction rs with
    | nil => rfl
    | cons r rs ih =>
      rw [fetchRecords, h r (by simp), Res.ok_bind, ih (fun r' hr' => h r' (by simp [hr'])), Res.ok_bind]
      rfl
  have hgen : ∀ l : List (UInt64 × Bytes), (∀ e ∈ l, packRecordsDeserialize e.2 = .ok (recs e) ∧ ∀ r ∈ recs e, pf.get r = .ok (data r)) →
      fetchValues pf (l.map (fun e => (keyToTile e.1, e.2))) = .ok (l.flatMap (fun e => (recs e).map (fun r => (keyToTile e.1, data r)))) := by
    intro l h
    induction l with
    | nil => rfl
    | cons e l ih =>
      obtain ⟨h1, h2⟩ := h e (by simp)
      rw [List.map_cons, fetchValues, h1, Res.ok_bind, hr _ _ h2, Res.ok_bind, ih (fun e' he' => h e' (by simp [he'])), Res.ok_bind]
      rfl
  apply hgen
  intro e he
  rw [List.mem_filter, decide_eq_true_eq] at he
  exact hrecs e he.1 he.2.1 he.2.2

/-! ### what a rendered tile shows -/

/-- A rendered tile shows the sea squares (see `C29_sea_squares`) and the features read from the packs, as `tileContent` (C28) says; the
answer is "nothing" exactly when a client would see nothing, or, if so configured, when the tile is all sea and has no feature. -/
theorem C29_render (ctx : GetCtx) (hlab : ctx.label = none) (q : Tile) (hv : q.Valid) (hz : q.z ≤ 20) (sea : List Tile) (hs : SeaTree sea ctx.seaside)
    (packs : List (Tile × Bytes)) (fs : List Feature) (hr : readPacked ctx (specOf q) packs = .ok fs)
    (leafs : List Tile) (hleafs : bqAllLeafs ctx.seaside q = .ok leafs) (hlayers : ∀ f ∈ leafs.map seaSquare ++ fs, f.layer < ctx.layerNames.length)
    (hok : ∀ i, LayerOk ctx.toRenderCtx (specOf q) (ofLayer (leafs.map seaSquare ++ fs) i)) :
    (ctx.ignoreSeaside = true → (∃ t ∈ sea, AncOrSelf t q) → fs = [] → renderTile ctx q packs = .ok none) ∧
    (¬ (ctx.ignoreSeaside = true ∧ (∃ t ∈ sea, AncOrSelf t q) ∧ fs = []) → ∃ bytes,
      renderTile ctx q packs = .ok (if bytes = [] then none else some (ctx.encode bytes)) ∧
      (bytes.length < 2 ^ 32 → clientTile bytes = some (tileContent ctx.toRenderCtx (specOf q) (leafs.map seaSquare ++ fs)) ∧
        (bytes = [] ↔ tileContent ctx.toRenderCtx (specOf q) (leafs.map seaSquare ++ fs) = []))) := by
  obtain ⟨bs, bytes, h1, h2, h3⟩ := C28_tile_content ctx.toRenderCtx (specOf q) _ hz hlayers hok
  obtain ⟨leafs', h4, h5⟩ := renderSeaside_ok hs hv hz
  rw [hleafs] at h4; cases h4
  rw [tileAddAll_append, Res.bind_eq_ok] at h1
  obtain ⟨bs0, h0, h1⟩ := h1
  have hfull : ∀ k : Bool → Res (Option Bytes), (if ctx.ignoreSeaside then bqContains ctx.seaside q >>= k else Res.ok false >>= k) =
      k (ctx.ignoreSeaside && decide (∃ t ∈ sea, AncOrSelf t q)) := by
    intro k
    cases ctx.ignoreSeaside
    · rfl
    · simp only [if_true, Bool.true_and]; rw [hs.contains hv hz, Res.ok_bind]
  have hrt : renderTile ctx q packs = if ctx.ignoreSeaside = true ∧ (∃ t ∈ sea, AncOrSelf t q) ∧ fs = [] then .ok none
      else if bytes = [] then .ok none else .ok (some (ctx.encode bytes)) := by
    rw [renderTile, tileSpec_ok hv hz, Res.ok_bind]
    rw [show (⟨q, pxBounds q, insertBounds q, drawBounds q⟩ : TileSpec) = specOf q from rfl] at h5 ⊢
    rw [h5, h0, Res.ok_bind, renderFeatures, hr, Res.ok_bind, h1, Res.ok_bind]
    dsimp only
    rw [Res.pure_eq, Res.ok_bind]
    dsimp only
    have hcond : (((ctx.ignoreSeaside && decide (∃ t ∈ sea, AncOrSelf t q)) = true) ∧ fs.length = 0) ↔
        (ctx.ignoreSeaside = true ∧ (∃ t ∈ sea, AncOrSelf t q) ∧ fs = []) := by
      rw [Bool.and_eq_true, decide_eq_true_eq, List.length_eq_zero_iff, and_assoc]
    refine (hfull _).trans ?_
    by_cases hc : ctx.ignoreSeaside = true ∧ (∃ t ∈ sea, AncOrSelf t q) ∧ fs = []
    · rw [if_pos (hcond.2 hc), if_pos hc]; rfl
    · rw [if_neg (fun h => hc (hcond.1 h)), if_neg hc, hlab, Option.map_none, h2, Res.ok_bind]
      by_cases hb : bytes = []
      · rw [if_pos hb, if_pos hb]; rfl
      · rw [if_neg hb, if_neg hb, GetCtx.encode]
        cases ctx.deflate <;> rfl
  refine ⟨fun a b c => ?_, fun hn => ⟨bytes, ?_, fun hlen => ⟨h3 hlen, finish_nil h2 hlen (h3 hlen)⟩⟩⟩
  · rw [hrt, if_pos ⟨a, b, c⟩]
  · rw [hrt, if_neg hn]
    split <;> rfl

/-- Painted as sea are: the whole tile when it lies in a seaside tile, otherwise the maximal seaside tiles in it, each once. -/
theorem C29_sea_squares (ctx : GetCtx) (q : Tile) (hv : q.Valid) (hz : q.z ≤ 20) (sea : List Tile) (hs : SeaTree sea ctx.seaside) :
    ∃ leafs, bqAllLeafs ctx.seaside q = .ok leafs ∧ leafs.Nodup ∧ ((∃ t ∈ sea, AncOrSelf t q) → leafs = [q]) ∧
      ((¬ ∃ t ∈ sea, AncOrSelf t q) → ∀ t, t ∈ leafs ↔ MaximalIn sea t ∧ AncOrSelf q t ∧ t ≠ q) := by
  obtain ⟨leafs, h1, h2, _, h4, h5⟩ := hs.leafs hv hz
  exact ⟨leafs, h1, h2, h4, h5⟩

/-! ### prepared tiles -/

/-- the context of a server -/
structure Spec.Serving (ctx : GetCtx) (maxZ : Nat) : Prop where
  max : ctx.maxPrepared = maxZ
  use : ctx.ignorePrepared = false
  sea : ctx.ignoreSeaside = false
  label : ctx.label = none

/-- the settings with which a tile was drawn: those of the preparation (prepare_tiles.cc:138-141: lines and polygons are collected, lines are joined) up to the
prepared level, those of the server (get_tile.h:34-38: not) above -/
def Spec.drawing (ctx : GetCtx) (maxZ : Nat) (q : Tile) : GetCtx := if q.z ≤ maxZ then { ctx with aggLines := true, aggPolygons := true } else ctx

/-- After a preparation: a tile that was rendered then is answered with exactly that rendering. -/
theorem C29_prepared (features : List (UInt64 × Bytes)) (pf : PackFile) (pctx ctx : GetCtx) (hk : ∀ e ∈ features, (keyToTile e.1).Valid ∧ (keyToTile e.1).z = 10)
    (maxZ workers : Nat) (hmz : maxZ ≤ 20) (hw : 0 < workers) (old : UInt64 → Option Bytes) (oldMax : Option Nat) (s : PrepShared × List PrepPc)
    (h : PrepRun (prepRender features pf pctx) (features.map (·.1)) maxZ workers old oldMax s) (hfin : PrepPc.finished ∈ s.2)
    (hmax : ctx.maxPrepared = maxZ) (huse : ctx.ignorePrepared = false) (q : Tile) (hv : q.Valid) (hq : q.z ≤ maxZ)
    (ha : InArea (dbBounds (features.map (·.1))) q) (v : Bytes) (hr : prepRender features pf pctx q = .ok (some v)) :
    getTile s.1.tiles features pf ctx q = .ok (some v) := by
  obtain ⟨_, _, _, h4, _⟩ := C30_complete _ _ (by simpa using hk) maxZ workers hmz hw old oldMax s h hfin
  obtain ⟨k, hkq, _⟩ := keyOfTile_ok (keyFits_of_valid hv (by omega))
  exact C29_stored _ _ _ _ q hv (by omega) huse (by rw [hmax]; omega) k hkq v (h4 q v k hq ha hr hkq)

/-- A tile that an earlier preparation stored stays, even if the new preparation found nothing to draw there. -/
theorem C29_stale (features : List (UInt64 × Bytes)) (pf : PackFile) (pctx ctx : GetCtx) (hk : ∀ e ∈ features, (keyToTile e.1).Valid ∧ (keyToTile e.1).z = 10)
    (maxZ workers : Nat) (hmz : maxZ ≤ 20) (hw : 0 < workers) (old : UInt64 → Option Bytes) (oldMax : Option Nat) (s : PrepShared × List PrepPc)
    (h : PrepRun (prepRender features pf pctx) (features.map (·.1)) maxZ workers old oldMax s) (hfin : PrepPc.finished ∈ s.2)
    (hmax : ctx.maxPrepared = maxZ) (huse : ctx.ignorePrepared = false) (q : Tile) (hv : q.Valid) (hq : q.z ≤ maxZ)
    (k : UInt64) (hkq : keyOfTile q = .ok k) (v : Bytes) (hold : old k = some v) (hr : prepRender features pf pctx q = .ok none) :
    getTile s.1.tiles features pf ctx q = .ok (some v) := by
  have hk' : ∀ k ∈ features.map (·.1), (keyToTile k).Valid ∧ (keyToTile k).z = 10 := by simpa using hk
  obtain ⟨hne, _⟩ := prepInv_run hk' hmz h
  obtain ⟨_, _, _, _, h5⟩ := C30_complete _ _ hk' maxZ workers hmz hw old oldMax s h hfin
  refine C29_stored _ _ _ _ q hv (by omega) huse (by rw [hmax]; omega) k hkq v ?_
  rw [h5 k, hold]
  intro t ht hat hkt v' hv'
  have hfit : KeyFits t := by
    obtain ⟨hx, hy⟩ := dbBounds_le hne
    exact (area_fits hne hk' hmz t ((mem_tilesFrom hx hy).2 ⟨ht, hat⟩)).2
  have : t = q := keyOfTile_inj hfit (keyFits_of_valid hv (by omega)) hkt hkq
  rw [this, hr] at hv'
  cases hv'

/-- rendering for the preparation and live rendering with the same settings, compared -/
theorem render_compare {ctx : GetCtx} {maxZ : Nat} (hc : Serving ctx maxZ) (hlines : ctx.aggLines = true) (hpolygons : ctx.aggPolygons = true) {q : Tile} (hv : q.Valid) (hz : q.z ≤ 20) {sea : List Tile}
    (hs : SeaTree sea ctx.seaside) {packs : List (Tile × Bytes)} {r : Option Bytes} (hlive : renderTile ctx q packs = .ok r) :
    ∃ r', renderTile { ctx with ignoreSeaside := true, aggLines := true, aggPolygons := true } q packs = .ok r' ∧
      (∀ v, r' = some v → r = some v) ∧
      (r' = none → if ∃ t ∈ sea, AncOrSelf t q then renderTile ctx q [] = .ok r else r = none) := by
  have hctx : ({ ctx with ignoreSeaside := true, aggLines := true, aggPolygons := true } : GetCtx) = { ctx with ignoreSeaside := true } := by
    cases ctx with | mk rc _ _ _ _ _ _ _ _ => cases rc; simp_all
  rw [hctx]
  obtain ⟨leafs, hl1, hl2⟩ := renderSeaside_ok hs hv hz
  obtain ⟨leafs', hl3, _, _, hl4, _⟩ := hs.leafs hv hz
  rw [hl1] at hl3; cases hl3
  have hl2 : ∀ bs, renderSeaside ctx (specOf q) bs = tileAddAll ctx.toRenderCtx (specOf q) bs (leafs.map seaSquare) := hl2
  have hl2' : ∀ bs, renderSeaside { ctx with ignoreSeaside := true } (specOf q) bs = tileAddAll ctx.toRenderCtx (specOf q) bs (leafs.map seaSquare) := by
    intro bs; exact hl2 bs
  have hread : ∀ ps, readPacked { ctx with ignoreSeaside := true } (specOf q) ps = readPacked ctx (specOf q) ps := by
    have hk : ∀ box z ss, readKept { ctx with ignoreSeaside := true } box z ss = readKept ctx box z ss := by
      intro box z ss
      induction ss with
      | nil => rfl
      | cons x ss ih => rw [readKept, readKept, ih]
    intro ps
    induction ps with
    | nil => rfl
    | cons p ps ih => obtain ⟨t, p⟩ := p; rw [readPacked, readPacked, ih]; simp only [hk]
  rw [renderTile, tileSpec_ok hv hz, Res.ok_bind, show (⟨q, pxBounds q, insertBounds q, drawBounds q⟩ : TileSpec) = specOf q from rfl,
    hl2 [], Res.bind_eq_ok] at hlive
  obtain ⟨bs0, h0, hlive⟩ := hlive
  rw [Res.bind_eq_ok] at hlive
  obtain ⟨⟨bs, n⟩, h1, hlive⟩ := hlive
  dsimp only at hlive
  rw [hc.sea] at hlive
  simp only [Bool.false_eq_true, if_false, false_and, hc.label, Option.map_none, Res.ok_bind] at hlive
  rw [Res.bind_eq_ok] at hlive
  obtain ⟨bytes, h2, h3⟩ := hlive
  rw [renderFeatures, Res.bind_eq_ok] at h1
  obtain ⟨fs, hf, h1⟩ := h1
  rw [Res.bind_eq_ok] at h1
  obtain ⟨bs', h1, h1'⟩ := h1
  rw [Res.pure_eq] at h1'
  injection h1' with h1'
  injection h1' with e1 e2
  subst e1; subst e2
  -- the result of the preparation
  have hprep : renderTile { ctx with ignoreSeaside := true } q packs =
      if (∃ t ∈ sea, AncOrSelf t q) ∧ fs = [] then .ok none else .ok r := by
    rw [renderTile, tileSpec_ok hv hz, Res.ok_bind, show (⟨q, pxBounds q, insertBounds q, drawBounds q⟩ : TileSpec) = specOf q from rfl,
      hl2', h0, Res.ok_bind, renderFeatures, hread, hf, Res.ok_bind, h1, Res.ok_bind]
    dsimp only
    rw [Res.pure_eq, Res.ok_bind]
    dsimp only
    simp only [if_true]
    rw [hs.contains hv hz, Res.ok_bind]
    simp only [decide_eq_true_eq, List.length_eq_zero_iff]
    split
    · rfl
    · rw [hc.label, Option.map_none, h2, Res.ok_bind]
      exact h3
  -- the sea square alone
  have hsea : (∃ t ∈ sea, AncOrSelf t q) → renderTile ctx q [] = (tileFinish ctx.toRenderCtx (specOf q) bs0 >>= fun bytes =>
      if bytes = [] then Res.ok none else match ctx.deflate with | some z => Res.ok (some (z bytes)) | none => Res.ok (some bytes)) := by
    intro hcov
    rw [renderTile, tileSpec_ok hv hz, Res.ok_bind, show (⟨q, pxBounds q, insertBounds q, drawBounds q⟩ : TileSpec) = specOf q from rfl,
      hl2 [], h0, Res.ok_bind, renderFeatures, readPacked, Res.ok_bind, tileAddAll, Res.ok_bind]
    dsimp only
    rw [Res.pure_eq, Res.ok_bind]
    dsimp only
    rw [hc.sea]
    simp only [Bool.false_eq_true, if_false, false_and, hc.label, Option.map_none, Res.ok_bind]
    rfl
  by_cases hcov : ∃ t ∈ sea, AncOrSelf t q
  · by_cases hfs : fs = []
    · refine ⟨none, by rw [hprep, if_pos ⟨hcov, hfs⟩], (by intro v h; cases h), fun _ => ?_⟩
      rw [if_pos hcov, hsea hcov]
      subst hfs
      rw [tileAddAll] at h1
      injection h1 with h1
      subst h1
      rw [h2, Res.ok_bind]
      exact h3
    · refine ⟨r, by rw [hprep, if_neg (fun h => hfs h.2)], fun v h => h, fun hr => ?_⟩
      rw [if_pos hcov, hsea hcov, hr]
      -- nothing was drawn, not even the square
      have hb : bytes = [] := by
        by_contra hb
        rw [if_neg hb, hr] at h3
        cases hd : ctx.deflate <;> (rw [hd] at h3; cases h3)
      subst hb
      rw [tileFinish, Res.bind_eq_ok] at h2
      obtain ⟨ls, h2, h2'⟩ := h2
      obtain ⟨ds, rfl⟩ := tileLayers_form h2
      dsimp only at h2'
      rw [Res.pure_eq] at h2'
      injection h2' with h2'
      have := encMessage_nil h2'
      subst this
      have hle := hl4 hcov
      subst hle
      have := square_empty hpolygons (f := seaSquare q) rfl ⟨_, rfl⟩ h0 h1 h2
      rw [tileFinish, this]
      rfl
  · refine ⟨r, by rw [hprep, if_neg (fun h => hcov h.1)], fun v h => h, fun hr => ?_⟩
    rw [if_neg hcov]; exact hr

/-- no index tile with features shares area with a tile outside of the area -/
theorem packsOf_outside {features : List (UInt64 × Bytes)} (hsort : DbSorted features) (hne : features.map (·.1) ≠ [])
    (hk : ∀ e ∈ features, (keyToTile e.1).Valid ∧ (keyToTile e.1).z = 10) (pf : PackFile) {q : Tile} (hv : q.Valid) (hz : q.z ≤ 20)
    (ha : ¬ InArea (dbBounds (features.map (·.1))) q) : packsOf features pf q = .ok [] := by
  rw [packsOf, C02_scan_exact features hsort q hv hz, Res.ok_bind, List.filter_eq_nil_iff.2, List.map_nil, fetchValues]
  intro e he hc
  rw [decide_eq_true_eq] at hc
  obtain ⟨h1, h2, h3, h4⟩ := (C30_area _ hne).1 e.1 (List.mem_map.2 ⟨e, he, rfl⟩)
  exact ha ⟨keyToTile e.1, hc.1, h1, h2, h3, h4, hc.2⟩

/-- the same, when the server draws with the settings of the preparation -/
theorem prepared_equals_live (features : List (UInt64 × Bytes)) (hsort : DbSorted features) (pf : PackFile) (ctx : GetCtx)
    (hk : ∀ e ∈ features, (keyToTile e.1).Valid ∧ (keyToTile e.1).z = 10)
    (maxZ workers : Nat) (hmz : maxZ ≤ 20) (hw : 0 < workers) (oldMax : Option Nat) (s : PrepShared × List PrepPc)
    (h : PrepRun (prepRender features pf ctx) (features.map (·.1)) maxZ workers (fun _ => none) oldMax s) (hfin : PrepPc.finished ∈ s.2)
    (hc : Serving ctx maxZ) (hlines : ctx.aggLines = true) (hpolygons : ctx.aggPolygons = true) (sea : List Tile) (hs : SeaTree sea ctx.seaside) (q : Tile) (hv : q.Valid) (hq : q.z ≤ maxZ)
    (hwhere : InArea (dbBounds (features.map (·.1))) q ∨ (∃ t ∈ sea, AncOrSelf t q) ∨ ∀ t ∈ sea, ¬ AncOrSelf q t)
    (r : Option Bytes) (hlive : getTile s.1.tiles features pf { ctx with ignorePrepared := true } q = .ok r) :
    getTile s.1.tiles features pf ctx q = .ok r := by
  have hk' : ∀ k ∈ features.map (·.1), (keyToTile k).Valid ∧ (keyToTile k).z = 10 := by simpa using hk
  obtain ⟨hne, _⟩ := prepInv_run hk' hmz h
  have hz : q.z ≤ 20 := by omega
  have hmp : (q.z : Int) ≤ ctx.maxPrepared := by rw [hc.max]; omega
  obtain ⟨_, _, _, _, h5⟩ := C30_complete _ _ hk' maxZ workers hmz hw _ oldMax s h hfin
  obtain ⟨k, hkq, _⟩ := keyOfTile_ok (keyFits_of_valid hv hz)
  rw [C29_live _ _ _ _ _ hz (.inl rfl), Res.bind_eq_ok] at hlive
  obtain ⟨ps, hps, hlive⟩ := hlive
  have hlive' : renderTile ctx q ps = .ok r := by
    rw [← hlive]
    have hk : ∀ box z ss, readKept { ctx with ignorePrepared := true } box z ss = readKept ctx box z ss := by
      intro box z ss
      induction ss with
      | nil => rfl
      | cons x ss ih => rw [readKept, readKept, ih]
    have hread : ∀ s ps, readPacked { ctx with ignorePrepared := true } s ps = readPacked ctx s ps := by
      intro s ps
      induction ps with
      | nil => rfl
      | cons p ps ih => obtain ⟨t, p⟩ := p; rw [readPacked, readPacked, ih]; simp only [hk]
    rw [renderTile, renderTile]
    simp only [renderFeatures, hread, renderSeaside]
  -- the old table is empty: an entry at this key can only come from this tile
  have hnone : (InArea (dbBounds (features.map (·.1))) q → prepRender features pf ctx q = .ok none) → s.1.tiles k = none := by
    intro hr
    refine h5 k ?_
    intro t ht hat hkt v' hv'
    have hfit : KeyFits t := by
      obtain ⟨hx, hy⟩ := dbBounds_le hne
      exact (area_fits hne hk' hmz t ((mem_tilesFrom hx hy).2 ⟨ht, hat⟩)).2
    have : t = q := keyOfTile_inj hfit (keyFits_of_valid hv hz) hkt hkq
    subst this
    rw [hr hat] at hv'
    cases hv'
  have hans : s.1.tiles k = none → (if ∃ t ∈ sea, AncOrSelf t q then renderTile ctx q [] = .ok r else r = none) →
      getTile s.1.tiles features pf ctx q = .ok r := by
    intro ht hr
    by_cases hcov : ∃ t ∈ sea, AncOrSelf t q
    · rw [if_pos hcov] at hr
      rw [C29_seaside _ _ _ _ q hv hz hc.use hmp k hkq ht sea hs hcov, hr]
    · rw [if_neg hcov] at hr
      rw [C29_nothing _ _ _ _ q hv hz hc.use hmp k hkq ht sea hs hcov, hr]
  by_cases ha : InArea (dbBounds (features.map (·.1))) q
  · obtain ⟨r', h1, h2, h3⟩ := render_compare hc hlines hpolygons hv hz hs hlive'
    have hp : prepRender features pf ctx q = .ok r' := by rw [prepRender, hps, Res.ok_bind, h1]
    cases r' with
    | some v =>
      rw [h2 v rfl]
      exact C29_prepared features pf ctx ctx hk maxZ workers hmz hw _ oldMax s h hfin hc.max hc.use q hv hq ha v hp
    | none => exact hans (hnone (fun _ => hp)) (h3 rfl)
  · rw [packsOf_outside hsort hne hk pf hv hz ha] at hps
    injection hps with hps
    subst hps
    refine hans (hnone (fun h => absurd h ha)) ?_
    by_cases hcov : ∃ t ∈ sea, AncOrSelf t q
    · rw [if_pos hcov]; exact hlive'
    · rw [if_neg hcov]
      have hnosea : ∀ t ∈ sea, ¬ AncOrSelf q t := by
        rcases hwhere with h | h | h
        · exact absurd h ha
        · exact absurd h hcov
        · exact h
      obtain ⟨leafs, hl1, _, _, _, hl5⟩ := hs.leafs hv hz
      have : leafs = [] := by
        apply List.eq_nil_iff_forall_not_mem.2
        intro t ht
        obtain ⟨h1, h2, _⟩ := (hl5 hcov t).1 ht
        exact hnosea t h1.1 h2
      subst this
      obtain ⟨leafs', hl1', hl2⟩ := renderSeaside_ok hs hv hz
      rw [hl1] at hl1'; cases hl1'
      rw [renderTile, tileSpec_ok hv hz, Res.ok_bind, hl2] at hlive'
      simp only [List.map_nil, tileAddAll, Res.ok_bind, renderFeatures, readPacked, Res.pure_eq, hc.sea, hc.label, Bool.false_eq_true, if_false, false_and,
        Option.map_none, tileFinish, tileLayers, encMessage, List.flatMap_nil, if_true] at hlive'
      cases hlive'; rfl


/-- what is drawn of one polygon of the coastline layer -/
def onePolygon (names : List Bytes) (clip : RenderCtx) (s : TileSpec) (f : Feature) : Res (List PbfField) :=
  at_ names 0 >>= fun name => drawGeometry clip s f.geometry >>= fun g =>
    writeFeature s.px.min { LayerBuilder.init name with polyIds := [f.id] } { f with geometry := g } >>= fun b =>
      if b.hasGeometry then b.finish >>= fun l => .ok [.bytes 3 l] else .ok []

theorem onePolygon_eq (ctx : RenderCtx) (s : TileSpec) {f : Feature} (hl : f.layer = 0) {p} (hp : f.geometry = .polygon p) :
    (tileAddAll ctx s [] [f] >>= fun bs => tileLayers ctx s bs) = onePolygon ctx.layerNames ctx s f := by
  rw [tileAddAll, tileAdd, onePolygon, hl]
  cases hn : at_ ctx.layerNames 0 with
  | throw_ => rfl
  | ub => rfl
  | ok name =>
  simp only [Res.ok_bind]
  rw [Builders.add, LayerBuilder.add, LayerBuilder.seen]
  rw [hp]
  simp only [LayerBuilder.init, List.not_mem_nil, if_false, Bool.false_eq_true, hl, tileAddAll]
  by_cases ha : ctx.aggPolygons = true
  · simp only [ha, if_true, List.nil_append, Res.ok_bind, Res.pure_eq, tileLayers]
    rw [LayerBuilder.aggregateGeometry]
    simp only [ha, ne_eq, reduceCtorEq, not_false_eq_true, and_self, if_true, writePolygons, hp]
    cases hg : drawGeometry ctx s (.polygon p) with
    | throw_ => rfl
    | ub => rfl
    | ok g =>
    simp only [Res.ok_bind, hl, not_true_eq_false, false_and, if_false, ne_eq]
    rw [writeFeature.eq_def, writeFeature.eq_def]
    cases g with
    | null => simp [Res.ok_bind]
    | _ =>
      dsimp only
      cases encodeGeometryFields s.px.min _ with
      | throw_ => rfl
      | ub => rfl
      | ok fs => simp [Res.ok_bind, Res.pure_eq, LayerBuilder.finish]
  · simp only [ha, if_false, LayerBuilder.add.drawNow, hp, Bool.false_eq_true]
    cases hg : drawGeometry ctx s (.polygon p) with
    | throw_ => rfl
    | ub => rfl
    | ok g =>
    simp only [Res.ok_bind]
    rw [writeFeature.eq_def, writeFeature.eq_def]
    cases g with
    | null => simp [Res.ok_bind, Res.pure_eq, tileLayers, LayerBuilder.aggregateGeometry]
    | _ =>
      dsimp only
      cases encodeGeometryFields s.px.min _ with
      | throw_ => rfl
      | ub => rfl
      | ok fs => simp [Res.ok_bind, Res.pure_eq, tileLayers, LayerBuilder.aggregateGeometry]

/-- the bytes sent for the layers of a tile -/
def sentFor (label : Option Bytes) (s : TileSpec) (deflate : Option (Bytes → Bytes)) (ls : List PbfField) : Res (Option Bytes) :=
  (match label with | none => .ok (encMessage ls) | some l => debugLayer s l >>= fun d => .ok (encMessage (ls ++ [.bytes 3 d]))) >>= fun bytes =>
    if bytes = [] then .ok none else match deflate with | some z => .ok (some (z bytes)) | none => .ok (some bytes)

theorem renderNothing_eq (ctx : GetCtx) (hsea : ctx.ignoreSeaside = false) {q : Tile} (s : TileSpec) (hsp : tileSpec q = .ok s) (f : Feature)
    (hr : renderSeaside ctx s [] = tileAddAll ctx.toRenderCtx s [] [f]) :
    renderTile ctx q [] = (tileAddAll ctx.toRenderCtx s [] [f] >>= fun bs => tileLayers ctx.toRenderCtx s bs) >>=
      sentFor (ctx.label.map (· q)) s ctx.deflate := by
  rw [renderTile, hsp, Res.ok_bind, hr]
  cases tileAddAll ctx.toRenderCtx s [] [f] with
  | throw_ => rfl
  | ub => rfl
  | ok bs =>
    simp only [Res.ok_bind, renderFeatures, readPacked, tileAddAll, Res.pure_eq, hsea, Bool.false_eq_true, if_false, false_and, tileFinish]
    cases tileLayers ctx.toRenderCtx s bs with
    | throw_ => rfl
    | ub => rfl
    | ok ls =>
      simp only [Res.ok_bind, sentFor]
      cases ctx.label.map (· q) with
      | none => rfl
      | some l => 
        dsimp only
        cases debugLayer s l <;> rfl

/-- a sea square is drawn in the same way with and without collecting -/
theorem square_same (ctx : GetCtx) (hsea : ctx.ignoreSeaside = false) {q : Tile} (hv : q.Valid) (hz : q.z ≤ 20) {sea : List Tile} (hs : SeaTree sea ctx.seaside)
    (hcov : ∃ t ∈ sea, AncOrSelf t q) : renderTile { ctx with aggLines := true, aggPolygons := true } q [] = renderTile ctx q [] := by
  obtain ⟨leafs, hl1, hl2⟩ := renderSeaside_ok hs hv hz
  obtain ⟨leafs', hl3, _, _, hl4, _⟩ := hs.leafs hv hz
  rw [hl1] at hl3; cases hl3
  have hle := hl4 hcov
  subst hle
  have hl2' := (renderSeaside_ok (ctx := { ctx with aggLines := true, aggPolygons := true }) hs hv hz)
  obtain ⟨leafs', hl1', hl2'⟩ := hl2'
  rw [show ({ ctx with aggLines := true, aggPolygons := true } : GetCtx).seaside = ctx.seaside from rfl, hl1] at hl1'
  cases hl1'
  rw [renderNothing_eq ctx hsea _ (tileSpec_ok hv hz) (seaSquare q) (hl2 []),
    renderNothing_eq { ctx with aggLines := true, aggPolygons := true } hsea _ (tileSpec_ok hv hz) (seaSquare q) (hl2' []),
    onePolygon_eq _ _ rfl rfl, onePolygon_eq _ _ rfl rfl]
  rfl

/-- After a complete preparation of a database without prepared tiles, a request up to the prepared zoom level is answered as live
rendering (with the drawing settings of the preparation) would answer it; for tiles inside the prepared area, and outside of it for
tiles that lie in a seaside tile or contain none. -/
theorem C29_prepared_equals_live (features : List (UInt64 × Bytes)) (hsort : DbSorted features) (pf : PackFile) (ctx : GetCtx)
    (hk : ∀ e ∈ features, (keyToTile e.1).Valid ∧ (keyToTile e.1).z = 10)
    (maxZ workers : Nat) (hmz : maxZ ≤ 20) (hw : 0 < workers) (oldMax : Option Nat) (s : PrepShared × List PrepPc)
    (h : PrepRun (prepRender features pf ctx) (features.map (·.1)) maxZ workers (fun _ => none) oldMax s) (hfin : PrepPc.finished ∈ s.2)
    (hc : Serving ctx maxZ) (sea : List Tile) (hs : SeaTree sea ctx.seaside) (q : Tile) (hv : q.Valid) (hq : q.z ≤ maxZ)
    (hwhere : InArea (dbBounds (features.map (·.1))) q ∨ (∃ t ∈ sea, AncOrSelf t q) ∨ ∀ t ∈ sea, ¬ AncOrSelf q t)
    (r : Option Bytes) (hlive : getTile s.1.tiles features pf { drawing ctx maxZ q with ignorePrepared := true } q = .ok r) :
    getTile s.1.tiles features pf ctx q = .ok r := by
  rw [drawing, if_pos hq] at hlive
  have h1 := prepared_equals_live features hsort pf { ctx with aggLines := true, aggPolygons := true } hk maxZ workers hmz hw oldMax s h hfin
    ⟨hc.max, hc.use, hc.sea, hc.label⟩ rfl rfl sea hs q hv hq hwhere r hlive
  rw [← h1, getTile, getTile]
  congr 1
  funext _
  dsimp only
  split
  · congr 1
    funext k
    split
    · rfl
    · rw [hs.contains hv (by omega), Res.ok_bind, Res.ok_bind]
      split
      · rename_i hcov
        rw [square_same ctx hc.sea hv (by omega) hs (of_decide_eq_true hcov)]
      · rfl
  · rename_i hn
    exact absurd ⟨hc.use, by rw [hc.max]; omega⟩ hn

/-! ### the hypotheses are met; and outside of the prepared area partly seaside tiles are lost -/

/-- a database whose only index tile is in the south-east corner, and a seaside tile in the north-west -/
def C29_features : List (UInt64 × Bytes) := [(10 * 2 ^ 59 + 1023 * 2 ^ 38 + 1023 * 2 ^ 17, [])]
def C29_sea : List Tile := [⟨0, 0, 2⟩]
def C29_nodes : List Nat := match makeBqTree C29_sea with | .ok n => n | _ => []
def C29_ctx : GetCtx :=
  { layerNames := [coastlineName], aggLines := false, aggPolygons := false, dropSubpixel := false, clip := fun g _ => .ok g, tiny := fun _ => false,
    aggregate := fun _ l => l, maxPrepared := 1, seaside := C29_nodes, rd := fun _ _ => [], dec := [], deflate := none, ignorePrepared := false,
    ignoreSeaside := false, label := none }
def C29_liveCtx : GetCtx := { C29_ctx with ignorePrepared := true }
def C29_pack : PackFile := ⟨[], 0⟩
/-- one worker prepares up to zoom level 1 -/
def C29_run : Option (PrepShared × List PrepPc) :=
  runSched (prepStep (prepRender C29_features C29_pack C29_ctx)) (prepInit (.init (dbBounds (C29_features.map (·.1))) 1) (fun _ => none) none 1)
    [1, 1, 1, 1, 1, 1, 1, 1, 1, 0]

theorem C29_sea_tree : SeaTree C29_sea C29_ctx.seaside :=
  ⟨by decide +kernel, by decide +kernel, by decide +kernel⟩

example : DbSorted C29_features ∧ (∀ e ∈ C29_features, (keyToTile e.1).Valid ∧ (keyToTile e.1).z = 10) ∧ Serving C29_ctx 1 :=
  ⟨List.pairwise_singleton _ _, by decide +kernel, ⟨rfl, rfl, rfl, rfl⟩⟩

theorem C29_run_ok : ∃ s, C29_run = some s ∧ PrepPc.finished ∈ s.2 ∧
    (∃ v, getTile s.1.tiles C29_features C29_pack C29_ctx ⟨0, 0, 0⟩ = .ok (some v)) ∧
    getTile s.1.tiles C29_features C29_pack C29_ctx ⟨0, 0, 1⟩ = .ok none ∧
    (∃ v, getTile s.1.tiles C29_features C29_pack C29_liveCtx ⟨0, 0, 1⟩ = .ok (some v)) ∧
    (∃ v, getTile s.1.tiles C29_features C29_pack C29_ctx ⟨0, 0, 2⟩ = .ok (some v)) ∧
    getTile s.1.tiles C29_features C29_pack C29_ctx ⟨1, 1, 1⟩ = .ok none := by
  have h1 : (match C29_run with
    | some s => decide (PrepPc.finished ∈ s.2) &&
      (match getTile s.1.tiles C29_features C29_pack C29_ctx ⟨0, 0, 0⟩ with | .ok (some _) => true | _ => false) &&
      decide (getTile s.1.tiles C29_features C29_pack C29_ctx ⟨0, 0, 1⟩ = .ok none) &&
      (match getTile s.1.tiles C29_features C29_pack C29_liveCtx ⟨0, 0, 1⟩ with | .ok (some _) => true | _ => false) &&
      (match getTile s.1.tiles C29_features C29_pack C29_ctx ⟨0, 0, 2⟩ with | .ok (some _) => true | _ => false) &&
      decide (getTile s.1.tiles C29_features C29_pack C29_ctx ⟨1, 1, 1⟩ = .ok none)
    | none => false) = true := by decide +kernel
  have hm : ∀ r : Res (Option Bytes), (match r with | .ok (some _) => true | _ => false) = true → ∃ v, r = .ok (some v) := by
    intro r h
    split at h
    · exact ⟨_, rfl⟩
    · cases h
  cases hr : C29_run with
  | none => rw [hr] at h1; cases h1
  | some s =>
    rw [hr] at h1
    simp only [Bool.and_eq_true, decide_eq_true_eq] at h1
    obtain ⟨⟨⟨⟨⟨a, b⟩, c⟩, d⟩, e⟩, f⟩ := h1
    exact ⟨s, rfl, a, hm _ b, c, hm _ d, hm _ e, f⟩

/-- Outside of the prepared area a tile that is partly seaside is answered with nothing, although live rendering, with the same
settings, would draw the sea: the restriction in `C29_prepared_equals_live` is needed. -/
theorem C29_partly_sea_lost : ∃ (features : List (UInt64 × Bytes)) (pf : PackFile) (ctx : GetCtx) (sea : List Tile) (s : PrepShared × List PrepPc) (q : Tile) (v : Bytes),
    PrepRun (prepRender features pf ctx) (features.map (·.1)) 1 1 (fun _ => none) none s ∧ PrepPc.finished ∈ s.2 ∧ Serving ctx 1 ∧
    SeaTree sea ctx.seaside ∧ q.Valid ∧ q.z ≤ 1 ∧
    getTile s.1.tiles features pf { ctx with ignorePrepared := true } q = .ok (some v) ∧ getTile s.1.tiles features pf ctx q = .ok none := by
  obtain ⟨s, hs, hf, _, h2, ⟨v, h3⟩, _⟩ := C29_run_ok
  refine ⟨C29_features, C29_pack, C29_ctx, C29_sea, s, ⟨0, 0, 1⟩, v, ⟨_, ?_, runSched_reach .refl hs⟩, hf, ⟨rfl, rfl, rfl, rfl⟩,
    C29_sea_tree, by decide, by decide, h3, h2⟩
  rw [C30_accepts]
  rfl

end Tiles
