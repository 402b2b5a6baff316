import Verif.Model.Prepare
import Verif.Props.C28
import Verif.Props.C08
import Verif.Props.C09
import Verif.Props.C02
import Verif.Props.C30
/-! Lemmas about `renderTile` and `getTile`. -/
namespace Tiles
open Spec

theorem tileAddAll_append (ctx : RenderCtx) (s : TileSpec) (fs gs : List Feature) (bs : Builders) :
    tileAddAll ctx s bs (fs ++ gs) = (tileAddAll ctx s bs fs >>= fun bs => tileAddAll ctx s bs gs) := by
  induction fs generalizing bs with
  | nil => rfl
  | cons f fs ih =>
    rw [List.cons_append, tileAddAll, tileAddAll]
    cases h : tileAdd ctx s bs f with
    | ok bs' => rw [Res.ok_bind, Res.ok_bind, ih]
    | throw_ => rfl
    | ub => rfl

theorem tileSpec_ok {t : Tile} (hv : t.Valid) (hz : t.z ≤ 20) : tileSpec t = .ok ⟨t, pxBounds t, insertBounds t, drawBounds t⟩ := by
  rw [tileSpec, decide_eq_true (show t.z ≤ kMaxZoomLevel from hz), decide_eq_true hv.1, decide_eq_true hv.2]
  rfl

theorem keyFits_of_valid {t : Tile} (hv : t.Valid) (hz : t.z ≤ 20) : KeyFits t := by
  have : 2 ^ t.z ≤ 2 ^ 20 := Nat.pow_le_pow_right (by decide) hz
  obtain ⟨a, b⟩ := hv
  exact ⟨by omega, by omega, by omega⟩

/-- the square of a tile with the drawing margin, as a feature of the coastline layer; its id is the tile's key -/
def Spec.seaSquare (t : Tile) : Feature :=
  ⟨keyNat t.x t.y t.z 0, 0, 0, 21, [⟨layerKey, coastlineName⟩], squareOf (drawBounds t)⟩

theorem seasideFeature_ok {t : Tile} (hv : t.Valid) (hz : t.z ≤ 20) : seasideFeature t = .ok (seaSquare t) := by
  obtain ⟨k, hk, hn⟩ := keyOfTile_ok (keyFits_of_valid hv hz)
  rw [seasideFeature, tileSpec_ok hv hz, Res.ok_bind, hk, Res.ok_bind, hn]
  rfl

theorem seasideFeatures_ok {ts : List Tile} (h : ∀ t ∈ ts, t.Valid ∧ t.z ≤ 20) : seasideFeatures ts = .ok (ts.map seaSquare) := by
  induction ts with
  | nil => rfl
  | cons t ts ih =>
    rw [seasideFeatures, seasideFeature_ok (h t (by simp)).1 (h t (by simp)).2, Res.ok_bind, ih (fun u hu => h u (by simp [hu]))]
    rfl

/-- the seaside tree of the context was built from these tiles -/
structure Spec.SeaTree (sea : List Tile) (nodes : List Nat) : Prop where
  build : makeBqTree sea = .ok nodes
  small : nodes.length ≤ 2 ^ 24
  tiles : ∀ t ∈ sea, t.Valid ∧ t.z ≤ 20

theorem Spec.SeaTree.contains {sea : List Tile} {nodes : List Nat} (h : SeaTree sea nodes) {q : Tile} (hq : q.Valid) (hz : q.z ≤ 20) :
    bqContains nodes q = .ok (decide (∃ t ∈ sea, AncOrSelf t q)) :=
  C08_contains_exact sea (fun t ht => (h.tiles t ht).1) (fun t ht => by have := (h.tiles t ht).2; omega) nodes h.build h.small q hq (by omega)

/-- which tiles are painted as sea: the tile itself when it lies in a seaside tile, else the maximal seaside tiles in it -/
theorem Spec.SeaTree.leafs {sea : List Tile} {nodes : List Nat} (h : SeaTree sea nodes) {q : Tile} (hq : q.Valid) (hz : q.z ≤ 20) :
    ∃ leafs, bqAllLeafs nodes q = .ok leafs ∧ leafs.Nodup ∧ (∀ t ∈ leafs, t.Valid ∧ t.z ≤ 20) ∧
      ((∃ t ∈ sea, AncOrSelf t q) → leafs = [q]) ∧
      ((¬ ∃ t ∈ sea, AncOrSelf t q) → ∀ t, t ∈ leafs ↔ MaximalIn sea t ∧ AncOrSelf q t ∧ t ≠ q) := by
  have hv : ∀ t ∈ sea, t.Valid := fun t ht => (h.tiles t ht).1
  have hzz : ∀ t ∈ sea, t.z < 2 ^ 32 := fun t ht => by have := (h.tiles t ht).2; omega
  by_cases hc : ∃ t ∈ sea, AncOrSelf t q
  · refine ⟨[q], C09_covered sea hv hzz nodes h.build h.small q hq (by omega) hc, by simp, ?_, fun _ => rfl, fun h => absurd hc h⟩
    intro t ht
    rw [List.mem_singleton.1 ht]; exact ⟨hq, hz⟩
  · obtain ⟨leafs, h1, h2, h3⟩ := C09_uncovered sea hv hzz nodes h.build h.small q hq (by omega) hc
    refine ⟨leafs, h1, h2, ?_, fun h => absurd h hc, fun _ => h3⟩
    intro t ht
    exact h.tiles t ((h3 t).1 ht).1.1

theorem renderSeaside_ok {sea : List Tile} {ctx : GetCtx} (h : SeaTree sea ctx.seaside) {q : Tile} (hq : q.Valid) (hz : q.z ≤ 20) :
    ∃ leafs, bqAllLeafs ctx.seaside q = .ok leafs ∧ ∀ bs, renderSeaside ctx ⟨q, pxBounds q, insertBounds q, drawBounds q⟩ bs =
      tileAddAll ctx.toRenderCtx ⟨q, pxBounds q, insertBounds q, drawBounds q⟩ bs (leafs.map seaSquare) := by
  obtain ⟨leafs, h1, _, h3, _, _⟩ := h.leafs hq hz
  refine ⟨leafs, h1, fun bs => ?_⟩
  rw [renderSeaside]
  dsimp only
  rw [h1, Res.ok_bind, seasideFeatures_ok h3, Res.ok_bind]

/-! ### an empty tile -/

theorem tileLayers_form {ctx : RenderCtx} {s : TileSpec} {bs : Builders} {ls : List PbfField} (h : tileLayers ctx s bs = .ok ls) :
    ∃ ds : List Bytes, ls = ds.map (.bytes 3) := by
  induction bs generalizing ls with
  | nil => cases h; exact ⟨[], rfl⟩
  | cons x bs ih =>
    obtain ⟨i, b⟩ := x
    rw [tileLayers, Res.bind_eq_ok] at h
    obtain ⟨b', _, h⟩ := h
    split at h
    · rw [Res.bind_eq_ok] at h
      obtain ⟨l, _, h⟩ := h
      rw [Res.bind_eq_ok] at h
      obtain ⟨r, hr, h⟩ := h
      obtain ⟨ds, rfl⟩ := ih hr
      cases h
      exact ⟨l :: ds, rfl⟩
    · exact ih h

theorem encMessage_nil {ds : List Bytes} (h : encMessage (ds.map (.bytes 3)) = []) : ds = [] := by
  cases ds with
  | nil => rfl
  | cons d ds =>
    exfalso
    have := PbfField.enc_length_pos (.bytes 3 d)
    rw [encMessage, List.map_cons, List.flatMap_cons] at h
    rw [(List.append_eq_nil_iff.1 h).1] at this
    simp at this

theorem collect_length {α : Type} {l : List (Option α)} {r : List α} (h : collect l = some r) : l.length = r.length := by
  induction l generalizing r with
  | nil => cases h; rfl
  | cons x l ih =>
    cases x with
    | none => cases h
    | some a =>
      simp only [collect] at h
      cases hc : collect l with
      | none => rw [hc] at h; cases h
      | some r' =>
        rw [hc] at h
        cases h
        simp [ih hc]

/-- a finished tile is the empty string exactly when a client sees nothing in it -/
theorem finish_nil {ctx : RenderCtx} {s : TileSpec} {bs : Builders} {bytes : Bytes} (h : tileFinish ctx s bs = .ok bytes)
    (hlen : bytes.length < 2 ^ 32) {content : List ClientLayer} (hc : clientTile bytes = some content) : bytes = [] ↔ content = [] := by
  rw [tileFinish, Res.bind_eq_ok] at h
  obtain ⟨ls, h1, h2⟩ := h
  obtain ⟨ds, rfl⟩ := tileLayers_form h1
  cases h2
  have hsmall : ∀ l ∈ ds, l.length < 2 ^ 32 := by
    intro l h
    have := bytes_len_le (fs := ds.map (.bytes 3)) (t := 3) (d := l) (List.mem_map.2 ⟨l, h, rfl⟩)
    omega
  have hdec := decMessage_enc (ds.map (.bytes 3)) (by
    intro f hf
    obtain ⟨l, h, rfl⟩ := List.mem_map.1 hf
    exact ⟨by decide, hsmall l h⟩)
  have this : (ds.map (PbfField.bytes 3)).filterMap (bytesOf 3) = ds := by
    have := fm_bytes_eq 3 id ds
    rw [List.map_id] at this
    exact this
  rw [clientTile, hdec] at hc
  dsimp only at hc
  rw [this] at hc
  have hl := collect_length hc
  rw [List.length_map] at hl
  constructor
  · intro h
    rw [encMessage_nil h] at hl
    exact List.length_eq_zero_iff.1 hl.symm
  · intro h
    rw [h] at hl
    rw [List.length_eq_zero_iff.1 hl]
    rfl

/-! ### geometry once written stays -/

theorem writeFeature_mono {org : XY} {b b' : LayerBuilder} {f : Feature} (h : writeFeature org b f = .ok b') (hb : b.hasGeometry = true) :
    b'.hasGeometry = true := by
  rw [writeFeature.eq_def] at h
  cases hg : f.geometry with
  | null => rw [hg] at h; cases h; exact hb
  | _ =>
    rw [hg] at h
    dsimp only at h
    rw [Res.bind_eq_ok] at h
    obtain ⟨fs, _, h⟩ := h
    injection h with h
    rw [← h]

theorem writeLines_mono {ctx : RenderCtx} {s : TileSpec} {l : List Feature} {b b' : LayerBuilder} (h : writeLines ctx s b l = .ok b')
    (hb : b.hasGeometry = true) : b'.hasGeometry = true := by
  induction l generalizing b with
  | nil => cases h; exact hb
  | cons f l ih =>
    rw [writeLines, Res.bind_eq_ok] at h
    obtain ⟨g, _, h⟩ := h
    rw [Res.bind_eq_ok] at h
    obtain ⟨b1, h1, h⟩ := h
    exact ih h (writeFeature_mono h1 hb)

theorem writePolygons_mono {ctx : RenderCtx} {s : TileSpec} {l : List Feature} {b b' : LayerBuilder} (h : writePolygons ctx s b l = .ok b')
    (hb : b.hasGeometry = true) : b'.hasGeometry = true := by
  induction l generalizing b with
  | nil => cases h; exact hb
  | cons f l ih =>
    rw [writePolygons, Res.bind_eq_ok] at h
    obtain ⟨g, _, h⟩ := h
    split at h
    · exact ih h hb
    · rw [Res.bind_eq_ok] at h
      obtain ⟨b1, h1, h⟩ := h
      exact ih h (writeFeature_mono h1 hb)

theorem writeFeature_polyBuf {org : XY} {b b' : LayerBuilder} {f : Feature} (h : writeFeature org b f = .ok b') : b'.polyBuf = b.polyBuf := by
  rw [writeFeature.eq_def] at h
  cases hg : f.geometry with
  | null => rw [hg] at h; cases h; rfl
  | _ =>
    rw [hg] at h
    dsimp only at h
    rw [Res.bind_eq_ok] at h
    obtain ⟨fs, _, h⟩ := h
    injection h with h
    rw [← h]

theorem seen_polyBuf (b : LayerBuilder) (f : Feature) : (b.seen f).2.polyBuf = b.polyBuf := by
  rw [LayerBuilder.seen.eq_def]
  split
  · rfl
  · split <;> rfl
  · split <;> rfl
  · split <;> rfl

theorem add_polyBuf {ctx : RenderCtx} {s : TileSpec} {b b' : LayerBuilder} {f : Feature} (h : b.add ctx s f = .ok b') :
    ∃ l, b'.polyBuf = b.polyBuf ++ l := by
  have hdraw : ∀ c : LayerBuilder, c.polyBuf = b.polyBuf → LayerBuilder.add.drawNow ctx s f c = .ok b' → ∃ l, b'.polyBuf = b.polyBuf ++ l := by
    intro c hc h
    rw [LayerBuilder.add.drawNow, Res.bind_eq_ok] at h
    obtain ⟨g, _, h⟩ := h
    exact ⟨[], by rw [writeFeature_polyBuf h, hc, List.append_nil]⟩
  have hp := seen_polyBuf b f
  rw [LayerBuilder.add] at h
  generalize b.seen f = r at h hp
  obtain ⟨dup, c⟩ := r
  dsimp only at h hp
  split at h
  · cases h; exact ⟨[], by rw [hp, List.append_nil]⟩
  · split at h
    · cases h; exact ⟨[], by rw [hp, List.append_nil]⟩
    · split at h
      · cases h; exact ⟨[], by rw [List.append_nil]; exact hp⟩
      · exact hdraw c hp h
    · split at h
      · cases h; exact ⟨[f], by show c.polyBuf ++ [f] = _; rw [hp]⟩
      · exact hdraw c hp h
    · exact hdraw c hp h

/-- the first layer is layer 0 and the first buffered polygon in it is `f` -/
def StartsWith (f : Feature) (bs : Builders) : Prop := ∃ b rest l, bs = (0, b) :: rest ∧ b.polyBuf = f :: l

theorem startsWith_add {ctx : RenderCtx} {s : TileSpec} {f g : Feature} {bs bs' : Builders} (h : StartsWith f bs)
    (ha : tileAdd ctx s bs g = .ok bs') : StartsWith f bs' := by
  obtain ⟨b, rest, l, rfl, hb⟩ := h
  rw [tileAdd, Res.bind_eq_ok] at ha
  obtain ⟨name, _, ha⟩ := ha
  rw [Builders.add, if_neg (Nat.not_lt_zero _)] at ha
  split at ha
  · rw [Res.bind_eq_ok] at ha
    obtain ⟨b1, h1, ha⟩ := ha
    cases ha
    obtain ⟨l', hl⟩ := add_polyBuf h1
    exact ⟨b1, rest, l ++ l', rfl, by rw [hl, hb]; rfl⟩
  · rw [Res.bind_eq_ok] at ha
    obtain ⟨r1, _, ha⟩ := ha
    cases ha
    exact ⟨b, r1, l, rfl, hb⟩

theorem startsWith_addAll {ctx : RenderCtx} {s : TileSpec} {f : Feature} {gs : List Feature} {bs bs' : Builders} (h : StartsWith f bs)
    (ha : tileAddAll ctx s bs gs = .ok bs') : StartsWith f bs' := by
  induction gs generalizing bs with
  | nil => cases ha; exact h
  | cons g gs ih =>
    rw [tileAddAll, Res.bind_eq_ok] at ha
    obtain ⟨b1, h1, ha⟩ := ha
    exact ih (startsWith_add h h1) ha

/-- if the sea square and more give an empty tile, so does the sea square alone -/
theorem square_empty {ctx : RenderCtx} {s : TileSpec} (hagg : ctx.aggPolygons = true) {f : Feature} (hl : f.layer = 0) (hp : ∃ p, f.geometry = .polygon p)
    {gs : List Feature} {bs0 bs : Builders} (h0 : tileAddAll ctx s [] [f] = .ok bs0) (h1 : tileAddAll ctx s bs0 gs = .ok bs)
    (h2 : tileLayers ctx s bs = .ok []) : tileLayers ctx s bs0 = .ok [] := by
  obtain ⟨p, hp⟩ := hp
  rw [tileAddAll, Res.bind_eq_ok] at h0
  obtain ⟨b1, h0, h0'⟩ := h0
  cases h0'
  rw [tileAdd, Res.bind_eq_ok] at h0
  obtain ⟨name, _, h0⟩ := h0
  have hb0 : bs0 = [(0, { LayerBuilder.init name with polyBuf := [f], polyIds := [f.id] })] := by
    rw [Builders.add, LayerBuilder.add, LayerBuilder.seen, hp] at h0
    simp only [LayerBuilder.init, List.not_mem_nil, if_false, Bool.false_eq_true, hagg, if_true, List.nil_append, Res.ok_bind, Res.pure_eq, hl] at h0
    injection h0 with h0
    rw [← h0]
    rfl
  obtain ⟨b, rest, l, rfl, hb⟩ := startsWith_addAll ⟨_, _, [], hb0, rfl⟩ h1
  rw [tileLayers, Res.bind_eq_ok] at h2
  obtain ⟨b', ha, h2⟩ := h2
  have hng : b'.hasGeometry = false := by
    cases hc : b'.hasGeometry with
    | false => rfl
    | true =>
      rw [if_pos hc, Res.bind_eq_ok] at h2
      obtain ⟨_, _, h2⟩ := h2
      rw [Res.bind_eq_ok] at h2
      obtain ⟨_, _, h2⟩ := h2
      cases h2
  have hpoly : ∃ b1, writePolygons ctx s b (f :: l) = .ok b1 ∧ b1.hasGeometry = false := by
    rw [LayerBuilder.aggregateGeometry, hb] at ha
    simp only [hagg, ne_eq, reduceCtorEq, not_false_eq_true, and_self, if_true] at ha
    rw [Res.bind_eq_ok] at ha
    obtain ⟨b1, h1, h2⟩ := ha
    refine ⟨b1, h1, ?_⟩
    cases hc : b1.hasGeometry with
    | false => rfl
    | true =>
      exfalso
      split at h2
      · rw [writeLines_mono h2 hc] at hng; cases hng
      · cases h2; rw [hc] at hng; cases hng
  obtain ⟨b1, hw, hb1⟩ := hpoly
  rw [writePolygons, Res.bind_eq_ok] at hw
  obtain ⟨g, hg, hw⟩ := hw
  rw [if_neg (by simp [hl]), Res.bind_eq_ok] at hw
  obtain ⟨b2, hw2, hw⟩ := hw
  have hnull : g = .null := by
    rw [writeFeature.eq_def] at hw2
    dsimp only at hw2
    cases g with
    | null => rfl
    | _ =>
      exfalso
      dsimp only at hw2
      rw [Res.bind_eq_ok] at hw2
      obtain ⟨fs, _, hw2⟩ := hw2
      have : b2.hasGeometry = true := by injection hw2 with hw2; rw [← hw2]
      rw [writePolygons_mono hw this] at hb1
      cases hb1
  subst hnull
  rw [hb0, tileLayers, LayerBuilder.aggregateGeometry]
  simp only [hagg, ne_eq, reduceCtorEq, not_false_eq_true, and_self, if_true, LayerBuilder.init]
  rw [writePolygons, hg, Res.ok_bind, if_neg (by simp [hl]), writeFeature]
  simp [writePolygons, tileLayers]

end Tiles
