import Verif.Proof.FeatureIO
/-! C22 — features round-trip through their stored form. -/
namespace Tiles
open Spec

/-- values of the C++ types, coordinates far from overflow, at least one point (otherwise there is no bounding box) -/
structure Spec.FeatureOk (f : Feature) : Prop where
  id : f.id < 2 ^ 64
  zmin : f.zmin < 2 ^ 32
  zmax : f.zmax < 2 ^ 32
  layer : f.layer < 2 ^ 64 - 1
  coords : GeoOk f.geometry
  counts : Spec.CountsOk f.geometry
  points : envelopePoints f.geometry ≠ []

theorem not_drops_without_hints (f : Feature) :
    ¬ headerDrops ⟨⟨kInvalidBoxHint, kInvalidBoxHint⟩, ⟨kInvalidBoxHint, kInvalidBoxHint⟩⟩ kInvalidZoomLevel f := by
  rintro (h | h | h)
  · exact h.1 rfl
  · exact h.1 rfl
  · exact h.1 rfl

/-- Reading back without hints: the same id, layer and zoom range; the geometry without rings of fewer than four points; and the
same metadata, in the same order when stored inline. -/
theorem C22_round_trip (mk : Line → Bytes) (rd : Bytes → Nat → List Bool) (dec : List Meta) (fast : Bool) (f : Feature) (bs : Bytes)
    (hf : FeatureOk f) (hd : dec.length ≤ 2 ^ 64) (h : serializeFeature mk dec fast f = .ok bs) (hl : bs.length < 2 ^ 32) :
    ∃ r, deserializeFeature rd dec bs = .ok (some r) ∧ r.id = f.id ∧ r.layer = f.layer ∧ r.zmin = f.zmin ∧ r.zmax = f.zmax ∧
      r.geometry = withoutSmallRings f.geometry ∧ r.metas.Perm f.metas ∧ (fast = true → r.metas = f.metas) := by
  have hmk : masked fast kInvalidZoomLevel f.geometry = false := by simp [masked]
  have := feature_read rd dec ⟨⟨kInvalidBoxHint, kInvalidBoxHint⟩, ⟨kInvalidBoxHint, kInvalidBoxHint⟩⟩ kInvalidZoomLevel mk fast f bs
    h hl hf.id hf.zmin hf.zmax hf.layer hf.coords hf.counts hf.points hd (by simp [hmk])
  rw [if_neg (not_drops_without_hints f), if_neg (by simp [hmk])] at this
  refine ⟨_, this, rfl, rfl, rfl, rfl, ?_, metasRead_perm dec fast f.metas, fun e => by simp [metasRead, e]⟩
  simp [geometryRead, hmk, keepGeo_none]

/-- With polygon rings of at least four points the feature read is the one written, up to the order of the metadata. -/
theorem C22_same (mk : Line → Bytes) (rd : Bytes → Nat → List Bool) (dec : List Meta) (fast : Bool) (f : Feature) (bs : Bytes)
    (hf : FeatureOk f) (hd : dec.length ≤ 2 ^ 64)
    (h4 : ∀ ps, f.geometry = .polygon ps → ∀ p ∈ ps, ∀ r ∈ p.outer :: p.inners, 4 ≤ r.length)
    (h : serializeFeature mk dec fast f = .ok bs) (hl : bs.length < 2 ^ 32) :
    ∃ ms, ms.Perm f.metas ∧ (fast = true → ms = f.metas) ∧ deserializeFeature rd dec bs = .ok (some { f with metas := ms }) := by
  obtain ⟨r, hr, e1, e2, e3, e4, e5, e6, e7⟩ := C22_round_trip mk rd dec fast f bs hf hd h hl
  have hg : withoutSmallRings f.geometry = f.geometry := by
    rw [serializeFeature, Res.bind_eq_ok] at h
    obtain ⟨g, hgs, h⟩ := h
    injection h with h
    have hgl : g.length < 2 ^ 32 := by
      have := bytes_len_le (fs := (PbfField.bytes 1 ((featureHeader f).flatMap encS64) :: .varint 2 f.id ::
        (featureMetaFields dec fast f.metas ++
          ((if fast then [] else (makeSimplifyMask mk f.geometry).map (.bytes 6)) ++ [.bytes 7 g])))) (t := 7) (d := g) (by simp)
      rw [h] at this
      omega
    have a := C21_round_trip f.geometry g hf.coords hf.counts hgs hgl
    rw [C21_same f.geometry g hf.coords hf.counts h4 hgs hgl] at a
    injection a with a
    exact a.symm
  refine ⟨r.metas, e6, e7, ?_⟩
  rw [hr]
  obtain ⟨a, b, c, d, e, g⟩ := r
  simp only at e1 e2 e3 e4 e5
  subst e1 e2 e3 e4
  rw [e5, hg]

/-- The order of the metadata when the shared table is used: entries of the table first. -/
theorem C22_table_order (mk : Line → Bytes) (rd : Bytes → Nat → List Bool) (dec : List Meta) (f : Feature) (bs : Bytes)
    (hf : FeatureOk f) (hd : dec.length ≤ 2 ^ 64) (h : serializeFeature mk dec false f = .ok bs) (hl : bs.length < 2 ^ 32) :
    ∃ r, deserializeFeature rd dec bs = .ok (some r) ∧
      r.metas = f.metas.filter (fun m => decide (m ∈ dec)) ++ f.metas.filter (fun m => decide (m ∉ dec)) := by
  have hmk : masked false kInvalidZoomLevel f.geometry = false := by simp [masked]
  have := feature_read rd dec ⟨⟨kInvalidBoxHint, kInvalidBoxHint⟩, ⟨kInvalidBoxHint, kInvalidBoxHint⟩⟩ kInvalidZoomLevel mk false f bs
    h hl hf.id hf.zmin hf.zmax hf.layer hf.coords hf.counts hf.points hd (by simp [hmk])
  rw [if_neg (not_drops_without_hints f), if_neg (by simp [hmk])] at this
  refine ⟨_, this, ?_⟩
  simp only [metasRead, Bool.false_eq_true, if_false]
  congr 1 <;> apply List.filter_congr
  · intro m _
    have := C24_encoded_iff dec m
    rw [Bool.eq_iff_iff, this]; simp
  · intro m _
    have := C24_encoded_iff dec m
    rw [Bool.eq_iff_iff, Option.isNone_iff_eq_none, ← Option.not_isSome_iff_eq_none, this]; simp

/-- A feature is stored exactly when its geometry is neither null nor empty. -/
theorem C22_refused (mk : Line → Bytes) (dec : List Meta) (fast : Bool) (f : Feature) :
    (nonEmpty f.geometry ∧ ∃ bs, serializeFeature mk dec fast f = .ok bs) ∨
    (¬ nonEmpty f.geometry ∧ serializeFeature mk dec fast f = .throw_) := by
  rcases C21_refused f.geometry with ⟨h, g, hg⟩ | ⟨h, hg⟩
  · exact .inl ⟨h, _, by rw [serializeFeature, hg, Res.ok_bind]; rfl⟩
  · exact .inr ⟨h, by rw [serializeFeature, hg]; rfl⟩

/-- hypotheses met: a line with two tags, one of them in the shared table -/
example : FeatureOk ⟨7, 1, 5, 20, [⟨[1], [2, 3]⟩, ⟨[4], [2]⟩], .polyline [[⟨10, 20⟩, ⟨30, 40⟩]]⟩ ∧
    ∃ bs, serializeFeature (fun _ => [0]) [⟨[4], [2]⟩] false
      ⟨7, 1, 5, 20, [⟨[1], [2, 3]⟩, ⟨[4], [2]⟩], .polyline [[⟨10, 20⟩, ⟨30, 40⟩]]⟩ = .ok bs ∧ bs.length < 2 ^ 32 := by
  refine ⟨⟨by decide, by decide, by decide, by decide, ?_, by simp [Spec.CountsOk], by simp [envelopePoints]⟩, _, rfl, ?_⟩
  · simp [GeoOk, linesOf, PtOk, CoordOk]
  · have : metaEncode [⟨[4], [2]⟩] ⟨[1], [2, 3]⟩ = none := by decide
    have h2 : metaEncode [⟨[4], [2]⟩] ⟨[4], [2]⟩ = some 0 := by decide
    simp [encMessage, PbfField.enc, featureMetaFields, this, h2, featureHeader, makeSimplifyMask, boundingBox, envelopePoints, expandBox, inverseBox,
      encS64, zigzag, encVarint, toI64, bitsI64, kFixedCoordMagicOffset, kFixedCoordMax, serLines, serPoints, serDeltas, magicXY]

end Tiles
