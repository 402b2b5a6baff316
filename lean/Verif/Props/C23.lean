import Verif.Props.C22
/-! C23 — early filtering on deserialization is exact. -/
namespace Tiles
open Spec

/-- the box and the bounding box of the points have a point in common -/
def Spec.meetsBox (box : Box) (pts : List XY) : Prop :=
  ∃ q : XY, (box.min.x ≤ q.x ∧ q.x ≤ box.max.x ∧ box.min.y ≤ q.y ∧ q.y ≤ box.max.y) ∧
    (∃ p ∈ pts, p.x ≤ q.x) ∧ (∃ p ∈ pts, q.x ≤ p.x) ∧ (∃ p ∈ pts, p.y ≤ q.y) ∧ (∃ p ∈ pts, q.y ≤ p.y)

/-- a hint that can be given: a box with corners in order, not using the coordinate that means "no hint", and a zoom level -/
structure Spec.HintOk (box : Box) (zoom : Nat) : Prop where
  x : box.min.x ≤ box.max.x
  y : box.min.y ≤ box.max.y
  bx : box.max.x < 2 ^ 63 - 1
  by' : box.max.y < 2 ^ 63 - 1
  zoom : zoom ≠ 63

theorem headerDrops_iff {box : Box} {zoom : Nat} {f : Feature} (hh : HintOk box zoom) (hf : FeatureOk f) :
    headerDrops box zoom f ↔ ¬ (f.zmin ≤ zoom ∧ zoom ≤ f.zmax ∧ meetsBox box (envelopePoints f.geometry)) := by
  obtain ⟨hb, ⟨p1, m1, e1⟩, ⟨p2, m2, e2⟩, ⟨p3, m3, e3⟩, ⟨p4, m4, e4⟩⟩ := boundingBox_spec hf.coords hf.points
  have hx := hh.x; have hy := hh.y
  have hbx := hh.bx; have hby := hh.by'
  have n1 : box.min.x ≠ kInvalidBoxHint := by unfold kInvalidBoxHint; norm_num at *; omega
  have n2 : box.max.x ≠ kInvalidBoxHint := by unfold kInvalidBoxHint; norm_num at *; omega
  have n3 : box.min.y ≠ kInvalidBoxHint := by unfold kInvalidBoxHint; norm_num at *; omega
  have n4 : box.max.y ≠ kInvalidBoxHint := by unfold kInvalidBoxHint; norm_num at *; omega
  have hm : meetsBox box (envelopePoints f.geometry) ↔
      (box.min.x ≤ (boundingBox f.geometry).max.x ∧ (boundingBox f.geometry).min.x ≤ box.max.x ∧
       box.min.y ≤ (boundingBox f.geometry).max.y ∧ (boundingBox f.geometry).min.y ≤ box.max.y) := by
    generalize boundingBox f.geometry = B at *
    constructor
    · rintro ⟨q, ⟨q1, q2, q3, q4⟩, ⟨a, ha, ha'⟩, ⟨b, hb', hb''⟩, ⟨c, hc, hc'⟩, ⟨d, hd, hd'⟩⟩
      have := hb a ha; have := hb b hb'; have := hb c hc; have := hb d hd
      omega
    · rintro ⟨a, b, c, d⟩
      have := hb p1 m1; have := hb p3 m3; have := hb p2 m2; have := hb p4 m4
      refine ⟨⟨max box.min.x B.min.x, max box.min.y B.min.y⟩, ?_, ⟨p1, m1, ?_⟩, ⟨p3, m3, ?_⟩, ⟨p2, m2, ?_⟩, ⟨p4, m4, ?_⟩⟩ <;>
        dsimp only <;> omega
  rw [hm]
  unfold headerDrops
  have hz : zoom ≠ kInvalidZoomLevel := hh.zoom
  constructor
  · rintro (⟨-, h⟩ | ⟨-, -, h⟩ | ⟨-, -, h⟩) <;> omega
  · intro h
    by_cases h1 : zoom < f.zmin ∨ f.zmax < zoom
    · exact .inl ⟨hz, h1⟩
    by_cases h2 : (boundingBox f.geometry).max.x < box.min.x ∨ (boundingBox f.geometry).min.x > box.max.x
    · exact .inr (.inl ⟨n1, n2, h2⟩)
    · refine .inr (.inr ⟨n3, n4, ?_⟩)
      omega

/-- Features stored without simplification masks: with hints, nothing is returned exactly when the zoom level is outside of the
feature's range or the box does not meet the feature's bounding box; otherwise the feature itself. -/
theorem C23_filter_exact (mk : Line → Bytes) (rd : Bytes → Nat → List Bool) (dec : List Meta) (f : Feature) (bs : Bytes)
    (box : Box) (zoom : Nat) (hh : HintOk box zoom)
    (hf : FeatureOk f) (hd : dec.length ≤ 2 ^ 64) (h : serializeFeature mk dec true f = .ok bs) (hl : bs.length < 2 ^ 32) :
    (f.zmin ≤ zoom ∧ zoom ≤ f.zmax ∧ meetsBox box (envelopePoints f.geometry) →
      deserializeFeature rd dec bs box zoom = .ok (some { f with geometry := withoutSmallRings f.geometry })) ∧
    (¬ (f.zmin ≤ zoom ∧ zoom ≤ f.zmax ∧ meetsBox box (envelopePoints f.geometry)) →
      deserializeFeature rd dec bs box zoom = .ok none) := by
  have hmk : masked true zoom f.geometry = false := by simp [masked]
  have := feature_read rd dec box zoom mk true f bs
    h hl hf.id hf.zmin hf.zmax hf.layer hf.coords hf.counts hf.points hd (by simp [hmk])
  constructor
  · intro hc
    rw [if_neg (by rw [headerDrops_iff hh hf]; exact not_not_intro hc), if_neg (by simp [hmk])] at this
    rw [this]
    simp [geometryRead, hmk, keepGeo_none, metasRead]
  · intro hc
    rw [if_pos ((headerDrops_iff hh hf).2 hc)] at this
    exact this

/-- the geometry with the points selected for a zoom level: point sets are never simplified -/
def Spec.simplified (bits : Line → List Bool) : Geometry → Geometry
  | .polyline ls => .polyline (ls.map (fun l => keep (bits l) l))
  | .polygon ps => .polygon (ps.map (fun q => ⟨keep (bits q.outer) q.outer, q.inners.map (fun l => keep (bits l) l)⟩))
  | g => g

/-- Features stored with simplification masks (after packing): nothing is returned exactly when the zoom level is outside, the box
does not meet, or the mask leaves no outer ring of four points; otherwise the feature with the points selected by the mask. -/
theorem C23_filter_exact_masked (mk : Line → Bytes) (rd : Bytes → Nat → List Bool) (dec : List Meta) (f : Feature) (bs : Bytes)
    (box : Box) (zoom : Nat) (hh : HintOk box zoom) (hm : ∀ l ∈ linesOf f.geometry, (rd (mk l) zoom).length = l.length)
    (hf : FeatureOk f) (hd : dec.length ≤ 2 ^ 64) (h : serializeFeature mk dec false f = .ok bs) (hl : bs.length < 2 ^ 32) :
    (f.zmin ≤ zoom ∧ zoom ≤ f.zmax ∧ meetsBox box (envelopePoints f.geometry) ∧
        withoutSmallRings (simplified (fun l => rd (mk l) zoom) f.geometry) ≠ .null →
      ∃ ms, ms.Perm f.metas ∧ deserializeFeature rd dec bs box zoom =
        .ok (some { f with metas := ms, geometry := withoutSmallRings (simplified (fun l => rd (mk l) zoom) f.geometry) })) ∧
    (¬ (f.zmin ≤ zoom ∧ zoom ≤ f.zmax ∧ meetsBox box (envelopePoints f.geometry) ∧
        withoutSmallRings (simplified (fun l => rd (mk l) zoom) f.geometry) ≠ .null) →
      deserializeFeature rd dec bs box zoom = .ok none) := by
  have hgn : nonEmpty f.geometry := by
    rcases C22_refused mk dec false f with ⟨a, _⟩ | ⟨_, a⟩
    · exact a
    · rw [a] at h; cases h
  have hread := feature_read rd dec box zoom mk false f bs
    h hl hf.id hf.zmin hf.zmax hf.layer hf.coords hf.counts hf.points hd (fun _ => hm)
  have hz : zoom ≠ kInvalidZoomLevel := hh.zoom
  have hgeo : geometryRead mk rd false zoom f.geometry = withoutSmallRings (simplified (fun l => rd (mk l) zoom) f.geometry) := by
    cases hgm : f.geometry with
    | null => rfl
    | point p => rfl
    | polyline l => simp [geometryRead, masked, hasLines, hz, keepGeo, simplified, withoutSmallRings]; intros; rfl
    | polygon l =>
      have hm' : masked false zoom (.polygon l) = true := by simp [masked, hasLines, hz]
      simp only [geometryRead, hm', if_true, keepGeo, simplified]
      rfl
  have hmn : masked false zoom f.geometry = false → withoutSmallRings (simplified (fun l => rd (mk l) zoom) f.geometry) ≠ .null := by
    cases hgm : f.geometry with
    | null => rw [hgm] at hgn; exact hgn.elim
    | point p => simp [simplified, withoutSmallRings]
    | polyline l => simp [masked, hasLines, hz]
    | polygon l => simp [masked, hasLines, hz]
  rw [hgeo] at hread
  constructor
  · rintro ⟨h1, h2, h3, h4⟩
    rw [if_neg (by rw [headerDrops_iff hh hf]; exact not_not_intro ⟨h1, h2, h3⟩), if_neg (fun hx => h4 hx.2)] at hread
    exact ⟨_, metasRead_perm dec false f.metas, hread⟩
  · intro hc
    by_cases hd' : headerDrops box zoom f
    · rw [if_pos hd'] at hread; exact hread
    · have h3 := hd'
      rw [headerDrops_iff hh hf, not_not] at h3
      have hnull : withoutSmallRings (simplified (fun l => rd (mk l) zoom) f.geometry) = .null := by
        by_contra hx; exact hc ⟨h3.1, h3.2.1, h3.2.2, hx⟩
      have hmk : masked false zoom f.geometry = true := by
        by_contra hx
        exact hmn (by simpa using hx) hnull
      rw [if_neg hd', if_pos ⟨hmk, hnull⟩] at hread
      exact hread

/-- Without hints nothing is dropped. -/
theorem C23_no_hints (mk : Line → Bytes) (rd : Bytes → Nat → List Bool) (dec : List Meta) (fast : Bool) (f : Feature) (bs : Bytes)
    (hf : FeatureOk f) (hd : dec.length ≤ 2 ^ 64) (h : serializeFeature mk dec fast f = .ok bs) (hl : bs.length < 2 ^ 32) :
    ∃ r, deserializeFeature rd dec bs = .ok (some r) := by
  obtain ⟨r, hr, _⟩ := C22_round_trip mk rd dec fast f bs hf hd h hl
  exact ⟨r, hr⟩

/-- hypotheses met: hints that meet and that miss a line from (10,20) to (30,40) -/
example : HintOk ⟨⟨30, 0⟩, ⟨50, 25⟩⟩ 7 ∧ meetsBox ⟨⟨30, 0⟩, ⟨50, 25⟩⟩ (envelopePoints (.polyline [[⟨10, 20⟩, ⟨30, 40⟩]])) ∧
    ¬ meetsBox ⟨⟨31, 0⟩, ⟨50, 25⟩⟩ (envelopePoints (.polyline [[⟨10, 20⟩, ⟨30, 40⟩]])) := by
  refine ⟨⟨by decide, by decide, by decide, by decide, by decide⟩, ⟨⟨30, 20⟩, by decide, ?_⟩, ?_⟩
  · simp [envelopePoints]
  · rintro ⟨q, ⟨q1, _⟩, _, ⟨p, hp, hq⟩, _⟩
    simp [envelopePoints] at hp
    rcases hp with rfl | rfl <;> dsimp only at hq q1 <;> omega

end Tiles
