import Verif.Props.C38
/-! C51 — aggregating polygon features: every polygon once, only features with equal metadata are merged. -/
namespace Tiles
open Spec

/-- the sorted features in groups: the groups are the features with equal metadata -/
theorem metaGroups (fs : List Feature) : ∃ gs, equalRanges (fun a b : Feature => decide (a.metas = b.metas)) (sortBy lineFeatureLe fs) = gs ∧
    gs.flatten.Perm fs ∧ (∀ g ∈ gs, g ≠ [] ∧ (∀ a ∈ g, ∀ b ∈ g, a.metas = b.metas) ∧ g.Pairwise (fun a b => a.id ≤ b.id)) ∧
    gs.Pairwise (fun g h => ∀ a ∈ g, ∀ b ∈ h, a.metas ≠ b.metas) := by
  have hperm := sortBy_perm lineFeatureLe fs
  have hsort := sortBy_sorted lineFeatureLe_trans lineFeatureLe_total fs
  generalize sortBy lineFeatureLe fs = l at hperm hsort
  have hms : l.Pairwise (fun a b => metasLe a.metas b.metas = true) := hsort.imp (by
    intro a b hab
    unfold lineFeatureLe at hab
    by_cases e : a.metas = b.metas
    · rw [e]; exact metasLe_refl _
    · rw [if_neg e] at hab; exact hab)
  obtain ⟨hr1, hr2⟩ := equalRanges_sorted (k := fun f : Feature => f.metas) (le := fun a b => metasLe a b = true)
    (eq := fun a b => decide (a.metas = b.metas)) (by intro a b; simp) (fun x y => metasLe_antisymm x y) l hms
  have hfl := equalRanges_flatten (fun a b : Feature => decide (a.metas = b.metas)) l
  have hne := equalRanges_ne (fun a b : Feature => decide (a.metas = b.metas)) l
  refine ⟨_, rfl, by rw [hfl]; exact hperm, fun g hg => ⟨hne g hg, hr1 g hg, ?_⟩, hr2.imp (fun h a ha b hb => (h a ha b hb).2)⟩
  have hsub : g.Sublist l := by rw [← hfl]; exact List.sublist_flatten_of_mem hg
  refine List.Pairwise.imp_of_mem ?_ (hsort.sublist hsub)
  intro a b ha hb hab
  unfold lineFeatureLe at hab
  rw [if_pos (hr1 g hg a ha b hb)] at hab
  simpa using hab

/-- one of the groups is the features with its metadata -/
theorem metaGroup_filter (gs : List (List Feature)) (hr2 : gs.Pairwise (fun g h => ∀ a ∈ g, ∀ b ∈ h, a.metas ≠ b.metas))
    (g : List Feature) (hg : g ∈ gs) (m : List Meta) (hne : g ≠ []) (h1 : ∀ f ∈ g, f.metas = m) :
    g = gs.flatten.filter (fun f => decide (f.metas = m)) := by
  obtain ⟨gs1, gs2, rfl⟩ := List.append_of_mem hg
  rw [List.flatten_append, List.flatten_cons, List.filter_append, List.filter_append]
  obtain ⟨a, ha⟩ := List.exists_mem_of_ne_nil _ hne
  have hpa := List.pairwise_append.1 hr2
  have e1 : gs1.flatten.filter (fun f => decide (f.metas = m)) = [] := by
    rw [List.filter_eq_nil_iff]
    intro f hf
    obtain ⟨g', hg', hfg'⟩ := List.mem_flatten.1 hf
    have := hpa.2.2 g' hg' g (by simp) f hfg' a ha
    simp only [decide_eq_true_eq]
    intro hc; exact this (hc.trans (h1 a ha).symm)
  have e2 : gs2.flatten.filter (fun f => decide (f.metas = m)) = [] := by
    rw [List.filter_eq_nil_iff]
    intro f hf
    obtain ⟨g', hg', hfg'⟩ := List.mem_flatten.1 hf
    have := (List.pairwise_cons.1 hpa.2.1).1 g' hg' a ha f hfg'
    simp only [decide_eq_true_eq]
    intro hc; exact this ((h1 a ha).trans hc.symm)
  rw [e1, e2]
  simp only [List.nil_append, List.append_nil]
  symm
  rw [List.filter_eq_self]
  intro f hf
  simpa using h1 f hf

theorem polygonsOfGroup_ok (fs : List Feature) (h : ∀ f ∈ fs, f.geometry = .polygon (featurePolygons f)) :
    polygonsOfGroup fs = .ok (fs.flatMap featurePolygons) := by
  induction fs with
  | nil => rfl
  | cons f fs ih =>
    unfold polygonsOfGroup
    rw [h f (by simp)]
    dsimp only
    rw [ih (fun g hg => h g (by simp [hg])), Res.ok_bind]
    rfl

/-- what becomes of a group -/
def PolyGroup (g : List Feature) (o : Feature) : Prop :=
  (∀ f ∈ g, f.metas = o.metas) ∧ o.geometry = .polygon (g.flatMap featurePolygons) ∧ (∃ f ∈ g, f.id = o.id) ∧ (∀ f ∈ g, o.id ≤ f.id)

theorem aggregatePolygonGroups_ok (z : Nat) (hz : z ≤ 20) : ∀ gs : List (List Feature),
    (∀ g ∈ gs, g ≠ [] ∧ (∀ a ∈ g, ∀ b ∈ g, a.metas = b.metas) ∧ g.Pairwise (fun a b => a.id ≤ b.id)) →
    (∀ g ∈ gs, ∀ f ∈ g, f.geometry = .polygon (featurePolygons f)) →
    ∃ out, aggregatePolygonGroups z gs = .ok out ∧ List.Forall₂ PolyGroup gs out
  | [], _, _ => ⟨[], rfl, .nil⟩
  | g :: gs, h, hp => by
    obtain ⟨out, e, ho⟩ := aggregatePolygonGroups_ok z hz gs (fun g hg => h g (by simp [hg])) (fun g hg => hp g (by simp [hg]))
    obtain ⟨h1, h2, h3⟩ := h g (by simp)
    cases g with
    | nil => exact absurd rfl h1
    | cons f g =>
      refine ⟨⟨f.id, kInvalidLayer, 0, 0, f.metas, .polygon ((f :: g).flatMap featurePolygons)⟩ :: out, ?_, .cons ⟨?_, rfl, ⟨f, by simp, rfl⟩, ?_⟩ ho⟩
      · unfold aggregatePolygonGroups aggregatePolygonGroup
        dsimp only
        rw [polygonsOfGroup_ok _ (hp _ (by simp)), Res.ok_bind, if_neg (show ¬ kMaxZoomLevel < z by unfold kMaxZoomLevel; omega), Res.pure_eq, Res.ok_bind, e,
          Res.ok_bind]
        rfl
      · intro f' hf'; exact h2 f' hf' f (by simp)
      · intro f' hf'
        rcases List.mem_cons.1 hf' with rfl | e
        · exact Nat.le_refl _
        · exact (List.pairwise_cons.1 h3).1 f' e

theorem forall₂_left {α β : Type} {R : α → β → Prop} {l : List α} {r : List β} (h : List.Forall₂ R l r) {a : α} (ha : a ∈ l) : ∃ b ∈ r, R a b := by
  induction h with
  | nil => cases ha
  | cons h1 _ ih =>
    rcases List.mem_cons.1 ha with rfl | ha
    · exact ⟨_, by simp, h1⟩
    · obtain ⟨b, x, y⟩ := ih ha; exact ⟨b, by simp [x], y⟩

theorem forall₂_right {α β : Type} {R : α → β → Prop} {l : List α} {r : List β} (h : List.Forall₂ R l r) {b : β} (hb : b ∈ r) : ∃ a ∈ l, R a b := by
  induction h with
  | nil => cases hb
  | cons h1 _ ih =>
    rcases List.mem_cons.1 hb with rfl | hb
    · exact ⟨_, by simp, h1⟩
    · obtain ⟨a, x, y⟩ := ih hb; exact ⟨a, by simp [x], y⟩

theorem polyAgg_all (z : Nat) (hz : z ≤ 20) (fs : List Feature) (h : ∀ f ∈ fs, f.geometry = .polygon (featurePolygons f)) :
    ∃ gs out, aggregatePolygonFeatures z fs = .ok out ∧ gs.flatten.Perm fs ∧ List.Forall₂ PolyGroup gs out ∧ PolygonsAggregated fs out := by
  obtain ⟨gs, e, hperm, h1, h2⟩ := metaGroups fs
  obtain ⟨out, ho, hf⟩ := aggregatePolygonGroups_ok z hz gs h1 (fun g hg f hf => h f (hperm.mem_iff.1 (List.mem_flatten.2 ⟨g, hg, hf⟩)))
  refine ⟨gs, out, by unfold aggregatePolygonFeatures; rw [e, ho], hperm, hf, ?_, ?_, ?_⟩
  · unfold List.Nodup
    rw [List.pairwise_map]
    clear e ho hperm
    induction hf with
    | nil => exact .nil
    | @cons g o gs out r1 r2 ih =>
      rw [List.pairwise_cons] at h2 ⊢
      refine ⟨?_, ih (fun g hg => h1 g (by simp [hg])) h2.2⟩
      intro b hb heq
      obtain ⟨g', hg', hb'⟩ := forall₂_right r2 hb
      obtain ⟨a, ha⟩ := List.exists_mem_of_ne_nil _ (h1 g (by simp)).1
      obtain ⟨c, hc⟩ := List.exists_mem_of_ne_nil _ (h1 g' (by simp [hg'])).1
      exact h2.1 g' hg' a ha c hc (by rw [r1.1 a ha, hb'.1 c hc, heq])
  · intro f hf'
    obtain ⟨g, hg, hfg⟩ := List.mem_flatten.1 (hperm.mem_iff.2 hf')
    obtain ⟨o, x, y⟩ := forall₂_left hf hg
    exact ⟨o, x, (y.1 f hfg).symm⟩
  · intro o hoo
    obtain ⟨g, hg, r1, r2, r3, r4⟩ := forall₂_right hf hoo
    obtain ⟨h5, _, h6⟩ := h1 g hg
    refine ⟨g, ?_, h6, r2, r3, r4⟩
    rw [metaGroup_filter gs h2 g hg o.metas h5 r1]
    exact hperm.filter _

/-- Polygon features are aggregated to one feature for every set of metadata: with these metadata, the smallest id, and the polygons of exactly the
features with these metadata, in the order of the ids. -/
theorem C51_aggregated (z : Nat) (hz : z ≤ 20) (fs : List Feature) (h : ∀ f ∈ fs, ∃ ps, f.geometry = .polygon ps) :
    ∃ out, aggregatePolygonFeatures z fs = .ok out ∧ PolygonsAggregated fs out := by
  obtain ⟨_, out, h1, _, _, h2⟩ := polyAgg_all z hz fs (by
    intro f hf
    obtain ⟨ps, e⟩ := h f hf
    unfold featurePolygons; rw [e])
  exact ⟨out, h1, h2⟩

/-- No polygon is lost, added, changed or written twice. -/
theorem C51_every_polygon_once (z : Nat) (hz : z ≤ 20) (fs : List Feature) (h : ∀ f ∈ fs, ∃ ps, f.geometry = .polygon ps) :
    ∃ out, aggregatePolygonFeatures z fs = .ok out ∧ (out.flatMap featurePolygons).Perm (fs.flatMap featurePolygons) := by
  obtain ⟨gs, out, h1, h2, h3, hx⟩ := polyAgg_all z hz fs (by
    intro f hf
    obtain ⟨ps, e⟩ := h f hf
    unfold featurePolygons; rw [e])
  refine ⟨out, h1, ?_⟩
  have : out.flatMap featurePolygons = gs.flatten.flatMap featurePolygons := by
    clear h1 h2 hx
    induction h3 with
    | nil => rfl
    | cons r1 _ ih =>
      rw [List.flatMap_cons, List.flatten_cons, List.flatMap_append, ih]
      congr 1
      rw [featurePolygons, r1.2.1]
  rw [this]
  exact h2.flatMap_right _

/-- Features with different metadata stay apart, unchanged but for layer and zoom levels. -/
theorem C51_different_kept (z : Nat) (hz : z ≤ 20) (fs : List Feature) (h : ∀ f ∈ fs, ∃ ps, f.geometry = .polygon ps) (f : Feature) (hf : f ∈ fs)
    (hone : fs.filter (fun g => decide (g.metas = f.metas)) = [f]) :
    ∃ out, aggregatePolygonFeatures z fs = .ok out ∧ ∃ g ∈ out, g.id = f.id ∧ g.metas = f.metas ∧ g.geometry = f.geometry := by
  obtain ⟨out, h1, h2, h3, h4⟩ := C51_aggregated z hz fs h
  obtain ⟨g, hg, e⟩ := h3 f hf
  refine ⟨out, h1, g, hg, ?_⟩
  obtain ⟨group, e1, _, e3, ⟨f', e4, e5⟩, _⟩ := h4 g hg
  rw [e, hone] at e1
  have e1 := List.perm_singleton.1 e1
  subst e1
  rw [List.mem_singleton] at e4
  subst e4
  obtain ⟨ps, hps⟩ := h f' hf
  refine ⟨e5.symm, e, ?_⟩
  rw [e3, hps]
  simp [featurePolygons, hps]

/-- The aggregated feature has no layer (and not the zoom levels of its parts). -/
theorem C51_layer_lost (z : Nat) (hz : z ≤ 20) (f : Feature) (ps : List Polygon) (h : f.geometry = .polygon ps) :
    aggregatePolygonFeatures z [f] = .ok [⟨f.id, kInvalidLayer, 0, 0, f.metas, f.geometry⟩] := by
  show aggregatePolygonGroups z [[f]] = _
  unfold aggregatePolygonGroups aggregatePolygonGroup
  dsimp only
  rw [polygonsOfGroup_ok [f] (by
    intro g hg
    rw [List.mem_singleton] at hg
    subst hg
    unfold featurePolygons; rw [h]), Res.ok_bind, if_neg (show ¬ kMaxZoomLevel < z by unfold kMaxZoomLevel; omega), Res.pure_eq, Res.ok_bind]
  simp [featurePolygons, h, aggregatePolygonGroups, Res.pure_eq, Res.ok_bind]

/-- A feature that is no polygon throws. -/
theorem C51_other_geometry (z : Nat) (f : Feature) (hf : ∀ ps, f.geometry ≠ .polygon ps) : aggregatePolygonFeatures z [f] = .throw_ := by
  show aggregatePolygonGroups z [[f]] = _
  unfold aggregatePolygonGroups aggregatePolygonGroup polygonsOfGroup
  cases hg : f.geometry with
  | polygon ps => exact absurd hg (hf ps)
  | _ => rfl

/-- Above zoom level 20 the shift is undefined. -/
theorem C51_zoom_ub (z : Nat) (hz : 20 < z) (f : Feature) (ps : List Polygon) (h : f.geometry = .polygon ps) : aggregatePolygonFeatures z [f] = .ub := by
  show aggregatePolygonGroups z [[f]] = _
  unfold aggregatePolygonGroups aggregatePolygonGroup
  dsimp only
  rw [polygonsOfGroup_ok [f] (by
    intro g hg
    rw [List.mem_singleton] at hg
    subst hg
    unfold featurePolygons; rw [h]), Res.ok_bind, if_pos (show kMaxZoomLevel < z by unfold kMaxZoomLevel; omega)]
  rfl

/-! ### example: two lakes with the same tags, and one with others -/

def lake51 (id : Nat) (tag : UInt8) (x : Int) : Feature := ⟨id, 1, 0, 20, [⟨[97], [2, tag]⟩], .polygon [⟨[⟨x, 0⟩, ⟨x + 4, 0⟩, ⟨x, 4⟩, ⟨x, 0⟩], []⟩]⟩

example : aggregatePolygonFeatures 10 [lake51 9 98 0, lake51 5 99 10, lake51 3 98 20] =
    .ok [⟨3, kInvalidLayer, 0, 0, [⟨[97], [2, 98]⟩], .polygon [⟨[⟨20, 0⟩, ⟨24, 0⟩, ⟨20, 4⟩, ⟨20, 0⟩], []⟩, ⟨[⟨0, 0⟩, ⟨4, 0⟩, ⟨0, 4⟩, ⟨0, 0⟩], []⟩]⟩,
      ⟨5, kInvalidLayer, 0, 0, [⟨[97], [2, 99]⟩], .polygon [⟨[⟨10, 0⟩, ⟨14, 0⟩, ⟨10, 4⟩, ⟨10, 0⟩], []⟩]⟩] := by decide +kernel

example : ∀ f ∈ [lake51 9 98 0, lake51 5 99 10, lake51 3 98 20], ∃ ps, f.geometry = .polygon ps := by
  intro f hf
  simp only [List.mem_cons, List.not_mem_nil, or_false] at hf
  rcases hf with rfl | rfl | rfl <;> exact ⟨_, rfl⟩

example : [lake51 9 98 0, lake51 5 99 10, lake51 3 98 20].filter (fun g => decide (g.metas = (lake51 5 99 10).metas)) = [lake51 5 99 10] := by decide +kernel

end Tiles
