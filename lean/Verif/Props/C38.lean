import Verif.Proof.AggEmit
import Verif.Proof.MetaOrder
import Verif.Spec.TileContent
/-! C38 — aggregating line features: joined, never lost, never mixed. -/
namespace Tiles
open Spec

/-- The lines of one group are joined exactly where two line ends meet: every line is in exactly one result, as it is or backwards, and
wherever exactly two (open) lines end at a point, they are in the same result (except at the reserved point).  -/
theorem C38_joined (pts : List Line) (hne : ∀ l ∈ pts, l ≠ []) : ∃ out, joinGroup pts = .ok out ∧ Joined ⟨2 ^ 63 - 1, 2 ^ 63 - 1⟩ pts out :=
  joinGroup_joined pts hne

theorem mem_of_endsAt {pts : List Line} {i : Nat} {p : XY} (h : EndsAt pts i p) : ∃ l ∈ pts, p ∈ l := by
  have hi := endsAt_lt h
  have hl : lineNo pts i ∈ pts := by unfold lineNo; simp [List.getD, List.getElem?_eq_getElem hi]
  refine ⟨_, hl, ?_⟩
  rcases h with h | h
  · exact List.mem_of_mem_head? h
  · exact List.mem_of_getLast? h

/-- The reserved point is no real coordinate: lines with coordinates below the largest 64-bit number are joined wherever two ends meet. -/
theorem C38_joined_everywhere (pts : List Line) (hne : ∀ l ∈ pts, l ≠ []) (hr : ∀ l ∈ pts, ∀ p ∈ l, p.x < 9223372036854775807 ∨ p.y < 9223372036854775807) :
    ∃ out, joinGroup pts = .ok out ∧ JoinedEverywhere pts out := by
  obtain ⟨out, h, chains, h1, h2, h3, h4⟩ := joinGroup_joined pts hne
  refine ⟨out, h, chains, h1, h2, h3, fun p i j hj => h4 p i j ?_ hj⟩
  rintro rfl
  obtain ⟨l, hl, hp⟩ := mem_of_endsAt hj.2.1
  have := hr l hl _ hp
  unfold invalidXY at this
  norm_num at this

/-- The segments stay the same: none is lost, none is added, none is used twice. -/
theorem C38_segments (pts : List Line) (hne : ∀ l ∈ pts, l ≠ []) :
    ∃ out, joinGroup pts = .ok out ∧ ((out.map segments).flatten).Perm ((pts.map segments).flatten) := by
  obtain ⟨out, h1, h2⟩ := joinGroup_joined pts hne
  exact ⟨out, h1, joined_segments h2⟩

/-- An empty line is undefined behaviour (`front()` of an empty vector). -/
theorem C38_empty_line_ub (a b : List Line) (ha : ∀ l ∈ a, l ≠ []) : joinGroup (a ++ [] :: b) = .ub := by
  have : ∀ n, makeHandles n (a ++ [] :: b) = .ub := by
    induction a with
    | nil => intro n; rfl
    | cons l a ih =>
      intro n
      have hl := ha l (by simp)
      rw [List.cons_append]
      unfold makeHandles
      rw [List.head?_eq_some_head hl, List.getLast?_eq_some_getLast hl]
      dsimp only
      rw [ih (fun l hl => ha l (by simp [hl])) (n + 1), Res.ub_bind]
  unfold joinGroup
  rw [this 0, Res.ub_bind]

/-! ### all features -/

theorem metasLe_total (a : List Meta) : ∀ b, metasLe a b = true ∨ metasLe b a = true := by
  induction a with
  | nil => intro b; simp [metasLe]
  | cons x a ih =>
    intro b
    cases b with
    | nil => simp [metasLe]
    | cons y b =>
      simp only [metasLe]
      by_cases h : x = y
      · rw [if_pos h, if_pos h.symm]; exact ih b
      · rw [if_neg h, if_neg (fun e => h e.symm)]; exact metaLe_total x y

theorem metasLe_antisymm (a : List Meta) : ∀ b, metasLe a b = true → metasLe b a = true → a = b := by
  induction a with
  | nil => intro b _ h; cases b with
    | nil => rfl
    | cons y b => simp [metasLe] at h
  | cons x a ih =>
    intro b h h'
    cases b with
    | nil => simp [metasLe] at h
    | cons y b =>
      simp only [metasLe] at h h'
      by_cases e : x = y
      · rw [if_pos e] at h; rw [if_pos e.symm] at h'; rw [e, ih b h h']
      · rw [if_neg e] at h; rw [if_neg (fun e' => e e'.symm)] at h'
        exact absurd (metaLe_antisymm h h') e

theorem metasLe_trans (a : List Meta) : ∀ b c, metasLe a b = true → metasLe b c = true → metasLe a c = true := by
  induction a with
  | nil => intro b c _ _; simp [metasLe]
  | cons x a ih =>
    intro b c h h'
    cases b with
    | nil => simp [metasLe] at h
    | cons y b =>
      cases c with
      | nil => simp [metasLe] at h'
      | cons w c =>
        simp only [metasLe] at h h' ⊢
        by_cases e1 : x = y
        · subst e1
          rw [if_pos rfl] at h
          by_cases e2 : x = w
          · rw [if_pos e2] at h' ⊢; exact ih b c h h'
          · rw [if_neg e2] at h' ⊢; exact h'
        · rw [if_neg e1] at h
          by_cases e2 : y = w
          · subst e2; rw [if_neg e1]; exact h
          · rw [if_neg e2] at h'
            by_cases e3 : x = w
            · subst e3; exact absurd (metaLe_antisymm h h') e1
            · rw [if_neg e3]; exact metaLe_trans x y w h h'

theorem metasLe_refl (a : List Meta) : metasLe a a = true := (metasLe_total a a).elim id id

theorem lineFeatureLe_trans (a b c : Feature) (h : lineFeatureLe a b = true) (h' : lineFeatureLe b c = true) : lineFeatureLe a c = true := by
  unfold lineFeatureLe at *
  by_cases e1 : a.metas = b.metas
  · rw [if_pos e1] at h
    by_cases e2 : b.metas = c.metas
    · rw [if_pos e2] at h'; rw [if_pos (e1.trans e2)]
      simp only [decide_eq_true_eq] at *; omega
    · rw [if_neg e2] at h'; rw [if_neg (e1 ▸ e2), e1]; exact h'
  · rw [if_neg e1] at h
    by_cases e2 : b.metas = c.metas
    · rw [if_neg (e2 ▸ e1), ← e2]; exact h
    · rw [if_neg e2] at h'
      by_cases e3 : a.metas = c.metas
      · rw [← e3] at h'; exact absurd (metasLe_antisymm _ _ h h') e1
      · rw [if_neg e3]; exact metasLe_trans _ _ _ h h'

theorem lineFeatureLe_total (a b : Feature) : lineFeatureLe a b = true ∨ lineFeatureLe b a = true := by
  unfold lineFeatureLe
  by_cases e : a.metas = b.metas
  · rw [if_pos e, if_pos e.symm]; simp only [decide_eq_true_eq]; omega
  · rw [if_neg e, if_neg (fun x => e x.symm)]; exact metasLe_total _ _

theorem linesOfGroup_ok (fs : List Feature) (h : ∀ f ∈ fs, LineFeature f) : linesOfGroup fs = .ok (fs.flatMap featureLines) := by
  induction fs with
  | nil => rfl
  | cons f fs ih =>
    obtain ⟨h1, h2, h3⟩ := h f (by simp)
    unfold linesOfGroup
    rw [h1]
    dsimp only
    rw [decide_eq_true h3, verify_true, Res.ok_bind, ih (fun g hg => h g (by simp [hg])), Res.ok_bind]
    rfl

theorem aggregateGroup_ok (simplify : Nat → Line → Line) (z : Nat) (g : List Feature) (hg : g ≠ []) (h : ∀ f ∈ g, LineFeature f)
    (hm : ∀ a ∈ g, ∀ b ∈ g, a.metas = b.metas) (hs : g.Pairwise (fun a b => a.id ≤ b.id)) :
    ∃ out joined, aggregateGroup simplify z g = .ok out ∧ (∀ f ∈ g, f.metas = out.metas) ∧ Joined ⟨2 ^ 63 - 1, 2 ^ 63 - 1⟩ (g.flatMap featureLines) joined ∧
      out.geometry = .polyline (joined.map (fun l => if z ≤ kMaxZoomLevel then simplify (2 ^ (kMaxZoomLevel - z)) l else l)) ∧
      (∃ f ∈ g, f.id = out.id) ∧ (∀ f ∈ g, out.id ≤ f.id) ∧ out.layer = kInvalidLayer := by
  cases g with
  | nil => exact absurd rfl hg
  | cons f g =>
    obtain ⟨joined, h1, h2⟩ := C38_joined ((f :: g).flatMap featureLines) (by
      intro l hl
      obtain ⟨f', hf', hl'⟩ := List.mem_flatMap.1 hl
      exact (h f' hf').2.1 l hl')
    refine ⟨⟨f.id, kInvalidLayer, 0, 0, f.metas, .polyline (if z ≤ kMaxZoomLevel then joined.map (simplify (2 ^ (kMaxZoomLevel - z))) else joined)⟩,
      joined, ?_, ?_, h2, ?_, ⟨f, by simp, rfl⟩, ?_, rfl⟩
    · unfold aggregateGroup
      dsimp only
      rw [linesOfGroup_ok _ h, Res.ok_bind, h1, Res.ok_bind]
      rfl
    · intro f' hf'; exact hm f' hf' f (by simp)
    · by_cases hz : z ≤ kMaxZoomLevel
      · simp [hz]
      · simp [hz]
    · intro f' hf'
      rcases List.mem_cons.1 hf' with rfl | e
      · exact Nat.le_refl _
      · exact (List.pairwise_cons.1 hs).1 f' e

/-- Features of (non-empty) lines are aggregated to one feature for every set of metadata: with these metadata, the smallest id, and the
lines of exactly the features with these metadata, joined. -/
theorem C38_aggregated (simplify : Nat → Line → Line) (z : Nat) (fs : List Feature) (h : ∀ f ∈ fs, LineFeature f) :
    ∃ out, aggregateLineFeatures simplify z fs = .ok out ∧
      Aggregated ⟨2 ^ 63 - 1, 2 ^ 63 - 1⟩ (fun l => if z ≤ kMaxZoomLevel then simplify (2 ^ (kMaxZoomLevel - z)) l else l) fs out := by
  have hperm := sortBy_perm lineFeatureLe fs
  have hsort := sortBy_sorted lineFeatureLe_trans lineFeatureLe_total fs
  unfold aggregateLineFeatures
  generalize sortBy lineFeatureLe fs = l at hperm hsort
  have hms : l.Pairwise (fun a b => metasLe a.metas b.metas = true) := hsort.imp (by
    intro a b hab
    unfold lineFeatureLe at hab
    by_cases e : a.metas = b.metas
    · rw [e]; exact metasLe_refl _
    · rw [if_neg e] at hab; exact hab)
  obtain ⟨hr1, hr2⟩ := equalRanges_sorted (k := fun f : Feature => f.metas) (le := fun a b => metasLe a b = true)
    (eq := fun a b => decide (a.metas = b.metas)) (by intro a b; simp) (fun x y => metasLe_antisymm x y) l hms
  have hfl := equalRanges_flatten (fun a b : Feature => decide (a.metas = b.metas)) l
  have hne := equalRanges_ne (fun a b : Feature => decide (a.metas = b.metas)) l
  generalize equalRanges (fun a b : Feature => decide (a.metas = b.metas)) l = gs at hr1 hr2 hfl hne
  have hid : ∀ g ∈ gs, g.Pairwise (fun a b => a.id ≤ b.id) := by
    intro g hg
    have hsub : g.Sublist l := by rw [← hfl]; exact List.sublist_flatten_of_mem hg
    refine List.Pairwise.imp_of_mem ?_ (hsort.sublist hsub)
    intro a b ha hb hab
    unfold lineFeatureLe at hab
    rw [if_pos (hr1 g hg a ha b hb)] at hab
    simpa using hab
  have hline : ∀ g ∈ gs, ∀ f ∈ g, LineFeature f := by
    intro g hg f hf
    exact h f (hperm.mem_iff.1 (by rw [← hfl]; exact List.mem_flatten.2 ⟨g, hg, hf⟩))
  -- the groups one by one
  have key : ∀ gs : List (List Feature), (∀ g ∈ gs, g ≠ [] ∧ (∀ f ∈ g, LineFeature f) ∧ (∀ a ∈ g, ∀ b ∈ g, a.metas = b.metas) ∧
      g.Pairwise (fun a b => a.id ≤ b.id)) →
      ∃ out, aggregateGroups simplify z gs = .ok out ∧ List.Forall₂ (fun g o => (∀ f ∈ g, f.metas = o.metas) ∧ ∃ joined,
        Joined ⟨2 ^ 63 - 1, 2 ^ 63 - 1⟩ (g.flatMap featureLines) joined ∧
        o.geometry = .polyline (joined.map (fun l => if z ≤ kMaxZoomLevel then simplify (2 ^ (kMaxZoomLevel - z)) l else l)) ∧
        (∃ f ∈ g, f.id = o.id) ∧ (∀ f ∈ g, o.id ≤ f.id)) gs out := by
    intro gs
    induction gs with
    | nil => intro _; exact ⟨[], rfl, List.Forall₂.nil⟩
    | cons g gs ih =>
      intro hgs
      obtain ⟨out, e, ho⟩ := ih (fun g hg => hgs g (by simp [hg]))
      obtain ⟨h1, h2, h3, h4⟩ := hgs g (by simp)
      obtain ⟨o, joined, e1, e2, e3, e4, e5, e6, _⟩ := aggregateGroup_ok simplify z g h1 h2 h3 h4
      refine ⟨o :: out, ?_, List.Forall₂.cons ⟨e2, joined, e3, e4, e5, e6⟩ ho⟩
      unfold aggregateGroups
      rw [e1, Res.ok_bind, e, Res.ok_bind]
      rfl
  obtain ⟨out, e, ho⟩ := key gs (fun g hg => ⟨hne g hg, hline g hg, hr1 g hg, hid g hg⟩)
  refine ⟨out, e, ?_, ?_, ?_⟩
  · -- metadata of the results
    have : out.Pairwise (fun a b => a.metas ≠ b.metas) := by
      clear e hfl
      induction ho with
      | nil => exact List.Pairwise.nil
      | @cons g o gs out h1 h2 ih =>
        have hp := List.pairwise_cons.1 hr2
        rw [List.pairwise_cons]
        refine ⟨?_, ih (fun g hg => hr1 g (by simp [hg])) hp.2 (fun g hg => hne g (by simp [hg])) (fun g hg => hid g (by simp [hg]))
          (fun g hg => hline g (by simp [hg]))⟩
        intro b hb heq
        obtain ⟨g', hg', hb'⟩ : ∃ g' ∈ gs, ∀ f ∈ g', f.metas = b.metas := by
          clear ih hr2 hp hne hr1 hid hline
          induction h2 with
          | nil => cases hb
          | cons h3 h4 ih => 
            rcases List.mem_cons.1 hb with rfl | hb
            · exact ⟨_, by simp, h3.1⟩
            · obtain ⟨g', x, y⟩ := ih hb; exact ⟨g', by simp [x], y⟩
        obtain ⟨a, ha⟩ := List.exists_mem_of_ne_nil _ (hne g (by simp))
        obtain ⟨c, hc⟩ := List.exists_mem_of_ne_nil _ (hne g' (by simp [hg']))
        have h5 := (hp.1 g' hg' a ha c hc).2
        exact h5 (by show a.metas = c.metas; rw [h1.1 a ha, hb' c hc, heq])
    unfold List.Nodup
    rw [List.pairwise_map]
    exact this
  · intro f hf
    have hf' : f ∈ gs.flatten := by rw [hfl]; exact hperm.mem_iff.2 hf
    obtain ⟨g, hg, hfg⟩ := List.mem_flatten.1 hf'
    clear e hfl hr1 hr2 hne hid hline hf'
    induction ho with
    | nil => cases hg
    | cons h1 h2 ih =>
      rcases List.mem_cons.1 hg with rfl | hg
      · exact ⟨_, by simp, (h1.1 f hfg).symm⟩
      · obtain ⟨o, x, y⟩ := ih hg; exact ⟨o, by simp [x], y⟩
  · intro o hoo
    obtain ⟨g, hg, h1, joined, h2, h3, h4, h5⟩ : ∃ g ∈ gs, (∀ f ∈ g, f.metas = o.metas) ∧ ∃ joined,
        Joined ⟨2 ^ 63 - 1, 2 ^ 63 - 1⟩ (g.flatMap featureLines) joined ∧
        o.geometry = .polyline (joined.map (fun l => if z ≤ kMaxZoomLevel then simplify (2 ^ (kMaxZoomLevel - z)) l else l)) ∧
        (∃ f ∈ g, f.id = o.id) ∧ (∀ f ∈ g, o.id ≤ f.id) := by
      clear e hfl hr1 hr2 hne hid hline
      induction ho with
      | nil => cases hoo
      | cons h1 h2 ih =>
        rcases List.mem_cons.1 hoo with rfl | hoo
        · exact ⟨_, by simp, h1⟩
        · obtain ⟨g, x, y⟩ := ih hoo; exact ⟨g, by simp [x], y⟩
    refine ⟨g, joined, ?_, h2, h3, h4, h5⟩
    have hff : g = gs.flatten.filter (fun f => decide (f.metas = o.metas)) := by
      clear e hfl hid hline ho h2 h3 h4 h5 key
      obtain ⟨gs1, gs2, rfl⟩ := List.append_of_mem hg
      rw [List.flatten_append, List.flatten_cons, List.filter_append, List.filter_append]
      obtain ⟨a, ha⟩ := List.exists_mem_of_ne_nil _ (hne g hg)
      have hpa := List.pairwise_append.1 hr2
      have e1 : gs1.flatten.filter (fun f => decide (f.metas = o.metas)) = [] := by
        rw [List.filter_eq_nil_iff]
        intro f hf
        obtain ⟨g', hg', hfg'⟩ := List.mem_flatten.1 hf
        have := (hpa.2.2 g' hg' g (by simp) f hfg' a ha).2
        simp only [decide_eq_true_eq]
        intro hc; exact this (hc.trans (h1 a ha).symm)
      have e2 : gs2.flatten.filter (fun f => decide (f.metas = o.metas)) = [] := by
        rw [List.filter_eq_nil_iff]
        intro f hf
        obtain ⟨g', hg', hfg'⟩ := List.mem_flatten.1 hf
        have := ((List.pairwise_cons.1 hpa.2.1).1 g' hg' a ha f hfg').2
        simp only [decide_eq_true_eq]
        intro hc; exact this ((h1 a ha).trans hc.symm)
      rw [e1, e2]
      simp only [List.nil_append, List.append_nil]
      symm
      rw [List.filter_eq_self]
      intro f hf
      simpa using h1 f hf
    rw [hff, hfl]
    exact hperm.filter _

/-- No segment of a feature is lost, added, or moved to a feature with other metadata; above the largest zoom level (no simplification) the
features written have exactly the segments of the features read. -/
theorem C38_no_segment_lost (simplify : Nat → Line → Line) (z : Nat) (hz : kMaxZoomLevel < z) (fs : List Feature) (h : ∀ f ∈ fs, LineFeature f) :
    ∃ out, aggregateLineFeatures simplify z fs = .ok out ∧ ∀ m : List Meta,
      (((out.filter (fun f => decide (f.metas = m))).flatMap featureLines).map segments).flatten.Perm
        (((fs.filter (fun f => decide (f.metas = m))).flatMap featureLines).map segments).flatten := by
  obtain ⟨out, h1, h2, h3, h4⟩ := C38_aggregated simplify z fs h
  refine ⟨out, h1, ?_⟩
  intro m
  by_cases hm : ∃ g ∈ out, g.metas = m
  · obtain ⟨g, hg, rfl⟩ := hm
    obtain ⟨group, joined, e1, e2, e3, _⟩ := h4 g hg
    have hone : out.filter (fun f => decide (f.metas = g.metas)) = [g] := by
      obtain ⟨a, b, rfl⟩ := List.append_of_mem hg
      rw [List.map_append, List.map_cons, List.nodup_append, List.nodup_cons] at h2
      rw [List.filter_append, List.filter_cons, if_pos (by simp)]
      have ha : a.filter (fun f => decide (f.metas = g.metas)) = [] := by
        rw [List.filter_eq_nil_iff]
        intro f hf hc
        simp only [decide_eq_true_eq] at hc
        exact h2.2.2 f.metas (List.mem_map.2 ⟨f, hf, rfl⟩) g.metas (by simp) hc
      have hb : b.filter (fun f => decide (f.metas = g.metas)) = [] := by
        rw [List.filter_eq_nil_iff]
        intro f hf hc
        simp only [decide_eq_true_eq] at hc
        exact h2.2.1.1 (List.mem_map.2 ⟨f, hf, hc⟩)
      rw [ha, hb]; rfl
    have hgl : featureLines g = joined := by
      unfold featureLines
      rw [e3]
      simp only [if_neg (show ¬ z ≤ kMaxZoomLevel by omega), List.map_id']
    rw [hone, List.flatMap_cons, List.flatMap_nil, List.append_nil, hgl]
    refine (joined_segments e2).trans ?_
    exact (((e1.flatMap_right featureLines)).map segments).flatten
  · have ho : out.filter (fun f => decide (f.metas = m)) = [] := by
      rw [List.filter_eq_nil_iff]
      intro f hf hc
      exact hm ⟨f, hf, by simpa using hc⟩
    have hf : fs.filter (fun f => decide (f.metas = m)) = [] := by
      rw [List.filter_eq_nil_iff]
      intro f hf hc
      obtain ⟨g, hg, hgm⟩ := h3 f hf
      exact hm ⟨g, hg, hgm.trans (by simpa using hc)⟩
    rw [ho, hf]

/-- The aggregated feature is not in the layer of its parts (nor has it their zoom levels): a new `feature` has no layer. -/
theorem C38_layer_lost (simplify : Nat → Line → Line) (z : Nat) (f : Feature) (h : LineFeature f) :
    ∃ g, aggregateLineFeatures simplify z [f] = .ok [g] ∧ g.layer = kInvalidLayer ∧ g.metas = f.metas ∧ g.id = f.id := by
  obtain ⟨o, joined, e1, e2, _, _, e5, _, e7⟩ := aggregateGroup_ok simplify z [f] (by simp) (by simpa using h) (by simp) (by simp)
  refine ⟨o, ?_, e7, (e2 f (by simp)).symm, ?_⟩
  · show aggregateGroups simplify z [[f]] = _
    unfold aggregateGroups
    rw [e1, Res.ok_bind]
    rfl
  · obtain ⟨f', hf', h'⟩ := e5
    simp only [List.mem_singleton] at hf'
    rw [← h', hf']

/-- Another geometry throws. -/
theorem C38_other_geometry (simplify : Nat → Line → Line) (z : Nat) (f : Feature) (hf : ∀ ls, f.geometry ≠ .polyline ls) :
    aggregateLineFeatures simplify z [f] = .throw_ := by
  show aggregateGroups simplify z [[f]] = _
  unfold aggregateGroups aggregateGroup linesOfGroup
  cases hg : f.geometry with
  | polyline ls => exact absurd hg (hf ls)
  | _ => rfl

/-- In a tile: the joined lines drawn in a layer (C28) are the aggregated features of that layer, each counted once. -/
theorem C38_in_tile (ctx : RenderCtx) (simplify : Nat → Line → Line) (z : Nat)
    (hctx : ∀ fs out, aggregateLineFeatures simplify z fs = .ok out → ctx.aggregate z fs = out) (fs : List Feature)
    (h : ∀ f ∈ fs, isLine f = true → LineFeature f) :
    Aggregated ⟨2 ^ 63 - 1, 2 ^ 63 - 1⟩ (fun l => if z ≤ kMaxZoomLevel then simplify (2 ^ (kMaxZoomLevel - z)) l else l) (bufferedLines ctx fs) (joinedLines ctx z fs) := by
  have hmem : ∀ l : List Feature, ∀ f ∈ firsts l, f ∈ l := by
    intro l
    induction l with
    | nil => intro f hf; exact hf
    | cons g l ih =>
      intro f hf
      rw [firsts, List.mem_cons] at hf
      rcases hf with rfl | hf
      · exact List.mem_cons_self
      · exact List.mem_cons_of_mem _ (ih f (List.mem_filter.1 hf).1)
  have hl : ∀ f ∈ bufferedLines ctx fs, LineFeature f := by
    intro f hf
    unfold bufferedLines at hf
    split at hf
    · obtain ⟨h1, h2⟩ := List.mem_filter.1 hf
      exact h f (List.mem_filter.1 (hmem _ f h1)).1 h2
    · cases hf
  obtain ⟨out, e, ha⟩ := C38_aggregated simplify z (bufferedLines ctx fs) hl
  unfold joinedLines
  by_cases hb : bufferedLines ctx fs = []
  · rw [if_pos hb, hb]; exact ⟨by simp, by simp, by simp⟩
  · rw [if_neg hb, hctx _ _ e]; exact ha

/-! ### examples -/

/-- three lines in a row, the one in the middle backwards, and a closed line that touches the last one -/
def c38Lines : List Line := [[⟨0, 0⟩, ⟨1, 1⟩], [⟨3, 3⟩, ⟨2, 5⟩, ⟨1, 1⟩], [⟨9, 9⟩, ⟨3, 3⟩], [⟨9, 9⟩, ⟨8, 8⟩, ⟨9, 9⟩]]

example : joinGroup c38Lines = .ok [[⟨0, 0⟩, ⟨1, 1⟩, ⟨2, 5⟩, ⟨3, 3⟩, ⟨9, 9⟩], [⟨9, 9⟩, ⟨8, 8⟩, ⟨9, 9⟩]] := by decide +kernel

example : ∀ l ∈ c38Lines, l ≠ [] := by decide

example : ∀ l ∈ c38Lines, ∀ p ∈ l, p.x < 9223372036854775807 ∨ p.y < 9223372036854775807 := by decide

example : Junction c38Lines ⟨1, 1⟩ 0 1 := by
  refine ⟨by decide, .inr (by decide), .inr (by decide), ?_, by unfold Closed; decide, by unfold Closed; decide⟩
  intro k hk
  have : k < 4 := endsAt_lt hk
  unfold EndsAt at hk
  match k, this, hk with
  | 0, _, _ => exact .inl rfl
  | 1, _, _ => exact .inr rfl
  | 2, _, hk => exact absurd hk (by decide)
  | 3, _, hk => exact absurd hk (by decide)

/-- where three lines end, nothing is joined -/
example : joinGroup [[⟨0, 0⟩, ⟨1, 1⟩], [⟨1, 1⟩, ⟨2, 2⟩], [⟨1, 1⟩, ⟨3, 3⟩]] = .ok [[⟨0, 0⟩, ⟨1, 1⟩], [⟨1, 1⟩, ⟨2, 2⟩], [⟨1, 1⟩, ⟨3, 3⟩]] := by decide +kernel

/-- two lines between the same points become one closed line -/
example : joinGroup [[⟨0, 0⟩, ⟨1, 1⟩], [⟨0, 0⟩, ⟨5, 1⟩, ⟨1, 1⟩]] = .ok [[⟨1, 1⟩, ⟨5, 1⟩, ⟨0, 0⟩, ⟨1, 1⟩]] := by decide +kernel

/-- features with different metadata are not joined -/
example : aggregateLineFeatures (fun _ l => l) 21 [⟨7, 1, 0, 20, [⟨[1], [2]⟩], .polyline [[⟨0, 0⟩, ⟨1, 1⟩]]⟩, ⟨5, 1, 0, 20, [], .polyline [[⟨1, 1⟩, ⟨2, 2⟩]]⟩,
    ⟨3, 1, 0, 20, [⟨[1], [2]⟩], .polyline [[⟨4, 4⟩, ⟨0, 0⟩]]⟩] =
    .ok [⟨5, kInvalidLayer, 0, 0, [], .polyline [[⟨1, 1⟩, ⟨2, 2⟩]]⟩, ⟨3, kInvalidLayer, 0, 0, [⟨[1], [2]⟩], .polyline [[⟨4, 4⟩, ⟨0, 0⟩, ⟨1, 1⟩]]⟩] := by decide +kernel

end Tiles
