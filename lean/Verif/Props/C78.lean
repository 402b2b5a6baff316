import Verif.Spec.CoverLib
import Verif.Props.C71
/-! C78 — streets are drawn at the prepared levels, too: joined and simplified, but nowhere far from where they lie. -/
namespace Tiles
open Spec

/-! ### joined lines have the lines -/

theorem glue_has {ls : List Line} (hc : ls.IsChain (fun a b => ∃ p, a.getLast? = some p ∧ b.head? = some p)) {m : Line} (hm : m ∈ ls) : m <:+: glue ls := by
  induction ls with
  | nil => cases hm
  | cons l ls ih =>
    rcases List.mem_cons.1 hm with rfl | hm
    · exact (List.prefix_append _ _).isInfix
    · cases ls with
      | nil => cases hm
      | cons k ls =>
        rw [List.isChain_cons_cons] at hc
        obtain ⟨⟨p, h1, h2⟩, hc⟩ := hc
        refine (ih hc hm).trans ?_
        have hk : k = p :: k.tail := by
          cases k with
          | nil => cases h2
          | cons x k => injection h2 with h2; rw [h2]; rfl
        obtain ⟨l', hl'⟩ := List.getLast?_eq_some_iff.1 h1
        refine ⟨l', [], ?_⟩
        simp only [glue, List.map_cons, List.flatten_cons, List.append_nil]
        rw [hl', hk]
        simp

/-- every line is part of a joined line, as it is or backwards -/
theorem joined_has {nowhere : XY} {pts out : List Line} (hj : Joined nowhere pts out) {l : Line} (hl : l ∈ pts) : ∃ J ∈ out, l <:+: J ∨ l.reverse <:+: J := by
  obtain ⟨chains, rfl, hperm, hch, _⟩ := hj
  obtain ⟨i, hi, hli⟩ := List.getElem_of_mem hl
  have hmem : i ∈ chains.flatten.map (·.1) := hperm.mem_iff.2 (List.mem_range.2 hi)
  obtain ⟨⟨i', b⟩, h1, rfl⟩ := List.mem_map.1 hmem
  obtain ⟨c, hc, h1⟩ := List.mem_flatten.1 h1
  have hno : lineNo pts i' = l := by
    rw [lineNo, List.getD_eq_getElem?_getD, List.getElem?_eq_getElem hi]; exact hli
  have hg := glue_has (ls := c.map (orient pts)) (by
    rw [List.isChain_map]
    exact (hch c hc).2.imp fun a b ⟨p, k1, k2, _⟩ => ⟨p, k1, k2⟩) (List.mem_map_of_mem h1)
  refine ⟨_, List.mem_map_of_mem hc, ?_⟩
  cases b
  · left; simpa [orient, hno] using hg
  · right; simpa [orient, hno] using hg

/-! ### a line in a tile -/

/-- if a line has points with and points without a property, then there are two next to each other -/
theorem next_change {l : Line} (p : XY → Prop) {a b : XY} (ha : a ∈ l) (hb : b ∈ l) (hpa : p a) (hpb : ¬ p b) :
    ∃ c d, Next l c d ∧ ((p c ∧ ¬ p d) ∨ (¬ p c ∧ p d)) := by
  by_contra hno
  have hno' : ∀ c d, Next l c d → (p c ↔ p d) := by
    intro c d h
    by_contra hcd
    apply hno
    by_cases hc : p c
    · exact ⟨c, d, h, .inl ⟨hc, fun hd => hcd ⟨fun _ => hd, fun _ => hc⟩⟩⟩
    · exact ⟨c, d, h, .inr ⟨hc, by by_contra hd; exact hcd ⟨fun h => absurd h hc, fun h => absurd h hd⟩⟩⟩
  have key : ∀ l : Line, (∀ c d, Next l c d → (p c ↔ p d)) → ∀ x ∈ l, ∀ y ∈ l, (p x ↔ p y) := by
    intro l
    induction l with
    | nil => intro _ x hx; cases hx
    | cons z l ih =>
      intro h
      have hl := ih fun c d hcd => h c d (next_tail hcd)
      cases l with
      | nil => intro x hx y hy; rw [List.mem_singleton] at hx hy; rw [hx, hy]
      | cons w l =>
        have hzw := h z w ⟨[], l, rfl⟩
        intro x hx y hy
        rcases List.mem_cons.1 hx with e1 | hx1 <;> rcases List.mem_cons.1 hy with e2 | hy1
        · rw [e1, e2]
        · rw [e1]; exact hzw.trans (hl w (by simp) y hy1)
        · rw [e2]; exact (hl x hx1 w (by simp)).trans hzw.symm
        · exact hl x hx1 y hy1
  exact hpb ((key l hno' a ha b hb).1 hpa)

/-- points of segments between points with the same rounding are less than a unit apart -/
theorem cell_near {z : Nat} {c d c' d' : XY} (h : floorTo z c = floorTo z d) (h' : floorTo z c' = floorTo z c) (h'' : floorTo z d' = floorTo z c) {v w : ℝ} (hv0 : 0 ≤ v) (hv1 : v ≤ 1)
    (hw0 : 0 ≤ w) (hw1 : w ≤ 1) : NearBy (2 ^ (20 - z)) (onSeg c d v) (onSeg c' d' w) := by
  unfold floorTo at h h' h''
  injection h with hx hy
  injection h' with hx' hy'
  injection h'' with hx'' hy''
  have key : ∀ x y x' y' : Int, x / 2 ^ (20 - z) = y / 2 ^ (20 - z) → x' / 2 ^ (20 - z) = x / 2 ^ (20 - z) → y' / 2 ^ (20 - z) = x / 2 ^ (20 - z) →
      |((x : ℝ) + v * (y - x)) - (x' + w * (y' - x'))| < 2 ^ (20 - z) := by
    intro x y x' y' h1 h2 h3
    obtain ⟨a1, a2⟩ := floor_close x (20 - z)
    obtain ⟨b1, b2⟩ := floor_close y (20 - z)
    obtain ⟨c1, c2⟩ := floor_close x' (20 - z)
    obtain ⟨d1, d2⟩ := floor_close y' (20 - z)
    rw [← h1] at b1 b2
    rw [h2] at c1 c2
    rw [h3] at d1 d2
    generalize ((x / 2 ^ (20 - z) : Int) : ℝ) * 2 ^ (20 - z) = F at *
    have low : ∀ (s t u : ℝ), F ≤ s → F ≤ t → 0 ≤ u → u ≤ 1 → F ≤ s + u * (t - s) := fun s t u _ _ _ _ => by nlinarith
    have high : ∀ (s t u m : ℝ), s < m → t < m → 0 ≤ u → u ≤ 1 → s + u * (t - s) < m := by
      intro s t u m h1 h2 h3 h4
      rcases lt_or_eq_of_le h4 with h | h
      · nlinarith
      · subst h; linarith
    have e1 := low _ _ v a1 b1 hv0 hv1
    have e2 := low _ _ w c1 d1 hw0 hw1
    have e3 := high _ _ v _ a2 b2 hv0 hv1
    have e4 := high _ _ w _ c2 d2 hw0 hw1
    rw [abs_lt]
    constructor <;> linarith
  exact ⟨key _ _ _ _ hx hx' hx'', key _ _ _ _ hy hy' hy''⟩

theorem onSeg_one (a b : XY) : onSeg a b 1 = ((b.x : ℝ), (b.y : ℝ)) := by simp [onSeg]
theorem onSeg_zero (a b : XY) : onSeg a b 0 = ((a.x : ℝ), (a.y : ℝ)) := by simp [onSeg]

section
variable {e : Int} {τ : ℝ} {inter : Box → List Line → List Line} {clipper : List Line → Box → Option (List PolyNode)} {correct : List Polygon → List Polygon} {simplify : Nat → Line → Line}

/-- a segment that leaves the tile is drawn around each of its points deep in the tile -/
theorem long_drawn (hl : LineLib e inter) (he : 0 ≤ e) (q : Tile) {ls : List Line} {l : Line} (hlm : l ∈ ls) {a b : XY} (hab : Next l a b) {s k : ℝ} (hs0 : 0 ≤ s) (hs1 : s ≤ 1)
    (hk0 : 0 ≤ k) (hk1 : k ≤ 1) (hk : ¬ TileHas q (onSeg a b k)) (hdeep : ∀ p, CloseBy (2 * e + 2 ^ (20 - q.z)) p (onSeg a b s) → TileHas q p) :
    ∃ part ∈ inter (drawBounds q) ls, ∃ c d, Next part c d ∧ floorTo q.z c ≠ floorTo q.z d ∧ ∃ v : ℝ, 0 ≤ v ∧ v ≤ 1 ∧
      CloseBy (e / 2 ^ (20 - q.z) + 1) (onSeg (rel (pxBounds q).min (floorTo q.z c)) (rel (pxBounds q).min (floorTo q.z d)) v) (tilePos q (onSeg a b s)) := by
  have hp : (0 : ℝ) < 2 ^ (20 - q.z) := by positivity
  have he' : (0 : ℝ) ≤ e := by exact_mod_cast he
  set R : ℝ := 2 * e + 2 ^ (20 - q.z) with hR
  have hRpos : 0 < R := by linarith
  -- a point at the distance `R`
  obtain ⟨t, ht0, ht1, hin, hfar⟩ : ∃ t : ℝ, 0 ≤ t ∧ t ≤ 1 ∧ CloseBy R (onSeg a b t) (onSeg a b s) ∧ ¬ NearBy R (onSeg a b s) (onSeg a b t) := by
    set X : ℝ := (onSeg a b k).1 - (onSeg a b s).1 with hX
    set Y : ℝ := (onSeg a b k).2 - (onSeg a b s).2 with hY
    have hD : R < max |X| |Y| := by
      by_contra hc
      rw [not_lt, max_le_iff] at hc
      exact hk (hdeep _ hc)
    set D : ℝ := max |X| |Y| with hDdef
    have hDpos : 0 < D := lt_trans hRpos hD
    have hmu : R / D * D = R := div_mul_cancel₀ _ hDpos.ne'
    have hmu0 : 0 ≤ R / D := by positivity
    have hmu1 : R / D ≤ 1 := by rw [div_le_one hDpos]; exact hD.le
    have ex : (onSeg a b (s + R / D * (k - s))).1 - (onSeg a b s).1 = R / D * X := by rw [hX]; simp only [onSeg]; ring
    have ey : (onSeg a b (s + R / D * (k - s))).2 - (onSeg a b s).2 = R / D * Y := by rw [hY]; simp only [onSeg]; ring
    refine ⟨s + R / D * (k - s), by nlinarith, by nlinarith, ?_, ?_⟩
    · unfold CloseBy
      rw [ex, ey, abs_mul, abs_mul, abs_of_nonneg hmu0]
      have h1 : |X| ≤ D := le_max_left _ _
      have h2 : |Y| ≤ D := le_max_right _ _
      constructor <;> nlinarith
    · rintro ⟨h1, h2⟩
      rw [abs_sub_comm, ex, abs_mul, abs_of_nonneg hmu0] at h1
      rw [abs_sub_comm, ey, abs_mul, abs_of_nonneg hmu0] at h2
      rcases max_choice |X| |Y| with h | h
      · rw [← h, ← hDdef, hmu] at h1; exact lt_irrefl _ h1
      · rw [← h, ← hDdef, hmu] at h2; exact lt_irrefl _ h2
  have hs : TileHas q (onSeg a b s) := hdeep _ (by simp [CloseBy, hRpos.le])
  have ht : TileHas q (onSeg a b t) := hdeep _ hin
  obtain ⟨part, h1, c, d, h2, hcov⟩ := hl.crosses (drawBounds q) ls l hlm a b hab s t hs0 hs1 ht0 ht1 (tile_in_box hs) (tile_in_box ht) (by
    intro hc
    apply hfar
    exact ⟨lt_of_le_of_lt hc.1 (by linarith), lt_of_le_of_lt hc.2 (by linarith)⟩)
  obtain ⟨v, v0, v1, hv⟩ := hcov s hs0 hs1 (tile_in_box hs)
  refine ⟨part, h1, c, d, h2, ?_, v, v0, v1, ?_⟩
  · intro hc
    obtain ⟨w, w0, w1, hw⟩ := hcov t ht0 ht1 (tile_in_box ht)
    obtain ⟨k1, k2⟩ := floor_same hc v0 v1 w0 w1
    apply hfar
    obtain ⟨a1, a2⟩ := hv
    obtain ⟨b1, b2⟩ := hw
    unfold NearBy
    rw [abs_le] at a1 a2 b1 b2
    rw [abs_lt] at k1 k2
    rw [abs_lt, abs_lt]
    refine ⟨⟨?_, ?_⟩, ?_, ?_⟩ <;> linarith
  · have := within_tri (seg_floor q c d v0 v1) (within_scale q hv)
    rwa [add_comm] at this

/-- a line is drawn around each of its points deep in the tile, unless all of it is within a unit -/
theorem deep_drawn (hl : LineLib e inter) (he : 0 ≤ e) (q : Tile) {ls : List Line} {l : Line} (hlm : l ∈ ls) {c d : XY} (hcd : Next l c d) {t : ℝ} (ht0 : 0 ≤ t) (ht1 : t ≤ 1)
    (hdeep : ∀ p, CloseBy (2 * e + 2 * 2 ^ (20 - q.z)) p (onSeg c d t) → TileHas q p) {c' d' : XY} (hcd' : Next l c' d') {t' : ℝ} (ht0' : 0 ≤ t') (ht1' : t' ≤ 1)
    (hfar : ¬ NearBy (2 ^ (20 - q.z)) (onSeg c d t) (onSeg c' d' t')) :
    ∃ part ∈ inter (drawBounds q) ls, ∃ a b, Next part a b ∧ floorTo q.z a ≠ floorTo q.z b ∧ ∃ v : ℝ, 0 ≤ v ∧ v ≤ 1 ∧
      CloseBy (e / 2 ^ (20 - q.z) + 2) (onSeg (rel (pxBounds q).min (floorTo q.z a)) (rel (pxBounds q).min (floorTo q.z b)) v) (tilePos q (onSeg c d t)) := by
  have hp : (0 : ℝ) < 2 ^ (20 - q.z) := by positivity
  have he' : (0 : ℝ) ≤ e := by exact_mod_cast he
  have hd0 : (0 : ℝ) ≤ e / 2 ^ (20 - q.z) := by positivity
  have wide : ∀ {d1 d2 : ℝ} {x y : ℝ × ℝ}, d1 ≤ d2 → CloseBy d1 x y → CloseBy d2 x y := fun h hc => ⟨hc.1.trans h, hc.2.trans h⟩
  by_cases hfl : floorTo q.z c = floorTo q.z d
  · -- the segment is in one cell: go on to the next one
    have hother : ∃ v ∈ l, ¬ floorTo q.z v = floorTo q.z c := by
      by_contra hc
      push_neg at hc
      exact hfar (cell_near hfl (hc _ (next_mem hcd').1) (hc _ (next_mem hcd').2) ht0 ht1 ht0' ht1')
    obtain ⟨w, hw, hwf⟩ := hother
    obtain ⟨a, b, hab, hchange⟩ := next_change (fun v => floorTo q.z v = floorTo q.z c) (next_mem hcd).1 hw rfl hwf
    have hne : floorTo q.z a ≠ floorTo q.z b := by
      intro h
      rcases hchange with ⟨h1, h2⟩ | ⟨h1, h2⟩
      · exact h2 (h ▸ h1)
      · exact h1 (h.trans h2)
    -- `i` is the place of the end in the cell, `o` that of the other one
    obtain ⟨i, o, i0, i1, o0, o1, v, hvi, hvf, hend⟩ : ∃ i o : ℝ, 0 ≤ i ∧ i ≤ 1 ∧ 0 ≤ o ∧ o ≤ 1 ∧ ∃ v : XY, onSeg a b i = ((v.x : ℝ), (v.y : ℝ)) ∧ floorTo q.z v = floorTo q.z c ∧
        (TileHas q (onSeg a b i) → TileHas q (onSeg a b o) → TileHas q ((a.x : ℝ), (a.y : ℝ)) ∧ TileHas q ((b.x : ℝ), (b.y : ℝ))) ∧
        onSeg (rel (pxBounds q).min (floorTo q.z a)) (rel (pxBounds q).min (floorTo q.z b)) i =
          (((rel (pxBounds q).min (floorTo q.z c)).x : ℝ), ((rel (pxBounds q).min (floorTo q.z c)).y : ℝ)) := by
      rcases hchange with ⟨h1, h2⟩ | ⟨h1, h2⟩
      · refine ⟨0, 1, le_refl _, zero_le_one, zero_le_one, le_refl _, a, onSeg_zero a b, h1, ?_, ?_⟩
        · rw [onSeg_zero, onSeg_one]; exact fun h h' => ⟨h, h'⟩
        · rw [onSeg_zero, h1]
      · refine ⟨1, 0, zero_le_one, le_refl _, le_refl _, zero_le_one, b, onSeg_one a b, h2, ?_, ?_⟩
        · rw [onSeg_zero, onSeg_one]; exact fun h h' => ⟨h', h⟩
        · rw [onSeg_one, h2]
    obtain ⟨hboth, hplace⟩ := hend
    have hcell : NearBy (2 ^ (20 - q.z)) (onSeg c d t) (onSeg a b i) := by
      have := cell_near hfl hvf hvf ht0 ht1 (le_refl (0 : ℝ)) zero_le_one
      rw [hvi]
      rwa [onSeg_zero] at this
    have hclose : CloseBy (2 ^ (20 - q.z)) (onSeg a b i) (onSeg c d t) := within_symm ⟨hcell.1.le, hcell.2.le⟩
    by_cases ho : TileHas q (onSeg a b o)
    · obtain ⟨ha, hb⟩ := hboth (hdeep _ (wide (by linarith) hclose)) ho
      obtain ⟨part, h1, h2⟩ := hl.stays (drawBounds q) ls l hlm a b hab (fun h => hne (by rw [h])) (point_inside ha) (point_inside hb)
      refine ⟨part, h1, a, b, h2, hne, i, i0, i1, ?_⟩
      rw [hplace]
      have := seg_floor q c d ht0 ht1
      rw [← hfl] at this
      refine wide (d1 := 1) (by linarith) ?_
      simpa only [onSeg, sub_self, mul_zero, add_zero] using this
    · obtain ⟨part, h1, a', b', h2, h3, w, w0, w1, hw⟩ := long_drawn hl he q hlm hab i0 i1 o0 o1 ho (fun p h => hdeep p (wide (by linarith) (within_tri h hclose)))
      refine ⟨part, h1, a', b', h2, h3, w, w0, w1, ?_⟩
      have := within_tri hw (within_scale q hclose)
      rw [div_self hp.ne'] at this
      exact wide (by linarith) this
  · by_cases hboth : TileHas q ((c.x : ℝ), (c.y : ℝ)) ∧ TileHas q ((d.x : ℝ), (d.y : ℝ))
    · obtain ⟨part, h1, h2⟩ := hl.stays (drawBounds q) ls l hlm c d hcd (fun h => hfl (by rw [h])) (point_inside hboth.1) (point_inside hboth.2)
      exact ⟨part, h1, c, d, h2, hfl, t, ht0, ht1, wide (by linarith) (seg_floor q c d ht0 ht1)⟩
    · obtain ⟨k, k0, k1, hk⟩ : ∃ k : ℝ, 0 ≤ k ∧ k ≤ 1 ∧ ¬ TileHas q (onSeg c d k) := by
        by_contra hc
        push_neg at hc
        exact hboth ⟨onSeg_zero c d ▸ hc 0 (le_refl _) zero_le_one, onSeg_one c d ▸ hc 1 zero_le_one (le_refl _)⟩
      obtain ⟨part, h1, a', b', h2, h3, w, w0, w1, hw⟩ := long_drawn hl he q hlm hcd ht0 ht1 k0 k1 hk (fun p h => hdeep p (wide (by linarith) h))
      exact ⟨part, h1, a', b', h2, h3, w, w0, w1, wide (by linarith) hw⟩

/-- A line of a tile in which lines are joined: around each of its points that lies deep enough in the tile there is a line to be seen, with its layer and tags (and the id of a
line with the same layer and tags), unless all of it is near the point. -/
theorem C78_line (hl : LineLib e inter) (he : 0 ≤ e) (hτ : 0 ≤ τ) (hs : CoverLib τ simplify) (ctx : RenderCtx) (hctx : ctx.clip = clipGeometry inter clipper correct)
    (q : Tile) (hz : q.z ≤ 20) (hlines : ctx.aggLines = true) (hagg : ∀ fs out, aggregateLineFeatures simplify q.z fs = .ok out → ctx.aggregate q.z fs = out)
    (fs : List Feature) (hfs : ∀ f ∈ fs, isLine f = true → LineFeature f) (f : Feature) (hf : f ∈ fs) (name : Bytes) (hname : ctx.layerNames[f.layer]? = some name)
    (hone : ∀ g ∈ fs, g.layer = f.layer → g.id = f.id → typeOf g.geometry = typeOf f.geometry → g.geometry = f.geometry ∧ g.metas.Perm f.metas)
    (ls : List Line) (hg : f.geometry = .polyline ls) (l : Line) (hlm : l ∈ ls) (a b : XY) (hab : Next l a b) (s : ℝ) (s0 : 0 ≤ s) (s1 : s ≤ 1)
    (hdeep : ∀ p, CloseBy (2 * e + (2 + τ) * 2 ^ (20 - q.z)) p (onSeg a b s) → TileHas q p)
    (a' b' : XY) (hab' : Next l a' b') (s' : ℝ) (s0' : 0 ≤ s') (s1' : s' ≤ 1) (hfar : ¬ NearBy ((2 * τ + 1) * 2 ^ (20 - q.z)) (onSeg a b s) (onSeg a' b' s')) :
    ∃ f' ∈ fs, f'.layer = f.layer ∧ f'.metas.Perm f.metas ∧ typeOf f'.geometry = 2 ∧ LineSeen (tileContent ctx (specOf q) fs) name f'.id (tagsOf f.metas) (fun c d =>
      ∃ v : ℝ, 0 ≤ v ∧ v ≤ 1 ∧ CloseBy (e / 2 ^ (20 - q.z) + 2 + τ) (onSeg c d v) (tilePos q (onSeg a b s))) := by
  have hp : (0 : ℝ) < 2 ^ (20 - q.z) := by positivity
  have he' : (0 : ℝ) ≤ e := by exact_mod_cast he
  have wide : ∀ {d1 d2 : ℝ} {x y : ℝ × ℝ}, d1 ≤ d2 → CloseBy d1 x y → CloseBy d2 x y := fun h hc => ⟨hc.1.trans h, hc.2.trans h⟩
  obtain ⟨hlay, hname'⟩ := List.getElem?_eq_some_iff.1 hname
  have hf' : f ∈ ofLayer fs f.layer := List.mem_filter.2 ⟨hf, by simp⟩
  obtain ⟨g, h1, h2, h3⟩ := unique_has hf' (by rw [hg]; simp)
  have h4 := List.mem_filter.1 ((C28_unique (ofLayer fs f.layer)).2.2.subset h1)
  obtain ⟨h5, h6⟩ := hone g h4.1 (of_decide_eq_true h4.2) h2 h3
  rw [hg] at h5
  have hgline : isLine g = true := by simp [isLine, h5, typeOf]
  have hbuf : g ∈ bufferedLines ctx (ofLayer fs f.layer) := by
    rw [bufferedLines, if_pos hlines]
    exact List.mem_filter.2 ⟨h1, hgline⟩
  -- the joined line
  have hin : ∀ y ∈ ofLayer fs f.layer, y ∈ fs ∧ y.layer = f.layer := fun y hy => ⟨(List.mem_filter.1 hy).1, of_decide_eq_true (List.mem_filter.1 hy).2⟩
  obtain ⟨_, hhas, heach⟩ := C38_in_tile ctx simplify q.z hagg (ofLayer fs f.layer) (fun y hy => hfs y (hin y hy).1)
  obtain ⟨J, hJ, hJm⟩ := hhas g hbuf
  obtain ⟨group, joined, k1, k2, k3, ⟨f1, k4, k5⟩, _⟩ := heach J hJ
  have hgroup : ∀ y ∈ group, (y ∈ fs ∧ y.layer = f.layer) ∧ isLine y = true ∧ y.metas = J.metas := by
    intro y hy
    obtain ⟨m1, m2⟩ := List.mem_filter.1 (k1.mem_iff.1 hy)
    obtain ⟨m3, m4⟩ := bufferedLines_from m1
    exact ⟨hin y m3, m4, of_decide_eq_true m2⟩
  have hgin : g ∈ group := k1.mem_iff.2 (List.mem_filter.2 ⟨hbuf, by simp [hJm]⟩)
  have hlin : l ∈ group.flatMap featureLines := List.mem_flatMap.2 ⟨g, hgin, by simp [featureLines, h5, hlm]⟩
  obtain ⟨j, hj, hjl⟩ := joined_has k2 hlin
  simp only [if_pos (show q.z ≤ kMaxZoomLevel by simpa [kMaxZoomLevel] using hz)] at k3
  have hsegs : ∀ c d, Next l c d → ∀ u : ℝ, 0 ≤ u → u ≤ 1 → ∃ c' d', Next (simplify (2 ^ (kMaxZoomLevel - q.z)) j) c' d' ∧ ∃ w : ℝ, 0 ≤ w ∧ w ≤ 1 ∧
      CloseBy (τ * 2 ^ (20 - q.z)) (onSeg c d u) (onSeg c' d' w) := by
    intro c d hcd u u0 u1
    have main : ∀ c d, Next j c d → ∀ u : ℝ, 0 ≤ u → u ≤ 1 → ∃ c' d', Next (simplify (2 ^ (kMaxZoomLevel - q.z)) j) c' d' ∧ ∃ w : ℝ, 0 ≤ w ∧ w ≤ 1 ∧
        CloseBy (τ * 2 ^ (20 - q.z)) (onSeg c d u) (onSeg c' d' w) := by
      intro c d hcd u u0 u1
      obtain ⟨_, ⟨m, hm, c', d', n1, w, w0, w1, rfl⟩, n2⟩ := hs (2 ^ (kMaxZoomLevel - q.z)) j c d hcd u u0 u1
      rw [List.mem_singleton] at hm
      subst hm
      exact ⟨c', d', n1, w, w0, w1, by simpa [kMaxZoomLevel] using n2⟩
    rcases hjl with h | h
    · exact main c d (hcd.trans h) u u0 u1
    · obtain ⟨c', d', n1, w, w0, w1, n2⟩ := main d c (List.IsInfix.trans (by have := List.reverse_infix.2 hcd; simpa using this) h) (1 - u) (by linarith) (by linarith)
      exact ⟨c', d', n1, w, w0, w1, by rw [onSeg_swap]; exact n2⟩
  obtain ⟨c, d, hcd, w, w0, w1, hw⟩ := hsegs a b hab s s0 s1
  obtain ⟨c', d', hcd', w', w0', w1', hw'⟩ := hsegs a' b' hab' s' s0' s1'
  obtain ⟨part, p1, x, y, p2, p3, v, v0, v1, hv⟩ := deep_drawn hl he q (ls := joined.map (simplify (2 ^ (kMaxZoomLevel - q.z)))) (List.mem_map_of_mem hj) hcd w0 w1
    (fun p h => hdeep p (wide (by linarith) (within_tri h (within_symm hw)))) hcd' w0' w1' (fun hc => hfar (by
      obtain ⟨c1, c2⟩ := hc
      obtain ⟨d1, d2⟩ := hw
      obtain ⟨e1, e2⟩ := hw'
      unfold NearBy
      rw [abs_lt] at *
      rw [abs_le] at *
      rw [abs_lt]
      refine ⟨⟨?_, ?_⟩, ?_, ?_⟩ <;> linarith))
  obtain ⟨out, q1, lo, q2, q3⟩ := part_drawn ctx hctx q hz _ p1 p2 p3
  -- it is in the tile
  have hdrawn : (drawn ctx (specOf q) J).geometry = .polyline out := by simp only [drawn, k3]; rw [q1]
  have hcontent : drawn ctx (specOf q) J ∈ layerContent ctx (specOf q) (ofLayer fs f.layer) := by
    rw [layerContent, List.mem_filter]
    refine ⟨?_, by simp [nonNull, hdrawn]⟩
    simp only [List.mem_append, List.mem_map]
    exact .inr ⟨J, hJ, rfl⟩
  have hperm : J.metas.Perm f.metas := hJm ▸ h6
  obtain ⟨⟨r1, r2⟩, r3, r4⟩ := hgroup f1 k4
  refine ⟨f1, r1, r2, r4 ▸ hperm, of_decide_eq_true r3, ⟨2, ctx.layerNames[f.layer]?.getD [], 4096, (layerContent ctx (specOf q) (ofLayer fs f.layer)).map (view (specOf q).px.min)⟩, ?_, ?_,
    view (specOf q).px.min (drawn ctx (specOf q) J), List.mem_map_of_mem hcontent, ?_, ?_, ?_, ?_⟩
  · rw [tileContent, List.mem_filterMap]
    refine ⟨f.layer, List.mem_range.2 hlay, ?_⟩
    dsimp only
    rw [if_neg]
    intro hc
    rw [hc] at hcontent
    cases hcontent
  · simp [hname]
  · show ((drawn ctx (specOf q) J).id : Int) = f1.id
    exact congrArg _ k5.symm
  · show typeOf (drawn ctx (specOf q) J).geometry = 2
    rw [hdrawn]; rfl
  · exact tagsOf_perm hperm
  · refine ⟨⟨lo.map (rel (pxBounds q).min), false⟩, ?_, rfl, _, _, next_map _ q3, v, v0, v1, ?_⟩
    · show _ ∈ partsOf (specOf q).px.min (drawn ctx (specOf q) J).geometry
      rw [hdrawn]
      exact List.mem_map.2 ⟨lo, q2, rfl⟩
    · have := within_tri hv (within_symm (within_scale q hw))
      rwa [mul_div_cancel_right₀ _ hp.ne'] at this

end

/-! ### after an import -/

/-- the points of an imported line are seen in a tile that is drawn from these features -/
theorem stored_joined {e : Int} {τ : ℝ} {inter : Box → List Line → List Line} {clipper : List Line → Box → Option (List PolyNode)} {correct : List Polygon → List Polygon}
    {simplify : Nat → Line → Line} (hl : LineLib e inter) (he : 0 ≤ e) (hτ : 0 ≤ τ) (hs : CoverLib τ simplify) (ctx : RenderCtx) (hctx : ctx.clip = clipGeometry inter clipper correct)
    (q : Tile) (hz : q.z ≤ 20) (hlines : ctx.aggLines = true) (hagg : ∀ fs out, aggregateLineFeatures simplify q.z fs = .ok out → ctx.aggregate q.z fs = out)
    {simp : Line → List Bool} {xs : List Inserted} {leafs : List Tile} {gs : List Feature}
    (hfrom : ∀ g ∈ gs, ∃ x ∈ xs, StoredAs simp x.feature g)
    (hall : ∀ x ∈ xs, x.feature.zmin ≤ q.z → q.z ≤ x.feature.zmax → boxMeets x.feature q → x.Reaches q → withoutSmallRings (simplified simp x.feature.geometry) ≠ .null →
      ∃ g ∈ gs, StoredAs simp x.feature g)
    (hline : ∀ g ∈ gs, isLine g = true → LineFeature g)
    {f : Feature} (hf : whole f ∈ xs) (hok : FeatureOk f) (hz1 : f.zmin ≤ q.z) (hz2 : q.z ≤ f.zmax) (name : Bytes) (hname : ctx.layerNames[f.layer]? = some name)
    (hone : ∀ x ∈ xs, x.feature.layer = f.layer → x.feature.id = f.id → typeOf x.feature.geometry = 2 → x.feature = f)
    (ls : List Line) (hg : f.geometry = .polyline ls) (l : Line) (hlm : l ∈ ls) (a b : XY) (hab : Next (keep (simp l) l) a b) (s : ℝ) (s0 : 0 ≤ s) (s1 : s ≤ 1)
    (hdeep : ∀ p, CloseBy (2 * e + (2 + τ) * 2 ^ (20 - q.z)) p (onSeg a b s) → TileHas q p)
    (a' b' : XY) (hab' : Next (keep (simp l) l) a' b') (s' : ℝ) (s0' : 0 ≤ s') (s1' : s' ≤ 1) (hfar : ¬ NearBy ((2 * τ + 1) * 2 ^ (20 - q.z)) (onSeg a b s) (onSeg a' b' s')) :
    ∃ x ∈ xs, x.feature.layer = f.layer ∧ x.feature.metas.Perm f.metas ∧ typeOf x.feature.geometry = 2 ∧
      LineSeen (tileContent ctx (specOf q) (leafs.map seaSquare ++ gs)) name x.feature.id (tagsOf f.metas) (fun c d =>
        ∃ v : ℝ, 0 ≤ v ∧ v ≤ 1 ∧ CloseBy (e / 2 ^ (20 - q.z) + 2 + τ) (onSeg c d v) (tilePos q (onSeg a b s))) := by
  obtain ⟨ha, hb⟩ := next_mem hab
  have hp : (0 : ℝ) < 2 ^ (20 - q.z) := by positivity
  have he' : (0 : ℝ) ≤ e := by exact_mod_cast he
  have hin : TileHas q (onSeg a b s) := hdeep _ (by simp only [CloseBy, sub_self, abs_zero]; constructor <;> positivity)
  have hbox := segment_meets hok hg hlm (keep_subset ha) (keep_subset hb) s0 s1 hin
  have htwo : ∀ {f' : Feature}, typeOf (withoutSmallRings (simplified simp f'.geometry)) = 2 → typeOf f'.geometry = 2 := by
    intro f' hty
    cases hg2 : f'.geometry with
    | polyline ps' => rfl
    | null => rw [hg2] at hty; cases hty
    | point ps' => rw [hg2] at hty; cases hty
    | polygon ps' =>
      rw [hg2] at hty
      simp only [simplified, withoutSmallRings] at hty
      split at hty <;> cases hty
  obtain ⟨g, hgm, ms, hms, rfl⟩ := hall (whole f) hf hz1 hz2 hbox (whole_reaches _ _) (by show withoutSmallRings (simplified _ f.geometry) ≠ _; rw [hg]; simp [simplified, withoutSmallRings])
  obtain ⟨f1, m1, m2, m3, m4, m5⟩ := C78_line hl he hτ hs ctx hctx q hz hlines hagg (leafs.map seaSquare ++ gs) (fun y hy hyl => by
      rcases List.mem_append.1 hy with hy | hy
      · obtain ⟨t, _, rfl⟩ := List.mem_map.1 hy
        cases hyl
      · exact hline y hy hyl) _ (List.mem_append_right _ hgm) name hname (fun g' hg' n1 n2 n3 => by
        have hty : typeOf g'.geometry = 2 := by rw [n3]; simp [whole, hg, simplified, withoutSmallRings, typeOf]
        rcases List.mem_append.1 hg' with hg' | hg'
        · obtain ⟨t, _, rfl⟩ := List.mem_map.1 hg'
          cases hty
        · obtain ⟨⟨f', tl⟩, o1, ms', o2, rfl⟩ := hfrom g' hg'
          dsimp only [whole] at n1 n2 n3 hty o2 ⊢
          have := hone _ o1 n1 n2 (htwo hty)
          dsimp only at this
          subst this
          exact ⟨rfl, o2.trans hms.symm⟩) (ls.map fun l => keep (simp l) l) (by simp [whole, hg, simplified, withoutSmallRings]) _ (List.mem_map_of_mem hlm) a b hab s s0 s1 hdeep a' b' hab' s' s0' s1' hfar
  dsimp only [whole] at m2 m3 m5 hms
  rcases List.mem_append.1 m1 with m1 | m1
  · obtain ⟨t, _, rfl⟩ := List.mem_map.1 m1
    cases m4
  · obtain ⟨⟨f', tl⟩, o1, ms', o2, rfl⟩ := hfrom f1 m1
    dsimp only [whole] at m2 m3 m4 m5 o2
    exact ⟨_, o1, m2, (o2.symm.trans m3).trans hms, htwo m4, seen_tags (tagsOf_perm hms) (fun _ _ h => h) m5⟩

/-- After a complete import (as in C54 and C62) the server answers every tile of the prepared levels, and a client sees there, around every point of an imported line that is
visible at the zoom level (of its points that the simplification keeps) and that lies deep enough in the tile, a line in the layer of the line with its tags, unless all of the line is near
the point. -/
theorem C78_served {ι : Type} (env : ImportEnv ι) (coast osm : Bool) (hsrt : SortsByKey env.srt)
    (hm : ∀ l z, (env.rd (env.mkMask l) z).length = l.length) (hw : 0 < env.workers)
    (hin : ∀ fs i, env.loads coast osm fs i → (env.decOf i).length ≤ 2 ^ 64 ∧ (∀ x ∈ fs.flatten, Importable env.mkMask (env.decOf i) plainOf x) ∧ fs.flatten.length < 2 ^ 32)
    (runs : List (List String)) (hacts : changes runs = [.load coast osm, .pack, .tiles]) (a b : TileDb ι) (hr : Imports (importParts env) runs a b)
    (hsmall : SmallPacks b.features) (hsize : b.pf.reopen.size < 2 ^ 64) (features : List (UInt64 × Bytes)) (hdb : EntriesOf b.features features)
    (ctx : GetCtx) (hctx : ∃ m, env.ctxOf b.info = { ctx with maxPrepared := m }) (hrd : ctx.rd = env.rd) (hdec : ctx.dec = env.decOf b.info) (hc : Serving ctx 10)
    -- the libraries
    (e : Int) (he : 0 ≤ e) (he' : e ≤ 2 ^ 20) (τ : ℝ) (hτ : 0 ≤ τ) (inter : Box → List Line → List Line) (clipper : List Line → Box → Option (List PolyNode))
    (correct : List Polygon → List Polygon) (hl : ClipLib e inter clipper correct) (hll : LineLib e inter) (hclip : ctx.clip = clipGeometry inter clipper correct)
    (simplify : Nat → Line → Line) (hs : CoverLib τ simplify) (hagg : ∀ z fs out, aggregateLineFeatures simplify z fs = .ok out → ctx.aggregate z fs = out) :
    ∃ fs, env.loads coast osm fs b.info ∧
      ((∀ x ∈ fs.flatten, x.feature.layer < ctx.layerNames.length) → 0 < ctx.layerNames.length → ∀ sea, SeaTree sea ctx.seaside →
        ∀ q : Tile, q.Valid → q.z ≤ 10 →
        InArea (dbBounds (features.map (·.1))) q ∨ (∃ t ∈ sea, AncOrSelf t q) ∨ (∀ t ∈ sea, ¬ AncOrSelf q t) →
        (∀ x ∈ fs.flatten, Drawable (fun l => env.rd (env.mkMask l) q.z) x.feature) →
        (∀ gs i, (∀ g ∈ gs, (∃ t, g = seaSquare t) ∨ ∃ x ∈ fs.flatten, StoredAs (fun l => env.rd (env.mkMask l) q.z) x.feature g) →
          ∀ f ∈ candidates (drawing ctx 10 q).toRenderCtx (specOf q) (ofLayer gs i), NoLongLine (drawing ctx 10 q).toRenderCtx q f) →
        ∃ bytes layers, getTile b.tiles features b.pf.reopen ctx q = .ok (if bytes = [] then none else some (ctx.encode bytes)) ∧
          (bytes.length < 2 ^ 32 → clientTile bytes = some layers ∧ (bytes = [] ↔ layers = [])) ∧
          ∀ f, whole f ∈ fs.flatten → f.zmin ≤ q.z → q.z ≤ f.zmax →
            (∀ x ∈ fs.flatten, x.feature.layer = f.layer → x.feature.id = f.id → typeOf x.feature.geometry = 2 → x.feature = f) →
            ∃ name, ctx.layerNames[f.layer]? = some name ∧ ∀ ls, f.geometry = .polyline ls → ∀ l ∈ ls,
              ∀ a b, Next (keep (env.rd (env.mkMask l) q.z) l) a b → ∀ s : ℝ, 0 ≤ s → s ≤ 1 →
              (∀ p, CloseBy (2 * e + (2 + τ) * 2 ^ (20 - q.z)) p (onSeg a b s) → TileHas q p) →
              ∀ a' b', Next (keep (env.rd (env.mkMask l) q.z) l) a' b' → ∀ s' : ℝ, 0 ≤ s' → s' ≤ 1 → ¬ NearBy ((2 * τ + 1) * 2 ^ (20 - q.z)) (onSeg a b s) (onSeg a' b' s') →
              ∃ x ∈ fs.flatten, x.feature.layer = f.layer ∧ x.feature.metas.Perm f.metas ∧ typeOf x.feature.geometry = 2 ∧ LineSeen layers name x.feature.id (tagsOf f.metas) (fun c d =>
                ∃ v : ℝ, 0 ≤ v ∧ v ≤ 1 ∧ CloseBy (e / 2 ^ (20 - q.z) + 2 + τ) (onSeg c d v) (tilePos q (onSeg a b s)))) := by
  obtain ⟨fs, h1, h2⟩ := served_drawn env coast osm hsrt hm hw hin runs hacts a b hr hsmall hsize features hdb ctx hctx hrd hdec hc e he he' inter clipper correct hl hclip simplify hagg
  obtain ⟨_, himp, _⟩ := hin _ _ h1
  refine ⟨fs, h1, fun hlay hpos sea hsea q hv hz10 hwhere hdraw hshort => ?_⟩
  obtain ⟨leafs, gs, bytes, layers, _, h4, h5, h6, h7, h8, _⟩ := h2 hlay hpos sea hsea q hv (by omega) (.inr hwhere) hdraw hshort
  refine ⟨bytes, layers, h7, h8, fun f hf hz1 hz2 hone => ?_⟩
  have hnm := List.getElem?_eq_getElem (hlay (whole f) hf)
  refine ⟨_, hnm, fun ls hg l hlm a b hab s s0 s1 hdeep a' b' hab' s' s0' s1' hfar => ?_⟩
  rw [h6]
  have hdr : (drawing ctx 10 q).clip = ctx.clip ∧ (drawing ctx 10 q).aggregate = ctx.aggregate ∧ (drawing ctx 10 q).layerNames = ctx.layerNames := by
    rw [drawing]; split <;> exact ⟨rfl, rfl, rfl⟩
  exact stored_joined hll he hτ hs (drawing ctx 10 q).toRenderCtx (hdr.1.trans hclip) q (by omega) (by rw [drawing, if_pos hz10]) (fun fs out ho => by rw [hdr.2.1]; exact hagg q.z fs out ho)
    (fun g hg => by obtain ⟨x, k1, _, _, k2⟩ := h4 g hg; exact ⟨x, k1, k2⟩) h5
    (fun g hg => by obtain ⟨x, k1, _, _, k2⟩ := h4 g hg; exact (stored_renderable (himp x k1).toPackable.toFeatureOk (hdraw x k1) k2).line) hf
    (himp _ hf).toPackable.toFeatureOk hz1 hz2 _ ((congrArg (fun l : List Bytes => l[f.layer]?) hdr.2.2).trans hnm) hone ls hg l hlm a b hab s s0 s1 hdeep a' b' hab' s' s0' s1' hfar

/-! ### from OSM data -/

section
variable {S : OsmSetting} {t : Tables} {e : Int} {g τ : ℝ} {data : List Datum}

/-- every way can be seen in the tile, roughly (for the text see `C78_streets`) -/
def Spec.StreetsKept (S : OsmSetting) (t : Tables) (e : Int) (g τ : ℝ) (data : List Datum) (q : Tile) (layers : List ClientLayer) : Prop :=
      ∀ d ∈ data, ∀ nodes, d.shape = .way nodes → ∀ r, d.rule t = some r →
        ∀ z, levelFor (areaOf S.prof (d.obj S.profile S.numeral)) r.zoom = some z → z ≤ q.z →
        (∀ d' ∈ data, d'.id % 2 ^ 64 = d.id % 2 ^ 64 → d'.type = 2 → d' = d) →
        ∀ A B, [A, B] <:+: keptPlaces (S.rd (S.mkMask ((nodes.filterMap id).map S.prof.conv)) q.z) nodes →
        ∀ s : ℝ, 0 ≤ s → s ≤ 1 → Deep (2 * e + g + (2 + τ) * 2 ^ (20 - q.z)) q (between A B s) →
        ∀ A' B', [A', B'] <:+: keptPlaces (S.rd (S.mkMask ((nodes.filterMap id).map S.prof.conv)) q.z) nodes →
        ∀ s' : ℝ, 0 ≤ s' → s' ≤ 1 → ¬ NearBy (2 * τ + 1 + 2 * g / 2 ^ (20 - q.z)) (inTile q (between A B s)) (inTile q (between A' B' s')) →
        ∃ d' ∈ data, d'.type = 2 ∧ (∃ r', d'.rule t = some r' ∧ r'.layer = r.layer ∧
            (r'.shown S.numeral S.prof.toDouble (tagValue d'.tags)).Perm (r.shown S.numeral S.prof.toDouble (tagValue d.tags))) ∧
          LineSeen layers r.layer (d'.id % 2 ^ 64) (r.shown S.numeral S.prof.toDouble (tagValue d.tags)) (fun p p' =>
            ∃ v : ℝ, 0 ≤ v ∧ v ≤ 1 ∧ CloseBy ((e + g) / 2 ^ (20 - q.z) + 2 + τ) (onSeg p p' v) (inTile q (between A B s)))

/-- what is seen of the features that were made of the data is seen of the data -/
theorem streets_kept (hS : S.Ok t e g) (hD : S.Fits data) {fs : List (List Feature)} {m : MetaTable} {names : List Bytes} {tbl : List Meta}
    (hl : OsmLoaded S.prof S.profile t S.numeral data fs m names tbl) (q : Tile) (hz : q.z ≤ 20) (layers : List ClientLayer)
    (m3 : ∀ f ∈ fs.flatten, f.zmin ≤ q.z → q.z ≤ f.zmax → (∀ f' ∈ fs.flatten, f'.layer = f.layer → f'.id = f.id → typeOf f'.geometry = 2 → f' = f) →
      ∃ name, names[f.layer]? = some name ∧ ∀ ls, f.geometry = .polyline ls → ∀ l ∈ ls,
        ∀ a b, Next (keep (S.rd (S.mkMask l) q.z) l) a b → ∀ s : ℝ, 0 ≤ s → s ≤ 1 →
        (∀ p, CloseBy (2 * e + (2 + τ) * 2 ^ (20 - q.z)) p (onSeg a b s) → TileHas q p) →
        ∀ a' b', Next (keep (S.rd (S.mkMask l) q.z) l) a' b' → ∀ s' : ℝ, 0 ≤ s' → s' ≤ 1 → ¬ NearBy ((2 * τ + 1) * 2 ^ (20 - q.z)) (onSeg a b s) (onSeg a' b' s') →
        ∃ f' ∈ fs.flatten, f'.layer = f.layer ∧ f'.metas.Perm f.metas ∧ typeOf f'.geometry = 2 ∧ LineSeen layers name f'.id (tagsOf f.metas) (fun c d =>
          ∃ v : ℝ, 0 ≤ v ∧ v ≤ 1 ∧ CloseBy (e / 2 ^ (20 - q.z) + 2 + τ) (onSeg c d v) (tilePos q (onSeg a b s)))) : StreetsKept S t e g τ data q layers := by
  obtain ⟨px, hgeo, hconv⟩ := hS.places
  obtain ⟨g1, g2, g3⟩ := hS.error
  intro d hd nodes hsh r hrule z hzl hzq hone A B hAB s s0 s1 hdeep A' B' hAB2 s' s0' s1' hfar
  -- the feature
  have hmemAB : ∀ A B : LatLng, [A, B] <:+: keptPlaces (S.rd (S.mkMask ((nodes.filterMap id).map S.prof.conv)) q.z) nodes → ∀ l ∈ [A, B], some l ∈ shapeNodes d.shape := by
    intro A B hAB l hl'
    have h1 := hAB.subset hl'
    obtain ⟨⟨x, y⟩, h2, rfl⟩ := List.mem_map.1 h1
    have h3 := (List.of_mem_zip (List.mem_filter.1 h2).1).1
    obtain ⟨o, h4, h5⟩ := List.mem_filterMap.1 h3
    rw [hsh]
    show some x ∈ nodes
    rw [← h5]; exact h4
  have hlen : 2 ≤ (nodesToFixed S.prof.conv nodes).length := by
    rw [fixed_of_nodes, List.length_map]
    have h1 := hAB.length_le
    have h2 : (keptPlaces (S.rd (S.mkMask ((nodes.filterMap id).map S.prof.conv)) q.z) nodes).length ≤ (nodes.filterMap id).length := by
      unfold keptPlaces
      rw [List.length_map]
      refine le_trans (List.length_filter_le _ _) ?_
      rw [List.length_zip]
      exact Nat.min_le_left _ _
    simp only [List.length_cons, List.length_nil] at h1
    omega
  have hread : readOsm S.prof.conv d.shape = .ok (.polyline [(nodes.filterMap id).map S.prof.conv]) := by
    rw [hsh]
    show Res.ok (readOsmWay S.prof.conv nodes) = _
    unfold readOsmWay
    dsimp only
    rw [if_neg (by omega), fixed_of_nodes]
  obtain ⟨f, hf, hst, hde⟩ := hl.all_data d hd r _ hrule hread (by simp)
  have hgf : f.geometry = .polyline [(nodes.filterMap id).map S.prof.conv] := by
    have := hst.geometry
    rw [show (d.obj S.profile S.numeral).shape = d.shape from rfl, hread] at this
    injection this with this
    exact this.symm
  have hz1 : f.zmin = z := by
    have := hst.first
    rw [hzl] at this
    injection this with this
    exact this.symm
  have htype : ∀ f ∈ fs.flatten, ∀ d : Datum, readOsm S.prof.conv d.shape = .ok f.geometry → f.geometry ≠ .null → typeOf f.geometry = d.type := by
    intro f _ d hread hne
    rcases (readOsm_from S.prof.conv hread).2.2 with h | h
    · exact absurd h hne
    · cases hsh : d.shape with
      | node _ => rw [hsh] at h; obtain ⟨x, h⟩ := h; simp [h, Datum.type, hsh, typeOf]
      | way _ => rw [hsh] at h; obtain ⟨x, _, h⟩ := h; simp [h, Datum.type, hsh, typeOf]
      | area _ => rw [hsh] at h; obtain ⟨x, y, h⟩ := h; simp [h, Datum.type, hsh, typeOf]
  have huniq : ∀ f' ∈ fs.flatten, f'.layer = f.layer → f'.id = f.id → typeOf f'.geometry = 2 → f' = f := by
    intro f' hf' _ hid hty
    obtain ⟨d', hd', r', hr', hst', hne', hde'⟩ := hl.from_data f' hf'
    have e1 : d'.type = 2 := by rw [← htype f' hf' d' hst'.geometry hne', hty]
    have e2 : d'.id % 2 ^ 64 = d.id % 2 ^ 64 := by
      have a1 : (f'.id : Int) = d'.id % 2 ^ 64 := hst'.id
      have a2 : (f.id : Int) = d.id % 2 ^ 64 := hst.id
      rw [← a1, ← a2, hid]
    rw [hone d' hd' e2 e1] at hde'
    exact describes_unique hl.nodup hde' hde
  obtain ⟨name, n1, n2⟩ := m3 f hf (by omega) (by rw [hst.last]; omega) huniq
  have hname : name = r.layer := by
    have := hst.layer
    rw [n1] at this
    injection this
  have hnext : ∀ A B : LatLng, [A, B] <:+: keptPlaces (S.rd (S.mkMask ((nodes.filterMap id).map S.prof.conv)) q.z) nodes →
      Next (keep (S.rd (S.mkMask ((nodes.filterMap id).map S.prof.conv)) q.z) ((nodes.filterMap id).map S.prof.conv)) (S.prof.conv A) (S.prof.conv B) := by
    intro A B hAB
    rw [keep_places]
    have := List.IsInfix.map S.prof.conv hAB
    rw [List.map_cons, List.map_cons, List.map_nil] at this
    exact this
  have htags := (tags_perm hS.shipped hS.numerals hS.doubles (hD.texts d hd) hrule hst).1
  -- the places
  have hp : (0 : ℝ) < 2 ^ (20 - q.z) := by positivity
  have hmid : ∀ A B : LatLng, [A, B] <:+: keptPlaces (S.rd (S.mkMask ((nodes.filterMap id).map S.prof.conv)) q.z) nodes → ∀ u : ℝ, 0 ≤ u → u ≤ 1 →
      CloseBy g (onSeg (S.prof.conv A) (S.prof.conv B) u) ((between A B u).1 * 2 ^ 32, (between A B u).2 * 2 ^ 32) := by
    intro A B hAB u u0 u1
    have hnear : ∀ l ∈ [A, B], |((S.prof.conv l).x : ℝ) - mapX l * 2 ^ 32| ≤ g ∧ |((S.prof.conv l).y : ℝ) - mapY l * 2 ^ 32| ≤ g := by
      intro l hl'
      obtain ⟨x, y, k1, _, _, k2, k3⟩ := C64_near g3 hgeo l (hD.places d hd l (hmemAB A B hAB l hl'))
      rw [hconv, k1]
      exact ⟨by simpa using k2, by simpa using k3⟩
    obtain ⟨A1, A2⟩ := hnear A (by simp)
    obtain ⟨B1, B2⟩ := hnear B (by simp)
    have k1 := mix_close u0 u1 A1 B1
    have k2 := mix_close u0 u1 A2 B2
    refine ⟨?_, ?_⟩
    · convert k1 using 2
      simp only [between, onSeg]; ring
    · convert k2 using 2
      simp only [between, onSeg]; ring
  have hP := hmid A B hAB s s0 s1
  have hQ := hmid A' B' hAB2 s' s0' s1'
  obtain ⟨f', hf', u1, u2, u3, u4⟩ := n2 _ hgf _ (List.mem_singleton.2 rfl) _ _ (hnext A B hAB) s s0 s1 (fun p hp' => tile_of_deep hz hdeep (by
      have := within_tri hp' hP
      rwa [show 2 * (e : ℝ) + (2 + τ) * 2 ^ (20 - q.z) + g = 2 * e + g + (2 + τ) * 2 ^ (20 - q.z) by ring] at this)) _ _ (hnext A' B' hAB2) s' s0' s1' (by
    rintro ⟨c1, c2⟩
    apply hfar
    rw [inTile_eq q hz, inTile_eq q hz]
    simp only [tilePos]
    have key : ∀ {x y m n o : ℝ}, |x - y| < (2 * τ + 1) * 2 ^ (20 - q.z) → |x - m| ≤ g → |y - n| ≤ g →
        |m / 2 ^ (20 - q.z) - o - (n / 2 ^ (20 - q.z) - o)| < 2 * τ + 1 + 2 * g / 2 ^ (20 - q.z) := by
      intro x y m n o h1 h2 h3
      rw [show m / 2 ^ (20 - q.z) - o - (n / 2 ^ (20 - q.z) - o) = (m - n) / 2 ^ (20 - q.z) by ring, abs_div, abs_of_pos hp, div_lt_iff₀ hp, add_mul, div_mul_cancel₀ _ hp.ne']
      rw [abs_lt] at *
      rw [abs_le] at *
      constructor <;> linarith
    exact ⟨key c1 hP.1 hQ.1, key c2 hP.2 hQ.2⟩)
  obtain ⟨d', hd', r', hr', hst', hne', _⟩ := hl.from_data f' hf'
  refine ⟨d', hd', by rw [← htype f' hf' d' hst'.geometry hne', u3], ⟨r', hr', ?_, ?_⟩, ?_⟩
  · have h1 := hst'.layer
    have h2 := hst.layer
    rw [u1, h2] at h1
    injection h1 with h1
    exact h1.symm
  · have htags' := (tags_perm hS.shipped hS.numerals hS.doubles (hD.texts d' hd') hr' hst').1
    exact (htags'.symm.trans (tagsOf_perm u2)).trans htags
  · rw [hname, show (f'.id : Int) = d'.id % 2 ^ 64 from hst'.id] at u4
    refine seen_tags htags ?_ u4
    rintro p p' ⟨v, v0, v1, hv⟩
    refine ⟨v, v0, v1, ?_⟩
    have := within_tri hv (within_scale q hP)
    rw [inTile_eq q hz]
    convert this using 1
    ring
/-- Streets are drawn at the prepared levels, too: whatever is imported with a shipped profile (as in C68), the server answers every tile up to level 10, where ways are joined and
simplified, and a client sees there, of every way that the table of the profile gives a layer for at the level, a line around every point of it (of the straight lines between consecutive
nodes; nodes without a place and those that simplification removes at the level do not count) that lies in the tile, two units and the errors off its border:
not further away than two units and the errors, in the layer of the table and with exactly the attributes of the table. The id may be that of another way with the same layer and
attributes. (Not claimed if no point of the way is further than a unit and twice the errors from the point.) -/
theorem C78_streets (hS : S.Ok t e g) (hD : S.Fits data) (hτ : 0 ≤ τ)
    (hlib : ∃ inter clipper correct simplify, ClipLib e inter clipper correct ∧ LineLib e inter ∧ CoverLib τ simplify ∧ S.base.clip = clipGeometry inter clipper correct ∧
      ∀ z fs out, aggregateLineFeatures simplify z fs = .ok out → S.base.aggregate z fs = out)
    (runs : List (List String)) (hacts : changes runs = [.load false true, .pack, .tiles]) (a b : TileDb MetaTable)
    (hr : Imports (importParts (S.env data)) runs a b) (hsmall : SmallPacks b.features) (hsize : b.pf.reopen.size < 2 ^ 64) (features : List (UInt64 × Bytes))
    (hdb : EntriesOf b.features features) (ctx : GetCtx) (hctx : makeRenderCtx S.base (preparedString b.maxPrepared) b.info = .ok ctx)
    (q : Tile) (hv : q.Valid) (hz10 : q.z ≤ 10) (hshort : S.ShortLines data ctx q) :
    ∃ bytes layers, getTile b.tiles features b.pf.reopen ctx q = .ok (if bytes = [] then none else some (ctx.encode bytes)) ∧
      (bytes.length < 2 ^ 32 → clientTile bytes = some layers ∧ (bytes = [] ↔ layers = [])) ∧
      ∀ d ∈ data, ∀ nodes, d.shape = .way nodes → ∀ r, d.rule t = some r →
        ∀ z, levelFor (areaOf S.prof (d.obj S.profile S.numeral)) r.zoom = some z → z ≤ q.z →
        (∀ d' ∈ data, d'.id % 2 ^ 64 = d.id % 2 ^ 64 → d'.type = 2 → d' = d) →
        ∀ A B, [A, B] <:+: keptPlaces (S.rd (S.mkMask ((nodes.filterMap id).map S.prof.conv)) q.z) nodes →
        ∀ s : ℝ, 0 ≤ s → s ≤ 1 → Deep (2 * e + g + (2 + τ) * 2 ^ (20 - q.z)) q (between A B s) →
        ∀ A' B', [A', B'] <:+: keptPlaces (S.rd (S.mkMask ((nodes.filterMap id).map S.prof.conv)) q.z) nodes →
        ∀ s' : ℝ, 0 ≤ s' → s' ≤ 1 → ¬ NearBy (2 * τ + 1 + 2 * g / 2 ^ (20 - q.z)) (inTile q (between A B s)) (inTile q (between A' B' s')) →
        ∃ d' ∈ data, d'.type = 2 ∧ (∃ r', d'.rule t = some r' ∧ r'.layer = r.layer ∧
            (r'.shown S.numeral S.prof.toDouble (tagValue d'.tags)).Perm (r.shown S.numeral S.prof.toDouble (tagValue d.tags))) ∧
          LineSeen layers r.layer (d'.id % 2 ^ 64) (r.shown S.numeral S.prof.toDouble (tagValue d.tags)) (fun p p' =>
            ∃ v : ℝ, 0 ≤ v ∧ v ≤ 1 ∧ CloseBy ((e + g) / 2 ^ (20 - q.z) + 2 + τ) (onSeg p p' v) (inTile q (between A B s))) := by
  obtain ⟨px, hgeo, hconv⟩ := hS.places
  obtain ⟨inter, clipper, correct, simplify, hlib, hline, hcover, hclip, hagg⟩ := hlib
  obtain ⟨g1, g2, g3⟩ := hS.error
  have hin := osm_in hS hD
  obtain ⟨hmax, _, _, _, fs0, _, hload0⟩ := imports_loaded (S.env data) false true hS.work (fun fs m h => (hin fs m h).2) runs hacts a b hr hsmall
  obtain ⟨names0, tbl0, hl0⟩ := osm_loaded hS.shipped hS.numerals hD.toGoodData hload0
  obtain ⟨b1, b2, h3, h4, h5⟩ := hl0.table
  rw [hmax, h3] at hctx
  rw [ctx_of (by norm_num) h4 h5] at hctx
  injection hctx with hctx
  have hctxOf : (S.env data).ctxOf b.info = { ctx with maxPrepared := -1 } := by
    show (match makeRenderCtx S.base none b.info with | .ok c => c | _ => S.base) = _
    rw [h3, ← hctx, ctx_first h4 h5]
  have hdec0 : (S.env data).decOf b.info = tbl0 := (osm_importable hS hD hload0 hl0).1
  obtain ⟨_, ⟨_, _, fs, rfl, hload⟩, hserve⟩ := C78_served (S.env data) false true hS.sorts hS.masks hS.work hin runs hacts a b hr hsmall hsize features hdb
    ctx ⟨-1, hctxOf⟩ (by rw [← hctx]; exact hS.reads) (by rw [hdec0, ← hctx]) ⟨by rw [← hctx], by rw [← hctx], by rw [← hctx], by rw [← hctx]⟩
    e g1 g2 τ hτ inter clipper correct hlib hline (by rw [← hctx]; exact hclip) simplify hcover (by intro z fs out h; rw [← hctx]; exact hagg z fs out h)
  obtain ⟨names, tbl, hl⟩ := osm_loaded hS.shipped hS.numerals hD.toGoodData hload
  obtain ⟨_, _, _, himp⟩ := osm_importable hS hD hload hl
  have hnames : ctx.layerNames = names := by
    obtain ⟨b1', b2', k1, k2, k3⟩ := hl.table
    rw [h3] at k1
    injection k1 with _ k1 _
    rw [← k1, h4] at k2
    injection k2 with k2
    rw [← hctx]
    exact k2
  obtain ⟨bytes, layers, m1, m2, m3⟩ := hserve (fun x hx => by obtain ⟨f, hf, rfl⟩ := mem_whole.1 hx; rw [hnames]; exact (himp f hf).2.1) (by rw [hnames]; exact hl.few.1) []
    ⟨by rw [← hctx]; rfl, by rw [← hctx]; simp, by simp⟩ q hv hz10 (.inr (.inr (by simp))) (fun x hx => by obtain ⟨f, hf, rfl⟩ := mem_whole.1 hx; exact (himp f hf).2.2 q.z (by omega))
    (fun gs i h => hshort fs b.info hload gs i (fun y hy => (h y hy).imp_right (by rintro ⟨x, hx, hs⟩; obtain ⟨f, hf, rfl⟩ := mem_whole.1 hx; exact ⟨f, hf, hs⟩)))
  refine ⟨bytes, layers, m1, m2, streets_kept hS hD hl q (by omega) layers fun f hf hz1 hz2 hone => ?_⟩
  rw [← hnames]
  obtain ⟨name, n1, n2⟩ := m3 f (mem_whole.2 ⟨f, hf, rfl⟩) hz1 hz2 (fun x hx => by obtain ⟨f', hf', rfl⟩ := mem_whole.1 hx; exact hone f' hf')
  refine ⟨name, n1, fun ls hg l hlm a b hab s s0 s1 hdeep a' b' hab' s' s0' s1' hfar => ?_⟩
  obtain ⟨x, hx, k1, k2, k3, k4⟩ := n2 ls hg l hlm a b hab s s0 s1 hdeep a' b' hab' s' s0' s1' hfar
  obtain ⟨f', hf', rfl⟩ := mem_whole.1 hx
  exact ⟨f', hf', k1, k2, k3, k4⟩
end

end Tiles
