import Verif.Spec.LineLib
import Verif.Props.C68
/-! C70 — streets are drawn: what lies in a tile of a line is seen there, at its place. -/
namespace Tiles
open Spec

/-! ### lists -/

theorem next_cons {l : Line} {x a b : XY} (h : Next (x :: l) a b) : (x = a ∧ ∃ l', l = b :: l') ∨ Next l a b := by
  obtain ⟨pre, post, h⟩ := h
  cases pre with
  | nil =>
    simp only [List.nil_append, List.cons_append] at h
    injection h with h1 h2
    exact .inl ⟨h1.symm, post, h2.symm⟩
  | cons y pre =>
    simp only [List.cons_append] at h
    injection h with h1 h2
    exact .inr ⟨pre, post, by simpa using h2⟩

theorem next_tail {l : Line} {x a b : XY} (h : Next l a b) : Next (x :: l) a b := h.trans (List.suffix_cons x l).isInfix

theorem next_map {l : Line} {a b : XY} (f : XY → XY) (h : Next l a b) : Next (l.map f) (f a) (f b) := by
  have := List.IsInfix.map f h
  rw [List.map_cons, List.map_cons, List.map_nil] at this
  exact this

theorem next_mem {l : Line} {a b : XY} (h : Next l a b) : a ∈ l ∧ b ∈ l := ⟨h.subset (by simp), h.subset (by simp)⟩

theorem next_destutter {l : Line} {a b : XY} (h : Next l a b) (hne : a ≠ b) : Next (l.destutter (· ≠ ·)) a b := by
  have key : ∀ (l : Line) (x : XY), Next (x :: l) a b → Next (List.destutter' (· ≠ ·) x l) a b := by
    intro l
    induction l with
    | nil =>
      intro x h
      rcases next_cons h with ⟨_, _, h⟩ | h
      · cases h
      · have := (next_mem h).1; cases this
    | cons y l ih =>
      intro x h
      rw [List.destutter'_cons]
      rcases next_cons h with ⟨rfl, l', h⟩ | h
      · injection h with h1 h2
        subst h1 h2
        rw [if_pos hne]
        have hpre : ∃ r, List.destutter' (· ≠ ·) y l = y :: r := by
          clear ih h hne
          induction l with
          | nil => exact ⟨[], rfl⟩
          | cons w l ih2 =>
            rw [List.destutter'_cons]
            split
            · exact ⟨_, rfl⟩
            · exact ih2
        obtain ⟨r, hr⟩ := hpre
        rw [hr]
        exact ⟨[], r, rfl⟩
      · have := ih y h
        by_cases hxy : x ≠ y
        · rw [if_pos hxy]; exact next_tail this
        · rw [if_neg hxy]
          have : x = y := not_not.1 hxy
          subst this
          assumption
  cases l with
  | nil => have := (next_mem h).1; cases this
  | cons x l => exact key l x h

/-! ### geometry -/

theorem floor_close (v : Int) (n : Nat) : ((v / 2 ^ n : Int) : ℝ) * 2 ^ n ≤ v ∧ (v : ℝ) < ((v / 2 ^ n : Int) : ℝ) * 2 ^ n + 2 ^ n := by
  have hpi : (0 : Int) < 2 ^ n := by positivity
  constructor
  · exact_mod_cast Int.ediv_mul_le v hpi.ne'
  · have := Int.lt_ediv_add_one_mul_self v hpi
    rw [add_mul, one_mul] at this
    exact_mod_cast this

/-- mixing two values that are close to two others -/
theorem mix_close {a b a' b' v d : ℝ} (h0 : 0 ≤ v) (h1 : v ≤ 1) (ha : |a - a'| ≤ d) (hb : |b - b'| ≤ d) : |(a + v * (b - a)) - (a' + v * (b' - a'))| ≤ d := by
  rw [abs_le] at *
  constructor <;> nlinarith

/-- a segment, rounded to the zoom level of the tile, is within one unit of the segment -/
theorem seg_floor (q : Tile) (c d : XY) {v : ℝ} (h0 : 0 ≤ v) (h1 : v ≤ 1) :
    CloseBy 1 (onSeg (rel (pxBounds q).min (floorTo q.z c)) (rel (pxBounds q).min (floorTo q.z d)) v) (tilePos q (onSeg c d v)) := by
  have hp : (0 : ℝ) < 2 ^ (20 - q.z) := by positivity
  have key : ∀ (x y : Int) (o : Nat),
      |((((x / 2 ^ (20 - q.z) - o * 4096 : Int)) : ℝ) + v * (((y / 2 ^ (20 - q.z) - o * 4096 : Int) : ℝ) - ((x / 2 ^ (20 - q.z) - o * 4096 : Int) : ℝ))) -
        (((x : ℝ) + v * (y - x)) / 2 ^ (20 - q.z) - o * 4096)| ≤ 1 := by
    intro x y o
    have hc : ∀ w : Int, |(((w / 2 ^ (20 - q.z) - o * 4096 : Int)) : ℝ) - ((w : ℝ) / 2 ^ (20 - q.z) - o * 4096)| ≤ 1 := by
      intro w
      obtain ⟨f1, f2⟩ := floor_close w (20 - q.z)
      have e1 : (w : ℝ) / 2 ^ (20 - q.z) * 2 ^ (20 - q.z) = w := div_mul_cancel₀ _ hp.ne'
      push_cast
      rw [abs_le]
      constructor <;> nlinarith
    have := mix_close h0 h1 (hc x) (hc y)
    convert this using 2
    ring
  exact ⟨key c.x d.x q.x, key c.y d.y q.y⟩

theorem within_tri {d1 d2 : ℝ} {p q r : ℝ × ℝ} (h1 : CloseBy d1 p q) (h2 : CloseBy d2 q r) : CloseBy (d1 + d2) p r := by
  unfold CloseBy at *
  simp only [abs_le] at *
  refine ⟨⟨?_, ?_⟩, ?_, ?_⟩ <;> linarith [h1.1.1, h1.1.2, h1.2.1, h1.2.2, h2.1.1, h2.1.2, h2.2.1, h2.2.2]

theorem within_symm {d : ℝ} {p q : ℝ × ℝ} (h : CloseBy d p q) : CloseBy d q p := by
  unfold CloseBy at *
  rwa [abs_sub_comm q.1, abs_sub_comm q.2]

theorem within_scale (q : Tile) {d : ℝ} {a b : ℝ × ℝ} (h : CloseBy d a b) : CloseBy (d / 2 ^ (20 - q.z)) (tilePos q a) (tilePos q b) := by
  have hp : (0 : ℝ) < 2 ^ (20 - q.z) := by positivity
  unfold CloseBy tilePos at *
  dsimp only
  rw [show a.1 / 2 ^ (20 - q.z) - q.x * 4096 - (b.1 / 2 ^ (20 - q.z) - q.x * 4096) = (a.1 - b.1) / 2 ^ (20 - q.z) by ring,
    show a.2 / 2 ^ (20 - q.z) - q.y * 4096 - (b.2 / 2 ^ (20 - q.z) - q.y * 4096) = (a.2 - b.2) / 2 ^ (20 - q.z) by ring, abs_div, abs_div, abs_of_pos hp]
  exact ⟨div_le_div_of_nonneg_right h.1 hp.le, div_le_div_of_nonneg_right h.2 hp.le⟩

theorem onSeg_within {c d : XY} {k v w : ℝ} (h : CloseBy k (c.x, c.y) (d.x, d.y)) (hv0 : 0 ≤ v) (hv1 : v ≤ 1) (hw0 : 0 ≤ w) (hw1 : w ≤ 1) :
    CloseBy k (onSeg c d v) (onSeg c d w) := by
  have key : ∀ x y : ℝ, |x - y| ≤ k → |(x + v * (y - x)) - (x + w * (y - x))| ≤ k := by
    intro x y h
    rw [show (x + v * (y - x)) - (x + w * (y - x)) = (v - w) * (y - x) by ring, abs_mul, abs_sub_comm y x]
    have : |v - w| ≤ 1 := by rw [abs_le]; constructor <;> linarith
    nlinarith [abs_nonneg (x - y), abs_nonneg (v - w)]
  exact ⟨key _ _ h.1, key _ _ h.2⟩

/-- points with the same rounding are less than a unit of the zoom level apart -/
theorem floor_same {z : Nat} {c d : XY} (h : floorTo z c = floorTo z d) {v w : ℝ} (hv0 : 0 ≤ v) (hv1 : v ≤ 1) (hw0 : 0 ≤ w) (hw1 : w ≤ 1) :
    |(onSeg c d v).1 - (onSeg c d w).1| < 2 ^ (20 - z) ∧ |(onSeg c d v).2 - (onSeg c d w).2| < 2 ^ (20 - z) := by
  unfold floorTo at h
  injection h with hx hy
  have hp : (0 : ℝ) < 2 ^ (20 - z) := by positivity
  have key : ∀ x y : Int, x / 2 ^ (20 - z) = y / 2 ^ (20 - z) → |((x : ℝ) + v * (y - x)) - (x + w * (y - x))| < 2 ^ (20 - z) := by
    intro x y h
    obtain ⟨f1, f2⟩ := floor_close x (20 - z)
    obtain ⟨g1, g2⟩ := floor_close y (20 - z)
    rw [h] at f1 f2
    have h3 : |(y : ℝ) - x| < 2 ^ (20 - z) := by rw [abs_lt]; constructor <;> linarith
    rw [show ((x : ℝ) + v * (y - x)) - (x + w * (y - x)) = (v - w) * (y - x) by ring, abs_mul]
    have : |v - w| ≤ 1 := by rw [abs_le]; constructor <;> linarith
    nlinarith [abs_nonneg ((y : ℝ) - x), abs_nonneg (v - w)]
  exact ⟨key _ _ hx, key _ _ hy⟩

theorem tile_in_box {q : Tile} {p : ℝ × ℝ} (h : TileHas q p) : BoxHas (drawBounds q) p := by
  obtain ⟨h1, h2, h3, h4⟩ := h
  simp only [side] at h1 h2 h3 h4
  simp only [BoxHas, drawBounds, pxBounds, kOverdraw]
  push_cast at *
  refine ⟨by nlinarith, by nlinarith, by nlinarith, by nlinarith⟩

theorem point_inside {q : Tile} {p : XY} (h : TileHas q (p.x, p.y)) : InsideOf (drawBounds q) p := by
  obtain ⟨h1, h2, h3, h4⟩ := h
  simp only [side] at h1 h2 h3 h4
  have a1 : (q.x : Int) * (4096 * 2 ^ (20 - q.z)) ≤ p.x := by exact_mod_cast h1
  have a2 : p.x < ((q.x : Int) + 1) * (4096 * 2 ^ (20 - q.z)) := by exact_mod_cast h2
  have a3 : (q.y : Int) * (4096 * 2 ^ (20 - q.z)) ≤ p.y := by exact_mod_cast h3
  have a4 : p.y < ((q.y : Int) + 1) * (4096 * 2 ^ (20 - q.z)) := by exact_mod_cast h4
  simp only [InsideOf, drawBounds, pxBounds, kOverdraw]
  refine ⟨by linarith, by linarith, by linarith, by linarith⟩

/-! ### one line -/

section
variable {e : Int} {inter : Box → List Line → List Line} {clipper : List Line → Box → Option (List PolyNode)} {correct : List Polygon → List Polygon}

/-- what the library leaves of a line is drawn -/
theorem part_drawn (ctx : RenderCtx) (hctx : ctx.clip = clipGeometry inter clipper correct) (q : Tile) (hz : q.z ≤ 20) (ls : List Line) {part : Line} {c d : XY}
    (hp : part ∈ inter (drawBounds q) ls) (hn : Next part c d) (hne : floorTo q.z c ≠ floorTo q.z d) :
    ∃ out, drawGeometry ctx (specOf q) (.polyline ls) = .ok (.polyline out) ∧ ∃ l ∈ out, Next l (floorTo q.z c) (floorTo q.z d) := by
  have hlen : ∀ {l : Line} {a b : XY}, Next l a b → 2 ≤ l.length := fun h => by have := h.length_le; simpa using this
  have hmem : part ∈ (inter (drawBounds q) ls).filter (fun q => ¬ q.length < 2) := List.mem_filter.2 ⟨hp, by have := hlen hn; simp; omega⟩
  have hclip : clipPolyline inter ls (drawBounds q) = .polyline ((inter (drawBounds q) ls).filter (fun q => ¬ q.length < 2)) := by
    rw [clipPolyline, if_neg]
    intro hc
    rw [List.isEmpty_iff] at hc
    rw [hc] at hmem
    cases hmem
  have hnext : Next (lineAt q.z part) (floorTo q.z c) (floorTo q.z d) := next_destutter (next_map (floorTo q.z) hn) hne
  have hkept : lineAt q.z part ∈ (((inter (drawBounds q) ls).filter (fun q => ¬ q.length < 2)).map (lineAt q.z)).filter (fun p => 2 ≤ p.length) :=
    List.mem_filter.2 ⟨List.mem_map_of_mem hmem, by have := hlen hnext; simpa using this⟩
  refine ⟨_, ?_, _, hkept, hnext⟩
  rw [drawGeometry, hctx]
  show (do let c ← (Res.ok (clipPolyline inter ls (drawBounds q))); shiftGeometry c q.z) = _
  rw [hclip, Res.ok_bind, C26_shift_polyline _ _ hz]
  dsimp only
  rw [if_neg]
  intro hc
  rw [hc] at hkept
  cases hkept

/-- the feature of a line that is drawn is in the tile -/
theorem line_in_tile (ctx : RenderCtx) (q : Tile) (hagg : ctx.aggLines = false) (fs : List Feature) (f : Feature) (hf : f ∈ fs)
    (name : Bytes) (hname : ctx.layerNames[f.layer]? = some name)
    (hone : ∀ g ∈ fs, g.layer = f.layer → g.id = f.id → typeOf g.geometry = typeOf f.geometry → g.geometry = f.geometry ∧ g.metas.Perm f.metas)
    (ls : List Line) (hg : f.geometry = .polyline ls) {out : List Line} (hout : drawGeometry ctx (specOf q) (.polyline ls) = .ok (.polyline out))
    {l : Line} (hl : l ∈ out) {a b : XY} (hn : Next l a b) {P : XY → XY → Prop} (hP : P (rel (pxBounds q).min a) (rel (pxBounds q).min b)) :
    LineSeen (tileContent ctx (specOf q) fs) name f.id (tagsOf f.metas) P := by
  obtain ⟨hlay, hname'⟩ := List.getElem?_eq_some_iff.1 hname
  have hf' : f ∈ ofLayer fs f.layer := List.mem_filter.2 ⟨hf, by simp⟩
  obtain ⟨g, h1, h2, h3⟩ := unique_has hf' (by rw [hg]; simp)
  have h4 := List.mem_filter.1 ((C28_unique (ofLayer fs f.layer)).2.2.subset h1)
  obtain ⟨h5, h6⟩ := hone g h4.1 (of_decide_eq_true h4.2) h2 h3
  rw [hg] at h5
  have hdirect : g ∈ direct ctx (ofLayer fs f.layer) := by
    refine List.mem_filter.2 ⟨h1, ?_⟩
    simp [isPoly, h5, typeOf, hagg]
  have hdrawn : (drawn ctx (specOf q) g).geometry = .polyline out := by simp only [drawn, h5, hout]
  have hcontent : drawn ctx (specOf q) g ∈ layerContent ctx (specOf q) (ofLayer fs f.layer) := by
    rw [layerContent, List.mem_filter]
    refine ⟨?_, by simp [nonNull, hdrawn]⟩
    simp only [List.mem_append, List.mem_map]
    exact .inl (.inl ⟨g, hdirect, rfl⟩)
  refine ⟨⟨2, ctx.layerNames[f.layer]?.getD [], 4096, (layerContent ctx (specOf q) (ofLayer fs f.layer)).map (view (specOf q).px.min)⟩, ?_, ?_,
    view (specOf q).px.min (drawn ctx (specOf q) g), List.mem_map_of_mem hcontent, ?_, ?_, ?_, ?_⟩
  · rw [tileContent, List.mem_filterMap]
    refine ⟨f.layer, List.mem_range.2 hlay, ?_⟩
    dsimp only
    rw [if_neg]
    intro hc
    rw [hc] at hcontent
    cases hcontent
  · simp [hname]
  · show ((drawn ctx (specOf q) g).id : Int) = f.id
    exact congrArg _ h2
  · show typeOf (drawn ctx (specOf q) g).geometry = 2
    rw [hdrawn]; rfl
  · exact tagsOf_perm h6
  · refine ⟨⟨l.map (rel (pxBounds q).min), false⟩, ?_, rfl, _, _, next_map _ hn, hP⟩
    show _ ∈ partsOf (specOf q).px.min (drawn ctx (specOf q) g).geometry
    rw [hdrawn]
    exact List.mem_map.2 ⟨l, hl, rfl⟩

theorem place_floor (q : Tile) (p : XY) : placeIn q p = rel (pxBounds q).min (floorTo q.z p) := rfl

/-- A client sees each segment of a line feature in a tile where lines are not joined: in the layer of the feature, with its id and tags, at its place. -/
theorem C70_line (hl : LineLib e inter) (ctx : RenderCtx) (hctx : ctx.clip = clipGeometry inter clipper correct) (q : Tile) (hz : q.z ≤ 20)
    (hagg : ctx.aggLines = false) (fs : List Feature) (f : Feature) (hf : f ∈ fs) (name : Bytes) (hname : ctx.layerNames[f.layer]? = some name)
    (hone : ∀ g ∈ fs, g.layer = f.layer → g.id = f.id → typeOf g.geometry = typeOf f.geometry → g.geometry = f.geometry ∧ g.metas.Perm f.metas)
    (ls : List Line) (hg : f.geometry = .polyline ls) (l : Line) (hlm : l ∈ ls) (a b : XY) (hab : Next l a b) :
    SegmentSeen e q (tileContent ctx (specOf q) fs) name f.id (tagsOf f.metas) a b := by
  constructor
  · intro ha hb hne'
    have hne : floorTo q.z a ≠ floorTo q.z b := fun h => hne' (by rw [place_floor, place_floor, h])
    obtain ⟨part, h1, h2⟩ := hl.stays (drawBounds q) ls l hlm a b hab (fun h => hne (by rw [h])) (point_inside ha) (point_inside hb)
    obtain ⟨out, h3, l', h4, h5⟩ := part_drawn ctx hctx q hz ls h1 h2 hne
    exact line_in_tile ctx q hagg fs f hf name hname hone ls hg h3 h4 h5 ⟨rfl, rfl⟩
  · intro s t hs0 hs1 ht0 ht1 hs ht hfar
    have hp : (0 : ℝ) < 2 ^ (20 - q.z) := by positivity
    obtain ⟨part, h1, c, d, h2, hcov⟩ := hl.crosses (drawBounds q) ls l hlm a b hab s t hs0 hs1 ht0 ht1 (tile_in_box hs) (tile_in_box ht) (by
      intro hc
      apply hfar
      exact ⟨lt_of_le_of_lt hc.1 (by linarith), lt_of_le_of_lt hc.2 (by linarith)⟩)
    have hne : floorTo q.z c ≠ floorTo q.z d := by
      intro hc
      obtain ⟨v, v0, v1, hv⟩ := hcov s hs0 hs1 (tile_in_box hs)
      obtain ⟨w, w0, w1, hw⟩ := hcov t ht0 ht1 (tile_in_box ht)
      obtain ⟨k1, k2⟩ := floor_same hc v0 v1 w0 w1
      apply hfar
      obtain ⟨a1, a2⟩ := hv
      obtain ⟨b1, b2⟩ := hw
      rw [abs_le] at a1 a2 b1 b2
      rw [abs_lt] at k1 k2
      rw [abs_lt, abs_lt]
      refine ⟨⟨?_, ?_⟩, ?_, ?_⟩ <;> linarith
    obtain ⟨out, h3, l', h4, h5⟩ := part_drawn ctx hctx q hz ls h1 h2 hne
    refine line_in_tile ctx q hagg fs f hf name hname hone ls hg h3 h4 h5 ?_
    intro u u0 u1 hu
    obtain ⟨v, v0, v1, hv⟩ := hcov u u0 u1 (tile_in_box hu)
    refine ⟨v, v0, v1, ?_⟩
    have := within_tri (seg_floor q c d v0 v1) (within_scale q hv)
    rwa [add_comm] at this
end

/-! ### after an import -/

theorem seen_tags {layers : List ClientLayer} {name : Bytes} {id : Int} {t1 t2 : List (Bytes × Typed)} {P Q : XY → XY → Prop} (hp : t1.Perm t2)
    (hPQ : ∀ a b, P a b → Q a b) (h : LineSeen layers name id t1 P) : LineSeen layers name id t2 Q := by
  obtain ⟨L, h1, h2, c, h3, h4, h5, h6, part, h7, h8, a, b, h9, h10⟩ := h
  exact ⟨L, h1, h2, c, h3, h4, h5, h6.trans hp, part, h7, h8, a, b, h9, hPQ a b h10⟩

theorem segment_tags {e : Int} {q : Tile} {layers : List ClientLayer} {name : Bytes} {id : Int} {t1 t2 : List (Bytes × Typed)} {a b : XY} (hp : t1.Perm t2)
    (h : SegmentSeen e q layers name id t1 a b) : SegmentSeen e q layers name id t2 a b :=
  ⟨fun h1 h2 h3 => seen_tags hp (fun _ _ h => h) (h.1 h1 h2 h3), fun s t h1 h2 h3 h4 h5 h6 h7 => seen_tags hp (fun _ _ h => h) (h.2 s t h1 h2 h3 h4 h5 h6 h7)⟩

/-- if a point of a segment lies in a tile, so does a point of the box of its line -/
theorem segment_meets {f : Feature} (hf : FeatureOk f) {ls : List Line} (hg : f.geometry = .polyline ls) {l : Line} (hl : l ∈ ls) {a b : XY} (ha : a ∈ l) (hb : b ∈ l)
    {q : Tile} {u : ℝ} (h0 : 0 ≤ u) (h1 : u ≤ 1) (h : TileHas q (onSeg a b u)) : boxMeets f q := by
  have hbox := (boundingBox_spec hf.coords hf.points).1
  have hmem : ∀ p ∈ l, p ∈ envelopePoints f.geometry := by
    intro p hp
    rw [hg]
    exact List.mem_flatten.2 ⟨l, hl, hp⟩
  obtain ⟨a1, a2, a3, a4⟩ := hbox a (hmem a ha)
  obtain ⟨b1, b2, b3, b4⟩ := hbox b (hmem b hb)
  obtain ⟨t1, t2, t3, t4⟩ := h
  have hmix : ∀ {m x y : Int}, m ≤ x → m ≤ y → (m : ℝ) ≤ x + u * (y - x) := by
    intro m x y h1' h2'
    have e1 : (m : ℝ) ≤ x := by exact_mod_cast h1'
    have e2 : (m : ℝ) ≤ y := by exact_mod_cast h2'
    nlinarith
  have hmix' : ∀ {m x y : Int}, x ≤ m → y ≤ m → (x : ℝ) + u * (y - x) ≤ m := by
    intro m x y h1' h2'
    have e1 : (x : ℝ) ≤ m := by exact_mod_cast h1'
    have e2 : (y : ℝ) ≤ m := by exact_mod_cast h2'
    nlinarith
  simp only [onSeg] at t1 t2 t3 t4
  have key : ∀ (v : ℝ) (k : Nat) (lo hi : Int), (k : ℝ) * side q.z ≤ v → v < (k + 1 : ℝ) * side q.z → (lo : ℝ) ≤ v → v ≤ hi →
      ∃ n : Nat, lo ≤ n ∧ (n : Int) ≤ hi ∧ k * side q.z ≤ n ∧ n < (k + 1) * side q.z := by
    intro v k lo hi k1 k2 k3 k4
    have hv : 0 ≤ v := le_trans (by positivity) k1
    refine ⟨⌊v⌋₊, ?_, ?_, ?_, ?_⟩
    · rw [show ((⌊v⌋₊ : Nat) : Int) = ⌊v⌋ from Int.natCast_floor_eq_floor hv]
      exact Int.le_floor.2 k3
    · have := Nat.floor_le hv
      have : ((⌊v⌋₊ : Nat) : ℝ) ≤ hi := le_trans this k4
      exact_mod_cast this
    · refine Nat.le_floor ?_
      push_cast; exact k1
    · rw [Nat.floor_lt hv]
      push_cast; exact k2
  obtain ⟨px, x1, x2, x3, x4⟩ := key _ q.x (boundingBox f.geometry).min.x (boundingBox f.geometry).max.x t1 t2 (hmix a1 b1) (hmix' a3 b3)
  obtain ⟨py, y1, y2, y3, y4⟩ := key _ q.y (boundingBox f.geometry).min.y (boundingBox f.geometry).max.y t3 t4 (hmix a2 b2) (hmix' a4 b4)
  exact ⟨px, py, ⟨x1, x2, y1, y2⟩, x3, x4, y3, y4⟩

theorem keep_subset {bits : List Bool} {l : Line} {p : XY} (h : p ∈ keep bits l) : p ∈ l := by
  obtain ⟨⟨x, y⟩, h1, rfl⟩ := List.mem_map.1 h
  exact (List.of_mem_zip (List.mem_filter.1 h1).1).1

/-- the segments of an imported line are seen in a tile that is drawn from these features -/
theorem stored_seen {e : Int} {inter : Box → List Line → List Line} {clipper : List Line → Box → Option (List PolyNode)} {correct : List Polygon → List Polygon}
    (hl : LineLib e inter) (ctx : RenderCtx) (hctx : ctx.clip = clipGeometry inter clipper correct) (q : Tile) (hz : q.z ≤ 20) (hagg : ctx.aggLines = false)
    {simp : Line → List Bool} {xs : List Inserted} {leafs : List Tile} {gs : List Feature}
    (hfrom : ∀ g ∈ gs, ∃ x ∈ xs, StoredAs simp x.feature g)
    (hall : ∀ x ∈ xs, x.feature.zmin ≤ q.z → q.z ≤ x.feature.zmax → boxMeets x.feature q → x.Reaches q → withoutSmallRings (simplified simp x.feature.geometry) ≠ .null →
      ∃ g ∈ gs, StoredAs simp x.feature g)
    {f : Feature} (hf : whole f ∈ xs) (hok : FeatureOk f) (hz1 : f.zmin ≤ q.z) (hz2 : q.z ≤ f.zmax) (name : Bytes) (hname : ctx.layerNames[f.layer]? = some name)
    (hone : ∀ x ∈ xs, x.feature.layer = f.layer → x.feature.id = f.id → typeOf x.feature.geometry = 2 → x.feature = f)
    (ls : List Line) (hg : f.geometry = .polyline ls) (l : Line) (hlm : l ∈ ls) (a b : XY) (hab : Next (keep (simp l) l) a b) :
    SegmentSeen e q (tileContent ctx (specOf q) (leafs.map seaSquare ++ gs)) name f.id (tagsOf f.metas) a b := by
  obtain ⟨ha, hb⟩ := next_mem hab
  have main : boxMeets f q → SegmentSeen e q (tileContent ctx (specOf q) (leafs.map seaSquare ++ gs)) name f.id (tagsOf f.metas) a b := by
    intro hbox
    obtain ⟨g, hgm, ms, hms, rfl⟩ := hall (whole f) hf hz1 hz2 hbox (whole_reaches _ _) (by show withoutSmallRings (simplified _ f.geometry) ≠ _; rw [hg]; simp [simplified, withoutSmallRings])
    refine segment_tags (tagsOf_perm hms) ?_
    refine C70_line hl ctx hctx q hz hagg _ _ (List.mem_append_right _ hgm) name hname (fun g' hg' n1 n2 n3 => ?_) (ls.map fun l => keep (simp l) l)
      (by simp [whole, hg, simplified, withoutSmallRings]) _ (List.mem_map_of_mem hlm) a b hab
    have hty : typeOf g'.geometry = 2 := by rw [n3]; simp [whole, hg, simplified, withoutSmallRings, typeOf]
    rcases List.mem_append.1 hg' with hg' | hg'
    · obtain ⟨t, _, rfl⟩ := List.mem_map.1 hg'
      cases hty
    · obtain ⟨⟨f', tl⟩, o1, ms', o2, rfl⟩ := hfrom g' hg'
      dsimp only [whole] at n1 n2 n3 hty o2 ⊢
      have ht' : typeOf f'.geometry = 2 := by
        cases hg2 : f'.geometry with
        | polyline ps' => rfl
        | null => rw [hg2] at hty; cases hty
        | point ps' => rw [hg2] at hty; cases hty
        | polygon ps' =>
          rw [hg2] at hty
          simp only [simplified, withoutSmallRings] at hty
          split at hty <;> cases hty
      have := hone _ o1 n1 n2 ht'
      dsimp only at this
      subst this
      exact ⟨rfl, o2.trans hms.symm⟩
  refine ⟨fun h1 h2 h3 => ?_, fun s t h1 h2 h3 h4 h5 h6 h7 => ?_⟩
  · refine (main (segment_meets hok hg hlm (keep_subset ha) (keep_subset hb) (le_refl 0) zero_le_one ?_)).1 h1 h2 h3
    simpa [onSeg] using h1
  · exact (main (segment_meets hok hg hlm (keep_subset ha) (keep_subset hb) h1 h2 h5)).2 s t h1 h2 h3 h4 h5 h6 h7

/-- After a complete import (as in C54 and C62) the server answers every tile above the prepared levels, and a client sees there, of every imported line that is
visible at the zoom level, every segment between points that the simplification keeps, as far as it lies in the tile: in the layer of the line, with its id and tags (unless
another line of the layer has the same id). -/
theorem C70_served {ι : Type} (env : ImportEnv ι) (coast osm : Bool) (hsrt : SortsByKey env.srt)
    (hm : ∀ l z, (env.rd (env.mkMask l) z).length = l.length) (hw : 0 < env.workers)
    (hin : ∀ fs i, env.loads coast osm fs i → (env.decOf i).length ≤ 2 ^ 64 ∧ (∀ x ∈ fs.flatten, Importable env.mkMask (env.decOf i) plainOf x) ∧ fs.flatten.length < 2 ^ 32)
    (runs : List (List String)) (hacts : changes runs = [.load coast osm, .pack, .tiles]) (a b : TileDb ι) (hr : Imports (importParts env) runs a b)
    (hsmall : SmallPacks b.features) (hsize : b.pf.reopen.size < 2 ^ 64) (features : List (UInt64 × Bytes)) (hdb : EntriesOf b.features features)
    (ctx : GetCtx) (hctx : ∃ m, env.ctxOf b.info = { ctx with maxPrepared := m }) (hrd : ctx.rd = env.rd) (hdec : ctx.dec = env.decOf b.info) (hc : Serving ctx 10)
    (hlines : ctx.aggLines = false)
    -- the libraries
    (e : Int) (he : 0 ≤ e) (he' : e ≤ 2 ^ 20) (inter : Box → List Line → List Line) (clipper : List Line → Box → Option (List PolyNode))
    (correct : List Polygon → List Polygon) (hl : ClipLib e inter clipper correct) (hll : LineLib e inter) (hclip : ctx.clip = clipGeometry inter clipper correct)
    (simplify : Nat → Line → Line) (hagg : ∀ z fs out, aggregateLineFeatures simplify z fs = .ok out → ctx.aggregate z fs = out) :
    ∃ fs, env.loads coast osm fs b.info ∧
      ((∀ x ∈ fs.flatten, x.feature.layer < ctx.layerNames.length) → 0 < ctx.layerNames.length → ∀ sea, SeaTree sea ctx.seaside →
        ∀ q : Tile, q.Valid → 10 < q.z → q.z ≤ 20 →
        (∀ x ∈ fs.flatten, Drawable (fun l => env.rd (env.mkMask l) q.z) x.feature) →
        (∀ gs i, (∀ g ∈ gs, (∃ t, g = seaSquare t) ∨ ∃ x ∈ fs.flatten, StoredAs (fun l => env.rd (env.mkMask l) q.z) x.feature g) →
          ∀ f ∈ candidates (drawing ctx 10 q).toRenderCtx (specOf q) (ofLayer gs i), NoLongLine (drawing ctx 10 q).toRenderCtx q f) →
        ∃ bytes layers, getTile b.tiles features b.pf.reopen ctx q = .ok (if bytes = [] then none else some (ctx.encode bytes)) ∧
          (bytes.length < 2 ^ 32 → clientTile bytes = some layers ∧ (bytes = [] ↔ layers = [])) ∧
          ∀ f, whole f ∈ fs.flatten → f.zmin ≤ q.z → q.z ≤ f.zmax →
            (∀ x ∈ fs.flatten, x.feature.layer = f.layer → x.feature.id = f.id → typeOf x.feature.geometry = 2 → x.feature = f) →
            ∃ name, ctx.layerNames[f.layer]? = some name ∧ ∀ ls, f.geometry = .polyline ls → ∀ l ∈ ls, ∀ a b, Next (keep (env.rd (env.mkMask l) q.z) l) a b →
              SegmentSeen e q layers name f.id (tagsOf f.metas) a b) := by
  obtain ⟨fs, h1, h2⟩ := served_drawn env coast osm hsrt hm hw hin runs hacts a b hr hsmall hsize features hdb ctx hctx hrd hdec hc e he he' inter clipper correct hl hclip simplify hagg
  obtain ⟨_, himp, _⟩ := hin _ _ h1
  refine ⟨fs, h1, fun hlay hpos sea hsea q hv hz10 hz hdraw hshort => ?_⟩
  obtain ⟨leafs, gs, bytes, layers, _, h4, h5, h6, h7, h8, _⟩ := h2 hlay hpos sea hsea q hv hz (.inl hz10) hdraw hshort
  refine ⟨bytes, layers, h7, h8, fun f hf hz1 hz2 hone => ?_⟩
  have hnm := List.getElem?_eq_getElem (hlay (whole f) hf)
  refine ⟨_, hnm, fun ls hg l hlm a b hab => ?_⟩
  rw [h6, drawing, if_neg (by omega)]
  exact stored_seen hll ctx.toRenderCtx hclip q hz hlines (fun g hg => by obtain ⟨x, k1, _, _, k2⟩ := h4 g hg; exact ⟨x, k1, k2⟩) h5 hf
    (himp _ hf).toPackable.toFeatureOk hz1 hz2 _ hnm hone ls hg l hlm a b hab

/-! ### from OSM data -/

theorem inTile_eq (q : Tile) (hz : q.z ≤ 20) (p : ℝ × ℝ) : inTile q p = tilePos q (p.1 * 2 ^ 32, p.2 * 2 ^ 32) := by
  have hp : (0 : ℝ) < 2 ^ (20 - q.z) := by positivity
  have hpow : (2 : ℝ) ^ 32 = 4096 * 2 ^ q.z * 2 ^ (20 - q.z) := by
    rw [mul_assoc, ← pow_add, Nat.add_sub_cancel' hz]; norm_num
  unfold inTile tilePos
  rw [hpow]
  refine Prod.ext ?_ ?_ <;> dsimp only <;> field_simp

theorem tile_of_deep {g : ℝ} {q : Tile} (hz : q.z ≤ 20) {p w : ℝ × ℝ} (h : Deep g q p) (hw : CloseBy g w (p.1 * 2 ^ 32, p.2 * 2 ^ 32)) : TileHas q w := by
  have hs : (0 : ℝ) < side q.z := by exact_mod_cast side_pos q.z
  have hpow := side_pow hz
  have key : ∀ (v u : ℝ) (k : Nat), k + g / side q.z ≤ v * 2 ^ q.z → v * 2 ^ q.z + g / side q.z < k + 1 → |u - v * 2 ^ 32| ≤ g →
      (k : ℝ) * side q.z ≤ u ∧ u < (k + 1 : ℝ) * side q.z := by
    intro v u k h1 h2 h3
    rw [abs_le, ← hpow] at h3
    have e1 : g / side q.z * side q.z = g := div_mul_cancel₀ _ hs.ne'
    have m1 := mul_le_mul_of_nonneg_right h1 hs.le
    have m2 := mul_lt_mul_of_pos_right h2 hs
    constructor <;> nlinarith
  obtain ⟨h1, h2, h3, h4⟩ := h
  obtain ⟨k1, k2⟩ := key _ _ _ h1 h2 hw.1
  obtain ⟨k3, k4⟩ := key _ _ _ h3 h4 hw.2
  exact ⟨k1, k2, k3, k4⟩

theorem fixed_of_nodes {L : Type} (conv : L → XY) (nodes : List (Option L)) : nodesToFixed conv nodes = (nodes.filterMap id).map conv := by
  induction nodes with
  | nil => rfl
  | cons n ns ih => cases n <;> simp [nodesToFixed, ih]

theorem keep_places {L : Type} (conv : L → XY) (bits : List Bool) (nodes : List (Option L)) :
    keep bits ((nodes.filterMap id).map conv) = (keptPlaces bits nodes).map conv := by
  unfold keep keptPlaces
  rw [List.zip_map_left, List.filter_map, List.map_map, List.map_map]
  rfl

section
variable {S : OsmSetting} {t : Tables} {e : Int} {g : ℝ} {data : List Datum}

/-- every way is seen as far as it lies in the tile (for the text see `C70_streets`) -/
def Spec.StreetsSeen (S : OsmSetting) (t : Tables) (e : Int) (g : ℝ) (data : List Datum) (q : Tile) (layers : List ClientLayer) : Prop :=
      ∀ d ∈ data, ∀ nodes, d.shape = .way nodes → ∀ r, d.rule t = some r →
        ∀ z, levelFor (areaOf S.prof (d.obj S.profile S.numeral)) r.zoom = some z → z ≤ q.z →
        (∀ d' ∈ data, d'.id % 2 ^ 64 = d.id % 2 ^ 64 → d'.type = 2 → d' = d) →
        ∀ A B, [A, B] <:+: keptPlaces (S.rd (S.mkMask ((nodes.filterMap id).map S.prof.conv)) q.z) nodes →
          (WellInside g q A → WellInside g q B →
            ¬ (|(inTile q (mapX A, mapY A)).1 - (inTile q (mapX B, mapY B)).1| < 2 * g / 2 ^ (20 - q.z) + 1 ∧
               |(inTile q (mapX A, mapY A)).2 - (inTile q (mapX B, mapY B)).2| < 2 * g / 2 ^ (20 - q.z) + 1) →
            LineSeen layers r.layer (d.id % 2 ^ 64) (r.shown S.numeral S.prof.toDouble (tagValue d.tags)) (fun p p' =>
              CloseBy (g / 2 ^ (20 - q.z) + 1) (p.x, p.y) (inTile q (mapX A, mapY A)) ∧ CloseBy (g / 2 ^ (20 - q.z) + 1) (p'.x, p'.y) (inTile q (mapX B, mapY B)))) ∧
          (∀ s s' : ℝ, 0 ≤ s → s ≤ 1 → 0 ≤ s' → s' ≤ 1 → Deep g q (between A B s) → Deep g q (between A B s') →
            ¬ (|(inTile q (between A B s)).1 - (inTile q (between A B s')).1| < (2 * e + 2 * g) / 2 ^ (20 - q.z) + 1 ∧
               |(inTile q (between A B s)).2 - (inTile q (between A B s')).2| < (2 * e + 2 * g) / 2 ^ (20 - q.z) + 1) →
            LineSeen layers r.layer (d.id % 2 ^ 64) (r.shown S.numeral S.prof.toDouble (tagValue d.tags)) (fun p p' =>
              ∀ u : ℝ, 0 ≤ u → u ≤ 1 → Deep g q (between A B u) → ∃ v : ℝ, 0 ≤ v ∧ v ≤ 1 ∧ CloseBy ((e + g) / 2 ^ (20 - q.z) + 1) (onSeg p p' v) (inTile q (between A B u))))

/-- what is seen of the features that were made of the data is seen of the data -/
theorem streets_seen (hS : S.Ok t e g) (hD : S.Fits data) {fs : List (List Feature)} {m : MetaTable} {names : List Bytes} {tbl : List Meta}
    (hl : OsmLoaded S.prof S.profile t S.numeral data fs m names tbl) (q : Tile) (hz : q.z ≤ 20) (layers : List ClientLayer)
    (m3 : ∀ f ∈ fs.flatten, f.zmin ≤ q.z → q.z ≤ f.zmax → (∀ f' ∈ fs.flatten, f'.layer = f.layer → f'.id = f.id → typeOf f'.geometry = 2 → f' = f) →
      ∃ name, names[f.layer]? = some name ∧ ∀ ls, f.geometry = .polyline ls → ∀ l ∈ ls, ∀ a b, Next (keep (S.rd (S.mkMask l) q.z) l) a b →
        SegmentSeen e q layers name f.id (tagsOf f.metas) a b) : StreetsSeen S t e g data q layers := by
  obtain ⟨px, hgeo, hconv⟩ := hS.places
  obtain ⟨g1, g2, g3⟩ := hS.error
  intro d hd nodes hsh r hrule z hzl hzq hone A B hAB
  -- the feature
  have hAB' : [A, B] <:+: keptPlaces (S.rd (S.mkMask ((nodes.filterMap id).map S.prof.conv)) q.z) nodes := hAB
  have hmemAB : ∀ l ∈ [A, B], some l ∈ shapeNodes d.shape := by
    intro l hl'
    have h1 := hAB.subset hl'
    obtain ⟨⟨x, y⟩, h2, rfl⟩ := List.mem_map.1 h1
    have h3 := (List.of_mem_zip (List.mem_filter.1 h2).1).1
    obtain ⟨o, h4, h5⟩ := List.mem_filterMap.1 h3
    rw [hsh]
    show some x ∈ nodes
    rw [← h5]; exact h4
  have hlen : 2 ≤ (nodesToFixed S.prof.conv nodes).length := by
    rw [fixed_of_nodes, List.length_map]
    have h1 := hAB.length_le
    have h2 : (keptPlaces (S.rd (S.mkMask ((nodes.filterMap id).map S.prof.conv)) q.z) nodes).length ≤ (nodes.filterMap id).length := by
      unfold keptPlaces
      rw [List.length_map]
      refine le_trans (List.length_filter_le _ _) ?_
      rw [List.length_zip]
      exact Nat.min_le_left _ _
    simp only [List.length_cons, List.length_nil] at h1
    omega
  have hread : readOsm S.prof.conv d.shape = .ok (.polyline [(nodes.filterMap id).map S.prof.conv]) := by
    rw [hsh]
    show Res.ok (readOsmWay S.prof.conv nodes) = _
    unfold readOsmWay
    dsimp only
    rw [if_neg (by omega), fixed_of_nodes]
  obtain ⟨f, hf, hst, hde⟩ := hl.all_data d hd r _ hrule hread (by simp)
  have hgf : f.geometry = .polyline [(nodes.filterMap id).map S.prof.conv] := by
    have := hst.geometry
    rw [show (d.obj S.profile S.numeral).shape = d.shape from rfl, hread] at this
    injection this with this
    exact this.symm
  have hz1 : f.zmin = z := by
    have := hst.first
    rw [hzl] at this
    injection this with this
    exact this.symm
  have htype : ∀ f ∈ fs.flatten, ∀ d : Datum, readOsm S.prof.conv d.shape = .ok f.geometry → f.geometry ≠ .null → typeOf f.geometry = d.type := by
    intro f _ d hread hne
    rcases (readOsm_from S.prof.conv hread).2.2 with h | h
    · exact absurd h hne
    · cases hsh : d.shape with
      | node _ => rw [hsh] at h; obtain ⟨x, h⟩ := h; simp [h, Datum.type, hsh, typeOf]
      | way _ => rw [hsh] at h; obtain ⟨x, _, h⟩ := h; simp [h, Datum.type, hsh, typeOf]
      | area _ => rw [hsh] at h; obtain ⟨x, y, h⟩ := h; simp [h, Datum.type, hsh, typeOf]
  have huniq : ∀ f' ∈ fs.flatten, f'.layer = f.layer → f'.id = f.id → typeOf f'.geometry = 2 → f' = f := by
    intro f' hf' _ hid hty
    obtain ⟨d', hd', r', hr', hst', hne', hde'⟩ := hl.from_data f' hf'
    have e1 : d'.type = 2 := by rw [← htype f' hf' d' hst'.geometry hne', hty]
    have e2 : d'.id % 2 ^ 64 = d.id % 2 ^ 64 := by
      have a1 : (f'.id : Int) = d'.id % 2 ^ 64 := hst'.id
      have a2 : (f.id : Int) = d.id % 2 ^ 64 := hst.id
      rw [← a1, ← a2, hid]
    rw [hone d' hd' e2 e1] at hde'
    exact describes_unique hl.nodup hde' hde
  obtain ⟨name, n1, n2⟩ := m3 f hf (by omega) (by rw [hst.last]; omega) huniq
  have hname : name = r.layer := by
    have := hst.layer
    rw [n1] at this
    injection this
  have hnext : Next (keep (S.rd (S.mkMask ((nodes.filterMap id).map S.prof.conv)) q.z) ((nodes.filterMap id).map S.prof.conv)) (S.prof.conv A) (S.prof.conv B) := by
    rw [keep_places]
    have := List.IsInfix.map S.prof.conv hAB
    rw [List.map_cons, List.map_cons, List.map_nil] at this
    exact this
  have hseen := n2 _ hgf _ (List.mem_singleton.2 rfl) _ _ hnext
  have htags := (tags_perm hS.shipped hS.numerals hS.doubles (hD.texts d hd) hrule hst).1
  have hseen : SegmentSeen e q layers r.layer (d.id % 2 ^ 64) (r.shown S.numeral S.prof.toDouble (tagValue d.tags)) (S.prof.conv A) (S.prof.conv B) := by
    have := segment_tags htags hseen
    rw [hname, show (f.id : Int) = d.id % 2 ^ 64 from hst.id] at this
    exact this
  -- the places
  have hnear : ∀ l ∈ [A, B], |((S.prof.conv l).x : ℝ) - mapX l * 2 ^ 32| ≤ g ∧ |((S.prof.conv l).y : ℝ) - mapY l * 2 ^ 32| ≤ g := by
    intro l hl'
    obtain ⟨x, y, k1, _, _, k2, k3⟩ := C64_near g3 hgeo l (hD.places d hd l (hmemAB l hl'))
    rw [hconv, k1]
    exact ⟨by simpa using k2, by simpa using k3⟩
  obtain ⟨A1, A2⟩ := hnear A (by simp)
  obtain ⟨B1, B2⟩ := hnear B (by simp)
  have hp : (0 : ℝ) < 2 ^ (20 - q.z) := by positivity
  have hmid : ∀ u : ℝ, 0 ≤ u → u ≤ 1 → CloseBy g (onSeg (S.prof.conv A) (S.prof.conv B) u) ((between A B u).1 * 2 ^ 32, (between A B u).2 * 2 ^ 32) := by
    intro u u0 u1
    have k1 := mix_close u0 u1 A1 B1
    have k2 := mix_close u0 u1 A2 B2
    refine ⟨?_, ?_⟩
    · convert k1 using 2
      simp only [between, onSeg]; ring
    · convert k2 using 2
      simp only [between, onSeg]; ring
  have hends : CloseBy g ((S.prof.conv A).x, (S.prof.conv A).y) (mapX A * 2 ^ 32, mapY A * 2 ^ 32) ∧ CloseBy g ((S.prof.conv B).x, (S.prof.conv B).y) (mapX B * 2 ^ 32, mapY B * 2 ^ 32) :=
    ⟨⟨A1, A2⟩, B1, B2⟩
  have hplace : ∀ l, CloseBy g ((S.prof.conv l).x, (S.prof.conv l).y) (mapX l * 2 ^ 32, mapY l * 2 ^ 32) →
      CloseBy (g / 2 ^ (20 - q.z) + 1) ((placeIn q (S.prof.conv l)).x, (placeIn q (S.prof.conv l)).y) (inTile q (mapX l, mapY l)) := by
    intro l hl'
    rw [inTile_eq q hz, add_comm]
    refine within_tri ?_ (within_scale q hl')
    have := seg_floor q (S.prof.conv l) (S.prof.conv l) (le_refl (0 : ℝ)) zero_le_one
    simpa [onSeg, place_floor] using this
  constructor
  · intro hA hB hfar
    refine seen_tags (.refl _) ?_ (hseen.1 (tile_of_deep (p := (mapX A, mapY A)) hz hA hends.1) (tile_of_deep (p := (mapX B, mapY B)) hz hB hends.2) ?_)
    · rintro p p' ⟨rfl, rfl⟩
      exact ⟨hplace A hends.1, hplace B hends.2⟩
    · intro hc
      apply hfar
      have hfl : floorTo q.z (S.prof.conv A) = floorTo q.z (S.prof.conv B) := by
        unfold placeIn at hc
        injection hc with c1 c2
        unfold floorTo
        rw [show (S.prof.conv A).x / 2 ^ (20 - q.z) = (S.prof.conv B).x / 2 ^ (20 - q.z) by linarith, show (S.prof.conv A).y / 2 ^ (20 - q.z) = (S.prof.conv B).y / 2 ^ (20 - q.z) by linarith]
      obtain ⟨k1, k2⟩ := floor_same hfl (le_refl (0 : ℝ)) zero_le_one zero_le_one (le_refl (1 : ℝ))
      simp only [onSeg, zero_mul, add_zero, one_mul, add_sub_cancel] at k1 k2
      rw [inTile_eq q hz, inTile_eq q hz]
      simp only [tilePos]
      have key : ∀ {x y m n o : ℝ}, |x - y| < 2 ^ (20 - q.z) → |x - m| ≤ g → |y - n| ≤ g → |m / 2 ^ (20 - q.z) - o - (n / 2 ^ (20 - q.z) - o)| < 2 * g / 2 ^ (20 - q.z) + 1 := by
        intro x y m n o h1 h2 h3
        rw [show m / 2 ^ (20 - q.z) - o - (n / 2 ^ (20 - q.z) - o) = (m - n) / 2 ^ (20 - q.z) by ring, abs_div, abs_of_pos hp, div_add_one hp.ne', div_lt_div_iff_of_pos_right hp]
        rw [abs_lt] at *
        rw [abs_le] at *
        constructor <;> linarith
      exact ⟨key k1 A1 B1, key k2 A2 B2⟩
  · intro s s' s0 s1 s0' s1' hs hs' hfar
    refine seen_tags (.refl _) ?_ (hseen.2 s s' s0 s1 s0' s1' (tile_of_deep hz hs (hmid s s0 s1)) (tile_of_deep hz hs' (hmid s' s0' s1')) ?_)
    · intro p p' hcov u u0 u1 hu
      obtain ⟨v, v0, v1, hv⟩ := hcov u u0 u1 (tile_of_deep hz hu (hmid u u0 u1))
      refine ⟨v, v0, v1, ?_⟩
      have := within_tri hv (within_scale q (hmid u u0 u1))
      rw [inTile_eq q hz]
      convert this using 1
      ring
    · rintro ⟨c1, c2⟩
      apply hfar
      rw [inTile_eq q hz, inTile_eq q hz]
      simp only [tilePos]
      have key : ∀ {x y m n o : ℝ}, |x - y| < 2 * e + 2 ^ (20 - q.z) → |x - m| ≤ g → |y - n| ≤ g →
          |m / 2 ^ (20 - q.z) - o - (n / 2 ^ (20 - q.z) - o)| < (2 * e + 2 * g) / 2 ^ (20 - q.z) + 1 := by
        intro x y m n o h1 h2 h3
        rw [show m / 2 ^ (20 - q.z) - o - (n / 2 ^ (20 - q.z) - o) = (m - n) / 2 ^ (20 - q.z) by ring, abs_div, abs_of_pos hp, div_add_one hp.ne', div_lt_div_iff_of_pos_right hp]
        rw [abs_lt] at *
        rw [abs_le] at *
        constructor <;> linarith
      exact ⟨key c1 (hmid s s0 s1).1 (hmid s' s0' s1').1, key c2 (hmid s s0 s1).2 (hmid s' s0' s1').2⟩

/-- Streets are drawn: whatever is imported with a shipped profile (as in C68), the server answers every tile above level 10, and a client sees there, of every way
that the table of the profile gives a layer for at the level, everything that lies in the tile between two nodes that are next to each other (nodes without a place
and those that simplification removes at the level do not count): in the layer of the table, with the id of the way and exactly the attributes of the table,
* between nodes inside of the tile: from the place of the one to the place of the other, where the Mercator projection puts them, to a unit;
* between any two nodes: a segment from which nothing that lies in the tile is further away than the errors of the libraries and a unit (unless it is shorter
  than that). -/
theorem C70_streets (hS : S.Ok t e g) (hD : S.Fits data)
    (hlib : ∃ inter clipper correct, ClipLib e inter clipper correct ∧ LineLib e inter ∧ S.base.clip = clipGeometry inter clipper correct)
    (runs : List (List String)) (hacts : changes runs = [.load false true, .pack, .tiles]) (a b : TileDb MetaTable)
    (hr : Imports (importParts (S.env data)) runs a b) (hsmall : SmallPacks b.features) (hsize : b.pf.reopen.size < 2 ^ 64) (features : List (UInt64 × Bytes))
    (hdb : EntriesOf b.features features) (ctx : GetCtx) (hctx : makeRenderCtx S.base (preparedString b.maxPrepared) b.info = .ok ctx)
    (q : Tile) (hv : q.Valid) (hz10 : 10 < q.z) (hz : q.z ≤ 20) (hshort : S.ShortLines data ctx q) :
    ∃ bytes layers, getTile b.tiles features b.pf.reopen ctx q = .ok (if bytes = [] then none else some (ctx.encode bytes)) ∧
      (bytes.length < 2 ^ 32 → clientTile bytes = some layers ∧ (bytes = [] ↔ layers = [])) ∧
      ∀ d ∈ data, ∀ nodes, d.shape = .way nodes → ∀ r, d.rule t = some r →
        ∀ z, levelFor (areaOf S.prof (d.obj S.profile S.numeral)) r.zoom = some z → z ≤ q.z →
        (∀ d' ∈ data, d'.id % 2 ^ 64 = d.id % 2 ^ 64 → d'.type = 2 → d' = d) →
        ∀ A B, [A, B] <:+: keptPlaces (S.rd (S.mkMask ((nodes.filterMap id).map S.prof.conv)) q.z) nodes →
          (WellInside g q A → WellInside g q B →
            ¬ (|(inTile q (mapX A, mapY A)).1 - (inTile q (mapX B, mapY B)).1| < 2 * g / 2 ^ (20 - q.z) + 1 ∧
               |(inTile q (mapX A, mapY A)).2 - (inTile q (mapX B, mapY B)).2| < 2 * g / 2 ^ (20 - q.z) + 1) →
            LineSeen layers r.layer (d.id % 2 ^ 64) (r.shown S.numeral S.prof.toDouble (tagValue d.tags)) (fun p p' =>
              CloseBy (g / 2 ^ (20 - q.z) + 1) (p.x, p.y) (inTile q (mapX A, mapY A)) ∧ CloseBy (g / 2 ^ (20 - q.z) + 1) (p'.x, p'.y) (inTile q (mapX B, mapY B)))) ∧
          (∀ s s' : ℝ, 0 ≤ s → s ≤ 1 → 0 ≤ s' → s' ≤ 1 → Deep g q (between A B s) → Deep g q (between A B s') →
            ¬ (|(inTile q (between A B s)).1 - (inTile q (between A B s')).1| < (2 * e + 2 * g) / 2 ^ (20 - q.z) + 1 ∧
               |(inTile q (between A B s)).2 - (inTile q (between A B s')).2| < (2 * e + 2 * g) / 2 ^ (20 - q.z) + 1) →
            LineSeen layers r.layer (d.id % 2 ^ 64) (r.shown S.numeral S.prof.toDouble (tagValue d.tags)) (fun p p' =>
              ∀ u : ℝ, 0 ≤ u → u ≤ 1 → Deep g q (between A B u) → ∃ v : ℝ, 0 ≤ v ∧ v ≤ 1 ∧ CloseBy ((e + g) / 2 ^ (20 - q.z) + 1) (onSeg p p' v) (inTile q (between A B u)))) := by
  obtain ⟨px, hgeo, hconv⟩ := hS.places
  obtain ⟨inter, clipper, correct, hlib, hline, hclip⟩ := hlib
  obtain ⟨simplify, hagg⟩ := hS.joins
  obtain ⟨g1, g2, g3⟩ := hS.error
  have hin := osm_in hS hD
  obtain ⟨hmax, _, _, _, fs0, _, hload0⟩ := imports_loaded (S.env data) false true hS.work (fun fs m h => (hin fs m h).2) runs hacts a b hr hsmall
  obtain ⟨names0, tbl0, hl0⟩ := osm_loaded hS.shipped hS.numerals hD.toGoodData hload0
  obtain ⟨b1, b2, h3, h4, h5⟩ := hl0.table
  rw [hmax, h3] at hctx
  rw [ctx_of (by norm_num) h4 h5] at hctx
  injection hctx with hctx
  have hctxOf : (S.env data).ctxOf b.info = { ctx with maxPrepared := -1 } := by
    show (match makeRenderCtx S.base none b.info with | .ok c => c | _ => S.base) = _
    rw [h3, ← hctx, ctx_first h4 h5]
  have hdec0 : (S.env data).decOf b.info = tbl0 := (osm_importable hS hD hload0 hl0).1
  obtain ⟨_, ⟨_, _, fs, rfl, hload⟩, hserve⟩ := C70_served (S.env data) false true hS.sorts hS.masks hS.work hin runs hacts a b hr hsmall hsize features hdb
    ctx ⟨-1, hctxOf⟩ (by rw [← hctx]; exact hS.reads) (by rw [hdec0, ← hctx]) ⟨by rw [← hctx], by rw [← hctx], by rw [← hctx], by rw [← hctx]⟩ (by rw [← hctx])
    e g1 g2 inter clipper correct hlib hline (by rw [← hctx]; exact hclip) simplify (by intro z fs out h; rw [← hctx]; exact hagg z fs out h)
  obtain ⟨names, tbl, hl⟩ := osm_loaded hS.shipped hS.numerals hD.toGoodData hload
  obtain ⟨_, _, _, himp⟩ := osm_importable hS hD hload hl
  have hnames : ctx.layerNames = names := by
    obtain ⟨b1', b2', k1, k2, k3⟩ := hl.table
    rw [h3] at k1
    injection k1 with _ k1 _
    rw [← k1, h4] at k2
    injection k2 with k2
    rw [← hctx]
    exact k2
  obtain ⟨bytes, layers, m1, m2, m3⟩ := hserve (fun x hx => by obtain ⟨f, hf, rfl⟩ := mem_whole.1 hx; rw [hnames]; exact (himp f hf).2.1) (by rw [hnames]; exact hl.few.1) []
    ⟨by rw [← hctx]; rfl, by rw [← hctx]; simp, by simp⟩ q hv hz10 hz (fun x hx => by obtain ⟨f, hf, rfl⟩ := mem_whole.1 hx; exact (himp f hf).2.2 q.z hz)
    (fun gs i h => hshort fs b.info hload gs i (fun y hy => (h y hy).imp_right (by rintro ⟨x, hx, hs⟩; obtain ⟨f, hf, rfl⟩ := mem_whole.1 hx; exact ⟨f, hf, hs⟩)))
  refine ⟨bytes, layers, m1, m2, streets_seen hS hD hl q hz layers fun f hf hz1 hz2 hone => ?_⟩
  rw [← hnames]
  exact m3 f (mem_whole.2 ⟨f, hf, rfl⟩) hz1 hz2 (fun x hx => by obtain ⟨f', hf', rfl⟩ := mem_whole.1 hx; exact hone f' hf')
end

end Tiles
