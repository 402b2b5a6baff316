import Verif.Spec.FaithLib
import Verif.Props.C70
/-! C71 — nothing is drawn out of place: what a client sees of a node, a way or an area lies where the object lies. -/
namespace Tiles
open Spec

/-! ### lists -/

theorem next_of_destutter {l : Line} {a b : XY} (h : Next (l.destutter (· ≠ ·)) a b) : Next l a b := by
  have hpre : ∀ (l : Line) (y : XY), ∃ r, List.destutter' (· ≠ ·) y l = y :: r := by
    intro l y
    induction l with
    | nil => exact ⟨[], rfl⟩
    | cons w l ih2 =>
      rw [List.destutter'_cons]
      split
      · exact ⟨_, rfl⟩
      · exact ih2
  have key : ∀ (l : Line) (x : XY), Next (List.destutter' (· ≠ ·) x l) a b → Next (x :: l) a b := by
    intro l
    induction l with
    | nil => intro x h; exact h
    | cons y l ih =>
      intro x h
      rw [List.destutter'_cons] at h
      by_cases hxy : x ≠ y
      · rw [if_pos hxy] at h
        rcases next_cons h with ⟨rfl, l', h⟩ | h
        · obtain ⟨r, hr⟩ := hpre l y
          rw [hr] at h
          injection h with h1 h2
          subst h1
          exact ⟨[], l, rfl⟩
        · exact next_tail (ih y h)
      · rw [if_neg hxy] at h
        have : x = y := not_not.1 hxy
        subst this
        exact next_tail (ih x h)
  cases l with
  | nil => exact h
  | cons x l => exact key l x h

theorem next_of_map {l : Line} {a b : XY} {f : XY → XY} (h : Next (l.map f) a b) : ∃ c d, Next l c d ∧ f c = a ∧ f d = b := by
  induction l with
  | nil => have := (next_mem h).1; cases this
  | cons x l ih =>
    rcases next_cons h with ⟨h1, l', h2⟩ | h
    · cases l with
      | nil => cases h2
      | cons y l =>
        rw [List.map_cons] at h2
        injection h2 with h2 _
        exact ⟨x, y, ⟨[], l, rfl⟩, h1, h2⟩
    · obtain ⟨c, d, h1, h2⟩ := ih h
      exact ⟨c, d, next_tail h1, h2⟩

theorem next_reverse {l : Line} {a b : XY} (h : Next l.reverse a b) : Next l b a := by
  have := List.reverse_infix.2 h
  rw [List.reverse_reverse] at this
  exact this

theorem next_append {l m : Line} {p a b : XY} (hp : l.getLast? = some p) (h : Next (l ++ m) a b) : Next l a b ∨ Next (p :: m) a b := by
  induction l with
  | nil => cases hp
  | cons x l ih =>
    cases l with
    | nil =>
      simp only [List.getLast?_singleton, Option.some.injEq] at hp
      subst hp
      exact .inr h
    | cons y l =>
      rw [List.getLast?_cons_cons] at hp
      rcases next_cons h with ⟨rfl, l', h1⟩ | h
      · change y :: (l ++ m) = _ at h1
        injection h1 with h1 _
        subst h1
        exact .inl ⟨[], l, rfl⟩
      · rcases ih hp h with h | h
        · exact .inl (next_tail h)
        · exact .inr h

/-! ### lines that follow lines -/

theorem onSeg_swap (a b : XY) (u : ℝ) : onSeg a b u = onSeg b a (1 - u) := by
  simp only [onSeg, Prod.mk.injEq]
  constructor <;> ring

theorem follows_reverse {d : ℝ} {l : Line} {P : ℝ × ℝ → Prop} (h : Follows d l P) : Follows d l.reverse P := by
  intro a b hab u h0 h1
  obtain ⟨p, h2, h3⟩ := h b a (next_reverse hab) (1 - u) (by linarith) (by linarith)
  exact ⟨p, h2, by rw [onSeg_swap]; exact h3⟩

theorem follows_mono {d : ℝ} {l : Line} {P Q : ℝ × ℝ → Prop} (h : Follows d l P) (hpq : ∀ p, P p → Q p) : Follows d l Q := by
  intro a b hab u h0 h1
  obtain ⟨p, h2, h3⟩ := h a b hab u h0 h1
  exact ⟨p, hpq p h2, h3⟩

theorem follows_trans {d d' : ℝ} {l : Line} {ls : List Line} {P : ℝ × ℝ → Prop} (h : Follows d l (OnLines ls)) (h' : ∀ m ∈ ls, Follows d' m P) : Follows (d + d') l P := by
  intro a b hab u h0 h1
  obtain ⟨_, ⟨m, h2, c, e, h3, s, s0, s1, rfl⟩, h4⟩ := h a b hab u h0 h1
  obtain ⟨p, h5, h6⟩ := h' m h2 c e h3 s s0 s1
  exact ⟨p, h5, within_tri h4 h6⟩

theorem within_refl (p : ℝ × ℝ) : CloseBy 0 p p := by simp [CloseBy]

/-- moved to the zoom level and to the corner of the tile -/
theorem follows_lineAt (q : Tile) {d : ℝ} {l : Line} {P : ℝ × ℝ → Prop} (h : Follows d l P) :
    Follows (d / 2 ^ (20 - q.z) + 1) ((lineAt q.z l).map (rel (pxBounds q).min)) (fun p => ∃ p0, P p0 ∧ p = tilePos q p0) := by
  intro a b hab u h0 h1
  obtain ⟨c, e, h2, rfl, rfl⟩ := next_of_map hab
  obtain ⟨c, e, h3, rfl, rfl⟩ := next_of_map (next_of_destutter h2)
  obtain ⟨p, h4, h5⟩ := h c e h3 u h0 h1
  refine ⟨_, ⟨p, h4, rfl⟩, ?_⟩
  have := within_tri (seg_floor q c e h0 h1) (within_scale q h5)
  rwa [add_comm] at this

/-- a chain of lines that meet has the segments of the lines -/
theorem next_glue {pts : List Line} {c : List (Nat × Bool)} (hc : c.IsChain (Linked pts)) {a b : XY} (h : Next (glue (c.map (orient pts))) a b) :
    ∃ i ∈ c, Next (orient pts i) a b := by
  induction c with
  | nil => have := (next_mem h).1; cases this
  | cons i c ih =>
    cases c with
    | nil => exact ⟨i, by simp, by simpa [glue] using h⟩
    | cons j c =>
      rw [List.isChain_cons_cons] at hc
      obtain ⟨⟨p, h1, h2, _⟩, hc⟩ := hc
      have hj : orient pts j = p :: (orient pts j).tail := by
        cases ho : orient pts j with
        | nil => rw [ho] at h2; cases h2
        | cons x l => rw [ho] at h2; injection h2 with h2; rw [h2]; rfl
      have hg : p :: ((j :: c).map (orient pts) |>.map List.tail).flatten = glue ((j :: c).map (orient pts)) := by
        simp only [List.map_cons, List.flatten_cons, glue]
        rw [← List.cons_append, ← hj]
      rcases next_append h1 (show Next (orient pts i ++ ((j :: c).map (orient pts) |>.map List.tail).flatten) a b from h) with h | h
      · exact ⟨i, by simp, h⟩
      · rw [hg] at h
        obtain ⟨k, hk, h⟩ := ih hc h
        exact ⟨k, by simp [hk], h⟩

/-- joined lines follow the lines -/
theorem joined_follow {nowhere : XY} {pts out : List Line} (hj : Joined nowhere pts out) {l : Line} (hl : l ∈ out) : Follows 0 l (OnLines pts) := by
  obtain ⟨chains, rfl, hperm, hch, _⟩ := hj
  obtain ⟨c, hc, rfl⟩ := List.mem_map.1 hl
  intro a b hab u h0 h1
  obtain ⟨i, hi, hab⟩ := next_glue (hch c hc).2 hab
  have hlt : i.1 < pts.length := by
    have : i.1 ∈ chains.flatten.map (·.1) := List.mem_map_of_mem (List.mem_flatten.2 ⟨c, hc, hi⟩)
    exact List.mem_range.1 (hperm.mem_iff.1 this)
  have hmem : lineNo pts i.1 ∈ pts := by
    rw [lineNo, List.getD_eq_getElem?_getD, List.getElem?_eq_getElem hlt]
    exact List.getElem_mem _
  rw [orient] at hab
  split at hab
  · exact ⟨_, ⟨_, hmem, b, a, next_reverse hab, 1 - u, by linarith, by linarith, onSeg_swap a b u⟩, within_refl _⟩
  · exact ⟨_, ⟨_, hmem, a, b, hab, u, h0, h1, rfl⟩, within_refl _⟩

theorem close_dropLast {r : Line} (h : r.head? = r.getLast?) (hl : 2 ≤ r.length) : close r.dropLast = r := by
  match r, hl with
  | a :: b :: l, _ =>
    have h1 : (b :: l).getLast? = some a := by rw [List.getLast?_cons_cons] at h; exact h.symm
    rw [List.dropLast_cons_of_ne_nil (by simp), close]
    rw [List.cons_append, List.dropLast_append_getLast? a h1]

theorem close_map (f : XY → XY) (l : Line) : close (l.map f) = (close l).map f := by
  cases l with
  | nil => rfl
  | cons a l => simp [close]

/-! ### one geometry -/

section
variable {e : Int} {τ : ℝ} {inter : Box → List Line → List Line} {clipper : List Line → Box → Option (List PolyNode)} {correct : List Polygon → List Polygon}
  {simplify : Nat → Line → Line}

/-- the outlines of clipped polygons follow the outlines of the polygons and the border of the box -/
theorem clip_follows (hl : ClipLib e inter clipper correct) (hf : FaithLib e τ inter clipper simplify) {ps : List Polygon} (hg : Clippable (.polygon ps)) {box : Box} {c : Geometry}
    (h : clipGeometry inter clipper correct (.polygon ps) box = .ok c) :
    ∀ l ∈ allLines c, Follows e l (fun p => OnLines ((ringsOf ps).map (fun r => close r.dropLast)) p ∨ OnBorder box p) ∧ l.head? = l.getLast? := by
  obtain ⟨h1, r, h2, h3⟩ := hg
  have hacc := hl.accepts ((ringsOf ps).map List.dropLast) box ⟨_, List.mem_map_of_mem h2, h3⟩
  obtain ⟨nodes, hn⟩ := Option.ne_none_iff_exists'.1 hacc
  obtain ⟨halt, hin⟩ := hl.tree _ _ _ hn
  change clipPolygon clipper correct ps box = .ok c at h
  rcases C48_solution_copied clipper correct ps box nodes h1 hn halt with ⟨_, h4⟩ | ⟨hne, out, h4, h5⟩
  · rw [h4] at h; injection h with h; subst h
    simp [allLines]
  · rw [h4] at h; injection h with h; subst h
    have hout : ∀ r ∈ ringsOf out, ∃ c, r = close c ∧ ∃ q ∈ polysOf nodes, c ∈ q.1 :: q.2 := by
      intro r hr
      obtain ⟨P, hP, hr⟩ := List.mem_flatMap.1 hr
      obtain ⟨q, hq, rfl⟩ := List.mem_map.1 (h5.mem_iff.1 hP)
      rcases List.mem_cons.1 hr with rfl | hr
      · exact ⟨q.1, rfl, q, hq, by simp⟩
      · obtain ⟨c, hc, rfl⟩ := List.mem_map.1 hr
        exact ⟨c, rfl, q, hq, by simp [hc]⟩
    have hclosed : ∀ r ∈ ringsOf out, r.head? = r.getLast? := by
      intro r hr
      obtain ⟨c, rfl, _⟩ := hout r hr
      cases c with
      | nil => rfl
      | cons a c => rw [close, List.getLast?_append]; simp
    intro l hl'
    obtain ⟨r', hr', hs⟩ := forall₂_rings (hl.turns out hclosed) l hl'
    obtain ⟨c, rfl, q, hq, hc⟩ := hout r' hr'
    have hfol := hf.outlines _ _ _ hn q hq c hc
    rw [List.map_map] at hfol
    have hcl := hclosed _ hr'
    rcases hs with rfl | rfl
    · exact ⟨hfol, hcl⟩
    · exact ⟨follows_reverse hfol, by rw [List.head?_reverse, List.getLast?_reverse]; exact hcl.symm⟩

/-- what is drawn of points are the points -/
theorem drawn_points {ctx : RenderCtx} (hctx : ctx.clip = clipGeometry inter clipper correct) {q : Tile} (hz : q.z ≤ 20) {ps : List XY} {r : Geometry}
    (h : drawGeometry ctx (specOf q) (.point ps) = .ok r) : ∀ part ∈ partsOf (specOf q).px.min r, ∃ P ∈ ps, part = ⟨[placeIn q P], false⟩ := by
  rw [drawGeometry, Res.bind_eq_ok] at h
  obtain ⟨c, h1, h2⟩ := h
  rw [hctx] at h1
  have h3 := C46_result _ _ _ _ _ _ h1
  change shiftGeometry c q.z = _ at h2
  cases c with
  | null => rw [C26_shift_null] at h2; injection h2 with h2; subst h2; simp [partsOf]
  | point p =>
    obtain ⟨⟨p', h3, h4⟩, _⟩ := h3
    injection h3 with h3
    subst h3
    rw [C26_shift_point _ _ hz] at h2
    injection h2 with h2; subst h2
    intro part hp
    split at hp
    · cases hp
    · obtain ⟨x, hx, rfl⟩ := List.mem_map.1 hp
      obtain ⟨P, hP, rfl⟩ := mem_lineAt hx
      exact ⟨P, h4.subset hP, rfl⟩
  | polyline p => obtain ⟨⟨_, h⟩, _⟩ := h3; cases h
  | polygon p => obtain ⟨_, h⟩ := h3; cases h

/-- what is drawn of lines follows the lines -/
theorem drawn_lines (hf : FaithLib e τ inter clipper simplify) {ctx : RenderCtx} (hctx : ctx.clip = clipGeometry inter clipper correct) {q : Tile} (hz : q.z ≤ 20) {ls : List Line} {r : Geometry}
    (h : drawGeometry ctx (specOf q) (.polyline ls) = .ok r) : ∀ part ∈ partsOf (specOf q).px.min r, part.closed = false ∧ 2 ≤ part.points.length ∧
      Follows (e / 2 ^ (20 - q.z) + 1) part.points (fun p => ∃ p0, OnLines ls p0 ∧ p = tilePos q p0) := by
  rw [drawGeometry, Res.bind_eq_ok] at h
  obtain ⟨c, h1, h2⟩ := h
  rw [hctx] at h1
  injection h1 with h1
  change shiftGeometry c q.z = _ at h2
  rw [clipPolyline] at h1
  split at h1
  · subst h1
    rw [C26_shift_null] at h2; injection h2 with h2; subst h2; simp [partsOf]
  · subst h1
    rw [C26_shift_polyline _ _ hz] at h2
    injection h2 with h2; subst h2
    intro part hp
    dsimp only at hp
    split at hp
    · cases hp
    · obtain ⟨x, hx, rfl⟩ := List.mem_map.1 hp
      obtain ⟨m, hm, rfl⟩ := List.mem_map.1 (List.mem_filter.1 hx).1
      exact ⟨rfl, (by simpa using of_decide_eq_true (List.mem_filter.1 hx).2), follows_lineAt q (hf.lines _ _ m (List.mem_filter.1 hm).1)⟩

/-- the outlines drawn of polygons follow the outlines of the polygons and the border of the drawn box -/
theorem drawn_outlines (hl : ClipLib e inter clipper correct) (hf : FaithLib e τ inter clipper simplify) {ctx : RenderCtx} (hctx : ctx.clip = clipGeometry inter clipper correct) {q : Tile} (hz : q.z ≤ 20)
    {ps : List Polygon} (hg : Clippable (.polygon ps)) {r : Geometry} (h : drawGeometry ctx (specOf q) (.polygon ps) = .ok r) :
    ∀ part ∈ partsOf (specOf q).px.min r, part.closed = true ∧ 2 ≤ part.points.length ∧
      Follows (e / 2 ^ (20 - q.z) + 1) (close part.points) (fun p => ∃ p0, (OnLines ((ringsOf ps).map (fun r => close r.dropLast)) p0 ∨ OnBorder (drawBounds q) p0) ∧ p = tilePos q p0) := by
  rw [drawGeometry, Res.bind_eq_ok] at h
  obtain ⟨c, h1, h2⟩ := h
  rw [hctx] at h1
  have h3 := clip_follows hl hf hg h1
  have h4 := C46_result _ _ _ _ _ _ h1
  change shiftGeometry c q.z = _ at h2
  cases c with
  | null => rw [C26_shift_null] at h2; injection h2 with h2; subst h2; simp [partsOf]
  | point p => obtain ⟨⟨_, h, _⟩, _⟩ := h4; cases h
  | polyline p => obtain ⟨⟨_, h⟩, _⟩ := h4; cases h
  | polygon cs =>
    rw [C26_shift_polygon _ _ hz] at h2
    injection h2 with h2; subst h2
    intro part hp
    dsimp only at hp
    split at hp
    · cases hp
    · obtain ⟨x, hx, rfl⟩ := List.mem_map.1 hp
      have hx' : ∃ m ∈ ringsOf cs, x = lineAt q.z m ∧ 3 ≤ x.length := by
        obtain ⟨P, hP, hx⟩ := List.mem_flatMap.1 hx
        obtain ⟨hP, hlen⟩ := List.mem_filter.1 hP
        obtain ⟨C, hC, rfl⟩ := List.mem_map.1 hP
        rcases List.mem_cons.1 hx with rfl | hx
        · exact ⟨C.outer, List.mem_flatMap.2 ⟨C, hC, by simp⟩, rfl, of_decide_eq_true hlen⟩
        · obtain ⟨hx, hlen⟩ := List.mem_filter.1 hx
          obtain ⟨m, hm, rfl⟩ := List.mem_map.1 hx
          exact ⟨m, List.mem_flatMap.2 ⟨C, hC, by simp [hm]⟩, rfl, of_decide_eq_true hlen⟩
      obtain ⟨m, hm, rfl, hlen⟩ := hx'
      obtain ⟨h5, h6⟩ := h3 m hm
      refine ⟨rfl, by simp only [List.length_map, List.length_dropLast]; omega, ?_⟩
      rw [close_map, close_dropLast (C27_rings_stay_closed _ _ h6) (by omega)]
      exact follows_lineAt q h5

/-! ### one tile -/

/-- what a client sees of a feature of the tile lies where the feature lies -/
structure Spec.InPlace (e : Int) (τ : ℝ) (ctx : RenderCtx) (q : Tile) (fs : List Feature) (f : Feature) (c : ClientFeature) : Prop where
  points : ∀ ps, f.geometry = .point ps → ∀ part ∈ c.parts, ∃ P ∈ ps, part = ⟨[placeIn q P], false⟩
  lines : ∀ ls, f.geometry = .polyline ls → ∀ part ∈ c.parts, part.closed = false ∧ 2 ≤ part.points.length ∧
    Follows (e / 2 ^ (20 - q.z) + 1 + (if ctx.aggLines then τ else 0)) part.points (fun p => ∃ f' ∈ fs, f'.layer = f.layer ∧ f'.metas = f.metas ∧ (ctx.aggLines = false → f' = f) ∧
      ∃ ls', f'.geometry = .polyline ls' ∧ ∃ p0, OnLines ls' p0 ∧ p = tilePos q p0)
  outlines : ∀ ps, f.geometry = .polygon ps → ∀ part ∈ c.parts, part.closed = true ∧ 2 ≤ part.points.length ∧
    Follows (e / 2 ^ (20 - q.z) + 1) (close part.points) (fun p => ∃ p0, (OnLines ((ringsOf ps).map (fun r => close r.dropLast)) p0 ∨ OnBorder (drawBounds q) p0) ∧ p = tilePos q p0)

theorem follows_tile (q : Tile) {d : ℝ} {l : Line} {ls : List Line} {d' : ℝ} {P : ℝ × ℝ → Prop} (h : Follows d l (fun p => ∃ p0, OnLines ls p0 ∧ p = tilePos q p0)) (h' : ∀ m ∈ ls, Follows (d' * 2 ^ (20 - q.z)) m P) :
    Follows (d + d') l (fun p => ∃ p0, P p0 ∧ p = tilePos q p0) := by
  intro a b hab u h0 h1
  obtain ⟨_, ⟨_, ⟨m, h2, c, e, h3, s, s0, s1, rfl⟩, rfl⟩, h4⟩ := h a b hab u h0 h1
  obtain ⟨p, h5, h6⟩ := h' m h2 c e h3 s s0 s1
  refine ⟨_, ⟨p, h5, rfl⟩, ?_⟩
  have := within_tri h4 (within_scale q h6)
  rwa [mul_div_cancel_right₀ _ (by positivity)] at this

/-- What a client finds in a tile lies where the features of the tile lie. -/
theorem C71_content (hl : ClipLib e inter clipper correct) (hlib : FaithLib e τ inter clipper simplify) (ctx : RenderCtx) (hctx : ctx.clip = clipGeometry inter clipper correct)
    (q : Tile) (hz : q.z ≤ 20) (hagg : ∀ fs out, aggregateLineFeatures simplify q.z fs = .ok out → ctx.aggregate q.z fs = out)
    (fs : List Feature) (hfs : ∀ f ∈ fs, Renderable f) :
    ∀ L ∈ tileContent ctx (specOf q) fs, ∃ i, ctx.layerNames[i]? = some L.name ∧ ∀ c ∈ L.features,
      ∃ f ∈ fs, f.layer = i ∧ c.id = f.id ∧ f.geometry ≠ .null ∧ c.type = typeOf f.geometry ∧ c.tags = tagsOf f.metas ∧ InPlace e τ ctx q fs f c := by
  intro L hL
  rw [tileContent, List.mem_filterMap] at hL
  obtain ⟨i, hi, hL⟩ := hL
  dsimp only at hL
  split at hL
  · cases hL
  injection hL with hL
  subst hL
  rw [List.mem_range] at hi
  refine ⟨i, ?_, fun c hc => ?_⟩
  · rw [List.getElem?_eq_getElem hi]; rfl
  obtain ⟨w, hw, rfl⟩ := List.mem_map.1 hc
  obtain ⟨g, hg, rfl, hn⟩ := mem_layerContent hw
  have hin : ∀ g ∈ ofLayer fs i, g ∈ fs ∧ g.layer = i := fun g hg => ⟨(List.mem_filter.1 hg).1, of_decide_eq_true (List.mem_filter.1 hg).2⟩
  have hr : ∃ r, drawGeometry ctx (specOf q) g.geometry = .ok r ∧ (drawn ctx (specOf q) g).geometry = r := by
    cases hd : drawGeometry ctx (specOf q) g.geometry with
    | ok r => exact ⟨r, rfl, by simp only [drawn, hd]⟩
    | throw_ => exact absurd (by simp only [drawn, hd]) hn
    | ub => exact absurd (by simp only [drawn, hd]) hn
  obtain ⟨r, hr, hgr⟩ := hr
  have hty := drawn_type hctx (s := specOf q) hz hr (hgr ▸ hn)
  have hparts : (view (specOf q).px.min (drawn ctx (specOf q) g)).parts = partsOf (specOf q).px.min r := by rw [← hgr]; rfl
  have htype : (view (specOf q).px.min (drawn ctx (specOf q) g)).type = typeOf g.geometry := by rw [← hty, ← hgr]; rfl
  by_cases hjoin : g ∈ joinedLines ctx q.z (ofLayer fs i)
  · -- a joined line
    have hlines : ctx.aggLines = true := by
      by_contra hc
      rw [joinedLines, bufferedLines, if_neg hc] at hjoin
      simp at hjoin
    obtain ⟨_, _, h3⟩ := C38_in_tile ctx simplify q.z hagg (ofLayer fs i) (fun f hf => (hfs f (hin f hf).1).line)
    obtain ⟨group, joined, h4, h5, h6, ⟨f, h7, h8⟩, _⟩ := h3 g hjoin
    have hgroup : ∀ f' ∈ group, (f' ∈ fs ∧ f'.layer = i) ∧ isLine f' = true ∧ f'.metas = g.metas := by
      intro f' hf'
      obtain ⟨k1, k2⟩ := List.mem_filter.1 (h4.mem_iff.1 hf')
      obtain ⟨k3, k4⟩ := bufferedLines_from k1
      exact ⟨hin f' k3, k4, of_decide_eq_true k2⟩
    obtain ⟨⟨k1, k2⟩, k3, k4⟩ := hgroup f h7
    have k5 : typeOf f.geometry = 2 := of_decide_eq_true k3
    refine ⟨f, k1, k2, h8.symm, fun hc => (by rw [hc] at k5; cases k5), by rw [htype, k5, h6]; rfl, by rw [k4]; rfl, ⟨fun ps hp => ?_, fun ls hls part hp => ?_, fun ps hp => ?_⟩⟩
    · rw [hp] at k5; cases k5
    · rw [hparts] at hp
      rw [h6] at hr
      obtain ⟨m1, m1', m2⟩ := drawn_lines hlib hctx hz hr part hp
      refine ⟨m1, m1', ?_⟩
      rw [if_pos hlines]
      refine follows_mono (follows_tile q (d' := τ) (P := OnLines (group.flatMap featureLines)) m2 (fun m hm => ?_)) ?_
      · obtain ⟨m0, hm0, rfl⟩ := List.mem_map.1 hm
        rw [if_pos (by simpa [kMaxZoomLevel] using hz)]
        have h9 := follows_trans (hlib.simplifies (2 ^ (kMaxZoomLevel - q.z)) m0) (fun m' hm' => by
          rw [List.mem_singleton] at hm'; subst hm'; exact joined_follow h5 hm0)
        rw [add_zero] at h9
        simpa [kMaxZoomLevel] using h9
      · rintro p ⟨p0, ⟨l, hl', a, b, n1, n2⟩, rfl⟩
        obtain ⟨f', hf', hl'⟩ := List.mem_flatMap.1 hl'
        obtain ⟨⟨o1, o2⟩, o3, o4⟩ := hgroup f' hf'
        refine ⟨f', o1, by rw [o2, k2], by rw [o4, k4], fun h => absurd (hlines.symm.trans h) (by simp), featureLines f', ((hfs f' o1).line o3).1, p0, ⟨l, hl', a, b, n1, n2⟩, rfl⟩
    · rw [hp] at k5; cases k5
  · have hg' : g ∈ ofLayer fs i := by
      rcases candidates_from hg with h | h
      · exact h
      · exact absurd h hjoin
    obtain ⟨k1, k2⟩ := hin g hg'
    refine ⟨g, k1, k2, rfl, fun hc => ?_, htype, rfl, ⟨fun ps hp part hpart => ?_, fun ls hls part hpart => ?_, fun ps hp part hpart => ?_⟩⟩
    · rw [hc] at hty
      cases r with
      | null => exact hn hgr
      | _ => cases hty
    · rw [hparts] at hpart
      rw [hp] at hr
      exact drawn_points hctx hz hr part hpart
    · rw [hparts] at hpart
      rw [hls] at hr
      obtain ⟨m1, m1', m2⟩ := drawn_lines hlib hctx hz hr part hpart
      refine ⟨m1, m1', ?_⟩
      have hno : ctx.aggLines = false := by
        by_contra hc
        have hc : ctx.aggLines = true := by simpa using hc
        rw [candidates, List.mem_append, List.mem_append] at hg
        rcases hg with (hg | hg) | hg
        · have := (List.mem_filter.1 hg).2
          simp [hc, isLine, hls, typeOf] at this
        · rw [bufferedPolys] at hg
          split at hg
          · have := (List.mem_filter.1 hg).2
            simp [isPoly, hls, typeOf] at this
          · cases hg
        · exact hjoin hg
      rw [if_neg (by simp [hno]), add_zero]
      exact follows_mono m2 (fun p ⟨p0, h1, h2⟩ => ⟨g, k1, rfl, rfl, fun _ => rfl, ls, hls, p0, h1, h2⟩)
    · rw [hparts] at hpart
      rw [hp] at hr
      have := (hfs g k1).polygon
      rw [hp] at this
      exact drawn_outlines hl hlib hctx hz this hr part hpart

/-- After a complete import (as in C54 and C62) the server answers every tile, and what a client finds in the answer lies where the squares of sea and the imported features (simplified
for the zoom level) lie. -/
theorem C71_served {ι : Type} (env : ImportEnv ι) (coast osm : Bool) (hsrt : SortsByKey env.srt)
    (hm : ∀ l z, (env.rd (env.mkMask l) z).length = l.length) (hw : 0 < env.workers)
    (hin : ∀ fs i, env.loads coast osm fs i → (env.decOf i).length ≤ 2 ^ 64 ∧ (∀ x ∈ fs.flatten, Importable env.mkMask (env.decOf i) plainOf x) ∧ fs.flatten.length < 2 ^ 32)
    (runs : List (List String)) (hacts : changes runs = [.load coast osm, .pack, .tiles]) (a b : TileDb ι) (hr : Imports (importParts env) runs a b)
    (hsmall : SmallPacks b.features) (hsize : b.pf.reopen.size < 2 ^ 64) (features : List (UInt64 × Bytes)) (hdb : EntriesOf b.features features)
    (ctx : GetCtx) (hctx : ∃ m, env.ctxOf b.info = { ctx with maxPrepared := m }) (hrd : ctx.rd = env.rd) (hdec : ctx.dec = env.decOf b.info) (hc : Serving ctx 10)
    -- the libraries
    (he : 0 ≤ e) (he' : e ≤ 2 ^ 20) (hl : ClipLib e inter clipper correct) (hlib : FaithLib e τ inter clipper simplify) (hclip : ctx.clip = clipGeometry inter clipper correct)
    (hagg : ∀ z fs out, aggregateLineFeatures simplify z fs = .ok out → ctx.aggregate z fs = out) :
    ∃ fs, env.loads coast osm fs b.info ∧
      ((∀ x ∈ fs.flatten, x.feature.layer < ctx.layerNames.length) → 0 < ctx.layerNames.length → ∀ sea, SeaTree sea ctx.seaside →
        ∀ q : Tile, q.Valid → q.z ≤ 20 →
        10 < q.z ∨ InArea (dbBounds (features.map (·.1))) q ∨ (∃ t ∈ sea, AncOrSelf t q) ∨ (∀ t ∈ sea, ¬ AncOrSelf q t) →
        (∀ x ∈ fs.flatten, Drawable (fun l => env.rd (env.mkMask l) q.z) x.feature) →
        (∀ gs i, (∀ g ∈ gs, (∃ t, g = seaSquare t) ∨ ∃ x ∈ fs.flatten, StoredAs (fun l => env.rd (env.mkMask l) q.z) x.feature g) →
          ∀ f ∈ candidates (drawing ctx 10 q).toRenderCtx (specOf q) (ofLayer gs i), NoLongLine (drawing ctx 10 q).toRenderCtx q f) →
        ∃ gs bytes layers, getTile b.tiles features b.pf.reopen ctx q = .ok (if bytes = [] then none else some (ctx.encode bytes)) ∧
          (bytes.length < 2 ^ 32 → clientTile bytes = some layers ∧ (bytes = [] ↔ layers = [])) ∧
          (∀ g ∈ gs, (∃ t, g = seaSquare t ∧ ∃ t' ∈ sea, AncOrSelf t' q ∨ AncOrSelf q t') ∨
            ∃ x ∈ fs.flatten, Shows q x.feature ∧ StoredAs (fun l => env.rd (env.mkMask l) q.z) x.feature g) ∧
          ∀ L ∈ layers, ∃ i, ctx.layerNames[i]? = some L.name ∧ ∀ c ∈ L.features,
            ∃ g ∈ gs, g.layer = i ∧ c.id = g.id ∧ g.geometry ≠ .null ∧ c.type = typeOf g.geometry ∧ c.tags = tagsOf g.metas ∧ InPlace e τ (drawing ctx 10 q).toRenderCtx q gs g c) := by
  obtain ⟨fs, h1, h2⟩ := served_drawn env coast osm hsrt hm hw hin runs hacts a b hr hsmall hsize features hdb ctx hctx hrd hdec hc e he he' inter clipper correct hl hclip simplify hagg
  obtain ⟨_, himp, _⟩ := hin _ _ h1
  refine ⟨fs, h1, fun hlay hpos sea hsea q hv hz hwhere hdraw hshort => ?_⟩
  obtain ⟨leafs, gs, bytes, layers, h3, h4, _, h6, h7, h8, _⟩ := h2 hlay hpos sea hsea q hv hz hwhere hdraw hshort
  obtain ⟨leafs', h9, _, h10, _, hleaf⟩ := hsea.leafs hv hz
  rw [h3] at h9; injection h9 with h9; subst h9
  refine ⟨leafs.map seaSquare ++ gs, bytes, layers, h7, h8, fun g hg => ?_, ?_⟩
  · rcases List.mem_append.1 hg with hg | hg
    · obtain ⟨t, ht, rfl⟩ := List.mem_map.1 hg
      refine .inl ⟨t, rfl, ?_⟩
      by_cases hcov : ∃ t ∈ sea, AncOrSelf t q
      · obtain ⟨t', ht', hanc⟩ := hcov
        exact ⟨t', ht', .inl hanc⟩
      · obtain ⟨hm1, hm2, _⟩ := (hleaf hcov t).1 ht
        exact ⟨t, hm1.1, .inr hm2⟩
    · obtain ⟨x, k1, k2, _, k3⟩ := h4 g hg
      exact .inr ⟨x, k1, k2, k3⟩
  · have hnames : (drawing ctx 10 q).layerNames = ctx.layerNames := by rw [drawing]; split <;> rfl
    rw [← hnames, h6]
    refine C71_content hl hlib (drawing ctx 10 q).toRenderCtx (by rw [← hclip, drawing]; split <;> rfl) q hz (fun fs out ho => ?_) _ (fun g hg => ?_)
    · rw [show (drawing ctx 10 q).aggregate = ctx.aggregate by rw [drawing]; split <;> rfl]
      exact hagg q.z fs out ho
    · rcases List.mem_append.1 hg with hg | hg
      · obtain ⟨t, ht, rfl⟩ := List.mem_map.1 hg
        exact sea_renderable (h10 t ht).1 (h10 t ht).2
      · obtain ⟨f, k1, _, _, k2⟩ := h4 g hg
        exact stored_renderable (himp f k1).toPackable.toFeatureOk (hdraw f k1) k2

end

/-! ### from OSM data -/

theorem infix_of_map {α : Type} {f : α → XY} {l : List α} {a b : XY} (h : Next (l.map f) a b) : ∃ A B, [A, B] <:+: l ∧ f A = a ∧ f B = b := by
  induction l with
  | nil => have := (next_mem h).1; cases this
  | cons x l ih =>
    rcases next_cons h with ⟨h1, l', h2⟩ | h
    · cases l with
      | nil => cases h2
      | cons y l =>
        rw [List.map_cons] at h2
        injection h2 with h2 _
        exact ⟨x, y, ⟨[], l, rfl⟩, h1, h2⟩
    · obtain ⟨c, d, h1, h2⟩ := ih h
      exact ⟨c, d, h1.trans (List.suffix_cons x l).isInfix, h2⟩

theorem ring_places {L : Type} (conv : L → XY) (nodes : List (Option L)) : closeRing (nodesToFixed conv nodes) = (ringPlaces conv nodes).map conv := by
  rw [fixed_of_nodes, closeRing, ringPlaces, List.head?_map, List.getLast?_map]
  cases (nodes.filterMap id).head? with
  | none => rfl
  | some a =>
    cases (nodes.filterMap id).getLast? with
    | none => rfl
    | some b =>
      simp only [Option.map_some]
      split <;> simp

theorem closeRing_closed (r : Line) : (closeRing r).head? = (closeRing r).getLast? := by
  unfold closeRing
  cases r with
  | nil => rfl
  | cons x r =>
    obtain ⟨b, hb⟩ : ∃ b, (x :: r).getLast? = some b := ⟨_, List.getLast?_eq_some_getLast (by simp)⟩
    rw [hb, List.head?_cons]
    dsimp only
    split
    · rename_i h; rw [hb, List.head?_cons, h]
    · rw [List.getLast?_concat]; rfl

/-- the rings of an area with at least three points are the closed rings of its items -/
def RingOf {L : Type} (conv : L → XY) (items : List (AreaItem L)) (r : Line) : Prop :=
  r.length < 3 ∨ ∃ nodes, (AreaItem.outer nodes ∈ items ∨ AreaItem.inner nodes ∈ items) ∧ r = closeRing (nodesToFixed conv nodes)

theorem area_rings {L : Type} (conv : L → XY) (all : List (AreaItem L)) : ∀ (items : List (AreaItem L)) (ps out : List Polygon), (∀ i ∈ items, i ∈ all) →
    (∀ r ∈ ringsOf ps, RingOf conv all r) → readAreaLoop conv ps items = .ok (some out) → ∀ r ∈ ringsOf out, RingOf conv all r
  | [], ps, out, _, hps, h => by
    rw [readAreaLoop] at h
    injection h with h
    injection h with h
    subst h
    exact hps
  | .outer nodes :: items, ps, out, hsub, hps, h => by
    rw [readAreaLoop] at h
    split at h
    · injection h with h; cases h
    · refine area_rings conv all items _ out (fun i hi => hsub i (.tail _ hi)) ?_ h
      intro r hr
      rw [ringsOf, List.flatMap_append, List.mem_append] at hr
      rcases hr with hr | hr
      · exact hps r hr
      · simp only [List.flatMap_cons, List.flatMap_nil, List.append_nil, List.mem_singleton] at hr
        exact .inr ⟨nodes, .inl (hsub _ (.head _)), hr⟩
  | .inner nodes :: items, ps, out, hsub, hps, h => by
    rw [readAreaLoop] at h
    split at h
    · cases h
    · rename_i p hp
      obtain ⟨r0, h1, h⟩ := Res.bind_eq_ok.1 h
      refine area_rings conv all items _ out (fun i hi => hsub i (.tail _ hi)) ?_ h
      have hps' : ∀ r ∈ ringsOf (ps.dropLast ++ [p]), RingOf conv all r := by
        rw [List.dropLast_append_getLast? p hp]; exact hps
      intro r hr
      simp only [ringsOf, List.flatMap_append, List.mem_append, List.flatMap_cons, List.flatMap_nil, List.append_nil, List.mem_cons, List.not_mem_nil, or_false] at hr hps'
      rcases hr with hr | hr | hr | hr
      · exact hps' r (.inl hr)
      · exact hps' r (.inr (.inl hr))
      · exact hps' r (.inr (.inr hr))
      · subst hr
        rw [readInner] at h1
        split at h1
        · split at h1
          · cases h1
          · injection h1 with h1
            subst h1
            left
            rw [List.length_dropLast]; omega
        · injection h1 with h1
          subst h1
          exact .inr ⟨nodes, .inr (hsub _ (.head _)), rfl⟩
  | .other :: items, ps, out, hsub, hps, h => by
    rw [readAreaLoop] at h
    exact area_rings conv all items ps out (fun i hi => hsub i (.tail _ hi)) hps h

theorem read_area_rings {L : Type} (conv : L → XY) {items : List (AreaItem L)} {ps : List Polygon} (h : readOsm conv (.area items) = .ok (.polygon ps)) : ∀ r ∈ ringsOf ps, RingOf conv items r := by
  change readOsmArea conv items = _ at h
  rw [readOsmArea] at h
  obtain ⟨o, h1, h⟩ := Res.bind_eq_ok.1 h
  split at h
  · injection h with h; cases h
  · injection h with h; cases h
  · injection h with h
    injection h with h
    subst h
    exact area_rings conv items items [] _ (fun i hi => hi) (by simp [ringsOf]) h1

theorem keep_length_le (bits : List Bool) (l : Line) : (keep bits l).length ≤ l.length := by
  unfold keep
  rw [List.length_map]
  refine (List.length_filter_le _ _).trans ?_
  rw [List.length_zip]
  exact Nat.min_le_left _ _

theorem stored_rings {simp : Line → List Bool} {ps qs : List Polygon} (h : withoutSmallRings (simplified simp (.polygon ps)) = .polygon qs) {r : Line} (hr : r ∈ ringsOf qs) :
    ∃ r0 ∈ ringsOf ps, r = keep (simp r0) r0 ∧ 4 ≤ r.length := by
  simp only [simplified, withoutSmallRings] at h
  split at h
  · cases h
  · injection h with h
    rw [← h] at hr
    obtain ⟨P, hP, hr⟩ := List.mem_flatMap.1 hr
    obtain ⟨P', hP', rfl⟩ := List.mem_map.1 hP
    obtain ⟨hP', hlen⟩ := List.mem_filter.1 hP'
    obtain ⟨P0, hP0, rfl⟩ := List.mem_map.1 hP'
    rcases List.mem_cons.1 hr with rfl | hr
    · exact ⟨P0.outer, List.mem_flatMap.2 ⟨P0, hP0, by simp⟩, rfl, of_decide_eq_true hlen⟩
    · obtain ⟨hr, hlen⟩ := List.mem_filter.1 hr
      obtain ⟨r0, hr0, rfl⟩ := List.mem_map.1 hr
      exact ⟨r0, List.mem_flatMap.2 ⟨P0, hP0, by simp [hr0]⟩, rfl, of_decide_eq_true hlen⟩

theorem follows_shift {d d' : ℝ} {l : Line} {P Q : ℝ × ℝ → Prop} (h : Follows d l P) (hpq : ∀ p, P p → ∃ p', Q p' ∧ CloseBy d' p p') : Follows (d + d') l Q := by
  intro a b hab u h0 h1
  obtain ⟨p, h2, h3⟩ := h a b hab u h0 h1
  obtain ⟨p', h4, h5⟩ := hpq p h2
  exact ⟨p', h4, within_tri h3 h5⟩

theorem ringPlaces_sub {L : Type} {conv : L → XY} {nodes : List (Option L)} {l : L} (h : l ∈ ringPlaces conv nodes) : some l ∈ nodes := by
  have key : ∀ l, l ∈ nodes.filterMap id → some l ∈ nodes := by
    intro l h
    obtain ⟨o, h1, h2⟩ := List.mem_filterMap.1 h
    rw [← h2]; exact h1
  unfold ringPlaces at h
  split at h
  · rename_i a b ha hb
    split at h
    · exact key l h
    · rcases List.mem_append.1 h with h | h
      · exact key l h
      · rw [List.mem_singleton] at h; subst h
        exact key _ (List.mem_of_mem_head? ha)
  · exact key l h

theorem kept_sub {L : Type} {bits : List Bool} {nodes : List (Option L)} {l : L} (h : l ∈ keptPlaces bits nodes) : some l ∈ nodes := by
  obtain ⟨⟨x, y⟩, h2, rfl⟩ := List.mem_map.1 h
  have h3 := (List.of_mem_zip (List.mem_filter.1 h2).1).1
  obtain ⟨o, h4, h5⟩ := List.mem_filterMap.1 h3
  show some x ∈ nodes
  rw [← h5]; exact h4

/-- the ends of a piece are nodes of the object -/
theorem piece_nodes {conv : LatLng → XY} {bits : Line → List Bool} {s : OsmShape LatLng} {A B : LatLng} (h : Piece conv bits s A B) : some A ∈ shapeNodes s ∧ some B ∈ shapeNodes s := by
  cases s with
  | node _ => exact h.elim
  | way nodes => exact ⟨kept_sub (h.subset (by simp)), kept_sub (h.subset (by simp))⟩
  | area items =>
    obtain ⟨nodes, h1, h2⟩ := h
    have key : ∀ l ∈ [A, B], some l ∈ nodes := by
      intro l hl
      obtain ⟨x, h3, h4⟩ := List.mem_map.1 (kept_sub (h2.subset hl))
      injection h4 with h4
      subst h4
      exact ringPlaces_sub h3
    have hsub : ∀ l, some l ∈ nodes → some l ∈ shapeNodes (.area items) := by
      intro l hl
      rcases h1 with h1 | h1
      · exact List.mem_flatMap.2 ⟨_, h1, hl⟩
      · exact List.mem_flatMap.2 ⟨_, h1, hl⟩
    exact ⟨hsub _ (key A (by simp)), hsub _ (key B (by simp))⟩

/-- the points of a stored feature are those of the node -/
theorem stored_points {conv : LatLng → XY} {bits : Line → List Bool} {s : OsmShape LatLng} {f g : Feature} (hread : readOsm conv s = .ok f.geometry) (hs : StoredAs bits f g)
    {ps : List XY} (hg : g.geometry = .point ps) : ∃ l, s = .node (some l) ∧ ps = [conv l] := by
  obtain ⟨ms, _, rfl⟩ := hs
  dsimp only at hg
  cases hf : f.geometry with
  | null => rw [hf] at hg; simp [simplified, withoutSmallRings] at hg
  | polyline ls => rw [hf] at hg; simp [simplified, withoutSmallRings] at hg
  | polygon qs => rw [hf] at hg; simp only [simplified, withoutSmallRings] at hg; split at hg <;> cases hg
  | point p =>
    rw [hf] at hg hread
    simp only [simplified, withoutSmallRings] at hg
    injection hg with hg
    subst hg
    cases s with
    | node loc =>
      cases loc with
      | none => injection hread with h; cases h
      | some l => injection hread with h; injection h with h; exact ⟨l, rfl, h.symm⟩
    | way nodes =>
      injection hread with h
      unfold readOsmWay at h
      dsimp only at h
      split at h <;> cases h
    | area items =>
      rcases (readOsm_from conv hread).2.2 with h | ⟨_, _, h⟩ <;> cases h

/-- the segments of a stored line are pieces of the way -/
theorem stored_way {conv : LatLng → XY} {bits : Line → List Bool} {s : OsmShape LatLng} {f g : Feature} (hread : readOsm conv s = .ok f.geometry) (hs : StoredAs bits f g)
    {ls : List Line} (hg : g.geometry = .polyline ls) : ∀ l ∈ ls, ∀ a b, Next l a b → ∃ A B, Piece conv bits s A B ∧ conv A = a ∧ conv B = b := by
  obtain ⟨ms, _, rfl⟩ := hs
  dsimp only at hg
  cases hf : f.geometry with
  | null => rw [hf] at hg; simp [simplified, withoutSmallRings] at hg
  | point ls => rw [hf] at hg; simp [simplified, withoutSmallRings] at hg
  | polygon qs => rw [hf] at hg; simp only [simplified, withoutSmallRings] at hg; split at hg <;> cases hg
  | polyline ks =>
    rw [hf] at hg hread
    simp only [simplified, withoutSmallRings] at hg
    injection hg with hg
    subst hg
    cases s with
    | node loc => cases loc <;> (injection hread with h; cases h)
    | area items =>
      rcases (readOsm_from conv hread).2.2 with h | ⟨_, _, h⟩ <;> cases h
    | way nodes =>
      injection hread with h
      unfold readOsmWay at h
      dsimp only at h
      split at h
      · cases h
      injection h with h
      subst h
      intro l hl a b hab
      simp only [List.map_cons, List.map_nil, List.mem_singleton] at hl
      subst hl
      rw [fixed_of_nodes, keep_places] at hab
      exact infix_of_map hab

/-- the segments of the outlines of a stored area are pieces of it -/
theorem stored_area {conv : LatLng → XY} {bits : Line → List Bool} (hends : ∀ l : Line, l.head? = l.getLast? → (keep (bits l) l).head? = (keep (bits l) l).getLast?)
    {s : OsmShape LatLng} {f g : Feature} (hread : readOsm conv s = .ok f.geometry) (hs : StoredAs bits f g)
    {ps : List Polygon} (hg : g.geometry = .polygon ps) : ∀ r ∈ ringsOf ps, ∀ a b, Next (close r.dropLast) a b → ∃ A B, Piece conv bits s A B ∧ conv A = a ∧ conv B = b := by
  obtain ⟨ms, _, rfl⟩ := hs
  dsimp only at hg
  cases hf : f.geometry with
  | null => rw [hf] at hg; simp [simplified, withoutSmallRings] at hg
  | point ls => rw [hf] at hg; simp [simplified, withoutSmallRings] at hg
  | polyline qs => rw [hf] at hg; simp [simplified, withoutSmallRings] at hg
  | polygon qs =>
    rw [hf] at hg hread
    intro r hr a b hab
    obtain ⟨r0, h1, rfl, h2⟩ := stored_rings hg hr
    cases s with
    | node loc => cases loc <;> (injection hread with h; cases h)
    | way nodes =>
      injection hread with h
      unfold readOsmWay at h
      dsimp only at h
      split at h <;> cases h
    | area items =>
      rcases read_area_rings conv hread r0 h1 with h3 | ⟨nodes, h3, rfl⟩
      · have := keep_length_le (bits r0) r0
        omega
      · rw [close_dropLast (hends _ (closeRing_closed _)) (by omega), ring_places] at hab
        have h4 := keep_places conv (bits ((ringPlaces conv nodes).map conv)) ((ringPlaces conv nodes).map some)
        rw [show ((ringPlaces conv nodes).map some).filterMap id = ringPlaces conv nodes by
          rw [List.filterMap_map]; exact List.filterMap_some] at h4
        rw [h4] at hab
        obtain ⟨A, B, h5, h6⟩ := infix_of_map hab
        exact ⟨A, B, ⟨nodes, h3, h5⟩, h6⟩

/-- a point on the border of the drawn box lies on the frame of the tile -/
theorem border_frame {q : Tile} {p : ℝ × ℝ} (h : OnBorder (drawBounds q) p) : OnFrame q (tilePos q p) := by
  obtain ⟨⟨h1, h2, h3, h4⟩, h5⟩ := h
  have hp : (0 : ℝ) < 2 ^ (20 - q.z) := by positivity
  simp only [drawBounds, pxBounds, kOverdraw] at h1 h2 h3 h4 h5
  push_cast at h1 h2 h3 h4 h5
  have e1 : (4096 : ℝ) / 2 ^ (20 - q.z) * 2 ^ (20 - q.z) = 4096 := div_mul_cancel₀ _ hp.ne'
  have key1 : ∀ (v : ℝ) (k : Nat), (k : ℝ) * 4096 * 2 ^ (20 - q.z) - 4096 ≤ v → -(4096 / 2 ^ (20 - q.z)) ≤ v / 2 ^ (20 - q.z) - k * 4096 := by
    intro v k h
    rw [le_sub_iff_add_le, le_div_iff₀ hp]
    nlinarith
  have key2 : ∀ (v : ℝ) (k : Nat), v ≤ ((k : ℝ) + 1) * 4096 * 2 ^ (20 - q.z) + 4096 → v / 2 ^ (20 - q.z) - k * 4096 ≤ 4096 + 4096 / 2 ^ (20 - q.z) := by
    intro v k h
    rw [sub_le_iff_le_add, div_le_iff₀ hp]
    nlinarith
  have key3 : ∀ (v : ℝ) (k : Nat), v = (k : ℝ) * 4096 * 2 ^ (20 - q.z) - 4096 → v / 2 ^ (20 - q.z) - k * 4096 = -(4096 / 2 ^ (20 - q.z)) := by
    intro v k h
    rw [h]; field_simp; ring
  have key4 : ∀ (v : ℝ) (k : Nat), v = ((k : ℝ) + 1) * 4096 * 2 ^ (20 - q.z) + 4096 → v / 2 ^ (20 - q.z) - k * 4096 = 4096 + 4096 / 2 ^ (20 - q.z) := by
    intro v k h
    rw [h]; field_simp; ring
  refine ⟨key1 _ _ h1, key2 _ _ h2, key1 _ _ h3, key2 _ _ h4, ?_⟩
  rcases h5 with h | h | h | h
  · exact .inl (key3 _ _ h)
  · exact .inr (.inl (key4 _ _ h))
  · exact .inr (.inr (.inl (key3 _ _ h)))
  · exact .inr (.inr (.inr (key4 _ _ h)))

section
variable {S : OsmSetting} {t : Tables} {e : Int} {g τ : ℝ} {data : List Datum}

/-- what is seen comes from an object of the data and lies there (for the text see `C71_osm`) -/
def Spec.DrawnInPlace (S : OsmSetting) (t : Tables) (e : Int) (g τ : ℝ) (data : List Datum) (q : Tile) (L : ClientLayer) (c : ClientFeature) : Prop :=
        ∃ d ∈ data, ∃ r, d.rule t = some r ∧ L.name = r.layer ∧ (c.id : Int) = d.id % 2 ^ 64 ∧ c.type = d.type ∧
          c.tags.Perm (r.shown S.numeral S.prof.toDouble (tagValue d.tags)) ∧
          ∀ part ∈ c.parts,
            (c.type = 1 → ∃ l p, d.shape = .node (some l) ∧ part = ⟨[p], false⟩ ∧ CloseBy (g / 2 ^ (20 - q.z) + 1) (p.x, p.y) (inTile q (mapX l, mapY l))) ∧
            (c.type = 2 → part.closed = false ∧ 2 ≤ part.points.length ∧
              Follows ((e + g) / 2 ^ (20 - q.z) + 1 + (if q.z ≤ 10 then τ else 0)) part.points (fun p => ∃ d' ∈ data, (10 < q.z → d' = d) ∧ d'.type = 2 ∧
                (∃ r', d'.rule t = some r' ∧ L.name = r'.layer ∧ c.tags.Perm (r'.shown S.numeral S.prof.toDouble (tagValue d'.tags))) ∧
                OnShape S.prof.conv (fun l => S.rd (S.mkMask l) q.z) q d'.shape p)) ∧
            (c.type = 3 → part.closed = true ∧ 2 ≤ part.points.length ∧
              Follows ((e + g) / 2 ^ (20 - q.z) + 1) (close part.points) (fun p => OnShape S.prof.conv (fun l => S.rd (S.mkMask l) q.z) q d.shape p ∨ OnFrame q p))

/-- what is seen of a stored feature `y` of the data (`osm`: stored features of the data); lines can be joined only with lines of the data -/
theorem drawn_in_place (hS : S.Ok t e g) (hD : S.Fits data) (hends : ∀ z, ∀ l : Line, l.head? = l.getLast? → (keep (S.rd (S.mkMask l) z) l).head? = (keep (S.rd (S.mkMask l) z) l).getLast?)
    {fs : List (List Feature)} {m : MetaTable} {names : List Bytes} {tbl : List Meta} (hl : OsmLoaded S.prof S.profile t S.numeral data fs m names tbl) {ctx : RenderCtx} {q : Tile} (hz : q.z ≤ 20)
    (hag : ctx.aggLines = decide (q.z ≤ 10)) {gs : List Feature} (osm : Feature → Prop) (m3 : ∀ y, osm y → ∃ f ∈ fs.flatten, StoredAs (fun l => S.rd (S.mkMask l) q.z) f y)
    (hlines : ∀ y' ∈ gs, ∀ ls, y'.geometry = .polyline ls → osm y') {L : ClientLayer} {c : ClientFeature} {y : Feature} (hy : osm y) (n1 : names[y.layer]? = some L.name)
    (hid : c.id = y.id) (hne : y.geometry ≠ .null) (hty : c.type = typeOf y.geometry) (htags : c.tags = tagsOf y.metas) (hplace : InPlace e τ ctx q gs y c) :
    DrawnInPlace S t e g τ data q L c := by
  obtain ⟨px, hgeo, hconv⟩ := hS.places
  obtain ⟨g1, g2, g3⟩ := hS.error
  -- where a stored feature comes from
  have hsrc : ∀ y, osm y → y.geometry ≠ .null → ∀ name, names[y.layer]? = some name → ∃ d ∈ data, ∃ r, d.rule t = some r ∧ name = r.layer ∧ (y.id : Int) = d.id % 2 ^ 64 ∧ typeOf y.geometry = d.type ∧
      (tagsOf y.metas).Perm (r.shown S.numeral S.prof.toDouble (tagValue d.tags)) ∧
      ∃ f, readOsm S.prof.conv d.shape = .ok f.geometry ∧ StoredAs (fun l => S.rd (S.mkMask l) q.z) f y := by
    intro y hy hne name hname
    obtain ⟨f, hf, hst⟩ := m3 y hy
    · skip
      obtain ⟨d, hd, r, hr', hsb, hnull, _⟩ := hl.from_data f hf
      obtain ⟨ms, hperm, rfl⟩ := hst
      refine ⟨d, hd, r, hr', ?_, hsb.id, ?_, ?_, f, hsb.geometry, ms, hperm, rfl⟩
      · have := hsb.layer
        rw [hname] at this
        injection this
      · have hread := hsb.geometry
        rcases (readOsm_from S.prof.conv hread).2.2 with h | h
        · exact absurd h hnull
        · dsimp only at hne ⊢
          change readAs f.geometry d.shape at h
          cases hsh : d.shape with
          | node _ => rw [hsh] at h; obtain ⟨x, h⟩ := h; simp [h, Datum.type, hsh, typeOf, simplified, withoutSmallRings]
          | way _ => rw [hsh] at h; obtain ⟨x, _, h⟩ := h; simp [h, Datum.type, hsh, typeOf, simplified, withoutSmallRings]
          | area _ =>
            rw [hsh] at h; obtain ⟨x, y, h⟩ := h
            rw [h] at hne ⊢
            simp only [simplified, withoutSmallRings] at hne ⊢
            split at hne
            · exact absurd rfl hne
            · simp [Datum.type, hsh, typeOf]
      · exact (tagsOf_perm hperm).trans (tags_perm hS.shipped hS.numerals hS.doubles (hD.texts d hd) hr' hsb).1
  -- the places
  have hnear : ∀ d ∈ data, ∀ l, some l ∈ shapeNodes d.shape → CloseBy g ((S.prof.conv l).x, (S.prof.conv l).y) (mapX l * 2 ^ 32, mapY l * 2 ^ 32) := by
    intro d hd l hl'
    obtain ⟨x, y, k1, _, _, k2, k3⟩ := C64_near g3 hgeo l (hD.places d hd l hl')
    rw [hconv, k1]
    exact ⟨by simpa using k2, by simpa using k3⟩
  have hp : (0 : ℝ) < 2 ^ (20 - q.z) := by positivity
  have hpiece : ∀ d ∈ data, ∀ A B, Piece S.prof.conv (fun l => S.rd (S.mkMask l) q.z) d.shape A B → ∀ u : ℝ, 0 ≤ u → u ≤ 1 →
      ∃ p', OnShape S.prof.conv (fun l => S.rd (S.mkMask l) q.z) q d.shape p' ∧ CloseBy (g / 2 ^ (20 - q.z)) (tilePos q (onSeg (S.prof.conv A) (S.prof.conv B) u)) p' := by
    intro d hd A B hAB u u0 u1
    obtain ⟨n1, n2⟩ := piece_nodes hAB
    obtain ⟨A1, A2⟩ := hnear d hd A n1
    obtain ⟨B1, B2⟩ := hnear d hd B n2
    refine ⟨_, ⟨A, B, hAB, u, u0, u1, rfl⟩, ?_⟩
    rw [inTile_eq q hz]
    refine within_scale q ⟨?_, ?_⟩
    · have k1 := mix_close u0 u1 A1 B1
      convert k1 using 2
      simp only [between, onSeg]; ring
    · have k2 := mix_close u0 u1 A2 B2
      convert k2 using 2
      simp only [between, onSeg]; ring
  obtain ⟨d, hd, r, hr', k1, k2, k3, k4, f, k5, k6⟩ := hsrc y hy hne L.name n1
  refine ⟨d, hd, r, hr', k1, by rw [hid]; exact k2, by rw [hty, k3], by rw [htags]; exact k4, fun part hpart => ⟨fun h1 => ?_, fun h1 => ?_, fun h1 => ?_⟩⟩
  · cases hg : y.geometry with
    | null => exact absurd hg hne
    | polyline ls => rw [hty, hg] at h1; cases h1
    | polygon ls => rw [hty, hg] at h1; cases h1
    | point ps =>
      obtain ⟨P, hP, rfl⟩ := hplace.points ps hg part hpart
      obtain ⟨l, s1, s2⟩ := stored_points k5 k6 hg
      rw [s2, List.mem_singleton] at hP
      subst hP
      refine ⟨l, _, s1, rfl, ?_⟩
      rw [inTile_eq q hz, add_comm]
      refine within_tri ?_ (within_scale q (hnear d hd l (by rw [s1]; simp [shapeNodes])))
      have := seg_floor q (S.prof.conv l) (S.prof.conv l) (le_refl (0 : ℝ)) zero_le_one
      simpa [onSeg, place_floor] using this
  · cases hg : y.geometry with
    | null => exact absurd hg hne
    | point ls => rw [hty, hg] at h1; cases h1
    | polygon ls => rw [hty, hg] at h1; cases h1
    | polyline ls =>
      obtain ⟨s1, s1', s2⟩ := hplace.lines ls hg part hpart
      refine ⟨s1, s1', ?_⟩
      have s3 := follows_shift (d' := g / 2 ^ (20 - q.z)) (Q := fun p => ∃ d' ∈ data, (10 < q.z → d' = d) ∧ d'.type = 2 ∧
                (∃ r', d'.rule t = some r' ∧ L.name = r'.layer ∧ c.tags.Perm (r'.shown S.numeral S.prof.toDouble (tagValue d'.tags))) ∧
                OnShape S.prof.conv (fun l => S.rd (S.mkMask l) q.z) q d'.shape p) s2 ?_
      · rw [hag] at s3
        convert s3 using 1
        simp only [decide_eq_true_eq]
        ring
      · rintro p ⟨y', hy', t1, t2, t3, ls', t4, p0, ⟨l, u1, a', b', u2, w, w0, w1, rfl⟩, rfl⟩
        have hsame : ∃ d' ∈ data, (10 < q.z → d' = d) ∧ d'.type = 2 ∧
                (∃ r', d'.rule t = some r' ∧ L.name = r'.layer ∧ c.tags.Perm (r'.shown S.numeral S.prof.toDouble (tagValue d'.tags))) ∧
                ∃ f', readOsm S.prof.conv d'.shape = .ok f'.geometry ∧ StoredAs (fun l => S.rd (S.mkMask l) q.z) f' y' := by
          by_cases h10 : 10 < q.z
          · have hyy := t3 (by rw [hag]; simp; omega)
            subst hyy
            exact ⟨d, hd, fun _ => rfl, by rw [← k3, hg]; rfl, ⟨r, hr', k1, by rw [htags]; exact k4⟩, f, k5, k6⟩
          · obtain ⟨d', hd', r', q1, q2, _, q3, q4, f', q5, q6⟩ := hsrc y' (hlines y' hy' ls' t4) (by rw [t4]; simp) L.name (by rw [t1]; exact n1)
            exact ⟨d', hd', fun h => absurd h h10, by rw [← q3, t4]; rfl, ⟨r', q1, q2, by rw [htags, ← t2]; exact q4⟩, f', q5, q6⟩
        obtain ⟨d', hd', v1, v2, v3, f', v4, v5⟩ := hsame
        obtain ⟨A, B, v6, rfl, rfl⟩ := stored_way v4 v5 t4 l u1 a' b' u2
        obtain ⟨p', v7, v8⟩ := hpiece d' hd' A B v6 w w0 w1
        exact ⟨p', ⟨d', hd', v1, v2, v3, v7⟩, v8⟩
  · cases hg : y.geometry with
    | null => exact absurd hg hne
    | point ls => rw [hty, hg] at h1; cases h1
    | polyline ls => rw [hty, hg] at h1; cases h1
    | polygon ps =>
      obtain ⟨s1, s1', s2⟩ := hplace.outlines ps hg part hpart
      refine ⟨s1, s1', ?_⟩
      have hg0 : 0 ≤ g / 2 ^ (20 - q.z) := by apply div_nonneg <;> linarith
      have s3 := follows_shift (d' := g / 2 ^ (20 - q.z)) (Q := fun p => OnShape S.prof.conv (fun l => S.rd (S.mkMask l) q.z) q d.shape p ∨ OnFrame q p) s2 ?_
      · convert s3 using 1
        ring
      · rintro p ⟨p0, h | h, rfl⟩
        · obtain ⟨l, u1, a', b', u2, w, w0, w1, rfl⟩ := h
          obtain ⟨r0, hr0, rfl⟩ := List.mem_map.1 u1
          obtain ⟨A, B, v6, rfl, rfl⟩ := stored_area (hends q.z) k5 k6 hg r0 hr0 a' b' u2
          obtain ⟨p', v7, v8⟩ := hpiece d hd A B v6 w w0 w1
          exact ⟨p', .inl v7, v8⟩
        · exact ⟨_, .inr (border_frame h), by simp [CloseBy, hg0]⟩

/-- Nothing is drawn out of place: whatever is imported with a shipped profile (as in C68), the server answers every tile, and everything a client finds there comes
from an object that the table of the profile gives the layer, the id and exactly the attributes for, and it lies where the object lies by the Mercator projection, to the
errors of the libraries and a unit:
* points: at the place of the node;
* lines: no point of them (also between the ends of a segment) is further away from the straight lines between consecutive nodes of the way (nodes without a place and those
  that simplification removes at the level do not count). Up to level 10, where ways are joined, it may be another way, with the same layer and attributes;
* outlines of areas: no point of them is further away from the outlines of the area or the frame around the tile at which areas are cut off. -/
theorem C71_osm (hS : S.Ok t e g) (hD : S.Fits data)
    (hlib : ∃ inter clipper correct simplify, ClipLib e inter clipper correct ∧ FaithLib e τ inter clipper simplify ∧ S.base.clip = clipGeometry inter clipper correct ∧
      ∀ z fs out, aggregateLineFeatures simplify z fs = .ok out → S.base.aggregate z fs = out)
    (hends : ∀ z, ∀ l : Line, l.head? = l.getLast? → (keep (S.rd (S.mkMask l) z) l).head? = (keep (S.rd (S.mkMask l) z) l).getLast?)
    (runs : List (List String)) (hacts : changes runs = [.load false true, .pack, .tiles]) (a b : TileDb MetaTable)
    (hr : Imports (importParts (S.env data)) runs a b) (hsmall : SmallPacks b.features) (hsize : b.pf.reopen.size < 2 ^ 64) (features : List (UInt64 × Bytes))
    (hdb : EntriesOf b.features features) (ctx : GetCtx) (hctx : makeRenderCtx S.base (preparedString b.maxPrepared) b.info = .ok ctx)
    (q : Tile) (hv : q.Valid) (hz : q.z ≤ 20) (hshort : S.ShortLines data ctx q) :
    ∃ bytes layers, getTile b.tiles features b.pf.reopen ctx q = .ok (if bytes = [] then none else some (ctx.encode bytes)) ∧
      (bytes.length < 2 ^ 32 → clientTile bytes = some layers ∧ (bytes = [] ↔ layers = [])) ∧
      ∀ L ∈ layers, ∀ c ∈ L.features,
        ∃ d ∈ data, ∃ r, d.rule t = some r ∧ L.name = r.layer ∧ (c.id : Int) = d.id % 2 ^ 64 ∧ c.type = d.type ∧
          c.tags.Perm (r.shown S.numeral S.prof.toDouble (tagValue d.tags)) ∧
          ∀ part ∈ c.parts,
            (c.type = 1 → ∃ l p, d.shape = .node (some l) ∧ part = ⟨[p], false⟩ ∧ CloseBy (g / 2 ^ (20 - q.z) + 1) (p.x, p.y) (inTile q (mapX l, mapY l))) ∧
            (c.type = 2 → part.closed = false ∧ 2 ≤ part.points.length ∧
              Follows ((e + g) / 2 ^ (20 - q.z) + 1 + (if q.z ≤ 10 then τ else 0)) part.points (fun p => ∃ d' ∈ data, (10 < q.z → d' = d) ∧ d'.type = 2 ∧
                (∃ r', d'.rule t = some r' ∧ L.name = r'.layer ∧ c.tags.Perm (r'.shown S.numeral S.prof.toDouble (tagValue d'.tags))) ∧
                OnShape S.prof.conv (fun l => S.rd (S.mkMask l) q.z) q d'.shape p)) ∧
            (c.type = 3 → part.closed = true ∧ 2 ≤ part.points.length ∧
              Follows ((e + g) / 2 ^ (20 - q.z) + 1) (close part.points) (fun p => OnShape S.prof.conv (fun l => S.rd (S.mkMask l) q.z) q d.shape p ∨ OnFrame q p)) := by
  obtain ⟨px, hgeo, hconv⟩ := hS.places
  obtain ⟨inter, clipper, correct, simplify, hlib, hfaith, hclip, hagg⟩ := hlib
  obtain ⟨g1, g2, g3⟩ := hS.error
  have hin := osm_in hS hD
  obtain ⟨hmax, _, _, _, fs0, _, hload0⟩ := imports_loaded (S.env data) false true hS.work (fun fs m h => (hin fs m h).2) runs hacts a b hr hsmall
  obtain ⟨names0, tbl0, hl0⟩ := osm_loaded hS.shipped hS.numerals hD.toGoodData hload0
  obtain ⟨b1, b2, h3, h4, h5⟩ := hl0.table
  rw [hmax, h3] at hctx
  rw [ctx_of (by norm_num) h4 h5] at hctx
  injection hctx with hctx
  have hctxOf : (S.env data).ctxOf b.info = { ctx with maxPrepared := -1 } := by
    show (match makeRenderCtx S.base none b.info with | .ok c => c | _ => S.base) = _
    rw [h3, ← hctx, ctx_first h4 h5]
  have hdec0 : (S.env data).decOf b.info = tbl0 := (osm_importable hS hD hload0 hl0).1
  obtain ⟨_, ⟨_, _, fs, rfl, hload⟩, hserve⟩ := C71_served (S.env data) false true hS.sorts hS.masks hS.work hin runs hacts a b hr hsmall hsize features hdb
    ctx ⟨-1, hctxOf⟩ (by rw [← hctx]; exact hS.reads) (by rw [hdec0, ← hctx]) ⟨by rw [← hctx], by rw [← hctx], by rw [← hctx], by rw [← hctx]⟩
    g1 g2 hlib hfaith (by rw [← hctx]; exact hclip) (by intro z fs out h; rw [← hctx]; exact hagg z fs out h)
  obtain ⟨names, tbl, hl⟩ := osm_loaded hS.shipped hS.numerals hD.toGoodData hload
  obtain ⟨_, _, _, himp⟩ := osm_importable hS hD hload hl
  have hnames : ctx.layerNames = names := by
    obtain ⟨b1', b2', k1, k2, k3⟩ := hl.table
    rw [h3] at k1
    injection k1 with _ k1 _
    rw [← k1, h4] at k2
    injection k2 with k2
    rw [← hctx]
    exact k2
  obtain ⟨gs, bytes, layers, m1, m2, m3, m4⟩ := hserve (fun x hx => by obtain ⟨f, hf, rfl⟩ := mem_whole.1 hx; rw [hnames]; exact (himp f hf).2.1) (by rw [hnames]; exact hl.few.1) []
    ⟨by rw [← hctx]; rfl, by rw [← hctx]; simp, by simp⟩ q hv hz (.inr (.inr (.inr (by simp)))) (fun x hx => by obtain ⟨f, hf, rfl⟩ := mem_whole.1 hx; exact (himp f hf).2.2 q.z hz)
    (fun gs i h => hshort fs b.info hload gs i (fun y hy => (h y hy).imp_right (by rintro ⟨x, hx, hs⟩; obtain ⟨f, hf, rfl⟩ := mem_whole.1 hx; exact ⟨f, hf, hs⟩)))
  refine ⟨bytes, layers, m1, m2, fun L hL c hc => ?_⟩
  obtain ⟨i, n1, n2⟩ := m4 L hL
  obtain ⟨y, hy, rfl, hid, hne, hty, htags, hplace⟩ := n2 c hc
  refine drawn_in_place hS hD hends hl hz (ctx := (drawing ctx 10 q).toRenderCtx) ?_ (fun y => y ∈ gs) (fun y hy => ?_) (fun y' hy' _ _ => hy') hy (by rw [← hnames]; exact n1) hid hne hty htags hplace
  · rw [drawing]
    by_cases h : q.z ≤ 10
    · rw [if_pos h]; simp [h]
    · rw [if_neg h, ← hctx]; simp [h]
  · rcases m3 y hy with ⟨_, _, _, hx, _⟩ | ⟨x, hx, _, hst⟩
    · cases hx
    · obtain ⟨f, hf, rfl⟩ := mem_whole.1 hx
      exact ⟨f, hf, hst⟩
end

end Tiles
