import Verif.Spec.PolyLib
import Verif.Props.C71
/-! C77 — areas are drawn: what lies in a tile of the outline of an area is seen there, at its place. -/
namespace Tiles
open Spec

theorem tile_deep_box {q : Tile} {p : ℝ × ℝ} (h : TileHas q p) : InsideBy 4096 (drawBounds q) p := by
  obtain ⟨h1, h2, h3, h4⟩ := h
  simp only [side] at h1 h2 h3 h4
  simp only [InsideBy, drawBounds, pxBounds, kOverdraw]
  push_cast at *
  refine ⟨by nlinarith, by nlinarith, by nlinarith, by nlinarith⟩

theorem lineAt_has {z : Nat} {l : Line} {p : XY} (h : p ∈ l) : floorTo z p ∈ lineAt z l := mem_destutter_ne (List.mem_map_of_mem h)

/-- a closed line with two different points has three points or more, at any level where they are different -/
theorem closed_three {z : Nat} {l : Line} (hc : l.head? = l.getLast?) {a b : XY} (ha : a ∈ l) (hb : b ∈ l) (hne : floorTo z a ≠ floorTo z b) : 3 ≤ (lineAt z l).length := by
  have h1 := lineAt_has (z := z) ha
  have h2 := lineAt_has (z := z) hb
  have h3 := C27_rings_stay_closed z l hc
  generalize lineAt z l = m at h1 h2 h3
  match m with
  | [] => cases h1
  | [x] => simp only [List.mem_singleton] at h1 h2; exact absurd (h1.trans h2.symm) hne
  | [x, y] =>
    simp only [List.head?_cons, List.getLast?_cons_cons, List.getLast?_singleton, Option.some.injEq] at h3
    subst h3
    simp only [List.mem_cons, List.not_mem_nil, or_false, or_self] at h1 h2
    exact absurd (h1.trans h2.symm) hne
  | _ :: _ :: _ :: _ => simp

theorem next_reverse' {l : Line} {a b : XY} (h : Next l a b) : Next l.reverse b a := by
  have := next_reverse (l := l.reverse) (a := a) (b := b) (by rwa [List.reverse_reverse])
  exact this

theorem mem_close {r : Line} {p : XY} (h : p ∈ r) : p ∈ close r := by
  cases r with
  | nil => cases h
  | cons x r => rw [close]; exact List.mem_append_left _ h

theorem close_mem {r : Line} {p : XY} (h : p ∈ close r) : p ∈ r := by
  cases r with
  | nil => cases h
  | cons x r =>
    rw [close] at h
    rcases List.mem_append.1 h with h | h
    · exact h
    · rw [List.mem_singleton] at h; subst h; simp

theorem close_closed (r : Line) : (close r).head? = (close r).getLast? := by
  cases r with
  | nil => rfl
  | cons a c => rw [close, List.getLast?_append]; simp

theorem sameRing_mem {a b : Line} (h : SameRing a b) {p : XY} (hp : p ∈ a) : p ∈ b := by
  rcases h with rfl | rfl
  · exact hp
  · exact List.mem_reverse.2 hp

theorem sameRing_closed {a b : Line} (h : SameRing a b) (hc : a.head? = a.getLast?) : b.head? = b.getLast? := by
  rcases h with rfl | rfl
  · exact hc
  · rw [List.head?_reverse, List.getLast?_reverse]; exact hc.symm

theorem floor_far {n : Nat} {x y : Int} (h : x + 2 ^ n ≤ y) : x / 2 ^ n ≠ y / 2 ^ n := by
  have hp : (0 : Int) < 2 ^ n := by positivity
  intro hc
  have h1 := Int.ediv_mul_le x hp.ne'
  have h2 := Int.lt_ediv_add_one_mul_self y hp
  rw [← hc, add_mul, one_mul] at h2
  omega

section
variable {e : Int} {inter : Box → List Line → List Line} {clipper : List Line → Box → Option (List PolyNode)} {correct : List Polygon → List Polygon}

/-- an edge that the library leaves is drawn, if it is long enough: the one or the other way round -/
theorem edge_drawn (hl : ClipLib e inter clipper correct) (hp : PolyLib e clipper) (ctx : RenderCtx) (hctx : ctx.clip = clipGeometry inter clipper correct) (q : Tile) (hz : q.z ≤ 20)
    {ps : List Polygon} (hne : ∀ r ∈ ringsOf ps, r ≠ []) {nodes : List PolyNode} (hn : clipper ((ringsOf ps).map List.dropLast) (drawBounds q) = some nodes)
    {Q : List XY × List (List XY)} (hQ : Q ∈ polysOf nodes) {r : Line} (hr : r ∈ Q.1 :: Q.2) {c d : XY} (hcd : Next (close r) c d)
    (hfar : 2 * e + 2 ^ (20 - q.z) ≤ |c.x - d.x| ∨ 2 * e + 2 ^ (20 - q.z) ≤ |c.y - d.y|) (he : 0 ≤ e) :
    ∃ out, drawGeometry ctx (specOf q) (.polygon ps) = .ok (.polygon out) ∧ ∃ l ∈ ringsOf out, l.head? = l.getLast? ∧ 3 ≤ l.length ∧
      (Next l (floorTo q.z c) (floorTo q.z d) ∨ Next l (floorTo q.z d) (floorTo q.z c)) := by
  have hpw : (0 : Int) < 2 ^ (20 - q.z) := by positivity
  have hfl : floorTo q.z c ≠ floorTo q.z d := by
    intro h
    unfold floorTo at h
    injection h with hx hy
    rcases hfar with h | h
    · rcases le_abs.1 h with h | h
      · exact floor_far (by omega) hx.symm
      · exact floor_far (by omega) hx
    · rcases le_abs.1 h with h | h
      · exact floor_far (by omega) hy.symm
      · exact floor_far (by omega) hy
  obtain ⟨halt, _⟩ := hl.tree _ _ _ hn
  rcases C48_solution_copied clipper correct ps (drawBounds q) nodes hne hn halt with ⟨h4, _⟩ | ⟨_, out, h4, h5⟩
  · subst h4; simp [polysOf] at hQ
  have hclosed : ∀ r ∈ ringsOf out, r.head? = r.getLast? := by
    intro r hr
    obtain ⟨P, hP, hr⟩ := List.mem_flatMap.1 hr
    obtain ⟨q, _, rfl⟩ := List.mem_map.1 (h5.mem_iff.1 hP)
    rcases List.mem_cons.1 hr with rfl | hr
    · exact close_closed _
    · obtain ⟨c, _, rfl⟩ := List.mem_map.1 hr
      exact close_closed _
  have hturn := hl.turns out hclosed
  obtain ⟨i, hi, hPi⟩ := List.getElem_of_mem (h5.mem_iff.2 (List.mem_map_of_mem (f := closePoly) hQ))
  obtain ⟨t1, t2⟩ := List.forall₂_iff_get.1 hturn
  obtain ⟨k1, k2⟩ := t2 i hi (by omega)
  simp only [List.get_eq_getElem, hPi] at k1 k2
  have hmemC : (correct out)[i]'(by omega) ∈ correct out := List.getElem_mem _
  generalize hC : (correct out)[i]'(by omega) = C at k1 k2 hmemC
  -- the outer ring has three points
  have houter : ∃ a ∈ Q.1, ∃ b ∈ Q.1, floorTo q.z a ≠ floorTo q.z b := by
    rcases List.mem_cons.1 hr with rfl | hr'
    · exact ⟨c, close_mem (next_mem hcd).1, d, close_mem (next_mem hcd).2, hfl⟩
    · obtain ⟨⟨o1, m1, c1⟩, ⟨o2, m2, c2⟩, ⟨o3, m3, c3⟩, ⟨o4, m4, c4⟩⟩ := hp.holes _ _ _ hn Q hQ r hr' c (close_mem (next_mem hcd).1)
      obtain ⟨⟨p1, n1, d1⟩, ⟨p2, n2, d2⟩, ⟨p3, n3, d3⟩, ⟨p4, n4, d4⟩⟩ := hp.holes _ _ _ hn Q hQ r hr' d (close_mem (next_mem hcd).2)
      have key : ∀ a b : XY, (a.x + 2 ^ (20 - q.z) ≤ b.x ∨ a.y + 2 ^ (20 - q.z) ≤ b.y) → floorTo q.z a ≠ floorTo q.z b := by
        intro a b h hc
        unfold floorTo at hc
        injection hc with hx hy
        rcases h with h | h
        · exact floor_far h hx
        · exact floor_far h hy
      rcases hfar with h | h <;> rcases le_abs.1 h with h | h
      · exact ⟨p1, n1, o2, m2, key _ _ (.inl (by omega))⟩
      · exact ⟨o1, m1, p2, n2, key _ _ (.inl (by omega))⟩
      · exact ⟨p3, n3, o4, m4, key _ _ (.inr (by omega))⟩
      · exact ⟨o3, m3, p4, n4, key _ _ (.inr (by omega))⟩
  have hout3 : 3 ≤ (lineAt q.z C.outer).length := by
    obtain ⟨a, ha, b, hb, hab⟩ := houter
    exact closed_three (sameRing_closed k1 (close_closed _)) (sameRing_mem k1 (mem_close ha)) (sameRing_mem k1 (mem_close hb)) hab
  -- the ring itself
  have hring : ∃ R ∈ C.outer :: C.inners, SameRing (close r) R := by
    rcases List.mem_cons.1 hr with rfl | hr'
    · exact ⟨C.outer, by simp, k1⟩
    · obtain ⟨j, hj, hrj⟩ := List.getElem_of_mem (List.mem_map_of_mem (f := close) hr')
      obtain ⟨u1, u2⟩ := List.forall₂_iff_get.1 k2
      have u1' : (Q.2.map close).length = C.inners.length := u1
      have := u2 j hj (by omega)
      simp only [List.get_eq_getElem] at this
      refine ⟨C.inners[j]'(by omega), by simp, ?_⟩
      rw [← hrj]; exact this
  obtain ⟨R, hR, hsame⟩ := hring
  have hRc := sameRing_closed hsame (close_closed r)
  have hR3 : 3 ≤ (lineAt q.z R).length := closed_three hRc (sameRing_mem hsame (next_mem hcd).1) (sameRing_mem hsame (next_mem hcd).2) hfl
  have hnext : Next (lineAt q.z R) (floorTo q.z c) (floorTo q.z d) ∨ Next (lineAt q.z R) (floorTo q.z d) (floorTo q.z c) := by
    rcases hsame with rfl | rfl
    · exact .inl (next_destutter (next_map _ hcd) hfl)
    · exact .inr (next_destutter (next_map _ (next_reverse' hcd)) (Ne.symm hfl))
  have hkept : (⟨lineAt q.z C.outer, (C.inners.map (lineAt q.z)).filter (fun r => 3 ≤ r.length)⟩ : Polygon) ∈
      ((correct out).map (fun p => (⟨lineAt q.z p.outer, (p.inners.map (lineAt q.z)).filter (fun r => 3 ≤ r.length)⟩ : Polygon))).filter (fun p => 3 ≤ p.outer.length) :=
    List.mem_filter.2 ⟨List.mem_map_of_mem (f := fun p => (⟨lineAt q.z p.outer, (p.inners.map (lineAt q.z)).filter (fun r => 3 ≤ r.length)⟩ : Polygon)) hmemC, by simpa using hout3⟩
  refine ⟨_, ?_, lineAt q.z R, List.mem_flatMap.2 ⟨_, hkept, ?_⟩, C27_rings_stay_closed _ _ hRc, hR3, hnext⟩
  · rw [drawGeometry, hctx]
    show (do let c ← clipPolygon clipper correct ps (drawBounds q); shiftGeometry c q.z) = _
    rw [h4, Res.ok_bind, C26_shift_polygon _ _ hz]
    dsimp only
    rw [if_neg]
    intro hc
    rw [hc] at hkept
    cases hkept
  · rcases List.mem_cons.1 hR with rfl | hR
    · exact .head _
    · exact .tail _ (List.mem_filter.2 ⟨List.mem_map_of_mem hR, by simpa using hR3⟩)

/-- the feature of an area that is drawn is in the tile -/
theorem area_in_tile (ctx : RenderCtx) (q : Tile) (fs : List Feature) (f : Feature) (hf : f ∈ fs)
    (name : Bytes) (hname : ctx.layerNames[f.layer]? = some name)
    (hone : ∀ g ∈ fs, g.layer = f.layer → g.id = f.id → typeOf g.geometry = typeOf f.geometry → g.geometry = f.geometry ∧ g.metas.Perm f.metas)
    (ps : List Polygon) (hg : f.geometry = .polygon ps) {out : List Polygon} (hout : drawGeometry ctx (specOf q) (.polygon ps) = .ok (.polygon out))
    (hagg : ctx.aggPolygons = true → ctx.tiny (.polygon out) = false) {l : Line} (hl : l ∈ ringsOf out) (hcl : l.head? = l.getLast?) (hlen : 3 ≤ l.length) {a b : XY} (hn : Next l a b) {P : XY → XY → Prop} (hP : P (rel (pxBounds q).min a) (rel (pxBounds q).min b)) :
    AreaSeen (tileContent ctx (specOf q) fs) name f.id (tagsOf f.metas) P := by
  obtain ⟨hlay, hname'⟩ := List.getElem?_eq_some_iff.1 hname
  have hf' : f ∈ ofLayer fs f.layer := List.mem_filter.2 ⟨hf, by simp⟩
  obtain ⟨g, h1, h2, h3⟩ := unique_has hf' (by rw [hg]; simp)
  have h4 := List.mem_filter.1 ((C28_unique (ofLayer fs f.layer)).2.2.subset h1)
  obtain ⟨h5, h6⟩ := hone g h4.1 (of_decide_eq_true h4.2) h2 h3
  rw [hg] at h5
  have hdrawn : (drawn ctx (specOf q) g).geometry = .polygon out := by simp only [drawn, h5, hout]
  have hcontent : drawn ctx (specOf q) g ∈ layerContent ctx (specOf q) (ofLayer fs f.layer) := by
    rw [layerContent, List.mem_filter]
    refine ⟨?_, by simp [nonNull, hdrawn]⟩
    simp only [List.mem_append]
    cases ha : ctx.aggPolygons with
    | false =>
      refine .inl (.inl (List.mem_map.2 ⟨g, List.mem_filter.2 ⟨h1, ?_⟩, rfl⟩))
      simp [isLine, h5, typeOf, ha]
    | true =>
      refine .inl (.inr (List.mem_filter.2 ⟨List.mem_map.2 ⟨g, ?_, rfl⟩, ?_⟩))
      · rw [bufferedPolys, if_pos ha]
        exact List.mem_filter.2 ⟨h1, by simp [isPoly, h5, typeOf]⟩
      · simp [dropped, hdrawn, hagg ha]
  refine ⟨⟨2, ctx.layerNames[f.layer]?.getD [], 4096, (layerContent ctx (specOf q) (ofLayer fs f.layer)).map (view (specOf q).px.min)⟩, ?_, ?_,
    view (specOf q).px.min (drawn ctx (specOf q) g), List.mem_map_of_mem hcontent, ?_, ?_, ?_, ?_⟩
  · rw [tileContent, List.mem_filterMap]
    refine ⟨f.layer, List.mem_range.2 hlay, ?_⟩
    dsimp only
    rw [if_neg]
    intro hc
    rw [hc] at hcontent
    cases hcontent
  · simp [hname]
  · show ((drawn ctx (specOf q) g).id : Int) = f.id
    exact congrArg _ h2
  · show typeOf (drawn ctx (specOf q) g).geometry = 3
    rw [hdrawn]; rfl
  · exact tagsOf_perm h6
  · refine ⟨⟨l.dropLast.map (rel (pxBounds q).min), true⟩, ?_, rfl, rel (pxBounds q).min a, rel (pxBounds q).min b, ?_, hP⟩
    · show _ ∈ partsOf (specOf q).px.min (drawn ctx (specOf q) g).geometry
      rw [hdrawn]
      exact List.mem_map.2 ⟨l, hl, rfl⟩
    · show Next (close (l.dropLast.map _)) _ _
      rw [close_map, close_dropLast hcl (by omega)]
      exact next_map _ hn

/-- a client sees each edge of an area feature in a tile where areas are drawn one by one, or where what is drawn of it is not smaller than a pixel -/
theorem area_edges (hl : ClipLib e inter clipper correct) (hp : PolyLib e clipper) (he : 0 ≤ e) (ctx : RenderCtx) (hctx : ctx.clip = clipGeometry inter clipper correct)
    (q : Tile) (hz : q.z ≤ 20) (fs : List Feature) (f : Feature) (hf : f ∈ fs) (name : Bytes) (hname : ctx.layerNames[f.layer]? = some name)
    (hone : ∀ g ∈ fs, g.layer = f.layer → g.id = f.id → typeOf g.geometry = typeOf f.geometry → g.geometry = f.geometry ∧ g.metas.Perm f.metas)
    (ps : List Polygon) (hg : f.geometry = .polygon ps)
    (hagg : ctx.aggPolygons = true → ∀ out, drawGeometry ctx (specOf q) (.polygon ps) = .ok (.polygon out) → ctx.tiny (.polygon out) = false)
    (hc : Clippable (.polygon ps)) (hout : Outlines e 4096 ((ringsOf ps).map List.dropLast))
    (a b : XY) (hab : Edge ((ringsOf ps).map List.dropLast) a b) :
    EdgeSeen e q (tileContent ctx (specOf q) fs) name f.id (tagsOf f.metas) a b := by
  intro s t hs0 hs1 ht0 ht1 hs ht hfar
  have hpp : (0 : ℝ) < 2 ^ (20 - q.z) := by positivity
  obtain ⟨hne, r0, hr0, harea⟩ := hc
  obtain ⟨nodes, hn⟩ := Option.ne_none_iff_exists'.1 (hl.accepts ((ringsOf ps).map List.dropLast) (drawBounds q) ⟨_, List.mem_map_of_mem hr0, harea⟩)
  obtain ⟨Q, hQ, r, hr, c, d, hcd, hcov⟩ := hp.covers 4096 _ _ _ hout hn a b hab ⟨s, hs0, hs1, tile_deep_box hs⟩
  have hspan : 2 * e + 2 ^ (20 - q.z) ≤ |c.x - d.x| ∨ 2 * e + 2 ^ (20 - q.z) ≤ |c.y - d.y| := by
    obtain ⟨v, v0, v1, hv⟩ := hcov s hs0 hs1 (tile_deep_box hs)
    obtain ⟨w, w0, w1, hw⟩ := hcov t ht0 ht1 (tile_deep_box ht)
    by_contra hcon
    simp only [not_or, not_le] at hcon
    have hx : |(c.x : ℝ) - d.x| < 2 * e + 2 ^ (20 - q.z) := by exact_mod_cast hcon.1
    have hy : |(c.y : ℝ) - d.y| < 2 * e + 2 ^ (20 - q.z) := by exact_mod_cast hcon.2
    apply hfar
    have key : ∀ x y : ℝ, |x - y| < 2 * e + 2 ^ (20 - q.z) → |(x + v * (y - x)) - (x + w * (y - x))| < 2 * e + 2 ^ (20 - q.z) := by
      intro x y h
      rw [show (x + v * (y - x)) - (x + w * (y - x)) = (v - w) * (y - x) by ring, abs_mul, abs_sub_comm y x]
      have : |v - w| ≤ 1 := by rw [abs_le]; constructor <;> linarith
      nlinarith [abs_nonneg (x - y), abs_nonneg (v - w)]
    have k1 := key _ _ hx
    have k2 := key _ _ hy
    obtain ⟨a1, a2⟩ := hv
    obtain ⟨b1, b2⟩ := hw
    simp only [onSeg] at a1 a2 b1 b2 ⊢
    rw [abs_le] at a1 a2 b1 b2
    rw [abs_lt] at k1 k2
    rw [abs_lt, abs_lt]
    refine ⟨⟨?_, ?_⟩, ?_, ?_⟩ <;> linarith
  obtain ⟨out, h3, l, h4, h5, h6, h7⟩ := edge_drawn hl hp ctx hctx q hz hne hn hQ hr hcd hspan he
  have hseen : ∀ u : ℝ, 0 ≤ u → u ≤ 1 → TileHas q (onSeg a b u) →
      ∃ v : ℝ, 0 ≤ v ∧ v ≤ 1 ∧ CloseBy (e / 2 ^ (20 - q.z) + 1) (onSeg (rel (pxBounds q).min (floorTo q.z c)) (rel (pxBounds q).min (floorTo q.z d)) v) (tilePos q (onSeg a b u)) := by
    intro u u0 u1 hu
    obtain ⟨v, v0, v1, hv⟩ := hcov u u0 u1 (tile_deep_box hu)
    refine ⟨v, v0, v1, ?_⟩
    have := within_tri (seg_floor q c d v0 v1) (within_scale q hv)
    rwa [add_comm] at this
  rcases h7 with h7 | h7
  · exact area_in_tile ctx q fs f hf name hname hone ps hg h3 (fun h => hagg h _ h3) h4 h5 h6 h7 hseen
  · refine area_in_tile ctx q fs f hf name hname hone ps hg h3 (fun h => hagg h _ h3) h4 h5 h6 h7 fun u u0 u1 hu => ?_
    obtain ⟨v, v0, v1, hv⟩ := hseen u u0 u1 hu
    exact ⟨1 - v, by linarith, by linarith, by rw [onSeg_swap]; simpa using hv⟩

/-- A client sees each edge of an area feature in a tile where areas are drawn one by one: in the layer of the feature, with its id and tags, at its place. -/
theorem C77_area (hl : ClipLib e inter clipper correct) (hp : PolyLib e clipper) (he : 0 ≤ e) (ctx : RenderCtx) (hctx : ctx.clip = clipGeometry inter clipper correct)
    (q : Tile) (hz : q.z ≤ 20) (hagg : ctx.aggPolygons = false) (fs : List Feature) (f : Feature) (hf : f ∈ fs) (name : Bytes) (hname : ctx.layerNames[f.layer]? = some name)
    (hone : ∀ g ∈ fs, g.layer = f.layer → g.id = f.id → typeOf g.geometry = typeOf f.geometry → g.geometry = f.geometry ∧ g.metas.Perm f.metas)
    (ps : List Polygon) (hg : f.geometry = .polygon ps) (hc : Clippable (.polygon ps)) (hout : Outlines e 4096 ((ringsOf ps).map List.dropLast))
    (a b : XY) (hab : Edge ((ringsOf ps).map List.dropLast) a b) :
    EdgeSeen e q (tileContent ctx (specOf q) fs) name f.id (tagsOf f.metas) a b :=
  area_edges hl hp he ctx hctx q hz fs f hf name hname hone ps hg (by simp [hagg]) hc hout a b hab
end

/-! ### after an import -/

theorem area_tags {layers : List ClientLayer} {name : Bytes} {id : Int} {t1 t2 : List (Bytes × Typed)} {P Q : XY → XY → Prop} (hp : t1.Perm t2)
    (hPQ : ∀ a b, P a b → Q a b) (h : AreaSeen layers name id t1 P) : AreaSeen layers name id t2 Q := by
  obtain ⟨L, h1, h2, c, h3, h4, h5, h6, part, h7, h8, a, b, h9, h10⟩ := h
  exact ⟨L, h1, h2, c, h3, h4, h5, h6.trans hp, part, h7, h8, a, b, h9, hPQ a b h10⟩

theorem edge_tags {e : Int} {q : Tile} {layers : List ClientLayer} {name : Bytes} {id : Int} {t1 t2 : List (Bytes × Typed)} {a b : XY} (hp : t1.Perm t2)
    (h : EdgeSeen e q layers name id t1 a b) : EdgeSeen e q layers name id t2 a b :=
  fun s t h1 h2 h3 h4 h5 h6 h7 => area_tags hp (fun _ _ h => h) (h s t h1 h2 h3 h4 h5 h6 h7)

/-- the points of a list lie in the box of some points -/
def Spec.InBoxOf (os : List XY) (p : XY) : Prop := (∃ o ∈ os, o.x ≤ p.x) ∧ (∃ o ∈ os, p.x ≤ o.x) ∧ (∃ o ∈ os, o.y ≤ p.y) ∧ (∃ o ∈ os, p.y ≤ o.y)

/-- if a point of a segment lies in a tile, so does a point of the box of the feature -/
theorem box_meets_segment {f : Feature} (hf : FeatureOk f) {a b : XY} (ha : InBoxOf (envelopePoints f.geometry) a) (hb : InBoxOf (envelopePoints f.geometry) b)
    {q : Tile} {u : ℝ} (h0 : 0 ≤ u) (h1 : u ≤ 1) (h : TileHas q (onSeg a b u)) : boxMeets f q := by
  have hbox := (boundingBox_spec hf.coords hf.points).1
  have hin : ∀ {p}, InBoxOf (envelopePoints f.geometry) p → (boundingBox f.geometry).min.x ≤ p.x ∧ (boundingBox f.geometry).min.y ≤ p.y ∧ p.x ≤ (boundingBox f.geometry).max.x ∧ p.y ≤ (boundingBox f.geometry).max.y := by
    rintro p ⟨⟨o1, m1, c1⟩, ⟨o2, m2, c2⟩, ⟨o3, m3, c3⟩, ⟨o4, m4, c4⟩⟩
    exact ⟨le_trans (hbox _ m1).1 c1, le_trans (hbox _ m3).2.1 c3, le_trans c2 (hbox _ m2).2.2.1, le_trans c4 (hbox _ m4).2.2.2⟩
  obtain ⟨a1, a2, a3, a4⟩ := hin ha
  obtain ⟨b1, b2, b3, b4⟩ := hin hb
  obtain ⟨t1, t2, t3, t4⟩ := h
  have hmix : ∀ {m x y : Int}, m ≤ x → m ≤ y → (m : ℝ) ≤ x + u * (y - x) := by
    intro m x y h1' h2'
    have e1 : (m : ℝ) ≤ x := by exact_mod_cast h1'
    have e2 : (m : ℝ) ≤ y := by exact_mod_cast h2'
    nlinarith
  have hmix' : ∀ {m x y : Int}, x ≤ m → y ≤ m → (x : ℝ) + u * (y - x) ≤ m := by
    intro m x y h1' h2'
    have e1 : (x : ℝ) ≤ m := by exact_mod_cast h1'
    have e2 : (y : ℝ) ≤ m := by exact_mod_cast h2'
    nlinarith
  simp only [onSeg] at t1 t2 t3 t4
  have key : ∀ (v : ℝ) (k : Nat) (lo hi : Int), (k : ℝ) * side q.z ≤ v → v < (k + 1 : ℝ) * side q.z → (lo : ℝ) ≤ v → v ≤ hi →
      ∃ n : Nat, lo ≤ n ∧ (n : Int) ≤ hi ∧ k * side q.z ≤ n ∧ n < (k + 1) * side q.z := by
    intro v k lo hi k1 k2 k3 k4
    have hv : 0 ≤ v := le_trans (by positivity) k1
    refine ⟨⌊v⌋₊, ?_, ?_, ?_, ?_⟩
    · rw [show ((⌊v⌋₊ : Nat) : Int) = ⌊v⌋ from Int.natCast_floor_eq_floor hv]
      exact Int.le_floor.2 k3
    · have := Nat.floor_le hv
      have : ((⌊v⌋₊ : Nat) : ℝ) ≤ hi := le_trans this k4
      exact_mod_cast this
    · refine Nat.le_floor ?_
      push_cast; exact k1
    · rw [Nat.floor_lt hv]
      push_cast; exact k2
  obtain ⟨px, x1, x2, x3, x4⟩ := key _ q.x (boundingBox f.geometry).min.x (boundingBox f.geometry).max.x t1 t2 (hmix a1 b1) (hmix' a3 b3)
  obtain ⟨py, y1, y2, y3, y4⟩ := key _ q.y (boundingBox f.geometry).min.y (boundingBox f.geometry).max.y t3 t4 (hmix a2 b2) (hmix' a4 b4)
  exact ⟨px, py, ⟨x1, x2, y1, y2⟩, x3, x4, y3, y4⟩

/-- the edges of an imported area are seen in a tile that is drawn from these features -/
theorem stored_edges {e : Int} {inter : Box → List Line → List Line} {clipper : List Line → Box → Option (List PolyNode)} {correct : List Polygon → List Polygon}
    (hl : ClipLib e inter clipper correct) (hp : PolyLib e clipper) (he : 0 ≤ e) (ctx : RenderCtx) (hctx : ctx.clip = clipGeometry inter clipper correct) (q : Tile) (hz : q.z ≤ 20)
    {simp : Line → List Bool} {xs : List Inserted} {leafs : List Tile} {gs : List Feature}
    (hfrom : ∀ g ∈ gs, ∃ x ∈ xs, StoredAs simp x.feature g)
    (hall : ∀ x ∈ xs, x.feature.zmin ≤ q.z → q.z ≤ x.feature.zmax → boxMeets x.feature q → x.Reaches q → withoutSmallRings (simplified simp x.feature.geometry) ≠ .null →
      ∃ g ∈ gs, StoredAs simp x.feature g)
    {f : Feature} (hf : whole f ∈ xs) (hok : FeatureOk f) (hdraw : Drawable simp f) (hz1 : f.zmin ≤ q.z) (hz2 : q.z ≤ f.zmax) (name : Bytes) (hname : ctx.layerNames[f.layer]? = some name)
    (hlayer : f.layer ≠ 0)
    (hone : ∀ x ∈ xs, x.feature.layer = f.layer → x.feature.id = f.id → typeOf x.feature.geometry = 3 → x.feature = f)
    (ps qs : List Polygon) (hg : f.geometry = .polygon ps) (hq : withoutSmallRings (simplified simp (.polygon ps)) = .polygon qs)
    (hagg : ctx.aggPolygons = true → ∀ out, drawGeometry ctx (specOf q) (.polygon qs) = .ok (.polygon out) → ctx.tiny (.polygon out) = false)
    (hout : Outlines e 4096 ((ringsOf qs).map List.dropLast)) (a b : XY) (hab : Edge ((ringsOf qs).map List.dropLast) a b)
    (ha : InBoxOf (envelopePoints f.geometry) a) (hb : InBoxOf (envelopePoints f.geometry) b) :
    EdgeSeen e q (tileContent ctx (specOf q) (leafs.map seaSquare ++ gs)) name f.id (tagsOf f.metas) a b := by
  have main : boxMeets f q → EdgeSeen e q (tileContent ctx (specOf q) (leafs.map seaSquare ++ gs)) name f.id (tagsOf f.metas) a b := by
    intro hbox
    obtain ⟨g, hgm, hst⟩ := hall (whole f) hf hz1 hz2 hbox (whole_reaches _ _) (by show withoutSmallRings (simplified _ f.geometry) ≠ _; rw [hg, hq]; simp)
    have hren := stored_renderable hok hdraw hst
    obtain ⟨ms, hms, rfl⟩ := hst
    have hgeo : withoutSmallRings (simplified simp (whole f).feature.geometry) = .polygon qs := by show withoutSmallRings (simplified simp f.geometry) = _; rw [hg, hq]
    have hclip := hren.polygon
    dsimp only at hclip
    rw [hgeo] at hclip
    refine edge_tags (tagsOf_perm hms) ?_
    refine area_edges hl hp he ctx hctx q hz _ _ (List.mem_append_right _ hgm) name hname (fun g' hg' n1 n2 n3 => ?_) qs hgeo hagg hclip hout a b hab
    have hty : typeOf g'.geometry = 3 := by rw [n3]; show typeOf (withoutSmallRings _) = 3; rw [hgeo]; rfl
    rcases List.mem_append.1 hg' with hg' | hg'
    · obtain ⟨t, _, rfl⟩ := List.mem_map.1 hg'
      exact absurd n1.symm hlayer
    · obtain ⟨⟨f', tl⟩, o1, ms', o2, rfl⟩ := hfrom g' hg'
      dsimp only [whole] at n1 n2 n3 hty o2 ⊢
      have ht' : typeOf f'.geometry = 3 := by
        cases hg2 : f'.geometry with
        | polygon ps' => rfl
        | null => rw [hg2] at hty; cases hty
        | point ps' => rw [hg2] at hty; cases hty
        | polyline ps' => rw [hg2] at hty; cases hty
      have := hone _ o1 n1 n2 ht'
      dsimp only at this
      subst this
      exact ⟨rfl, o2.trans hms.symm⟩
  intro s t h1 h2 h3 h4 h5 h6 h7
  exact main (box_meets_segment hok ha hb h1 h2 h5) s t h1 h2 h3 h4 h5 h6 h7

/-- After a complete import (as in C54 and C62) the server answers every tile above the prepared levels, and a client sees there, of every imported area (not of
the coastline layer) that is visible at the zoom level and whose outlines are proper after simplification, every edge of the outlines, as far as it lies in the tile: in the
layer of the area, with its id and tags (unless another area of the layer has the same id). -/
theorem C77_served {ι : Type} (env : ImportEnv ι) (coast osm : Bool) (hsrt : SortsByKey env.srt)
    (hm : ∀ l z, (env.rd (env.mkMask l) z).length = l.length) (hw : 0 < env.workers)
    (hin : ∀ fs i, env.loads coast osm fs i → (env.decOf i).length ≤ 2 ^ 64 ∧ (∀ x ∈ fs.flatten, Importable env.mkMask (env.decOf i) plainOf x) ∧ fs.flatten.length < 2 ^ 32)
    (runs : List (List String)) (hacts : changes runs = [.load coast osm, .pack, .tiles]) (a b : TileDb ι) (hr : Imports (importParts env) runs a b)
    (hsmall : SmallPacks b.features) (hsize : b.pf.reopen.size < 2 ^ 64) (features : List (UInt64 × Bytes)) (hdb : EntriesOf b.features features)
    (ctx : GetCtx) (hctx : ∃ m, env.ctxOf b.info = { ctx with maxPrepared := m }) (hrd : ctx.rd = env.rd) (hdec : ctx.dec = env.decOf b.info) (hc : Serving ctx 10)
    (hareas : ctx.aggPolygons = false)
    -- the libraries
    (e : Int) (he : 0 ≤ e) (he' : e ≤ 2 ^ 20) (inter : Box → List Line → List Line) (clipper : List Line → Box → Option (List PolyNode))
    (correct : List Polygon → List Polygon) (hl : ClipLib e inter clipper correct) (hpl : PolyLib e clipper) (hclip : ctx.clip = clipGeometry inter clipper correct)
    (simplify : Nat → Line → Line) (hagg : ∀ z fs out, aggregateLineFeatures simplify z fs = .ok out → ctx.aggregate z fs = out) :
    ∃ fs, env.loads coast osm fs b.info ∧
      ((∀ x ∈ fs.flatten, x.feature.layer < ctx.layerNames.length) → 0 < ctx.layerNames.length → ∀ sea, SeaTree sea ctx.seaside →
        ∀ q : Tile, q.Valid → 10 < q.z → q.z ≤ 20 →
        (∀ x ∈ fs.flatten, Drawable (fun l => env.rd (env.mkMask l) q.z) x.feature) →
        (∀ gs i, (∀ g ∈ gs, (∃ t, g = seaSquare t) ∨ ∃ x ∈ fs.flatten, StoredAs (fun l => env.rd (env.mkMask l) q.z) x.feature g) →
          ∀ f ∈ candidates (drawing ctx 10 q).toRenderCtx (specOf q) (ofLayer gs i), NoLongLine (drawing ctx 10 q).toRenderCtx q f) →
        ∃ bytes layers, getTile b.tiles features b.pf.reopen ctx q = .ok (if bytes = [] then none else some (ctx.encode bytes)) ∧
          (bytes.length < 2 ^ 32 → clientTile bytes = some layers ∧ (bytes = [] ↔ layers = [])) ∧
          ∀ f, whole f ∈ fs.flatten → f.zmin ≤ q.z → q.z ≤ f.zmax → f.layer ≠ 0 →
            (∀ x ∈ fs.flatten, x.feature.layer = f.layer → x.feature.id = f.id → typeOf x.feature.geometry = 3 → x.feature = f) →
            ∃ name, ctx.layerNames[f.layer]? = some name ∧ ∀ ps qs, f.geometry = .polygon ps →
              withoutSmallRings (simplified (fun l => env.rd (env.mkMask l) q.z) (.polygon ps)) = .polygon qs → Outlines e 4096 ((ringsOf qs).map List.dropLast) →
              ∀ a b, Edge ((ringsOf qs).map List.dropLast) a b → InBoxOf (envelopePoints f.geometry) a → InBoxOf (envelopePoints f.geometry) b →
              EdgeSeen e q layers name f.id (tagsOf f.metas) a b) := by
  obtain ⟨fs, h1, h2⟩ := served_drawn env coast osm hsrt hm hw hin runs hacts a b hr hsmall hsize features hdb ctx hctx hrd hdec hc e he he' inter clipper correct hl hclip simplify hagg
  obtain ⟨_, himp, _⟩ := hin _ _ h1
  refine ⟨fs, h1, fun hlay hpos sea hsea q hv hz10 hz hdraw hshort => ?_⟩
  obtain ⟨leafs, gs, bytes, layers, _, h4, h5, h6, h7, h8, _⟩ := h2 hlay hpos sea hsea q hv hz (.inl hz10) hdraw hshort
  refine ⟨bytes, layers, h7, h8, fun f hf hz1 hz2 hl0 hone => ?_⟩
  have hnm := List.getElem?_eq_getElem (hlay (whole f) hf)
  refine ⟨_, hnm, fun ps qs hg hq hout a b hab ha hb => ?_⟩
  rw [h6, drawing, if_neg (by omega)]
  exact stored_edges hl hpl he ctx.toRenderCtx hclip q hz (fun g hg => by obtain ⟨x, k1, _, _, k2⟩ := h4 g hg; exact ⟨x, k1, k2⟩) h5 hf
    (himp _ hf).toPackable.toFeatureOk (hdraw _ hf) hz1 hz2 _ hnm hl0 hone ps qs hg hq (by simp [hareas]) hout a b hab ha hb

/-! ### from OSM data -/

theorem ringsOf_append (a b : List Polygon) : ringsOf (a ++ b) = ringsOf a ++ ringsOf b := by simp [ringsOf]

/-- the rings of an area are those of its items, in their order -/
theorem area_exact {L : Type} (conv : L → XY) : ∀ (items : List (AreaItem L)) (ps : List Polygon),
    (∀ nodes ∈ ringNodes items, 3 ≤ (closeRing (nodesToFixed conv nodes)).length) → readAreaLoop conv ps items ≠ .throw_ →
    ∃ out, readAreaLoop conv ps items = .ok (some out) ∧ ringsOf out = ringsOf ps ++ (ringNodes items).map (fun nodes => closeRing (nodesToFixed conv nodes)) ∧
      (∀ r ∈ ps.map (·.outer), r ∈ out.map (·.outer)) ∧ ∀ nodes, AreaItem.outer nodes ∈ items → closeRing (nodesToFixed conv nodes) ∈ out.map (·.outer)
  | [], ps, _, _ => ⟨ps, by rw [readAreaLoop], by simp [ringNodes], fun r h => h, by simp⟩
  | .outer nodes :: items, ps, hlen, hthrow => by
    have h3 := hlen nodes (by simp [ringNodes])
    rw [readAreaLoop, if_neg (by omega)] at hthrow ⊢
    obtain ⟨out, h1, h2, h4, h5⟩ := area_exact conv items _ (fun n hn => hlen n (by simp only [ringNodes, List.filterMap_cons]; exact .tail _ hn)) hthrow
    refine ⟨out, h1, ?_, fun r hr => h4 r (by rw [List.map_append]; exact List.mem_append_left _ hr), fun n hn => ?_⟩
    · rw [h2, ringsOf_append]
      simp [ringsOf, ringNodes]
    · rcases List.mem_cons.1 hn with hn | hn
      · injection hn with hn; subst hn
        exact h4 _ (by simp)
      · exact h5 n hn
  | .inner nodes :: items, ps, hlen, hthrow => by
    have h3 := hlen nodes (by simp [ringNodes])
    rw [readAreaLoop] at hthrow ⊢
    cases hp : ps.getLast? with
    | none => rw [hp] at hthrow; exact absurd rfl hthrow
    | some p =>
      rw [hp] at hthrow
      dsimp only at hthrow ⊢
      have hin : readInner conv nodes = .ok (closeRing (nodesToFixed conv nodes)) := by rw [readInner, if_neg (by omega)]
      rw [hin, Res.ok_bind] at hthrow ⊢
      obtain ⟨out, h1, h2, h4, h5⟩ := area_exact conv items _ (fun n hn => hlen n (by simp only [ringNodes, List.filterMap_cons]; exact .tail _ hn)) hthrow
      have hps := List.dropLast_append_getLast? p hp
      refine ⟨out, h1, ?_, fun r hr => h4 r ?_, fun n hn => ?_⟩
      · rw [h2]
        conv_rhs => rw [← hps]
        simp [ringsOf, ringNodes]
      · rw [← hps] at hr
        simpa using hr
      · rcases List.mem_cons.1 hn with hn | hn
        · cases hn
        · exact h5 n hn
  | .other :: items, ps, hlen, hthrow => by
    rw [readAreaLoop] at hthrow ⊢
    obtain ⟨out, h1, h2, h4, h5⟩ := area_exact conv items ps (fun n hn => hlen n (by simp only [ringNodes, List.filterMap_cons]; exact hn)) hthrow
    refine ⟨out, h1, ?_, h4, fun n hn => ?_⟩
    · rw [h2]; simp [ringNodes]
    · rcases List.mem_cons.1 hn with hn | hn
      · cases hn
      · exact h5 n hn

/-- rings that stay large are all stored -/
theorem small_none {simp : Line → List Bool} {ps : List Polygon} (hne : ps ≠ []) (h : ∀ r ∈ ringsOf ps, 4 ≤ (keep (simp r) r).length) :
    ∃ qs, withoutSmallRings (simplified simp (.polygon ps)) = .polygon qs ∧ ringsOf qs = (ringsOf ps).map (fun r => keep (simp r) r) := by
  have h1 : ∀ p ∈ ps, 4 ≤ (keep (simp p.outer) p.outer).length := fun p hp => h _ (List.mem_flatMap.2 ⟨p, hp, by simp⟩)
  have h2 : ∀ p ∈ ps, ∀ r ∈ p.inners, 4 ≤ (keep (simp r) r).length := fun p hp r hr => h _ (List.mem_flatMap.2 ⟨p, hp, by simp [hr]⟩)
  have hall : ((ps.map (fun q => (⟨keep (simp q.outer) q.outer, q.inners.map (fun l => keep (simp l) l)⟩ : Polygon))).filter (fun p => 4 ≤ p.outer.length)).map
      (fun p => (⟨p.outer, p.inners.filter (fun i => 4 ≤ i.length)⟩ : Polygon)) = ps.map (fun q => (⟨keep (simp q.outer) q.outer, q.inners.map (fun l => keep (simp l) l)⟩ : Polygon)) := by
    rw [List.filter_eq_self.2 (by
      intro p hp
      obtain ⟨p', hp', rfl⟩ := List.mem_map.1 hp
      simpa using h1 p' hp'), List.map_map]
    refine List.map_congr_left fun p hp => ?_
    simp only [Function.comp_apply]
    rw [List.filter_eq_self.2]
    intro r hr
    obtain ⟨r', hr', rfl⟩ := List.mem_map.1 hr
    simpa using h2 p hp r' hr'
  refine ⟨ps.map (fun q => (⟨keep (simp q.outer) q.outer, q.inners.map (fun l => keep (simp l) l)⟩ : Polygon)), ?_, ?_⟩
  · simp only [simplified, withoutSmallRings]
    rw [hall]
    cases ps with
    | nil => exact absurd rfl hne
    | cons p ps => rfl
  · simp [ringsOf, List.map_flatMap, List.flatMap_map]

theorem kept_outline {L : Type} (conv : L → XY) (bits : Line → List Bool) (nodes : List (Option L)) :
    (keep (bits (closeRing (nodesToFixed conv nodes))) (closeRing (nodesToFixed conv nodes))).dropLast = keptOutline conv bits nodes := by
  have h4 := keep_places conv (bits ((ringPlaces conv nodes).map conv)) ((ringPlaces conv nodes).map some)
  rw [show ((ringPlaces conv nodes).map some).filterMap id = ringPlaces conv nodes by rw [List.filterMap_map]; exact List.filterMap_some] at h4
  rw [ring_places, h4]
  rfl

theorem mem_ringNodes {L : Type} {items : List (AreaItem L)} {nodes : List (Option L)} (h : nodes ∈ ringNodes items) : AreaItem.outer nodes ∈ items ∨ AreaItem.inner nodes ∈ items := by
  obtain ⟨i, hi, h⟩ := List.mem_filterMap.1 h
  cases i with
  | outer n => injection h with h; subst h; exact .inl hi
  | inner n => injection h with h; subst h; exact .inr hi
  | other => cases h

theorem ringNodes_mem {L : Type} {items : List (AreaItem L)} {nodes : List (Option L)} (h : AreaItem.outer nodes ∈ items ∨ AreaItem.inner nodes ∈ items) : nodes ∈ ringNodes items := by
  rcases h with h | h <;> exact List.mem_filterMap.2 ⟨_, h, rfl⟩

section
variable {S : OsmSetting} {t : Tables} {e : Int} {g : ℝ} {data : List Datum}

/-- every proper area is seen as far as its outlines lie in the tile (for the text see `C77_areas`) -/
def Spec.AreasSeen (S : OsmSetting) (t : Tables) (e : Int) (g : ℝ) (data : List Datum) (q : Tile) (layers : List ClientLayer) : Prop :=
      ∀ d ∈ data, ∀ items, d.shape = .area items → ∀ r, d.rule t = some r →
        ∀ z, levelFor (areaOf S.prof (d.obj S.profile S.numeral)) r.zoom = some z → z ≤ q.z →
        ProperArea e S.prof.conv (fun l => S.rd (S.mkMask l) q.z) items →
        (∀ d' ∈ data, d'.id % 2 ^ 64 = d.id % 2 ^ 64 → d'.type = 3 → d' = d) →
        ∀ A B, Piece S.prof.conv (fun l => S.rd (S.mkMask l) q.z) d.shape A B →
          ∀ s s' : ℝ, 0 ≤ s → s ≤ 1 → 0 ≤ s' → s' ≤ 1 → Deep g q (between A B s) → Deep g q (between A B s') →
            ¬ (|(inTile q (between A B s)).1 - (inTile q (between A B s')).1| < (4 * e + 2 * g) / 2 ^ (20 - q.z) + 1 ∧
               |(inTile q (between A B s)).2 - (inTile q (between A B s')).2| < (4 * e + 2 * g) / 2 ^ (20 - q.z) + 1) →
            AreaSeen layers r.layer (d.id % 2 ^ 64) (r.shown S.numeral S.prof.toDouble (tagValue d.tags)) (fun p p' =>
              ∀ u : ℝ, 0 ≤ u → u ≤ 1 → Deep g q (between A B u) → ∃ v : ℝ, 0 ≤ v ∧ v ≤ 1 ∧ CloseBy ((e + g) / 2 ^ (20 - q.z) + 1) (onSeg p p' v) (inTile q (between A B u)))

/-- the same for the areas whose polygons, as they are stored for the level, have a property -/
def Spec.AreasSeenIf (Big : List Polygon → Prop) (S : OsmSetting) (t : Tables) (e : Int) (g : ℝ) (data : List Datum) (q : Tile) (layers : List ClientLayer) : Prop :=
      ∀ d ∈ data, ∀ items, d.shape = .area items → ∀ r, d.rule t = some r →
        ∀ z, levelFor (areaOf S.prof (d.obj S.profile S.numeral)) r.zoom = some z → z ≤ q.z →
        ProperArea e S.prof.conv (fun l => S.rd (S.mkMask l) q.z) items →
        (∀ ps qs, readOsm S.prof.conv d.shape = .ok (.polygon ps) → withoutSmallRings (simplified (fun l => S.rd (S.mkMask l) q.z) (.polygon ps)) = .polygon qs → Big qs) →
        (∀ d' ∈ data, d'.id % 2 ^ 64 = d.id % 2 ^ 64 → d'.type = 3 → d' = d) →
        ∀ A B, Piece S.prof.conv (fun l => S.rd (S.mkMask l) q.z) d.shape A B →
          ∀ s s' : ℝ, 0 ≤ s → s ≤ 1 → 0 ≤ s' → s' ≤ 1 → Deep g q (between A B s) → Deep g q (between A B s') →
            ¬ (|(inTile q (between A B s)).1 - (inTile q (between A B s')).1| < (4 * e + 2 * g) / 2 ^ (20 - q.z) + 1 ∧
               |(inTile q (between A B s)).2 - (inTile q (between A B s')).2| < (4 * e + 2 * g) / 2 ^ (20 - q.z) + 1) →
            AreaSeen layers r.layer (d.id % 2 ^ 64) (r.shown S.numeral S.prof.toDouble (tagValue d.tags)) (fun p p' =>
              ∀ u : ℝ, 0 ≤ u → u ≤ 1 → Deep g q (between A B u) → ∃ v : ℝ, 0 ≤ v ∧ v ≤ 1 ∧ CloseBy ((e + g) / 2 ^ (20 - q.z) + 1) (onSeg p p' v) (inTile q (between A B u)))

/-- what is seen of the features that were made of the data is seen of the data -/
theorem areas_seen_if {Big : List Polygon → Prop} (hS : S.Ok t e g) (hD : S.Fits data) (hends : ∀ z, ∀ l : Line, l.head? = l.getLast? → (keep (S.rd (S.mkMask l) z) l).head? = (keep (S.rd (S.mkMask l) z) l).getLast?)
    {fs : List (List Feature)} {m : MetaTable} {names : List Bytes} {tbl : List Meta}
    (hl : OsmLoaded S.prof S.profile t S.numeral data fs m names tbl) (q : Tile) (hz : q.z ≤ 20) (layers : List ClientLayer)
    (m3 : ∀ f ∈ fs.flatten, f.zmin ≤ q.z → q.z ≤ f.zmax → f.layer ≠ 0 → (∀ f' ∈ fs.flatten, f'.layer = f.layer → f'.id = f.id → typeOf f'.geometry = 3 → f' = f) →
      ∃ name, names[f.layer]? = some name ∧ ∀ ps qs, f.geometry = .polygon ps →
        withoutSmallRings (simplified (fun l => S.rd (S.mkMask l) q.z) (.polygon ps)) = .polygon qs → Big qs → Outlines e 4096 ((ringsOf qs).map List.dropLast) →
        ∀ a b, Edge ((ringsOf qs).map List.dropLast) a b → InBoxOf (envelopePoints f.geometry) a → InBoxOf (envelopePoints f.geometry) b →
        EdgeSeen e q layers name f.id (tagsOf f.metas) a b) : AreasSeenIf Big S t e g data q layers := by
  obtain ⟨px, hgeo, hconv⟩ := hS.places
  obtain ⟨g1, g2, g3⟩ := hS.error
  intro d hd items hsh r hrule z hzl hzq hproper hbig hone A B hAB
  obtain ⟨hnA, hnB⟩ := piece_nodes hAB
  rw [hsh] at hAB
  obtain ⟨nodes, hnodes, hAB⟩ := hAB
  -- the geometry
  have hkept : ∀ n ∈ ringNodes items, 4 ≤ (keep (S.rd (S.mkMask (closeRing (nodesToFixed S.prof.conv n))) q.z) (closeRing (nodesToFixed S.prof.conv n))).length := by
    intro n hn
    have := hproper.outlines.corners _ (List.mem_map_of_mem hn)
    rw [← kept_outline, List.length_dropLast] at this
    omega
  have hlong : ∀ n ∈ ringNodes items, 3 ≤ (closeRing (nodesToFixed S.prof.conv n)).length := fun n hn => by
    have := keep_length_le (S.rd (S.mkMask (closeRing (nodesToFixed S.prof.conv n))) q.z) (closeRing (nodesToFixed S.prof.conv n))
    have := hkept n hn
    omega
  have hnot : readAreaLoop S.prof.conv [] items ≠ .throw_ := by
    intro hc
    apply hD.readable d hd
    rw [hsh]
    show readOsmArea S.prof.conv items = _
    rw [readOsmArea, hc]; rfl
  obtain ⟨ps, hps, hrings, _, houters⟩ := area_exact S.prof.conv items [] hlong hnot
  rw [show ringsOf [] = [] from rfl, List.nil_append] at hrings
  have hpsne : ps ≠ [] := by
    rintro rfl
    have := ringNodes_mem hnodes
    rw [show ringsOf [] = [] from rfl] at hrings
    have h0 := List.map_eq_nil_iff.1 hrings.symm
    rw [h0] at this
    cases this
  have hread : readOsm S.prof.conv d.shape = .ok (.polygon ps) := by
    rw [hsh]
    show readOsmArea S.prof.conv items = _
    rw [readOsmArea, hps, Res.ok_bind]
    cases ps with
    | nil => exact absurd rfl hpsne
    | cons p ps => rfl
  obtain ⟨f, hf, hst, hde⟩ := hl.all_data d hd r _ hrule hread (by simp)
  have hgf : f.geometry = .polygon ps := by
    have := hst.geometry
    rw [show (d.obj S.profile S.numeral).shape = d.shape from rfl, hread] at this
    injection this with this
    exact this.symm
  have hz1 : f.zmin = z := by
    have := hst.first
    rw [hzl] at this
    injection this with this
    exact this.symm
  have htype : ∀ f ∈ fs.flatten, ∀ d : Datum, readOsm S.prof.conv d.shape = .ok f.geometry → f.geometry ≠ .null → typeOf f.geometry = d.type := by
    intro f _ d hread hne
    rcases (readOsm_from S.prof.conv hread).2.2 with h | h
    · exact absurd h hne
    · cases hsh : d.shape with
      | node _ => rw [hsh] at h; obtain ⟨x, h⟩ := h; simp [h, Datum.type, hsh, typeOf]
      | way _ => rw [hsh] at h; obtain ⟨x, _, h⟩ := h; simp [h, Datum.type, hsh, typeOf]
      | area _ => rw [hsh] at h; obtain ⟨x, y, h⟩ := h; simp [h, Datum.type, hsh, typeOf]
  have huniq : ∀ f' ∈ fs.flatten, f'.layer = f.layer → f'.id = f.id → typeOf f'.geometry = 3 → f' = f := by
    intro f' hf' _ hid hty
    obtain ⟨d', hd', r', hr', hst', hne', hde'⟩ := hl.from_data f' hf'
    have e1 : d'.type = 3 := by rw [← htype f' hf' d' hst'.geometry hne', hty]
    have e2 : d'.id % 2 ^ 64 = d.id % 2 ^ 64 := by
      have a1 : (f'.id : Int) = d'.id % 2 ^ 64 := hst'.id
      have a2 : (f.id : Int) = d.id % 2 ^ 64 := hst.id
      rw [← a1, ← a2, hid]
    rw [hone d' hd' e2 e1] at hde'
    exact describes_unique hl.nodup hde' hde
  have hlayer0 : f.layer ≠ 0 := by
    intro h0
    have h1 := hst.layer
    rw [h0, hl.coast] at h1
    injection h1 with h1
    have h2 := rules_fine hS.shipped r (decideBy_rules (shape := d.shape) hrule)
    unfold ruleFine at h2
    simp only [Bool.and_eq_true, decide_eq_true_eq] at h2
    have h3 := h2.1.1.2
    rw [← h1] at h3
    revert h3
    decide
  obtain ⟨name, n1, n2⟩ := m3 f hf (by omega) (by rw [hst.last]; omega) hlayer0 huniq
  have hname : name = r.layer := by
    have := hst.layer
    rw [n1] at this
    injection this
  obtain ⟨qs, hqs, hringsq⟩ := small_none (simp := fun l => S.rd (S.mkMask l) q.z) hpsne (by
    intro r hr
    rw [hrings] at hr
    obtain ⟨n, hn, rfl⟩ := List.mem_map.1 hr
    exact hkept n hn)
  have hpaths : (ringsOf qs).map List.dropLast = (ringNodes items).map (keptOutline S.prof.conv (fun l => S.rd (S.mkMask l) q.z)) := by
    rw [hringsq, hrings, List.map_map, List.map_map]
    refine List.map_congr_left fun n _ => ?_
    exact kept_outline S.prof.conv (fun l => S.rd (S.mkMask l) q.z) n
  -- the edge
  have hclose : close (keptOutline S.prof.conv (fun l => S.rd (S.mkMask l) q.z) nodes) =
      (keptPlaces (S.rd (S.mkMask ((ringPlaces S.prof.conv nodes).map S.prof.conv)) q.z) ((ringPlaces S.prof.conv nodes).map some)).map S.prof.conv := by
    have h4 := keep_places S.prof.conv (S.rd (S.mkMask ((ringPlaces S.prof.conv nodes).map S.prof.conv)) q.z) ((ringPlaces S.prof.conv nodes).map some)
    rw [show ((ringPlaces S.prof.conv nodes).map some).filterMap id = ringPlaces S.prof.conv nodes by rw [List.filterMap_map]; exact List.filterMap_some] at h4
    rw [← kept_outline, close_dropLast (hends _ _ (closeRing_closed _)) (by have := hkept nodes (ringNodes_mem hnodes); omega), ring_places, h4]
  have hnext : Next (close (keptOutline S.prof.conv (fun l => S.rd (S.mkMask l) q.z) nodes)) (S.prof.conv A) (S.prof.conv B) := by
    rw [hclose]
    have := List.IsInfix.map S.prof.conv hAB
    rw [List.map_cons, List.map_cons, List.map_nil] at this
    exact this
  have hedge : Edge ((ringsOf qs).map List.dropLast) (S.prof.conv A) (S.prof.conv B) := by
    rw [hpaths]
    exact ⟨_, List.mem_map_of_mem (ringNodes_mem hnodes), hnext⟩
  have hpoint : ∀ os, AreaItem.outer os ∈ items → ∀ o ∈ keptOutline S.prof.conv (fun l => S.rd (S.mkMask l) q.z) os, o ∈ envelopePoints f.geometry := by
    intro os hos o ho
    rw [← kept_outline] at ho
    have ho' := keep_subset (List.dropLast_subset _ ho)
    obtain ⟨P, hP, hPo⟩ := List.mem_map.1 (houters os hos)
    rw [hgf]
    refine List.mem_flatMap.2 ⟨P, hP, ?_⟩
    rw [hPo, if_neg]
    · exact ho'
    · intro hc
      rw [List.isEmpty_iff] at hc
      rw [hc] at ho'
      cases ho'
  have hbox : ∀ p ∈ keptOutline S.prof.conv (fun l => S.rd (S.mkMask l) q.z) nodes, InBoxOf (envelopePoints f.geometry) p := by
    intro p hp
    rcases hnodes with ho | hi
    · have := hpoint nodes ho p hp
      exact ⟨⟨p, this, le_rfl⟩, ⟨p, this, le_rfl⟩, ⟨p, this, le_rfl⟩, ⟨p, this, le_rfl⟩⟩
    · obtain ⟨⟨o1, m1, p1, q1, c1⟩, ⟨o2, m2, p2, q2, c2⟩, ⟨o3, m3, p3, q3, c3⟩, ⟨o4, m4, p4, q4, c4⟩⟩ := hproper.inside nodes hi p hp
      exact ⟨⟨p1, hpoint _ m1 _ q1, c1⟩, ⟨p2, hpoint _ m2 _ q2, c2⟩, ⟨p3, hpoint _ m3 _ q3, c3⟩, ⟨p4, hpoint _ m4 _ q4, c4⟩⟩
  have hseen := n2 ps qs hgf hqs (hbig ps qs hread hqs) (by rw [hpaths]; exact hproper.outlines) _ _ hedge (hbox _ (close_mem (next_mem hnext).1)) (hbox _ (close_mem (next_mem hnext).2))
  have htags := (tags_perm hS.shipped hS.numerals hS.doubles (hD.texts d hd) hrule hst).1
  have hseen : EdgeSeen e q layers r.layer (d.id % 2 ^ 64) (r.shown S.numeral S.prof.toDouble (tagValue d.tags)) (S.prof.conv A) (S.prof.conv B) := by
    have := edge_tags htags hseen
    rw [hname, show (f.id : Int) = d.id % 2 ^ 64 from hst.id] at this
    exact this
  -- the places
  have hnear : ∀ l, some l ∈ shapeNodes d.shape → |((S.prof.conv l).x : ℝ) - mapX l * 2 ^ 32| ≤ g ∧ |((S.prof.conv l).y : ℝ) - mapY l * 2 ^ 32| ≤ g := by
    intro l hl'
    obtain ⟨x, y, k1, _, _, k2, k3⟩ := C64_near g3 hgeo l (hD.places d hd l hl')
    rw [hconv, k1]
    exact ⟨by simpa using k2, by simpa using k3⟩
  obtain ⟨A1, A2⟩ := hnear A hnA
  obtain ⟨B1, B2⟩ := hnear B hnB
  have hp : (0 : ℝ) < 2 ^ (20 - q.z) := by positivity
  have hmid : ∀ u : ℝ, 0 ≤ u → u ≤ 1 → CloseBy g (onSeg (S.prof.conv A) (S.prof.conv B) u) ((between A B u).1 * 2 ^ 32, (between A B u).2 * 2 ^ 32) := by
    intro u u0 u1
    have k1 := mix_close u0 u1 A1 B1
    have k2 := mix_close u0 u1 A2 B2
    refine ⟨?_, ?_⟩
    · convert k1 using 2
      simp only [between, onSeg]; ring
    · convert k2 using 2
      simp only [between, onSeg]; ring
  intro s s' s0 s1 s0' s1' hs hs' hfar
  refine area_tags (.refl _) ?_ (hseen s s' s0 s1 s0' s1' (tile_of_deep hz hs (hmid s s0 s1)) (tile_of_deep hz hs' (hmid s' s0' s1')) ?_)
  · intro p p' hcov u u0 u1 hu
    obtain ⟨v, v0, v1, hv⟩ := hcov u u0 u1 (tile_of_deep hz hu (hmid u u0 u1))
    refine ⟨v, v0, v1, ?_⟩
    have := within_tri hv (within_scale q (hmid u u0 u1))
    rw [inTile_eq q hz]
    convert this using 1
    ring
  · rintro ⟨c1, c2⟩
    apply hfar
    rw [inTile_eq q hz, inTile_eq q hz]
    simp only [tilePos]
    have key : ∀ {x y m n o : ℝ}, |x - y| < 4 * e + 2 ^ (20 - q.z) → |x - m| ≤ g → |y - n| ≤ g →
        |m / 2 ^ (20 - q.z) - o - (n / 2 ^ (20 - q.z) - o)| < (4 * e + 2 * g) / 2 ^ (20 - q.z) + 1 := by
      intro x y m n o h1 h2 h3
      rw [show m / 2 ^ (20 - q.z) - o - (n / 2 ^ (20 - q.z) - o) = (m - n) / 2 ^ (20 - q.z) by ring, abs_div, abs_of_pos hp, div_add_one hp.ne', div_lt_div_iff_of_pos_right hp]
      rw [abs_lt] at *
      rw [abs_le] at *
      constructor <;> linarith
    exact ⟨key c1 (hmid s s0 s1).1 (hmid s' s0' s1').1, key c2 (hmid s s0 s1).2 (hmid s' s0' s1').2⟩

/-- what is seen of the features that were made of the data is seen of the data -/
theorem areas_seen (hS : S.Ok t e g) (hD : S.Fits data) (hends : ∀ z, ∀ l : Line, l.head? = l.getLast? → (keep (S.rd (S.mkMask l) z) l).head? = (keep (S.rd (S.mkMask l) z) l).getLast?)
    {fs : List (List Feature)} {m : MetaTable} {names : List Bytes} {tbl : List Meta}
    (hl : OsmLoaded S.prof S.profile t S.numeral data fs m names tbl) (q : Tile) (hz : q.z ≤ 20) (layers : List ClientLayer)
    (m3 : ∀ f ∈ fs.flatten, f.zmin ≤ q.z → q.z ≤ f.zmax → f.layer ≠ 0 → (∀ f' ∈ fs.flatten, f'.layer = f.layer → f'.id = f.id → typeOf f'.geometry = 3 → f' = f) →
      ∃ name, names[f.layer]? = some name ∧ ∀ ps qs, f.geometry = .polygon ps →
        withoutSmallRings (simplified (fun l => S.rd (S.mkMask l) q.z) (.polygon ps)) = .polygon qs → Outlines e 4096 ((ringsOf qs).map List.dropLast) →
        ∀ a b, Edge ((ringsOf qs).map List.dropLast) a b → InBoxOf (envelopePoints f.geometry) a → InBoxOf (envelopePoints f.geometry) b →
        EdgeSeen e q layers name f.id (tagsOf f.metas) a b) : AreasSeen S t e g data q layers :=
  fun d hd items h1 r h2 z h3 h4 h5 => areas_seen_if (Big := fun _ => True) hS hD hends hl q hz layers
    (fun f hf i1 i2 i3 i4 => (m3 f hf i1 i2 i3 i4).imp fun _ h => ⟨h.1, fun ps qs j1 j2 _ => h.2 ps qs j1 j2⟩) d hd items h1 r h2 z h3 h4 h5 (fun _ _ _ _ => trivial)

/-- Areas are drawn: whatever is imported with a shipped profile (as in C68), the server answers every tile above level 10, and a client sees there, of every area
that the table of the profile gives a layer for at the level and that can be drawn there (`ProperArea`: after simplification, its outlines do not touch or cross), every edge of its
outlines as far as it lies in the tile: in an area feature of the layer of the table, with the id of the area and exactly the attributes of the table, there is an edge from
which nothing that lies in the tile is further away than the errors of the libraries and a unit (unless it is shorter than that). -/
theorem C77_areas (hS : S.Ok t e g) (hD : S.Fits data)
    (hlib : ∃ inter clipper correct, ClipLib e inter clipper correct ∧ PolyLib e clipper ∧ S.base.clip = clipGeometry inter clipper correct)
    (hends : ∀ z, ∀ l : Line, l.head? = l.getLast? → (keep (S.rd (S.mkMask l) z) l).head? = (keep (S.rd (S.mkMask l) z) l).getLast?)
    (runs : List (List String)) (hacts : changes runs = [.load false true, .pack, .tiles]) (a b : TileDb MetaTable)
    (hr : Imports (importParts (S.env data)) runs a b) (hsmall : SmallPacks b.features) (hsize : b.pf.reopen.size < 2 ^ 64) (features : List (UInt64 × Bytes))
    (hdb : EntriesOf b.features features) (ctx : GetCtx) (hctx : makeRenderCtx S.base (preparedString b.maxPrepared) b.info = .ok ctx)
    (q : Tile) (hv : q.Valid) (hz10 : 10 < q.z) (hz : q.z ≤ 20) (hshort : S.ShortLines data ctx q) :
    ∃ bytes layers, getTile b.tiles features b.pf.reopen ctx q = .ok (if bytes = [] then none else some (ctx.encode bytes)) ∧
      (bytes.length < 2 ^ 32 → clientTile bytes = some layers ∧ (bytes = [] ↔ layers = [])) ∧
      ∀ d ∈ data, ∀ items, d.shape = .area items → ∀ r, d.rule t = some r →
        ∀ z, levelFor (areaOf S.prof (d.obj S.profile S.numeral)) r.zoom = some z → z ≤ q.z →
        ProperArea e S.prof.conv (fun l => S.rd (S.mkMask l) q.z) items →
        (∀ d' ∈ data, d'.id % 2 ^ 64 = d.id % 2 ^ 64 → d'.type = 3 → d' = d) →
        ∀ A B, Piece S.prof.conv (fun l => S.rd (S.mkMask l) q.z) d.shape A B →
          ∀ s s' : ℝ, 0 ≤ s → s ≤ 1 → 0 ≤ s' → s' ≤ 1 → Deep g q (between A B s) → Deep g q (between A B s') →
            ¬ (|(inTile q (between A B s)).1 - (inTile q (between A B s')).1| < (4 * e + 2 * g) / 2 ^ (20 - q.z) + 1 ∧
               |(inTile q (between A B s)).2 - (inTile q (between A B s')).2| < (4 * e + 2 * g) / 2 ^ (20 - q.z) + 1) →
            AreaSeen layers r.layer (d.id % 2 ^ 64) (r.shown S.numeral S.prof.toDouble (tagValue d.tags)) (fun p p' =>
              ∀ u : ℝ, 0 ≤ u → u ≤ 1 → Deep g q (between A B u) → ∃ v : ℝ, 0 ≤ v ∧ v ≤ 1 ∧ CloseBy ((e + g) / 2 ^ (20 - q.z) + 1) (onSeg p p' v) (inTile q (between A B u))) := by
  obtain ⟨px, hgeo, hconv⟩ := hS.places
  obtain ⟨inter, clipper, correct, hlib, hpoly, hclip⟩ := hlib
  obtain ⟨simplify, hagg⟩ := hS.joins
  obtain ⟨g1, g2, g3⟩ := hS.error
  have hin := osm_in hS hD
  obtain ⟨hmax, _, _, _, fs0, _, hload0⟩ := imports_loaded (S.env data) false true hS.work (fun fs m h => (hin fs m h).2) runs hacts a b hr hsmall
  obtain ⟨names0, tbl0, hl0⟩ := osm_loaded hS.shipped hS.numerals hD.toGoodData hload0
  obtain ⟨b1, b2, h3, h4, h5⟩ := hl0.table
  rw [hmax, h3] at hctx
  rw [ctx_of (by norm_num) h4 h5] at hctx
  injection hctx with hctx
  have hctxOf : (S.env data).ctxOf b.info = { ctx with maxPrepared := -1 } := by
    show (match makeRenderCtx S.base none b.info with | .ok c => c | _ => S.base) = _
    rw [h3, ← hctx, ctx_first h4 h5]
  have hdec0 : (S.env data).decOf b.info = tbl0 := (osm_importable hS hD hload0 hl0).1
  obtain ⟨_, ⟨_, _, fs, rfl, hload⟩, hserve⟩ := C77_served (S.env data) false true hS.sorts hS.masks hS.work hin runs hacts a b hr hsmall hsize features hdb
    ctx ⟨-1, hctxOf⟩ (by rw [← hctx]; exact hS.reads) (by rw [hdec0, ← hctx]) ⟨by rw [← hctx], by rw [← hctx], by rw [← hctx], by rw [← hctx]⟩ (by rw [← hctx])
    e g1 g2 inter clipper correct hlib hpoly (by rw [← hctx]; exact hclip) simplify (by intro z fs out h; rw [← hctx]; exact hagg z fs out h)
  obtain ⟨names, tbl, hl⟩ := osm_loaded hS.shipped hS.numerals hD.toGoodData hload
  obtain ⟨_, _, _, himp⟩ := osm_importable hS hD hload hl
  have hnames : ctx.layerNames = names := by
    obtain ⟨b1', b2', k1, k2, k3⟩ := hl.table
    rw [h3] at k1
    injection k1 with _ k1 _
    rw [← k1, h4] at k2
    injection k2 with k2
    rw [← hctx]
    exact k2
  obtain ⟨bytes, layers, m1, m2, m3⟩ := hserve (fun x hx => by obtain ⟨f, hf, rfl⟩ := mem_whole.1 hx; rw [hnames]; exact (himp f hf).2.1) (by rw [hnames]; exact hl.few.1) []
    ⟨by rw [← hctx]; rfl, by rw [← hctx]; simp, by simp⟩ q hv hz10 hz (fun x hx => by obtain ⟨f, hf, rfl⟩ := mem_whole.1 hx; exact (himp f hf).2.2 q.z hz)
    (fun gs i h => hshort fs b.info hload gs i (fun y hy => (h y hy).imp_right (by rintro ⟨x, hx, hs⟩; obtain ⟨f, hf, rfl⟩ := mem_whole.1 hx; exact ⟨f, hf, hs⟩)))
  refine ⟨bytes, layers, m1, m2, areas_seen hS hD hends hl q hz layers fun f hf hz1 hz2 hl0 hone => ?_⟩
  rw [← hnames]
  exact m3 f (mem_whole.2 ⟨f, hf, rfl⟩) hz1 hz2 hl0 (fun x hx => by obtain ⟨f', hf', rfl⟩ := mem_whole.1 hx; exact hone f' hf')
end

end Tiles
