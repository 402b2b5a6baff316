import Verif.Spec.ClipLib
import Verif.Props.C54
import Verif.Props.C38
/-! C62 — what is drawn: with the clipping libraries as specified every feature of a tile can be drawn, nothing lies outside of the tile's margin, and a
client sees every imported point that lies in the tile, at its place. -/
namespace Tiles
open Spec

/-! ### one geometry -/

theorem area2_square {b : Box} (h : b.min.x < b.max.x) (h' : b.min.y < b.max.y) : Clippable (squareOf b) := by
  refine ⟨by simp [ringsOf], _, List.mem_cons_self, ?_⟩
  simp [area2]
  nlinarith [mul_pos (sub_pos.2 h) (sub_pos.2 h')]

theorem shifted_range {D A B m P : Int} (hD : 0 < D) (h1 : A * D - m ≤ P) (h2 : P ≤ B * D + m) : A + (-m) / D ≤ P / D ∧ P / D ≤ B + m / D := by
  constructor
  · have := Int.ediv_le_ediv hD h1
    rwa [show A * D - m = -m + A * D by ring, Int.add_mul_ediv_right _ _ (by omega), Int.add_comm] at this
  · have := Int.ediv_le_ediv hD h2
    rwa [show B * D + m = m + B * D by ring, Int.add_mul_ediv_right _ _ (by omega), Int.add_comm] at this

theorem margin_of_around {e : Int} {q : Tile} {P : XY} (h : Around e (drawBounds q) P) : InMargin e q.z (rel (pxBounds q).min (floorTo q.z P)) := by
  obtain ⟨h1, h2, h3, h4⟩ := h
  have hD : (0 : Int) < 2 ^ (20 - q.z) := by positivity
  simp only [drawBounds, pxBounds, kOverdraw] at h1 h2 h3 h4
  obtain ⟨a1, a2⟩ := shifted_range (A := q.x * 4096) (B := (q.x + 1) * 4096) (m := 4096 + e) (P := P.x) hD (by linarith) (by linarith)
  obtain ⟨b1, b2⟩ := shifted_range (A := q.y * 4096) (B := (q.y + 1) * 4096) (m := 4096 + e) (P := P.y) hD (by linarith) (by linarith)
  simp only [InMargin, rel, floorTo, pxBounds]
  refine ⟨by linarith, by linarith, by linarith, by linarith⟩

theorem mem_lineAt {z : Nat} {l : Line} {p : XY} (h : p ∈ lineAt z l) : ∃ P ∈ l, p = floorTo z P := by
  obtain ⟨P, hP, rfl⟩ := List.mem_map.1 ((List.destutter_sublist _ _).subset h)
  exact ⟨P, hP, rfl⟩

theorem length_lineAt (z : Nat) (l : Line) : (lineAt z l).length ≤ l.length := by
  have := (List.destutter_sublist (· ≠ ·) (l.map (floorTo z))).length_le
  rwa [List.length_map] at this

/-- the lines of a shifted geometry are lines of the geometry, shifted -/
theorem shifted_lines {g g' : Geometry} {z : Nat} (hz : z ≤ 20) (h : shiftGeometry g z = .ok g') : ∀ l ∈ allLines g', ∃ l' ∈ allLines g, l = lineAt z l' := by
  cases g with
  | null => rw [C26_shift_null] at h; injection h with h; subst h; simp [allLines]
  | point p =>
    rw [C26_shift_point _ _ hz] at h
    injection h with h
    subst h
    split
    · simp [allLines]
    · simp [allLines]
  | polyline ls =>
    rw [C26_shift_polyline _ _ hz] at h
    injection h with h
    subst h
    dsimp only
    split
    · simp [allLines]
    · intro l hl
      obtain ⟨l', h1, h2⟩ := List.mem_map.1 (List.mem_filter.1 hl).1
      exact ⟨l', h1, h2.symm⟩
  | polygon ps =>
    rw [C26_shift_polygon _ _ hz] at h
    injection h with h
    subst h
    dsimp only
    split
    · simp [allLines]
    · intro l hl
      obtain ⟨p, hp, hl⟩ := List.mem_flatMap.1 hl
      obtain ⟨p', h1, rfl⟩ := List.mem_map.1 (List.mem_filter.1 hp).1
      rcases List.mem_cons.1 hl with rfl | hl
      · exact ⟨p'.outer, List.mem_flatMap.2 ⟨p', h1, by simp⟩, rfl⟩
      · obtain ⟨r, h2, rfl⟩ := List.mem_map.1 (List.mem_filter.1 hl).1
        exact ⟨r, List.mem_flatMap.2 ⟨p', h1, by simp [h2]⟩, rfl⟩

theorem shift_ok (g : Geometry) {z : Nat} (hz : z ≤ 20) : ∃ g', shiftGeometry g z = .ok g' := by
  cases g with
  | null => exact ⟨_, rfl⟩
  | point p => exact ⟨_, C26_shift_point _ _ hz⟩
  | polyline l => exact ⟨_, C26_shift_polyline _ _ hz⟩
  | polygon p => exact ⟨_, C26_shift_polygon _ _ hz⟩

theorem close_subset {c : Line} {p : XY} (h : p ∈ close c) : p ∈ c := by
  cases c with
  | nil => exact h
  | cons a l =>
    simp only [close, List.mem_cons, List.mem_append, List.not_mem_nil, or_false, List.cons_append] at h ⊢
    tauto

section
variable {e : Int} {inter : Box → List Line → List Line} {clipper : List Line → Box → Option (List PolyNode)} {correct : List Polygon → List Polygon}

theorem forall₂_rings {ps qs : List Polygon} (h : List.Forall₂ (fun p q : Polygon => SameRing p.outer q.outer ∧ List.Forall₂ SameRing p.inners q.inners) ps qs) :
    ∀ r ∈ ringsOf qs, ∃ r' ∈ ringsOf ps, SameRing r' r := by
  induction h with
  | nil => simp [ringsOf]
  | @cons p q ps qs h1 h2 ih =>
    intro r hr
    simp only [ringsOf, List.flatMap_cons, List.mem_append, List.mem_cons] at hr ih ⊢
    rcases hr with (rfl | hr) | hr
    · exact ⟨p.outer, .inl (.inl rfl), h1.1⟩
    · obtain ⟨i, hi, hri⟩ := List.getElem_of_mem hr
      obtain ⟨h3, h4⟩ := List.forall₂_iff_get.1 h1.2
      refine ⟨p.inners[i]'(by omega), .inl (.inr (List.getElem_mem _)), ?_⟩
      rw [← hri]
      exact h4 i (by omega) hi
    · obtain ⟨r', h3, h4⟩ := ih r hr
      exact ⟨r', .inr h3, h4⟩

/-- Clipping a geometry succeeds, and nothing of the result lies outside of the box by more than the libraries' error; rings are closed. -/
theorem C62_clip (hl : ClipLib e inter clipper correct) (he : 0 ≤ e) (g : Geometry) (hg : Clippable g) (box : Box) :
    ∃ r, clipGeometry inter clipper correct g box = .ok r ∧ (∀ l ∈ allLines r, ∀ p ∈ l, Around e box p) ∧
      ∀ ps, g = .polygon ps → ∀ l ∈ allLines r, l.head? = l.getLast? := by
  cases g with
  | null => exact ⟨_, rfl, by simp [allLines], by simp⟩
  | point p =>
    refine ⟨_, rfl, ?_, by simp⟩
    have h := C46_result inter clipper correct (.point p) box (clipPoint p box) rfl
    cases hc : clipPoint p box with
    | null => simp [allLines]
    | point ps =>
      rw [hc] at h
      intro l hl q hq
      simp only [allLines, List.mem_singleton] at hl
      subst hl
      obtain ⟨h1, h2, h3, h4⟩ := h.2.2 q hq
      exact ⟨by omega, by omega, by omega, by omega⟩
    | polyline ps => rw [hc] at h; obtain ⟨⟨_, h⟩, _⟩ := h; cases h
    | polygon ps => rw [hc] at h; obtain ⟨_, h⟩ := h; cases h
  | polyline ls =>
    refine ⟨_, rfl, ?_, by simp⟩
    rw [clipPolyline]
    split
    · simp [allLines]
    · intro l hl' p hp
      exact hl.lines box ls l (List.mem_filter.1 hl').1 p hp
  | polygon ps =>
    obtain ⟨h1, r, h2, h3⟩ := hg
    have hacc := hl.accepts ((ringsOf ps).map List.dropLast) box ⟨_, List.mem_map_of_mem h2, h3⟩
    obtain ⟨nodes, hn⟩ := Option.ne_none_iff_exists'.1 hacc
    obtain ⟨halt, hin⟩ := hl.tree _ _ _ hn
    rcases C48_solution_copied clipper correct ps box nodes h1 hn halt with ⟨_, h4⟩ | ⟨hne, out, h4, h5⟩
    · exact ⟨_, h4, by simp [allLines], by simp [allLines]⟩
    · have hout : ∀ r ∈ ringsOf out, ∃ c, r = close c ∧ ∃ q ∈ polysOf nodes, c ∈ q.1 :: q.2 := by
        intro r hr
        obtain ⟨P, hP, hr⟩ := List.mem_flatMap.1 hr
        obtain ⟨q, hq, rfl⟩ := List.mem_map.1 (h5.mem_iff.1 hP)
        rcases List.mem_cons.1 hr with rfl | hr
        · exact ⟨q.1, rfl, q, hq, by simp⟩
        · obtain ⟨c, hc, rfl⟩ := List.mem_map.1 hr
          exact ⟨c, rfl, q, hq, by simp [hc]⟩
      have hclosed : ∀ r ∈ ringsOf out, r.head? = r.getLast? := by
        intro r hr
        obtain ⟨c, rfl, _⟩ := hout r hr
        cases c with
        | nil => rfl
        | cons a c => rw [close, List.getLast?_append]; simp
      refine ⟨_, h4, fun l hl' p hp => ?_, fun _ _ l hl' => ?_⟩
      swap
      · obtain ⟨r', hr', hs⟩ := forall₂_rings (hl.turns out hclosed) l hl'
        have := hclosed r' hr'
        rcases hs with rfl | rfl
        · exact this
        · rw [List.head?_reverse, List.getLast?_reverse]; exact this.symm
      obtain ⟨r', hr', hs⟩ := forall₂_rings (hl.turns out hclosed) l hl'
      obtain ⟨c, rfl, q, hq, hc⟩ := hout r' hr'
      refine hin q hq c hc p (close_subset ?_)
      rcases hs with rfl | rfl
      · exact hp
      · exact List.mem_reverse.1 hp

/-- A geometry is drawn: clipped and moved to the zoom level of the tile, every coordinate (relative to the tile's corner, as it is written into the tile) is within
the tile's margin, and the geometry can be written as long as no line is too long; rings are closed. -/
theorem C62_draw (hl : ClipLib e inter clipper correct) (he : 0 ≤ e) (he' : e ≤ 2 ^ 20) (ctx : RenderCtx) (hctx : ctx.clip = clipGeometry inter clipper correct)
    (q : Tile) (hz : q.z ≤ 20) (g : Geometry) (hg : Clippable g)
    (hshort : ∀ c, ctx.clip g (drawBounds q) = .ok c → ∀ l ∈ allLines c, l.length < 2 ^ 29) :
    ∃ r, drawGeometry ctx (specOf q) g = .ok r ∧ (∀ l ∈ allLines r, ∀ p ∈ l, InMargin e q.z (rel (specOf q).px.min p)) ∧ NearTile (specOf q).px.min r ∧
      ∀ ps, g = .polygon ps → ∀ l ∈ allLines r, l.head? = l.getLast? := by
  obtain ⟨c, h1, h2, hcl⟩ := C62_clip hl he g hg (drawBounds q)
  rw [← hctx] at h1
  obtain ⟨r, h3⟩ := shift_ok c hz
  have hm : ∀ l ∈ allLines r, ∀ p ∈ l, InMargin e q.z (rel (specOf q).px.min p) := by
    intro l hlr p hp
    obtain ⟨l', h4, rfl⟩ := shifted_lines hz h3 l hlr
    obtain ⟨P, hP, rfl⟩ := mem_lineAt hp
    exact margin_of_around (h2 l' h4 P hP)
  refine ⟨r, ?_, hm, fun l hlr => ⟨?_, fun p hp => ?_⟩, fun ps hps l hlr => ?_⟩
  rotate_left 3
  · obtain ⟨l', h4, rfl⟩ := shifted_lines hz h3 l hlr
    exact C27_rings_stay_closed _ _ (hcl ps hps l' h4)
  · rw [drawGeometry]
    show (do let c ← ctx.clip g (drawBounds q); shiftGeometry c q.z) = _
    rw [h1, Res.ok_bind]
    exact h3
  · obtain ⟨l', h4, rfl⟩ := shifted_lines hz h3 l hlr
    exact lt_of_le_of_lt (length_lineAt _ _) (hshort c h1 l' h4)
  · obtain ⟨h5, h6, h7, h8⟩ := hm l hlr p hp
    have hD : (1 : Int) ≤ 2 ^ (20 - q.z) := one_le_pow₀ (by omega)
    have hup : (4096 + e) / 2 ^ (20 - q.z) ≤ 4096 + e := Int.ediv_le_self _ (by omega)
    have hlow : -(4096 + e) ≤ (-(4096 + e)) / 2 ^ (20 - q.z) := by
      rw [Int.le_ediv_iff_mul_le (by omega)]
      nlinarith
    simp only [rel] at h5 h6 h7 h8
    norm_num at he' ⊢
    omega
end

/-! ### a layer, a tile -/

/-- the tags of a feature, as a client reads them -/
def Spec.tagsOf (ms : List Meta) : List (Bytes × Typed) := (exported ms).filterMap (fun m => (valueMeaning m.value).map (fun t => (m.key, t)))

theorem tagsOf_perm {a b : List Meta} (h : a.Perm b) : (tagsOf a).Perm (tagsOf b) := by
  rw [tagsOf, tagsOf, exported, exported]
  exact (h.filter _).filterMap _

/-- what a feature must have to be drawn and written -/
structure Spec.Renderable (f : Feature) : Prop where
  id : f.id < 2 ^ 64
  values : ∀ m ∈ exported f.metas, ∃ t, valueMeaning m.value = some t
  polygon : Clippable f.geometry
  line : isLine f = true → LineFeature f

/-- no line that is written has 2^29 points (a command counts up to 2^29 - 1) -/
def Spec.NoLongLine (ctx : RenderCtx) (q : Tile) (f : Feature) : Prop := ∀ c, ctx.clip f.geometry (drawBounds q) = .ok c → ∀ l ∈ allLines c, l.length < 2 ^ 29

/-- a candidate is one of the features, or a joined line feature -/
theorem candidates_from {ctx : RenderCtx} {s : TileSpec} {fs : List Feature} {f : Feature} (h : f ∈ candidates ctx s fs) : f ∈ fs ∨ f ∈ joinedLines ctx s.tile.z fs := by
  have hu : ∀ g ∈ unique fs, g ∈ fs := fun g hg => (C28_unique fs).2.2.subset hg
  rw [candidates, List.mem_append, List.mem_append] at h
  rcases h with (h | h) | h
  · exact .inl (hu f (List.mem_filter.1 h).1)
  · rw [bufferedPolys] at h
    split at h
    · exact .inl (hu f (List.mem_filter.1 h).1)
    · cases h
  · exact .inr h

theorem bufferedLines_from {ctx : RenderCtx} {fs : List Feature} {f : Feature} (h : f ∈ bufferedLines ctx fs) : f ∈ fs ∧ isLine f = true := by
  rw [bufferedLines] at h
  split at h
  · exact ⟨(C28_unique fs).2.2.subset (List.mem_filter.1 h).1, (List.mem_filter.1 h).2⟩
  · cases h

section
variable {e : Int} {inter : Box → List Line → List Line} {clipper : List Line → Box → Option (List PolyNode)} {correct : List Polygon → List Polygon}
  {simplify : Nat → Line → Line}

/-- the joined lines of a layer: each has the id and the metadata of a line feature -/
theorem joined_from {ctx : RenderCtx} {z : Nat} (hagg : ∀ fs out, aggregateLineFeatures simplify z fs = .ok out → ctx.aggregate z fs = out) {fs : List Feature}
    (h : ∀ f ∈ fs, isLine f = true → LineFeature f) {g : Feature} (hg : g ∈ joinedLines ctx z fs) :
    (∃ ls, g.geometry = .polyline ls) ∧ ∃ f ∈ fs, isLine f = true ∧ f.id = g.id ∧ f.metas = g.metas := by
  obtain ⟨_, _, h3⟩ := C38_in_tile ctx simplify z hagg fs h
  obtain ⟨group, joined, h4, _, h5, ⟨f, h6, h7⟩, _⟩ := h3 g hg
  obtain ⟨h8, h9⟩ := List.mem_filter.1 (h4.mem_iff.1 h6)
  obtain ⟨h10, h11⟩ := bufferedLines_from h8
  exact ⟨⟨_, h5⟩, f, h10, h11, h7, of_decide_eq_true h9⟩

/-- a candidate has the id, the type and the metadata of a feature -/
theorem candidate_feature {ctx : RenderCtx} {s : TileSpec} (hagg : ∀ fs out, aggregateLineFeatures simplify s.tile.z fs = .ok out → ctx.aggregate s.tile.z fs = out)
    {fs : List Feature} (h : ∀ f ∈ fs, isLine f = true → LineFeature f) {g : Feature} (hg : g ∈ candidates ctx s fs) :
    ∃ f ∈ fs, f.id = g.id ∧ f.metas = g.metas ∧ typeOf f.geometry = typeOf g.geometry := by
  rcases candidates_from hg with hg | hg
  · exact ⟨g, hg, rfl, rfl, rfl⟩
  · obtain ⟨⟨ls, h1⟩, f, h2, h3, h4, h5⟩ := joined_from hagg h hg
    refine ⟨f, h2, h4, h5, ?_⟩
    rw [h1]
    exact of_decide_eq_true h3

/-- Every layer of renderable features can be drawn: the hypothesis of C28 and C29 is met. -/
theorem C62_layer (hl : ClipLib e inter clipper correct) (he : 0 ≤ e) (he' : e ≤ 2 ^ 20) (ctx : RenderCtx) (hctx : ctx.clip = clipGeometry inter clipper correct)
    (q : Tile) (hz : q.z ≤ 20) (hagg : ∀ fs out, aggregateLineFeatures simplify q.z fs = .ok out → ctx.aggregate q.z fs = out)
    (fs : List Feature) (hfs : ∀ f ∈ fs, Renderable f) (hshort : ∀ f ∈ candidates ctx (specOf q) fs, NoLongLine ctx q f) :
    LayerOk ctx (specOf q) fs ∧ ∀ f ∈ candidates ctx (specOf q) fs, ∀ g, drawGeometry ctx (specOf q) f.geometry = .ok g →
      ∀ l ∈ allLines g, ∀ p ∈ l, InMargin e q.z (rel (specOf q).px.min p) := by
  have hdraw : ∀ f ∈ candidates ctx (specOf q) fs, ∃ r, drawGeometry ctx (specOf q) f.geometry = .ok r ∧
      (∀ l ∈ allLines r, ∀ p ∈ l, InMargin e q.z (rel (specOf q).px.min p)) ∧ NearTile (specOf q).px.min r := by
    intro f hf
    have key : Clippable f.geometry → _ := fun hc => C62_draw hl he he' ctx hctx q hz f.geometry hc (hshort f hf)
    suffices h : Clippable f.geometry by
      obtain ⟨r, h1, h2, h3, _⟩ := key h
      exact ⟨r, h1, h2, h3⟩
    rcases candidates_from hf with h | h
    · exact (hfs f h).polygon
    · obtain ⟨⟨ls, h1⟩, _⟩ := joined_from hagg (fun f hf => (hfs f hf).line) h
      rw [h1]; trivial
  have hsame : ∀ f ∈ candidates ctx (specOf q) fs, ∃ f' ∈ fs, f'.id = f.id ∧ f'.metas = f.metas := by
    intro f hf
    obtain ⟨f', h1, h2, h3, _⟩ := candidate_feature (s := specOf q) hagg (fun f hf => (hfs f hf).line) hf
    exact ⟨f', h1, h2, h3⟩
  refine ⟨⟨fun f hf => ?_, fun f hf => ?_, fun f hf => ?_⟩, fun f hf g hg => ?_⟩
  · obtain ⟨r, h1, _, h2⟩ := hdraw f hf
    exact ⟨r, h1, h2⟩
  · obtain ⟨f', h1, h2, _⟩ := hsame f hf
    rw [← h2]; exact (hfs f' h1).id
  · obtain ⟨f', h1, _, h2⟩ := hsame f hf
    rw [← h2]; exact (hfs f' h1).values
  · obtain ⟨r, h1, h2, _⟩ := hdraw f hf
    rw [h1] at hg; injection hg with hg
    subst hg
    exact h2

theorem partsOf_points {o : XY} {g : Geometry} {part : MvtPart} (h : part ∈ partsOf o g) {p : XY} (hp : p ∈ part.points) : ∃ l ∈ allLines g, ∃ P ∈ l, p = rel o P := by
  cases g with
  | null => cases h
  | point ps =>
    obtain ⟨P, hP, rfl⟩ := List.mem_map.1 h
    exact ⟨ps, by simp [allLines], P, hP, by simpa using hp⟩
  | polyline ls =>
    obtain ⟨l, hl, rfl⟩ := List.mem_map.1 h
    obtain ⟨P, hP, rfl⟩ := List.mem_map.1 hp
    exact ⟨l, hl, P, hP, rfl⟩
  | polygon ps =>
    obtain ⟨l, hl, rfl⟩ := List.mem_map.1 h
    obtain ⟨P, hP, rfl⟩ := List.mem_map.1 hp
    exact ⟨l, hl, P, List.mem_of_mem_dropLast hP, rfl⟩

/-- the type of what is drawn -/
theorem drawn_type {ctx : RenderCtx} (hctx : ctx.clip = clipGeometry inter clipper correct) {s : TileSpec} (hz : s.tile.z ≤ 20) {g r : Geometry}
    (h : drawGeometry ctx s g = .ok r) (hr : r ≠ .null) : typeOf r = typeOf g := by
  rw [drawGeometry, Res.bind_eq_ok] at h
  obtain ⟨c, h1, h2⟩ := h
  rw [hctx] at h1
  have h3 := C46_result _ _ _ _ _ _ h1
  have h4 : typeOf r = typeOf c := by
    cases c with
    | null => rw [C26_shift_null] at h2; injection h2 with h2; exact absurd h2.symm hr
    | point p =>
      rw [C26_shift_point _ _ hz] at h2
      injection h2 with h2; subst h2
      split at hr
      · exact absurd rfl hr
      · rename_i hc; rw [if_neg hc]; rfl
    | polyline ls =>
      rw [C26_shift_polyline _ _ hz] at h2
      injection h2 with h2; subst h2
      dsimp only at hr ⊢
      split at hr
      · exact absurd rfl hr
      · rename_i hc; rw [if_neg hc]; rfl
    | polygon ps =>
      rw [C26_shift_polygon _ _ hz] at h2
      injection h2 with h2; subst h2
      dsimp only at hr ⊢
      split at hr
      · exact absurd rfl hr
      · rename_i hc; rw [if_neg hc]; rfl
  rw [h4]
  cases c with
  | null =>
    rw [C26_shift_null] at h2; injection h2 with h2; exact absurd h2.symm hr
  | point p => obtain ⟨⟨_, h, _⟩, _⟩ := h3; rw [h]; rfl
  | polyline p => obtain ⟨⟨_, h⟩, _⟩ := h3; rw [h]; rfl
  | polygon p => obtain ⟨_, h⟩ := h3; rw [h]; rfl

theorem mem_layerContent {ctx : RenderCtx} {s : TileSpec} {fs : List Feature} {w : Feature} (h : w ∈ layerContent ctx s fs) :
    ∃ f ∈ candidates ctx s fs, w = drawn ctx s f ∧ w.geometry ≠ .null := by
  rw [layerContent, List.mem_filter] at h
  obtain ⟨h, hn⟩ := h
  have hn : w.geometry ≠ .null := by simpa [nonNull] using hn
  simp only [List.mem_append, List.mem_map, List.mem_filter] at h
  rw [candidates]
  rcases h with (⟨f, h1, rfl⟩ | ⟨⟨f, h1, rfl⟩, _⟩) | ⟨f, h1, rfl⟩
  · exact ⟨f, by simp [h1], rfl, hn⟩
  · exact ⟨f, by simp [h1], rfl, hn⟩
  · exact ⟨f, by simp [h1], rfl, hn⟩

/-- What a client finds in the tile: every layer has a name of the list and the extent 4096; every feature in it has the id, the type and the tags of a feature of that
layer that was added to the tile; and every coordinate is in the tile's margin. -/
theorem C62_content (hl : ClipLib e inter clipper correct) (he : 0 ≤ e) (he' : e ≤ 2 ^ 20) (ctx : RenderCtx) (hctx : ctx.clip = clipGeometry inter clipper correct)
    (q : Tile) (hz : q.z ≤ 20) (hagg : ∀ fs out, aggregateLineFeatures simplify q.z fs = .ok out → ctx.aggregate q.z fs = out)
    (fs : List Feature) (hfs : ∀ f ∈ fs, Renderable f) (hshort : ∀ i, ∀ f ∈ candidates ctx (specOf q) (ofLayer fs i), NoLongLine ctx q f) :
    ∀ L ∈ tileContent ctx (specOf q) fs, L.version = 2 ∧ L.extent = 4096 ∧ L.features ≠ [] ∧ ∃ i, ctx.layerNames[i]? = some L.name ∧ ∀ c ∈ L.features,
      (∃ f ∈ fs, f.geometry ≠ .null ∧ f.layer = i ∧ c.id = f.id ∧ c.type = typeOf f.geometry ∧ c.tags = tagsOf f.metas) ∧
      ∀ part ∈ c.parts, ∀ p ∈ part.points, InMargin e q.z p := by
  intro L hL
  rw [tileContent, List.mem_filterMap] at hL
  obtain ⟨i, hi, hL⟩ := hL
  dsimp only at hL
  split at hL
  · cases hL
  rename_i hne
  injection hL with hL
  subst hL
  rw [List.mem_range] at hi
  refine ⟨rfl, rfl, by simpa using hne, i, ?_, fun c hc => ?_⟩
  · rw [List.getElem?_eq_getElem hi]; rfl
  obtain ⟨w, hw, rfl⟩ := List.mem_map.1 hc
  obtain ⟨f, hf, rfl, hn⟩ := mem_layerContent hw
  have hin : ∀ g ∈ ofLayer fs i, Renderable g := fun g hg => hfs g (List.mem_filter.1 hg).1
  obtain ⟨hok, hmar⟩ := C62_layer hl he he' ctx hctx q hz hagg (ofLayer fs i) hin (hshort i)
  obtain ⟨r, hr, _⟩ := hok.draws f hf
  have hg : (drawn ctx (specOf q) f).geometry = r := by simp only [drawn, hr]
  constructor
  · obtain ⟨f', h1, h2, h3, h4⟩ := candidate_feature (s := specOf q) hagg (fun f hf => (hin f hf).line) hf
    obtain ⟨h5, h6⟩ := List.mem_filter.1 h1
    have h7 := drawn_type hctx (s := specOf q) hz hr (hg ▸ hn)
    refine ⟨f', h5, ?_, of_decide_eq_true h6, h2.symm, ?_, ?_⟩
    · intro hc
      rw [← h4, hc] at h7
      rw [hg] at hn
      cases r with
      | null => exact hn rfl
      | _ => cases h7
    · show typeOf (drawn ctx (specOf q) f).geometry = _
      rw [hg, h7, h4]
    · show tagsOf f.metas = tagsOf f'.metas
      rw [h3]
  · intro part hpart p hp
    obtain ⟨l, hlr, P, hP, rfl⟩ := partsOf_points hpart hp
    rw [hg] at hlr
    exact hmar f hf r hr l hlr P hP
end

/-! ### points -/

theorem mem_destutter_ne {l : Line} {a : XY} (h : a ∈ l) : a ∈ l.destutter (· ≠ ·) := by
  have key : ∀ (l : Line) (b : XY), a ∈ b :: l → a ∈ List.destutter' (· ≠ ·) b l := by
    intro l
    induction l with
    | nil => intro b h; simpa using h
    | cons c l ih =>
      intro b h
      rw [List.destutter'_cons]
      by_cases hbc : b ≠ c
      · rw [if_pos hbc]
        rcases List.mem_cons.1 h with rfl | h
        · exact List.mem_cons_self
        · exact List.mem_cons_of_mem _ (ih c h)
      · rw [if_neg hbc]
        have : b = c := not_not.1 hbc
        subst this
        exact ih b (by simpa using h)
  cases l with
  | nil => cases h
  | cons b l => exact key l b h

/-- one of the different features has the id and the type of `f` -/
theorem unique_has {fs : List Feature} {f : Feature} (hf : f ∈ fs) (hn : f.geometry ≠ .null) :
    ∃ g ∈ unique fs, g.id = f.id ∧ typeOf g.geometry = typeOf f.geometry := by
  obtain ⟨_, h2, _⟩ := C28_unique fs
  induction fs using List.reverseRecOn with
  | nil => cases hf
  | append_singleton fs x ih =>
    by_cases hx : ∃ g ∈ fs, g.geometry ≠ .null ∧ g.id = f.id ∧ typeOf g.geometry = typeOf f.geometry
    · obtain ⟨g, hg, hgn, hg2⟩ := hx
      clear ih hf
      have hcl : ∀ (fs : List Feature), g ∈ fs → ∃ pre g' post, fs = pre ++ g' :: post ∧ (g'.geometry ≠ .null ∧ g'.id = f.id ∧ typeOf g'.geometry = typeOf f.geometry) ∧
          ∀ x ∈ pre, ¬ (x.id = g'.id ∧ typeOf x.geometry = typeOf g'.geometry) := by
        intro fs hg
        induction fs with
        | nil => cases hg
        | cons y fs ih =>
          by_cases hy : y.id = f.id ∧ typeOf y.geometry = typeOf f.geometry
          · refine ⟨[], y, fs, rfl, ⟨?_, hy⟩, by simp⟩
            intro hc
            rw [hc] at hy
            have := hy.2
            cases hfg : f.geometry with
            | null => exact hn hfg
            | _ => rw [hfg] at this; cases this
          · rcases List.mem_cons.1 hg with rfl | hg
            · exact absurd hg2 hy
            · obtain ⟨pre, g', post, rfl, h3, h4⟩ := ih hg
              refine ⟨y :: pre, g', post, rfl, h3, fun x hx => ?_⟩
              rcases List.mem_cons.1 hx with rfl | hx
              · rw [h3.2.1, h3.2.2]; exact hy
              · exact h4 x hx
      obtain ⟨pre, g', post, h3, h4, h5⟩ := hcl fs hg
      exact ⟨g', (h2 g').2 ⟨pre, post ++ [x], by rw [h3]; simp, h4.1, h5⟩, h4.2⟩
    · rcases List.mem_append.1 hf with hf | hf
      · exact absurd ⟨f, hf, hn, rfl, rfl⟩ hx
      · rw [List.mem_singleton] at hf
        subst hf
        refine ⟨f, (h2 f).2 ⟨fs, [], rfl, hn, fun g hg hc => hx ⟨g, hg, ?_, hc⟩⟩, rfl, rfl⟩
        intro hgn
        have := hc.2
        rw [hgn] at this
        cases hfg : f.geometry with
        | null => exact hn hfg
        | _ => rw [hfg] at this; cases this

section
variable {inter : Box → List Line → List Line} {clipper : List Line → Box → Option (List PolyNode)} {correct : List Polygon → List Polygon}

/-- A point in the tile is drawn, at its place. -/
theorem point_drawn (ctx : RenderCtx) (hctx : ctx.clip = clipGeometry inter clipper correct) (q : Tile) (hz : q.z ≤ 20) (ps : List XY) (px py : Nat)
    (hp : (⟨px, py⟩ : XY) ∈ ps) (hin : PointIn q px py) :
    ∃ out, drawGeometry ctx (specOf q) (.point ps) = .ok (.point out) ∧ (⟨px / 2 ^ (20 - q.z), py / 2 ^ (20 - q.z)⟩ : XY) ∈ out := by
  have hside : ((side q.z : Nat) : Int) = 4096 * 2 ^ (20 - q.z) := by simp [side]
  obtain ⟨h1, h2, h3, h4⟩ := hin
  have hinside : Inside (drawBounds q) ⟨px, py⟩ := by
    have a1 : ((q.x * side q.z : Nat) : Int) ≤ px := by exact_mod_cast h1
    have a2 : (px : Int) < (((q.x + 1) * side q.z : Nat) : Int) := by exact_mod_cast h2
    have a3 : ((q.y * side q.z : Nat) : Int) ≤ py := by exact_mod_cast h3
    have a4 : (py : Int) < (((q.y + 1) * side q.z : Nat) : Int) := by exact_mod_cast h4
    push_cast [hside] at a1 a2 a3 a4
    simp only [Inside, drawBounds, pxBounds, kOverdraw]
    refine ⟨by linarith, by linarith, by linarith, by linarith⟩
  obtain ⟨out, h5, _, h6, h7⟩ := C46_keeps_inside ps (drawBounds q) ⟨_, hp, hinside⟩
  have hmem : (⟨px, py⟩ : XY) ∈ out := by
    rw [← List.count_pos_iff, h7, if_pos hinside]
    exact List.count_pos_iff.2 hp
  refine ⟨lineAt q.z out, ?_, ?_⟩
  · rw [drawGeometry, hctx]
    show (do let c ← (Res.ok (clipPoint ps (drawBounds q))); shiftGeometry c q.z) = _
    rw [h5, Res.ok_bind, C26_shift_point _ _ hz, if_neg h6]
  · exact mem_destutter_ne (List.mem_map.2 ⟨_, hmem, rfl⟩)

/-- A client sees each point of a point feature that lies in the tile: in the layer of the feature, with its id and tags, at the point's place. -/
theorem C62_point (ctx : RenderCtx) (hctx : ctx.clip = clipGeometry inter clipper correct) (q : Tile) (hz : q.z ≤ 20) (fs : List Feature) (f : Feature) (hf : f ∈ fs)
    (hlay : f.layer < ctx.layerNames.length)
    (hone : ∀ g ∈ fs, g.layer = f.layer → g.id = f.id → typeOf g.geometry = typeOf f.geometry → g.geometry = f.geometry ∧ g.metas.Perm f.metas)
    (ps : List XY) (hg : f.geometry = .point ps) (px py : Nat) (hp : (⟨px, py⟩ : XY) ∈ ps) (hin : PointIn q px py) :
    ∃ L ∈ tileContent ctx (specOf q) fs, ctx.layerNames[f.layer]? = some L.name ∧ ∃ c ∈ L.features, c.id = f.id ∧ c.type = 1 ∧ c.tags.Perm (tagsOf f.metas) ∧
      ⟨[⟨px / 2 ^ (20 - q.z) - q.x * 4096, py / 2 ^ (20 - q.z) - q.y * 4096⟩], false⟩ ∈ c.parts := by
  have hf' : f ∈ ofLayer fs f.layer := List.mem_filter.2 ⟨hf, by simp⟩
  obtain ⟨g, h1, h2, h3⟩ := unique_has hf' (by rw [hg]; simp)
  have h4 := List.mem_filter.1 ((C28_unique (ofLayer fs f.layer)).2.2.subset h1)
  obtain ⟨h5, h6⟩ := hone g h4.1 (of_decide_eq_true h4.2) h2 h3
  rw [hg] at h5
  obtain ⟨out, h7, h8⟩ := point_drawn ctx hctx q hz ps px py hp hin
  have hdirect : g ∈ direct ctx (ofLayer fs f.layer) := by
    refine List.mem_filter.2 ⟨h1, ?_⟩
    simp [isLine, isPoly, h5, typeOf]
  have hdrawn : (drawn ctx (specOf q) g).geometry = .point out := by simp only [drawn, h5, h7]
  have hcontent : drawn ctx (specOf q) g ∈ layerContent ctx (specOf q) (ofLayer fs f.layer) := by
    rw [layerContent, List.mem_filter]
    refine ⟨?_, by simp [nonNull, hdrawn]⟩
    simp only [List.mem_append, List.mem_map]
    exact .inl (.inl ⟨g, hdirect, rfl⟩)
  refine ⟨⟨2, ctx.layerNames[f.layer]?.getD [], 4096, (layerContent ctx (specOf q) (ofLayer fs f.layer)).map (view (specOf q).px.min)⟩, ?_, ?_,
    view (specOf q).px.min (drawn ctx (specOf q) g), List.mem_map_of_mem hcontent, h2, ?_, ?_, ?_⟩
  · rw [tileContent, List.mem_filterMap]
    refine ⟨f.layer, List.mem_range.2 hlay, ?_⟩
    dsimp only
    rw [if_neg]
    intro hc
    rw [hc] at hcontent
    cases hcontent
  · rw [List.getElem?_eq_getElem hlay]; rfl
  · show typeOf (drawn ctx (specOf q) g).geometry = 1
    rw [hdrawn]; rfl
  · exact tagsOf_perm h6
  · show _ ∈ partsOf (specOf q).px.min (drawn ctx (specOf q) g).geometry
    rw [hdrawn]
    refine List.mem_map.2 ⟨_, h8, ?_⟩
    simp [rel, specOf, pxBounds]
end

/-! ### after an import -/

/-- an imported feature that can be drawn at a zoom level at which the masks `simp` keep points: its values are well-formed, one ring with an area is left of a
polygon (or nothing), and of each line there is a point left -/
structure Spec.Drawable (simp : Line → List Bool) (f : Feature) : Prop where
  values : ∀ m ∈ exported f.metas, ∃ t, valueMeaning m.value = some t
  polygon : ∀ ps qs, f.geometry = .polygon ps → withoutSmallRings (simplified simp f.geometry) = .polygon qs → ∃ r ∈ ringsOf qs, area2 r.dropLast ≠ 0
  lines : ∀ ls, f.geometry = .polyline ls → ls.length < 2 ^ 32 - 1 ∧ ∀ l ∈ ls, keep (simp l) l ≠ []

theorem stored_renderable {simp : Line → List Bool} {f g : Feature} (hf : FeatureOk f) (hd : Drawable simp f) (hg : StoredAs simp f g) : Renderable g := by
  obtain ⟨ms, hms, rfl⟩ := hg
  have hval : ∀ m ∈ exported ms, ∃ t, valueMeaning m.value = some t := by
    intro m hm
    refine hd.values m ?_
    rw [exported] at hm ⊢
    exact (hms.filter _).mem_iff.1 hm
  cases hgeo : f.geometry with
  | null => exact ⟨hf.id, hval, by simp [simplified, withoutSmallRings, Clippable], by simp [simplified, withoutSmallRings, isLine, typeOf]⟩
  | point ps => exact ⟨hf.id, hval, by simp [simplified, withoutSmallRings, Clippable], by simp [simplified, withoutSmallRings, isLine, typeOf]⟩
  | polyline ls =>
    obtain ⟨h1, h2⟩ := hd.lines ls hgeo
    refine ⟨hf.id, hval, by simp [simplified, withoutSmallRings, Clippable], fun _ => ⟨rfl, ?_, ?_⟩⟩
    · intro l hl
      simp only [featureLines, simplified, withoutSmallRings, List.mem_map] at hl
      obtain ⟨l', h3, rfl⟩ := hl
      exact h2 l' h3
    · simpa [featureLines, simplified, withoutSmallRings] using h1
  | polygon ps =>
    have hno : ∀ qs, withoutSmallRings (simplified simp (.polygon ps)) = .polygon qs → ∀ r ∈ ringsOf qs, r ≠ [] := by
      intro qs hq r hr
      simp only [simplified, withoutSmallRings] at hq
      split at hq
      · cases hq
      · rename_i hne
        injection hq with hq
        subst hq
        obtain ⟨p, hp, hr⟩ := List.mem_flatMap.1 hr
        obtain ⟨p', hp', rfl⟩ := List.mem_map.1 hp
        have h4 := of_decide_eq_true (List.mem_filter.1 hp').2
        rcases List.mem_cons.1 hr with rfl | hr
        · intro hc; rw [hc] at h4; simp at h4
        · have h5 := of_decide_eq_true (List.mem_filter.1 hr).2
          intro hc; rw [hc] at h5; simp at h5
    cases hw : withoutSmallRings (simplified simp (.polygon ps)) with
    | null => exact ⟨hf.id, hval, trivial, by simp [isLine, typeOf]⟩
    | polygon qs =>
      refine ⟨hf.id, hval, ⟨hno qs hw, hd.polygon ps qs hgeo (by rw [hgeo]; exact hw)⟩, by simp [isLine, typeOf]⟩
    | point p =>
      simp only [simplified, withoutSmallRings] at hw
      split at hw <;> cases hw
    | polyline p =>
      simp only [simplified, withoutSmallRings] at hw
      split at hw <;> cases hw

theorem sea_renderable {t : Tile} (hv : t.Valid) (hz : t.z ≤ 20) : Renderable (seaSquare t) := by
  obtain ⟨k, hk, hn⟩ := keyOfTile_ok (keyFits_of_valid hv hz)
  have hD : (0 : Int) < 2 ^ (20 - t.z) := by positivity
  refine ⟨?_, ?_, ?_, ?_⟩
  · show keyNat t.x t.y t.z 0 < 2 ^ 64
    rw [← hn]; exact k.toNat_lt
  · intro m hm
    have : exported [⟨layerKey, coastlineName⟩] = [] := by decide +kernel
    rw [show exported (seaSquare t).metas = [] from this] at hm
    cases hm
  · refine area2_square ?_ ?_ <;> simp only [drawBounds, pxBounds, kOverdraw] <;> nlinarith
  · intro h; simp [isLine, seaSquare, squareOf, typeOf] at h

theorem sea_tags (t : Tile) : tagsOf (seaSquare t).metas = [] := by
  have : exported [⟨layerKey, coastlineName⟩] = [] := by decide +kernel
  rw [tagsOf, show exported (seaSquare t).metas = [] from this]; rfl

/-- `served_drawn`; and outside of the area of the prepared tiles there is nothing to be shown but the sea -/
theorem served_drawn_all {ι : Type} (env : ImportEnv ι) (coast osm : Bool) (hsrt : SortsByKey env.srt)
    (hm : ∀ l z, (env.rd (env.mkMask l) z).length = l.length) (hw : 0 < env.workers)
    (hin : ∀ fs i, env.loads coast osm fs i → (env.decOf i).length ≤ 2 ^ 64 ∧ (∀ x ∈ fs.flatten, Importable env.mkMask (env.decOf i) plainOf x) ∧ fs.flatten.length < 2 ^ 32)
    (runs : List (List String)) (hacts : changes runs = [.load coast osm, .pack, .tiles]) (a b : TileDb ι) (hr : Imports (importParts env) runs a b)
    (hsmall : SmallPacks b.features) (hsize : b.pf.reopen.size < 2 ^ 64) (features : List (UInt64 × Bytes)) (hdb : EntriesOf b.features features)
    (ctx : GetCtx) (hctx : ∃ m, env.ctxOf b.info = { ctx with maxPrepared := m }) (hrd : ctx.rd = env.rd) (hdec : ctx.dec = env.decOf b.info) (hc : Serving ctx 10)
    -- the libraries
    (e : Int) (he : 0 ≤ e) (he' : e ≤ 2 ^ 20) (inter : Box → List Line → List Line) (clipper : List Line → Box → Option (List PolyNode))
    (correct : List Polygon → List Polygon) (hl : ClipLib e inter clipper correct) (hclip : ctx.clip = clipGeometry inter clipper correct)
    (simplify : Nat → Line → Line) (hagg : ∀ z fs out, aggregateLineFeatures simplify z fs = .ok out → ctx.aggregate z fs = out) :
    ∃ fs, env.loads coast osm fs b.info ∧
      (∀ sea, SeaTree sea ctx.seaside → ∀ q : Tile, q.Valid → q.z ≤ 10 → ¬ InArea (dbBounds (features.map (·.1))) q → (¬ ∃ t ∈ sea, AncOrSelf t q) →
        getTile b.tiles features b.pf.reopen ctx q = .ok none ∧
        ∀ x ∈ fs.flatten, Shows q x.feature → x.Found q →
          withoutSmallRings (simplified (fun l => env.rd (env.mkMask l) q.z) x.feature.geometry) = .null) ∧
      ((∀ x ∈ fs.flatten, x.feature.layer < ctx.layerNames.length) → 0 < ctx.layerNames.length → ∀ sea, SeaTree sea ctx.seaside →
        ∀ q : Tile, q.Valid → q.z ≤ 20 →
        10 < q.z ∨ InArea (dbBounds (features.map (·.1))) q ∨ (∃ t ∈ sea, AncOrSelf t q) ∨ (∀ t ∈ sea, ¬ AncOrSelf q t) →
        (∀ x ∈ fs.flatten, Drawable (fun l => env.rd (env.mkMask l) q.z) x.feature) →
        (∀ gs i, (∀ g ∈ gs, (∃ t, g = seaSquare t) ∨ ∃ x ∈ fs.flatten, StoredAs (fun l => env.rd (env.mkMask l) q.z) x.feature g) →
          ∀ f ∈ candidates (drawing ctx 10 q).toRenderCtx (specOf q) (ofLayer gs i), NoLongLine (drawing ctx 10 q).toRenderCtx q f) →
        ∃ leafs gs bytes layers, bqAllLeafs ctx.seaside q = .ok leafs ∧
          (∀ g ∈ gs, ∃ x ∈ fs.flatten, Shows q x.feature ∧ x.Found q ∧ StoredAs (fun l => env.rd (env.mkMask l) q.z) x.feature g) ∧
          (∀ x ∈ fs.flatten, Shows q x.feature → x.Found q →
            withoutSmallRings (simplified (fun l => env.rd (env.mkMask l) q.z) x.feature.geometry) ≠ .null → ∃ g ∈ gs, StoredAs (fun l => env.rd (env.mkMask l) q.z) x.feature g) ∧
          layers = tileContent (drawing ctx 10 q).toRenderCtx (specOf q) (leafs.map seaSquare ++ gs) ∧
          getTile b.tiles features b.pf.reopen ctx q = .ok (if bytes = [] then none else some (ctx.encode bytes)) ∧
          (bytes.length < 2 ^ 32 → clientTile bytes = some layers ∧ (bytes = [] ↔ layers = [])) ∧
          (∀ L ∈ layers, L.version = 2 ∧ L.extent = 4096 ∧ L.features ≠ [] ∧ ∃ i, ctx.layerNames[i]? = some L.name ∧ ∀ c ∈ L.features,
            ((i = 0 ∧ c.type = 3 ∧ c.tags = [] ∧ ∃ t ∈ sea, AncOrSelf t q ∨ AncOrSelf q t) ∨
              ∃ x ∈ fs.flatten, Shows q x.feature ∧ x.feature.layer = i ∧ c.id = x.feature.id ∧ c.type = typeOf x.feature.geometry ∧ c.tags.Perm (tagsOf x.feature.metas)) ∧
            ∀ part ∈ c.parts, ∀ p ∈ part.points, InMargin e q.z p) ∧
          (∀ f, whole f ∈ fs.flatten → f.zmin ≤ q.z → q.z ≤ f.zmax →
            (∀ x ∈ fs.flatten, x.feature.layer = f.layer → x.feature.id = f.id → typeOf x.feature.geometry = 1 → x.feature = f) →
            ∀ ps, f.geometry = .point ps → ∀ px py : Nat, (⟨px, py⟩ : XY) ∈ ps → PointIn q px py →
            ∃ L ∈ layers, ctx.layerNames[f.layer]? = some L.name ∧ ∃ c ∈ L.features, c.id = f.id ∧ c.type = 1 ∧ c.tags.Perm (tagsOf f.metas) ∧
              ⟨[⟨px / 2 ^ (20 - q.z) - q.x * 4096, py / 2 ^ (20 - q.z) - q.y * 4096⟩], false⟩ ∈ c.parts)) := by
  obtain ⟨_, fs, h1, hout, h2⟩ := served_all env coast osm hsrt hm hw hin runs hacts a b hr hsmall hsize features hdb ctx hctx hrd hdec hc
  obtain ⟨_, himp, _⟩ := hin _ _ h1
  refine ⟨fs, h1, hout, fun hlay hpos sea hsea q hv hz hwhere hdraw hshort => ?_⟩
  obtain ⟨leafs, gs, h3, h4, h5, h6⟩ := h2 hlay hpos sea hsea q hv hz hwhere
  obtain ⟨leafs', h7, _, h8, _, hleaf⟩ := hsea.leafs hv hz
  rw [h3] at h7; injection h7 with h7; subst h7
  have hnames : (drawing ctx 10 q).layerNames = ctx.layerNames := by rw [drawing]; split <;> rfl
  have hclip' : (drawing ctx 10 q).clip = clipGeometry inter clipper correct := by rw [← hclip, drawing]; split <;> rfl
  have hagg' : ∀ fs out, aggregateLineFeatures simplify q.z fs = .ok out → (drawing ctx 10 q).aggregate q.z fs = out := by
    intro fs out ho
    rw [show (drawing ctx 10 q).aggregate = ctx.aggregate by rw [drawing]; split <;> rfl]
    exact hagg q.z fs out ho
  have hfrom : ∀ g ∈ leafs.map seaSquare ++ gs, (∃ t, g = seaSquare t) ∨ ∃ x ∈ fs.flatten, StoredAs (fun l => env.rd (env.mkMask l) q.z) x.feature g := by
    intro g hg
    rcases List.mem_append.1 hg with hg | hg
    · obtain ⟨t, _, rfl⟩ := List.mem_map.1 hg
      exact .inl ⟨t, rfl⟩
    · obtain ⟨f, k1, _, _, k2⟩ := h4 g hg
      exact .inr ⟨f, k1, k2⟩
  have hren : ∀ g ∈ leafs.map seaSquare ++ gs, Renderable g := by
    intro g hg
    rcases List.mem_append.1 hg with hg | hg
    · obtain ⟨t, ht, rfl⟩ := List.mem_map.1 hg
      exact sea_renderable (h8 t ht).1 (h8 t ht).2
    · obtain ⟨f, k1, _, _, k2⟩ := h4 g hg
      exact stored_renderable (himp f k1).toPackable.toFeatureOk (hdraw f k1) k2
  have hsh := fun i => hshort (leafs.map seaSquare ++ gs) i hfrom
  have hok : ∀ i, LayerOk (drawing ctx 10 q).toRenderCtx (specOf q) (ofLayer (leafs.map seaSquare ++ gs) i) := fun i =>
    (C62_layer hl he he' (drawing ctx 10 q).toRenderCtx hclip' q hz hagg' _ (fun g hg => hren g (List.mem_filter.1 hg).1) (hsh i)).1
  obtain ⟨bytes, h9, h10⟩ := h6 hok
  refine ⟨leafs, gs, bytes, tileContent (drawing ctx 10 q).toRenderCtx (specOf q) (leafs.map seaSquare ++ gs), h3, h4, h5, rfl, h9, h10, fun L hL => ?_, ?_⟩
  · obtain ⟨k1, k2, k3, i, k4, k5⟩ := C62_content hl he he' (drawing ctx 10 q).toRenderCtx hclip' q hz hagg' _ hren hsh L hL
    refine ⟨k1, k2, k3, i, by rw [← hnames]; exact k4, fun c hcm => ?_⟩
    obtain ⟨⟨g, m1, mn, m2, m3, m4, m5⟩, m6⟩ := k5 c hcm
    refine ⟨?_, m6⟩
    rcases List.mem_append.1 m1 with hg | hg
    · obtain ⟨t, ht, rfl⟩ := List.mem_map.1 hg
      refine .inl ⟨m2.symm, m4, by rw [m5, sea_tags], ?_⟩
      by_cases hcov : ∃ t ∈ sea, AncOrSelf t q
      · obtain ⟨t', ht', hanc⟩ := hcov
        exact ⟨t', ht', .inl hanc⟩
      · obtain ⟨hm1, hm2, _⟩ := (hleaf hcov t).1 ht
        exact ⟨t, hm1.1, .inr hm2⟩
    · obtain ⟨⟨f, tl⟩, n1, n2, _, ms, n3, rfl⟩ := h4 g hg
      refine .inr ⟨⟨f, tl⟩, n1, n2, m2, m3, ?_, ?_⟩
      · rw [m4]
        have hne : withoutSmallRings (simplified (fun l => env.rd (env.mkMask l) q.z) f.geometry) ≠ .null := mn
        show typeOf (withoutSmallRings (simplified (fun l => env.rd (env.mkMask l) q.z) f.geometry)) = _
        cases hgeo : f.geometry with
        | polygon ps =>
          rw [hgeo] at hne
          simp only [simplified, withoutSmallRings] at hne ⊢
          split
          · rename_i heq
            rw [heq] at hne
            exact absurd rfl hne
          · rfl
        | _ => rfl
      · rw [m5]; exact tagsOf_perm n3
  · intro f hf hz1 hz2 hone ps hgeo px py hp hpin
    have hbox : boxMeets f q := by
      refine ⟨px, py, ?_, hpin⟩
      have := (foldl_expand ps inverseBox).2.2.2.2.1 _ hp
      rw [hgeo]
      exact ⟨this.1, this.2.2.1, this.2.1, this.2.2.2⟩
    have hsf := shows_found (himp _ hf) hv hz hz1 hz2 hbox (whole_reaches _ _)
    obtain ⟨g, hg, hs⟩ := h5 (whole f) hf hsf.1 hsf.2 (by show withoutSmallRings (simplified _ f.geometry) ≠ _; rw [hgeo]; simp [simplified, withoutSmallRings])
    obtain ⟨ms, hms, rfl⟩ := hs
    have hmem : ({ f with metas := ms, geometry := withoutSmallRings (simplified (fun l => env.rd (env.mkMask l) q.z) f.geometry) } : Feature) ∈ leafs.map seaSquare ++ gs :=
      List.mem_append_right _ hg
    obtain ⟨L, k1, k2, c, k3, k4, k5, k6, k7⟩ := C62_point (drawing ctx 10 q).toRenderCtx hclip' q hz _ _ hmem (by rw [hnames]; exact hlay (whole f) hf) (by
      intro g' hg' n1 n2 n3
      have hty : typeOf g'.geometry = 1 := by rw [n3]; simp [hgeo, simplified, withoutSmallRings, typeOf]
      rcases List.mem_append.1 hg' with hg' | hg'
      · obtain ⟨t, _, rfl⟩ := List.mem_map.1 hg'
        cases hty
      · obtain ⟨⟨f', tl⟩, o1, _, _, ms', o2, rfl⟩ := h4 g' hg'
        dsimp only at n1 n2 n3 hty o2
        have ht' : typeOf f'.geometry = 1 := by
          cases hg2 : f'.geometry with
          | point ps' => rfl
          | null => rw [hg2] at hty; cases hty
          | polyline ps' => rw [hg2] at hty; cases hty
          | polygon ps' =>
            rw [hg2] at hty
            simp only [simplified, withoutSmallRings] at hty
            split at hty <;> cases hty
        have := hone _ o1 n1 n2 ht'
        dsimp only at this
        subst this
        exact ⟨rfl, o2.trans hms.symm⟩) ps (by simp [hgeo, simplified, withoutSmallRings]) px py hp hpin
    exact ⟨L, k1, by rw [← hnames]; exact k2, c, k3, k4, k5, k6.trans (tagsOf_perm hms), k7⟩

/-- `C62_served`, with what the tile is drawn from: squares of sea and features read from the file -/
theorem served_drawn {ι : Type} (env : ImportEnv ι) (coast osm : Bool) (hsrt : SortsByKey env.srt)
    (hm : ∀ l z, (env.rd (env.mkMask l) z).length = l.length) (hw : 0 < env.workers)
    (hin : ∀ fs i, env.loads coast osm fs i → (env.decOf i).length ≤ 2 ^ 64 ∧ (∀ x ∈ fs.flatten, Importable env.mkMask (env.decOf i) plainOf x) ∧ fs.flatten.length < 2 ^ 32)
    (runs : List (List String)) (hacts : changes runs = [.load coast osm, .pack, .tiles]) (a b : TileDb ι) (hr : Imports (importParts env) runs a b)
    (hsmall : SmallPacks b.features) (hsize : b.pf.reopen.size < 2 ^ 64) (features : List (UInt64 × Bytes)) (hdb : EntriesOf b.features features)
    (ctx : GetCtx) (hctx : ∃ m, env.ctxOf b.info = { ctx with maxPrepared := m }) (hrd : ctx.rd = env.rd) (hdec : ctx.dec = env.decOf b.info) (hc : Serving ctx 10)
    -- the libraries
    (e : Int) (he : 0 ≤ e) (he' : e ≤ 2 ^ 20) (inter : Box → List Line → List Line) (clipper : List Line → Box → Option (List PolyNode))
    (correct : List Polygon → List Polygon) (hl : ClipLib e inter clipper correct) (hclip : ctx.clip = clipGeometry inter clipper correct)
    (simplify : Nat → Line → Line) (hagg : ∀ z fs out, aggregateLineFeatures simplify z fs = .ok out → ctx.aggregate z fs = out) :
    ∃ fs, env.loads coast osm fs b.info ∧
      ((∀ x ∈ fs.flatten, x.feature.layer < ctx.layerNames.length) → 0 < ctx.layerNames.length → ∀ sea, SeaTree sea ctx.seaside →
        ∀ q : Tile, q.Valid → q.z ≤ 20 →
        10 < q.z ∨ InArea (dbBounds (features.map (·.1))) q ∨ (∃ t ∈ sea, AncOrSelf t q) ∨ (∀ t ∈ sea, ¬ AncOrSelf q t) →
        (∀ x ∈ fs.flatten, Drawable (fun l => env.rd (env.mkMask l) q.z) x.feature) →
        (∀ gs i, (∀ g ∈ gs, (∃ t, g = seaSquare t) ∨ ∃ x ∈ fs.flatten, StoredAs (fun l => env.rd (env.mkMask l) q.z) x.feature g) →
          ∀ f ∈ candidates (drawing ctx 10 q).toRenderCtx (specOf q) (ofLayer gs i), NoLongLine (drawing ctx 10 q).toRenderCtx q f) →
        ∃ leafs gs bytes layers, bqAllLeafs ctx.seaside q = .ok leafs ∧
          (∀ g ∈ gs, ∃ x ∈ fs.flatten, Shows q x.feature ∧ x.Indexed q ∧ StoredAs (fun l => env.rd (env.mkMask l) q.z) x.feature g) ∧
          (∀ x ∈ fs.flatten, x.feature.zmin ≤ q.z → q.z ≤ x.feature.zmax → boxMeets x.feature q → x.Reaches q →
            withoutSmallRings (simplified (fun l => env.rd (env.mkMask l) q.z) x.feature.geometry) ≠ .null → ∃ g ∈ gs, StoredAs (fun l => env.rd (env.mkMask l) q.z) x.feature g) ∧
          layers = tileContent (drawing ctx 10 q).toRenderCtx (specOf q) (leafs.map seaSquare ++ gs) ∧
          getTile b.tiles features b.pf.reopen ctx q = .ok (if bytes = [] then none else some (ctx.encode bytes)) ∧
          (bytes.length < 2 ^ 32 → clientTile bytes = some layers ∧ (bytes = [] ↔ layers = [])) ∧
          (∀ L ∈ layers, L.version = 2 ∧ L.extent = 4096 ∧ L.features ≠ [] ∧ ∃ i, ctx.layerNames[i]? = some L.name ∧ ∀ c ∈ L.features,
            ((i = 0 ∧ c.type = 3 ∧ c.tags = [] ∧ ∃ t ∈ sea, AncOrSelf t q ∨ AncOrSelf q t) ∨
              ∃ x ∈ fs.flatten, Shows q x.feature ∧ x.feature.layer = i ∧ c.id = x.feature.id ∧ c.type = typeOf x.feature.geometry ∧ c.tags.Perm (tagsOf x.feature.metas)) ∧
            ∀ part ∈ c.parts, ∀ p ∈ part.points, InMargin e q.z p) ∧
          (∀ f, whole f ∈ fs.flatten → f.zmin ≤ q.z → q.z ≤ f.zmax →
            (∀ x ∈ fs.flatten, x.feature.layer = f.layer → x.feature.id = f.id → typeOf x.feature.geometry = 1 → x.feature = f) →
            ∀ ps, f.geometry = .point ps → ∀ px py : Nat, (⟨px, py⟩ : XY) ∈ ps → PointIn q px py →
            ∃ L ∈ layers, ctx.layerNames[f.layer]? = some L.name ∧ ∃ c ∈ L.features, c.id = f.id ∧ c.type = 1 ∧ c.tags.Perm (tagsOf f.metas) ∧
              ⟨[⟨px / 2 ^ (20 - q.z) - q.x * 4096, py / 2 ^ (20 - q.z) - q.y * 4096⟩], false⟩ ∈ c.parts)) := by
  obtain ⟨fs, h1, _, h2⟩ := served_drawn_all env coast osm hsrt hm hw hin runs hacts a b hr hsmall hsize features hdb ctx hctx hrd hdec hc e he he' inter clipper correct hl hclip simplify hagg
  obtain ⟨_, himp, _⟩ := hin _ _ h1
  refine ⟨fs, h1, fun hlay hpos sea hsea q hv hz hwhere hdraw hshort => ?_⟩
  obtain ⟨leafs, gs, bytes, layers, k1, k2, k3, k4⟩ := h2 hlay hpos sea hsea q hv hz hwhere hdraw hshort
  refine ⟨leafs, gs, bytes, layers, k1, fun g hg => ?_, fun x hx n1 n2 n3 n4 => k3 x hx (shows_found (himp x hx) hv hz n1 n2 n3 n4).1 (shows_found (himp x hx) hv hz n1 n2 n3 n4).2, k4⟩
  obtain ⟨x, m1, m2, m3, m4⟩ := k2 g hg
  exact ⟨x, m1, m2, found_indexed m3, m4⟩

/-- The whole way, from the imported features to what a client sees: after a complete import (as in C54) the server answers every tile; the answer decodes, and
* every layer has a name of the list; every feature in it is a sea square (in the first layer, without tags; only if a seaside tile contains the tile or lies in it) or has the id, the type and the tags of an imported feature of
  that layer whose box meets the tile's drawing area and which is visible at the zoom level; every coordinate is in the tile's margin;
* every point of an imported point feature that lies in the tile, at a zoom level at which the feature is visible, is there: in its layer, with id and tags, at its place
  (unless another point feature of the layer has the same id). -/
theorem C62_served {ι : Type} (env : ImportEnv ι) (coast osm : Bool) (hsrt : SortsByKey env.srt)
    (hm : ∀ l z, (env.rd (env.mkMask l) z).length = l.length) (hw : 0 < env.workers)
    (hin : ∀ fs i, env.loads coast osm fs i → (env.decOf i).length ≤ 2 ^ 64 ∧ (∀ x ∈ fs.flatten, Importable env.mkMask (env.decOf i) plainOf x) ∧ fs.flatten.length < 2 ^ 32)
    (runs : List (List String)) (hacts : changes runs = [.load coast osm, .pack, .tiles]) (a b : TileDb ι) (hr : Imports (importParts env) runs a b)
    (hsmall : SmallPacks b.features) (hsize : b.pf.reopen.size < 2 ^ 64) (features : List (UInt64 × Bytes)) (hdb : EntriesOf b.features features)
    (ctx : GetCtx) (hctx : ∃ m, env.ctxOf b.info = { ctx with maxPrepared := m }) (hrd : ctx.rd = env.rd) (hdec : ctx.dec = env.decOf b.info) (hc : Serving ctx 10)
    -- the libraries
    (e : Int) (he : 0 ≤ e) (he' : e ≤ 2 ^ 20) (inter : Box → List Line → List Line) (clipper : List Line → Box → Option (List PolyNode))
    (correct : List Polygon → List Polygon) (hl : ClipLib e inter clipper correct) (hclip : ctx.clip = clipGeometry inter clipper correct)
    (simplify : Nat → Line → Line) (hagg : ∀ z fs out, aggregateLineFeatures simplify z fs = .ok out → ctx.aggregate z fs = out) :
    ∃ fs, env.loads coast osm fs b.info ∧
      ((∀ x ∈ fs.flatten, x.feature.layer < ctx.layerNames.length) → 0 < ctx.layerNames.length → ∀ sea, SeaTree sea ctx.seaside →
        ∀ q : Tile, q.Valid → q.z ≤ 20 →
        10 < q.z ∨ InArea (dbBounds (features.map (·.1))) q ∨ (∃ t ∈ sea, AncOrSelf t q) ∨ (∀ t ∈ sea, ¬ AncOrSelf q t) →
        (∀ x ∈ fs.flatten, Drawable (fun l => env.rd (env.mkMask l) q.z) x.feature) →
        (∀ gs i, (∀ g ∈ gs, (∃ t, g = seaSquare t) ∨ ∃ x ∈ fs.flatten, StoredAs (fun l => env.rd (env.mkMask l) q.z) x.feature g) →
          ∀ f ∈ candidates (drawing ctx 10 q).toRenderCtx (specOf q) (ofLayer gs i), NoLongLine (drawing ctx 10 q).toRenderCtx q f) →
        ∃ bytes layers, getTile b.tiles features b.pf.reopen ctx q = .ok (if bytes = [] then none else some (ctx.encode bytes)) ∧
          (bytes.length < 2 ^ 32 → clientTile bytes = some layers ∧ (bytes = [] ↔ layers = [])) ∧
          (∀ L ∈ layers, L.version = 2 ∧ L.extent = 4096 ∧ L.features ≠ [] ∧ ∃ i, ctx.layerNames[i]? = some L.name ∧ ∀ c ∈ L.features,
            ((i = 0 ∧ c.type = 3 ∧ c.tags = [] ∧ ∃ t ∈ sea, AncOrSelf t q ∨ AncOrSelf q t) ∨
              ∃ x ∈ fs.flatten, Shows q x.feature ∧ x.feature.layer = i ∧ c.id = x.feature.id ∧ c.type = typeOf x.feature.geometry ∧ c.tags.Perm (tagsOf x.feature.metas)) ∧
            ∀ part ∈ c.parts, ∀ p ∈ part.points, InMargin e q.z p) ∧
          (∀ f, whole f ∈ fs.flatten → f.zmin ≤ q.z → q.z ≤ f.zmax →
            (∀ x ∈ fs.flatten, x.feature.layer = f.layer → x.feature.id = f.id → typeOf x.feature.geometry = 1 → x.feature = f) →
            ∀ ps, f.geometry = .point ps → ∀ px py : Nat, (⟨px, py⟩ : XY) ∈ ps → PointIn q px py →
            ∃ L ∈ layers, ctx.layerNames[f.layer]? = some L.name ∧ ∃ c ∈ L.features, c.id = f.id ∧ c.type = 1 ∧ c.tags.Perm (tagsOf f.metas) ∧
              ⟨[⟨px / 2 ^ (20 - q.z) - q.x * 4096, py / 2 ^ (20 - q.z) - q.y * 4096⟩], false⟩ ∈ c.parts)) := by
  obtain ⟨fs, h1, h2⟩ := served_drawn env coast osm hsrt hm hw hin runs hacts a b hr hsmall hsize features hdb ctx hctx hrd hdec hc e he he' inter clipper correct hl hclip simplify hagg
  refine ⟨fs, h1, fun hlay hpos sea hsea q hv hz hwhere hdraw hshort => ?_⟩
  obtain ⟨_, _, bytes, layers, _, _, _, _, h3⟩ := h2 hlay hpos sea hsea q hv hz hwhere hdraw hshort
  exact ⟨bytes, layers, h3⟩

/-! ### what is not accepted -/

theorem builders_add {ctx : RenderCtx} {s : TileSpec} {f : Feature} {name : Bytes} : ∀ {bs bs' : Builders}, Builders.add ctx s f name bs = .ok bs' →
    (∃ b b', (b = LayerBuilder.init name ∨ (f.layer, b) ∈ bs) ∧ b.add ctx s f = .ok b' ∧ (f.layer, b') ∈ bs' ∧
      (∀ i c, (i, c) ∈ bs' → (i, c) ∈ bs ∨ (i = f.layer ∧ c = b')) ∧ ∀ i c, (i, c) ∈ bs → (i, c) ∈ bs' ∨ (i = f.layer ∧ c = b)) := by
  intro bs
  induction bs with
  | nil =>
    intro bs' h
    rw [Builders.add] at h
    obtain ⟨b', h1, h2⟩ := Res.bind_eq_ok.1 h
    injection h2 with h2; subst h2
    exact ⟨_, b', .inl rfl, h1, by simp, by simp, by simp⟩
  | cons x bs ih =>
    obtain ⟨i, b⟩ := x
    intro bs' h
    rw [Builders.add] at h
    split at h
    · obtain ⟨b', h1, h2⟩ := Res.bind_eq_ok.1 h
      injection h2 with h2; subst h2
      refine ⟨_, b', .inl rfl, h1, by simp, ?_, ?_⟩
      · intro j c hc
        rcases List.mem_cons.1 hc with hc | hc
        · injection hc with h3 h4; exact .inr ⟨h3, h4⟩
        · exact .inl hc
      · intro j c hc; exact .inl (List.mem_cons_of_mem _ hc)
    · split at h
      · rename_i heq
        obtain ⟨b', h1, h2⟩ := Res.bind_eq_ok.1 h
        injection h2 with h2; subst h2
        refine ⟨b, b', .inr (by simp [heq]), h1, by simp [heq], ?_, ?_⟩
        · intro j c hc
          rcases List.mem_cons.1 hc with hc | hc
          · injection hc with h3 h4; exact .inr ⟨h3.trans heq.symm, h4⟩
          · exact .inl (List.mem_cons_of_mem _ hc)
        · intro j c hc
          rcases List.mem_cons.1 hc with hc | hc
          · injection hc with h3 h4; exact .inr ⟨h3.trans heq.symm, h4⟩
          · exact .inl (List.mem_cons_of_mem _ hc)
      · obtain ⟨bs2, h1, h2⟩ := Res.bind_eq_ok.1 h
        injection h2 with h2; subst h2
        obtain ⟨c, c', k1, k2, k3, k4, k5⟩ := ih h1
        refine ⟨c, c', k1.imp_right (List.mem_cons_of_mem _), k2, List.mem_cons_of_mem _ k3, ?_, ?_⟩
        · intro j d hd
          rcases List.mem_cons.1 hd with hd | hd
          · exact .inl (by rw [hd]; simp)
          · exact (k4 j d hd).imp_left (List.mem_cons_of_mem _)
        · intro j d hd
          rcases List.mem_cons.1 hd with hd | hd
          · exact .inl (by rw [hd]; simp)
          · exact (k5 j d hd).imp_left (List.mem_cons_of_mem _)

theorem writeFeature_polys {o : XY} {b b' : LayerBuilder} {f : Feature} (h : writeFeature o b f = .ok b') : b'.polyBuf = b.polyBuf ∧ b'.polyIds = b.polyIds := by
  rw [writeFeature] at h
  split at h
  · injection h with h; subst h; exact ⟨rfl, rfl⟩
  · obtain ⟨fs, _, h2⟩ := Res.bind_eq_ok.1 h
    injection h2 with h2; subst h2; exact ⟨rfl, rfl⟩

theorem drawNow_polys {ctx : RenderCtx} {s : TileSpec} {b b' : LayerBuilder} {f : Feature} (h : LayerBuilder.add.drawNow ctx s f b = .ok b') :
    b'.polyBuf = b.polyBuf ∧ b'.polyIds = b.polyIds := by
  rw [LayerBuilder.add.drawNow] at h
  obtain ⟨g, _, h2⟩ := Res.bind_eq_ok.1 h
  exact writeFeature_polys h2

/-- what `add` does to the polygons of a layer -/
theorem add_polys {ctx : RenderCtx} {s : TileSpec} {b b' : LayerBuilder} {f : Feature} (h : b.add ctx s f = .ok b') :
    (∀ g ∈ b.polyBuf, g ∈ b'.polyBuf) ∧ (∀ x ∈ b'.polyIds, x ∈ b.polyIds ∨ (typeOf f.geometry = 3 ∧ x = f.id)) ∧
    (typeOf f.geometry = 3 → f.id ∉ b.polyIds → (∃ g, drawGeometry ctx s f.geometry = .ok g) ∨ f ∈ b'.polyBuf) := by
  rw [LayerBuilder.add, LayerBuilder.seen] at h
  cases hg : f.geometry with
  | null =>
    rw [hg] at h
    injection h with h; subst h
    exact ⟨fun _ h => h, fun _ h => .inl h, by simp [typeOf]⟩
  | point ps =>
    simp only [hg] at h
    by_cases hi : f.id ∈ b.nodeIds
    · simp only [if_pos hi, if_true] at h
      injection h with h; subst h
      exact ⟨fun _ h => h, fun _ h => .inl h, by simp [typeOf]⟩
    · simp only [if_neg hi] at h
      obtain ⟨h1, h2⟩ := drawNow_polys h
      rw [h1, h2]
      exact ⟨fun _ h => h, fun _ h => .inl h, by simp [typeOf]⟩
  | polyline ps =>
    simp only [hg] at h
    by_cases hi : f.id ∈ b.lineIds
    · simp only [if_pos hi, if_true] at h
      injection h with h; subst h
      exact ⟨fun _ h => h, fun _ h => .inl h, by simp [typeOf]⟩
    · simp only [if_neg hi] at h
      by_cases ha : ctx.aggLines = true
      · simp only [ha, if_true, Bool.false_eq_true, if_false] at h
        injection h with h; subst h
        exact ⟨fun _ h => h, fun _ h => .inl h, by simp [typeOf]⟩
      · simp only [ha, if_false, Bool.false_eq_true] at h
        obtain ⟨h1, h2⟩ := drawNow_polys h
        rw [h1, h2]
        exact ⟨fun _ h => h, fun _ h => .inl h, by simp [typeOf]⟩
  | polygon ps =>
    simp only [hg] at h
    by_cases hi : f.id ∈ b.polyIds
    · simp only [if_pos hi, if_true] at h
      injection h with h; subst h
      exact ⟨fun _ h => h, fun _ h => .inl h, fun _ hc => absurd hi hc⟩
    · simp only [if_neg hi] at h
      by_cases ha : ctx.aggPolygons = true
      · simp only [ha, if_true, Bool.false_eq_true, if_false] at h
        injection h with h; subst h
        refine ⟨fun g hg => by simp [hg], fun x hx => ?_, fun _ _ => .inr (by simp)⟩
        rcases List.mem_cons.1 hx with hx | hx
        · exact .inr ⟨rfl, hx⟩
        · exact .inl hx
      · simp only [ha, if_false, Bool.false_eq_true] at h
        obtain ⟨h1, h2⟩ := drawNow_polys h
        rw [h1, h2]
        refine ⟨fun _ h => h, fun x hx => ?_, fun _ _ => .inl ?_⟩
        · rcases List.mem_cons.1 hx with hx | hx
          · exact .inr ⟨rfl, hx⟩
          · exact .inl hx
        · rw [LayerBuilder.add.drawNow, hg] at h
          obtain ⟨g, h3, _⟩ := Res.bind_eq_ok.1 h
          exact ⟨g, h3⟩

theorem tileAdd_builders {ctx : RenderCtx} {s : TileSpec} {bs bs' : Builders} {f : Feature} (h : tileAdd ctx s bs f = .ok bs') :
    ∃ name, Builders.add ctx s f name bs = .ok bs' := by
  rw [tileAdd] at h
  obtain ⟨n, _, h2⟩ := Res.bind_eq_ok.1 h
  exact ⟨n, h2⟩

/-- the ids of polygons come from the features -/
theorem tileAddAll_ids {ctx : RenderCtx} {s : TileSpec} : ∀ {fs gs : List Feature} {bs bs' : Builders}, tileAddAll ctx s bs fs = .ok bs' →
    (∀ i b, (i, b) ∈ bs → ∀ x ∈ b.polyIds, ∃ g ∈ gs, g.layer = i ∧ typeOf g.geometry = 3 ∧ g.id = x) →
    ∀ i b, (i, b) ∈ bs' → ∀ x ∈ b.polyIds, ∃ g ∈ gs ++ fs, g.layer = i ∧ typeOf g.geometry = 3 ∧ g.id = x := by
  intro fs
  induction fs with
  | nil =>
    intro gs bs bs' h hi
    injection h with h; subst h
    simpa using hi
  | cons f fs ih =>
    intro gs bs bs' h hi
    rw [tileAddAll] at h
    obtain ⟨bs1, h1, h2⟩ := Res.bind_eq_ok.1 h
    obtain ⟨name, h3⟩ := tileAdd_builders h1
    obtain ⟨b, b', k1, k2, _, k4, _⟩ := builders_add h3
    have := ih (gs := gs ++ [f]) h2 (by
      intro i c hc x hx
      rcases k4 i c hc with hc | ⟨rfl, rfl⟩
      · obtain ⟨g, l1, l2⟩ := hi i c hc x hx
        exact ⟨g, by simp [l1], l2⟩
      · rcases (add_polys k2).2.1 x hx with hx | ⟨hx, rfl⟩
        · rcases k1 with rfl | k1
          · simp [LayerBuilder.init] at hx
          · obtain ⟨g, l1, l2⟩ := hi _ b k1 x hx
            exact ⟨g, by simp [l1], l2⟩
        · exact ⟨f, by simp, rfl, by assumption, rfl⟩)
    simpa using this

theorem tileAddAll_buf {ctx : RenderCtx} {s : TileSpec} {g : Feature} : ∀ {fs : List Feature} {bs bs' : Builders}, tileAddAll ctx s bs fs = .ok bs' →
    (∃ i b, (i, b) ∈ bs ∧ g ∈ b.polyBuf) → ∃ i b, (i, b) ∈ bs' ∧ g ∈ b.polyBuf := by
  intro fs
  induction fs with
  | nil => intro bs bs' h hi; injection h with h; subst h; exact hi
  | cons f fs ih =>
    intro bs bs' h hi
    rw [tileAddAll] at h
    obtain ⟨bs1, h1, h2⟩ := Res.bind_eq_ok.1 h
    obtain ⟨name, h3⟩ := tileAdd_builders h1
    obtain ⟨b, b', k1, k2, k3, _, k5⟩ := builders_add h3
    obtain ⟨i, c, hc, hg⟩ := hi
    refine ih h2 ?_
    rcases k5 i c hc with hc | ⟨rfl, rfl⟩
    · exact ⟨i, c, hc, hg⟩
    · exact ⟨_, b', k3, (add_polys k2).1 g hg⟩

theorem writePolygons_refused {ctx : RenderCtx} {s : TileSpec} {f : Feature} (hf : ∀ g, drawGeometry ctx s f.geometry ≠ .ok g) :
    ∀ {fs : List Feature} {b b' : LayerBuilder}, f ∈ fs → writePolygons ctx s b fs ≠ .ok b' := by
  intro fs
  induction fs with
  | nil => intro b b' h; cases h
  | cons x fs ih =>
    intro b b' h hc
    rw [writePolygons] at hc
    obtain ⟨g, h1, h2⟩ := Res.bind_eq_ok.1 hc
    rcases List.mem_cons.1 h with rfl | h
    · exact hf g h1
    split at h2
    · exact ih h h2
    · obtain ⟨b1, _, h3⟩ := Res.bind_eq_ok.1 h2
      exact ih h h3

theorem tileLayers_refused {ctx : RenderCtx} {s : TileSpec} {f : Feature} (hagg : ctx.aggPolygons = true) (hf : ∀ g, drawGeometry ctx s f.geometry ≠ .ok g) :
    ∀ {bs : Builders} {ls : List PbfField}, (∃ i b, (i, b) ∈ bs ∧ f ∈ b.polyBuf) → tileLayers ctx s bs ≠ .ok ls := by
  intro bs
  induction bs with
  | nil => rintro ls ⟨i, b, h, _⟩; cases h
  | cons x bs ih =>
    obtain ⟨j, c⟩ := x
    rintro ls ⟨i, b, h, hm⟩ hc
    rw [tileLayers] at hc
    obtain ⟨c1, h1, h2⟩ := Res.bind_eq_ok.1 hc
    rcases List.mem_cons.1 h with h | h
    · injection h with _ h; subst h
      rw [LayerBuilder.aggregateGeometry, if_pos ⟨hagg, List.ne_nil_of_mem hm⟩] at h1
      obtain ⟨c2, h3, _⟩ := Res.bind_eq_ok.1 h1
      exact writePolygons_refused hf hm h3
    · split at h2
      · obtain ⟨_, _, h3⟩ := Res.bind_eq_ok.1 h2
        obtain ⟨_, h4, _⟩ := Res.bind_eq_ok.1 h3
        exact ih ⟨i, b, h, hm⟩ h4
      · exact ih ⟨i, b, h, hm⟩ h2

/-- A polygon that Clipper refuses (all of its rings are flat) makes the whole tile fail, whatever else is in it: there is no result, neither of the `add_feature`
calls nor of `finish` (unless an earlier polygon of the layer has the same id). -/
theorem C62_refused {inter : Box → List Line → List Line} {clipper : List Line → Box → Option (List PolyNode)} {correct : List Polygon → List Polygon}
    (ctx : RenderCtx) (hctx : ctx.clip = clipGeometry inter clipper correct) (q : Tile) (f : Feature) (ps : List Polygon) (hf : f.geometry = .polygon ps)
    (hne : ∀ r ∈ ringsOf ps, r ≠ []) (hno : clipper ((ringsOf ps).map List.dropLast) (drawBounds q) = none)
    (before after : List Feature) (hfirst : ∀ g ∈ before, g.layer = f.layer → typeOf g.geometry = 3 → g.id ≠ f.id) (debug : Option Bytes) (bytes : Bytes) :
    (do let bs ← tileAddAll ctx (specOf q) [] (before ++ f :: after); tileFinish ctx (specOf q) bs debug) ≠ .ok bytes := by
  have hdraw : drawGeometry ctx (specOf q) f.geometry = .throw_ := by
    rw [drawGeometry, hctx, hf]
    show (do let c ← clipPolygon clipper correct ps (drawBounds q); shiftGeometry c q.z) = _
    rw [clipPolygon, clipSubject_ok ps hne, Res.ok_bind, hno]
    rfl
  have hdraw' : ∀ g, drawGeometry ctx (specOf q) f.geometry ≠ .ok g := by intro g; rw [hdraw]; simp
  intro hc
  obtain ⟨bs, h1, h2⟩ := Res.bind_eq_ok.1 hc
  have hsplit : ∀ (l : List Feature) (b0 b1 : Builders) (r : List Feature), tileAddAll ctx (specOf q) b0 (l ++ r) = .ok b1 →
      ∃ b, tileAddAll ctx (specOf q) b0 l = .ok b ∧ tileAddAll ctx (specOf q) b r = .ok b1 := by
    intro l
    induction l with
    | nil => intro b0 b1 r h; exact ⟨b0, rfl, h⟩
    | cons x l ih =>
      intro b0 b1 r h
      rw [List.cons_append, tileAddAll] at h
      obtain ⟨b2, h3, h4⟩ := Res.bind_eq_ok.1 h
      obtain ⟨b, h5, h6⟩ := ih b2 b1 r h4
      exact ⟨b, by rw [tileAddAll, h3, Res.ok_bind]; exact h5, h6⟩
  obtain ⟨b0, h3, h4⟩ := hsplit _ _ _ _ h1
  have hids := tileAddAll_ids (gs := []) h3 (by simp)
  rw [tileAddAll] at h4
  obtain ⟨b1, h5, h6⟩ := Res.bind_eq_ok.1 h4
  obtain ⟨name, h7⟩ := tileAdd_builders h5
  obtain ⟨b, b', k1, k2, k3, _, _⟩ := builders_add h7
  have hnot : f.id ∉ b.polyIds := by
    rcases k1 with rfl | k1
    · simp [LayerBuilder.init]
    · intro hm
      obtain ⟨g, l1, l2, l3, l4⟩ := hids _ b k1 _ hm
      exact hfirst g (by simpa using l1) l2 l3 l4
  have hty : typeOf f.geometry = 3 := by rw [hf]; rfl
  have hbuf : f ∈ b'.polyBuf := ((add_polys k2).2.2 hty hnot).resolve_left (fun ⟨g, hg⟩ => hdraw' g hg)
  have hagg : ctx.aggPolygons = true := by
    by_contra ha
    rw [LayerBuilder.add, LayerBuilder.seen, hf] at k2
    simp only [if_neg hnot, ha, if_false, Bool.false_eq_true, LayerBuilder.add.drawNow, hdraw] at k2
    cases k2
  obtain ⟨i, c, m1, m2⟩ := tileAddAll_buf h6 ⟨_, _, k3, hbuf⟩
  rw [tileFinish] at h2
  obtain ⟨ls, m3, _⟩ := Res.bind_eq_ok.1 h2
  exact tileLayers_refused hagg hdraw' ⟨i, c, m1, m2⟩ m3

/-! ### the hypotheses are met -/

def C62_in (b : Box) (p : XY) : Bool := decide (b.min.x ≤ p.x ∧ p.x ≤ b.max.x ∧ b.min.y ≤ p.y ∧ p.y ≤ b.max.y)

/-- libraries that keep what is completely inside -/
def C62_inter (b : Box) (ls : List Line) : List Line := ls.filter (fun l => l.all (C62_in b))
def C62_clipper (ps : List Line) (b : Box) : Option (List PolyNode) :=
  if ps.all (fun p => decide (area2 p = 0)) then none else some ((ps.filter (fun p => !p.isEmpty && p.all (C62_in b))).map (fun p => .mk p false []))

theorem C62_lib : ClipLib 0 C62_inter C62_clipper id := by
  have hin : ∀ b p, C62_in b p = true → Around 0 b p := by
    intro b p h
    obtain ⟨h1, h2, h3, h4⟩ := of_decide_eq_true h
    exact ⟨by omega, by omega, by omega, by omega⟩
  refine ⟨?_, ?_, ?_, ?_⟩
  · intro box l q hq p hp
    exact hin _ _ (List.all_eq_true.1 (List.mem_filter.1 hq).2 p hp)
  · rintro paths box ⟨p, h1, h2⟩ hc
    rw [C62_clipper] at hc
    split at hc
    · rename_i hall
      exact h2 (of_decide_eq_true (List.all_eq_true.1 hall p h1))
    · cases hc
  · intro paths box nodes hn
    rw [C62_clipper] at hn
    split at hn
    · cases hn
    injection hn with hn
    subst hn
    have key : ∀ l : List Line, (∀ p ∈ l, p ≠ [] ∧ p.all (C62_in box) = true) → AltOuter (l.map (fun p => .mk p false [])) ∧
        ∀ q ∈ polysOf (l.map (fun p => .mk p false [])), ∀ r ∈ q.1 :: q.2, ∀ p ∈ r, Around 0 box p := by
      intro l hl
      induction l with
      | nil => exact ⟨by simp [AltOuter], by simp [polysOf]⟩
      | cons p l ih =>
        obtain ⟨i1, i2⟩ := ih (fun p hp => hl p (by simp [hp]))
        obtain ⟨j1, j2⟩ := hl p (by simp)
        rw [List.map_cons, AltOuter, polysOf, holesOf, polysBelow]
        refine ⟨⟨j1, rfl, by rw [AltHole]; trivial, i1⟩, fun q hq => ?_⟩
        rcases List.mem_cons.1 hq with rfl | hq
        · intro r hr x hx
          simp only [List.mem_singleton] at hr
          subst hr
          exact hin _ _ (List.all_eq_true.1 j2 x hx)
        · exact i2 q (by simpa using hq)
    refine key _ (fun p hp => ?_)
    have := (List.mem_filter.1 hp).2
    simpa using this
  · intro ps _
    show List.Forall₂ _ ps ps
    have hself : ∀ l : List Line, List.Forall₂ SameRing l l := by
      intro l
      induction l with
      | nil => exact .nil
      | cons a l ih => exact .cons (.inl rfl) ih
    induction ps with
    | nil => exact .nil
    | cons p ps ih => exact .cons ⟨.inl rfl, hself _⟩ (ih (fun r hr => by simp_all [ringsOf]))

example : Clippable (.polygon [⟨[⟨0, 0⟩, ⟨4, 0⟩, ⟨4, 4⟩, ⟨0, 0⟩], [[⟨1, 1⟩, ⟨2, 1⟩, ⟨3, 1⟩, ⟨1, 1⟩]]⟩]) := by
  refine ⟨by simp [ringsOf], _, List.mem_cons_self, by decide⟩
/-- a flat polygon -/
example : C62_clipper ((ringsOf [⟨[⟨0, 0⟩, ⟨4, 0⟩, ⟨8, 0⟩, ⟨0, 0⟩], []⟩]).map List.dropLast) (drawBounds ⟨0, 0, 0⟩) = none := by decide

example (before after : List Feature) (h : ∀ g ∈ before, g.layer ≠ 0) (bytes : Bytes) (ctx : RenderCtx) (hctx : ctx.clip = clipGeometry C62_inter C62_clipper id) :
    (do let bs ← tileAddAll ctx (specOf ⟨0, 0, 0⟩) [] (before ++ (⟨7, 0, 0, 20, [], .polygon [⟨[⟨0, 0⟩, ⟨4, 0⟩, ⟨8, 0⟩, ⟨0, 0⟩], []⟩]⟩ : Feature) :: after)
        tileFinish ctx (specOf ⟨0, 0, 0⟩) bs none) ≠ .ok bytes :=
  C62_refused ctx hctx ⟨0, 0, 0⟩ _ [⟨[⟨0, 0⟩, ⟨4, 0⟩, ⟨8, 0⟩, ⟨0, 0⟩], []⟩] rfl (by simp [ringsOf]) (by decide) before after (fun g hg h' => absurd h' (h g hg)) none bytes

def C62_agg (z : Nat) (fs : List Feature) : List Feature := match aggregateLineFeatures (fun _ l => l) z fs with | .ok out => out | _ => []

def C62_ctx : GetCtx := { C54_ctx with clip := clipGeometry C62_inter C62_clipper id, aggregate := C62_agg }

theorem C62_renders : C54_renders C62_ctx = true := by decide +kernel

theorem C62_drawable (simp : Line → List Bool) : Drawable simp C14_ex := by
  refine ⟨?_, fun ps qs h => (by cases h), fun ls h => (by cases h)⟩
  intro m hm
  have : m = ⟨[1, 2, 3, 4, 5, 6, 7, 8], [2, 3, 4, 5, 6, 7, 8, 9]⟩ := by
    rw [exported] at hm
    simpa [C14_ex] using (List.mem_filter.1 hm).1
  subst this
  exact ⟨_, rfl⟩

/-- the lines of what is drawn of points and of sea squares are short -/
theorem short_points (F : List Feature) (hF : ∀ f ∈ F, ∃ p, f.geometry = .point [p]) (ctx : RenderCtx) (hctx : ctx.clip = clipGeometry C62_inter C62_clipper id) (q : Tile) (gs : List Feature) (i : Nat) {simp : Line → List Bool}
    (hgs : ∀ g ∈ gs, (∃ t, g = seaSquare t) ∨ ∃ f ∈ F, StoredAs simp f g)
    (f : Feature) (hf : f ∈ candidates ctx (specOf q) (ofLayer gs i)) : NoLongLine ctx q f := by
  have hsub : ∀ g ∈ ofLayer gs i, g ∈ gs := fun g hg => (List.mem_filter.1 hg).1
  have hfrom : ∀ g ∈ gs, isLine g = false ∧ ((∃ t, g = seaSquare t) ∨ ∃ p, g.geometry = .point [p]) := by
    intro g hg
    rcases hgs g hg with ⟨t, rfl⟩ | ⟨f, h1, ms, _, rfl⟩
    · exact ⟨rfl, .inl ⟨t, rfl⟩⟩
    · obtain ⟨p, hp⟩ := hF f h1
      simp only [hp, simplified, withoutSmallRings]
      exact ⟨rfl, .inr ⟨p, rfl⟩⟩
  have hmem : f ∈ gs := by
    rcases candidates_from hf with h | h
    · exact hsub f h
    · rw [joinedLines] at h
      have hb : bufferedLines ctx (ofLayer gs i) = [] := by
        rw [List.eq_nil_iff_forall_not_mem]
        intro g hg
        obtain ⟨h1, h2⟩ := bufferedLines_from hg
        rw [(hfrom g (hsub g h1)).1] at h2
        cases h2
      rw [if_pos hb] at h
      cases h
  intro c hc l hl
  have hc : ctx.clip f.geometry (drawBounds q) = .ok c := hc
  rw [hctx] at hc
  rcases (hfrom f hmem).2 with ⟨t, rfl⟩ | ⟨p, h⟩
  · have hg : (seaSquare t).geometry = squareOf (drawBounds t) := rfl
    have hone : ∀ (p : Line) (b : Box), C62_clipper [p] b = none ∨ C62_clipper [p] b = some [] ∨ C62_clipper [p] b = some [.mk p false []] := by
      intro p b
      rw [C62_clipper]
      split
      · exact .inl rfl
      · rw [List.filter_cons]
        split
        · exact .inr (.inr rfl)
        · exact .inr (.inl rfl)
    generalize drawBounds t = d at hg
    rw [hg, squareOf, clipGeometry, clipPolygon, clipSubject_ok _ (by simp [ringsOf]), Res.ok_bind] at hc
    rw [show (ringsOf [⟨[⟨d.min.x, d.min.y⟩, ⟨d.min.x, d.max.y⟩, ⟨d.max.x, d.max.y⟩, ⟨d.max.x, d.min.y⟩, ⟨d.min.x, d.min.y⟩], []⟩]).map List.dropLast =
      [[⟨d.min.x, d.min.y⟩, ⟨d.min.x, d.max.y⟩, ⟨d.max.x, d.max.y⟩, ⟨d.max.x, d.min.y⟩]] from rfl] at hc
    rcases hone [⟨d.min.x, d.min.y⟩, ⟨d.min.x, d.max.y⟩, ⟨d.max.x, d.max.y⟩, ⟨d.max.x, d.min.y⟩] (drawBounds q) with h | h | h
    · rw [h] at hc; cases hc
    · rw [h] at hc; injection hc with hc; subst hc; cases hl
    · rw [h] at hc
      have hc : Res.ok (Geometry.polygon [⟨[⟨d.min.x, d.min.y⟩, ⟨d.min.x, d.max.y⟩, ⟨d.max.x, d.max.y⟩, ⟨d.max.x, d.min.y⟩, ⟨d.min.x, d.min.y⟩], []⟩]) = .ok c := by
        rw [← hc]; simp [toFixedPolygon, toFixedInners, pathToRing, verify]
      injection hc with hc; subst hc
      simp only [allLines, ringsOf, List.flatMap_cons, List.flatMap_nil, List.append_nil, List.mem_singleton] at hl
      subst hl
      norm_num
  · rw [h] at hc
    have : c = .point [p] ∨ c = .null := by
      rw [clipGeometry, clipPoint, clipPointLoop] at hc
      split at hc
      · injection hc with hc; exact .inl hc.symm
      · injection hc with hc; exact .inr hc.symm
    rcases this with rfl | rfl
    · simp only [allLines, List.mem_singleton] at hl
      subst hl
      norm_num
    · cases hl

theorem short_of (ctx : RenderCtx) (hctx : ctx.clip = clipGeometry C62_inter C62_clipper id) (q : Tile) (gs : List Feature) (i : Nat) {simp : Line → List Bool}
    (hgs : ∀ g ∈ gs, (∃ t, g = seaSquare t) ∨ ∃ x ∈ [[whole C14_ex]].flatten, StoredAs simp x.feature g)
    (f : Feature) (hf : f ∈ candidates ctx (specOf q) (ofLayer gs i)) : NoLongLine ctx q f :=
  short_points [C14_ex] (by intro f hf; rw [show f = C14_ex by simpa using hf]; exact ⟨_, rfl⟩) ctx hctx q gs i
    (by simpa [whole] using hgs) f hf

theorem C62_short (q : Tile) (gs : List Feature) (i : Nat) {simp : Line → List Bool}
    (hgs : ∀ g ∈ gs, (∃ t, g = seaSquare t) ∨ ∃ x ∈ [[whole C14_ex]].flatten, StoredAs simp x.feature g)
    (f : Feature) (hf : f ∈ candidates C62_ctx.toRenderCtx (specOf q) (ofLayer gs i)) : NoLongLine C62_ctx.toRenderCtx q f :=
  short_of C62_ctx.toRenderCtx rfl q gs i hgs f hf

/-- The tile 11/1024/0 after the import of one point (2147483649, 5): the client sees it at (0, 0), as its coordinates are in units of level 20. -/
example : ∃ (b : TileDb Unit) (bytes : Bytes) (layers : List ClientLayer), Imports (importParts { C54_env with ctxOf := fun _ => C62_ctx }) [["all"]]
      ⟨(), none, fun _ => none, fun _ => none, ⟨[], 0⟩⟩ b ∧
    getTile b.tiles C54_entries b.pf.reopen C62_ctx ⟨1024, 0, 11⟩ = .ok (if bytes = [] then none else some (C62_ctx.encode bytes)) ∧
    (bytes.length < 2 ^ 32 → clientTile bytes = some layers ∧ (bytes = [] ↔ layers = [])) ∧
    ∃ L ∈ layers, L.name = [97] ∧ ∃ c ∈ L.features, c.id = 7 ∧ c.type = 1 ∧ ⟨[⟨0, 0⟩], false⟩ ∈ c.parts := by
  obtain ⟨b, h1, h2, h3, h4⟩ := runs_with C62_ctx C62_renders
  obtain ⟨fs, h5, h6⟩ := C62_served { C54_env with ctxOf := fun _ => C62_ctx } true true C13_sort_exists (fun l z => by simp [C54_env, C52_mk, C52_rd])
    (by decide) (by
      intro fs i hfs
      have hfs : fs = [[whole C14_ex]] := hfs
      subst hfs
      refine ⟨by simp [C54_env], fun f hf => ?_, by decide⟩
      rw [show f = whole C14_ex by simpa using hf]
      exact C52_ex_ok) [["all"]] (by simp [changes, actsOf, Asked]) _ b h1 h2 h3 C54_entries h4 C62_ctx ⟨10, rfl⟩ rfl rfl ⟨rfl, rfl, rfl, rfl⟩
    0 (by omega) (by norm_num) C62_inter C62_clipper id C62_lib rfl (fun _ l => l) (by intro z fs out h; show C62_agg z fs = out; rw [C62_agg, h])
  have h5 : fs = [[whole C14_ex]] := h5
  subst h5
  have hmem : ∀ f ∈ [[whole C14_ex]].flatten, f = whole C14_ex := by simp
  obtain ⟨bytes, layers, k1, k2, _, k3⟩ := h6 (by intro f hf; rw [hmem f hf]; decide) (by decide) C29_sea C29_sea_tree ⟨1024, 0, 11⟩ (by decide) (by decide) (.inl (by decide))
    (by intro f hf; rw [hmem f hf]; exact C62_drawable _) (by
      intro gs i hgs f hf c hcl l hl
      exact C62_short _ gs i hgs f hf c hcl l hl)
  obtain ⟨L, m1, m2, c, m3, m4, m5, _, m6⟩ := k3 C14_ex (by simp) (by decide) (by decide) (by intro f' hf' _ _ _; rw [hmem f' hf']; rfl) _ rfl 2147483649 5 (by simp) (by decide)
  refine ⟨b, bytes, layers, h1, k1, k2, L, m1, ?_, c, m3, m4, m5, m6⟩
  have : C62_ctx.layerNames[C14_ex.layer]? = some [97] := by decide
  rw [this] at m2; injection m2 with m2; exact m2.symm

end Tiles
