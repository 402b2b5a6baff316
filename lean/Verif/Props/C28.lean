import Verif.Spec.TileContent
/-
C28  Tiles contain each feature once and its tags resolve.
-/
namespace Tiles
open Spec

/-! ### one layer -/

theorem mem_firsts {fs : List Feature} {f : Feature} (h : f ∈ firsts fs) : f ∈ fs := by
  induction fs with
  | nil => exact h
  | cons g fs ih =>
    rw [firsts] at h
    rcases List.mem_cons.1 h with rfl | h
    · simp
    · exact List.mem_cons_of_mem _ (ih (List.mem_filter.1 h).1)

theorem sameFeature_trans {a b c : Feature} (h1 : sameFeature a b = true) (h2 : sameFeature b c = true) : sameFeature a c = true := by
  simp only [sameFeature, Bool.and_eq_true, decide_eq_true_eq] at *
  exact ⟨h1.1.trans h2.1, h1.2.trans h2.2⟩

theorem firsts_snoc (fs : List Feature) (f : Feature) :
    firsts (fs ++ [f]) = if ∃ g ∈ fs, sameFeature g f = true then firsts fs else firsts fs ++ [f] := by
  induction fs with
  | nil => simp [firsts]
  | cons a fs ih =>
    rw [List.cons_append, firsts, ih]
    by_cases h1 : ∃ g ∈ fs, sameFeature g f = true
    · rw [if_pos h1, if_pos (by obtain ⟨g, hg, h⟩ := h1; exact ⟨g, by simp [hg], h⟩)]
      rfl
    · rw [if_neg h1]
      by_cases h2 : sameFeature a f = true
      · rw [if_pos ⟨a, by simp, h2⟩, List.filter_append]
        simp [h2, firsts]
      · rw [if_neg (by
          rintro ⟨g, hg, h⟩
          rcases List.mem_cons.1 hg with rfl | hg
          · exact h2 h
          · exact h1 ⟨g, hg, h⟩), List.filter_append]
        simp [h2, firsts]

/-- the builder of a layer after the features `fs` -/
structure LayerInv (ctx : RenderCtx) (s : TileSpec) (name : Bytes) (b : LayerBuilder) (fs : List Feature) : Prop where
  wrote : WroteL s.px.min name b (((direct ctx fs).map (drawn ctx s)).filter nonNull)
  lines : b.lineBuf = bufferedLines ctx fs
  polys : b.polyBuf = bufferedPolys ctx fs
  ids1 : ∀ x, x ∈ b.nodeIds ↔ ∃ f ∈ fs, typeOf f.geometry = 1 ∧ f.id = x
  ids2 : ∀ x, x ∈ b.lineIds ↔ ∃ f ∈ fs, typeOf f.geometry = 2 ∧ f.id = x
  ids3 : ∀ x, x ∈ b.polyIds ↔ ∃ f ∈ fs, typeOf f.geometry = 3 ∧ f.id = x

theorem layerInv_init (ctx : RenderCtx) (s : TileSpec) (name : Bytes) : LayerInv ctx s name (LayerBuilder.init name) [] := by
  refine ⟨wrote_init _ _, ?_, ?_, ?_, ?_, ?_⟩ <;> simp [LayerBuilder.init, bufferedLines, bufferedPolys, unique, firsts]

theorem unique_null (fs : List Feature) (f : Feature) (h : f.geometry = .null) : unique (fs ++ [f]) = unique fs := by
  simp [unique, List.filter_append, nonNull, h]

theorem unique_snoc (fs : List Feature) (f : Feature) (h : f.geometry ≠ .null) :
    unique (fs ++ [f]) = if ∃ g ∈ fs, sameFeature g f = true then unique fs else unique fs ++ [f] := by
  have ht : typeOf f.geometry ≠ 0 := by
    cases hg : f.geometry <;> simp_all [typeOf]
  have e : (∃ g ∈ fs, sameFeature g f = true) ↔ ∃ g ∈ fs.filter nonNull, sameFeature g f = true := by
    constructor
    · rintro ⟨g, hg, hs⟩
      refine ⟨g, List.mem_filter.2 ⟨hg, ?_⟩, hs⟩
      simp only [nonNull, decide_eq_true_eq]
      intro hn
      simp only [sameFeature, Bool.and_eq_true, decide_eq_true_eq, hn] at hs
      exact ht hs.2.symm
    · rintro ⟨g, hg, hs⟩
      exact ⟨g, (List.mem_filter.1 hg).1, hs⟩
  rw [unique, List.filter_append, show [f].filter nonNull = [f] by simp [nonNull, h], firsts_snoc]
  simp only [e]
  rfl

theorem drawn_eq {ctx : RenderCtx} {s : TileSpec} {f : Feature} {g : Geometry} (h : drawGeometry ctx s f.geometry = .ok g) :
    drawn ctx s f = { f with geometry := g } := by rw [drawn, h]

theorem drawGeometry_wellFormed {ctx : RenderCtx} {s : TileSpec} {g g' : Geometry} (hz : s.tile.z ≤ 20) (h : drawGeometry ctx s g = .ok g') : WellFormed g' := by
  rw [drawGeometry, Res.bind_eq_ok] at h
  obtain ⟨c, _, h⟩ := h
  exact C26_shift_wellFormed c g' _ hz h

theorem encode_ok (o : XY) {g : Geometry} (hw : WellFormed g) (hn : NearTile o g) : ∃ fs, encodeGeometryFields o g = .ok fs := by
  by_cases h0 : g = .null
  · subst h0; exact ⟨_, rfl⟩
  · obtain ⟨fs, h, _⟩ := C27_decodes o g hw hn h0 [] (by simp)
    exact ⟨fs, h⟩

theorem filter_nonNull_single (w : Feature) : [w].filter nonNull = drawnOf w := by
  by_cases h : w.geometry = .null <;> simp [drawnOf, nonNull, h]

/-- drawing one feature and writing it -/
theorem drawWrite {ctx : RenderCtx} {s : TileSpec} {name : Bytes} {b : LayerBuilder} {ws : List Feature} (hz : s.tile.z ≤ 20)
    (h : WroteL s.px.min name b ws) (f : Feature) (hd : ∃ g, drawGeometry ctx s f.geometry = .ok g ∧ NearTile s.px.min g) :
    ∃ b' g, drawGeometry ctx s f.geometry = .ok g ∧ writeFeature s.px.min b { f with geometry := g } = .ok b' ∧
      WroteL s.px.min name b' (ws ++ [drawn ctx s f].filter nonNull) ∧ b'.lineBuf = b.lineBuf ∧ b'.polyBuf = b.polyBuf ∧
      b'.nodeIds = b.nodeIds ∧ b'.lineIds = b.lineIds ∧ b'.polyIds = b.polyIds := by
  obtain ⟨g, hg, hn⟩ := hd
  obtain ⟨b', h1, h2, h3⟩ := writeFeature_spec h { f with geometry := g } (encode_ok _ (drawGeometry_wellFormed hz hg) hn)
  exact ⟨b', g, hg, h1, by rw [filter_nonNull_single, drawn_eq hg]; exact h2, h3⟩

theorem layerInv_add {ctx : RenderCtx} {s : TileSpec} {name : Bytes} {b : LayerBuilder} {fs : List Feature} (hz : s.tile.z ≤ 20)
    (h : LayerInv ctx s name b fs) (f : Feature)
    (hd : ∀ g ∈ direct ctx (fs ++ [f]), ∃ x, drawGeometry ctx s g.geometry = .ok x ∧ NearTile s.px.min x) :
    ∃ b', b.add ctx s f = .ok b' ∧ LayerInv ctx s name b' (fs ++ [f]) := by
  by_cases h0 : f.geometry = .null
  · refine ⟨b, by simp [LayerBuilder.add, LayerBuilder.seen, h0], ?_⟩
    have hu := unique_null fs f h0
    obtain ⟨h1, h2, h3, h4, h5, h6⟩ := h
    refine ⟨by simpa only [direct, hu] using h1, by simpa only [bufferedLines, hu] using h2, by simpa only [bufferedPolys, hu] using h3, ?_, ?_, ?_⟩
    · intro x; rw [h4]; simp [h0, typeOf, or_and_right, exists_or]
    · intro x; rw [h5]; simp [h0, typeOf, or_and_right, exists_or]
    · intro x; rw [h6]; simp [h0, typeOf, or_and_right, exists_or]
  · have hu := unique_snoc fs f h0
    by_cases hs : ∃ g ∈ fs, sameFeature g f = true
    · rw [if_pos hs] at hu
      obtain ⟨h1, h2, h3, h4, h5, h6⟩ := h
      have hdup : b.seen f = (true, b) := by
        obtain ⟨g, hg, hs⟩ := hs
        simp only [sameFeature, Bool.and_eq_true, decide_eq_true_eq] at hs
        cases hf : f.geometry with
        | null => exact absurd hf h0
        | point p =>
          rw [hf] at hs
          simp only [LayerBuilder.seen, hf]
          rw [if_pos ((h4 _).2 ⟨g, hg, hs.2, hs.1⟩)]
        | polyline p =>
          rw [hf] at hs
          simp only [LayerBuilder.seen, hf]
          rw [if_pos ((h5 _).2 ⟨g, hg, hs.2, hs.1⟩)]
        | polygon p =>
          rw [hf] at hs
          simp only [LayerBuilder.seen, hf]
          rw [if_pos ((h6 _).2 ⟨g, hg, hs.2, hs.1⟩)]
      refine ⟨b, by simp [LayerBuilder.add, hdup], ?_⟩
      have hids : ∀ (n : Nat) x, (∃ g ∈ fs ++ [f], typeOf g.geometry = n ∧ g.id = x) ↔ ∃ g ∈ fs, typeOf g.geometry = n ∧ g.id = x := by
        intro n x
        constructor
        · rintro ⟨g, hg, hx⟩
          rcases List.mem_append.1 hg with hg | hg
          · exact ⟨g, hg, hx⟩
          · rw [List.mem_singleton] at hg; subst hg
            obtain ⟨g', hg', hs⟩ := hs
            simp only [sameFeature, Bool.and_eq_true, decide_eq_true_eq] at hs
            exact ⟨g', hg', hs.2.trans hx.1, hs.1.trans hx.2⟩
        · rintro ⟨g, hg, hx⟩; exact ⟨g, by simp [hg], hx⟩
      refine ⟨by simpa only [direct, hu] using h1, by simpa only [bufferedLines, hu] using h2, by simpa only [bufferedPolys, hu] using h3, ?_, ?_, ?_⟩
      · intro x; rw [h4, hids]
      · intro x; rw [h5, hids]
      · intro x; rw [h6, hids]
    · rw [if_neg hs] at hu
      have hnone : ∀ g ∈ fs, typeOf g.geometry = typeOf f.geometry → g.id ≠ f.id := by
        intro g hg ht hi
        exact hs ⟨g, hg, by simp [sameFeature, ht, hi]⟩
      -- the drawing step
      have hdraw : ∀ b1 : LayerBuilder, WroteL s.px.min name b1 (((direct ctx fs).map (drawn ctx s)).filter nonNull) →
          direct ctx (fs ++ [f]) = direct ctx fs ++ [f] →
          ∃ b', LayerBuilder.add.drawNow ctx s f b1 = .ok b' ∧ WroteL s.px.min name b' (((direct ctx (fs ++ [f])).map (drawn ctx s)).filter nonNull) ∧
            b'.lineBuf = b1.lineBuf ∧ b'.polyBuf = b1.polyBuf ∧ b'.nodeIds = b1.nodeIds ∧ b'.lineIds = b1.lineIds ∧ b'.polyIds = b1.polyIds := by
        intro b1 hw he
        obtain ⟨b', g, hg, h1, h2, h3⟩ := drawWrite hz hw f (hd f (by rw [he]; simp))
        refine ⟨b', by rw [LayerBuilder.add.drawNow, hg, Res.ok_bind, h1], ?_, h3⟩
        rw [he, List.map_append, List.filter_append]
        exact h2
      obtain ⟨h1, h2, h3, h4, h5, h6⟩ := h
      have hids : ∀ (n : Nat) x, (∃ g ∈ fs ++ [f], typeOf g.geometry = n ∧ g.id = x) ↔
          (∃ g ∈ fs, typeOf g.geometry = n ∧ g.id = x) ∨ (typeOf f.geometry = n ∧ f.id = x) := by
        intro n x
        simp only [List.mem_append, List.mem_singleton, or_and_right, exists_or, exists_eq_left]
      cases hf : f.geometry with
      | null => exact absurd hf h0
      | point p =>
        have hni : f.id ∉ b.nodeIds := by
          rw [h4]; rintro ⟨g, hg, ht, hi⟩; exact hnone g hg (by rw [ht, hf]; rfl) hi
        have hl : isLine f = false := by simp [isLine, hf, typeOf]
        have hp : isPoly f = false := by simp [isPoly, hf, typeOf]
        obtain ⟨b', e, w, l1, l2, l3, l4, l5⟩ := hdraw { b with nodeIds := f.id :: b.nodeIds } (by
            obtain ⟨K, V, m, w⟩ := h1; exact ⟨K, V, m, ⟨w.keys, w.values, w.nodupK, w.nodupV, w.out, w.good, w.has, w.memK, w.memV⟩⟩)
            (by simp only [direct, hu, List.filter_append]; simp [hl, hp])
        refine ⟨b', ?_, w, ?_, ?_, ?_, ?_, ?_⟩
        · simp only [LayerBuilder.add, LayerBuilder.seen, hf, if_neg hni]; exact e
        · rw [l1, bufferedLines, hu]; simp [List.filter_append, hl, h2, bufferedLines]
        · rw [l2, bufferedPolys, hu]; simp [List.filter_append, hp, h3, bufferedPolys]
        · intro x; rw [l3, hids, List.mem_cons, h4, hf]; simp only [typeOf]; constructor <;> (rintro (h | h)) <;> simp_all
        · intro x; rw [l4, hids, h5, hf]; simp [typeOf]
        · intro x; rw [l5, hids, h6, hf]; simp [typeOf]
      | polyline p =>
        have hni : f.id ∉ b.lineIds := by
          rw [h5]; rintro ⟨g, hg, ht, hi⟩; exact hnone g hg (by rw [ht, hf]; rfl) hi
        have hl : isLine f = true := by simp [isLine, hf, typeOf]
        have hp : isPoly f = false := by simp [isPoly, hf, typeOf]
        by_cases ha : ctx.aggLines = true
        · refine ⟨{ b with lineIds := f.id :: b.lineIds, lineBuf := b.lineBuf ++ [f] }, ?_, ?_, ?_, ?_, ?_, ?_, ?_⟩
          · simp only [LayerBuilder.add, LayerBuilder.seen, hf, if_neg hni, ha]; simp
          · have : direct ctx (fs ++ [f]) = direct ctx fs := by simp only [direct, hu, List.filter_append]; simp [hl, ha]
            rw [this]
            obtain ⟨K, V, m, w⟩ := h1; exact ⟨K, V, m, ⟨w.keys, w.values, w.nodupK, w.nodupV, w.out, w.good, w.has, w.memK, w.memV⟩⟩
          · rw [bufferedLines, hu]; simp [List.filter_append, hl, h2, bufferedLines, ha]
          · rw [bufferedPolys, hu]; simp [List.filter_append, hp, h3, bufferedPolys]
          · intro x; rw [hids, h4, hf]; simp [typeOf]
          · intro x; rw [hids, List.mem_cons, h5, hf]; simp only [typeOf]; constructor <;> (rintro (h | h)) <;> simp_all
          · intro x; rw [hids, h6, hf]; simp [typeOf]
        · rw [Bool.not_eq_true] at ha
          obtain ⟨b', e, w, l1, l2, l3, l4, l5⟩ := hdraw { b with lineIds := f.id :: b.lineIds } (by
              obtain ⟨K, V, m, w⟩ := h1; exact ⟨K, V, m, ⟨w.keys, w.values, w.nodupK, w.nodupV, w.out, w.good, w.has, w.memK, w.memV⟩⟩)
              (by simp only [direct, hu, List.filter_append]; simp [ha, hp])
          refine ⟨b', ?_, w, ?_, ?_, ?_, ?_, ?_⟩
          · simp only [LayerBuilder.add, LayerBuilder.seen, hf, if_neg hni, ha]; exact e
          · rw [l1, bufferedLines, hu]; simp [h2, bufferedLines, ha]
          · rw [l2, bufferedPolys, hu]; simp [List.filter_append, hp, h3, bufferedPolys]
          · intro x; rw [l3, hids, h4, hf]; simp [typeOf]
          · intro x; rw [l4, hids, List.mem_cons, h5, hf]; simp only [typeOf]; constructor <;> (rintro (h | h)) <;> simp_all
          · intro x; rw [l5, hids, h6, hf]; simp [typeOf]
      | polygon p =>
        have hni : f.id ∉ b.polyIds := by
          rw [h6]; rintro ⟨g, hg, ht, hi⟩; exact hnone g hg (by rw [ht, hf]; rfl) hi
        have hl : isLine f = false := by simp [isLine, hf, typeOf]
        have hp : isPoly f = true := by simp [isPoly, hf, typeOf]
        by_cases ha : ctx.aggPolygons = true
        · refine ⟨{ b with polyIds := f.id :: b.polyIds, polyBuf := b.polyBuf ++ [f] }, ?_, ?_, ?_, ?_, ?_, ?_, ?_⟩
          · simp only [LayerBuilder.add, LayerBuilder.seen, hf, if_neg hni, ha]; simp
          · have : direct ctx (fs ++ [f]) = direct ctx fs := by simp only [direct, hu, List.filter_append]; simp [hp, ha]
            rw [this]
            obtain ⟨K, V, m, w⟩ := h1; exact ⟨K, V, m, ⟨w.keys, w.values, w.nodupK, w.nodupV, w.out, w.good, w.has, w.memK, w.memV⟩⟩
          · rw [bufferedLines, hu]; simp [List.filter_append, hl, h2, bufferedLines]
          · rw [bufferedPolys, hu]; simp [List.filter_append, hp, h3, bufferedPolys, ha]
          · intro x; rw [hids, h4, hf]; simp [typeOf]
          · intro x; rw [hids, h5, hf]; simp [typeOf]
          · intro x; rw [hids, List.mem_cons, h6, hf]; simp only [typeOf]; constructor <;> (rintro (h | h)) <;> simp_all
        · rw [Bool.not_eq_true] at ha
          obtain ⟨b', e, w, l1, l2, l3, l4, l5⟩ := hdraw { b with polyIds := f.id :: b.polyIds } (by
              obtain ⟨K, V, m, w⟩ := h1; exact ⟨K, V, m, ⟨w.keys, w.values, w.nodupK, w.nodupV, w.out, w.good, w.has, w.memK, w.memV⟩⟩)
              (by simp only [direct, hu, List.filter_append]; simp [ha, hl])
          refine ⟨b', ?_, w, ?_, ?_, ?_, ?_, ?_⟩
          · simp only [LayerBuilder.add, LayerBuilder.seen, hf, if_neg hni, ha]; exact e
          · rw [l1, bufferedLines, hu]; simp [List.filter_append, hl, h2, bufferedLines]
          · rw [l2, bufferedPolys, hu]; simp [h3, bufferedPolys, ha]
          · intro x; rw [l3, hids, h4, hf]; simp [typeOf]
          · intro x; rw [l4, hids, h5, hf]; simp [typeOf]
          · intro x; rw [l5, hids, List.mem_cons, h6, hf]; simp only [typeOf]; constructor <;> (rintro (h | h)) <;> simp_all

theorem writePolygons_spec {ctx : RenderCtx} {s : TileSpec} {name : Bytes} (hz : s.tile.z ≤ 20) (fs : List Feature) (b : LayerBuilder) (ws : List Feature)
    (h : WroteL s.px.min name b ws) (hd : ∀ f ∈ fs, ∃ g, drawGeometry ctx s f.geometry = .ok g ∧ NearTile s.px.min g) :
    ∃ b', writePolygons ctx s b fs = .ok b' ∧
      WroteL s.px.min name b' (ws ++ ((fs.map (drawn ctx s)).filter (fun f => !dropped ctx f)).filter nonNull) ∧ b'.lineBuf = b.lineBuf := by
  induction fs generalizing b ws with
  | nil => exact ⟨b, rfl, by simpa using h, rfl⟩
  | cons f fs ih =>
    obtain ⟨b1, g, hg, h1, h2, h3, _⟩ := drawWrite hz h f (hd f (by simp))
    have hdr : dropped ctx (drawn ctx s f) = true ↔ f.layer ≠ 0 ∧ ctx.dropSubpixel = true ∧ ctx.tiny g = true := by
      rw [drawn_eq hg]; simp [dropped, and_assoc]
    by_cases hx : dropped ctx (drawn ctx s f) = true
    · obtain ⟨b', e1, e2, e3⟩ := ih b ws h (fun x hx => hd x (by simp [hx]))
      refine ⟨b', ?_, ?_, e3⟩
      · rw [writePolygons, hg, Res.ok_bind, if_pos (hdr.1 hx)]; exact e1
      · rw [List.map_cons, List.filter_cons, if_neg (by simp [hx])]; exact e2
    · obtain ⟨b', e1, e2, e3⟩ := ih b1 _ h2 (fun x hx => hd x (by simp [hx]))
      refine ⟨b', ?_, ?_, e3.trans h3⟩
      · rw [writePolygons, hg, Res.ok_bind, if_neg (fun h => hx (hdr.2 h)), h1, Res.ok_bind]; exact e1
      · rw [List.map_cons, List.filter_cons, if_pos (by simpa using hx)]
        rw [← List.singleton_append, List.filter_append, ← List.append_assoc]; exact e2

theorem writeLines_spec {ctx : RenderCtx} {s : TileSpec} {name : Bytes} (hz : s.tile.z ≤ 20) (fs : List Feature) (b : LayerBuilder) (ws : List Feature)
    (h : WroteL s.px.min name b ws) (hd : ∀ f ∈ fs, ∃ g, drawGeometry ctx s f.geometry = .ok g ∧ NearTile s.px.min g) :
    ∃ b', writeLines ctx s b fs = .ok b' ∧ WroteL s.px.min name b' (ws ++ (fs.map (drawn ctx s)).filter nonNull) := by
  induction fs generalizing b ws with
  | nil => exact ⟨b, rfl, by simpa using h⟩
  | cons f fs ih =>
    obtain ⟨b1, g, hg, h1, h2, h3, _⟩ := drawWrite hz h f (hd f (by simp))
    obtain ⟨b', e1, e2⟩ := ih b1 _ h2 (fun x hx => hd x (by simp [hx]))
    refine ⟨b', ?_, ?_⟩
    · rw [writeLines, hg, Res.ok_bind, h1, Res.ok_bind]; exact e1
    · rw [List.map_cons, ← List.singleton_append, List.filter_append, ← List.append_assoc]; exact e2

theorem aggregateGeometry_spec {ctx : RenderCtx} {s : TileSpec} {name : Bytes} {b : LayerBuilder} {fs : List Feature} (hz : s.tile.z ≤ 20)
    (h : LayerInv ctx s name b fs) (hok : LayerOk ctx s fs) :
    ∃ b', b.aggregateGeometry ctx s = .ok b' ∧ WroteL s.px.min name b' (layerContent ctx s fs) := by
  have hp : ∃ b1, (if ctx.aggPolygons ∧ b.polyBuf ≠ [] then writePolygons ctx s b b.polyBuf else .ok b) = .ok b1 ∧
      WroteL s.px.min name b1 (((direct ctx fs).map (drawn ctx s)).filter nonNull ++
        (((bufferedPolys ctx fs).map (drawn ctx s)).filter (fun f => !dropped ctx f)).filter nonNull) ∧ b1.lineBuf = b.lineBuf := by
    by_cases hc : ctx.aggPolygons ∧ b.polyBuf ≠ []
    · rw [if_pos hc, h.polys]
      exact writePolygons_spec hz _ b _ h.wrote (fun f hf => hok.draws f (by simp [candidates, hf]))
    · rw [if_neg hc]
      refine ⟨b, rfl, ?_, rfl⟩
      have : bufferedPolys ctx fs = [] := by
        rw [← h.polys]
        by_contra hne
        by_cases ha : ctx.aggPolygons = true
        · exact hc ⟨ha, hne⟩
        · rw [h.polys, bufferedPolys, if_neg ha] at hne; exact hne rfl
      rw [this]
      simpa using h.wrote
  obtain ⟨b1, e1, w1, l1⟩ := hp
  have hl : ∃ b2, (if ctx.aggLines ∧ b1.lineBuf ≠ [] then writeLines ctx s b1 (ctx.aggregate s.tile.z b1.lineBuf) else .ok b1) = .ok b2 ∧
      WroteL s.px.min name b2 ((((direct ctx fs).map (drawn ctx s)).filter nonNull ++
        (((bufferedPolys ctx fs).map (drawn ctx s)).filter (fun f => !dropped ctx f)).filter nonNull) ++
        ((joinedLines ctx s.tile.z fs).map (drawn ctx s)).filter nonNull) := by
    by_cases hc : ctx.aggLines ∧ b1.lineBuf ≠ []
    · rw [if_pos hc, l1, h.lines]
      rw [l1, h.lines] at hc
      have hj : joinedLines ctx s.tile.z fs = ctx.aggregate s.tile.z (bufferedLines ctx fs) := by rw [joinedLines, if_neg hc.2]
      rw [← hj]
      exact writeLines_spec hz _ b1 _ w1 (fun f hf => hok.draws f (by simp [candidates, hf]))
    · rw [if_neg hc]
      refine ⟨b1, rfl, ?_⟩
      have : bufferedLines ctx fs = [] := by
        rw [← h.lines, ← l1]
        by_contra hne
        by_cases ha : ctx.aggLines = true
        · exact hc ⟨ha, hne⟩
        · rw [l1, h.lines, bufferedLines, if_neg ha] at hne; exact hne rfl
      rw [joinedLines, if_pos this]
      simpa using w1
  obtain ⟨b2, e2, w2⟩ := hl
  refine ⟨b2, ?_, ?_⟩
  · rw [LayerBuilder.aggregateGeometry]
    split
    · rename_i hc; rw [if_pos hc] at e1; rw [e1, Res.ok_bind]; exact e2
    · rename_i hc; rw [if_neg hc] at e1; rw [e1, Res.ok_bind]; exact e2
  · rw [layerContent, List.filter_append, List.filter_append]; exact w2

theorem content_writable {ctx : RenderCtx} {s : TileSpec} {fs : List Feature} (hz : s.tile.z ≤ 20) (hok : LayerOk ctx s fs) :
    ∀ w ∈ layerContent ctx s fs, Writable s.px.min w := by
  intro w hw
  rw [layerContent, List.mem_filter] at hw
  obtain ⟨hw, hn⟩ := hw
  have : ∃ f ∈ candidates ctx s fs, drawn ctx s f = w := by
    simp only [List.mem_append, List.mem_filter, List.mem_map] at hw
    rcases hw with (⟨f, hf, rfl⟩ | ⟨⟨f, hf, rfl⟩, _⟩) | ⟨f, hf, rfl⟩
    · exact ⟨f, by simp [candidates, hf], rfl⟩
    · exact ⟨f, by simp [candidates, hf], rfl⟩
    · exact ⟨f, by simp [candidates, hf], rfl⟩
  obtain ⟨f, hf, rfl⟩ := this
  obtain ⟨g, hg, hnear⟩ := hok.draws f hf
  rw [drawn_eq hg] at hn ⊢
  simp only [nonNull, decide_eq_true_eq] at hn
  exact ⟨hn, drawGeometry_wellFormed hz hg, hnear, hok.ids f hf, hok.values f hf⟩

/-! ### the tile -/

/-- the builders after the features `fs` -/
structure BuildersInv (ctx : RenderCtx) (s : TileSpec) (bs : Builders) (fs : List Feature) : Prop where
  sorted : (bs.map (·.1)).Pairwise (· < ·)
  each : ∀ i b, (i, b) ∈ bs → ∃ name, ctx.layerNames[i]? = some name ∧ LayerInv ctx s name b (ofLayer fs i)
  all : ∀ f ∈ fs, f.layer ∈ bs.map (·.1)

theorem direct_prefix {ctx : RenderCtx} (fs rest : List Feature) : ∀ f ∈ direct ctx fs, f ∈ direct ctx (fs ++ rest) := by
  induction rest using List.reverseRecOn with
  | nil => simp
  | append_singleton rest x ih =>
    intro f hf
    have := ih f hf
    rw [← List.append_assoc]
    generalize fs ++ rest = l at this
    rw [direct] at this ⊢
    have hs : unique (l ++ [x]) = unique l ∨ unique (l ++ [x]) = unique l ++ [x] := by
      by_cases h0 : x.geometry = .null
      · exact .inl (unique_null _ _ h0)
      · rw [unique_snoc _ _ h0]; split <;> simp
    rcases hs with hs | hs <;> rw [hs]
    · exact this
    · rw [List.filter_append]; exact List.mem_append_left _ this

theorem buildersAdd_spec {ctx : RenderCtx} {s : TileSpec} {f : Feature} {name : Bytes} {P : Nat → LayerBuilder → Prop} :
    ∀ (bs : Builders), (bs.map (·.1)).Pairwise (· < ·) →
    (f.layer ∉ bs.map (·.1) → ∃ b', (LayerBuilder.init name).add ctx s f = .ok b' ∧ P f.layer b') → (∀ b, (f.layer, b) ∈ bs → ∃ b', b.add ctx s f = .ok b' ∧ P f.layer b') →
    ∃ bs', bs.add ctx s f name = .ok bs' ∧ (bs'.map (·.1)).Pairwise (· < ·) ∧ (∀ k, k ∈ bs'.map (·.1) ↔ k = f.layer ∨ k ∈ bs.map (·.1)) ∧
      ∀ i b, (i, b) ∈ bs' → (i ≠ f.layer ∧ (i, b) ∈ bs) ∨ (i = f.layer ∧ P f.layer b) := by
  intro bs
  induction bs with
  | nil =>
    intro _ hnew _
    obtain ⟨b', e, h⟩ := hnew (by simp)
    refine ⟨[(f.layer, b')], by rw [Builders.add, e]; rfl, by simp, by simp, ?_⟩
    intro i b hb
    simp at hb
    obtain ⟨rfl, rfl⟩ := hb
    exact .inr ⟨rfl, h⟩
  | cons x bs ih =>
    obtain ⟨i, b⟩ := x
    intro hs hnew hex
    rw [List.map_cons, List.pairwise_cons] at hs
    rw [Builders.add]
    by_cases h1 : f.layer < i
    · obtain ⟨b', e, h⟩ := hnew (by
        rw [List.map_cons, List.mem_cons]
        rintro (hx | hx)
        · exact absurd hx (by dsimp only; omega)
        · have := hs.1 _ hx; dsimp only at this; omega)
      refine ⟨(f.layer, b') :: (i, b) :: bs, by rw [if_pos h1, e]; rfl, ?_, by simp, ?_⟩
      · simp only [List.map_cons, List.pairwise_cons]
        refine ⟨?_, hs⟩
        intro k hk
        rcases List.mem_cons.1 hk with rfl | hk
        · exact h1
        · exact lt_trans h1 (hs.1 k hk)
      · intro j c hj
        rcases List.mem_cons.1 hj with hj | hj
        · injection hj with e1 e2; subst e1; subst e2; exact .inr ⟨rfl, h⟩
        · refine .inl ⟨?_, hj⟩
          rcases List.mem_cons.1 hj with hj' | hj'
          · injection hj' with e1 e2; omega
          · have := hs.1 j (List.mem_map.2 ⟨_, hj', rfl⟩); omega
    · rw [if_neg h1]
      by_cases h2 : f.layer = i
      · obtain ⟨b', e, h⟩ := hex b (by simp [h2])
        refine ⟨(i, b') :: bs, by rw [if_pos h2, e]; rfl, by simpa using hs, by simp [h2], ?_⟩
        intro j c hj
        rcases List.mem_cons.1 hj with hj | hj
        · injection hj with e1 e2; subst e1; subst e2; exact .inr ⟨h2.symm, h⟩
        · refine .inl ⟨?_, by simp [hj]⟩
          have := hs.1 j (List.mem_map.2 ⟨_, hj, rfl⟩)
          omega
      · rw [if_neg h2]
        obtain ⟨bs', e, hs', hm, hp⟩ := ih hs.2 (fun hx => hnew (by rw [List.map_cons, List.mem_cons]; rintro (hy | hy); exacts [h2 hy, hx hy])) (fun c hc => hex c (by simp [hc]))
        refine ⟨(i, b) :: bs', by rw [e]; rfl, ?_, ?_, ?_⟩
        · rw [List.map_cons, List.pairwise_cons]
          refine ⟨fun k hk => ?_, hs'⟩
          rcases (hm k).1 hk with rfl | hk
          · omega
          · exact hs.1 k hk
        · intro k; rw [List.map_cons, List.mem_cons, hm, List.map_cons, List.mem_cons]; tauto
        · intro j c hj
          rcases List.mem_cons.1 hj with hj | hj
          · injection hj with e1 e2; subst e1; subst e2; exact .inl ⟨fun h => h2 h.symm, by simp⟩
          · rcases hp j c hj with ⟨h3, h4⟩ | h3
            · exact .inl ⟨h3, by simp [h4]⟩
            · exact .inr h3

theorem ofLayer_snoc (fs : List Feature) (f : Feature) (i : Nat) : ofLayer (fs ++ [f]) i = if f.layer = i then ofLayer fs i ++ [f] else ofLayer fs i := by
  rw [ofLayer, List.filter_append]
  by_cases h : f.layer = i <;> simp [h, ofLayer]

theorem tileAddAll_spec {ctx : RenderCtx} {s : TileSpec} (hz : s.tile.z ≤ 20) (rest : List Feature) :
    ∀ (bs : Builders) (fs : List Feature), BuildersInv ctx s bs fs → (∀ f ∈ rest, f.layer < ctx.layerNames.length) →
      (∀ i, ∀ g ∈ direct ctx (ofLayer (fs ++ rest) i), ∃ x, drawGeometry ctx s g.geometry = .ok x ∧ NearTile s.px.min x) →
      ∃ bs', tileAddAll ctx s bs rest = .ok bs' ∧ BuildersInv ctx s bs' (fs ++ rest) := by
  induction rest with
  | nil => intro bs fs h _ _; exact ⟨bs, rfl, by simpa using h⟩
  | cons f rest ih =>
    intro bs fs h hl hd
    have hfl := hl f (by simp)
    have hname : ctx.layerNames[f.layer]? = some (ctx.layerNames[f.layer]) := List.getElem?_eq_getElem hfl
    have hdf : ∀ g ∈ direct ctx (ofLayer fs f.layer ++ [f]), ∃ x, drawGeometry ctx s g.geometry = .ok x ∧ NearTile s.px.min x := by
      intro g hg
      apply hd f.layer
      have e : ofLayer (fs ++ f :: rest) f.layer = (ofLayer fs f.layer ++ [f]) ++ ofLayer rest f.layer := by
        simp [ofLayer, List.filter_append]
      rw [e]
      exact direct_prefix _ _ g hg
    have hnew : f.layer ∉ bs.map (·.1) → ofLayer fs f.layer = [] := by
      intro hn
      rw [ofLayer, List.filter_eq_nil_iff]
      intro g hg
      simp only [decide_eq_true_eq]
      intro hx
      exact hn (hx ▸ h.all g hg)
    obtain ⟨bs1, e1, s1, m1, p1⟩ := buildersAdd_spec (ctx := ctx) (s := s) (f := f) (name := ctx.layerNames[f.layer])
      (P := fun i b => LayerInv ctx s (ctx.layerNames[f.layer]) b (ofLayer fs i ++ [f])) bs h.sorted
      (fun hx => layerInv_add (b := LayerBuilder.init _) (name := ctx.layerNames[f.layer]) hz (by rw [hnew hx]; exact layerInv_init _ _ _) f hdf)
      (fun b hb => by
        obtain ⟨n, hn, hi⟩ := h.each _ b hb
        rw [hname] at hn; injection hn with hn; subst hn
        exact layerInv_add hz hi f hdf)
    obtain ⟨bs', e2, inv⟩ := ih bs1 (fs ++ [f]) ⟨s1, by
        intro i b hb
        rcases p1 i b hb with ⟨h1, h2⟩ | ⟨rfl, h2⟩
        · rw [ofLayer_snoc, if_neg (fun h => h1 h.symm)]; exact h.each i b h2
        · rw [ofLayer_snoc, if_pos rfl]; exact ⟨_, hname, h2⟩, by
        intro g hg
        rw [m1]
        rcases List.mem_append.1 hg with hg | hg
        · exact .inr (h.all g hg)
        · rw [List.mem_singleton] at hg; subst hg; exact .inl rfl⟩ (fun g hg => hl g (by simp [hg])) (by simpa using hd)
    refine ⟨bs', ?_, by simpa using inv⟩
    rw [tileAddAll, tileAdd, at_of_getElem? hname, Res.ok_bind, e1, Res.ok_bind]
    exact e2

theorem tileLayers_spec {ctx : RenderCtx} {s : TileSpec} (hz : s.tile.z ≤ 20) (fs : List Feature) (hok : ∀ i, LayerOk ctx s (ofLayer fs i)) :
    ∀ bs : Builders, (∀ i b, (i, b) ∈ bs → ∃ name, ctx.layerNames[i]? = some name ∧ LayerInv ctx s name b (ofLayer fs i)) →
    ∃ ls : List Bytes, tileLayers ctx s bs = .ok (ls.map (.bytes 3)) ∧ ((∀ l ∈ ls, l.length < 2 ^ 32) →
      collect (ls.map clientLayer) = some ((bs.map (·.1)).filterMap fun i =>
        let c := layerContent ctx s (ofLayer fs i)
        if c = [] then none else some ⟨2, ctx.layerNames[i]?.getD [], 4096, c.map (view s.px.min)⟩) ∧
      ∀ l ∈ ls, ∃ i name, ctx.layerNames[i]? = some name ∧ layerContent ctx s (ofLayer fs i) ≠ [] ∧
        clientLayer l = some ⟨2, name, 4096, (layerContent ctx s (ofLayer fs i)).map (view s.px.min)⟩ ∧
        TablesOk l (layerContent ctx s (ofLayer fs i))) := by
  intro bs
  induction bs with
  | nil => intro _; exact ⟨[], rfl, fun _ => ⟨rfl, by simp⟩⟩
  | cons x bs ih =>
    obtain ⟨i, b⟩ := x
    intro h
    obtain ⟨ls, e, hl⟩ := ih (fun j c hj => h j c (by simp [hj]))
    obtain ⟨name, hname, hinv⟩ := h i b (by simp)
    obtain ⟨b', e1, w⟩ := aggregateGeometry_spec hz hinv (hok i)
    have hhas : b'.hasGeometry = !(layerContent ctx s (ofLayer fs i)).isEmpty := by obtain ⟨K, V, m, w⟩ := w; exact w.has
    rw [tileLayers, e1, Res.ok_bind]
    by_cases hc : layerContent ctx s (ofLayer fs i) = []
    · rw [hhas, hc]
      refine ⟨ls, by simpa using e, fun hlen => ?_⟩
      refine ⟨?_, (hl hlen).2⟩
      rw [(hl hlen).1, List.map_cons, List.filterMap_cons]
      simp [hc]
    · obtain ⟨bytes, e2, hf⟩ := finish_spec w (content_writable hz (hok i))
      have hh : b'.hasGeometry = true := by rw [hhas]; simpa using hc
      refine ⟨bytes :: ls, by rw [if_pos hh, e2, Res.ok_bind, e]; rfl, fun hlen => ?_⟩
      obtain ⟨hcl, htab⟩ := hf (hlen bytes (by simp))
      obtain ⟨r1, r2⟩ := hl (fun l hl => hlen l (by simp [hl]))
      refine ⟨?_, ?_⟩
      · rw [List.map_cons, hcl, collect, r1, List.map_cons, List.filterMap_cons]
        simp [hc, hname]
      · intro l hl'
        rcases List.mem_cons.1 hl' with rfl | hl'
        · exact ⟨i, name, hname, hc, hcl, htab⟩
        · exact r2 l hl'

theorem sorted_sublist_range (ks : List Nat) (n : Nat) (hs : ks.Pairwise (· < ·)) (hn : ∀ k ∈ ks, k < n) :
    (List.range n).filter (fun i => decide (i ∈ ks)) = ks := by
  apply List.Perm.eq_of_pairwise (le := (· < ·))
  · intro a b _ _ h1 h2; omega
  · exact List.Pairwise.filter _ List.pairwise_lt_range
  · exact hs
  · rw [List.perm_ext_iff_of_nodup]
    · intro a
      simp only [List.mem_filter, List.mem_range, decide_eq_true_eq]
      exact ⟨fun h => h.2, fun h => ⟨hn a h, h⟩⟩
    · exact List.nodup_range.filter _
    · exact hs.imp (fun h => by omega)

theorem filterMap_range_of_keys {α : Type} (ks : List Nat) (n : Nat) (hs : ks.Pairwise (· < ·)) (hn : ∀ k ∈ ks, k < n) (F : Nat → Option α)
    (hF : ∀ i, i ∉ ks → F i = none) : ks.filterMap F = (List.range n).filterMap F := by
  conv_lhs => rw [← sorted_sublist_range ks n hs hn]
  rw [List.filterMap_filter]
  apply List.filterMap_congr
  intro i _
  by_cases h : i ∈ ks
  · simp [h]
  · simp [h, hF i h]

theorem tile_main (ctx : RenderCtx) (s : TileSpec) (fs : List Feature) (hz : s.tile.z ≤ 20)
    (hlayers : ∀ f ∈ fs, f.layer < ctx.layerNames.length) (hok : ∀ i, LayerOk ctx s (ofLayer fs i)) :
    ∃ bs bytes, tileAddAll ctx s [] fs = .ok bs ∧ tileFinish ctx s bs = .ok bytes ∧
      (bytes.length < 2 ^ 32 → clientTile bytes = some (tileContent ctx s fs) ∧ ∀ l ∈ layerMessages bytes, ∃ i name,
        ctx.layerNames[i]? = some name ∧ layerContent ctx s (ofLayer fs i) ≠ [] ∧
        clientLayer l = some ⟨2, name, 4096, (layerContent ctx s (ofLayer fs i)).map (view s.px.min)⟩ ∧
        TablesOk l (layerContent ctx s (ofLayer fs i))) := by
  obtain ⟨bs, e1, inv⟩ := tileAddAll_spec hz fs [] [] ⟨by simp, by simp, by simp⟩ hlayers
    (fun i g hg => (hok i).draws g (by simp only [List.nil_append] at hg; simp [candidates, hg]))
  rw [List.nil_append] at inv
  obtain ⟨ls, e2, hl⟩ := tileLayers_spec hz fs hok bs inv.each
  refine ⟨bs, encMessage (ls.map (.bytes 3)), e1, by rw [tileFinish, e2]; rfl, fun hlen => ?_⟩
  have hsmall : ∀ l ∈ ls, l.length < 2 ^ 32 := by
    intro l h
    have := bytes_len_le (fs := ls.map (.bytes 3)) (t := 3) (d := l) (List.mem_map.2 ⟨l, h, rfl⟩)
    omega
  have hdec := decMessage_enc (ls.map (.bytes 3)) (by
    intro f hf
    obtain ⟨l, h, rfl⟩ := List.mem_map.1 hf
    exact ⟨by decide, hsmall l h⟩)
  have this : (ls.map (PbfField.bytes 3)).filterMap (bytesOf 3) = ls := by
    have := fm_bytes_eq 3 id ls
    rw [List.map_id] at this
    exact this
  refine ⟨?_, ?_⟩
  rotate_left
  · rw [layerMessages, hdec]
    dsimp only
    rw [this]
    exact (hl hsmall).2
  rw [clientTile, hdec]
  dsimp only
  rw [this, (hl hsmall).1, tileContent]
  congr 1
  apply filterMap_range_of_keys _ _ inv.sorted
  · intro k hk
    obtain ⟨⟨i, b⟩, hb, rfl⟩ := List.mem_map.1 hk
    obtain ⟨name, hn, _⟩ := inv.each i b hb
    by_contra hx
    rw [List.getElem?_eq_none (by simpa using hx)] at hn
    cases hn
  · intro i hi
    have : ofLayer fs i = [] := by
      rw [ofLayer, List.filter_eq_nil_iff]
      intro g hg
      simp only [decide_eq_true_eq]
      intro hx
      exact hi (hx ▸ inv.all g hg)
    dsimp only
    rw [if_pos]
    rw [this]
    simp [layerContent, direct, bufferedPolys, joinedLines, bufferedLines, unique, firsts]

/-- **C28** (main): the tile is finished, and a client that reads it sees exactly `tileContent`: the layers in which something was drawn,
in the order of the layer names, in each the features without repetition of (id, type), their exported tags with key and value
resolved through the layer's tables -/
theorem C28_tile_content (ctx : RenderCtx) (s : TileSpec) (fs : List Feature) (hz : s.tile.z ≤ 20)
    (hlayers : ∀ f ∈ fs, f.layer < ctx.layerNames.length) (hok : ∀ i, LayerOk ctx s (ofLayer fs i)) :
    ∃ bs bytes, tileAddAll ctx s [] fs = .ok bs ∧ tileFinish ctx s bs = .ok bytes ∧
      (bytes.length < 2 ^ 32 → clientTile bytes = some (tileContent ctx s fs)) := by
  obtain ⟨bs, bytes, h1, h2, h3⟩ := tile_main ctx s fs hz hlayers hok
  exact ⟨bs, bytes, h1, h2, fun h => (h3 h).1⟩

/-- every layer in the tile has drawn features, and its tables hold each exported key and each exported value of these features once and
nothing else -/
theorem C28_tables (ctx : RenderCtx) (s : TileSpec) (fs : List Feature) (hz : s.tile.z ≤ 20)
    (hlayers : ∀ f ∈ fs, f.layer < ctx.layerNames.length) (hok : ∀ i, LayerOk ctx s (ofLayer fs i)) (bs : Builders) (bytes : Bytes)
    (ha : tileAddAll ctx s [] fs = .ok bs) (hf : tileFinish ctx s bs = .ok bytes) (hlen : bytes.length < 2 ^ 32) :
    ∀ l ∈ layerMessages bytes, ∃ i name, ctx.layerNames[i]? = some name ∧ layerContent ctx s (ofLayer fs i) ≠ [] ∧
      clientLayer l = some ⟨2, name, 4096, (layerContent ctx s (ofLayer fs i)).map (view s.px.min)⟩ ∧
      TablesOk l (layerContent ctx s (ofLayer fs i)) := by
  obtain ⟨bs', bytes', h1, h2, h3⟩ := tile_main ctx s fs hz hlayers hok
  rw [ha] at h1; injection h1 with h1; subst h1
  rw [hf] at h2; injection h2 with h2; subst h2
  exact (h3 hlen).2

/-- among the different features no two have the same id and type; each added feature is one of them or came after one with its id and type -/
theorem C28_unique (fs : List Feature) :
    (unique fs).Pairwise (fun a b => ¬ (a.id = b.id ∧ typeOf a.geometry = typeOf b.geometry)) ∧
    (∀ g, g ∈ unique fs ↔ ∃ pre post, fs = pre ++ g :: post ∧ g.geometry ≠ .null ∧
      ∀ f ∈ pre, ¬ (f.id = g.id ∧ typeOf f.geometry = typeOf g.geometry)) ∧
    (unique fs).Sublist fs := by
  induction fs using List.reverseRecOn with
  | nil => simp [unique, firsts]
  | append_singleton fs x ih =>
    obtain ⟨ih1, ih2, ih3⟩ := ih
    have hmem : ∀ g, (∃ pre post, fs ++ [x] = pre ++ g :: post ∧ g.geometry ≠ .null ∧ ∀ f ∈ pre, ¬ (f.id = g.id ∧ typeOf f.geometry = typeOf g.geometry)) ↔
        (∃ pre post, fs = pre ++ g :: post ∧ g.geometry ≠ .null ∧ ∀ f ∈ pre, ¬ (f.id = g.id ∧ typeOf f.geometry = typeOf g.geometry)) ∨
        (g = x ∧ x.geometry ≠ .null ∧ ∀ f ∈ fs, ¬ (f.id = x.id ∧ typeOf f.geometry = typeOf x.geometry)) := by
      intro g
      constructor
      · rintro ⟨pre, post, e, h1, h2⟩
        rcases List.eq_nil_or_concat post with rfl | ⟨post', y, rfl⟩
        · have := List.append_inj' e rfl
          obtain ⟨rfl, e2⟩ := this
          injection e2 with e2 _
          subst e2
          exact .inr ⟨rfl, h1, h2⟩
        · rw [List.concat_eq_append, ← List.cons_append, ← List.append_assoc] at e
          obtain ⟨rfl, _⟩ := List.append_inj' e rfl
          exact .inl ⟨pre, post', rfl, h1, h2⟩
      · rintro (⟨pre, post, rfl, h1, h2⟩ | ⟨rfl, h1, h2⟩)
        · exact ⟨pre, post ++ [x], by simp, h1, h2⟩
        · exact ⟨fs, [], rfl, h1, h2⟩
    by_cases h0 : x.geometry = .null
    · rw [unique_null _ _ h0]
      refine ⟨ih1, fun g => ?_, ih3.trans (List.sublist_append_left _ _)⟩
      rw [hmem, ih2]
      exact ⟨.inl, fun h => h.elim id (fun h => absurd h0 h.2.1)⟩
    · rw [unique_snoc _ _ h0]
      have hsame : ∀ g, sameFeature g x = true ↔ g.id = x.id ∧ typeOf g.geometry = typeOf x.geometry := by
        intro g; simp [sameFeature]
      split
      · rename_i hs
        obtain ⟨g0, hg0, hs⟩ := hs
        refine ⟨ih1, fun g => ?_, ih3.trans (List.sublist_append_left _ _)⟩
        rw [hmem, ih2]
        exact ⟨.inl, fun h => h.elim id (fun h => absurd ((hsame g0).1 hs) (h.2.2 g0 hg0))⟩
      · rename_i hs
        have hno : ∀ f ∈ fs, ¬ (f.id = x.id ∧ typeOf f.geometry = typeOf x.geometry) := fun f hf h => hs ⟨f, hf, (hsame f).2 h⟩
        refine ⟨?_, fun g => ?_, ih3.append_right _⟩
        · rw [List.pairwise_append]
          refine ⟨ih1, by simp, ?_⟩
          intro a ha b hb
          rw [List.mem_singleton] at hb; subst hb
          exact hno a (ih3.subset ha)
        · rw [hmem, ← ih2, List.mem_append, List.mem_singleton]
          constructor
          · rintro (h | rfl)
            · exact .inl h
            · exact .inr ⟨rfl, h0, hno⟩
          · rintro (h | ⟨rfl, _, _⟩)
            · exact .inl h
            · exact .inr rfl

/-- without line aggregation a layer never shows two features with the same id and type -/
theorem C28_no_duplicates (ctx : RenderCtx) (s : TileSpec) (fs : List Feature) (hl : ctx.aggLines = false)
    (htype : ∀ g b g', ctx.clip g b = .ok g' → typeOf g' = typeOf g ∨ g' = .null) :
    (layerContent ctx s fs).Pairwise (fun a b => ¬ (a.id = b.id ∧ typeOf a.geometry = typeOf b.geometry)) := by
  have hshift : ∀ g z g', shiftGeometry g z = .ok g' → g' = .null ∨ typeOf g' = typeOf g := by
    intro g z g' h
    by_cases hz : z ≤ 20
    · cases g with
      | null => rw [C26_shift_null] at h; cases h; exact .inl rfl
      | point p => rw [C26_shift_point _ _ hz] at h; cases h; split <;> simp [typeOf]
      | polyline p => rw [C26_shift_polyline _ _ hz] at h; cases h; dsimp only; split <;> simp [typeOf]
      | polygon p => rw [C26_shift_polygon _ _ hz] at h; cases h; dsimp only; split <;> simp [typeOf]
    · cases g with
      | null => cases h; exact .inl rfl
      | point p =>
        cases p with
        | nil => cases h; exact .inl rfl
        | cons a l => rw [C26_shift_above_max_zoom _ _ _ (by omega)] at h; cases h
      | polyline p => simp [shiftGeometry, deltaZ, hz] at h
      | polygon p => simp [shiftGeometry, deltaZ, hz] at h
  have hdrawn : ∀ f, nonNull (drawn ctx s f) = true → typeOf (drawn ctx s f).geometry = typeOf f.geometry := by
    intro f hn
    simp only [nonNull, decide_eq_true_eq] at hn
    cases hd : drawGeometry ctx s f.geometry with
    | ok g =>
      rw [drawn_eq hd] at hn ⊢
      rw [drawGeometry, Res.bind_eq_ok] at hd
      obtain ⟨c, h1, h2⟩ := hd
      rcases hshift _ _ _ h2 with h | h
      · exact absurd h hn
      · rcases htype _ _ _ h1 with h' | h'
        · exact h.trans h'
        · subst h'
          rw [C26_shift_null] at h2; cases h2; exact absurd rfl hn
    | throw_ => simp [drawn, hd] at hn
    | ub => simp [drawn, hd] at hn
  have hu := (C28_unique fs).1
  have hj : joinedLines ctx s.tile.z fs = [] := by simp [joinedLines, bufferedLines, hl]
  rw [layerContent, hj, List.map_nil, List.append_nil, List.filter_append, List.pairwise_append]
  have key : ∀ l : List Feature, l.Pairwise (fun a b => ¬ (a.id = b.id ∧ typeOf a.geometry = typeOf b.geometry)) → ∀ p : Feature → Bool,
      (((l.map (drawn ctx s)).filter p).filter nonNull).Pairwise (fun a b => ¬ (a.id = b.id ∧ typeOf a.geometry = typeOf b.geometry)) := by
    intro l hp p
    rw [List.filter_filter]
    rw [List.pairwise_filter, List.pairwise_map]
    refine hp.imp ?_
    intro a b hab ha hb h
    simp only [Bool.and_eq_true] at ha hb
    apply hab
    rw [← hdrawn a ha.1, ← hdrawn b hb.1]
    exact h
  refine ⟨?_, ?_, ?_⟩
  · have := key (direct ctx fs) (hu.filter _) (fun _ => true)
    simpa using this
  · refine key (bufferedPolys ctx fs) ?_ _
    rw [bufferedPolys]
    split
    · exact hu.filter _
    · simp
  · intro a ha b hb h
    simp only [List.mem_filter, List.mem_map] at ha hb
    obtain ⟨⟨x, hx, rfl⟩, hxn⟩ := ha
    obtain ⟨⟨⟨y, hy, rfl⟩, _⟩, hyn⟩ := hb
    have hyp : typeOf y.geometry = 3 := by
      rw [bufferedPolys] at hy
      split at hy
      · simpa [isPoly] using (List.mem_filter.1 hy).2
      · simp at hy
    have hap : ctx.aggPolygons = true := by
      rw [bufferedPolys] at hy
      split at hy
      · assumption
      · simp at hy
    rw [hdrawn x hxn, hdrawn y hyn, hyp] at h
    have := (List.mem_filter.1 hx).2
    simp [hap, isPoly, h.2] at this

/-- the keys "layer" and "__…" are not exported -/
theorem C28_hidden_keys (o : XY) (w : Feature) : ∀ kv ∈ (view o w).tags, kv.1 ≠ "layer".toUTF8.toList ∧ ¬ ("__".toUTF8.toList) <+: kv.1 := by
  intro kv hkv
  simp only [view, List.mem_filterMap, exported, List.mem_filter] at hkv
  obtain ⟨m, ⟨_, hm⟩, he⟩ := hkv
  cases hv : valueMeaning m.value with
  | none => rw [hv] at he; cases he
  | some t =>
    rw [hv] at he
    injection he with he
    subst he
    rw [Bool.not_eq_true', Bool.or_eq_false_iff] at hm
    refine ⟨of_decide_eq_false hm.1, ?_⟩
    have h2 := of_decide_eq_false hm.2
    rwa [List.isPrefixOf_iff_prefix] at h2

/-- a feature whose layer does not exist is refused -/
theorem C28_unknown_layer (ctx : RenderCtx) (s : TileSpec) (bs : Builders) (f : Feature) (h : ctx.layerNames.length ≤ f.layer) :
    tileAdd ctx s bs f = .throw_ := by
  rw [tileAdd, at_, List.getElem?_eq_none h]; rfl

/-! ### the debug layer -/

/-- what a client sees of the debug layer: the middle of the tile, with the label, and the border of the tile -/
def Spec.debugContent (label : Bytes) : ClientLayer :=
  ⟨2, "tiles_debug_info".toUTF8.toList, 4096,
   [⟨0, 1, [⟨[⟨2048, 2048⟩], false⟩], [("tile_id".toUTF8.toList, .str label)]⟩,
    ⟨0, 2, [⟨[⟨0, 0⟩, ⟨0, 4096⟩, ⟨4096, 4096⟩, ⟨4096, 0⟩, ⟨0, 0⟩], false⟩], []⟩]⟩

/-- the two messages: the coordinates are relative to the tile's corner -/
def debugMsgs : List (List PbfField) :=
  [packedField 2 [0, 0] ++ [.varint 3 1, .bytes 4 ([9, 4096, 4096].flatMap encVarint)],
   [.varint 3 2, .bytes 4 ([9, 0, 0, 34, 0, 8192, 8192, 0, 0, 8191, 8191, 0].flatMap encVarint)]]

theorem debugLayer_spec (t : Tile) (s : TileSpec) (hs : s.px = pxBounds t) (label : Bytes) :
    ∃ bytes, debugLayer s label = .ok bytes ∧ (bytes.length < 2 ^ 32 → clientLayer bytes = some (debugContent label)) := by
  obtain ⟨bytes, h1, h2⟩ := finish_gen (name := debugLayerName) (K := [debugKey]) (V := [encodeString label]) (msgs := debugMsgs)
    (b := { LayerBuilder.init debugLayerName with
      keys := [(debugKey, 0)], values := [(encodeString label, 0)],
      out := (LayerBuilder.init debugLayerName).out ++ debugMsgs.map (fun m => .bytes 2 (encMessage m)) })
    (cs := (debugContent label).features) rfl rfl rfl (by
      intro v hv
      rw [List.mem_singleton] at hv
      subst hv
      exact ⟨.str label, rfl⟩) (by
      intro ts hts _ _ _
      obtain ⟨u, hu, hu'⟩ := hts 0 (encodeString label) rfl
      have hu2 : valueMeaning (encodeString label) = some (.str label) := rfl
      rw [hu2] at hu
      injection hu with hu
      subst hu
      have e1 : decMessage (encMessage (debugMsgs[0])) = .ok debugMsgs[0] := by decide +kernel
      have e2 : decMessage (encMessage (debugMsgs[1])) = .ok debugMsgs[1] := by decide +kernel
      have c1 : clientFeature [debugKey] ts (encMessage debugMsgs[0]) = some ⟨0, 1, [⟨[⟨2048, 2048⟩], false⟩], [("tile_id".toUTF8.toList, .str label)]⟩ := by
        unfold clientFeature
        rw [e1]
        dsimp only
        rw [show clientId debugMsgs[0] = some 0 by decide +kernel, show clientGeometry debugMsgs[0] = some (1, [⟨[⟨2048, 2048⟩], false⟩]) by decide +kernel,
          show tagIndices debugMsgs[0] = some [0, 0] by decide +kernel]
        simp only [Option.bind_some, resolve, hu', List.getElem?_cons_zero]
        rw [show debugKey = "tile_id".toUTF8.toList by decide +kernel]
      have c2 : clientFeature [debugKey] ts (encMessage debugMsgs[1]) =
          some ⟨0, 2, [⟨[⟨0, 0⟩, ⟨0, 4096⟩, ⟨4096, 4096⟩, ⟨4096, 0⟩, ⟨0, 0⟩], false⟩], []⟩ := by
        unfold clientFeature
        rw [e2]
        dsimp only
        rw [show clientId debugMsgs[1] = some 0 by decide +kernel,
          show clientGeometry debugMsgs[1] = some (2, [⟨[⟨0, 0⟩, ⟨0, 4096⟩, ⟨4096, 4096⟩, ⟨4096, 0⟩, ⟨0, 0⟩], false⟩]) by decide +kernel,
          show tagIndices debugMsgs[1] = some [] by decide +kernel]
        simp only [Option.bind_some, resolve]
      show collect [clientFeature [debugKey] ts (encMessage debugMsgs[0]), clientFeature [debugKey] ts (encMessage debugMsgs[1])] = _
      rw [c1, c2]
      rfl)
  refine ⟨bytes, ?_, fun hl => ?_⟩
  · rw [← h1]
    have hp : ∀ a b : Int, encodeGeometryFields ⟨a * 4096, b * 4096⟩ (.point [⟨a * 4096 + ((a + 1) * 4096 - a * 4096).tdiv 2, b * 4096 + ((b + 1) * 4096 - b * 4096).tdiv 2⟩]) =
        .ok [.varint 3 1, .bytes 4 ([9, 4096, 4096].flatMap encVarint)] := by
      intro a b
      unfold encodeGeometryFields encodePoints encodePoints
      dsimp only
      rw [show a * 4096 + ((a + 1) * 4096 - a * 4096).tdiv 2 - a * 4096 = 2048 by
          rw [show (a + 1) * 4096 - a * 4096 = 4096 by omega, show (4096 : Int).tdiv 2 = 2048 from rfl]; omega,
        show b * 4096 + ((b + 1) * 4096 - b * 4096).tdiv 2 - b * 4096 = 2048 by
          rw [show (b + 1) * 4096 - b * 4096 = 4096 by omega, show (4096 : Int).tdiv 2 = 2048 from rfl]; omega]
      simp only [List.length_singleton]
      decide +kernel
    have hq : ∀ a b : Int, encodeGeometryFields ⟨a * 4096, b * 4096⟩ (.polyline [[⟨a * 4096, b * 4096⟩, ⟨a * 4096, (b + 1) * 4096⟩, ⟨(a + 1) * 4096, (b + 1) * 4096⟩,
        ⟨(a + 1) * 4096, b * 4096⟩, ⟨a * 4096, b * 4096⟩]]) =
        .ok [.varint 3 2, .bytes 4 ([9, 0, 0, 34, 0, 8192, 8192, 0, 0, 8191, 8191, 0].flatMap encVarint)] := by
      intro a b
      have e0 : ∀ c : Int, c - c = 0 := fun c => by omega
      have e1 : ∀ c : Int, (c + 1) * 4096 - c * 4096 = 4096 := fun c => by omega
      have e2 : ∀ c : Int, c * 4096 - (c + 1) * 4096 = -4096 := fun c => by omega
      have hl : encodeLineTo ⟨a * 4096, b * 4096⟩ [⟨a * 4096, (b + 1) * 4096⟩, ⟨(a + 1) * 4096, (b + 1) * 4096⟩,
          ⟨(a + 1) * 4096, b * 4096⟩, ⟨a * 4096, b * 4096⟩] = .ok ([0, 8192, 8192, 0, 0, 8191, 8191, 0], ⟨a * 4096, b * 4096⟩) := by
        simp only [encodeLineTo, e0, e1, e2]
        rfl
      simp only [encodeGeometryFields, encodePaths, encodePath, List.length_cons, List.length_nil]
      rw [show (if false = true then 0 + 1 + 1 + 1 + 1 + 1 - 2 else 0 + 1 + 1 + 1 + 1 + 1 - 1) = 4 from rfl]
      simp only [List.take_succ_cons, List.take_zero]
      rw [hl]
      simp only [e0, Res.ok_bind, Res.pure_eq]
      decide +kernel
    unfold debugLayer
    rw [hs]
    simp only [pxBounds]
    rw [hp, Res.ok_bind, hq, Res.ok_bind]
    rfl
  · rw [(h2 hl).1, show debugLayerName = "tiles_debug_info".toUTF8.toList by decide +kernel]
    rfl

theorem tileLayers_shape (ctx : RenderCtx) (s : TileSpec) : ∀ (bs : Builders) (r : List PbfField), tileLayers ctx s bs = .ok r → ∃ ls : List Bytes, r = ls.map (.bytes 3)
  | [], r, h => by cases h; exact ⟨[], rfl⟩
  | (i, b) :: bs, r, h => by
    rw [tileLayers, Res.bind_eq_ok] at h
    obtain ⟨b', _, h⟩ := h
    split at h
    · rw [Res.bind_eq_ok] at h
      obtain ⟨l, _, h⟩ := h
      rw [Res.bind_eq_ok] at h
      obtain ⟨r', h', h⟩ := h
      obtain ⟨ls, rfl⟩ := tileLayers_shape ctx s bs r' h'
      cases h
      exact ⟨l :: ls, rfl⟩
    · exact tileLayers_shape ctx s bs r h

/-- With debug information the tile has one more layer, after the others, which stay as they are: the middle of the tile with its label, and the
tile's border. -/
theorem C28_debug (ctx : RenderCtx) (s : TileSpec) (fs : List Feature) (t : Tile) (hs : tileSpec t = .ok s) (label : Bytes)
    (hlayers : ∀ f ∈ fs, f.layer < ctx.layerNames.length) (hok : ∀ i, LayerOk ctx s (ofLayer fs i)) :
    ∃ bs bytes, tileAddAll ctx s [] fs = .ok bs ∧ tileFinish ctx s bs (some label) = .ok bytes ∧
      (bytes.length < 2 ^ 32 → clientTile bytes = some (tileContent ctx s fs ++ [debugContent label])) := by
  unfold tileSpec at hs
  rw [Res.bind_eq_ok] at hs
  obtain ⟨_, hv, hs⟩ := hs
  rw [Res.bind_eq_ok] at hs
  obtain ⟨_, _, hs⟩ := hs
  cases hs
  have hz : t.z ≤ 20 := by
    by_contra hc
    rw [decide_eq_false (show ¬ t.z ≤ kMaxZoomLevel from hc), verify_false] at hv
    cases hv
  obtain ⟨bs, bytes, h1, h2, h3⟩ := C28_tile_content ctx _ fs hz hlayers hok
  obtain ⟨d, d1, d2⟩ := debugLayer_spec t ⟨t, pxBounds t, insertBounds t, drawBounds t⟩ rfl label
  unfold tileFinish at h2
  rw [Res.bind_eq_ok] at h2
  obtain ⟨r, hr, h2⟩ := h2
  obtain ⟨ls, rfl⟩ := tileLayers_shape _ _ _ _ hr
  have h2 : encMessage (ls.map (.bytes 3)) = bytes := by injection h2
  refine ⟨bs, encMessage (ls.map (.bytes 3) ++ [.bytes 3 d]), h1, ?_, fun hl => ?_⟩
  · unfold tileFinish
    rw [hr, Res.ok_bind]
    dsimp only
    rw [d1]
    rfl
  · have hsmall : ∀ l ∈ ls ++ [d], l.length < 2 ^ 32 := by
      intro l h
      have := bytes_len_le (fs := ls.map (.bytes 3) ++ [.bytes 3 d]) (t := 3) (d := l) (by
        rcases List.mem_append.1 h with h | h
        · exact List.mem_append_left _ (List.mem_map.2 ⟨l, h, rfl⟩)
        · rw [List.mem_singleton] at h; subst h; simp)
      omega
    have hlen : bytes.length < 2 ^ 32 := by
      rw [← h2]
      have : encMessage (ls.map (.bytes 3) ++ [.bytes 3 d]) = encMessage (ls.map (.bytes 3)) ++ encMessage [.bytes 3 d] := by
        unfold encMessage; rw [List.flatMap_append]
      rw [this, List.length_append] at hl
      omega
    have hok' : ∀ l : List Bytes, (∀ x ∈ l, x.length < 2 ^ 32) → clientTile (encMessage (l.map (.bytes 3))) = collect (l.map clientLayer) := by
      intro l hx
      have hdec := decMessage_enc (l.map (.bytes 3)) (by
        intro f hf
        obtain ⟨x, h, rfl⟩ := List.mem_map.1 hf
        exact ⟨by decide, hx x h⟩)
      have this : (l.map (PbfField.bytes 3)).filterMap (bytesOf 3) = l := by
        have := fm_bytes_eq 3 id l
        rw [List.map_id] at this
        exact this
      rw [clientTile, hdec]
      dsimp only
      rw [this]
    have h4 := h3 hlen
    rw [← h2, hok' ls (fun l h => hsmall l (by simp [h]))] at h4
    have e : ls.map (PbfField.bytes 3) ++ [.bytes 3 d] = (ls ++ [d]).map (.bytes 3) := by simp
    rw [e, hok' _ hsmall]
    have hc : ∀ (a : List (Option ClientLayer)) (r : List ClientLayer) (x : ClientLayer), collect a = some r → collect (a ++ [some x]) = some (r ++ [x]) := by
      intro a
      induction a with
      | nil => intro r x h; cases h; rfl
      | cons o a ih =>
        intro r x h
        cases o with
        | none => cases h
        | some y =>
          rw [collect] at h
          cases hc : collect a with
          | none => rw [hc] at h; cases h
          | some r' =>
            rw [hc] at h
            cases h
            rw [List.cons_append, collect, ih r' x hc]
            rfl
    rw [List.map_append, List.map_cons, List.map_nil, d2 (hsmall d (by simp))]
    exact hc _ _ _ h4

/-! ### the hypotheses are met, and the result is not trivial -/

def demoCtx : RenderCtx := ⟨["coastline".toUTF8.toList, "rail".toUTF8.toList], false, false, false, fun g _ => .ok g, fun _ => false, fun _ l => l⟩
def demoSpec : TileSpec := ⟨⟨0, 0, 20⟩, pxBounds ⟨0, 0, 20⟩, insertBounds ⟨0, 0, 20⟩, drawBounds ⟨0, 0, 20⟩⟩
def demoFeatures : List Feature :=
  [⟨7, 1, 0, 20, [⟨[97], [2, 98]⟩, ⟨layerKey, [2, 99]⟩], .polyline [[⟨0, 0⟩, ⟨5, 5⟩]]⟩,
   ⟨7, 1, 0, 20, [], .polyline [[⟨9, 9⟩, ⟨5, 5⟩]]⟩,
   ⟨7, 1, 0, 20, [⟨[97], [1]⟩], .point [⟨4, 4⟩]⟩]

example : tileContent demoCtx demoSpec demoFeatures =
    [⟨2, "rail".toUTF8.toList, 4096,
      [⟨7, 2, [⟨[⟨0, 0⟩, ⟨5, 5⟩], false⟩], [([97], .str [98])]⟩, ⟨7, 1, [⟨[⟨4, 4⟩], false⟩], [([97], .bool true)]⟩]⟩] := by
  decide +kernel

theorem demo_ok : ∀ i, LayerOk demoCtx demoSpec (ofLayer demoFeatures i) := by
  intro i
  have hc : ∀ f ∈ candidates demoCtx demoSpec (ofLayer demoFeatures i), f ∈ demoFeatures := by
    intro f hf
    have : candidates demoCtx demoSpec (ofLayer demoFeatures i) = direct demoCtx (ofLayer demoFeatures i) := by
      simp [candidates, bufferedPolys, joinedLines, bufferedLines, demoCtx]
    rw [this, direct, List.mem_filter, unique] at hf
    exact (List.mem_filter.1 (List.mem_filter.1 (mem_firsts hf.1)).1).1
  refine ⟨fun f hf => ?_, fun f hf => ?_, fun f hf => ?_⟩
  · have := hc f hf
    simp only [demoFeatures, List.mem_cons, List.not_mem_nil, or_false] at this
    rcases this with rfl | rfl | rfl
    · exact ⟨_, rfl, by simp [NearTile, allLines]; decide⟩
    · exact ⟨_, rfl, by simp [NearTile, allLines]; decide⟩
    · exact ⟨_, rfl, by simp [NearTile, allLines]; decide⟩
  · have := hc f hf
    simp only [demoFeatures, List.mem_cons, List.not_mem_nil, or_false] at this
    rcases this with rfl | rfl | rfl <;> decide
  · have := hc f hf
    simp only [demoFeatures, List.mem_cons, List.not_mem_nil, or_false] at this
    rcases this with rfl | rfl | rfl
    · intro m hm
      have : m = ⟨[97], [2, 98]⟩ := by
        have he : exported [⟨[97], [2, 98]⟩, ⟨layerKey, [2, 99]⟩] = [⟨[97], [2, 98]⟩] := by decide +kernel
        rw [he] at hm; simpa using hm
      subst this; exact ⟨_, rfl⟩
    · intro m hm; simp [exported] at hm
    · intro m hm
      have : m = ⟨[97], [1]⟩ := by
        have he : exported [⟨[97], [1]⟩] = [⟨[97], [1]⟩] := by decide +kernel
        rw [he] at hm; simpa using hm
      subst this; exact ⟨_, rfl⟩

example : tileSpec ⟨0, 0, 20⟩ = .ok demoSpec ∧ (∀ f ∈ demoFeatures, f.layer < demoCtx.layerNames.length) := ⟨by decide, by decide⟩

end Tiles
