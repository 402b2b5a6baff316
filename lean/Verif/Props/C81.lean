import Verif.Props.C69
import Verif.Props.C73
import Verif.Props.C77
import Verif.Props.C79
/-! C81: the map depends on the data only — not on threads, schedules, memory bounds, the order of the objects, what the database held before —, and more data never hides anything. -/
namespace Tiles
open Spec

/-- the feature is also in these layers: in the layer of this name, with the id, the type, the shape in every coordinate and the tags (in some order) -/
def Spec.AlsoSeen (layers : List ClientLayer) (name : Bytes) (c : ClientFeature) : Prop :=
  ∃ L ∈ layers, L.name = name ∧ ∃ c' ∈ L.features, c'.id = c.id ∧ c'.type = c.type ∧ c'.parts = c.parts ∧ c'.tags.Perm c.tags

/-! ### one tile -/

section
variable {inter : Box → List Line → List Line} {clipper : List Line → Box → Option (List PolyNode)} {correct : List Polygon → List Polygon} {simplify : Nat → Line → Line}

/-- where a drawn feature comes from, if it was not joined of lines -/
theorem content_origin (ctx : RenderCtx) (hctx : ctx.clip = clipGeometry inter clipper correct) (q : Tile) (hz : q.z ≤ 20)
    (hagg : ∀ fs out, aggregateLineFeatures simplify q.z fs = .ok out → ctx.aggregate q.z fs = out) {fs : List Feature} (hline : ∀ f ∈ fs, isLine f = true → LineFeature f)
    {L : ClientLayer} (hL : L ∈ tileContent ctx (specOf q) fs) {c : ClientFeature} (hc : c ∈ L.features) (hkind : ctx.aggLines = false ∨ c.type ≠ 2) :
    ∃ f ∈ fs, f.geometry ≠ .null ∧ ctx.layerNames[f.layer]? = some L.name ∧ c = view (specOf q).px.min (drawn ctx (specOf q) f) ∧ (drawn ctx (specOf q) f).geometry ≠ .null ∧
      (ctx.aggLines = true → isLine f = false) ∧ (ctx.aggPolygons = true → isPoly f = true → dropped ctx (drawn ctx (specOf q) f) = false) := by
  rw [tileContent, List.mem_filterMap] at hL
  obtain ⟨i, hi, hL⟩ := hL
  dsimp only at hL
  split at hL
  · cases hL
  injection hL with hL
  subst hL
  rw [List.mem_range] at hi
  obtain ⟨w, hw, rfl⟩ := List.mem_map.1 hc
  have hu : ∀ g ∈ unique (ofLayer fs i), g ∈ fs ∧ g.layer = i ∧ g.geometry ≠ .null := by
    intro g hg
    obtain ⟨h1, h2⟩ := List.mem_filter.1 ((C28_unique (ofLayer fs i)).2.2.subset hg)
    obtain ⟨_, h3⟩ := List.mem_filter.1 (mem_firsts hg)
    exact ⟨h1, of_decide_eq_true h2, of_decide_eq_true h3⟩
  have hname : ∀ g : Feature, g.layer = i → ctx.layerNames[g.layer]? = some (ctx.layerNames[i]?.getD []) := by
    rintro g rfl
    rw [List.getElem?_eq_getElem hi]; rfl
  rw [layerContent, List.mem_filter] at hw
  obtain ⟨hw, hn⟩ := hw
  have hn : w.geometry ≠ .null := of_decide_eq_true hn
  simp only [List.mem_append, List.mem_map, List.mem_filter] at hw
  rcases hw with (⟨f, h1, rfl⟩ | ⟨⟨f, h1, rfl⟩, h2⟩) | ⟨f, h1, rfl⟩
  · obtain ⟨h3, h4⟩ := List.mem_filter.1 h1
    obtain ⟨k1, k2, k3⟩ := hu f h3
    simp only [Bool.and_eq_true, Bool.not_eq_true', Bool.and_eq_false_iff] at h4
    refine ⟨f, k1, k3, hname f k2, rfl, hn, fun h => ?_, fun h h' => ?_⟩
    · rcases h4.1 with h5 | h5
      · rw [h] at h5; cases h5
      · exact h5
    · rcases h4.2 with h5 | h5
      · rw [h] at h5; cases h5
      · rw [h'] at h5; cases h5
  · rw [bufferedPolys] at h1
    split at h1
    · obtain ⟨h3, h4⟩ := List.mem_filter.1 h1
      obtain ⟨k1, k2, k3⟩ := hu f h3
      refine ⟨f, k1, k3, hname f k2, rfl, hn, fun _ => ?_, fun _ _ => by simpa using h2⟩
      have : typeOf f.geometry = 3 := of_decide_eq_true h4
      simp [isLine, this]
    · cases h1
  · exfalso
    have hag : ctx.aggLines = true := by
      by_contra hno
      simp [joinedLines, bufferedLines, hno] at h1
    rcases hkind with hk | hk
    · rw [hag] at hk; cases hk
    · obtain ⟨⟨ls, h3⟩, _⟩ := joined_from hagg (fun f hf => hline f (List.mem_filter.1 hf).1) h1
      apply hk
      show typeOf (drawn ctx (specOf q) f).geometry = 2
      cases hd : drawGeometry ctx (specOf q) f.geometry with
      | ok r =>
        have : (drawn ctx (specOf q) f).geometry = r := by simp only [drawn, hd]
        rw [this] at hn ⊢
        rw [drawn_type hctx (s := specOf q) hz hd hn, h3]
        rfl
      | throw_ => exact absurd (by simp only [drawn, hd]) hn
      | ub => exact absurd (by simp only [drawn, hd]) hn

/-- a feature that is drawn, not dropped and not joined with others is in the tile -/
theorem content_has (ctx : RenderCtx) (q : Tile) {fs : List Feature} {f : Feature} (hf : f ∈ fs) (hnull : f.geometry ≠ .null) {name : Bytes} (hname : ctx.layerNames[f.layer]? = some name)
    (hone : ∀ g ∈ fs, g.layer = f.layer → g.id = f.id → typeOf g.geometry = typeOf f.geometry → g.geometry = f.geometry ∧ (tagsOf g.metas).Perm (tagsOf f.metas))
    (hd : (drawn ctx (specOf q) f).geometry ≠ .null) (hlines : ctx.aggLines = true → isLine f = false)
    (hpolys : ctx.aggPolygons = true → isPoly f = true → dropped ctx (drawn ctx (specOf q) f) = false) :
    ∃ L ∈ tileContent ctx (specOf q) fs, L.name = name ∧ ∃ c ∈ L.features, c.id = f.id ∧ c.type = typeOf (drawn ctx (specOf q) f).geometry ∧
      c.parts = partsOf (specOf q).px.min (drawn ctx (specOf q) f).geometry ∧ c.tags.Perm (tagsOf f.metas) := by
  have hf' : f ∈ ofLayer fs f.layer := List.mem_filter.2 ⟨hf, by simp⟩
  obtain ⟨g, h1, h2, h3⟩ := unique_has hf' hnull
  have h4 := List.mem_filter.1 ((C28_unique (ofLayer fs f.layer)).2.2.subset h1)
  have hlay : g.layer = f.layer := of_decide_eq_true h4.2
  obtain ⟨h5, h6⟩ := hone g h4.1 hlay h2 h3
  have hgeo : (drawn ctx (specOf q) g).geometry = (drawn ctx (specOf q) f).geometry := by simp only [drawn, h5]
  have hisl : isLine g = isLine f := by simp only [isLine, h5]
  have hisp : isPoly g = isPoly f := by simp only [isPoly, h5]
  have hdrop : dropped ctx (drawn ctx (specOf q) g) = dropped ctx (drawn ctx (specOf q) f) := by
    rw [dropped, dropped, hgeo, show (drawn ctx (specOf q) g).layer = (drawn ctx (specOf q) f).layer from hlay]
  have hcontent : drawn ctx (specOf q) g ∈ layerContent ctx (specOf q) (ofLayer fs f.layer) := by
    rw [layerContent, List.mem_filter]
    refine ⟨?_, by simp only [nonNull, hgeo]; exact decide_eq_true hd⟩
    simp only [List.mem_append, List.mem_map, List.mem_filter]
    by_cases hp : ctx.aggPolygons = true ∧ isPoly f = true
    · refine .inl (.inr ⟨⟨g, ?_, rfl⟩, by rw [hdrop, hpolys hp.1 hp.2]; rfl⟩)
      rw [bufferedPolys, if_pos hp.1]
      exact List.mem_filter.2 ⟨h1, by rw [hisp]; exact hp.2⟩
    · refine .inl (.inl ⟨g, List.mem_filter.2 ⟨h1, ?_⟩, rfl⟩)
      rw [hisl, hisp]
      have e1 : (ctx.aggLines && isLine f) = false := by
        cases ha : ctx.aggLines with
        | false => rfl
        | true => rw [hlines ha]; rfl
      have e2 : (ctx.aggPolygons && isPoly f) = false := by
        cases ha : ctx.aggPolygons with
        | false => rfl
        | true =>
          cases hb : isPoly f with
          | false => rfl
          | true => exact absurd ⟨ha, hb⟩ hp
      rw [e1, e2]; rfl
  have hlt : f.layer < ctx.layerNames.length := by
    by_contra hno
    rw [List.getElem?_eq_none (by omega)] at hname
    cases hname
  refine ⟨⟨2, ctx.layerNames[f.layer]?.getD [], 4096, (layerContent ctx (specOf q) (ofLayer fs f.layer)).map (view (specOf q).px.min)⟩, ?_, ?_,
    view (specOf q).px.min (drawn ctx (specOf q) g), List.mem_map_of_mem hcontent, h2, ?_, ?_, h6⟩
  · rw [tileContent, List.mem_filterMap]
    refine ⟨f.layer, List.mem_range.2 hlt, ?_⟩
    dsimp only
    rw [if_neg]
    intro hc
    rw [hc] at hcontent
    cases hcontent
  · rw [hname]; rfl
  · show typeOf (drawn ctx (specOf q) g).geometry = _
    rw [hgeo]
  · show partsOf _ (drawn ctx (specOf q) g).geometry = _
    rw [hgeo]
end

/-! ### after an import -/

/-- the two imports agree on everything that decides what is drawn: profile, projection, masks, clipping, the test for less than a pixel.  They may differ in everything else:
threads, memory bounds, checksum, sorting, joining of lines -/
structure Spec.SameRules (S S' : OsmSetting) : Prop where
  prof : S'.prof = S.prof
  profile : S'.profile = S.profile
  numeral : S'.numeral = S.numeral
  rd : S'.rd = S.rd
  mkMask : S'.mkMask = S.mkMask
  clip : S'.base.clip = S.base.clip
  tiny : S'.base.tiny = S.base.tiny

/-- what a tile was drawn of -/
structure PaintFacts (S : OsmSetting) (fs : List (List Feature)) (names : List Bytes) (ctx : RenderCtx) (q : Tile) (leafs : List Tile) (gs : List Feature) (layers : List ClientLayer) : Prop where
  names : ctx.layerNames = names
  clip : ctx.clip = S.base.clip
  tiny : ctx.tiny = S.base.tiny
  drop : ctx.dropSubpixel = true
  lines : ctx.aggLines = decide (q.z ≤ 10)
  polys : ctx.aggPolygons = decide (q.z ≤ 10)
  joins : ctx.aggregate = S.base.aggregate
  sound : ∀ g ∈ gs, g.layer = 0 ∨ ∃ f ∈ fs.flatten, Shows q f ∧ (whole f).Found q ∧ StoredAs (fun l => S.rd (S.mkMask l) q.z) f g
  all : ∀ f ∈ fs.flatten, Shows q f → (whole f).Found q → withoutSmallRings (simplified (fun l => S.rd (S.mkMask l) q.z) f.geometry) ≠ .null →
    ∃ g ∈ gs, StoredAs (fun l => S.rd (S.mkMask l) q.z) f g
  line : ∀ g ∈ gs, isLine g = true → LineFeature g
  layers : layers = tileContent ctx (specOf q) (leafs.map seaSquare ++ gs)

def Painted (S : OsmSetting) (t : Tables) (data : List Datum) (q : Tile) (layers : List ClientLayer) : Prop :=
  ∃ fs m names tbl ctx leafs gs, OsmLoaded S.prof S.profile t S.numeral data fs m names tbl ∧ PaintFacts S fs names ctx q leafs gs layers

/-- no other object of the data has the id and the type of the object -/
def Spec.OneOfIt (data : List Datum) (d : Datum) : Prop := ∀ d' ∈ data, d'.id % 2 ^ 64 = d.id % 2 ^ 64 → d'.type = d.type → d' = d

theorem draw_congr {c1 c2 : RenderCtx} (h : c2.clip = c1.clip) (s : TileSpec) (g : Geometry) : drawGeometry c2 s g = drawGeometry c1 s g := by
  unfold drawGeometry
  rw [h]

theorem kept_type {simp : Line → List Bool} {g : Geometry} (h : withoutSmallRings (simplified simp g) ≠ .null) : typeOf (withoutSmallRings (simplified simp g)) = typeOf g := by
  cases g with
  | polygon ps =>
    simp only [simplified, withoutSmallRings] at h ⊢
    split
    · rename_i heq
      rw [heq] at h
      exact absurd rfl h
    · rfl
  | _ => rfl

theorem type_zero {g : Geometry} : typeOf g = 0 ↔ g = .null := by
  cases g <;> simp [typeOf]

section
variable {S S' : OsmSetting} {t : Tables} {e : Int} {g : ℝ} {data data' : List Datum}

theorem datum_type {conv : LatLng → XY} {d : Datum} {g : Geometry} (hread : readOsm conv d.shape = .ok g) (hne : g ≠ .null) : typeOf g = d.type := by
  rcases (readOsm_from conv hread).2.2 with h | h
  · exact absurd h hne
  · cases hsh : d.shape with
    | node _ => rw [hsh] at h; obtain ⟨x, h⟩ := h; simp [h, Datum.type, hsh, typeOf]
    | way _ => rw [hsh] at h; obtain ⟨x, _, h⟩ := h; simp [h, Datum.type, hsh, typeOf]
    | area _ => rw [hsh] at h; obtain ⟨x, y, h⟩ := h; simp [h, Datum.type, hsh, typeOf]

/-- everything in the first tile is in the second: all features but those of the coastline, the joined lines of the prepared levels, and features of objects that share their id and type
with another object of the second data -/
def Spec.StillSeen (data data' : List Datum) (q : Tile) (layers layers' : List ClientLayer) : Prop :=
  ∀ L ∈ layers, L.name ≠ kLayerCoastlineName → ∀ c ∈ L.features, 10 < q.z ∨ c.type ≠ 2 → (∀ d ∈ data, d.id % 2 ^ 64 = (c.id : Int) → d.type = c.type → OneOfIt data' d) →
    AlsoSeen layers' L.name c

theorem drawn_kind {inter : Box → List Line → List Line} {clipper : List Line → Box → Option (List PolyNode)} {correct : List Polygon → List Polygon} {ctx : RenderCtx}
    (hctx : ctx.clip = clipGeometry inter clipper correct) {q : Tile} (hz : q.z ≤ 20) {f : Feature} (hn : (drawn ctx (specOf q) f).geometry ≠ .null) :
    typeOf (drawn ctx (specOf q) f).geometry = typeOf f.geometry := by
  cases hd : drawGeometry ctx (specOf q) f.geometry with
  | ok r =>
    have : (drawn ctx (specOf q) f).geometry = r := by simp only [drawn, hd]
    rw [this] at hn ⊢
    exact drawn_type hctx (s := specOf q) hz hd hn
  | throw_ => exact absurd (by simp only [drawn, hd]) hn
  | ub => exact absurd (by simp only [drawn, hd]) hn

theorem painted_grows (hS : S.Ok t e g) (hD : S.Fits data) (hrules : SameRules S S') (hsub : ∀ d ∈ data, d ∈ data') {q : Tile} (hz : q.z ≤ 20)
    {layers layers' : List ClientLayer} (h1 : Painted S t data q layers) (h2 : Painted S' t data' q layers') : StillSeen data data' q layers layers' := by
  obtain ⟨fs, m, names, tbl, ctx, leafs, gs, hl, P⟩ := h1
  obtain ⟨fs', m', names', tbl', ctx', leafs', gs', hl', P'⟩ := h2
  rw [hrules.prof, hrules.profile, hrules.numeral] at hl'
  obtain ⟨inter, clipper, correct, hlib, hclip⟩ := hS.clip
  obtain ⟨simplify, hagg⟩ := hS.joins
  intro L hL hcoast c hc hkind hone
  rw [P.layers] at hL
  have hfirst : ∀ i, names[i]? = some L.name → i ≠ 0 := by
    rintro i hi rfl
    rw [hl.coast] at hi
    injection hi with hi
    exact hcoast hi.symm
  have hfirst' : ∀ i, names'[i]? = some L.name → i ≠ 0 := by
    rintro i hi rfl
    rw [hl'.coast] at hi
    injection hi with hi
    exact hcoast hi.symm
  obtain ⟨y, hy, hyn, hyname, rfl, hdn, hyl, hyp⟩ := content_origin ctx (P.clip.trans hclip) q hz (fun fs out h => by rw [P.joins]; exact hagg q.z fs out h)
    (fun f hf hlf => by
      rcases List.mem_append.1 hf with hf | hf
      · obtain ⟨t, _, rfl⟩ := List.mem_map.1 hf
        cases hlf
      · exact P.line f hf hlf) hL hc (by
      rcases hkind with h | h
      · left; rw [P.lines]; simpa using h
      · exact .inr h)
  rw [P.names] at hyname
  have hy0 := hfirst _ hyname
  have hyg : y ∈ gs := by
    rcases List.mem_append.1 hy with hy | hy
    · obtain ⟨t, _, rfl⟩ := List.mem_map.1 hy
      exact absurd rfl hy0
    · exact hy
  obtain ⟨f1, hf1, hs1, hfo1, ms1, hms1, rfl⟩ := (P.sound y hyg).resolve_left hy0
  dsimp only at hyn hyname hy0
  obtain ⟨d, hd, r, hr, hst1, hne1, _⟩ := hl.from_data f1 hf1
  have hname : L.name = r.layer := by
    have := hst1.layer
    rw [hyname] at this
    injection this
  have hkd : typeOf (drawn ctx (specOf q) { f1 with metas := ms1, geometry := withoutSmallRings (simplified (fun l => S.rd (S.mkMask l) q.z) f1.geometry) }).geometry = d.type :=
    (drawn_kind (P.clip.trans hclip) hz hdn).trans ((kept_type hyn).trans (datum_type hst1.geometry hne1))
  have hone : OneOfIt data' d := hone d hd hst1.id.symm hkd.symm
  obtain ⟨f2, hf2, hst2, hde2⟩ := hl'.all_data d (hsub d hd) r _ hr hst1.geometry hne1
  have hgeo : f2.geometry = f1.geometry := by
    have h1 := hst1.geometry
    rw [hst2.geometry] at h1
    injection h1
  have hid : f2.id = f1.id := by
    have h1 := hst1.id
    rw [← hst2.id] at h1
    exact_mod_cast h1.symm
  have hzm : f2.zmin = f1.zmin := by
    have h1 := hst1.first
    rw [hst2.first] at h1
    injection h1
  have hzx : f2.zmax = f1.zmax := by rw [hst1.last, hst2.last]
  have hname2 : names'[f2.layer]? = some L.name := by rw [hname]; exact hst2.layer
  have hs2 : Shows q f2 := by
    obtain ⟨a, b, c⟩ := hs1
    exact ⟨by rw [hzm]; exact a, by rw [hzx]; exact b, by rw [hgeo]; exact c⟩
  have hfo2 : (whole f2).Found q := by
    obtain ⟨u, a1, a2, a3, a4, a5⟩ := hfo1
    refine ⟨u, a1, a2, a3, ?_, ?_⟩
    · show boxMeets f2 u
      have a4 : boxMeets f1 u := a4
      unfold boxMeets at a4 ⊢
      rw [hgeo]; exact a4
    · show FoundIn u q f2
      have a5 : FoundIn u q f1 := a5
      unfold FoundIn findBestTile at a5 ⊢
      rw [hgeo]; exact a5
  have hsimp : (fun l => S'.rd (S'.mkMask l) q.z) = (fun l => S.rd (S.mkMask l) q.z) := by rw [hrules.rd, hrules.mkMask]
  obtain ⟨g2, hg2, ms2, hms2, rfl⟩ := P'.all f2 hf2 hs2 hfo2 (by rw [hsimp, hgeo]; exact hyn)
  have hdr : ∀ y1 y2 : Feature, y2.geometry = withoutSmallRings (simplified (fun l => S'.rd (S'.mkMask l) q.z) f2.geometry) →
      y1.geometry = withoutSmallRings (simplified (fun l => S.rd (S.mkMask l) q.z) f1.geometry) →
      (drawn ctx' (specOf q) y2).geometry = (drawn ctx (specOf q) y1).geometry := by
    intro y1 y2 e1 e2
    simp only [drawn]
    rw [draw_congr (P'.clip.trans (hrules.clip.trans P.clip.symm)), e1, e2, hsimp, hgeo]
  have hty : typeOf (withoutSmallRings (simplified (fun l => S'.rd (S'.mkMask l) q.z) f2.geometry)) = typeOf (withoutSmallRings (simplified (fun l => S.rd (S.mkMask l) q.z) f1.geometry)) := by
    rw [hsimp, hgeo]
  have ht1 := (tags_perm hS.shipped hS.numerals hS.doubles (hD.texts d hd) hr hst1).1
  have ht2 := (tags_perm hS.shipped hS.numerals hS.doubles (hD.texts d hd) hr hst2).1
  rw [P'.layers]
  obtain ⟨L', n1, n2, c', n3, n4, n5, n6, n7⟩ := content_has ctx' q (List.mem_append_right (leafs'.map seaSquare) hg2) (by dsimp only; rw [hsimp, hgeo]; exact hyn) (name := L.name)
    (by rw [P'.names]; exact hname2) (fun y hy o1 o2 o3 => by
      dsimp only at o1 o2 o3 ⊢
      have hl0 : y.layer ≠ 0 := by rw [o1]; exact hfirst' _ hname2
      rcases List.mem_append.1 hy with hy | hy
      · obtain ⟨t, _, rfl⟩ := List.mem_map.1 hy
        exact absurd rfl hl0
      · obtain ⟨f3, hf3, _, _, ms3, hms3, rfl⟩ := (P'.sound y hy).resolve_left hl0
        dsimp only at o1 o2 o3 ⊢
        obtain ⟨d3, hd3, r3, hr3, hst3, hne3, hde3⟩ := hl'.from_data f3 hf3
        have hn2 : withoutSmallRings (simplified (fun l => S'.rd (S'.mkMask l) q.z) f2.geometry) ≠ .null := by rw [hsimp, hgeo]; exact hyn
        have hn3 : withoutSmallRings (simplified (fun l => S'.rd (S'.mkMask l) q.z) f3.geometry) ≠ .null := by
          intro h0
          rw [h0] at o3
          exact hn2 (type_zero.1 o3.symm)
        rw [kept_type hn3, kept_type hn2, datum_type hst3.geometry hne3, hgeo, datum_type hst1.geometry hne1] at o3
        have : d3 = d := hone d3 hd3 (by
          have a1 : (f3.id : Int) = d3.id % 2 ^ 64 := hst3.id
          have a2 : (f2.id : Int) = d.id % 2 ^ 64 := hst2.id
          rw [← a1, ← a2, o2]) o3
        subst this
        have := describes_unique hl'.nodup hde3 hde2
        subst this
        exact ⟨rfl, (tagsOf_perm hms3).trans (tagsOf_perm hms2).symm⟩)
    (by rw [hdr { f1 with metas := ms1, geometry := withoutSmallRings (simplified (fun l => S.rd (S.mkMask l) q.z) f1.geometry) } _ rfl rfl]; exact hdn)
    (fun h => by
      have h' : ctx.aggLines = true := by rw [P.lines, ← P'.lines]; exact h
      have := hyl h'
      simp only [isLine] at this ⊢
      rw [hty]; exact this)
    (fun h hp => by
      have h' : ctx.aggPolygons = true := by rw [P.polys, ← P'.polys]; exact h
      have hp' : isPoly ({ f1 with metas := ms1, geometry := withoutSmallRings (simplified (fun l => S.rd (S.mkMask l) q.z) f1.geometry) } : Feature) = true := by
        simp only [isPoly] at hp ⊢
        rw [← hty]; exact hp
      have := hyp h' hp'
      rw [dropped, P.drop] at this
      rw [dropped, P'.drop, P'.tiny, hrules.tiny, hdr { f1 with metas := ms1, geometry := withoutSmallRings (simplified (fun l => S.rd (S.mkMask l) q.z) f1.geometry) } _ rfl rfl]
      rw [P.tiny] at this
      have e1 : decide ((drawn ctx (specOf q) { f1 with metas := ms1, geometry := withoutSmallRings (simplified (fun l => S.rd (S.mkMask l) q.z) f1.geometry) }).layer ≠ 0) = true := decide_eq_true hy0
      rw [e1] at this
      simp only [Bool.true_and] at this
      rw [this, Bool.and_false])
  refine ⟨L', n1, n2, c', n3, n4.trans hid, ?_, ?_, n7.trans ?_⟩
  · rw [n5, hdr { f1 with metas := ms1, geometry := withoutSmallRings (simplified (fun l => S.rd (S.mkMask l) q.z) f1.geometry) } _ rfl rfl]; rfl
  · rw [n6, hdr { f1 with metas := ms1, geometry := withoutSmallRings (simplified (fun l => S.rd (S.mkMask l) q.z) f1.geometry) } _ rfl rfl]; rfl
  · exact ((tagsOf_perm hms2).trans (ht2.trans ht1.symm)).trans (tagsOf_perm hms1).symm

/-- after an import of OSM data -/
theorem osm_painted (hS : S.Ok t e g) (hD : S.Fits data)
    (runs : List (List String)) (hacts : changes runs = [.load false true, .pack, .tiles]) (a b : TileDb MetaTable)
    (hr : Imports (importParts (S.env data)) runs a b) (hsmall : SmallPacks b.features) (hsize : b.pf.reopen.size < 2 ^ 64) (features : List (UInt64 × Bytes))
    (hdb : EntriesOf b.features features) (ctx : GetCtx) (hctx : makeRenderCtx S.base (preparedString b.maxPrepared) b.info = .ok ctx)
    (q : Tile) (hv : q.Valid) (hz : q.z ≤ 20) (hshort : S.ShortLines data ctx q) :
    ∃ bytes layers, getTile b.tiles features b.pf.reopen ctx q = .ok (if bytes = [] then none else some (ctx.encode bytes)) ∧
      (bytes.length < 2 ^ 32 → clientTile bytes = some layers ∧ (bytes = [] ↔ layers = [])) ∧ Painted S t data q layers := by
  obtain ⟨inter, clipper, correct, hlib, hclip⟩ := hS.clip
  obtain ⟨simplify, hagg⟩ := hS.joins
  obtain ⟨g1, g2, g3⟩ := hS.error
  have hin := osm_in hS hD
  obtain ⟨hmax, _, _, _, fs0, _, hload0⟩ := imports_loaded (S.env data) false true hS.work (fun fs m h => (hin fs m h).2) runs hacts a b hr hsmall
  obtain ⟨names0, tbl0, hl0⟩ := osm_loaded hS.shipped hS.numerals hD.toGoodData hload0
  obtain ⟨b1, b2, h3, h4, h5⟩ := hl0.table
  rw [hmax, h3] at hctx
  rw [ctx_of (by norm_num) h4 h5] at hctx
  injection hctx with hctx
  have hctxOf : (S.env data).ctxOf b.info = { ctx with maxPrepared := -1 } := by
    show (match makeRenderCtx S.base none b.info with | .ok c => c | _ => S.base) = _
    rw [h3, ← hctx, ctx_first h4 h5]
  have hdec0 : (S.env data).decOf b.info = tbl0 := (osm_importable hS hD hload0 hl0).1
  obtain ⟨_, ⟨_, _, fs, rfl, hload⟩, _, hserve⟩ := served_drawn_all (S.env data) false true hS.sorts hS.masks hS.work hin runs hacts a b hr hsmall hsize features hdb
    ctx ⟨-1, hctxOf⟩ (by rw [← hctx]; exact hS.reads) (by rw [hdec0, ← hctx]) ⟨by rw [← hctx], by rw [← hctx], by rw [← hctx], by rw [← hctx]⟩
    e g1 g2 inter clipper correct hlib (by rw [← hctx]; exact hclip) simplify (by intro z fs out h; rw [← hctx]; exact hagg z fs out h)
  obtain ⟨names, tbl, hl⟩ := osm_loaded hS.shipped hS.numerals hD.toGoodData hload
  obtain ⟨_, _, _, himp⟩ := osm_importable hS hD hload hl
  have hnames : ctx.layerNames = names := by
    obtain ⟨b1', b2', k1, k2, k3⟩ := hl.table
    rw [h3] at k1
    injection k1 with _ k1 _
    rw [← k1, h4] at k2
    injection k2 with k2
    rw [← hctx]
    exact k2
  obtain ⟨leafs, gs, bytes, layers, m1, m2, m3, m4, m5, m6, _⟩ := hserve (fun x hx => by obtain ⟨f, hf, rfl⟩ := mem_whole.1 hx; rw [hnames]; exact (himp f hf).2.1) (by rw [hnames]; exact hl.few.1) []
    ⟨by rw [← hctx]; rfl, by rw [← hctx]; simp, by simp⟩ q hv hz (.inr (.inr (.inr (by simp)))) (fun x hx => by obtain ⟨f, hf, rfl⟩ := mem_whole.1 hx; exact (himp f hf).2.2 q.z (by omega))
    (fun gs i h => hshort fs b.info hload gs i (fun y hy => (h y hy).imp_right (by rintro ⟨x, hx, hs⟩; obtain ⟨f, hf, rfl⟩ := mem_whole.1 hx; exact ⟨f, hf, hs⟩)))
  have hdr : (drawing ctx 10 q).clip = ctx.clip ∧ (drawing ctx 10 q).tiny = ctx.tiny ∧ (drawing ctx 10 q).layerNames = ctx.layerNames ∧ (drawing ctx 10 q).aggregate = ctx.aggregate ∧
      (drawing ctx 10 q).dropSubpixel = ctx.dropSubpixel := by
    rw [drawing]; split <;> exact ⟨rfl, rfl, rfl, rfl, rfl⟩
  refine ⟨bytes, layers, m5, m6, fs, b.info, names, tbl, (drawing ctx 10 q).toRenderCtx, leafs, gs, hl, ?_⟩
  refine ⟨hdr.2.2.1.trans hnames, hdr.1.trans (by rw [← hctx]), hdr.2.1.trans (by rw [← hctx]), hdr.2.2.2.2.trans (by rw [← hctx]), ?_, ?_, hdr.2.2.2.1.trans (by rw [← hctx]),
    fun g hg => ?_, fun f hf => m3 (whole f) (mem_whole.2 ⟨f, hf, rfl⟩), fun g hg => ?_, m4⟩
  · rw [drawing]; split
    · rename_i h; simp [h]
    · rename_i h; simp only [h, decide_false]; rw [← hctx]
  · rw [drawing]; split
    · rename_i h; simp [h]
    · rename_i h; simp only [h, decide_false]; rw [← hctx]
  · obtain ⟨x, k1, k2, k3, k4⟩ := m2 g hg
    obtain ⟨f, hf, rfl⟩ := mem_whole.1 k1
    exact .inr ⟨f, hf, k2, k3, k4⟩
  · obtain ⟨x, k1, k2, k3, k4⟩ := m2 g hg
    obtain ⟨f, hf, rfl⟩ := mem_whole.1 k1
    exact (stored_renderable (himp f hf).1.toPackable.toFeatureOk ((himp f hf).2.2 q.z (by omega)) k4).line
end

/-- a server draws areas one by one, and may leave small ones out where it does not -/
theorem ctx_other {base ctx : GetCtx} {pr : Option Bytes} {m : MetaTable} (h : makeRenderCtx base pr m = .ok ctx) : ctx.dropSubpixel = true ∧ ctx.aggPolygons = false := by
  unfold makeRenderCtx at h
  dsimp only at h
  have key : ∀ {mx : Int} {sea : List Nat}, (loadLayerNames m.names >>= fun names => loadSharedMetadata m.coding >>= fun dec =>
      (pure { base with maxPrepared := mx, seaside := sea, layerNames := names, dec := dec, ignorePrepared := false, ignoreSeaside := false,
                        label := none, aggLines := false, aggPolygons := false, dropSubpixel := true } : Res GetCtx)) = .ok ctx → ctx.dropSubpixel = true ∧ ctx.aggPolygons = false := by
    intro mx sea h
    obtain ⟨n, _, h⟩ := Res.bind_eq_ok.1 h
    obtain ⟨d, _, h⟩ := Res.bind_eq_ok.1 h
    rw [Res.pure_eq] at h
    injection h with h
    rw [← h]
    exact ⟨rfl, rfl⟩
  split at h
  · obtain ⟨x, _, h⟩ := Res.bind_eq_ok.1 h
    split at h
    · obtain ⟨y, _, h⟩ := Res.bind_eq_ok.1 h; exact key h
    · obtain ⟨y, _, h⟩ := Res.bind_eq_ok.1 h; exact key h
  · obtain ⟨x, _, h⟩ := Res.bind_eq_ok.1 h
    split at h
    · obtain ⟨y, _, h⟩ := Res.bind_eq_ok.1 h; exact key h
    · obtain ⟨y, _, h⟩ := Res.bind_eq_ok.1 h; exact key h

section
variable {W : WorldSetting} {t : Tables} {e : Int} {g : ℝ} {data : List Datum} {pts : Set Pt}

/-- after an import of a coastline and OSM data -/
theorem world_painted (hS : W.Ok t e g) (hD : W.Fits data) (hmany : data.length < 2 ^ 31) (hC : W.CoastFits pts)
    (runs : List (List String)) (hacts : changes runs = [.load true true, .pack, .tiles]) (a b : TileDb MetaTable)
    (hr : Imports (importParts (W.env data)) runs a b) (hsmall : SmallPacks b.features)
    (hsize : b.pf.reopen.size < 2 ^ 64) (features : List (UInt64 × Bytes)) (hdb : EntriesOf b.features features) (ctx : GetCtx)
    (hctx : makeRenderCtx W.base (preparedString b.maxPrepared) b.info = .ok ctx)
    (q : Tile) (hv : q.Valid) (hz : q.z ≤ 20) (hshort : W.ShortLines data ctx q) :
    ∃ bytes layers, getTile b.tiles features b.pf.reopen ctx q = .ok (if bytes = [] then none else some (ctx.encode bytes)) ∧
      (bytes.length < 2 ^ 32 → clientTile bytes = some layers ∧ (bytes = [] ↔ layers = [])) ∧ Painted W.toOsmSetting t data q layers := by
  have htiny : ctx.tiny = W.base.tiny := ctx_tiny hctx
  obtain ⟨cs, sea, fs, m0, names, tbl, _, _, hl, ⟨c1, c2, c3, c4⟩, hcf, _, heach, h3, h4⟩ := world_served_all hS hD hmany hC runs hacts a b hr hsmall hsize features hdb ctx hctx
  have main : ∃ (bytes : Bytes) (layers : List ClientLayer) (leafs : List Tile) (gs : List Feature),
        (∀ g ∈ gs, ∃ x ∈ (cs :: fs.map (List.map whole)).flatten, Shows q x.feature ∧ x.Found q ∧ StoredAs (fun l => W.rd (W.mkMask l) q.z) x.feature g) ∧
        (∀ x ∈ (cs :: fs.map (List.map whole)).flatten, Shows q x.feature → x.Found q →
          withoutSmallRings (simplified (fun l => W.rd (W.mkMask l) q.z) x.feature.geometry) ≠ .null → ∃ g ∈ gs, StoredAs (fun l => W.rd (W.mkMask l) q.z) x.feature g) ∧
        getTile b.tiles features b.pf.reopen ctx q = .ok (if bytes = [] then none else some (ctx.encode bytes)) ∧
        (bytes.length < 2 ^ 32 → clientTile bytes = some layers ∧ (bytes = [] ↔ layers = [])) ∧
        layers = tileContent (drawing ctx 10 q).toRenderCtx (specOf q) (leafs.map seaSquare ++ gs) := by
    by_cases h10 : q.z ≤ 10
    · exact h3 q hv h10 hshort
    · obtain ⟨bytes, layers, leafs, gs, k1, k2, k3, k4, k5, k6, _⟩ := h4 q hv hz hshort (.inl (by omega))
      exact ⟨bytes, layers, leafs, gs, k2, k3, k4, k5, k6⟩
  obtain ⟨bytes, layers, leafs, gs, m2, m3, m5, m6, m4⟩ := main
  have hmem : ∀ {x : Inserted}, x ∈ (cs :: fs.map (List.map whole)).flatten ↔ x ∈ cs ∨ ∃ f ∈ fs.flatten, x = whole f := by
    intro x
    rw [List.flatten_cons, List.mem_append, mem_whole]
  have hdr : (drawing ctx 10 q).clip = ctx.clip ∧ (drawing ctx 10 q).tiny = ctx.tiny ∧ (drawing ctx 10 q).layerNames = ctx.layerNames ∧ (drawing ctx 10 q).aggregate = ctx.aggregate ∧
      (drawing ctx 10 q).dropSubpixel = ctx.dropSubpixel := by
    rw [drawing]; split <;> exact ⟨rfl, rfl, rfl, rfl, rfl⟩
  have hother := ctx_other hctx
  refine ⟨bytes, layers, m5, m6, fs, m0, names, tbl, (drawing ctx 10 q).toRenderCtx, leafs, gs, hl, ?_⟩
  refine ⟨hdr.2.2.1.trans c1, hdr.1.trans c3, hdr.2.1.trans htiny, hdr.2.2.2.2.trans hother.1, ?_, ?_, hdr.2.2.2.1.trans c4,
    fun g hg => ?_, fun f hf => m3 (whole f) (hmem.2 (.inr ⟨f, hf, rfl⟩)), fun g hg => ?_, m4⟩
  · rw [drawing]; split
    · rename_i h; simp [h]
    · rename_i h; simp only [h, decide_false]; exact c2
  · rw [drawing]; split
    · rename_i h; simp [h]
    · rename_i h; simp only [h, decide_false]; exact hother.2
  · obtain ⟨x, k1, k2, k3, k4⟩ := m2 g hg
    rcases hmem.1 k1 with k1 | ⟨f, hf, rfl⟩
    · left
      obtain ⟨_, ps, h1, _⟩ := hcf.shows x k1
      obtain ⟨k, _, h2⟩ := h1.feature
      obtain ⟨ms, _, rfl⟩ := k4
      show x.feature.layer = 0
      rw [h2]
    · exact .inr ⟨f, hf, k2, k3, k4⟩
  · obtain ⟨x, k1, k2, k3, k4⟩ := m2 g hg
    exact (stored_renderable (heach x k1).1.toPackable.toFeatureOk ((heach x k1).2 q.z (by omega)) k4).line
end

/-! ### the theorems -/

/-- what who asks for a tile sees -/
def Spec.Seen (b : TileDb MetaTable) (features : List (UInt64 × Bytes)) (ctx : GetCtx) (q : Tile) (layers : List ClientLayer) : Prop :=
  ∃ bytes, getTile b.tiles features b.pf.reopen ctx q = .ok (if bytes = [] then none else some (ctx.encode bytes)) ∧
    (bytes.length < 2 ^ 32 → clientTile bytes = some layers ∧ (bytes = [] ↔ layers = []))

/-- A map of the data: it was imported in any runs of the import program, on top of anything, without a coastline (C68) or with one (C69), and the server has started. -/
inductive Spec.MapOf (t : Tables) (e : Int) (g : ℝ) (q : Tile) : OsmSetting → List Datum → TileDb MetaTable → List (UInt64 × Bytes) → GetCtx → Prop
  | osm {S : OsmSetting} {data : List Datum} {a b : TileDb MetaTable} {features : List (UInt64 × Bytes)} {ctx : GetCtx} (ok : S.Ok t e g) (fits : S.Fits data)
      (runs : List (List String)) (acts : changes runs = [.load false true, .pack, .tiles]) (imports : Imports (importParts (S.env data)) runs a b) (small : SmallPacks b.features)
      (size : b.pf.reopen.size < 2 ^ 64) (entries : EntriesOf b.features features) (starts : makeRenderCtx S.base (preparedString b.maxPrepared) b.info = .ok ctx)
      (short : S.ShortLines data ctx q) : MapOf t e g q S data b features ctx
  | world {W : WorldSetting} {data : List Datum} {pts : Set Pt} {a b : TileDb MetaTable} {features : List (UInt64 × Bytes)} {ctx : GetCtx} (ok : W.Ok t e g) (fits : W.Fits data)
      (many : data.length < 2 ^ 31) (coast : W.CoastFits pts)
      (runs : List (List String)) (acts : changes runs = [.load true true, .pack, .tiles]) (imports : Imports (importParts (W.env data)) runs a b) (small : SmallPacks b.features)
      (size : b.pf.reopen.size < 2 ^ 64) (entries : EntriesOf b.features features) (starts : makeRenderCtx W.base (preparedString b.maxPrepared) b.info = .ok ctx)
      (short : W.ShortLines data ctx q) : MapOf t e g q W.toOsmSetting data b features ctx

section
variable {S S' : OsmSetting} {t : Tables} {e e' : Int} {g g' : ℝ} {data data' : List Datum} {q : Tile} {b b' : TileDb MetaTable} {features features' : List (UInt64 × Bytes)} {ctx ctx' : GetCtx}

theorem map_painted (h : MapOf t e g q S data b features ctx) (hv : q.Valid) (hz : q.z ≤ 20) : ∃ layers, Seen b features ctx q layers ∧ Painted S t data q layers := by
  cases h with
  | osm h1 h2 runs h3 h4 h5 h6 h7 h8 h9 =>
    obtain ⟨bytes, layers, k1, k2, k3⟩ := osm_painted h1 h2 runs h3 _ _ h4 h5 h6 features h7 ctx h8 q hv hz h9
    exact ⟨layers, ⟨bytes, k1, k2⟩, k3⟩
  | world h1 h2 hm hc runs h3 h4 h5 h6 h7 h8 h9 =>
    obtain ⟨bytes, layers, k1, k2, k3⟩ := world_painted h1 h2 hm hc runs h3 _ _ h4 h5 h6 features h7 ctx h8 q hv hz h9
    exact ⟨layers, ⟨bytes, k1, k2⟩, k3⟩

theorem map_rules (h : MapOf t e g q S data b features ctx) : S.Ok t e g ∧ S.Fits data := by
  cases h with
  | osm h1 h2 => exact ⟨h1, h2⟩
  | world h1 h2 => exact ⟨h1, h2⟩

/-- More data never hides anything.  Take two maps, the second of more objects; otherwise they may have been made in different ways: with and without a coastline, with other threads, schedules,
memory bounds, and on top of anything.  Then in every tile all that is seen in the first is seen in the second, in the same layer, with the same id, tags and shape, coordinate by coordinate. -/
theorem C81_more (h : MapOf t e g q S data b features ctx) (h' : MapOf t e' g' q S' data' b' features' ctx') (hrules : SameRules S S') (hsub : ∀ d ∈ data, d ∈ data')
    (hv : q.Valid) (hz : q.z ≤ 20) : ∃ layers layers', Seen b features ctx q layers ∧ Seen b' features' ctx' q layers' ∧ StillSeen data data' q layers layers' := by
  obtain ⟨layers, h1, h2⟩ := map_painted h hv hz
  obtain ⟨layers', h3, h4⟩ := map_painted h' hv hz
  exact ⟨layers, layers', h1, h3, painted_grows (map_rules h).1 (map_rules h).2 hrules hsub hz h2 h4⟩

theorem rules_symm (h : SameRules S S') : SameRules S' S :=
  ⟨h.prof.symm, h.profile.symm, h.numeral.symm, h.rd.symm, h.mkMask.symm, h.clip.symm, h.tiny.symm⟩

/-- The map depends on the data only.  Take two maps of the same objects, in any order, made in different ways.  Then in every tile the same is seen. -/
theorem C81_same (h : MapOf t e g q S data b features ctx) (h' : MapOf t e' g' q S' data' b' features' ctx') (hrules : SameRules S S') (hsame : ∀ d, d ∈ data ↔ d ∈ data')
    (hv : q.Valid) (hz : q.z ≤ 20) :
    ∃ layers layers', Seen b features ctx q layers ∧ Seen b' features' ctx' q layers' ∧ StillSeen data data' q layers layers' ∧ StillSeen data' data q layers' layers := by
  obtain ⟨layers, h1, h2⟩ := map_painted h hv hz
  obtain ⟨layers', h3, h4⟩ := map_painted h' hv hz
  exact ⟨layers, layers', h1, h3, painted_grows (map_rules h).1 (map_rules h).2 hrules (fun d => (hsame d).1) hz h2 h4,
    painted_grows (map_rules h').1 (map_rules h').2 (rules_symm hrules) (fun d => (hsame d).2) hz h4 h2⟩
end

/-! ### files -/

section
variable {R : Type}

/-- A map of a file: it was imported, with any archive of land polygons or without one; any division into buffers, any number of threads, any sorting of equal keys. -/
inductive Spec.FileMapOf (asm : List (List (LocatedEntity R)) → List (LocatedEntity R) → List (OsmItem LatLng)) (t : Tables) (e : Int) (g : ℝ) (q : Tile) (file : List (List (OsmEntity R))) :
    OsmSetting → TileDb MetaTable → List (UInt64 × Bytes) → GetCtx → Prop
  | osm {S : OsmSetting} {srt : List NodeQuery → List NodeQuery} {strict : Bool} {threads : Nat} {a b : TileDb MetaTable} {features : List (UInt64 × Bytes)} {ctx : GetCtx}
      (good : GoodFile file) (sorts : SortsByAbsId srt) (wrap : strict = true → ∀ m ∈ nodesIn file, m.2.x ≤ 347483647) (ok : S.Ok t e g) (fits : S.Fits (fileData asm file))
      (runs : List (List String)) (acts : changes runs = [.load false true, .pack, .tiles]) (imports : Imports (importParts (S.fileEnv srt strict threads asm file)) runs a b)
      (small : SmallPacks b.features) (size : b.pf.reopen.size < 2 ^ 64) (entries : EntriesOf b.features features)
      (starts : makeRenderCtx S.base (preparedString b.maxPrepared) b.info = .ok ctx) (short : S.ShortLines (fileData asm file) ctx q) : FileMapOf asm t e g q file S b features ctx
  | world {W : WorldSetting} {zip : ZipArchive} {ps : List ShpPolygon} {pts : Set Pt} {srt : List NodeQuery → List NodeQuery} {strict : Bool} {threads : Nat} {a b : TileDb MetaTable}
      {features : List (UInt64 × Bytes)} {ctx : GetCtx} (land : LandArchive zip ps) (polys : W.polys = landOf W.prof.conv ps)
      (good : GoodFile file) (sorts : SortsByAbsId srt) (wrap : strict = true → ∀ m ∈ nodesIn file, m.2.x ≤ 347483647) (ok : W.Ok t e g) (fits : W.Fits (fileData asm file))
      (many : (fileData asm file).length < 2 ^ 31) (coast : W.CoastFits pts) (runs : List (List String)) (acts : changes runs = [.load true true, .pack, .tiles])
      (imports : Imports (importParts (W.filesEnv zip srt strict threads asm file)) runs a b)
      (small : SmallPacks b.features) (size : b.pf.reopen.size < 2 ^ 64) (entries : EntriesOf b.features features)
      (starts : makeRenderCtx W.base (preparedString b.maxPrepared) b.info = .ok ctx) (short : W.ShortLines (fileData asm file) ctx q) : FileMapOf asm t e g q file W.toOsmSetting b features ctx

variable {asm asm' : List (List (LocatedEntity R)) → List (LocatedEntity R) → List (OsmItem LatLng)} {file file' : List (List (OsmEntity R))}
  {S S' : OsmSetting} {t : Tables} {e e' : Int} {g g' : ℝ} {q : Tile} {b b' : TileDb MetaTable} {features features' : List (UInt64 × Bytes)} {ctx ctx' : GetCtx}

theorem file_map (h : FileMapOf asm t e g q file S b features ctx) : MapOf t e g q S (fileData asm file) b features ctx := by
  cases h with
  | osm h1 h2 h3 h4 h5 runs h6 h7 h8 h9 h10 h11 h12 => exact .osm h4 h5 runs h6 (file_imports h1 h2 h3 h7) h8 h9 h10 h11 h12
  | world hl hp h1 h2 h3 h4 h5 hm hc runs h6 h7 h8 h9 h10 h11 h12 => exact .world h4 h5 hm hc runs h6 (files_imports hl hp h1 h2 h3 h7) h8 h9 h10 h11 h12

theorem nodeAt_more {nodes nodes' : List (Int × XY)} (hsub : ∀ n ∈ nodes, n ∈ nodes') (hone : ∀ n ∈ nodes', ∀ m ∈ nodes', n.1.natAbs = m.1.natAbs → n.2 = m.2) {i : Int}
    (h : nodeAt nodes i ≠ none) : nodeAt nodes' i = nodeAt nodes i := by
  unfold nodeAt at h ⊢
  cases h1 : nodes.find? (fun n => n.1.natAbs == i.natAbs) with
  | none => rw [h1] at h; exact absurd rfl h
  | some n =>
    have hn := hsub n (List.mem_of_find?_eq_some h1)
    have hi : n.1.natAbs = i.natAbs := by simpa using List.find?_some h1
    cases h2 : nodes'.find? (fun n => n.1.natAbs == i.natAbs) with
    | none => exact absurd (by simpa using hi) (List.find?_eq_none.1 h2 n hn)
    | some m =>
      have hm : m.1.natAbs = i.natAbs := by simpa using List.find?_some h2
      rw [Option.map_some, Option.map_some, hone m (List.mem_of_find?_eq_some h2) n hn (hm.trans hi.symm)]

/-- A file with more objects: all nodes, ways and areas of the first file, whose ways are complete, are in the second.  Then all that is seen in a map of the first file is seen in every map
of the second, in the same place; the files may be divided, and imported, in different ways. -/
theorem C81_files (h : FileMapOf asm t e g q file S b features ctx) (h' : FileMapOf asm' t e' g' q file' S' b' features' ctx') (hrules : SameRules S S')
    (hsub : ∀ o ∈ file.flatten, (∀ r, o ≠ .relation r) → o ∈ file'.flatten) (hwhole : ∀ id tags refs, .way id tags refs ∈ file.flatten → ∀ r ∈ refs, nodeAt (nodesIn file) r ≠ none)
    (hareas : ∀ o, o ∈ areasOf asm [] (file.map (List.map (withPlaces (nodesIn file)))) → o ∈ areasOf asm' [] (file'.map (List.map (withPlaces (nodesIn file')))))
    (hv : q.Valid) (hz : q.z ≤ 20) :
    ∃ layers layers', Seen b features ctx q layers ∧ Seen b' features' ctx' q layers' ∧ StillSeen (fileData asm file) (fileData asm' file') q layers layers' := by
  refine C81_more (file_map h) (file_map h') hrules (fun d hd => ?_) hv hz
  have hgood : GoodFile file' := by cases h' <;> assumption
  have hnodes : ∀ n ∈ nodesIn file, n ∈ nodesIn file' := by
    intro n hn
    obtain ⟨o, h1, h2⟩ := List.mem_filterMap.1 hn
    refine List.mem_filterMap.2 ⟨o, hsub o h1 ?_, h2⟩
    rintro r rfl
    cases h2
  have hone : ∀ n ∈ nodesIn file', ∀ m ∈ nodesIn file', n.1.natAbs = m.1.natAbs → n.2 = m.2 := by
    have hp := hgood.sorted
    intro n hn m hm hnm
    have hq : (nodesIn file').Pairwise (fun a b => a.1.natAbs = b.1.natAbs → a.2 = b.2) := hp.imp (fun h => h.2)
    haveI : Std.Symm (fun a b : Int × XY => a.1.natAbs = b.1.natAbs → a.2 = b.2) := ⟨fun a b h k => (h k.symm).symm⟩
    exact hq.forall_of_forall (fun _ _ _ => rfl) hn hm hnm
  rcases mem_fileData.1 hd with ⟨id, tags, loc, h1⟩ | ⟨id, tags, refs, h1⟩ | ⟨o, h1⟩
  · exact mem_fileData.2 (.node id tags loc (hsub _ h1 (by simp)))
  · have : refs.map (fun r => (nodeAt (nodesIn file) r).map degrees) = refs.map (fun r => (nodeAt (nodesIn file') r).map degrees) :=
      List.map_congr_left fun r hr => by rw [nodeAt_more hnodes hone (hwhole id tags refs h1 r hr)]
    rw [this]
    exact mem_fileData.2 (.way id tags refs (hsub _ h1 (by simp)))
  · exact mem_fileData.2 (.area o (hareas o h1))
end
end Tiles
