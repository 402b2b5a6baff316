import Verif.Props.C72
import Verif.Props.C70b
import Verif.Props.C71b
import Verif.Proof.LinearLib
/-! C72: all conditions are met: small OSM files, imported and served. -/
namespace Tiles
open Spec

/-- the setting of the examples of C70, with a map library whose values are easy to calculate -/
noncomputable def fileDemo : OsmSetting := { streetDemo with prof := { osmDemo.prof with conv := latlngToFixed linPx } }

theorem fileDemo_ok : fileDemo.Ok fullTables 1 512 where
  shipped := .full
  numerals := fun s n h => fromChars_range h
  doubles := osmDemo_ok.doubles
  sorts := osmDemo_ok.sorts
  masks := osmDemo_ok.masks
  keeps := osmDemo_ok.keeps
  work := osmDemo_ok.work
  reads := rfl
  error := ⟨by omega, by norm_num, by norm_num⟩
  clip := ⟨segInter, C62_clipper, id, seg_clip, rfl⟩
  joins := osmDemo_ok.joins
  places := ⟨_, lin_lib, rfl⟩

/-! ### data with one object that the profile wants -/

structure Lone (pre : List Datum) (d : Datum) (post : List Datum) (r : RuleOut) (gm : Geometry) (z : Nat) (ms : List Meta) : Prop where
  good : GoodData fileDemo.prof fileDemo.profile fileDemo.numeral (pre ++ d :: post)
  rule : d.rule fullTables = some r
  others : ∀ d' ∈ pre ++ post, d'.rule fullTables = none
  geo : readOsm fileDemo.prof.conv d.shape = .ok gm
  simple : (∃ p, gm = .point [p]) ∨ ∃ l, gm = .polyline [l] ∧ l ≠ []
  zoom : levelFor (areaOf fileDemo.prof (d.obj fileDemo.profile fileDemo.numeral)) r.zoom = some z
  metas : ((r.attributes fileDemo.numeral (tagValue d.tags)).map (fun a => (⟨a.1, a.2.stored fileDemo.prof.toDouble⟩ : Meta))).Perm ms
  sorted : ms.Pairwise (fun x y => bytesLe x.key y.key = true ∧ x.key ≠ y.key)
  sizes : ∀ i < 13, (match serializeFeature (fun _ => []) [] true ⟨(d.id % 2 ^ 64).toNat, i, z, 21, ms, gm⟩, serializeFeature C52_mk [] false ⟨(d.id % 2 ^ 64).toNat, i, z, 21, ms, gm⟩ with
    | .ok a, .ok b => decide (32 ≤ a.length ∧ a.length < 200 ∧ 32 ≤ b.length ∧ b.length < 200)
    | _, _ => false) = true

section
variable {pre post : List Datum} {d : Datum} {r : RuleOut} {gm : Geometry} {z : Nat} {ms : List Meta}

def loneFeature (d : Datum) (gm : Geometry) (z : Nat) (ms : List Meta) (i : Nat) : Feature := ⟨(d.id % 2 ^ 64).toNat, i, z, 21, ms, gm⟩

theorem lone_loaded (h : Lone pre d post r gm z ms) {fs : List (List Feature)} {m : MetaTable} {names : List Bytes} {tbl : List Meta}
    (hl : OsmLoaded fileDemo.prof fileDemo.profile fullTables fileDemo.numeral (pre ++ d :: post) fs m names tbl) : ∃ i < 13, fs.flatten = [loneFeature d gm z ms i] := by
  have hne : gm ≠ .null := by rcases h.simple with ⟨p, rfl⟩ | ⟨l, rfl, _⟩ <;> simp
  have hall : ∀ f ∈ fs.flatten, ∃ i < 13, f = loneFeature d gm z ms i := by
    intro f hf
    obtain ⟨d', hd, r', hr, hst, _, hde⟩ := hl.from_data f hf
    have hd' : d' = d := by
      rcases List.mem_append.1 hd with hd | hd
      · rw [h.others d' (List.mem_append_left _ hd)] at hr; cases hr
      · rcases List.mem_cons.1 hd with hd | hd
        · exact hd
        · rw [h.others d' (List.mem_append_right _ hd)] at hr; cases hr
    subst hd'
    rw [h.rule] at hr
    injection hr with hr
    subst hr
    have h1 : f.metas = ms := by
      have hp := (metas_perm Shipped.full h.rule hst).trans h.metas
      have hs1 : f.metas.Pairwise (fun x y => bytesLe x.key y.key = true ∧ x.key ≠ y.key) := List.pairwise_map.1 hde.metas.sorted
      exact List.Perm.eq_of_pairwise (fun a b _ _ h h' => absurd (bytesLe_antisymm h.1 h'.1) h.2) hs1 h.sorted hp
    have h2 : f.geometry = gm := by
      have := hst.geometry
      rw [show (d'.obj fileDemo.profile fileDemo.numeral).shape = d'.shape from rfl, h.geo] at this
      injection this with this
      exact this.symm
    have h3 : f.id = (d'.id % 2 ^ 64).toNat := by
      have : (f.id : Int) = d'.id % 2 ^ 64 := hst.id
      omega
    have h4 : f.zmin = z := by
      have := hst.first
      rw [h.zoom] at this
      injection this with this
      exact this.symm
    have h5 : f.layer < names.length := (List.getElem?_eq_some_iff.1 hst.layer).1
    refine ⟨f.layer, by have := hl.few.2; omega, ?_⟩
    have h6 := hst.last
    cases f
    simp only at h1 h2 h3 h4 h6
    rw [h1, h2, h3, h4, h6]
    rfl
  obtain ⟨f, hf, _, hde⟩ := hl.all_data d (by simp) _ _ h.rule h.geo hne
  obtain ⟨i, hi, hfi⟩ := hall f hf
  refine ⟨i, hi, ?_⟩
  have hone : fs.flatten.length ≤ 1 := by
    have hno : ∀ d' ∈ pre ++ post, isWanted fileDemo.prof (d'.obj fileDemo.profile fileDemo.numeral) = false := by
      intro d' hd'
      rw [Bool.eq_false_iff]
      intro hc
      have hread := h.good.readable d' (by rcases List.mem_append.1 hd' with hd' | hd' <;> simp [hd'])
      obtain ⟨⟨r, hr⟩, _⟩ := (wanted_iff Shipped.full (d := d') hread).1 hc
      rw [h.others d' hd'] at hr
      cases hr
    have e1 : pre.filter (fun d => isWanted fileDemo.prof (d.obj fileDemo.profile fileDemo.numeral)) = [] := List.filter_eq_nil_iff.2 fun d' hd' => by simp [hno d' (List.mem_append_left _ hd')]
    have e2 : post.filter (fun d => isWanted fileDemo.prof (d.obj fileDemo.profile fileDemo.numeral)) = [] := List.filter_eq_nil_iff.2 fun d' hd' => by simp [hno d' (List.mem_append_right _ hd')]
    rw [hl.once, List.filter_append, List.filter_cons, e1, e2]
    split <;> simp
  match hfs : fs.flatten, hone, hf with
  | [x], _, hf =>
    rw [List.mem_singleton] at hf
    rw [← hf, hfi]

theorem lone_result (h : Lone pre d post r gm z ms) {fs : List (List Feature)} {m : MetaTable} (hl : OsmLoads fileDemo.prof fileDemo.profile fileDemo.numeral (pre ++ d :: post) fs m) :
    (fileDemo.env (pre ++ d :: post)).decOf m = [] ∧ ∃ i < 13, fs.flatten = [loneFeature d gm z ms i] := by
  obtain ⟨names, tbl, hl⟩ := osm_loaded Shipped.full (fun s n h => fromChars_range h) h.good hl
  obtain ⟨i, hi, hfs⟩ := lone_loaded h hl
  refine ⟨?_, i, hi, hfs⟩
  have ht : tbl = [] := by
    rw [List.eq_nil_iff_forall_not_mem]
    intro x hx
    have h1 := (hl.several x).1 hx
    rw [hfs] at h1
    have h2 : ms.Nodup := h.sorted.imp (fun hab he => hab.2 (by rw [he]))
    have h3 := List.nodup_iff_count_le_one.1 h2 x
    have h4 : [loneFeature d gm z ms i].flatMap (·.metas) = ms := by simp [loneFeature]
    rw [h4] at h1
    omega
  obtain ⟨b1, b2, h3, h4, h5⟩ := hl.table
  show (match loadSharedMetadata m.coding with | .ok tbl => tbl | _ => []) = []
  rw [h3]
  dsimp only
  rw [h5, ht]

theorem lone_size (h : Lone pre d post r gm z ms) {i : Nat} (hi : i < 13) : (∃ a, serializeFeature (fun _ => []) [] true (loneFeature d gm z ms i) = .ok a ∧ 32 ≤ a.length ∧ a.length < 200) ∧
    ∃ b, serializeFeature C52_mk [] false (loneFeature d gm z ms i) = .ok b ∧ 32 ≤ b.length ∧ b.length < 200 := by
  have := h.sizes i hi
  split at this
  · rename_i a b ha hb
    have := of_decide_eq_true this
    exact ⟨⟨a, ha, this.1, this.2.1⟩, b, hb, this.2.2⟩
  · cases this

theorem lone_fits (h : Lone pre d post r gm z ms) (hp : ∀ d' ∈ pre ++ d :: post, ∀ ps, readOsm fileDemo.prof.conv d'.shape ≠ .ok (.polygon ps)) : fileDemo.Fits (pre ++ d :: post) := by
  refine ⟨h.good, fun fs m hl f hf b hb => ?_, fun d hd ps h => absurd h (hp d hd ps)⟩
  obtain ⟨hd, i, hi, hfs⟩ := lone_result h hl
  rw [hfs, List.mem_singleton] at hf
  subst hf
  rw [hd] at hb
  obtain ⟨⟨a, h1, h2, h3⟩, a', h4, h5, h6⟩ := lone_size h hi
  rcases hb with hb | hb
  · rw [h1] at hb; injection hb with hb; subst hb; omega
  · rw [show fileDemo.mkMask = C52_mk from rfl, h4] at hb; injection hb with hb; subst hb; omega

theorem lone_short (h : Lone pre d post r gm z ms) (ctx : GetCtx) (hctx : ctx.clip = fileDemo.base.clip) (hagg : ctx.aggregate = C62_agg) (q : Tile) : fileDemo.ShortLines (pre ++ d :: post) ctx q := by
  intro fs m hl gs i hgs f hf
  obtain ⟨_, j, _, hfs⟩ := lone_result h hl
  have hclip : (drawing ctx 10 q).clip = clipGeometry segInter C62_clipper id := by
    rw [drawing]; split <;> exact hctx
  have hagg' : (drawing ctx 10 q).aggregate = C62_agg := by
    rw [drawing]; split <;> exact hagg
  have hfrom : ∀ g ∈ gs, (∃ t, g = seaSquare t) ∨ (∃ p, g.geometry = .point [p]) ∨ ((∃ ls, g.geometry = .polyline ls) ∧ LineFeature g) := by
    intro g hg
    rcases hgs g hg with ⟨t, rfl⟩ | ⟨f, h1, ms', _, rfl⟩
    · exact .inl ⟨t, rfl⟩
    · rw [hfs, List.mem_singleton] at h1
      subst h1
      right
      rcases h.simple with ⟨p, rfl⟩ | ⟨l, rfl, hne⟩
      · exact .inl ⟨p, rfl⟩
      · have hk : keep (C52_rd (C52_mk l) 0) l = l := keep_all _
        have : withoutSmallRings (simplified (fun l => fileDemo.rd (fileDemo.mkMask l) q.z) (loneFeature d (.polyline [l]) z ms j).geometry) = .polyline [l] := by
          simp only [loneFeature, simplified, withoutSmallRings, List.map_cons, List.map_nil]
          exact congrArg (fun l => Geometry.polyline [l]) hk
        refine .inr ⟨⟨_, this⟩, ?_⟩
        rw [this]
        exact ⟨rfl, by simpa [featureLines] using hne, by simp [featureLines]⟩
  have hgeo : (∃ t, f = seaSquare t) ∨ (∃ p, f.geometry = .point [p]) ∨ ∃ ls, f.geometry = .polyline ls := by
    rcases candidates_from hf with h | h
    · rcases hfrom f (List.mem_filter.1 h).1 with h | h | h
      · exact .inl h
      · exact .inr (.inl h)
      · exact .inr (.inr h.1)
    · refine .inr (.inr (joined_from (simplify := fun _ l => l) (z := q.z) (fun fs out ho => ?_) (fun g hg hl => ?_) h).1)
      · show (drawing ctx 10 q).aggregate q.z fs = out
        rw [hagg', C62_agg, ho]
      · rcases hfrom g (List.mem_filter.1 hg).1 with ⟨t, rfl⟩ | ⟨p, hp⟩ | h
        · cases hl
        · simp [isLine, hp, typeOf] at hl
        · exact h.2
  rcases hgeo with ⟨t, rfl⟩ | ⟨p, hp⟩ | ⟨ls, hls⟩
  · -- squares are clipped as in C62
    intro c hc
    have hctx' : ({ (drawing ctx 10 q).toRenderCtx with clip := clipGeometry C62_inter C62_clipper id, aggLines := false, aggPolygons := false } : RenderCtx).clip = clipGeometry C62_inter C62_clipper id := rfl
    refine short_points [] (by simp) { (drawing ctx 10 q).toRenderCtx with clip := clipGeometry C62_inter C62_clipper id, aggLines := false, aggPolygons := false } hctx' q [seaSquare t] 0 (simp := fun _ => [])
      (by intro g hg; exact .inl ⟨t, by simpa using hg⟩) (seaSquare t) ?_ c ?_
    · have h0 : ∀ ctx : RenderCtx, ctx.aggLines = false → ctx.aggPolygons = false → seaSquare t ∈ candidates ctx (specOf q) (ofLayer [seaSquare t] 0) := by
        intro ctx h1 h2
        have h3 : ofLayer [seaSquare t] 0 = [seaSquare t] := rfl
        rw [candidates, h3, List.mem_append, List.mem_append]
        refine .inl (.inl ?_)
        rw [direct, h1, h2, List.mem_filter]
        exact ⟨by rw [show unique [seaSquare t] = [seaSquare t] from rfl]; simp, rfl⟩
      exact h0 _ rfl rfl
    · rw [show (drawing ctx 10 q).toRenderCtx.clip = clipGeometry segInter C62_clipper id from hclip] at hc
      exact hc
  · intro c hc l hl
    rw [show (drawing ctx 10 q).toRenderCtx.clip = clipGeometry segInter C62_clipper id from hclip, hp] at hc
    have : c = .point [p] ∨ c = .null := by
      rw [clipGeometry, clipPoint, clipPointLoop] at hc
      split at hc
      · injection hc with hc; exact .inl hc.symm
      · injection hc with hc; exact .inr hc.symm
    rcases this with rfl | rfl
    · simp only [allLines, List.mem_singleton] at hl
      subst hl
      norm_num
    · cases hl
  · intro c hc l hl
    rw [show (drawing ctx 10 q).toRenderCtx.clip = clipGeometry segInter C62_clipper id from hclip, hls] at hc
    injection hc with hc
    rw [clipPolyline] at hc
    subst hc
    split at hl
    · cases hl
    · exact segInter_short _ _ l (List.mem_filter.1 hl).1

theorem lone_room (h : Lone pre d post r gm z ms) {fs : List (List Feature)} {m : MetaTable} (hl : OsmLoads fileDemo.prof fileDemo.profile fileDemo.numeral (pre ++ d :: post) fs m) :
    insertBytes (fs.map (List.map whole)) ≤ fileDemo.mem ∧
      (∀ u : Tile, u.Valid → u.z = 10 → tileBytes fileDemo.mkMask ((fileDemo.env (pre ++ d :: post)).decOf m) (fs.map (List.map whole)) u ≤ 2 ^ 30) ∧
      packBytes fileDemo.mkMask ((fileDemo.env (pre ++ d :: post)).decOf m) (fs.map (List.map whole)) < 2 ^ 62 := by
  classical
  obtain ⟨hd, i, hi, hfs⟩ := lone_result h hl
  obtain ⟨⟨a, h1, h2, h3⟩, b, h4, h5, h6⟩ := lone_size h hi
  generalize loneFeature d gm z ms i = F at *
  have hc : copies (whole F) ≤ 2 ^ 20 := by
    unfold copies
    exact (List.length_filter_le _ _).trans (le_of_eq cacheTiles_length)
  have hfs' : (fs.map (List.map whole)).flatten = [whole F] := by rw [← List.map_flatten, hfs]; rfl
  have hs : insertedSize F ≤ 200 := by unfold insertedSize; rw [h1]; dsimp only; omega
  have hx : indexedSize C52_mk [] F ≤ 200 := by unfold indexedSize; rw [h4]; dsimp only; omega
  have hm := Nat.mul_le_mul hc (Nat.add_le_add_right hs 15)
  have hm' := Nat.mul_le_mul hc (Nat.add_le_add_right hx 182)
  rw [hd, show fileDemo.mkMask = C52_mk from rfl, show fileDemo.mem = 2 ^ 50 from rfl]
  refine ⟨?_, fun u _ _ => ?_, ?_⟩
  · rw [insertBytes, hfs']
    simp only [List.map_cons, List.map_nil, List.sum_cons, List.sum_nil, show (whole F).feature = F from rfl]
    generalize copies (whole F) * _ = k at hm
    omega
  · rw [tileBytes, goesTo, hfs', List.filter_cons, List.filter_nil]
    split <;> simp [whole] <;> omega
  · rw [packBytes, hfs']
    simp only [List.map_cons, List.map_nil, List.sum_cons, List.sum_nil, show (whole F).feature = F from rfl]
    generalize copies (whole F) * (indexedSize C52_mk [] F + 182) = k at hm'
    omega

end

/-! ### the places -/

/-- a place north of the equator: 0.044 degrees north, `x` 10^-7 degrees east -/
def eq44 (x : Int) : XY := ⟨x, 440000⟩

theorem eq44_lat (x : Int) : (degrees (eq44 x)).lat = 44 / 1000 := by norm_num [degrees, eq44]
theorem eq44_lng (x : Int) : (degrees (eq44 x)).lng = x / 10 ^ 7 := rfl

theorem eq44_on {x : Int} (h : -1800000000 ≤ x ∧ x ≤ 1800000000) : OnMap (degrees (eq44 x)) := by
  have h1 : (-1800000000 : ℝ) ≤ x := by exact_mod_cast h.1
  have h2 : (x : ℝ) ≤ 1800000000 := by exact_mod_cast h.2
  refine ⟨?_, ?_⟩
  · rw [eq44_lng, abs_le]; constructor <;> linarith
  · rw [eq44_lat, abs_of_pos (by norm_num), maxLat]
    have hpi := Real.pi_gt_three
    have : (1 : ℝ) ≤ Real.sinh Real.pi := by
      have := Real.self_le_sinh_iff.2 Real.pi_pos.le
      linarith
    have h3 := Real.arctan_mono this
    rw [Real.arctan_one] at h3
    have h4 : Real.pi / 4 * (180 / Real.pi) ≤ Real.arctan (Real.sinh Real.pi) * (180 / Real.pi) := mul_le_mul_of_nonneg_right h3 (by positivity)
    have h5 : Real.pi / 4 * (180 / Real.pi) = 45 := by field_simp; norm_num
    linarith

theorem eq44_fixed {x : Int} {k : Int} (h : ((x : ℝ) / 10 ^ 7 + 180) / 360 * 2 ^ 32 - 1 < k ∧ (k : ℝ) ≤ ((x : ℝ) / 10 ^ 7 + 180) / 360 * 2 ^ 32) (hk : 0 ≤ k ∧ k < 2 ^ 32 - 1) :
    fileDemo.prof.conv (degrees (eq44 x)) = ⟨k, 2146958707⟩ := by
  have e : fileDemo.prof.conv (degrees (eq44 x)) = latlngToFixed linPx (degrees (eq44 x)) := rfl
  have h1 : ⌊mapX (degrees (eq44 x)) * 2 ^ 32⌋ = k := by
    rw [mapX, eq44_lng, Int.floor_eq_iff]
    constructor <;> linarith [h.1, h.2]
  have h2 : ⌊(1 / 2 - (44 / 1000 : ℝ) / 360) * 2 ^ 32⌋ = 2146958707 := by
    rw [Int.floor_eq_iff]; norm_num
  rw [e, latlngToFixed, linPx]
  dsimp only
  rw [eq44_lat, if_pos (by norm_num), h1, h2]
  simp only [kFixedCoordMax]
  congr 1 <;> omega

theorem eq44_row (x : Int) : |mapY (degrees (eq44 x)) - (1 / 2 - 44 / 360000)| * 2 ^ 32 ≤ 511 := by
  have := mapY_near (p := degrees (eq44 x)) (by rw [eq44_lat]; norm_num) (by rw [eq44_lat]; norm_num)
  rw [eq44_lat] at this
  convert this using 4
  norm_num

/-! ### the files -/

/-- two buffers: three nodes, a street between them and a relation; one node of the street is not in the file -/
def streetFile : List (List (OsmEntity Unit)) :=
  [[.node 1 [] (eq44 450300000), .node 2 [(b!"amenity", b!"bench")] (eq44 450600000)], [.node 3 [] (eq44 452400000), .way 9 streetTags [1, 4, 2, 3], .relation ()]]

/-- a city and a bench -/
def cityFile : List (List (OsmEntity Unit)) := [[.node 7 demoCity (eq44 450300000)], [.node 8 [(b!"amenity", b!"bench")] (eq44 450600000)]]

/-- no areas -/
def noAreas : List (List (LocatedEntity Unit)) → List (LocatedEntity Unit) → List (OsmItem LatLng) := fun _ _ => []

theorem streetFile_good : GoodFile streetFile := by
  refine ⟨?_, ?_, ?_⟩
  · show ∀ n ∈ [(1, eq44 450300000), (2, eq44 450600000), (3, eq44 452400000)], _
    decide
  · show List.Pairwise _ [(1, eq44 450300000), (2, eq44 450600000), (3, eq44 452400000)]
    simp
  · intro id tags rs h
    simp only [streetFile, List.flatten_cons, List.flatten_nil, List.append_nil, List.cons_append, List.nil_append, List.mem_cons, List.not_mem_nil, or_false, reduceCtorEq, false_or, OsmEntity.way.injEq] at h
    obtain ⟨rfl, _, rfl⟩ := h
    decide

theorem cityFile_good : GoodFile cityFile := by
  refine ⟨?_, ?_, ?_⟩
  · show ∀ n ∈ [(7, eq44 450300000), (8, eq44 450600000)], _
    decide
  · show List.Pairwise _ [(7, eq44 450300000), (8, eq44 450600000)]
    simp
  · intro id tags rs h
    simp [cityFile] at h

noncomputable def bench (id : Int) : Datum := ⟨id, [(b!"amenity", b!"bench")], .node (some (degrees (eq44 450600000)))⟩
noncomputable def bareNode (id x : Int) : Datum := ⟨id, [], .node (some (degrees (eq44 x)))⟩
noncomputable def fileStreet : Datum := ⟨9, streetTags, .way [some (degrees (eq44 450300000)), none, some (degrees (eq44 450600000)), some (degrees (eq44 452400000))]⟩
noncomputable def fileCity : Datum := ⟨7, demoCity, .node (some (degrees (eq44 450300000)))⟩

theorem streetFile_data : fileData noAreas streetFile = [bareNode 1 450300000, bench 2, bareNode 3 452400000] ++ fileStreet :: [] := rfl
theorem cityFile_data : fileData noAreas cityFile = [] ++ fileCity :: [bench 8] := rfl

theorem bench_rule (id : Int) : (bench id).rule fullTables = none := by
  show decideBy fullTables.nodes (tagValue [(b!"amenity", b!"bench")]) = none
  rfl

theorem bare_rule (id x : Int) : (bareNode id x).rule fullTables = none := by
  show decideBy fullTables.nodes (tagValue []) = none
  rfl

def fileLine : Line := [⟨2684712473, 2146958707⟩, ⟨2685070387, 2146958707⟩, ⟨2687217871, 2146958707⟩]

theorem file_fixed : fileDemo.prof.conv (degrees (eq44 450300000)) = ⟨2684712473, 2146958707⟩ ∧ fileDemo.prof.conv (degrees (eq44 450600000)) = ⟨2685070387, 2146958707⟩ ∧
    fileDemo.prof.conv (degrees (eq44 452400000)) = ⟨2687217871, 2146958707⟩ :=
  ⟨eq44_fixed (by norm_num) (by norm_num), eq44_fixed (by norm_num) (by norm_num), eq44_fixed (by norm_num) (by norm_num)⟩

theorem fileStreet_read : readOsm fileDemo.prof.conv fileStreet.shape = .ok (.polyline [fileLine]) := by
  obtain ⟨h1, h2, h3⟩ := file_fixed
  show Res.ok (readOsmWay fileDemo.prof.conv [some (degrees (eq44 450300000)), none, some (degrees (eq44 450600000)), some (degrees (eq44 452400000))]) = _
  simp [readOsmWay, nodesToFixed, h1, h2, h3, fileLine]

theorem fileCity_read : readOsm fileDemo.prof.conv fileCity.shape = .ok (.point [⟨2684712473, 2146958707⟩]) := by
  show Res.ok (readOsmNode fileDemo.prof.conv (some (degrees (eq44 450300000)))) = _
  unfold readOsmNode
  dsimp only
  rw [file_fixed.1]

theorem small_good {data : List Datum} (h : ∀ d ∈ data, (∃ x, d.shape = .node (some (degrees (eq44 x))) ∧ -1800000000 ≤ x ∧ x ≤ 1800000000) ∨ d = fileStreet)
    (ht : ∀ d ∈ data, ∀ kv ∈ d.tags, kv.2.length < 2 ^ 32 - 1) (hn : data.length < 100) : GoodData fileDemo.prof fileDemo.profile fileDemo.numeral data := by
  have hfine : ∀ d ∈ data, Fine fileDemo.prof (d.obj fileDemo.profile fileDemo.numeral) ∧ readOsm fileDemo.prof.conv d.shape ≠ .throw_ := by
    intro d hd
    refine C66_fine fileDemo.prof fileDemo.numeral .full d.id d.tags d.shape ?_
    rcases h d hd with ⟨x, hx, _⟩ | rfl
    · rw [hx]; simp
    · simp [fileStreet]
  refine ⟨fun d hd => (hfine d hd).1, fun d hd => (hfine d hd).2, fun d hd l hl => ?_, fun d hd ps hps => ?_, ht, fun d hd => ?_, ?_⟩
  · rcases h d hd with ⟨x, hx, hr⟩ | rfl
    · rw [hx] at hl
      simp only [shapeNodes, List.mem_singleton, Option.some.injEq] at hl
      rw [hl]
      exact eq44_on hr
    · simp only [shapeNodes, fileStreet, List.mem_cons, Option.some.injEq, List.not_mem_nil, or_false, reduceCtorEq, false_or] at hl
      rcases hl with rfl | rfl | rfl <;> exact eq44_on (by norm_num)
  · rcases h d hd with ⟨x, hx, hr⟩ | rfl
    · rw [hx] at hps; cases hps
    · rw [fileStreet_read] at hps; cases hps
  · rcases h d hd with ⟨x, hx, hr⟩ | rfl
    · rw [hx]; simp [shapeSize, shapeNodes]
    · simp [shapeSize, shapeNodes, fileStreet]
  · omega

theorem streetFile_lone : Lone [bareNode 1 450300000, bench 2, bareNode 3 452400000] fileStreet [] ⟨b!"road", fromLevel 12, roadAttrs⟩ (.polyline [fileLine]) 12 streetMetas where
  good := by
    refine small_good ?_ ?_ (by simp)
    · intro d hd
      simp only [List.cons_append, List.nil_append, List.mem_cons, List.not_mem_nil, or_false] at hd
      rcases hd with rfl | rfl | rfl | rfl
      · exact .inl ⟨_, rfl, by norm_num⟩
      · exact .inl ⟨_, rfl, by norm_num⟩
      · exact .inl ⟨_, rfl, by norm_num⟩
      · exact .inr rfl
    · intro d hd
      simp only [List.cons_append, List.nil_append, List.mem_cons, List.not_mem_nil, or_false] at hd
      rcases hd with rfl | rfl | rfl | rfl
      · simp [bareNode]
      · show ∀ kv ∈ [(b!"amenity", b!"bench")], kv.2.length < 2 ^ 32 - 1
        decide +kernel
      · simp [bareNode]
      · show ∀ kv ∈ streetTags, kv.2.length < 2 ^ 32 - 1
        decide +kernel
  rule := by
    show decideBy fullTables.ways (tagValue streetTags) = _
    rfl
  others := by
    intro d hd
    simp only [List.cons_append, List.nil_append, List.append_nil, List.mem_cons, List.not_mem_nil, or_false] at hd
    rcases hd with rfl | rfl | rfl
    · exact bare_rule _ _
    · exact bench_rule _
    · exact bare_rule _ _
  geo := fileStreet_read
  simple := .inr ⟨_, rfl, by simp [fileLine]⟩
  zoom := rfl
  metas := by
    have hq : (⟨b!"road", fromLevel 12, roadAttrs⟩ : RuleOut).attributes fileDemo.numeral (tagValue fileStreet.tags) =
        [(b!"highway", .text b!"residential"), (b!"name", .text b!"Rheinstrasse")] := by
      show RuleOut.attributes fromCharsI64 (tagValue streetTags) ⟨b!"road", fromLevel 12, roadAttrs⟩ = _
      rfl
    rw [hq]
    exact List.Perm.refl _
  sorted := by decide +kernel
  sizes := by
    show ∀ i < 13, (match serializeFeature (fun _ => []) [] true ⟨9, i, 12, 21, streetMetas, .polyline [fileLine]⟩, serializeFeature C52_mk [] false ⟨9, i, 12, 21, streetMetas, .polyline [fileLine]⟩ with
      | .ok a, .ok b => decide (32 ≤ a.length ∧ a.length < 200 ∧ 32 ≤ b.length ∧ b.length < 200)
      | _, _ => false) = true
    decide +kernel

theorem cityFile_lone : Lone [] fileCity [bench 8] ⟨b!"cities", fromLevel 5, placeAttrs⟩ (.point [⟨2684712473, 2146958707⟩]) 5 osmDemoMetas where
  good := by
    refine small_good ?_ ?_ (by simp)
    · intro d hd
      simp only [List.nil_append, List.mem_cons, List.not_mem_nil, or_false] at hd
      rcases hd with rfl | rfl
      · exact .inl ⟨_, rfl, by norm_num⟩
      · exact .inl ⟨_, rfl, by norm_num⟩
    · intro d hd
      simp only [List.nil_append, List.mem_cons, List.not_mem_nil, or_false] at hd
      rcases hd with rfl | rfl
      · show ∀ kv ∈ demoCity, kv.2.length < 2 ^ 32 - 1
        decide +kernel
      · show ∀ kv ∈ [(b!"amenity", b!"bench")], kv.2.length < 2 ^ 32 - 1
        decide +kernel
  rule := by
    show decideBy fullTables.nodes (tagValue demoCity) = _
    rfl
  others := by
    intro d hd
    simp only [List.nil_append, List.mem_cons, List.not_mem_nil, or_false] at hd
    subst hd
    exact bench_rule _
  geo := fileCity_read
  simple := .inl ⟨_, rfl⟩
  zoom := rfl
  metas := by
    have hq : (⟨b!"cities", fromLevel 5, placeAttrs⟩ : RuleOut).attributes fileDemo.numeral (tagValue fileCity.tags) =
        [(b!"place", .text b!"city"), (b!"name", .text b!"Darmstadt"), (b!"population", .number 159207)] := by
      show RuleOut.attributes fromCharsI64 (tagValue demoCity) ⟨b!"cities", fromLevel 5, placeAttrs⟩ = _
      rfl
    rw [hq]
    show List.Perm [⟨b!"place", encodeString b!"city"⟩, ⟨b!"name", encodeString b!"Darmstadt"⟩, ⟨b!"population", encodeNumeric 159207⟩] osmDemoMetas
    exact List.Perm.swap _ _ _
  sorted := by decide +kernel
  sizes := by
    show ∀ i < 13, (match serializeFeature (fun _ => []) [] true ⟨7, i, 5, 21, osmDemoMetas, .point [⟨2684712473, 2146958707⟩]⟩, serializeFeature C52_mk [] false ⟨7, i, 5, 21, osmDemoMetas, .point [⟨2684712473, 2146958707⟩]⟩ with
      | .ok a, .ok b => decide (32 ≤ a.length ∧ a.length < 200 ∧ 32 ≤ b.length ∧ b.length < 200)
      | _, _ => false) = true
    decide +kernel

theorem streetFile_fits : fileDemo.Fits (fileData noAreas streetFile) := by
  rw [streetFile_data]
  refine lone_fits streetFile_lone ?_
  intro d hd ps h
  simp only [List.cons_append, List.nil_append, List.mem_cons, List.not_mem_nil, or_false] at hd
  rcases hd with rfl | rfl | rfl | rfl
  · cases h
  · cases h
  · cases h
  · rw [fileStreet_read] at h; cases h

theorem cityFile_fits : fileDemo.Fits (fileData noAreas cityFile) := by
  rw [cityFile_data]
  refine lone_fits cityFile_lone ?_
  intro d hd ps h
  simp only [List.nil_append, List.mem_cons, List.not_mem_nil, or_false] at hd
  rcases hd with rfl | rfl <;> cases h

/-- a sorting function -/
def querySort (l : List NodeQuery) : List NodeQuery := l.mergeSort (fun a b => decide (a.1.natAbs ≤ b.1.natAbs))

theorem querySort_sorts : SortsByAbsId querySort := by
  intro l
  refine ⟨List.mergeSort_perm _ _, ?_⟩
  have := List.pairwise_mergeSort (le := fun a b : NodeQuery => decide (a.1.natAbs ≤ b.1.natAbs))
    (fun a b c h1 h2 => by simp at *; omega) (fun a b => by simp; omega) l
  exact this.imp (fun h => by simpa using h)

theorem noAreas_areas : MakesAreas noAreas := by intro _ _ o h; cases h

/-- where the nodes are: in the tile 12/2560/2047 -/
theorem file_row {x : Int} (hx : 2560 + 512 / 2 ^ 20 ≤ ((x : ℝ) / 10 ^ 7 + 180) / 360 * 4096 ∧ ((x : ℝ) / 10 ^ 7 + 180) / 360 * 4096 + 512 / 2 ^ 20 < 2561) :
    WellInside 512 ⟨2560, 2047, 12⟩ (degrees (eq44 x)) := by
  have h := eq44_row x
  have h1 : |mapY (degrees (eq44 x)) - (1 / 2 - 44 / 360000)| ≤ 511 / 2 ^ 32 := by
    rw [le_div_iff₀ (by positivity)]; exact h
  rw [abs_le] at h1
  refine ⟨?_, ?_, ?_, ?_⟩
  · rw [mapX, eq44_lng]; norm_num [side] at hx ⊢; linarith [hx.1]
  · rw [mapX, eq44_lng]; norm_num [side] at hx ⊢; linarith [hx.2]
  · norm_num [side] at h1 ⊢; linarith [h1.1]
  · norm_num [side] at h1 ⊢; linarith [h1.2]

/-- All conditions of `C72_completes` and `C72_nodes` are met: the file with a city and a bench is imported with full.lua and 3 threads, on top of anything; then the server starts, and
who asks for the tile 12/2560/2047 sees the city, with its name and its population, where the projection puts 0.044 degrees north, 45.03 degrees east. -/
example (a : TileDb MetaTable) : ∃ (b : TileDb MetaTable) (ctx : GetCtx), Imports (importParts (fileDemo.fileEnv querySort false 3 noAreas cityFile)) [["features", "pack", "tiles"]] a b ∧
    makeRenderCtx fileDemo.base (preparedString b.maxPrepared) b.info = .ok ctx ∧
    ∀ features, EntriesOf b.features features → ∃ bytes layers, getTile b.tiles features b.pf.reopen ctx ⟨2560, 2047, 12⟩ = .ok (if bytes = [] then none else some (ctx.encode bytes)) ∧
      (bytes.length < 2 ^ 32 → clientTile bytes = some layers) ∧ ∃ L ∈ layers, L.name = b!"cities" ∧ ∃ c ∈ L.features, c.id = 7 ∧ c.type = 1 ∧
        c.tags.Perm [(b!"place", .str b!"city"), (b!"name", .str b!"Darmstadt"), (b!"population", .double 159207)] ∧
        ∃ cx cy : Int, ⟨[⟨cx, cy⟩], false⟩ ∈ c.parts ∧ |(cx : ℝ) - 1398| ≤ 4 ∧ |(cy : ℝ) - 2045| ≤ 6 := by
  have hshort : ∀ {ctx : GetCtx} {pr : Option Bytes} {m : MetaTable}, makeRenderCtx fileDemo.base pr m = .ok ctx → ∀ q, fileDemo.ShortLines (fileData noAreas cityFile) ctx q := by
    intro ctx pr m h q
    rw [cityFile_data]
    exact lone_short cityFile_lone ctx (ctx_clip h) (ctx_aggregate h) q
  obtain ⟨b, h1, h2, h3, h4⟩ := C72_completes (threads := 3) (strict := false) cityFile_good querySort_sorts (by simp) (by decide) fileDemo_ok cityFile_fits ["features", "pack", "tiles"] (.inr (by simp)) (.inr (by simp)) (.inr (by simp))
    (by simp [Asked]) (by decide) (by norm_num [fileDemo, streetDemo, osmDemo]) ⟨fileCity, mem_fileData.1 (by rw [cityFile_data]; simp), _, _, cityFile_lone.rule, fileCity_read, by simp⟩
    (fun fs m h => by rw [cityFile_data] at h ⊢; exact lone_room cityFile_lone h) (fun m ctx h q _ _ => hshort h q) a
  have himp : Imports (importParts (fileDemo.fileEnv querySort false 3 noAreas cityFile)) [["features", "pack", "tiles"]] a b := ⟨b, h1, rfl⟩
  have hacts : changes [["features", "pack", "tiles"]] = [.load false true, .pack, .tiles] := by simp [changes, actsOf, Asked]
  obtain ⟨ctx, h5, _⟩ := C68_starts fileDemo_ok cityFile_fits _ hacts a b (file_imports cityFile_good querySort_sorts (by simp) himp) h3
  refine ⟨b, ctx, himp, h5, fun features hdb => ?_⟩
  obtain ⟨bytes, layers, k1, k2, k3⟩ := C72_nodes cityFile_good querySort_sorts (by simp) noAreas_areas fileDemo_ok cityFile_fits _ hacts a b himp h3 (by omega) features hdb ctx h5
    ⟨2560, 2047, 12⟩ (by decide) (by decide) (hshort h5 _)
  refine ⟨bytes, layers, k1, fun h => (k2 h).1, ?_⟩
  obtain ⟨_, L, m1, m2, c, m3, m4, m5, m6, cx, cy, m7, m8, m9⟩ := k3 7 demoCity (eq44 450300000) (by simp [cityFile]) (by
    intro tags' loc' h
    simp only [cityFile, List.flatten_cons, List.flatten_nil, List.append_nil, List.cons_append, List.nil_append, List.mem_cons, List.not_mem_nil, or_false, OsmEntity.node.injEq] at h
    rcases h with h | h
    · exact h.2.1
    · exact absurd h.1 (by decide)) _ cityFile_lone.rule 5 cityFile_lone.zoom (by decide) (file_row (by norm_num))
  refine ⟨L, m1, m2, c, m3, by have : (7 % 2 ^ 64 : Int) = 7 := by norm_num
                               omega, m5, ?_, cx, cy, m7, ?_, ?_⟩
  · have htags : (⟨b!"cities", fromLevel 5, placeAttrs⟩ : RuleOut).shown fileDemo.numeral fileDemo.prof.toDouble (tagValue demoCity) =
        [(b!"place", .str b!"city"), (b!"name", .str b!"Darmstadt"), (b!"population", .double 159207)] := by
      show RuleOut.shown fromCharsI64 osmDemo.prof.toDouble (tagValue demoCity) ⟨b!"cities", fromLevel 5, placeAttrs⟩ = _
      rfl
    rwa [htags] at m6
  · rw [mapX, eq44_lng] at m8
    norm_num [abs_le] at m8 ⊢
    constructor <;> linarith
  · have h := eq44_row 450300000
    have h1 : |mapY (degrees (eq44 450300000)) - (1 / 2 - 44 / 360000)| ≤ 511 / 2 ^ 32 := by
      rw [le_div_iff₀ (by positivity)]; exact h
    norm_num [abs_le] at m9 h1 ⊢
    constructor <;> linarith

/-- the places of the nodes of the street -/
theorem street_nodes : ([1, 4, 2, 3] : List Int).map (fun i => (nodeAt (nodesIn streetFile) i).map degrees) =
    [some (degrees (eq44 450300000)), none, some (degrees (eq44 450600000)), some (degrees (eq44 452400000))] := rfl

/-- All conditions of `C72_completes`, `C72_streets` and `C72_in_place` are met: the file with the street is imported with full.lua and 3 threads, on top of anything; then the server
starts, and who asks for the tile 12/2560/2047 sees a line from where the projection puts the node 1 to where it puts the node 2, and all that is seen is that street. -/
example (a : TileDb MetaTable) : ∃ (b : TileDb MetaTable) (ctx : GetCtx), Imports (importParts (fileDemo.fileEnv querySort false 3 noAreas streetFile)) [["features", "pack", "tiles"]] a b ∧
    makeRenderCtx fileDemo.base (preparedString b.maxPrepared) b.info = .ok ctx ∧
    ∀ features, EntriesOf b.features features →
      (∃ bytes layers, getTile b.tiles features b.pf.reopen ctx ⟨2560, 2047, 12⟩ = .ok (if bytes = [] then none else some (ctx.encode bytes)) ∧
        (bytes.length < 2 ^ 32 → clientTile bytes = some layers) ∧
        LineSeen layers b!"road" 9 [(b!"highway", .str b!"residential"), (b!"name", .str b!"Rheinstrasse")] (fun p p' =>
          CloseBy (512 / 2 ^ 8 + 1) (p.x, p.y) (inTile ⟨2560, 2047, 12⟩ (mapX (degrees (eq44 450300000)), mapY (degrees (eq44 450300000)))) ∧
          CloseBy (512 / 2 ^ 8 + 1) (p'.x, p'.y) (inTile ⟨2560, 2047, 12⟩ (mapX (degrees (eq44 450600000)), mapY (degrees (eq44 450600000)))))) ∧
      ∃ bytes layers, getTile b.tiles features b.pf.reopen ctx ⟨2560, 2047, 12⟩ = .ok (if bytes = [] then none else some (ctx.encode bytes)) ∧
        (bytes.length < 2 ^ 32 → clientTile bytes = some layers) ∧
        ∀ L ∈ layers, ∀ c ∈ L.features, L.name = b!"road" ∧ c.id = 9 ∧ c.type = 2 ∧ c.tags.Perm [(b!"highway", .str b!"residential"), (b!"name", .str b!"Rheinstrasse")] := by
  have hshort : ∀ {ctx : GetCtx} {pr : Option Bytes} {m : MetaTable}, makeRenderCtx fileDemo.base pr m = .ok ctx → ∀ q, fileDemo.ShortLines (fileData noAreas streetFile) ctx q := by
    intro ctx pr m h q
    rw [streetFile_data]
    exact lone_short streetFile_lone ctx (ctx_clip h) (ctx_aggregate h) q
  obtain ⟨b, h1, h2, h3, h4⟩ := C72_completes (threads := 3) (strict := false) streetFile_good querySort_sorts (by simp) (by decide) fileDemo_ok streetFile_fits ["features", "pack", "tiles"] (.inr (by simp)) (.inr (by simp)) (.inr (by simp))
    (by simp [Asked]) (by decide) (by norm_num [fileDemo, streetDemo, osmDemo]) ⟨fileStreet, mem_fileData.1 (by rw [streetFile_data]; simp), _, _, streetFile_lone.rule, fileStreet_read, by simp⟩
    (fun fs m h => by rw [streetFile_data] at h ⊢; exact lone_room streetFile_lone h) (fun m ctx h q _ _ => hshort h q) a
  have himp : Imports (importParts (fileDemo.fileEnv querySort false 3 noAreas streetFile)) [["features", "pack", "tiles"]] a b := ⟨b, h1, rfl⟩
  have hacts : changes [["features", "pack", "tiles"]] = [.load false true, .pack, .tiles] := by simp [changes, actsOf, Asked]
  obtain ⟨ctx, h5, _⟩ := C68_starts fileDemo_ok streetFile_fits _ hacts a b (file_imports streetFile_good querySort_sorts (by simp) himp) h3
  have htags : (⟨b!"road", fromLevel 12, roadAttrs⟩ : RuleOut).shown fileDemo.numeral fileDemo.prof.toDouble (tagValue streetTags) =
      [(b!"highway", .str b!"residential"), (b!"name", .str b!"Rheinstrasse")] := by
    show RuleOut.shown fromCharsI64 osmDemo.prof.toDouble (tagValue streetTags) ⟨b!"road", fromLevel 12, roadAttrs⟩ = _
    rfl
  refine ⟨b, ctx, himp, h5, fun features hdb => ⟨?_, ?_⟩⟩
  · obtain ⟨bytes, layers, k1, k2, k3⟩ := C72_streets streetFile_good querySort_sorts (by simp) noAreas_areas fileDemo_ok streetFile_fits ⟨segInter, C62_clipper, id, seg_clip, seg_lines, rfl⟩ _ hacts a b himp h3
      (by omega) features hdb ctx h5 ⟨2560, 2047, 12⟩ (by decide) (by decide) (by decide) (hshort h5 _)
    refine ⟨bytes, layers, k1, fun h => (k2 h).1, ?_⟩
    have hseg := k3 9 streetTags [1, 4, 2, 3] (by simp [streetFile]) (by
      intro tags' refs' h
      simp only [streetFile, List.flatten_cons, List.flatten_nil, List.append_nil, List.cons_append, List.nil_append, List.mem_cons, List.not_mem_nil, or_false, reduceCtorEq, false_or, OsmEntity.way.injEq] at h
      exact h.2) _ streetFile_lone.rule _ street_nodes.symm 12 streetFile_lone.zoom (by decide) (degrees (eq44 450300000)) (degrees (eq44 450600000)) (by
        have hk : keptPlaces (fileDemo.rd (fileDemo.mkMask (([some (degrees (eq44 450300000)), none, some (degrees (eq44 450600000)), some (degrees (eq44 452400000))].filterMap (fun x => x)).map fileDemo.prof.conv)) 12)
            [some (degrees (eq44 450300000)), none, some (degrees (eq44 450600000)), some (degrees (eq44 452400000))] = [degrees (eq44 450300000), degrees (eq44 450600000), degrees (eq44 452400000)] := by
          simp [keptPlaces, fileDemo, streetDemo, osmDemo, C52_rd, C52_mk]
        exact ⟨[], [degrees (eq44 452400000)], hk.symm⟩)
    have := hseg.1 (file_row (by norm_num)) (file_row (by norm_num)) (by
      rintro ⟨h, _⟩
      rw [inTile, inTile, mapX, mapX, eq44_lng, eq44_lng] at h
      norm_num [abs_lt] at h)
    rw [htags] at this
    norm_num at this ⊢
    exact this
  · obtain ⟨bytes, layers, k1, k2, k3⟩ := C72_in_place (τ := 0) streetFile_good querySort_sorts (by simp) fileDemo_ok streetFile_fits ⟨segInter, C62_clipper, id, fun _ l => l, seg_clip, seg_faith, rfl, fun z fs out h => by
        show C62_agg z fs = out
        rw [C62_agg, h]⟩ (fun z l h => by rw [show keep (fileDemo.rd (fileDemo.mkMask l) z) l = l from keep_all l]; exact h) _ hacts a b himp h3 (by omega) features hdb ctx h5
      ⟨2560, 2047, 12⟩ (by decide) (by decide) (hshort h5 _)
    refine ⟨bytes, layers, k1, fun h => (k2 h).1, fun L hL c hc => ?_⟩
    obtain ⟨d, hd, r, hr, m1, m2, m3, m4, _⟩ := k3 L hL c hc
    have hd' := mem_fileData.2 hd
    rw [streetFile_data] at hd'
    have hds : d = fileStreet := by
      rcases List.mem_append.1 hd' with h | h
      · rw [streetFile_lone.others d (List.mem_append_left _ h)] at hr; cases hr
      · simpa using h
    subst hds
    rw [streetFile_lone.rule] at hr
    injection hr with hr
    subst hr
    rw [show fileStreet.tags = streetTags from rfl, htags] at m4
    have hid : (fileStreet.id % 2 ^ 64 : Int) = 9 := by show (9 % 2 ^ 64 : Int) = 9; norm_num
    rw [hid] at m2
    exact ⟨m1, by omega, m3, m4⟩

/-- a file that is refused: the node 2 comes before the node 1 -/
example : passOne ([[.node 2 [] (eq44 0)], [.node 1 [] (eq44 0)]] : List (List (OsmEntity Unit))) = .throw_ :=
  C72_refused _ (by show ∀ n ∈ [(2, eq44 0), (1, eq44 0)], _; decide) (by
    show ¬ List.Pairwise _ [(2, eq44 0), (1, eq44 0)]
    simp)

end Tiles
