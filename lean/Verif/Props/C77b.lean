import Verif.Props.C71b
import Verif.Props.C77
/-! C77: all conditions of `C77_areas` are met: a building with a courtyard, from the file to the client. -/
namespace Tiles
open Spec

/-- an example of a library: every edge is cut at the border of the box by itself -/
noncomputable def edgeClipper (ps : List Line) (b : Box) : Option (List PolyNode) :=
  if ps.all (fun p => decide (area2 p = 0)) then none else some ((segInter b (ps.map close)).map (fun p => .mk p false []))

theorem flat_polys (l : List Line) (hl : ∀ p ∈ l, p ≠ []) : AltOuter (l.map (fun p => .mk p false [])) ∧ polysOf (l.map (fun p => .mk p false [])) = l.map (fun p => (p, [])) := by
  induction l with
  | nil => exact ⟨by simp [AltOuter], by simp [polysOf]⟩
  | cons p l ih =>
    obtain ⟨i1, i2⟩ := ih (fun p hp => hl p (by simp [hp]))
    rw [List.map_cons, AltOuter, polysOf, holesOf, polysBelow, i2]
    exact ⟨⟨hl p (by simp), rfl, by rw [AltHole]; trivial, i1⟩, rfl⟩

theorem edge_polys {ps : List Line} {b : Box} {nodes : List PolyNode} (h : edgeClipper ps b = some nodes) :
    AltOuter nodes ∧ polysOf nodes = (segInter b (ps.map close)).map (fun p => (p, [])) := by
  rw [edgeClipper] at h
  split at h
  · cases h
  injection h with h
  subst h
  refine flat_polys _ (fun p hp => ?_)
  obtain ⟨a, b, _, rfl⟩ := segPart_mem hp
  simp

theorem edge_clip : ClipLib 1 segInter edgeClipper id where
  lines := seg_clip.lines
  accepts := by
    rintro paths box ⟨p, h1, h2⟩ hc
    rw [edgeClipper] at hc
    split at hc
    · rename_i hall
      exact h2 (of_decide_eq_true (List.all_eq_true.1 hall p h1))
    · cases hc
  tree := by
    intro paths box nodes h
    obtain ⟨h1, h2⟩ := edge_polys h
    refine ⟨h1, fun q hq r hr p hp => ?_⟩
    rw [h2] at hq
    obtain ⟨x, hx, rfl⟩ := List.mem_map.1 hq
    simp only [List.mem_singleton] at hr
    subst hr
    exact seg_clip.lines _ _ _ hx p hp
  turns := seg_clip.turns

/-- an outline has another edge, which begins where this one ends -/
theorem next_edge {r : Line} (h3 : 3 ≤ r.length) (hn : r.Nodup) {a b : XY} (h : Next (close r) a b) : ∃ c, Next (close r) b c ∧ a ≠ b := by
  obtain ⟨x, r', rfl⟩ : ∃ x r', r = x :: r' := by cases r with | nil => simp at h3 | cons x r' => exact ⟨x, r', rfl⟩
  obtain ⟨s, t, h⟩ := h
  rw [show close (x :: r') = x :: r' ++ [x] from rfl] at h ⊢
  rcases List.eq_nil_or_concat t with rfl | ⟨t', y, rfl⟩
  · -- the last edge
    have e1 : s ++ [a] = x :: r' ∧ b = x := by
      have : (s ++ [a]) ++ [b] = (x :: r') ++ [x] := by simpa using h
      have := List.append_inj' this rfl
      exact ⟨this.1, by simpa using this.2⟩
    obtain ⟨e1, rfl⟩ := e1
    match r', h3 with
    | y :: z :: r'', _ =>
      refine ⟨y, ⟨[], z :: r'' ++ [b], by simp⟩, ?_⟩
      rintro rfl
      have : a ∈ y :: z :: r'' := by
        cases s with
        | nil => simp at e1
        | cons s0 s =>
          simp only [List.cons_append, List.cons.injEq] at e1
          rw [← e1.2]; simp
      exact (List.nodup_cons.1 hn).1 this
  · have e1 : s ++ [a, b] ++ t' = x :: r' := by
      have : (s ++ [a, b] ++ t') ++ [y] = (x :: r') ++ [x] := by simpa using h
      exact (List.append_inj' this rfl).1
    have hab : a ≠ b := by
      rintro rfl
      rw [← e1] at hn
      rw [List.append_assoc] at hn
      have h2 : ([a, a] ++ t').Nodup := (List.nodup_append.1 hn).2.1
      exact (List.nodup_cons.1 h2).1 (by simp)
    cases t' with
    | nil => exact ⟨x, ⟨s ++ [a], [], by rw [← e1]; simp⟩, hab⟩
    | cons c t'' => exact ⟨c, ⟨s ++ [a], t'' ++ [x], by rw [← e1]; simp⟩, hab⟩

theorem outlines_size {e : Int} (he : 0 ≤ e) {m : ℝ} {paths : List Line} (h : Outlines e m paths) {a b : XY} (hab : Edge paths a b) : 0 ≤ m := by
  obtain ⟨r, hr, hn⟩ := hab
  have hnd : r.Nodup := (List.nodup_flatten.1 h.once).1 r hr
  obtain ⟨c, hc, hne⟩ := next_edge (h.corners r hr) hnd hn
  have hab : Edge paths a b := ⟨r, hr, hn⟩
  have hbc : Edge paths b c := ⟨r, hr, hc⟩
  obtain ⟨v, _, _, h1, _⟩ := h.apart a b b c hab hbc (by intro hh; injection hh with h1 _; exact hne h1) 1 0 (by norm_num) le_rfl le_rfl (by norm_num)
    (by rw [onSeg_one, onSeg_zero]; simp [CloseBy]; exact he)
  exact (abs_nonneg _).trans h1.1

theorem edge_lib : PolyLib 1 edgeClipper where
  covers := by
    intro m paths box nodes hout hn a b hab hs
    have hm := outlines_size (by norm_num) hout hab
    obtain ⟨h1, h2⟩ := edge_polys hn
    obtain ⟨r, hr, hnext⟩ := hab
    obtain ⟨s, s0, s1, hs⟩ := hs
    have hbox : ∀ p, InsideBy m box p → BoxHas box p := fun p ⟨a1, a2, a3, a4⟩ => ⟨by linarith, by linarith, by linarith, by linarith⟩
    obtain ⟨part, hpart, c, d, hcd, hcov⟩ : ∃ q ∈ segInter box (paths.map close), ∃ c d, q = [c, d] ∧
        ∀ u : ℝ, 0 ≤ u → u ≤ 1 → BoxHas box (onSeg a b u) → ∃ v : ℝ, 0 ≤ v ∧ v ≤ 1 ∧ CloseBy (1 : Int) (onSeg c d v) (onSeg a b u) := by
      have hmem : close r ∈ paths.map close := List.mem_map_of_mem hr
      have ins : s ∈ segIn box a b := ⟨⟨s0, s1⟩, hbox _ hs⟩
      refine ⟨_, segPart_of hmem hnext ⟨s, ins⟩, _, _, rfl, fun u u0 u1 hu => ?_⟩
      exact seg_covered ⟨s, ins⟩ u u0 u1 hu
    subst hcd
    refine ⟨([c, d], []), by rw [h2]; exact List.mem_map.2 ⟨_, hpart, rfl⟩, [c, d], by simp, c, d, ⟨[], [c], rfl⟩, fun u u0 u1 hu => hcov u u0 u1 (hbox _ hu)⟩
  holes := by
    intro paths box nodes hn q hq r hr
    rw [(edge_polys hn).2] at hq
    obtain ⟨x, _, rfl⟩ := List.mem_map.1 hq
    cases hr

/-- nothing in a result of the example library is long -/
theorem edge_short {g c : Geometry} {box : Box} (hg : ∀ pts, g ≠ .point pts) (h : clipGeometry segInter edgeClipper id g box = .ok c) : ∀ l ∈ allLines c, l.length < 2 ^ 29 := by
  intro l hl
  cases g with
  | null =>
    injection h with h
    subst h
    cases hl
  | point pts => exact absurd rfl (hg pts)
  | polyline ls =>
    injection h with h
    rw [clipPolyline] at h
    subst h
    split at hl
    · cases hl
    · exact segInter_short _ _ l (List.mem_filter.1 hl).1
  | polygon ps =>
    have h : clipPolygon edgeClipper id ps box = .ok c := h
    rw [clipPolygon] at h
    obtain ⟨sub, _, h⟩ := Res.bind_eq_ok.1 h
    cases hn : edgeClipper sub box with
    | none => rw [hn] at h; cases h
    | some nodes =>
      obtain ⟨halt, hp⟩ := edge_polys hn
      obtain ⟨out, ho, hperm⟩ := toFixedPolygon_spec nodes [] halt
      rw [hn] at h
      cases nodes with
      | nil =>
        rw [Res.pure_eq] at h
        injection h with h
        subst h
        cases hl
      | cons n nodes =>
        dsimp only at h
        rw [ho, Res.ok_bind, Res.pure_eq] at h
        injection h with h
        subst h
        obtain ⟨P, hP, hl⟩ := List.mem_flatMap.1 hl
        have hP : P ∈ out := by simpa using hP
        obtain ⟨Q, hQ, rfl⟩ := List.mem_map.1 (hperm.mem_iff.1 hP)
        rw [hp] at hQ
        obtain ⟨x, hx, rfl⟩ := List.mem_map.1 hQ
        obtain ⟨a, b, _, rfl⟩ := segPart_mem hx
        simp only [closePoly, List.map_nil, List.mem_singleton] at hl
        subst hl
        simp [close]

noncomputable def quarterDemo : OsmSetting :=
  { osmDemo with prof := { osmDemo.prof with area := geometryArea (fun q => q) }, base := { C62_ctx with clip := clipGeometry segInter edgeClipper id } }

/-- a place of the tile 14/10240/10240 -/
noncomputable def quarterAt (x y : Nat) : LatLng := C64_place ((2684354560 + x : Nat) / 2 ^ 32) ((2684354560 + y : Nat) / 2 ^ 32)

def quarterTags : List (Bytes × Bytes) := [(b!"name", b!"Nordstadt"), (b!"landuse", b!"residential")]
/-- a residential area with a hole; the place of one node of its outline is not known -/
noncomputable def quarterItems : List (AreaItem LatLng) := [
  .outer [some (quarterAt 65536 65536), some (quarterAt 65536 131072), none, some (quarterAt 131072 131072), some (quarterAt 131072 65536), some (quarterAt 65536 65536)],
  .inner [some (quarterAt 81920 81920), some (quarterAt 98304 81920), some (quarterAt 98304 98304), some (quarterAt 81920 98304), some (quarterAt 81920 81920)]]
noncomputable def quarter : Datum := ⟨11, quarterTags, .area quarterItems⟩
noncomputable def quarterData : List Datum := [quarter]

def quarterMetas : List Meta := [⟨b!"landuse", encodeString b!"residential"⟩]
def quarterOuter : Line := [⟨2684420096, 2684420096⟩, ⟨2684420096, 2684485632⟩, ⟨2684485632, 2684485632⟩, ⟨2684485632, 2684420096⟩]
def quarterInner : Line := [⟨2684436480, 2684436480⟩, ⟨2684452864, 2684436480⟩, ⟨2684452864, 2684452864⟩, ⟨2684436480, 2684452864⟩]
def quarterArea : List Polygon := [⟨close quarterOuter, [close quarterInner]⟩]
def quarterFeature (i : Nat) : Feature := ⟨11, i, 10, 21, quarterMetas, .polygon quarterArea⟩

theorem quarter_ok : quarterDemo.Ok fullTables 1 1 where
  shipped := .full
  numerals := fun s n h => fromChars_range h
  doubles := osmDemo_ok.doubles
  sorts := osmDemo_ok.sorts
  masks := osmDemo_ok.masks
  keeps := osmDemo_ok.keeps
  work := osmDemo_ok.work
  reads := rfl
  error := ⟨by omega, by norm_num, le_rfl⟩
  clip := ⟨segInter, edgeClipper, id, edge_clip, rfl⟩
  joins := osmDemo_ok.joins
  places := osmDemo_ok.places

theorem quarter_conv (x y : Nat) (hx : x < 2 ^ 20) (hy : y < 2 ^ 20) : quarterDemo.prof.conv (quarterAt x y) = ⟨(2684354560 + x : Nat), (2684354560 + y : Nat)⟩ :=
  conv_place (2684354560 + x) (2684354560 + y) (by omega) (by omega)

theorem quarter_pos (x y : Nat) : mapX (quarterAt x y) = ((2684354560 + x : Nat) : ℝ) / 2 ^ 32 ∧ mapY (quarterAt x y) = ((2684354560 + y : Nat) : ℝ) / 2 ^ 32 :=
  C64_place_at _ _

theorem quarter_on (x y : Nat) (hx : x < 2 ^ 20) (hy : y < 2 ^ 20) : OnMap (quarterAt x y) := by
  have key : ∀ n : Nat, n < 2 ^ 20 → (0 : ℝ) ≤ ((2684354560 + n : Nat) : ℝ) / 2 ^ 32 ∧ ((2684354560 + n : Nat) : ℝ) / 2 ^ 32 < 1 := by
    intro n hn
    refine ⟨by positivity, ?_⟩
    rw [div_lt_one (by positivity)]
    exact_mod_cast (by omega)
  exact C64_place_on (key x hx).1 (key x hx).2.le (key y hy).1 (key y hy).2.le

theorem quarter_read : readOsm quarterDemo.prof.conv quarter.shape = .ok (.polygon quarterArea) := by
  show readOsmArea quarterDemo.prof.conv quarterItems = _
  simp [readOsmArea, readAreaLoop, quarterItems, nodesToFixed, readInner, quarter_conv, closeRing]
  rfl

theorem quarter_size : quarterDemo.prof.area (.polygon quarterArea) = .ok 4026531840 := by
  show geometryArea (fun q => q) (.polygon quarterArea) = _
  decide +kernel

theorem quarter_rule : quarter.rule fullTables = some ⟨b!"landuse", byArea 14 10 8, [.copy b!"landuse"]⟩ := by
  show decideBy fullTables.areas (tagValue quarterTags) = _
  rfl

theorem quarter_nodes {l : LatLng} (h : some l ∈ shapeNodes quarter.shape) : OnMap l := by
  have h : some l ∈ shapeNodes (.area quarterItems) := h
  simp only [shapeNodes, itemNodes, quarterItems, List.flatMap_cons, List.flatMap_nil, List.append_nil, List.mem_append, List.mem_cons, List.not_mem_nil, or_false, Option.some.injEq,
    reduceCtorEq, false_or] at h
  rcases h with (rfl | rfl | rfl | rfl | rfl) | rfl | rfl | rfl | rfl | rfl <;> exact quarter_on _ _ (by norm_num) (by norm_num)

theorem quarter_good : GoodData quarterDemo.prof quarterDemo.profile quarterDemo.numeral quarterData := by
  have hd' : ∀ d ∈ quarterData, d = quarter := by intro d hd; simpa [quarterData] using hd
  refine ⟨fun d hd => ?_, fun d hd => ?_, fun d hd l hl => ?_, fun d hd ps h => ?_, fun d hd => ?_, fun d hd => ?_, by simp [quarterData]⟩
  · rw [hd' d hd]
    refine ⟨?_, fun args _ _ g hg => ?_⟩
    · show readOsm quarterDemo.prof.conv quarter.shape ≠ .ub
      rw [quarter_read]; simp
    · have hg : readOsm quarterDemo.prof.conv quarter.shape = .ok g := hg
      rw [quarter_read] at hg
      injection hg with hg
      subst hg
      exact ⟨_, quarter_size⟩
  · rw [hd' d hd, quarter_read]; simp
  · rw [hd' d hd] at hl
    exact quarter_nodes hl
  · rw [hd' d hd, quarter_read] at h
    injection h with h
    injection h with h
    subst h
    decide +kernel
  · rw [hd' d hd]
    show ∀ kv ∈ quarterTags, kv.2.length < 2 ^ 32 - 1
    decide +kernel
  · rw [hd' d hd]; simp [shapeSize, shapeNodes, itemNodes, quarter, quarterItems]

theorem quarter_loaded {fs : List (List Feature)} {m : MetaTable} {names : List Bytes} {tbl : List Meta}
    (h : OsmLoaded quarterDemo.prof quarterDemo.profile fullTables quarterDemo.numeral quarterData fs m names tbl) : ∃ i < 13, fs.flatten = [quarterFeature i] := by
  have hlevel : areaOf quarterDemo.prof (quarter.obj quarterDemo.profile quarterDemo.numeral) = 4026531840 := by
    unfold areaOf
    rw [show (quarter.obj quarterDemo.profile quarterDemo.numeral).shape = quarter.shape from rfl, quarter_read]
    dsimp only
    rw [quarter_size]
  have hall : ∀ f ∈ fs.flatten, ∃ i < 13, f = quarterFeature i := by
    intro f hf
    obtain ⟨d, hd, r, hr, hst, hne, hde⟩ := h.from_data f hf
    simp only [quarterData, List.mem_cons, List.not_mem_nil, or_false] at hd
    subst hd
    rw [quarter_rule] at hr
    injection hr with hr
    subst hr
    have h1 : f.metas = quarterMetas := by
      have hp := metas_perm Shipped.full quarter_rule hst
      have hq : (⟨b!"landuse", byArea 14 10 8, [.copy b!"landuse"]⟩ : RuleOut).attributes quarterDemo.numeral (tagValue quarter.tags) = [(b!"landuse", .text b!"residential")] := by
        show RuleOut.attributes fromCharsI64 (tagValue quarterTags) ⟨b!"landuse", byArea 14 10 8, [.copy b!"landuse"]⟩ = _
        rfl
      rw [hq] at hp
      have hp2 : f.metas.Perm quarterMetas := hp
      exact List.perm_singleton.1 hp2
    have h2 : f.geometry = .polygon quarterArea := by
      have := hst.geometry
      rw [show (quarter.obj quarterDemo.profile quarterDemo.numeral).shape = quarter.shape from rfl, quarter_read] at this
      injection this with this
      exact this.symm
    have h3 : f.id = 11 := by
      have : (f.id : Int) = 11 % 2 ^ 64 := hst.id
      omega
    have h4 : f.zmin = 10 := by
      have := hst.first
      rw [hlevel] at this
      have : some 10 = some f.zmin := this
      injection this with this
      exact this.symm
    have h5 : f.layer < names.length := (List.getElem?_eq_some_iff.1 hst.layer).1
    refine ⟨f.layer, by have := h.few.2; omega, ?_⟩
    have h6 := hst.last
    cases f
    simp only at h1 h2 h3 h4 h6
    rw [h1, h2, h3, h4, h6]
    rfl
  obtain ⟨f, hf, _, hde⟩ := h.all_data quarter (by simp [quarterData]) _ _ quarter_rule quarter_read (by simp)
  obtain ⟨i, hi, hfi⟩ := hall f hf
  refine ⟨i, hi, ?_⟩
  have hone : fs.flatten.length ≤ 1 := h.count
  match hfs : fs.flatten, hone, hf with
  | [x], _, hf =>
    rw [List.mem_singleton] at hf
    rw [← hf, hfi]

theorem quarter_sizes : ∀ i < 13, (match serializeFeature (fun _ => []) [] true (quarterFeature i), serializeFeature C52_mk [] false (quarterFeature i) with
    | .ok a, .ok b => decide (32 ≤ a.length ∧ a.length < 200 ∧ 32 ≤ b.length ∧ b.length < 200)
    | _, _ => false) = true := by decide +kernel

theorem quarter_result {fs : List (List Feature)} {m : MetaTable} (h : OsmLoads quarterDemo.prof quarterDemo.profile quarterDemo.numeral quarterData fs m) :
    (quarterDemo.env quarterData).decOf m = [] ∧ ∃ i < 13, fs.flatten = [quarterFeature i] := by
  obtain ⟨names, tbl, hl⟩ := osm_loaded Shipped.full (fun s n h => fromChars_range h) quarter_good h
  obtain ⟨i, hi, hfs⟩ := quarter_loaded hl
  refine ⟨?_, i, hi, hfs⟩
  have ht : tbl = [] := by
    rw [List.eq_nil_iff_forall_not_mem]
    intro x hx
    have h1 := (hl.several x).1 hx
    rw [hfs] at h1
    have h2 : quarterMetas.Nodup := by decide +kernel
    have h3 := List.nodup_iff_count_le_one.1 h2 x
    have h4 : [quarterFeature i].flatMap (·.metas) = quarterMetas := by simp [quarterFeature]
    rw [h4] at h1
    omega
  obtain ⟨b1, b2, h3, h4, h5⟩ := hl.table
  show (match loadSharedMetadata m.coding with | .ok tbl => tbl | _ => []) = []
  rw [h3]
  dsimp only
  rw [h5, ht]

theorem quarter_bytes {i : Nat} (hi : i < 13) : (∃ a, serializeFeature (fun _ => []) [] true (quarterFeature i) = .ok a ∧ 32 ≤ a.length ∧ a.length < 200) ∧
    ∃ b, serializeFeature C52_mk [] false (quarterFeature i) = .ok b ∧ 32 ≤ b.length ∧ b.length < 200 := by
  have := quarter_sizes i hi
  split at this
  · rename_i a b ha hb
    have := of_decide_eq_true this
    exact ⟨⟨a, ha, this.1, this.2.1⟩, b, hb, this.2.2⟩
  · cases this

theorem quarter_whole (z : Nat) (l : Line) : keep (quarterDemo.rd (quarterDemo.mkMask l) z) l = l := by
  simpa [quarterDemo, osmDemo, C52_rd, C52_mk] using C41_full_mask l

theorem quarter_drawn (z : Nat) : withoutSmallRings (simplified (fun l => quarterDemo.rd (quarterDemo.mkMask l) z) (.polygon quarterArea)) = .polygon quarterArea := by
  have : simplified (fun l => quarterDemo.rd (quarterDemo.mkMask l) z) (.polygon quarterArea) = .polygon quarterArea := by
    simp only [simplified, quarterArea, List.map_cons, List.map_nil, quarter_whole]
  rw [this]
  rfl

theorem quarter_fits : quarterDemo.Fits quarterData := by
  refine ⟨quarter_good, fun fs m h f hf b hb => ?_, fun d hd ps h z hz qs hqs => ?_⟩
  · obtain ⟨hd, i, hi, hfs⟩ := quarter_result h
    rw [hfs, List.mem_singleton] at hf
    subst hf
    rw [hd] at hb
    obtain ⟨⟨a, h1, h2, h3⟩, a', h4, h5, h6⟩ := quarter_bytes hi
    rcases hb with hb | hb
    · rw [h1] at hb; injection hb with hb; subst hb; omega
    · rw [show quarterDemo.mkMask = C52_mk from rfl, h4] at hb; injection hb with hb; subst hb; omega
  · simp only [quarterData, List.mem_cons, List.not_mem_nil, or_false] at hd
    rw [hd, quarter_read] at h
    injection h with h
    injection h with h
    subst h
    rw [quarter_drawn] at hqs
    injection hqs with hqs
    subst hqs
    decide +kernel

theorem quarter_short (ctx : GetCtx) (hctx : ctx.clip = quarterDemo.base.clip) (q : Tile) : quarterDemo.ShortLines quarterData ctx q := by
  intro fs m h gs i hgs f hf
  obtain ⟨_, j, _, hfs⟩ := quarter_result h
  have hclip : (drawing ctx 10 q).clip = clipGeometry segInter edgeClipper id := by
    rw [drawing]; split <;> exact hctx
  have hfrom : ∀ g ∈ gs, isLine g = false ∧ ∃ ps, g.geometry = .polygon ps := by
    intro g hg
    rcases hgs g hg with ⟨t, rfl⟩ | ⟨f, h1, ms, _, rfl⟩
    · exact ⟨rfl, _, rfl⟩
    · rw [hfs, List.mem_singleton] at h1
      subst h1
      have : withoutSmallRings (simplified (fun l => quarterDemo.rd (quarterDemo.mkMask l) q.z) (quarterFeature j).geometry) = .polygon quarterArea := quarter_drawn q.z
      rw [this]
      exact ⟨rfl, _, rfl⟩
  have hmem : f ∈ gs := by
    rcases candidates_from hf with h | h
    · exact (List.mem_filter.1 h).1
    · rw [joinedLines] at h
      have hb : bufferedLines (drawing ctx 10 q).toRenderCtx (ofLayer gs i) = [] := by
        rw [List.eq_nil_iff_forall_not_mem]
        intro g hg
        obtain ⟨h1, h2⟩ := bufferedLines_from hg
        rw [(hfrom g (List.mem_filter.1 h1).1).1] at h2
        cases h2
      rw [if_pos hb] at h
      cases h
  intro c hc
  obtain ⟨ps, hps⟩ := (hfrom f hmem).2
  rw [show (drawing ctx 10 q).toRenderCtx.clip = clipGeometry segInter edgeClipper id from hclip] at hc
  exact edge_short (by rw [hps]; simp) hc

theorem quarter_room {fs : List (List Feature)} {m : MetaTable} (h : OsmLoads quarterDemo.prof quarterDemo.profile quarterDemo.numeral quarterData fs m) : insertBytes (fs.map (List.map whole)) ≤ quarterDemo.mem ∧
      (∀ u : Tile, u.Valid → u.z = 10 → tileBytes quarterDemo.mkMask ((quarterDemo.env quarterData).decOf m) (fs.map (List.map whole)) u ≤ 2 ^ 30) ∧
      packBytes quarterDemo.mkMask ((quarterDemo.env quarterData).decOf m) (fs.map (List.map whole)) < 2 ^ 62 := by
  classical
  obtain ⟨hd, i, hi, hfs⟩ := quarter_result h
  obtain ⟨⟨a, h1, h2, h3⟩, b, h4, h5, h6⟩ := quarter_bytes hi
  have hc : copies (whole (quarterFeature i)) ≤ 2 ^ 20 := by
    unfold copies
    exact (List.length_filter_le _ _).trans (le_of_eq cacheTiles_length)
  have hfs' : (fs.map (List.map whole)).flatten = [whole (quarterFeature i)] := by rw [← List.map_flatten, hfs]; rfl
  have hs : insertedSize (quarterFeature i) ≤ 200 := by unfold insertedSize; rw [h1]; dsimp only; omega
  have hx : indexedSize C52_mk [] (quarterFeature i) ≤ 200 := by unfold indexedSize; rw [h4]; dsimp only; omega
  have hm := Nat.mul_le_mul hc (Nat.add_le_add_right hs 15)
  have hm' := Nat.mul_le_mul hc (Nat.add_le_add_right hx 182)
  rw [hd, show quarterDemo.mkMask = C52_mk from rfl, show quarterDemo.mem = 2 ^ 50 from rfl]
  refine ⟨?_, fun u _ _ => ?_, ?_⟩
  · rw [insertBytes, hfs']
    simp only [List.map_cons, List.map_nil, List.sum_cons, List.sum_nil, show (whole (quarterFeature i)).feature = quarterFeature i from rfl]
    generalize copies (whole (quarterFeature i)) * _ = k at hm
    omega
  · rw [tileBytes, goesTo, hfs', List.filter_cons, List.filter_nil]
    split <;> simp [whole] <;> omega
  · rw [packBytes, hfs']
    simp only [List.map_cons, List.map_nil, List.sum_cons, List.sum_nil, show (whole (quarterFeature i)).feature = quarterFeature i from rfl]
    generalize copies (whole (quarterFeature i)) * (indexedSize C52_mk [] (quarterFeature i) + 182) = k at hm'
    omega

theorem quarter_edges {a b : XY} (h : Edge [quarterOuter, quarterInner] a b) : (a, b) ∈
    [((⟨2684420096, 2684420096⟩ : XY), (⟨2684420096, 2684485632⟩ : XY)), (⟨2684420096, 2684485632⟩, ⟨2684485632, 2684485632⟩), (⟨2684485632, 2684485632⟩, ⟨2684485632, 2684420096⟩),
     (⟨2684485632, 2684420096⟩, ⟨2684420096, 2684420096⟩), (⟨2684436480, 2684436480⟩, ⟨2684452864, 2684436480⟩), (⟨2684452864, 2684436480⟩, ⟨2684452864, 2684452864⟩),
     (⟨2684452864, 2684452864⟩, ⟨2684436480, 2684452864⟩), (⟨2684436480, 2684452864⟩, ⟨2684436480, 2684436480⟩)] := by
  obtain ⟨r, hr, h⟩ := h
  have h := next_zip h
  simp only [List.mem_cons, List.not_mem_nil, or_false] at hr
  rcases hr with rfl | rfl
  · simp only [quarterOuter, close, List.cons_append, List.nil_append, List.tail_cons, List.zip_cons_cons, List.zip_nil_right, List.mem_cons, List.not_mem_nil, or_false] at h ⊢
    tauto
  · simp only [quarterInner, close, List.cons_append, List.nil_append, List.tail_cons, List.zip_cons_cons, List.zip_nil_right, List.mem_cons, List.not_mem_nil, or_false] at h ⊢
    tauto

theorem quarter_outlines : Outlines 1 4096 [quarterOuter, quarterInner] where
  corners := by decide +kernel
  once := by decide +kernel
  meet := by
    intro a b c d hab hcd hne s t s0 s1 t0 t1 heq
    have h1 := quarter_edges hab
    have h2 := quarter_edges hcd
    simp only [List.mem_cons, List.not_mem_nil, or_false, Prod.mk.injEq] at h1 h2
    rcases h1 with ⟨rfl, rfl⟩ | ⟨rfl, rfl⟩ | ⟨rfl, rfl⟩ | ⟨rfl, rfl⟩ | ⟨rfl, rfl⟩ | ⟨rfl, rfl⟩ | ⟨rfl, rfl⟩ | ⟨rfl, rfl⟩ <;>
    rcases h2 with ⟨rfl, rfl⟩ | ⟨rfl, rfl⟩ | ⟨rfl, rfl⟩ | ⟨rfl, rfl⟩ | ⟨rfl, rfl⟩ | ⟨rfl, rfl⟩ | ⟨rfl, rfl⟩ | ⟨rfl, rfl⟩ <;>
    first
    | exact absurd rfl hne
    | (simp only [onSeg, Prod.mk.injEq] at heq
       obtain ⟨hx, hy⟩ := heq
       push_cast at hx hy
       first
       | (exfalso; linarith)
       | exact .inl ⟨rfl, by linarith, by linarith⟩
       | exact .inr ⟨rfl, by linarith, by linarith⟩)
  apart := by
    intro a b c d hab hcd hne s t s0 s1 t0 t1 heq
    have h1 := quarter_edges hab
    have h2 := quarter_edges hcd
    simp only [List.mem_cons, List.not_mem_nil, or_false, Prod.mk.injEq] at h1 h2
    rcases h1 with ⟨rfl, rfl⟩ | ⟨rfl, rfl⟩ | ⟨rfl, rfl⟩ | ⟨rfl, rfl⟩ | ⟨rfl, rfl⟩ | ⟨rfl, rfl⟩ | ⟨rfl, rfl⟩ | ⟨rfl, rfl⟩ <;>
    rcases h2 with ⟨rfl, rfl⟩ | ⟨rfl, rfl⟩ | ⟨rfl, rfl⟩ | ⟨rfl, rfl⟩ | ⟨rfl, rfl⟩ | ⟨rfl, rfl⟩ | ⟨rfl, rfl⟩ | ⟨rfl, rfl⟩ <;>
    first
    | exact absurd rfl hne
    | (simp only [onSeg, CloseBy, abs_le] at heq ⊢
       obtain ⟨⟨hx, hx'⟩, hy, hy'⟩ := heq
       push_cast at hx hx' hy hy' ⊢
       first
       | (exfalso; linarith)
       | exact ⟨_, .inr rfl, .inl rfl, ⟨⟨by push_cast; linarith, by push_cast; linarith⟩, by push_cast; linarith, by push_cast; linarith⟩, ⟨by push_cast; linarith, by push_cast; linarith⟩, by push_cast; linarith, by push_cast; linarith⟩
       | exact ⟨_, .inl rfl, .inr rfl, ⟨⟨by push_cast; linarith, by push_cast; linarith⟩, by push_cast; linarith, by push_cast; linarith⟩, ⟨by push_cast; linarith, by push_cast; linarith⟩, by push_cast; linarith, by push_cast; linarith⟩)

theorem quarter_kept (z : Nat) : (ringNodes quarterItems).map (keptOutline quarterDemo.prof.conv (fun l => quarterDemo.rd (quarterDemo.mkMask l) z)) = [quarterOuter, quarterInner] := by
  simp only [ringNodes, quarterItems, List.filterMap_cons, List.filterMap_nil, List.map_cons, List.map_nil, ← kept_outline, quarter_whole]
  simp [nodesToFixed, quarter_conv, closeRing]
  exact ⟨rfl, rfl⟩

theorem quarter_proper (z : Nat) : ProperArea 1 quarterDemo.prof.conv (fun l => quarterDemo.rd (quarterDemo.mkMask l) z) quarterItems where
  outlines := by rw [quarter_kept]; exact quarter_outlines
  inside := by
    have hk := quarter_kept z
    simp only [ringNodes, quarterItems, List.filterMap_cons, List.filterMap_nil, List.map_cons, List.map_nil, List.cons.injEq, and_true] at hk
    obtain ⟨k1, k2⟩ := hk
    intro nodes hn p hp
    have hn : nodes = [some (quarterAt 81920 81920), some (quarterAt 98304 81920), some (quarterAt 98304 98304), some (quarterAt 81920 98304), some (quarterAt 81920 81920)] := by
      simpa [quarterItems] using hn
    rw [hn, k2] at hp
    have key : ∀ P : XY → Prop, (∃ o ∈ quarterOuter, P o) → ∃ os, AreaItem.outer os ∈ quarterItems ∧ ∃ o ∈ keptOutline quarterDemo.prof.conv (fun l => quarterDemo.rd (quarterDemo.mkMask l) z) os, P o := by
      intro P h
      exact ⟨_, List.mem_cons_self, by rw [k1]; exact h⟩
    refine ⟨key _ ?_, key _ ?_, key _ ?_, key _ ?_⟩ <;> revert p <;> decide +kernel

/-- All conditions are met: a file with a residential area with a hole is imported with full.lua, on top of anything; then the server starts, and who asks for the
tile 14/10240/10240 sees an area feature with the kind of the area, one of whose edges goes along `x = 1024` from `y = 1024` to `y = 2048`, and one (of the hole) along
`y = 1280` from `x = 1280` to `x = 1536`. -/
example (a : TileDb MetaTable) : ∃ (b : TileDb MetaTable) (ctx : GetCtx), Imports (importParts (quarterDemo.env quarterData)) [["features", "pack", "tiles"]] a b ∧
    makeRenderCtx quarterDemo.base (preparedString b.maxPrepared) b.info = .ok ctx ∧
    ∀ features, EntriesOf b.features features → ∃ bytes layers, getTile b.tiles features b.pf.reopen ctx ⟨10240, 10240, 14⟩ = .ok (if bytes = [] then none else some (ctx.encode bytes)) ∧
      (bytes.length < 2 ^ 32 → clientTile bytes = some layers) ∧
      AreaSeen layers b!"landuse" 11 [(b!"landuse", .str b!"residential")] (fun p p' =>
        ∀ y : ℝ, 1024 ≤ y → y ≤ 2048 → ∃ v : ℝ, 0 ≤ v ∧ v ≤ 1 ∧ CloseBy (2 / 2 ^ 6 + 1) (onSeg p p' v) (1024, y)) ∧
      AreaSeen layers b!"landuse" 11 [(b!"landuse", .str b!"residential")] (fun p p' =>
        ∀ x : ℝ, 1280 ≤ x → x ≤ 1536 → ∃ v : ℝ, 0 ≤ v ∧ v ≤ 1 ∧ CloseBy (2 / 2 ^ 6 + 1) (onSeg p p' v) (x, 1280)) := by
  obtain ⟨b, h1, h2, h3, h4⟩ := C68_completes quarter_ok quarter_fits ["features", "pack", "tiles"] (.inr (by simp)) (.inr (by simp)) (.inr (by simp))
    (by simp [Asked]) (by decide) (by norm_num [quarterDemo, osmDemo]) ⟨quarter, by simp [quarterData], _, _, quarter_rule, quarter_read, by simp⟩
    (fun fs m h => quarter_room h) (fun m ctx h q _ _ => quarter_short ctx (ctx_clip h) q) a
  have himp : Imports (importParts (quarterDemo.env quarterData)) [["features", "pack", "tiles"]] a b := ⟨b, h1, rfl⟩
  have hacts : changes [["features", "pack", "tiles"]] = [.load false true, .pack, .tiles] := by simp [changes, actsOf, Asked]
  obtain ⟨ctx, h5, _⟩ := C68_starts quarter_ok quarter_fits _ hacts a b himp h3
  refine ⟨b, ctx, himp, h5, fun features hdb => ?_⟩
  obtain ⟨bytes, layers, k1, k2, k3⟩ := C77_areas quarter_ok quarter_fits ⟨segInter, edgeClipper, id, edge_clip, edge_lib, rfl⟩ (fun z l h => by rw [quarter_whole]; exact h)
    _ hacts a b himp h3 (by omega) features hdb ctx h5
    ⟨10240, 10240, 14⟩ (by decide) (by decide) (by decide) (quarter_short ctx (ctx_clip h5) _)
  refine ⟨bytes, layers, k1, fun h => (k2 h).1, ?_⟩
  have hlevel : areaOf quarterDemo.prof (quarter.obj quarterDemo.profile quarterDemo.numeral) = 4026531840 := by
    unfold areaOf
    rw [show (quarter.obj quarterDemo.profile quarterDemo.numeral).shape = quarter.shape from rfl, quarter_read]
    dsimp only
    rw [quarter_size]
  have hseg := k3 quarter (by simp [quarterData]) quarterItems rfl _ quarter_rule 10 (by rw [hlevel]; rfl) (by decide) (quarter_proper 14) (by
    intro d' hd' _ _
    simpa [quarterData] using hd')
  have htags : (⟨b!"landuse", byArea 14 10 8, [.copy b!"landuse"]⟩ : RuleOut).shown quarterDemo.numeral quarterDemo.prof.toDouble (tagValue quarter.tags) =
      [(b!"landuse", .str b!"residential")] := by
    show RuleOut.shown fromCharsI64 quarterDemo.prof.toDouble (tagValue quarterTags) ⟨b!"landuse", byArea 14 10 8, [.copy b!"landuse"]⟩ = _
    rfl
  rw [htags] at hseg
  have hid : (quarter.id % 2 ^ 64 : Int) = 11 := by show (11 % 2 ^ 64 : Int) = 11; norm_num
  rw [hid] at hseg
  have hrd : ∀ (l : Line) (z : Nat), quarterDemo.rd (quarterDemo.mkMask l) z = List.replicate l.length true := by
    intro l z
    simp [quarterDemo, osmDemo, C52_rd, C52_mk]
  constructor
  · obtain ⟨a1, a2⟩ := quarter_pos 65536 65536
    obtain ⟨b1, b2⟩ := quarter_pos 65536 131072
    have hpiece : Piece quarterDemo.prof.conv (fun l => quarterDemo.rd (quarterDemo.mkMask l) 14) quarter.shape (quarterAt 65536 65536) (quarterAt 65536 131072) := by
      refine ⟨_, .inl List.mem_cons_self, ?_⟩
      dsimp only
      rw [hrd]
      simp only [ringPlaces, List.filterMap_cons, List.filterMap_nil, id_eq, List.head?_cons, List.getLast?_cons_cons, List.getLast?_singleton, if_true]
      exact ⟨[], _, rfl⟩
    have := hseg _ _ hpiece 0 1 le_rfl zero_le_one zero_le_one le_rfl
      (by rw [Deep, between, a1, a2, b1, b2]; norm_num [side])
      (by rw [Deep, between, a1, a2, b1, b2]; norm_num [side])
      (by rw [between, between, a1, a2, b1, b2]; norm_num [inTile, abs_lt])
    obtain ⟨L, m1, m2, c, m3, m4, m5, m6, part, m7, m8, p, p', m9, m10⟩ := this
    refine ⟨L, m1, m2, c, m3, m4, m5, m6, part, m7, m8, p, p', m9, fun y hy1 hy2 => ?_⟩
    have hu := m10 ((y - 1024) / 1024) (by linarith) (by linarith)
      (by
        rw [Deep, between, a1, a2, b1, b2]
        norm_num [side]
        constructor <;> linarith)
    have hp : inTile ⟨10240, 10240, 14⟩ (between (quarterAt 65536 65536) (quarterAt 65536 131072) ((y - 1024) / 1024)) = (1024, y) := by
      rw [between, a1, a2, b1, b2, inTile]
      norm_num
      ring
    rw [hp] at hu
    norm_num at hu ⊢
    exact hu
  · obtain ⟨a1, a2⟩ := quarter_pos 81920 81920
    obtain ⟨b1, b2⟩ := quarter_pos 98304 81920
    have hpiece : Piece quarterDemo.prof.conv (fun l => quarterDemo.rd (quarterDemo.mkMask l) 14) quarter.shape (quarterAt 81920 81920) (quarterAt 98304 81920) := by
      refine ⟨_, .inr (List.mem_cons_of_mem _ List.mem_cons_self), ?_⟩
      dsimp only
      rw [hrd]
      simp only [ringPlaces, List.filterMap_cons, List.filterMap_nil, id_eq, List.head?_cons, List.getLast?_cons_cons, List.getLast?_singleton, if_true]
      exact ⟨[], _, rfl⟩
    have := hseg _ _ hpiece 0 1 le_rfl zero_le_one zero_le_one le_rfl
      (by rw [Deep, between, a1, a2, b1, b2]; norm_num [side])
      (by rw [Deep, between, a1, a2, b1, b2]; norm_num [side])
      (by rw [between, between, a1, a2, b1, b2]; norm_num [inTile, abs_lt])
    obtain ⟨L, m1, m2, c, m3, m4, m5, m6, part, m7, m8, p, p', m9, m10⟩ := this
    refine ⟨L, m1, m2, c, m3, m4, m5, m6, part, m7, m8, p, p', m9, fun x hx1 hx2 => ?_⟩
    have hu := m10 ((x - 1280) / 256) (by linarith) (by linarith)
      (by
        rw [Deep, between, a1, a2, b1, b2]
        norm_num [side]
        constructor <;> linarith)
    have hp : inTile ⟨10240, 10240, 14⟩ (between (quarterAt 81920 81920) (quarterAt 98304 81920) ((x - 1280) / 256)) = (x, 1280) := by
      rw [between, a1, a2, b1, b2, inTile]
      norm_num
      ring
    rw [hp] at hu
    norm_num at hu ⊢
    exact hu

end Tiles
