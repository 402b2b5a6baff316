import Verif.Props.C77b
import Verif.Props.C79
/-! C79: all conditions of `C79_areas` are met: a residential area with a hole at level 10, from the file to the client. -/
namespace Tiles
open Spec

/-- the paths lie in the box -/
def blockInside (ps : List Line) (b : Box) : Bool :=
  ps.all (fun p => decide (p ≠ []) && decide (p.length < 2 ^ 20) && p.all (fun v => decide (b.min.x ≤ v.x ∧ v.x ≤ b.max.x ∧ b.min.y ≤ v.y ∧ v.y ≤ b.max.y)))

/-- an example of a library: what lies in the box is left as it is; otherwise every edge is cut at the border of the box by itself -/
noncomputable def blockClipper (ps : List Line) (b : Box) : Option (List PolyNode) :=
  if blockInside ps b then some (ps.map (fun p => .mk p false [])) else edgeClipper ps b

theorem block_inside {ps : List Line} {b : Box} (h : blockInside ps b = true) : ∀ p ∈ ps, p ≠ [] ∧ p.length < 2 ^ 20 ∧ ∀ v ∈ p, Around 1 b v := by
  intro p hp
  rw [blockInside, List.all_eq_true] at h
  have := h p hp
  simp only [Bool.and_eq_true, decide_eq_true_eq, List.all_eq_true] at this
  refine ⟨this.1.1, this.1.2, fun v hv => ?_⟩
  have := this.2 v hv
  unfold Around
  omega

theorem block_polys {ps : List Line} {b : Box} {nodes : List PolyNode} (h : blockClipper ps b = some nodes) :
    AltOuter nodes ∧ ∃ l : List Line, polysOf nodes = l.map (fun p => (p, [])) ∧ ∀ p ∈ l, p ≠ [] ∧ p.length < 2 ^ 20 ∧ ∀ v ∈ p, Around 1 b v := by
  rw [blockClipper] at h
  split at h
  · rename_i hin
    injection h with h
    subst h
    have hi := block_inside hin
    obtain ⟨h1, h2⟩ := flat_polys ps (fun p hp => (hi p hp).1)
    exact ⟨h1, ps, h2, hi⟩
  · obtain ⟨h1, h2⟩ := edge_polys h
    refine ⟨h1, _, h2, fun p hp => ?_⟩
    have ha := seg_clip.lines _ _ _ hp
    obtain ⟨x, y, _, rfl⟩ := segPart_mem hp
    exact ⟨by simp, by simp, ha⟩

theorem block_clip : ClipLib 1 segInter blockClipper id where
  lines := seg_clip.lines
  accepts := by
    intro paths box h hc
    rw [blockClipper] at hc
    split at hc
    · cases hc
    · exact edge_clip.accepts paths box h hc
  tree := by
    intro paths box nodes h
    obtain ⟨h1, l, h2, h3⟩ := block_polys h
    refine ⟨h1, fun q hq r hr p hp => ?_⟩
    rw [h2] at hq
    obtain ⟨x, hx, rfl⟩ := List.mem_map.1 hq
    simp only [List.mem_singleton] at hr
    subst hr
    exact (h3 _ hx).2.2 p hp
  turns := seg_clip.turns

theorem block_lib : PolyLib 1 blockClipper where
  covers := by
    intro m paths box nodes hout hn a b hab hs
    rw [blockClipper] at hn
    split at hn
    · rename_i hin
      injection hn with hn
      subst hn
      obtain ⟨r, hr, hnext⟩ := hab
      refine ⟨(r, []), ?_, r, by simp, a, b, hnext, fun u u0 u1 _ => ⟨u, u0, u1, by simp [CloseBy]⟩⟩
      rw [(flat_polys paths (fun p hp => (block_inside hin p hp).1)).2]
      exact List.mem_map.2 ⟨r, hr, rfl⟩
    · exact edge_lib.covers m paths box nodes hout hn a b hab hs
  holes := by
    intro paths box nodes hn q hq r hr
    obtain ⟨_, l, h2, _⟩ := block_polys hn
    rw [h2] at hq
    obtain ⟨x, _, rfl⟩ := List.mem_map.1 hq
    cases hr

/-- nothing in a result of the example library is long -/
theorem block_short {ps : List Polygon} {c : Geometry} {box : Box} (h : clipGeometry segInter blockClipper id (.polygon ps) box = .ok c) : ∀ l ∈ allLines c, l.length < 2 ^ 29 := by
  intro l hl
  have h : clipPolygon blockClipper id ps box = .ok c := h
  rw [clipPolygon] at h
  obtain ⟨sub, _, h⟩ := Res.bind_eq_ok.1 h
  cases hn : blockClipper sub box with
  | none => rw [hn] at h; cases h
  | some nodes =>
    obtain ⟨halt, ls, hp, hls⟩ := block_polys hn
    obtain ⟨out, ho, hperm⟩ := toFixedPolygon_spec nodes [] halt
    rw [hn] at h
    cases nodes with
    | nil =>
      rw [Res.pure_eq] at h
      injection h with h
      subst h
      cases hl
    | cons n nodes =>
      dsimp only at h
      rw [ho, Res.ok_bind, Res.pure_eq] at h
      injection h with h
      subst h
      obtain ⟨P, hP, hl⟩ := List.mem_flatMap.1 hl
      have hP : P ∈ out := by simpa using hP
      obtain ⟨Q, hQ, rfl⟩ := List.mem_map.1 (hperm.mem_iff.1 hP)
      rw [hp] at hQ
      obtain ⟨x, hx, rfl⟩ := List.mem_map.1 hQ
      simp only [closePoly, List.map_nil, List.mem_singleton] at hl
      subst hl
      have := (hls x hx).2.1
      cases x with
      | nil => simp [close]
      | cons y ys => simp only [close, List.length_append, List.length_cons, List.length_nil] at *; omega

noncomputable def blockDemo : OsmSetting :=
  { quarterDemo with base := { C62_ctx with clip := clipGeometry segInter blockClipper id, tiny := fun g => match smallerThanPixel id g with | .ok b => b | _ => false } }

theorem block_ok : blockDemo.Ok fullTables 1 1 where
  shipped := .full
  numerals := fun s n h => fromChars_range h
  doubles := osmDemo_ok.doubles
  sorts := osmDemo_ok.sorts
  masks := osmDemo_ok.masks
  keeps := osmDemo_ok.keeps
  work := osmDemo_ok.work
  reads := rfl
  error := ⟨by omega, by norm_num, le_rfl⟩
  clip := ⟨segInter, blockClipper, id, block_clip, rfl⟩
  joins := osmDemo_ok.joins
  places := osmDemo_ok.places

theorem block_fits : blockDemo.Fits quarterData := ⟨quarter_fits.toGoodData, quarter_fits.records, quarter_fits.areas⟩

theorem block_lines (ctx : GetCtx) (hctx : ctx.clip = blockDemo.base.clip) (q : Tile) : blockDemo.ShortLines quarterData ctx q := by
  intro fs m h gs i hgs f hf
  obtain ⟨_, j, _, hfs⟩ := quarter_result h
  have hclip : (drawing ctx 10 q).clip = clipGeometry segInter blockClipper id := by
    rw [drawing]; split <;> exact hctx
  have hfrom : ∀ g ∈ gs, isLine g = false ∧ ∃ ps, g.geometry = .polygon ps := by
    intro g hg
    rcases hgs g hg with ⟨t, rfl⟩ | ⟨f, h1, ms, _, rfl⟩
    · exact ⟨rfl, _, rfl⟩
    · rw [hfs, List.mem_singleton] at h1
      subst h1
      have : withoutSmallRings (simplified (fun l => blockDemo.rd (blockDemo.mkMask l) q.z) (quarterFeature j).geometry) = .polygon quarterArea := quarter_drawn q.z
      rw [this]
      exact ⟨rfl, _, rfl⟩
  have hmem : f ∈ gs := by
    rcases candidates_from hf with h | h
    · exact (List.mem_filter.1 h).1
    · rw [joinedLines] at h
      have hb : bufferedLines (drawing ctx 10 q).toRenderCtx (ofLayer gs i) = [] := by
        rw [List.eq_nil_iff_forall_not_mem]
        intro g hg
        obtain ⟨h1, h2⟩ := bufferedLines_from hg
        rw [(hfrom g (List.mem_filter.1 h1).1).1] at h2
        cases h2
      rw [if_pos hb] at h
      cases h
  intro c hc
  obtain ⟨ps, hps⟩ := (hfrom f hmem).2
  rw [show (drawing ctx 10 q).toRenderCtx.clip = clipGeometry segInter blockClipper id from hclip, hps] at hc
  exact block_short hc

/-- what is drawn of the area: 64 x 64 units without 16 x 16 units -/
def blockDrawn : List Polygon := [⟨close [⟨2621504, 2621504⟩, ⟨2621504, 2621568⟩, ⟨2621568, 2621568⟩, ⟨2621568, 2621504⟩], []⟩,
  ⟨close [⟨2621520, 2621520⟩, ⟨2621536, 2621520⟩, ⟨2621536, 2621536⟩, ⟨2621520, 2621536⟩], []⟩]

theorem block_clipped : clipGeometry segInter blockClipper id (.polygon quarterArea) (drawBounds ⟨640, 640, 10⟩) = .ok (.polygon [⟨close quarterOuter, []⟩, ⟨close quarterInner, []⟩]) := by
  show clipPolygon blockClipper id quarterArea (drawBounds ⟨640, 640, 10⟩) = _
  rw [clipPolygon, show clipSubject quarterArea = .ok [quarterOuter, quarterInner] by decide +kernel, Res.ok_bind, blockClipper, if_pos (by decide +kernel)]
  decide +kernel

theorem block_large : LargeHere blockDemo.base.clip ⟨640, 640, 10⟩ quarterArea := by
  intro c out hc hs
  have hc : clipGeometry segInter blockClipper id (.polygon quarterArea) (drawBounds ⟨640, 640, 10⟩) = .ok c := hc
  rw [block_clipped] at hc
  injection hc with hc
  subst hc
  have h2 : shiftGeometry (.polygon [⟨close quarterOuter, []⟩, ⟨close quarterInner, []⟩]) 10 = .ok (.polygon blockDrawn) := by decide +kernel
  rw [show (⟨640, 640, 10⟩ : Tile).z = 10 from rfl, h2] at hs
  injection hs with hs
  injection hs with hs
  subst hs
  decide +kernel

/-- All conditions are met: a file with a residential area with a hole is imported with full.lua, on top of anything; then the server starts, and who asks for the
tile 10/640/640 (which was prepared) sees an area feature with the kind of the area, one of whose edges goes along `x = 64` from `y = 64` to `y = 128`, and one (of the hole) along
`y = 80` from `x = 80` to `x = 96`. -/
example (a : TileDb MetaTable) : ∃ (b : TileDb MetaTable) (ctx : GetCtx), Imports (importParts (blockDemo.env quarterData)) [["features", "pack", "tiles"]] a b ∧
    makeRenderCtx blockDemo.base (preparedString b.maxPrepared) b.info = .ok ctx ∧
    ∀ features, EntriesOf b.features features → ∃ bytes layers, getTile b.tiles features b.pf.reopen ctx ⟨640, 640, 10⟩ = .ok (if bytes = [] then none else some (ctx.encode bytes)) ∧
      (bytes.length < 2 ^ 32 → clientTile bytes = some layers) ∧
      AreaSeen layers b!"landuse" 11 [(b!"landuse", .str b!"residential")] (fun p p' =>
        ∀ y : ℝ, 64 ≤ y → y ≤ 128 → ∃ v : ℝ, 0 ≤ v ∧ v ≤ 1 ∧ CloseBy (2 / 2 ^ 10 + 1) (onSeg p p' v) (64, y)) ∧
      AreaSeen layers b!"landuse" 11 [(b!"landuse", .str b!"residential")] (fun p p' =>
        ∀ x : ℝ, 80 ≤ x → x ≤ 96 → ∃ v : ℝ, 0 ≤ v ∧ v ≤ 1 ∧ CloseBy (2 / 2 ^ 10 + 1) (onSeg p p' v) (x, 80)) := by
  obtain ⟨b, h1, h2, h3, h4⟩ := C68_completes block_ok block_fits ["features", "pack", "tiles"] (.inr (by simp)) (.inr (by simp)) (.inr (by simp))
    (by simp [Asked]) (by decide) (by norm_num [blockDemo, quarterDemo, osmDemo]) ⟨quarter, by simp [quarterData], _, _, quarter_rule, quarter_read, by simp⟩
    (fun fs m h => quarter_room h) (fun m ctx h q _ _ => block_lines ctx (ctx_clip h) q) a
  have himp : Imports (importParts (blockDemo.env quarterData)) [["features", "pack", "tiles"]] a b := ⟨b, h1, rfl⟩
  have hacts : changes [["features", "pack", "tiles"]] = [.load false true, .pack, .tiles] := by simp [changes, actsOf, Asked]
  obtain ⟨ctx, h5, _⟩ := C68_starts block_ok block_fits _ hacts a b himp h3
  refine ⟨b, ctx, himp, h5, fun features hdb => ?_⟩
  obtain ⟨bytes, layers, k1, k2, k3⟩ := C79_areas block_ok block_fits (by norm_num) ⟨segInter, blockClipper, id, block_clip, block_lib, rfl⟩
    ⟨id, C63_id.1, fun g b h => by show (match smallerThanPixel id g with | .ok b => b | _ => false) = b; rw [h]⟩ (fun z l h => (quarter_whole z l).symm ▸ h)
    _ hacts a b himp h3 (by omega) features hdb ctx h5
    ⟨640, 640, 10⟩ (by decide) (by decide) (block_lines ctx (ctx_clip h5) _)
  refine ⟨bytes, layers, k1, fun h => (k2 h).1, ?_⟩
  have hlevel : areaOf blockDemo.prof (quarter.obj blockDemo.profile blockDemo.numeral) = 4026531840 := by
    unfold areaOf
    rw [show readOsm blockDemo.prof.conv (quarter.obj blockDemo.profile blockDemo.numeral).shape = .ok (.polygon quarterArea) from quarter_read]
    dsimp only
    rw [show blockDemo.prof.area (.polygon quarterArea) = .ok 4026531840 from quarter_size]
  have hseg := k3 quarter (by simp [quarterData]) quarterItems rfl _ quarter_rule 10 (by rw [hlevel]; rfl) (by decide) (quarter_proper 10) (by
    intro ps qs i1 i2
    have i1 : readOsm quarterDemo.prof.conv quarter.shape = .ok (.polygon ps) := i1
    rw [quarter_read] at i1
    injection i1 with i1
    injection i1 with i1
    subst i1
    have i2 : withoutSmallRings (simplified (fun l => quarterDemo.rd (quarterDemo.mkMask l) 10) (.polygon quarterArea)) = .polygon qs := i2
    rw [quarter_drawn] at i2
    injection i2 with i2
    subst i2
    exact block_large) (by
    intro d' hd' _ _
    simpa [quarterData] using hd')
  have htags : (⟨b!"landuse", byArea 14 10 8, [.copy b!"landuse"]⟩ : RuleOut).shown blockDemo.numeral blockDemo.prof.toDouble (tagValue quarter.tags) =
      [(b!"landuse", .str b!"residential")] := by
    show RuleOut.shown fromCharsI64 quarterDemo.prof.toDouble (tagValue quarterTags) ⟨b!"landuse", byArea 14 10 8, [.copy b!"landuse"]⟩ = _
    rfl
  rw [htags] at hseg
  have hid : (quarter.id % 2 ^ 64 : Int) = 11 := by show (11 % 2 ^ 64 : Int) = 11; norm_num
  rw [hid] at hseg
  have hrd : ∀ (l : Line) (z : Nat), blockDemo.rd (blockDemo.mkMask l) z = List.replicate l.length true := by
    intro l z
    simp [blockDemo, quarterDemo, osmDemo, C52_rd, C52_mk]
  constructor
  · obtain ⟨a1, a2⟩ := quarter_pos 65536 65536
    obtain ⟨b1, b2⟩ := quarter_pos 65536 131072
    have hpiece : Piece blockDemo.prof.conv (fun l => blockDemo.rd (blockDemo.mkMask l) 10) quarter.shape (quarterAt 65536 65536) (quarterAt 65536 131072) := by
      refine ⟨_, .inl List.mem_cons_self, ?_⟩
      dsimp only
      rw [hrd]
      simp only [ringPlaces, List.filterMap_cons, List.filterMap_nil, id_eq, List.head?_cons, List.getLast?_cons_cons, List.getLast?_singleton, if_true]
      exact ⟨[], _, rfl⟩
    have := hseg _ _ hpiece 0 1 le_rfl zero_le_one zero_le_one le_rfl
      (by rw [Deep, between, a1, a2, b1, b2]; norm_num [side])
      (by rw [Deep, between, a1, a2, b1, b2]; norm_num [side])
      (by rw [between, between, a1, a2, b1, b2]; norm_num [inTile, abs_lt])
    obtain ⟨L, m1, m2, c, m3, m4, m5, m6, part, m7, m8, p, p', m9, m10⟩ := this
    refine ⟨L, m1, m2, c, m3, m4, m5, m6, part, m7, m8, p, p', m9, fun y hy1 hy2 => ?_⟩
    have hu := m10 ((y - 64) / 64) (by linarith) (by linarith)
      (by
        rw [Deep, between, a1, a2, b1, b2]
        norm_num [side]
        constructor <;> linarith)
    have hp : inTile ⟨640, 640, 10⟩ (between (quarterAt 65536 65536) (quarterAt 65536 131072) ((y - 64) / 64)) = (64, y) := by
      rw [between, a1, a2, b1, b2, inTile]
      norm_num
      ring
    rw [hp] at hu
    norm_num at hu ⊢
    exact hu
  · obtain ⟨a1, a2⟩ := quarter_pos 81920 81920
    obtain ⟨b1, b2⟩ := quarter_pos 98304 81920
    have hpiece : Piece blockDemo.prof.conv (fun l => blockDemo.rd (blockDemo.mkMask l) 10) quarter.shape (quarterAt 81920 81920) (quarterAt 98304 81920) := by
      refine ⟨_, .inr (List.mem_cons_of_mem _ List.mem_cons_self), ?_⟩
      dsimp only
      rw [hrd]
      simp only [ringPlaces, List.filterMap_cons, List.filterMap_nil, id_eq, List.head?_cons, List.getLast?_cons_cons, List.getLast?_singleton, if_true]
      exact ⟨[], _, rfl⟩
    have := hseg _ _ hpiece 0 1 le_rfl zero_le_one zero_le_one le_rfl
      (by rw [Deep, between, a1, a2, b1, b2]; norm_num [side])
      (by rw [Deep, between, a1, a2, b1, b2]; norm_num [side])
      (by rw [between, between, a1, a2, b1, b2]; norm_num [inTile, abs_lt])
    obtain ⟨L, m1, m2, c, m3, m4, m5, m6, part, m7, m8, p, p', m9, m10⟩ := this
    refine ⟨L, m1, m2, c, m3, m4, m5, m6, part, m7, m8, p, p', m9, fun x hx1 hx2 => ?_⟩
    have hu := m10 ((x - 80) / 16) (by linarith) (by linarith)
      (by
        rw [Deep, between, a1, a2, b1, b2]
        norm_num [side]
        constructor <;> linarith)
    have hp : inTile ⟨640, 640, 10⟩ (between (quarterAt 81920 81920) (quarterAt 98304 81920) ((x - 80) / 16)) = (x, 80) := by
      rw [between, a1, a2, b1, b2, inTile]
      norm_num
      ring
    rw [hp] at hu
    norm_num at hu ⊢
    exact hu

end Tiles
