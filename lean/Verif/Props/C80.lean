import Verif.Model.Benchmark
import Verif.Props.C65
import Verif.Props.C68
/-
C80: `tiles-benchmark` measures what the server sends.
-/
namespace Tiles
open Spec

/-! ### what is claimed -/

/-- the size of the server's answer to a request, if it is not empty -/
def Spec.answerSize (tiles : UInt64 → Option Bytes) (features : List (UInt64 × Bytes)) (pf : PackFile) (ctx : GetCtx) (q : Tile) : Option Nat :=
  match getTile tiles features pf ctx q with
  | .ok (some b) => some b.length
  | _ => none

/-- The program ends with exit code 0 and prints a report for each of the groups of tiles; whatever the clock says, the report of a group counts each of its tiles once
(TOTAL), and its sizes (RESULT SIZE) are these, in the order of the tiles. -/
structure Spec.Measured (out : BenchOut) (groups : List (List Tile)) (size : Tile → Option Nat) : Prop where
  exit : out.exit = .ok 0
  reports : List.Forall₂ (fun ops g => ∀ l : List (Int × PerfOp), l.map Prod.snd = ops →
    ((perfRun perfInit l).finished .total).length = g.length ∧ (perfRun perfInit l).finished .resultSize = g.filterMap size) out.reports groups

/-- the tiles of a level, each once -/
structure Spec.WholeLevel (ts : List Tile) (z : Nat) : Prop where
  once : ts.Nodup
  all : ∀ q, q ∈ ts ↔ q.Valid ∧ q.z = z

/-! ### one program run -/

theorem Spec.Measured.congr_size {out : BenchOut} {groups : List (List Tile)} {s s' : Tile → Option Nat} (h : Measured out groups s) (hs : ∀ g ∈ groups, ∀ q ∈ g, s q = s' q) :
    Measured out groups s' := by
  refine ⟨h.exit, ?_⟩
  have hr := h.reports
  generalize out.reports = reps at hr ⊢
  clear h
  induction hr with
  | nil => exact .nil
  | cons h1 _ ih =>
    refine .cons (fun l hl => ?_) (ih fun g hg => hs g (by simp [hg]))
    obtain ⟨k1, k2⟩ := h1 l hl
    exact ⟨k1, by rw [k2]; exact List.filterMap_congr (hs _ (by simp))⟩

section
variable {tiles : UInt64 → Option Bytes} {features : List (UInt64 × Bytes)} {pf : PackFile} {ctx : GetCtx}

theorem measure_ops (ts : List Tile) (h : ∀ q ∈ ts, ∃ r, getTile tiles features pf ctx q = .ok r) :
    (measureTiles (fun t => getTileSeq tiles features pf ctx t) ts).res = .ok () ∧
    (measureTiles (fun t => getTileSeq tiles features pf ctx t) ts).ops = (ts.map (fun t => TileCall.mk tiles features pf ctx t)).flatMap fun c => c.run.ops := by
  induction ts with
  | nil => exact ⟨rfl, rfl⟩
  | cons t ts ih =>
    obtain ⟨r, hr⟩ := h t (by simp)
    obtain ⟨h1, h2⟩ := ih (fun q hq => h q (by simp [hq]))
    have hrun := (C65_same ⟨tiles, features, pf, ctx, t⟩ r).2 hr
    rw [TileCall.run] at hrun
    dsimp only at hrun
    refine ⟨?_, ?_⟩
    · rw [measureTiles, Traced.res_bind, hrun, Res.ok_bind, h1]
    · rw [measureTiles, Traced.ops_bind_ok hrun, h2, List.map_cons, List.flatMap_cons]
      rfl

theorem groups_measured (groups : List (List Tile)) (hz : ∀ g ∈ groups, ∀ q ∈ g, q.z ≤ 20) (hp : ctx.ignorePrepared = true)
    (h : ∀ g ∈ groups, ∀ q ∈ g, ∃ r, getTile tiles features pf ctx q = .ok r) :
    Measured (benchGroups (fun t => getTileSeq tiles features pf ctx t) groups) groups (answerSize tiles features pf ctx) := by
  induction groups with
  | nil => exact ⟨rfl, .nil⟩
  | cons g gs ih =>
    obtain ⟨i1, i2⟩ := ih (fun g hg => hz g (by simp [hg])) (fun g hg => h g (by simp [hg]))
    obtain ⟨h1, h2⟩ := measure_ops g (h g (by simp))
    rw [benchGroups, h1]
    refine ⟨i1, .cons (fun l hl => ?_) i2⟩
    rw [h2] at hl
    refine ⟨?_, ?_⟩
    · rw [C65_total _ l hl, List.filter_eq_self.2 (fun c hc => by
        obtain ⟨q, hq, rfl⟩ := List.mem_map.1 hc
        exact decide_eq_true (hz g (by simp) q hq)), List.length_map]
    · rw [C65_sizes _ l hl, List.filterMap_map]
      refine List.filterMap_congr fun q _ => ?_
      show drawnSize _ = answerSize _ _ _ _ _
      rw [drawnSize, answerSize]
      have : fromTable ⟨tiles, features, pf, ctx, q⟩ = false := by simp [fromTable, wantsPrepared, hp]
      rw [this]
      rfl

theorem measure_fails (ts : List Tile) (hs : ∀ q ∈ ts, (getTileSeq tiles features pf ctx q).res ≠ .ub)
    (hf : ∃ q ∈ ts, ∀ r, getTile tiles features pf ctx q ≠ .ok r) : (measureTiles (fun t => getTileSeq tiles features pf ctx t) ts).res = .throw_ := by
  induction ts with
  | nil => obtain ⟨q, hq, _⟩ := hf; cases hq
  | cons t ts ih =>
    rw [measureTiles, Traced.res_bind]
    cases hr : (getTileSeq tiles features pf ctx t).res with
    | ub => exact absurd hr (hs t (by simp))
    | throw_ => rfl
    | ok r =>
      rw [Res.ok_bind]
      refine ih (fun q hq => hs q (by simp [hq])) ?_
      obtain ⟨q, hq, hf⟩ := hf
      rcases List.mem_cons.1 hq with rfl | hq
      · exact absurd ((C65_same ⟨tiles, features, pf, ctx, q⟩ r).1 hr) (hf r)
      · exact ⟨q, hq, hf⟩


/-- whether prepared tiles are used does not matter for drawing -/
theorem renderTile_use (ctx : GetCtx) (b : Bool) (t : Tile) (ps : List (Tile × Bytes)) : renderTile { ctx with ignorePrepared := b } t ps = renderTile ctx t ps := by
  have hk : ∀ box z ss, readKept { ctx with ignorePrepared := b } box z ss = readKept ctx box z ss := by
    intro box z ss
    induction ss with
    | nil => rfl
    | cons s ss ih => rw [readKept, readKept, ih]
  have hread : ∀ s ps, readPacked { ctx with ignorePrepared := b } s ps = readPacked ctx s ps := by
    intro s ps
    induction ps with
    | nil => rfl
    | cons p ps ih => obtain ⟨t, p⟩ := p; rw [readPacked, readPacked, ih]; simp only [hk]
  rw [renderTile, renderTile]
  simp only [renderFeatures, hread, renderSeaside]

/-- beyond the prepared levels the server draws, too -/
theorem live_same {q : Tile} (hz : q.z ≤ 20) (h : ctx.maxPrepared < q.z) :
    getTile tiles features pf { ctx with ignorePrepared := true } q = getTile tiles features pf ctx q := by
  rw [C29_live _ _ _ _ _ hz (.inl rfl), C29_live _ _ _ _ _ hz (.inr h)]
  congr 1
  funext ps
  exact renderTile_use ctx true q ps

end

section
variable (base : GetCtx) (sample level : Nat → List Tile) (compress : Bool) (d : TileDb MetaTable) (features : List (UInt64 × Bytes))

/-- Any database: the program measures every tile it is asked for once, in the order of the option, provided that they can be drawn. -/
theorem C80_measures (args : List Nat) (groups : List (List Tile)) (single : Bool) (hplan : benchPlan sample level args = .ok (groups, single))
    (hz : ∀ g ∈ groups, ∀ q ∈ g, q.z ≤ 20) (ctx : GetCtx) (hctx : makeRenderCtx base (preparedString d.maxPrepared) d.info = .ok ctx)
    (h : ∀ g ∈ groups, ∀ q ∈ g, ∃ r, getTile d.tiles features d.pf.reopen (benchSettings ctx compress single) q = .ok r) :
    Measured (tilesBenchmark base sample level compress args d features) groups (answerSize d.tiles features d.pf.reopen (benchSettings ctx compress single)) := by
  rw [tilesBenchmark, hctx]
  dsimp only
  rw [hplan]
  exact groups_measured groups hz rfl h

/-- What is measured: without a number the sample of the levels 9, 11, 13, 15 and 17; with one the whole level; with three the tile x, y, z. -/
theorem C80_asked (ctx : GetCtx) (hctx : makeRenderCtx base (preparedString d.maxPrepared) d.info = .ok ctx)
    (h : ∀ q : Tile, q.Valid → q.z ≤ 20 → ∀ single, ∃ r, getTile d.tiles features d.pf.reopen (benchSettings ctx compress single) q = .ok r)
    (hs : ∀ z ≤ 20, ∀ q ∈ sample z, q.Valid ∧ q.z ≤ 20) (hl : ∀ z ≤ 20, ∀ q ∈ level z, q.Valid ∧ q.z ≤ 20) :
    Measured (tilesBenchmark base sample level compress [] d features) [sample 9, sample 11, sample 13, sample 15, sample 17]
      (answerSize d.tiles features d.pf.reopen (benchSettings ctx compress false)) ∧
    (∀ z ≤ 20, Measured (tilesBenchmark base sample level compress [z] d features) [level z] (answerSize d.tiles features d.pf.reopen (benchSettings ctx compress false))) ∧
    ∀ x y z, z ≤ 20 → x < 2 ^ z → y < 2 ^ z → Measured (tilesBenchmark base sample level compress [x, y, z] d features) [[⟨x, y, z⟩]]
      (answerSize d.tiles features d.pf.reopen (benchSettings ctx compress true)) := by
  have key : ∀ args groups single, benchPlan sample level args = .ok (groups, single) → (∀ g ∈ groups, ∀ q ∈ g, q.Valid ∧ q.z ≤ 20) →
      Measured (tilesBenchmark base sample level compress args d features) groups (answerSize d.tiles features d.pf.reopen (benchSettings ctx compress single)) :=
    fun args groups single hp hz => C80_measures base sample level compress d features args groups single hp (fun g hg q hq => (hz g hg q hq).2) ctx hctx fun g hg q hq => h q (hz g hg q hq).1 (hz g hg q hq).2 single
  refine ⟨key _ _ _ rfl ?_, fun z hz => key _ _ _ rfl ?_, fun x y z hz hx hy => key _ _ _ rfl ?_⟩
  · intro g hg q hq
    simp only [List.mem_cons, List.not_mem_nil, or_false] at hg
    rcases hg with rfl | rfl | rfl | rfl | rfl <;> exact hs _ (by decide) q hq
  · intro g hg q hq
    rw [List.mem_singleton.1 hg] at hq
    exact hl z hz q hq
  · intro g hg q hq
    rw [List.mem_singleton.1 hg, List.mem_singleton] at hq
    rw [hq]; exact ⟨⟨hx, hy⟩, hz⟩

/-- What cannot be asked for: two numbers or more than three, a level beyond 20, a tile of such a level.  Exit code 1, no report. -/
theorem C80_refuses (args : List Nat) (hbad : args.length = 2 ∨ 3 < args.length ∨ (∃ z, args = [z] ∧ 20 < z ∧ level z ≠ [] ∧ ∀ q ∈ level z, q.z = z) ∨ ∃ x y z, args = [x, y, z] ∧ 20 < z)
    (hopen : makeRenderCtx base (preparedString d.maxPrepared) d.info ≠ .ub) : tilesBenchmark base sample level compress args d features = ⟨.ok 1, []⟩ := by
  rw [tilesBenchmark]
  cases hctx : makeRenderCtx base (preparedString d.maxPrepared) d.info with
  | ub => exact absurd hctx hopen
  | throw_ => rfl
  | ok ctx =>
    dsimp only
    have hdeep : ∀ (c : GetCtx) (q : Tile), 20 < q.z → (getTileSeq d.tiles features d.pf.reopen c q).res = .throw_ := by
      intro c q hq
      rw [getTileSeq, Traced.res_bind]
      have : ¬ q.z ≤ kMaxZoomLevel := by simp only [kMaxZoomLevel]; omega
      rw [decide_eq_false this]
      rfl
    rcases hbad with h | h | ⟨z, rfl, hz, hne, hall⟩ | ⟨x, y, z, rfl, hz⟩
    · match args, h with
      | [_, _], _ => rfl
    · match args, h with
      | _ :: _ :: _ :: _ :: _, _ => rfl
    · dsimp only [benchPlan, benchGroups]
      cases hl : level z with
      | nil => exact absurd hl hne
      | cons q qs =>
        have hq := hall q (by rw [hl]; simp)
        have : (measureTiles (fun t => getTileSeq d.tiles features d.pf.reopen (benchSettings ctx compress false) t) (q :: qs)).res = .throw_ := by
          rw [measureTiles, Traced.res_bind, hdeep _ q (by omega)]; rfl
        rw [this]
    · dsimp only [benchPlan, benchGroups]
      have : (measureTiles (fun t => getTileSeq d.tiles features d.pf.reopen (benchSettings ctx compress true) t) [⟨x, y, z⟩]).res = .throw_ := by
        rw [measureTiles, Traced.res_bind, hdeep _ ⟨x, y, z⟩ hz]; rfl
      rw [this]

/-- A whole level beyond the prepared ones, compressed: the sizes are those of the server's answers. -/
theorem C80_level (z : Nat) (hz : z ≤ 20) (hlevel : ∀ q ∈ level z, q.z = z) (ctx : GetCtx) (hctx : makeRenderCtx base (preparedString d.maxPrepared) d.info = .ok ctx)
    (hmax : ctx.maxPrepared < z) (h : ∀ q ∈ level z, ∃ r, getTile d.tiles features d.pf.reopen ctx q = .ok r) :
    Measured (tilesBenchmark base sample level true [z] d features) [level z] (answerSize d.tiles features d.pf.reopen ctx) := by
  have hsame : ∀ q ∈ level z, getTile d.tiles features d.pf.reopen (benchSettings ctx true false) q = getTile d.tiles features d.pf.reopen ctx q := by
    intro q hq
    exact live_same (ctx := ctx) (by rw [hlevel q hq]; exact hz) (by rw [hlevel q hq]; exact hmax)
  have := C80_measures base sample level true d features [z] [level z] false rfl (by
    intro g hg q hq; rw [List.mem_singleton.1 hg] at hq; rw [hlevel q hq]; exact hz) ctx hctx (by
    intro g hg q hq; rw [List.mem_singleton.1 hg] at hq; rw [hsame q hq]; exact h q hq)
  exact this.congr_size (fun g hg q hq => by rw [List.mem_singleton.1 hg] at hq; rw [answerSize, answerSize, hsame q hq])

end

/-! ### after an import -/

/-- after a complete import (as in C54 and C62): every tile can be drawn with the settings of the program, and with those for a single tile the drawing at the prepared levels is
the server's answer -/
theorem bench_drawn {ι : Type} (env : ImportEnv ι) (coast osm : Bool) (hsrt : SortsByKey env.srt)
    (hm : ∀ l z, (env.rd (env.mkMask l) z).length = l.length) (hw : 0 < env.workers)
    (hin : ∀ fs i, env.loads coast osm fs i → (env.decOf i).length ≤ 2 ^ 64 ∧ (∀ x ∈ fs.flatten, Importable env.mkMask (env.decOf i) plainOf x) ∧ fs.flatten.length < 2 ^ 32)
    (runs : List (List String)) (hacts : changes runs = [.load coast osm, .pack, .tiles]) (a b : TileDb ι) (hr : Imports (importParts env) runs a b)
    (hsmall : SmallPacks b.features) (hsize : b.pf.reopen.size < 2 ^ 64) (features : List (UInt64 × Bytes)) (hdb : EntriesOf b.features features)
    (ctx : GetCtx) (hctx : ∃ m, env.ctxOf b.info = { ctx with maxPrepared := m }) (hrd : ctx.rd = env.rd) (hdec : ctx.dec = env.decOf b.info) (hc : Serving ctx 10)
    (e : Int) (he : 0 ≤ e) (he' : e ≤ 2 ^ 20) (inter : Box → List Line → List Line) (clipper : List Line → Box → Option (List PolyNode))
    (correct : List Polygon → List Polygon) (hl : ClipLib e inter clipper correct) (hclip : ctx.clip = clipGeometry inter clipper correct)
    (simplify : Nat → Line → Line) (hagg : ∀ z fs out, aggregateLineFeatures simplify z fs = .ok out → ctx.aggregate z fs = out) :
    ∃ fs, env.loads coast osm fs b.info ∧
      ((∀ x ∈ fs.flatten, x.feature.layer < ctx.layerNames.length) → 0 < ctx.layerNames.length → ∀ sea, SeaTree sea ctx.seaside →
        ∀ q : Tile, q.Valid → q.z ≤ 20 → (∀ x ∈ fs.flatten, Drawable (fun l => env.rd (env.mkMask l) q.z) x.feature) →
        (∀ compress single, (∀ gs i, (∀ g ∈ gs, (∃ t, g = seaSquare t) ∨ ∃ x ∈ fs.flatten, StoredAs (fun l => env.rd (env.mkMask l) q.z) x.feature g) →
          ∀ f ∈ candidates (benchSettings ctx compress single).toRenderCtx (specOf q) (ofLayer gs i), NoLongLine (benchSettings ctx compress single).toRenderCtx q f) →
          ∃ r, getTile b.tiles features b.pf.reopen (benchSettings ctx compress single) q = .ok r) ∧
        (q.z ≤ 10 → InArea (dbBounds (features.map (·.1))) q ∨ (∃ t ∈ sea, AncOrSelf t q) ∨ (∀ t ∈ sea, ¬ AncOrSelf q t) →
          ∀ r, getTile b.tiles features b.pf.reopen { drawing ctx 10 q with ignorePrepared := true } q = .ok r → getTile b.tiles features b.pf.reopen ctx q = .ok r)) := by
  have hready : Ready env coast osm { b with pf := b.pf.reopen } [] := by
    refine ready_imports env coast osm (rest := []) ?_ hr
    rw [hacts]; exact .start
  cases hready with
  | prepared h =>
  obtain ⟨h0, fs, entries, pf, s, h1, h2, h3, h4, h5, h6, h7, h8⟩ := h
  dsimp only at h0 h1 h2 h3 h4 h5 h7 h8
  have := entriesOf_unique h2 hdb
  subst this
  obtain ⟨i1, i2, i3⟩ := hin _ _ h1
  have himp := h3 hsmall
  obtain ⟨hsort, hk⟩ := imported_keys env.crc env.srt env.mkMask env.rd (env.decOf b.info) env.upper env.lower fs plainOf i2 i3 entries pf himp
  have hrender : prepRender entries pf (env.ctxOf b.info) = prepRender entries b.pf.reopen ctx := by
    funext t
    obtain ⟨m, hctx⟩ := hctx
    rw [prepRender, prepRender, packsOf_congr h4 (imported_readable i2 i3 himp) t, hctx]
    congr 1
    funext ps
    exact renderTile_prepared { ctx with ignoreSeaside := true, aggLines := true, aggPolygons := true } m t ps
  rw [hrender] at h5
  rw [h7]
  refine ⟨fs, h1, fun hlay hpos sea hsea q hv hz hdraw => ⟨fun compress single hshort => ?_, fun hz' hwhere r hlive => ?_⟩⟩
  · obtain ⟨ps, gs, k1, k2, k3, _⟩ := C52_read env.crc env.srt env.mkMask env.rd (env.decOf b.info) env.upper env.lower fs plainOf hsrt i1 hm i2 i3 entries b.pf.reopen
      (imported_keeps himp h4 hsize) (benchSettings ctx compress single) hrd hdec q hv hz
    obtain ⟨leafs, k5, _, k8, _⟩ := hsea.leafs hv hz
    have hren : ∀ g ∈ leafs.map seaSquare ++ gs, Renderable g := by
      intro g hg
      rcases List.mem_append.1 hg with hg | hg
      · obtain ⟨t, ht, rfl⟩ := List.mem_map.1 hg
        exact sea_renderable (k8 t ht).1 (k8 t ht).2
      · obtain ⟨f, m1, _, _, m2⟩ := k3 g hg
        exact stored_renderable (i2 f m1).toPackable.toFeatureOk (hdraw f m1) m2
    have hok : ∀ j, LayerOk (benchSettings ctx compress single).toRenderCtx (specOf q) (ofLayer (leafs.map seaSquare ++ gs) j) := fun j =>
      (C62_layer hl he he' (benchSettings ctx compress single).toRenderCtx hclip q hz (hagg q.z) _ (fun g hg => hren g (List.mem_filter.1 hg).1) (hshort _ j (by
        intro g hg
        rcases List.mem_append.1 hg with hg | hg
        · obtain ⟨t, _, rfl⟩ := List.mem_map.1 hg
          exact .inl ⟨t, rfl⟩
        · obtain ⟨f, m1, _, _, m2⟩ := k3 g hg
          exact .inr ⟨f, m1, m2⟩))).1
    obtain ⟨_, k7⟩ := C29_render (benchSettings ctx compress single) hc.label q hv hz sea hsea ps gs k2 leafs k5 (by
      intro f hf
      rcases List.mem_append.1 hf with hf | hf
      · obtain ⟨t, _, rfl⟩ := List.mem_map.1 hf
        exact hpos
      · obtain ⟨f', hf', _, _, ms, _, rfl⟩ := k3 f hf
        exact hlay f' hf') hok
    obtain ⟨bytes, k9, _⟩ := k7 (by
      intro hcon
      have h1 := hcon.1
      change ctx.ignoreSeaside = true at h1
      rw [hc.sea] at h1
      cases h1)
    rw [C29_live _ _ _ _ _ hz (.inl rfl), k1, Res.ok_bind]
    exact ⟨_, k9⟩
  · exact C29_prepared_equals_live entries hsort b.pf.reopen ctx hk 10 env.workers (by omega) hw none s h5 h6 hc sea hsea q hv hz' hwhere r hlive


section
variable {S : OsmSetting} {t : Tables} {e : Int} {g : ℝ} {data : List Datum}

/-- no line that the program draws of a tile has 2^29 points (as `ShortLines`, with the settings of the program) -/
def Spec.OsmSetting.BenchShort (S : OsmSetting) (data : List Datum) (ctx : GetCtx) (q : Tile) (compress single : Bool) : Prop :=
  ∀ fs m, OsmLoads S.prof S.profile S.numeral data fs m → ∀ gs i, (∀ x ∈ gs, (∃ t, x = seaSquare t) ∨ ∃ f ∈ fs.flatten, StoredAs (fun l => S.rd (S.mkMask l) q.z) f x) →
    ∀ f ∈ candidates (benchSettings ctx compress single).toRenderCtx (specOf q) (ofLayer gs i), NoLongLine (benchSettings ctx compress single).toRenderCtx q f

theorem bench_osm (hS : S.Ok t e g) (hD : S.Fits data) (runs : List (List String)) (hacts : changes runs = [.load false true, .pack, .tiles]) (a b : TileDb MetaTable)
    (hr : Imports (importParts (S.env data)) runs a b) (hsmall : SmallPacks b.features) (hsize : b.pf.reopen.size < 2 ^ 64) (features : List (UInt64 × Bytes))
    (hdb : EntriesOf b.features features) (ctx : GetCtx) (hctx : makeRenderCtx S.base (preparedString b.maxPrepared) b.info = .ok ctx)
    (q : Tile) (hv : q.Valid) (hz : q.z ≤ 20) :
    (∀ compress single, S.BenchShort data ctx q compress single → ∃ r, getTile b.tiles features b.pf.reopen (benchSettings ctx compress single) q = .ok r) ∧
    (q.z ≤ 10 → ∀ r, getTile b.tiles features b.pf.reopen (benchSettings ctx true true) q = .ok r → getTile b.tiles features b.pf.reopen ctx q = .ok r) ∧ ctx.maxPrepared = 10 := by
  obtain ⟨inter, clipper, correct, hlib, hclip⟩ := hS.clip
  obtain ⟨simplify, hagg⟩ := hS.joins
  obtain ⟨g1, g2, g3⟩ := hS.error
  have hin := osm_in hS hD
  obtain ⟨hmax, _, _, _, fs0, _, hload0⟩ := imports_loaded (S.env data) false true hS.work (fun fs m h => (hin fs m h).2) runs hacts a b hr hsmall
  obtain ⟨names0, tbl0, hl0⟩ := osm_loaded hS.shipped hS.numerals hD.toGoodData hload0
  obtain ⟨b1, b2, h3, h4, h5⟩ := hl0.table
  rw [hmax, h3] at hctx
  rw [ctx_of (by norm_num) h4 h5] at hctx
  injection hctx with hctx
  have hctxOf : (S.env data).ctxOf b.info = { ctx with maxPrepared := -1 } := by
    show (match makeRenderCtx S.base none b.info with | .ok c => c | _ => S.base) = _
    rw [h3, ← hctx, ctx_first h4 h5]
  have hdec0 : (S.env data).decOf b.info = tbl0 := (osm_importable hS hD hload0 hl0).1
  obtain ⟨_, ⟨_, _, fs, rfl, hload⟩, hserve⟩ := bench_drawn (S.env data) false true hS.sorts hS.masks hS.work hin runs hacts a b hr hsmall hsize features hdb
    ctx ⟨-1, hctxOf⟩ (by rw [← hctx]; exact hS.reads) (by rw [hdec0, ← hctx]) ⟨by rw [← hctx], by rw [← hctx], by rw [← hctx], by rw [← hctx]⟩
    e g1 g2 inter clipper correct hlib (by rw [← hctx]; exact hclip) simplify (by intro z fs out h; rw [← hctx]; exact hagg z fs out h)
  obtain ⟨names, tbl, hl⟩ := osm_loaded hS.shipped hS.numerals hD.toGoodData hload
  obtain ⟨_, _, _, himp⟩ := osm_importable hS hD hload hl
  have hnames : ctx.layerNames = names := by
    obtain ⟨b1', b2', k1, k2, k3⟩ := hl.table
    rw [h3] at k1
    injection k1 with _ k1 _
    rw [← k1, h4] at k2
    injection k2 with k2
    rw [← hctx]
    exact k2
  obtain ⟨m1, m2⟩ := hserve (fun x hx => by obtain ⟨f, hf, rfl⟩ := mem_whole.1 hx; rw [hnames]; exact (himp f hf).2.1) (by rw [hnames]; exact hl.few.1) []
    ⟨by rw [← hctx]; rfl, by rw [← hctx]; simp, by simp⟩ q hv hz (fun x hx => by obtain ⟨f, hf, rfl⟩ := mem_whole.1 hx; exact (himp f hf).2.2 q.z hz)
  refine ⟨fun compress single hshort => m1 compress single (fun gs i h => hshort fs b.info hload gs i (fun y hy => (h y hy).imp_right (by
    rintro ⟨x, hx, hs⟩; obtain ⟨f, hf, rfl⟩ := mem_whole.1 hx; exact ⟨f, hf, hs⟩))), fun hz' r hlive => m2 hz' (.inr (.inr (by simp))) r ?_, by rw [← hctx]; rfl⟩
  rw [drawing, if_pos hz']
  rw [← hctx] at hlive ⊢
  exact hlive

/-- After an import with a shipped profile the program never fails: whatever option is given (a level up to 20, a tile, none), it ends with exit code 0 and reports each tile once. -/
theorem C80_imported (hS : S.Ok t e g) (hD : S.Fits data) (runs : List (List String)) (hacts : changes runs = [.load false true, .pack, .tiles]) (a b : TileDb MetaTable)
    (hr : Imports (importParts (S.env data)) runs a b) (hsmall : SmallPacks b.features) (hsize : b.pf.reopen.size < 2 ^ 64) (features : List (UInt64 × Bytes))
    (hdb : EntriesOf b.features features) (ctx : GetCtx) (hctx : makeRenderCtx S.base (preparedString b.maxPrepared) b.info = .ok ctx)
    (sample level : Nat → List Tile) (compress : Bool) (args : List Nat) (groups : List (List Tile)) (single : Bool) (hplan : benchPlan sample level args = .ok (groups, single))
    (hq : ∀ ts ∈ groups, ∀ q ∈ ts, q.Valid ∧ q.z ≤ 20 ∧ S.BenchShort data ctx q compress single) :
    Measured (tilesBenchmark S.base sample level compress args b features) groups (answerSize b.tiles features b.pf.reopen (benchSettings ctx compress single)) :=
  C80_measures S.base sample level compress b features args groups single hplan (fun g hg q h => (hq g hg q h).2.1) ctx hctx (fun g hg q h =>
    (bench_osm hS hD runs hacts a b hr hsmall hsize features hdb ctx hctx q (hq g hg q h).1 (hq g hg q h).2.1).1 compress single (hq g hg q h).2.2)

/-- A single tile of the prepared levels, compressed: although the program draws it anew, the size it reports is that of the server's answer. -/
theorem C80_tile (hS : S.Ok t e g) (hD : S.Fits data) (runs : List (List String)) (hacts : changes runs = [.load false true, .pack, .tiles]) (a b : TileDb MetaTable)
    (hr : Imports (importParts (S.env data)) runs a b) (hsmall : SmallPacks b.features) (hsize : b.pf.reopen.size < 2 ^ 64) (features : List (UInt64 × Bytes))
    (hdb : EntriesOf b.features features) (ctx : GetCtx) (hctx : makeRenderCtx S.base (preparedString b.maxPrepared) b.info = .ok ctx)
    (sample level : Nat → List Tile) (q : Tile) (hv : q.Valid) (hz : q.z ≤ 10) (hshort : S.BenchShort data ctx q true true) :
    Measured (tilesBenchmark S.base sample level true [q.x, q.y, q.z] b features) [[q]] (answerSize b.tiles features b.pf.reopen ctx) := by
  obtain ⟨h1, h2, _⟩ := bench_osm hS hD runs hacts a b hr hsmall hsize features hdb ctx hctx q hv (by omega)
  have := C80_imported hS hD runs hacts a b hr hsmall hsize features hdb ctx hctx sample level true [q.x, q.y, q.z] [[q]] true rfl (by
    intro g hg x hx
    rw [List.mem_singleton.1 hg] at hx
    rw [List.mem_singleton.1 hx]
    exact ⟨hv, by omega, hshort⟩)
  refine this.congr_size fun g hg x hx => ?_
  rw [List.mem_singleton.1 hg] at hx
  rw [List.mem_singleton.1 hx]
  obtain ⟨r, hr⟩ := h1 true true hshort
  rw [answerSize, answerSize, hr, h2 hz r hr]

/-- A whole level beyond the prepared ones, compressed: 4^z tiles, with the sizes of the server's answers. -/
theorem C80_level_imported (hS : S.Ok t e g) (hD : S.Fits data) (runs : List (List String)) (hacts : changes runs = [.load false true, .pack, .tiles]) (a b : TileDb MetaTable)
    (hr : Imports (importParts (S.env data)) runs a b) (hsmall : SmallPacks b.features) (hsize : b.pf.reopen.size < 2 ^ 64) (features : List (UInt64 × Bytes))
    (hdb : EntriesOf b.features features) (ctx : GetCtx) (hctx : makeRenderCtx S.base (preparedString b.maxPrepared) b.info = .ok ctx)
    (sample level : Nat → List Tile) (z : Nat) (hz : 10 < z) (hz' : z ≤ 20) (hlevel : WholeLevel (level z) z)
    (hshort : ∀ q : Tile, q.Valid → q.z = z → S.BenchShort data ctx q true false) :
    (level z).length = 4 ^ z ∧ Measured (tilesBenchmark S.base sample level true [z] b features) [level z] (answerSize b.tiles features b.pf.reopen ctx) := by
  refine ⟨?_, C80_level S.base sample level b features z hz' (fun q hq => ((hlevel.all q).1 hq).2) ctx hctx ?_ (fun q hq => ?_)⟩
  · have hp : (level z).Perm (geoTileRange 0 0 (2 ^ z - 1) (2 ^ z - 1) z) := by
      rw [List.perm_ext_iff_of_nodup hlevel.once (nodup_geoTileRange ..)]
      intro q
      have : 0 < 2 ^ z := by positivity
      rw [hlevel.all, mem_geoTileRange]
      constructor
      · rintro ⟨h1, rfl⟩
        obtain ⟨k1, k2⟩ := h1
        refine ⟨?_, ?_, ?_, ?_, ?_⟩ <;> omega
      · rintro ⟨h1, h2, h3, h4, h5⟩
        exact ⟨⟨by rw [h1]; omega, by rw [h1]; omega⟩, h1⟩
    rw [hp.length_eq, geoTileRange_length]
    have : 0 < 2 ^ z := by positivity
    rw [show 2 ^ z - 1 + 1 - 0 = 2 ^ z by omega, ← pow_add, ← two_mul, pow_mul]
    norm_num
  · have : (⟨0, 0, 0⟩ : Tile).Valid := by constructor <;> decide
    rw [(bench_osm hS hD runs hacts a b hr hsmall hsize features hdb ctx hctx ⟨0, 0, 0⟩ this (by decide)).2.2]
    omega
  · obtain ⟨h1, rfl⟩ := (hlevel.all q).1 hq
    obtain ⟨h2, _, h3⟩ := bench_osm hS hD runs hacts a b hr hsmall hsize features hdb ctx hctx q h1 hz'
    rw [← live_same hz' (by rw [h3]; omega)]
    exact h2 true false (hshort q h1 rfl)

end

/-- The program leaves the files as they are: tables and prepared tiles are the same, and every pack that could be read is read as before. -/
theorem C80_files (d : TileDb MetaTable) (r : PackRecord) (x : Bytes) (h : d.pf.reopen.get r = .ok x) :
    (benchFiles d).features = d.features ∧ (benchFiles d).tiles = d.tiles ∧ (benchFiles d).info = d.info ∧ (benchFiles d).maxPrepared = d.maxPrepared ∧
    (benchFiles d).pf.reopen.get r = .ok x :=
  ⟨rfl, rfl, rfl, rfl, (keeps_close (a := d.pf.reopen) (PackFile.trimmedLength_le d.pf.data)).2 r x h⟩

end Tiles
