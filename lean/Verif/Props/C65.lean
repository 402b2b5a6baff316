import Verif.Model.GetTileSeq
import Verif.Proof.GetTile
import Verif.Props.C54
import Verif.Spec.Area
import Verif.Spec.Perf
/-!
C65: measuring.  `get_tile` takes a counter that measures what it does; the answer does not depend on it, and the counter's numbers mean what their names say.

The model of the other properties (Model/GetTile) has the steps of a request one after the other (first all packs, then all features); here they are interleaved as in
the code, with the calls on the counter.
-/
namespace Tiles
open Spec PerfTask PerfOp Traced

namespace Traced
variable {α β : Type}

theorem res_bind (x : Traced α) (f : α → Traced β) : (x >>= f).res = x.res >>= fun a => (f a).res := by
  show (Traced.bind x f).res = _
  rw [Traced.bind]
  cases x.res <;> rfl

theorem res_pure (a : α) : (pure a : Traced α).res = .ok a := rfl
theorem res_lift (r : Res α) : (lift r).res = r := rfl
theorem res_tick (l : List PerfOp) : (tick l).res = .ok () := rfl
theorem res_inScope (t : PerfTask) (x : Traced α) : (inScope t x).res = x.res := rfl

theorem ops_bind_ok {x : Traced α} {a : α} (h : x.res = .ok a) (f : α → Traced β) : (x >>= f).ops = x.ops ++ (f a).ops := by
  show (Traced.bind x f).ops = _
  rw [Traced.bind, h]

theorem ops_bind_fail {x : Traced α} (h : ∀ a, x.res ≠ .ok a) (f : α → Traced β) : (x >>= f).ops = x.ops := by
  show (Traced.bind x f).ops = _
  rw [Traced.bind]
  cases e : x.res with
  | ok a => exact absurd e (h a)
  | throw_ => rfl
  | ub => rfl

end Traced

theorem seasideSeq_res (ctx : GetCtx) (s : TileSpec) (ts : List Tile) (bs r : Builders) :
    (seasideSeq ctx s bs ts).res = .ok r ↔ ∃ fs, seasideFeatures ts = .ok fs ∧ tileAddAll ctx.toRenderCtx s bs fs = .ok r := by
  induction ts generalizing bs with
  | nil => simp [seasideSeq, seasideFeatures, res_pure, tileAddAll]
  | cons t ts ih =>
    simp only [seasideSeq, seasideFeatures, res_bind, res_lift, res_tick, Res.bind_eq_ok, Res.pure_eq, Res.ok.injEq, ih]
    constructor
    · rintro ⟨f, h1, _, _, bs', h2, _, _, fs, h3, h4⟩
      exact ⟨_, ⟨f, h1, fs, h3, rfl⟩, by rw [tileAddAll, h2, Res.ok_bind, h4]⟩
    · rintro ⟨_, ⟨f, h1, fs, h2, rfl⟩, h3⟩
      rw [tileAddAll] at h3
      obtain ⟨bs', h4, h5⟩ := Res.bind_eq_ok.1 h3
      exact ⟨f, h1, (), trivial, bs', h4, (), trivial, fs, h2, h5⟩

theorem renderSeasideSeq_res (ctx : GetCtx) (s : TileSpec) (bs r : Builders) :
    (renderSeasideSeq ctx s bs).res = .ok r ↔ renderSeaside ctx s bs = .ok r := by
  simp only [renderSeasideSeq, renderSeaside, res_bind, res_lift, res_tick, Res.bind_eq_ok, seasideSeq_res]
  simp

theorem featuresSeq_res (ctx : GetCtx) (s : TileSpec) (strs : List Bytes) (bs : Builders) (n : Nat) (r : Builders) (m : Nat) :
    (featuresSeq ctx s bs n strs).res = .ok (r, m) ↔
      ∃ fs, readKept ctx s.draw s.tile.z strs = .ok fs ∧ tileAddAll ctx.toRenderCtx s bs fs = .ok r ∧ m = n + fs.length := by
  induction strs generalizing bs n with
  | nil => simp [featuresSeq, readKept, res_pure, tileAddAll, eq_comm]
  | cons str strs ih =>
    simp only [featuresSeq, readKept, res_bind, res_lift, res_tick, Res.bind_eq_ok, Res.pure_eq, Res.ok.injEq]
    constructor
    · rintro ⟨_, _, f, h1, h2⟩
      cases f with
      | none =>
        simp only [res_bind, res_lift, res_tick, Res.bind_eq_ok, ih] at h2
        obtain ⟨_, _, fs, h3, h4⟩ := h2
        exact ⟨fs, ⟨none, h1, fs, h3, rfl⟩, h4⟩
      | some f =>
        simp only [res_bind, res_lift, res_tick, Res.bind_eq_ok, ih] at h2
        obtain ⟨_, _, bs', h2, _, _, fs, h3, h4, h5⟩ := h2
        refine ⟨f :: fs, ⟨some f, h1, fs, h3, rfl⟩, by rw [tileAddAll, h2, Res.ok_bind, h4], by rw [h5, List.length_cons]; omega⟩
    · rintro ⟨_, ⟨f, h1, fs, h2, rfl⟩, h3, h4⟩
      refine ⟨(), trivial, f, h1, ?_⟩
      cases f with
      | none =>
        simp only [res_bind, res_lift, res_tick, Res.bind_eq_ok, ih]
        exact ⟨(), trivial, fs, h2, h3, h4⟩
      | some f =>
        simp only [res_bind, res_lift, res_tick, Res.bind_eq_ok, ih]
        change tileAddAll _ _ _ (f :: fs) = _ at h3
        rw [tileAddAll] at h3
        obtain ⟨bs', h5, h6⟩ := Res.bind_eq_ok.1 h3
        refine ⟨(), trivial, bs', h5, (), trivial, fs, h2, h6, ?_⟩
        rw [h4]; simp; omega

theorem packSeq_res (ctx : GetCtx) (s : TileSpec) (bs : Builders) (n : Nat) (t : Tile) (pack : Bytes) (r : Builders) (m : Nat) :
    (packSeq ctx s bs n t pack).res = .ok (r, m) ↔
      ∃ ss fs, unpackTile t pack s.tile = .ok ss ∧ readKept ctx s.draw s.tile.z ss = .ok fs ∧ tileAddAll ctx.toRenderCtx s bs fs = .ok r ∧ m = n + fs.length := by
  simp only [packSeq, res_bind, res_lift, res_tick, res_pure, Res.bind_eq_ok, Res.ok.injEq]
  constructor
  · rintro ⟨_, _, ss, h1, _, h2, _, _, rfl⟩
    rw [featuresSeq_res] at h2
    obtain ⟨fs, h2⟩ := h2
    exact ⟨ss, fs, h1, h2⟩
  · rintro ⟨ss, fs, h1, h2⟩
    exact ⟨(), trivial, ss, h1, (r, m), (featuresSeq_res ..).2 ⟨fs, h2⟩, (), trivial, rfl⟩

theorem readPacked_append (ctx : GetCtx) (s : TileSpec) (ps qs : List (Tile × Bytes)) (r : List Feature) :
    readPacked ctx s (ps ++ qs) = .ok r ↔ ∃ fs gs, readPacked ctx s ps = .ok fs ∧ readPacked ctx s qs = .ok gs ∧ r = fs ++ gs := by
  induction ps generalizing r with
  | nil => simp [readPacked]
  | cons p ps ih =>
    obtain ⟨t, p⟩ := p
    simp only [List.cons_append, readPacked, Res.bind_eq_ok, ih, Res.pure_eq, Res.ok.injEq]
    constructor
    · rintro ⟨ss, h1, fs, h2, _, ⟨gs, hs, h3, h4, rfl⟩, rfl⟩
      exact ⟨_, hs, ⟨ss, h1, fs, h2, gs, h3, rfl⟩, h4, by rw [List.append_assoc]⟩
    · rintro ⟨_, hs, ⟨ss, h1, fs, h2, gs, h3, rfl⟩, h4, rfl⟩
      exact ⟨ss, h1, fs, h2, _, ⟨gs, hs, h3, h4, rfl⟩, by rw [List.append_assoc]⟩

theorem tileAddAll_append_ok (ctx : RenderCtx) (s : TileSpec) (bs r : Builders) (fs gs : List Feature) :
    tileAddAll ctx s bs (fs ++ gs) = .ok r ↔ ∃ bs', tileAddAll ctx s bs fs = .ok bs' ∧ tileAddAll ctx s bs' gs = .ok r := by
  rw [tileAddAll_append, Res.bind_eq_ok]

theorem recordsSeq_res (pf : PackFile) (ctx : GetCtx) (s : TileSpec) (t : Tile) (rs : List PackRecord) (bs : Builders) (n : Nat) (r : Builders) (m : Nat) :
    (recordsSeq pf ctx s t bs n rs).res = .ok (r, m) ↔
      ∃ ps fs, fetchRecords pf t rs = .ok ps ∧ readPacked ctx s ps = .ok fs ∧ tileAddAll ctx.toRenderCtx s bs fs = .ok r ∧ m = n + fs.length := by
  induction rs generalizing bs n with
  | nil => simp [recordsSeq, fetchRecords, readPacked, res_pure, tileAddAll, eq_comm]
  | cons a rs ih =>
    simp only [recordsSeq, fetchRecords, res_bind, res_lift, Res.bind_eq_ok, Res.pure_eq, Res.ok.injEq]
    constructor
    · rintro ⟨p, h1, ⟨bs', n'⟩, h2, h3⟩
      rw [packSeq_res] at h2
      rw [ih] at h3
      obtain ⟨ss, fs, h4, h5, h6, rfl⟩ := h2
      obtain ⟨ps, gs, h7, h8, h9, rfl⟩ := h3
      refine ⟨_, fs ++ gs, ⟨p, h1, ps, h7, rfl⟩, ?_, ?_, by rw [List.length_append]; omega⟩
      · rw [readPacked, h4, Res.ok_bind, h5, Res.ok_bind, h8]; rfl
      · rw [tileAddAll_append_ok]; exact ⟨bs', h6, h9⟩
    · rintro ⟨_, fs, ⟨p, h1, ps, h2, rfl⟩, h3, h4, rfl⟩
      simp only [readPacked, Res.bind_eq_ok, Res.pure_eq, Res.ok.injEq] at h3
      obtain ⟨ss, h5, fs, h6, gs, h7, rfl⟩ := h3
      rw [tileAddAll_append_ok] at h4
      obtain ⟨bs', h8, h9⟩ := h4
      refine ⟨p, h1, (bs', n + fs.length), (packSeq_res ..).2 ⟨ss, fs, h5, h6, h8, rfl⟩, (ih ..).2 ⟨ps, gs, h2, h7, h9, ?_⟩⟩
      rw [List.length_append]; omega

theorem valuesSeq_res (pf : PackFile) (ctx : GetCtx) (s : TileSpec) (es : List (Tile × Bytes)) (bs : Builders) (n : Nat) (r : Builders) (m : Nat) :
    (valuesSeq pf ctx s bs n es).res = .ok (r, m) ↔
      ∃ ps fs, fetchValues pf es = .ok ps ∧ readPacked ctx s ps = .ok fs ∧ tileAddAll ctx.toRenderCtx s bs fs = .ok r ∧ m = n + fs.length := by
  induction es generalizing bs n with
  | nil => simp [valuesSeq, fetchValues, readPacked, res_pure, tileAddAll, eq_comm]
  | cons e es ih =>
    obtain ⟨t, v⟩ := e
    simp only [valuesSeq, fetchValues, res_bind, res_lift, Res.bind_eq_ok, Res.pure_eq, Res.ok.injEq]
    constructor
    · rintro ⟨rs, h1, ⟨bs', n'⟩, h2, h3⟩
      rw [recordsSeq_res] at h2
      rw [ih] at h3
      obtain ⟨ps, fs, h4, h5, h6, rfl⟩ := h2
      obtain ⟨qs, gs, h7, h8, h9, rfl⟩ := h3
      refine ⟨_, fs ++ gs, ⟨rs, h1, ps, h4, qs, h7, rfl⟩, (readPacked_append ..).2 ⟨fs, gs, h5, h8, rfl⟩, ?_, by rw [List.length_append]; omega⟩
      rw [tileAddAll_append_ok]; exact ⟨bs', h6, h9⟩
    · rintro ⟨_, _, ⟨rs, h1, ps, h2, qs, h3, rfl⟩, h4, h5, rfl⟩
      obtain ⟨fs, gs, h6, h7, rfl⟩ := (readPacked_append ..).1 h4
      rw [tileAddAll_append_ok] at h5
      obtain ⟨bs', h8, h9⟩ := h5
      refine ⟨rs, h1, (bs', n + fs.length), (recordsSeq_res ..).2 ⟨ps, fs, h2, h6, h8, rfl⟩, (ih ..).2 ⟨qs, gs, h3, h7, h9, ?_⟩⟩
      rw [List.length_append]; omega

theorem finishSeq_res (ctx : GetCtx) (tile : Tile) (s : TileSpec) (bs : Builders) (n : Nat) :
    (finishSeq ctx tile s bs n).res =
      ((if ctx.ignoreSeaside then bqContains ctx.seaside tile else .ok false) >>= fun full =>
        if full = true ∧ n = 0 then (return none) else do
          let bytes ← tileFinish ctx.toRenderCtx s bs (ctx.label.map (· tile))
          if bytes = [] then return none
          else match ctx.deflate with
            | some z => return some (z bytes)
            | none => return some bytes : Res (Option Bytes)) := by
  rw [finishSeq, res_bind, res_lift]
  congr 1
  funext full
  split
  · rfl
  · simp only [res_bind, res_lift, res_tick, Res.ok_bind]
    congr 1
    funext bytes
    split
    · rfl
    · cases ctx.deflate <;> rfl

theorem renderTileSeq_res (ctx : GetCtx) (tile : Tile) (packs : TileSpec → Builders → Traced (Builders × Nat)) (P : List (Tile × Bytes) → Prop)
    (hp : ∀ s bs r m, s.tile = tile → ((packs s bs).res = .ok (r, m) ↔ ∃ ps, P ps ∧ renderFeatures ctx s bs ps = .ok (r, m))) (b : Option Bytes) :
    (renderTileSeq ctx tile packs).res = .ok b ↔ ∃ ps, P ps ∧ renderTile ctx tile ps = .ok b := by
  have ht : ∀ s, tileSpec tile = .ok s → s.tile = tile := by
    intro s h
    simp only [tileSpec, Res.bind_eq_ok, Res.pure_eq, Res.ok.injEq] at h
    obtain ⟨_, _, _, _, h⟩ := h
    rw [← h]
  rw [renderTileSeq]
  simp only [res_bind, res_tick, Res.ok_bind, res_lift, Res.bind_eq_ok, renderSeasideSeq_res, Prod.exists]
  constructor
  · rintro ⟨s, h1, bs, h2, bs', n, h3, h5⟩
    rw [hp _ _ _ _ (ht s h1)] at h3
    obtain ⟨ps, h3, h4⟩ := h3
    refine ⟨ps, h3, ?_⟩
    rw [renderTile, h1, Res.ok_bind, h2, Res.ok_bind, h4, Res.ok_bind]
    rw [finishSeq_res] at h5
    dsimp only
    split at h5 <;> split <;> first | exact h5 | contradiction
  · rintro ⟨ps, h1, h2⟩
    rw [renderTile] at h2
    obtain ⟨s, h3, h2⟩ := Res.bind_eq_ok.1 h2
    obtain ⟨bs, h4, h2⟩ := Res.bind_eq_ok.1 h2
    obtain ⟨⟨bs', n⟩, h5, h2⟩ := Res.bind_eq_ok.1 h2
    refine ⟨s, h3, bs, h4, bs', n, (hp _ _ _ _ (ht s h3)).2 ⟨ps, h1, h5⟩, ?_⟩
    rw [finishSeq_res]
    dsimp only at h2
    split at h2 <;> split <;> first | exact h2 | contradiction

theorem renderFeatures_ok (ctx : GetCtx) (s : TileSpec) (bs : Builders) (ps : List (Tile × Bytes)) (r : Builders) (m : Nat) :
    renderFeatures ctx s bs ps = .ok (r, m) ↔ ∃ fs, readPacked ctx s ps = .ok fs ∧ tileAddAll ctx.toRenderCtx s bs fs = .ok r ∧ m = fs.length := by
  simp only [renderFeatures, Res.bind_eq_ok, Res.pure_eq, Res.ok.injEq, Prod.mk.injEq]
  constructor
  · rintro ⟨fs, h1, bs', h2, rfl, rfl⟩
    exact ⟨fs, h1, h2, rfl⟩
  · rintro ⟨fs, h1, h2, rfl⟩
    exact ⟨fs, h1, r, h2, rfl, rfl⟩

/-- Measuring does not change answers, and neither does the order of the steps: a request that is measured and works through one pack after the other answers `b` exactly if
the request does, in the model of the other properties, where all packs are fetched before the first is read. -/
theorem C65_same (c : TileCall) (b : Option Bytes) : c.run.res = .ok b ↔ getTile c.tiles c.features c.pf c.ctx c.tile = .ok b := by
  rw [TileCall.run, getTileSeq, getTile, res_bind, res_lift, Res.bind_eq_ok, Res.bind_eq_ok]
  refine exists_congr fun _ => and_congr_right fun _ => ?_
  rw [res_inScope, getTileBody]
  split
  · simp only [res_bind, res_tick, res_lift, Res.ok_bind, Res.bind_eq_ok]
    refine exists_congr fun k => and_congr_right fun _ => ?_
    cases c.tiles k with
    | some t => rfl
    | none =>
      simp only [res_bind, res_lift, Res.bind_eq_ok]
      refine exists_congr fun c' => and_congr_right fun _ => ?_
      split
      · rw [renderTileSeq_res c.ctx c.tile _ (fun ps => ps = [])]
        · simp
        · intro s bs r m _
          simp [res_pure, renderFeatures_ok, readPacked, tileAddAll, eq_comm]
      · rfl
  · rw [renderTileSeq_res c.ctx c.tile _ (fun ps => packsOf c.features c.pf c.tile = .ok ps), Res.bind_eq_ok]
    intro s bs r m _
    simp only [res_bind, res_lift, Res.bind_eq_ok, valuesSeq_res, renderFeatures_ok, packsOf, Nat.zero_add]
    constructor
    · rintro ⟨es, h1, ps, fs, h2, h3⟩
      exact ⟨ps, ⟨es, h1, h2⟩, fs, h3⟩
    · rintro ⟨ps, ⟨es, h1, h2⟩, fs, h3⟩
      exact ⟨es, h1, ps, fs, h2, h3⟩

/-! ### What the counter records -/

/-- how many values a sequence of calls adds for a task (`r`: the task is running before) -/
def perfCount (t : PerfTask) : Bool → List PerfOp → Nat
  | _, [] => 0
  | r, .start u :: l => perfCount t (if u = t then true else r) l
  | r, .stop u :: l => if u = t then (if r then 1 else 0) + perfCount t false l else perfCount t r l
  | r, .append u _ :: l => (if u = t then 1 else 0) + perfCount t r l

theorem perfCount_append (t : PerfTask) (l m : List PerfOp) (r : Bool) : ∃ r', perfCount t r (l ++ m) = perfCount t r l + perfCount t r' m := by
  induction l generalizing r with
  | nil => exact ⟨r, by simp [perfCount]⟩
  | cons o l ih =>
    cases o with
    | start u => exact ih _
    | stop u =>
      rw [List.cons_append, perfCount, perfCount]
      split
      · obtain ⟨r', h⟩ := ih false
        exact ⟨r', by rw [h, Nat.add_assoc]⟩
      · exact ih _
    | append u v =>
      obtain ⟨r', h⟩ := ih r
      exact ⟨r', by rw [List.cons_append, perfCount, perfCount, h, Nat.add_assoc]⟩

theorem perfRun_count (t : PerfTask) (l : List (Int × PerfOp)) (p : Perf) :
    ((perfRun p l).finished t).length = (p.finished t).length + perfCount t (p.running t).isSome (l.map Prod.snd) := by
  induction l generalizing p with
  | nil => rfl
  | cons o l ih =>
    obtain ⟨now, o⟩ := o
    rw [perfRun, ih, List.map_cons]
    cases o with
    | start u =>
      simp only [perfStep, perfCount]
      congr 2
      by_cases h : u = t
      · simp [h]
      · simp [h, Ne.symm h]
    | stop u =>
      simp only [perfStep, perfCount]
      by_cases h : u = t
      · subst h
        cases hr : p.running u with
        | none => simp [hr]
        | some s => simp; omega
      · cases hr : p.running u with
        | none => simp [h]
        | some s => simp [h, Ne.symm h]
    | append u v =>
      simp only [perfStep, perfCount]
      by_cases h : u = t
      · subst h; simp; omega
      · simp [h, Ne.symm h]

/-- a piece of code adds this many values for the task, whatever was running before -/
def Adds (t : PerfTask) (l : List PerfOp) (n : Nat) : Prop := ∀ r, perfCount t r l = n

theorem Adds.append {t : PerfTask} {l m : List PerfOp} {a b : Nat} (h1 : Adds t l a) (h2 : Adds t m b) : Adds t (l ++ m) (a + b) := by
  intro r
  obtain ⟨r', h⟩ := perfCount_append t l m r
  rw [h, h1, h2]

theorem Adds.nil {t : PerfTask} : Adds t [] 0 := fun _ => rfl

theorem perfCount_avoid {t : PerfTask} {l : List PerfOp} (h : ∀ o ∈ l, o.task ≠ t) (m : List PerfOp) (r : Bool) : perfCount t r (l ++ m) = perfCount t r m := by
  induction l with
  | nil => rfl
  | cons o l ih =>
    have h1 := h o (by simp)
    have h2 := ih (fun o ho => h o (by simp [ho]))
    cases o <;> simp_all [perfCount, PerfOp.task]

theorem adds_avoids {t : PerfTask} {l : List PerfOp} (h : ∀ o ∈ l, o.task ≠ t) : Adds t l 0 := by
  intro r
  have := perfCount_avoid h [] r
  rw [List.append_nil] at this
  rw [this]; rfl

namespace Traced
variable {α β : Type}
theorem ops_tick_bind (l : List PerfOp) (f : Unit → Traced β) : (tick l >>= f).ops = l ++ (f ()).ops := rfl
theorem ops_lift_ok {r : Res α} {a : α} (h : r = .ok a) (f : α → Traced β) : (lift r >>= f).ops = (f a).ops := by rw [h]; rfl
theorem ops_pure (a : α) : (pure a : Traced α).ops = [] := rfl

/-- the piece of code does not touch the task -/
structure Avoids (t : PerfTask) (x : Traced α) : Prop where
  mem : ∀ o ∈ x.ops, o.task ≠ t

theorem avoids_bind {t : PerfTask} {x : Traced α} {f : α → Traced β} (h1 : x.Avoids t) (h2 : ∀ a, x.res = .ok a → (f a).Avoids t) : (x >>= f).Avoids t := by
  refine ⟨fun o ho => ?_⟩
  by_cases h : ∃ a, x.res = .ok a
  · obtain ⟨a, h⟩ := h
    rw [ops_bind_ok h, List.mem_append] at ho
    exact ho.elim (h1.mem o) ((h2 a h).mem o)
  · rw [ops_bind_fail (fun a e => h ⟨a, e⟩)] at ho
    exact h1.mem o ho

theorem avoids_lift {t : PerfTask} {r : Res α} : (lift r).Avoids t := ⟨by simp [lift]⟩
theorem avoids_pure {t : PerfTask} {a : α} : (pure a : Traced α).Avoids t := ⟨by simp [ops_pure]⟩
theorem avoids_tick {t : PerfTask} {l : List PerfOp} (h : ∀ o ∈ l, o.task ≠ t) : (tick l).Avoids t := ⟨h⟩
end Traced

theorem seasideSeq_avoids {t : PerfTask} (h : t ≠ addSeaside) (ctx : GetCtx) (s : TileSpec) (ts : List Tile) (bs : Builders) : (seasideSeq ctx s bs ts).Avoids t := by
  induction ts generalizing bs with
  | nil => exact avoids_pure
  | cons a ts ih =>
    refine avoids_bind avoids_lift fun _ _ => avoids_bind (avoids_tick ?_) fun _ _ => avoids_bind avoids_lift fun _ _ => avoids_bind (avoids_tick ?_) fun _ _ => ih _
    all_goals simp [PerfOp.task, Ne.symm h]

theorem featuresSeq_avoids {t : PerfTask} (h : t ≠ iter ∧ t ≠ deserOkay ∧ t ≠ deserSkip ∧ t ≠ add) (ctx : GetCtx) (s : TileSpec) (strs : List Bytes) (bs : Builders) (n : Nat) :
    (featuresSeq ctx s bs n strs).Avoids t := by
  obtain ⟨h1, h2, h3, h4⟩ := h
  induction strs generalizing bs n with
  | nil => exact avoids_pure
  | cons a strs ih =>
    refine avoids_bind (avoids_tick (by simp [PerfOp.task, Ne.symm h2, Ne.symm h3])) fun _ _ => avoids_bind avoids_lift fun f _ => ?_
    cases f with
    | none => exact avoids_bind (avoids_tick (by simp [PerfOp.task, Ne.symm h1, Ne.symm h3])) fun _ _ => ih _ _
    | some f =>
      refine avoids_bind (avoids_tick (by simp [PerfOp.task, Ne.symm h2, Ne.symm h4])) fun _ _ => avoids_bind avoids_lift fun _ _ => ?_
      exact avoids_bind (avoids_tick (by simp [PerfOp.task, Ne.symm h4])) fun _ _ => ih _ _

theorem packSeq_avoids {t : PerfTask} (h : t ≠ query ∧ t ≠ iter ∧ t ≠ deserOkay ∧ t ≠ deserSkip ∧ t ≠ add) (ctx : GetCtx) (s : TileSpec) (bs : Builders) (n : Nat) (a : Tile)
    (p : Bytes) : (packSeq ctx s bs n a p).Avoids t := by
  refine avoids_bind (avoids_tick (by simp [PerfOp.task, Ne.symm h.1, Ne.symm h.2.1])) fun _ _ => avoids_bind avoids_lift fun ss _ => ?_
  exact avoids_bind (featuresSeq_avoids h.2 ..) fun _ _ => avoids_bind (avoids_tick (by simp [PerfOp.task, Ne.symm h.2.1])) fun _ _ => avoids_pure

theorem recordsSeq_avoids {t : PerfTask} (h : t ≠ query ∧ t ≠ iter ∧ t ≠ deserOkay ∧ t ≠ deserSkip ∧ t ≠ add) (pf : PackFile) (ctx : GetCtx) (s : TileSpec) (a : Tile)
    (rs : List PackRecord) (bs : Builders) (n : Nat) : (recordsSeq pf ctx s a bs n rs).Avoids t := by
  induction rs generalizing bs n with
  | nil => exact avoids_pure
  | cons r rs ih => exact avoids_bind avoids_lift fun _ _ => avoids_bind (packSeq_avoids h ..) fun _ _ => ih _ _

theorem valuesSeq_avoids {t : PerfTask} (h : t ≠ query ∧ t ≠ iter ∧ t ≠ deserOkay ∧ t ≠ deserSkip ∧ t ≠ add) (pf : PackFile) (ctx : GetCtx) (s : TileSpec)
    (es : List (Tile × Bytes)) (bs : Builders) (n : Nat) : (valuesSeq pf ctx s bs n es).Avoids t := by
  induction es generalizing bs n with
  | nil => exact avoids_pure
  | cons r rs ih => exact avoids_bind avoids_lift fun _ _ => avoids_bind (recordsSeq_avoids h ..) fun _ _ => ih _ _

theorem finishSeq_avoids {t : PerfTask} (h : t ≠ finish ∧ t ≠ render ∧ t ≠ compress ∧ t ≠ resultSize) (ctx : GetCtx) (tile : Tile) (s : TileSpec) (bs : Builders) (n : Nat) :
    (finishSeq ctx tile s bs n).Avoids t := by
  obtain ⟨h1, h2, h3, h4⟩ := h
  rw [finishSeq]
  refine avoids_bind avoids_lift fun full _ => ?_
  split
  · exact avoids_pure
  · refine avoids_bind (avoids_tick (by simp [PerfOp.task, Ne.symm h1])) fun _ _ => avoids_bind avoids_lift fun bytes _ =>
      avoids_bind (avoids_tick (by simp [PerfOp.task, Ne.symm h1, Ne.symm h2])) fun _ _ => ?_
    split
    · exact avoids_pure
    · cases ctx.deflate with
      | some z => exact avoids_bind (avoids_tick (by simp [PerfOp.task, Ne.symm h3, Ne.symm h4])) fun _ _ => avoids_pure
      | none => exact avoids_bind (avoids_tick (by simp [PerfOp.task, Ne.symm h4])) fun _ _ => avoids_pure

theorem renderTileSeq_total (ctx : GetCtx) (tile : Tile) (packs : TileSpec → Builders → Traced (Builders × Nat)) (hp : ∀ s bs, (packs s bs).Avoids total) :
    (renderTileSeq ctx tile packs).Avoids total := by
  refine avoids_bind (avoids_tick (by simp [PerfOp.task])) fun _ _ => avoids_bind avoids_lift fun s _ => avoids_bind ?_ fun bs _ =>
    avoids_bind (avoids_tick (by simp [PerfOp.task])) fun _ _ => avoids_bind (hp ..) fun _ _ => finishSeq_avoids (by simp) ..
  exact avoids_bind (avoids_tick (by simp [PerfOp.task])) fun _ _ => avoids_bind avoids_lift fun _ _ => avoids_bind (avoids_tick (by simp [PerfOp.task])) fun _ _ =>
    seasideSeq_avoids (by simp) ..

theorem getTileBody_total (c : TileCall) : (getTileBody c.tiles c.features c.pf c.ctx c.tile).Avoids total := by
  rw [getTileBody]
  split
  · refine avoids_bind (avoids_tick (by simp [PerfOp.task])) fun _ _ => avoids_bind avoids_lift fun k _ => avoids_bind (avoids_tick (by simp [PerfOp.task])) fun _ _ => ?_
    cases c.tiles k with
    | some t => exact avoids_pure
    | none =>
      refine avoids_bind avoids_lift fun k _ => ?_
      split
      · exact renderTileSeq_total _ _ _ fun _ _ => avoids_pure
      · exact avoids_pure
  · exact renderTileSeq_total _ _ _ fun _ _ => avoids_bind avoids_lift fun _ _ => valuesSeq_avoids (by simp) ..

theorem run_ops (c : TileCall) : c.run.ops =
    if c.tile.z ≤ kMaxZoomLevel then .start total :: (getTileBody c.tiles c.features c.pf c.ctx c.tile).ops ++ [.stop total] else [] := by
  rw [TileCall.run, getTileSeq]
  split
  · rename_i h
    rw [decide_eq_true h, ops_lift_ok verify_true]
    rfl
  · rename_i h
    rw [decide_eq_false h]
    rfl

theorem run_total (c : TileCall) : Adds total c.run.ops (if c.tile.z ≤ 20 then 1 else 0) := by
  intro r
  rw [run_ops]
  change perfCount total r (if c.tile.z ≤ 20 then _ else _) = _
  split
  · rw [List.cons_append, perfCount]
    rw [perfCount_avoid (getTileBody_total c).mem]
    rfl
  · rfl

theorem adds_session {t : PerfTask} {n : TileCall → Nat} {calls : List TileCall} (h : ∀ c ∈ calls, Adds t c.run.ops (n c)) {l : List (Int × PerfOp)}
    (hl : Session calls l) : ((perfRun perfInit l).finished t).length = (calls.map n).sum := by
  rw [perfRun_count, hl]
  have : Adds t (calls.flatMap fun c => c.run.ops) (calls.map n).sum := by
    clear hl
    induction calls with
    | nil => exact Adds.nil
    | cons c calls ih => exact (h c (by simp)).append (ih fun c hc => h c (by simp [hc]))
  rw [this]
  simp [perfInit]

/-- Requests are counted: whatever the requests are, whether they are answered or fail, TOTAL has a value for each of them with a zoom level up to 20 (others are refused
before the counter starts). -/
theorem C65_total (calls : List TileCall) (l : List (Int × PerfOp)) (hl : Session calls l) :
    ((perfRun perfInit l).finished total).length = (calls.filter fun c => decide (c.tile.z ≤ 20)).length := by
  rw [adds_session (fun c _ => run_total c) hl]
  clear hl
  induction calls with
  | nil => rfl
  | cons c calls ih =>
    rw [List.map_cons, List.sum_cons, ih, List.filter_cons]
    by_cases h : c.tile.z ≤ 20
    · simp [h]; omega
    · simp [h]

/-- the values appended for a task -/
def perfVals (t : PerfTask) (l : List PerfOp) : List Nat := l.filterMap fun
  | .append u v => if u = t then some v else none
  | _ => none

theorem perfVals_avoid {t : PerfTask} {l : List PerfOp} (h : ∀ o ∈ l, o.task ≠ t) : perfVals t l = [] := by
  rw [perfVals, List.filterMap_eq_nil_iff]
  intro o ho
  have := h o ho
  cases o <;> simp_all [PerfOp.task]

theorem perfRun_vals (t : PerfTask) (l : List (Int × PerfOp)) (p : Perf) (h : ∀ o ∈ l.map Prod.snd, o ≠ .start t ∧ o ≠ .stop t) :
    (perfRun p l).finished t = p.finished t ++ perfVals t (l.map Prod.snd) := by
  induction l generalizing p with
  | nil => simp [perfRun, perfVals]
  | cons o l ih =>
    obtain ⟨now, o⟩ := o
    rw [perfRun, ih _ (fun o ho => h o (by simp at ho ⊢; exact .inr ho))]
    have h1 := h o (by simp)
    cases o with
    | start u => rfl
    | stop u =>
      have hu : ¬ u = t := fun e => h1.2 (by rw [e])
      cases hr : p.running u <;> simp [perfStep, hr, Ne.symm hu, perfVals]
    | append u v =>
      by_cases hu : u = t
      · subst hu; simp [perfStep, perfVals]
      · simp [perfStep, Ne.symm hu, perfVals, hu]

/-- the code reports the size of its result, if there is one -/
structure Emits (x : Traced (Option Bytes)) : Prop where
  some_ : ∀ b, x.res = .ok (some b) → perfVals resultSize x.ops = [b.length]
  none_ : (∀ b, x.res ≠ .ok (some b)) → perfVals resultSize x.ops = []
  only : ∀ o ∈ x.ops, o ≠ .start resultSize ∧ o ≠ .stop resultSize

theorem avoids_only {α : Type} {x : Traced α} (h : x.Avoids resultSize) : ∀ o ∈ x.ops, o ≠ .start resultSize ∧ o ≠ .stop resultSize := by
  intro o ho
  have := h.mem o ho
  constructor <;> (rintro rfl; exact this rfl)

theorem emits_bind {α : Type} {x : Traced α} {f : α → Traced (Option Bytes)} (h1 : x.Avoids resultSize) (h2 : ∀ a, x.res = .ok a → Emits (f a)) : Emits (x >>= f) := by
  by_cases h : ∃ a, x.res = .ok a
  · obtain ⟨a, h⟩ := h
    have e : perfVals resultSize (x >>= f).ops = perfVals resultSize (f a).ops := by
      rw [ops_bind_ok h, perfVals, List.filterMap_append]
      change perfVals _ _ ++ perfVals _ _ = _
      rw [perfVals_avoid h1.mem]; rfl
    have er : (x >>= f).res = (f a).res := by rw [res_bind, h]; rfl
    refine ⟨fun b hb => ?_, fun hb => ?_, fun o ho => ?_⟩
    · rw [e]; exact (h2 a h).some_ b (er ▸ hb)
    · rw [e]; exact (h2 a h).none_ (fun b => er ▸ hb b)
    · rw [ops_bind_ok h, List.mem_append] at ho
      exact ho.elim (avoids_only h1 o) ((h2 a h).only o)
  · have e := ops_bind_fail (fun a e => h ⟨a, e⟩) f
    refine ⟨fun b hb => ?_, fun _ => by rw [e]; exact perfVals_avoid h1.mem, fun o ho => avoids_only h1 o (e ▸ ho)⟩
    rw [res_bind, Res.bind_eq_ok] at hb
    obtain ⟨a, ha, _⟩ := hb
    exact absurd ⟨a, ha⟩ h

theorem emits_none : Emits (pure none) := ⟨fun b h => by simp [res_pure] at h, fun _ => rfl, by simp [ops_pure]⟩

theorem finishSeq_emits (ctx : GetCtx) (tile : Tile) (s : TileSpec) (bs : Builders) (n : Nat) : Emits (finishSeq ctx tile s bs n) := by
  rw [finishSeq]
  refine emits_bind avoids_lift fun full _ => ?_
  split
  · exact emits_none
  · refine emits_bind (avoids_tick (by simp [PerfOp.task])) fun _ _ => emits_bind avoids_lift fun bytes _ =>
      emits_bind (avoids_tick (by simp [PerfOp.task])) fun _ _ => ?_
    split
    · exact emits_none
    · cases ctx.deflate with
      | some z =>
        refine ⟨fun b h => ?_, fun h => absurd rfl (h (z bytes)), ?_⟩
        · have h : z bytes = b := by injection h with h; injection h
          subst h; rfl
        · change ∀ o ∈ [PerfOp.start compress, .stop compress, .append resultSize (z bytes).length], _
          simp
      | none =>
        refine ⟨fun b h => ?_, fun h => absurd rfl (h bytes), ?_⟩
        · have h : bytes = b := by injection h with h; injection h
          subst h; rfl
        · change ∀ o ∈ [PerfOp.append resultSize bytes.length], _
          simp

theorem renderTileSeq_emits (ctx : GetCtx) (tile : Tile) (packs : TileSpec → Builders → Traced (Builders × Nat)) (hp : ∀ s bs, (packs s bs).Avoids resultSize) :
    Emits (renderTileSeq ctx tile packs) := by
  refine emits_bind (avoids_tick (by simp [PerfOp.task])) fun _ _ => emits_bind avoids_lift fun s _ => emits_bind ?_ fun bs _ =>
    emits_bind (avoids_tick (by simp [PerfOp.task])) fun _ _ => emits_bind (hp ..) fun _ _ => finishSeq_emits ..
  exact avoids_bind (avoids_tick (by simp [PerfOp.task])) fun _ _ => avoids_bind avoids_lift fun _ _ => avoids_bind (avoids_tick (by simp [PerfOp.task])) fun _ _ =>
    seasideSeq_avoids (by simp) ..

theorem body_emits (c : TileCall) :
    perfVals resultSize (getTileBody c.tiles c.features c.pf c.ctx c.tile).ops =
      (match (getTileBody c.tiles c.features c.pf c.ctx c.tile).res with
      | .ok (some b) => if fromTable c then none else some b.length
      | _ => none).toList ∧
    ∀ o ∈ (getTileBody c.tiles c.features c.pf c.ctx c.tile).ops, o ≠ .start resultSize ∧ o ≠ .stop resultSize := by
  have aux : ∀ x : Traced (Option Bytes), Emits x → perfVals resultSize x.ops = (match x.res with
      | .ok (some b) => some b.length
      | _ => none).toList := by
    intro x hx
    split
    · rename_i b h
      rw [hx.some_ b h]; rfl
    · rename_i h
      rw [hx.none_ (fun b e => h b e)]; rfl
  rw [getTileBody]
  by_cases hw : c.ctx.ignorePrepared = false ∧ (c.tile.z : Int) ≤ c.ctx.maxPrepared
  · rw [if_pos hw]
    have hft : fromTable c = (match keyOfTile c.tile with | .ok k => (c.tiles k).isSome | _ => false) := by
      rw [fromTable, wantsPrepared, decide_eq_true hw, Bool.true_and]
      rfl
    cases hk : keyOfTile c.tile with
    | ok k =>
      rw [hk] at hft
      dsimp only at hft
      obtain ⟨t, ht⟩ | ht : (∃ t, c.tiles k = some t) ∨ c.tiles k = none := by
        cases c.tiles k with
        | some t => exact .inl ⟨t, rfl⟩
        | none => exact .inr rfl
      · have hi : (c.tiles k).isSome = true := by rw [ht]; rfl
        rw [hft, hi]
        simp only [if_true]
        refine ⟨?_, ?_⟩
        · have e : ∀ r : Res (Option Bytes), (match r with
              | .ok (some _) => (none : Option Nat)
              | _ => none) = none := fun r => by split <;> rfl
          rw [e, ops_tick_bind, ops_lift_ok rfl, ops_tick_bind, ht]
          rfl
        · rw [ops_tick_bind, ops_lift_ok rfl, ops_tick_bind, ht]
          change ∀ o ∈ [PerfOp.start fetch, .stop fetch], _
          simp
      · have hi : (c.tiles k).isSome = false := by rw [ht]; rfl
        rw [hft, hi]
        simp only [Bool.false_eq_true, if_false]
        have : Emits (do
            tick [.start fetch]
            let k ← lift (Res.ok k)
            let t := c.tiles k
            tick [.stop fetch]
            match t with
            | some t => return some t
            | none => do
              let c' ← lift (bqContains c.ctx.seaside c.tile)
              if c' then renderTileSeq c.ctx c.tile (fun _ bs => pure (bs, 0)) else return none : Traced (Option Bytes)) := by
          refine emits_bind (avoids_tick (by simp [PerfOp.task])) fun _ _ => emits_bind avoids_lift fun k' hk' => emits_bind (avoids_tick (by simp [PerfOp.task])) fun _ _ => ?_
          have hk' : k = k' := by injection hk'
          subst hk'
          rw [ht]
          refine emits_bind avoids_lift fun c' _ => ?_
          split
          · exact renderTileSeq_emits _ _ _ fun _ _ => avoids_pure
          · exact emits_none
        exact ⟨aux _ this, this.only⟩
    | throw_ => exact ⟨rfl, by
      change ∀ o ∈ [PerfOp.start fetch], _
      simp⟩
    | ub => exact ⟨rfl, by
      change ∀ o ∈ [PerfOp.start fetch], _
      simp⟩
  · rw [if_neg hw, show fromTable c = false by rw [fromTable, wantsPrepared, decide_eq_false hw]; rfl]
    simp only [Bool.false_eq_true, if_false]
    have := renderTileSeq_emits c.ctx c.tile (fun s bs => do
      let es ← lift (scanQuery c.features c.tile)
      valuesSeq c.pf c.ctx s bs 0 es) fun _ _ => avoids_bind avoids_lift fun _ _ => valuesSeq_avoids (by simp) ..
    exact ⟨aux _ this, this.only⟩

theorem run_emits (c : TileCall) : perfVals resultSize c.run.ops = (drawnSize c).toList ∧ ∀ o ∈ c.run.ops, o ≠ .start resultSize ∧ o ≠ .stop resultSize := by
  have hs := C65_same c
  have hr : c.run.res = (verify (decide (c.tile.z ≤ kMaxZoomLevel)) >>= fun _ => (getTileBody c.tiles c.features c.pf c.ctx c.tile).res) := by
    rw [TileCall.run, getTileSeq, res_bind, res_lift]; rfl
  rw [run_ops]
  obtain ⟨h1, h2⟩ := body_emits c
  split
  · rename_i hz
    rw [decide_eq_true hz, verify_true, Res.ok_bind] at hr
    refine ⟨?_, ?_⟩
    · have : perfVals resultSize (.start total :: (getTileBody c.tiles c.features c.pf c.ctx c.tile).ops ++ [.stop total]) =
          perfVals resultSize (getTileBody c.tiles c.features c.pf c.ctx c.tile).ops := by simp [perfVals]
      rw [this, h1, ← hr, drawnSize]
      cases hg : getTile c.tiles c.features c.pf c.ctx c.tile with
      | ok b => rw [(hs b).2 hg]; rfl
      | throw_ =>
        cases hc : c.run.res with
        | ok b => rw [(hs b).1 hc] at hg; exact absurd hg (by simp)
        | throw_ => rfl
        | ub => rfl
      | ub =>
        cases hc : c.run.res with
        | ok b => rw [(hs b).1 hc] at hg; exact absurd hg (by simp)
        | throw_ => rfl
        | ub => rfl
    · intro o ho
      rcases List.mem_append.1 ho with ho | ho
      · rcases List.mem_cons.1 ho with rfl | ho
        · simp
        · exact h2 o ho
      · rw [List.mem_singleton.1 ho]; simp
  · rename_i hz
    refine ⟨?_, by simp⟩
    rw [drawnSize]
    have : getTile c.tiles c.features c.pf c.ctx c.tile = .throw_ := by rw [getTile, decide_eq_false hz]; rfl
    rw [this]; rfl

/-- Sizes: RESULT_SIZE has the sizes of the answers that were drawn, as they were sent, in order; answers from the table of prepared tiles and failed requests have none. -/
theorem C65_sizes (calls : List TileCall) (l : List (Int × PerfOp)) (hl : Session calls l) :
    (perfRun perfInit l).finished resultSize = calls.filterMap drawnSize := by
  rw [perfRun_vals, hl]
  · change [] ++ _ = _
    rw [List.nil_append]
    clear hl
    induction calls with
    | nil => rfl
    | cons c calls ih =>
      rw [List.flatMap_cons, perfVals, List.filterMap_append]
      change perfVals _ _ ++ perfVals _ _ = _
      rw [ih, (run_emits c).1, List.filterMap_cons]
      cases drawnSize c <;> rfl
  · rw [hl]
    intro o ho
    obtain ⟨c, _, hc⟩ := List.mem_flatMap.1 ho
    exact (run_emits c).2 o hc

theorem featuresSeq_adds (ctx : GetCtx) (s : TileSpec) (strs : List Bytes) (bs : Builders) (n : Nat) (r : Builders × Nat) (h : (featuresSeq ctx s bs n strs).res = .ok r)
    (k q : Bytes → Bool) (hk : ∀ b, k b = match deserializeFeature ctx.rd ctx.dec b s.draw s.tile.z with | .ok (some _) => true | _ => false)
    (hq : ∀ b, q b = match deserializeFeature ctx.rd ctx.dec b s.draw s.tile.z with | .ok none => true | _ => false) :
    Adds deserOkay (featuresSeq ctx s bs n strs).ops (strs.countP k) ∧ Adds PerfTask.add (featuresSeq ctx s bs n strs).ops (strs.countP k) ∧
      Adds deserSkip (featuresSeq ctx s bs n strs).ops (strs.countP q) := by
  induction strs generalizing bs n with
  | nil => exact ⟨Adds.nil, Adds.nil, Adds.nil⟩
  | cons b strs ih =>
    rw [featuresSeq] at h ⊢
    simp only [res_bind, res_lift, res_tick, Res.bind_eq_ok] at h
    obtain ⟨_, _, f, h1, h2⟩ := h
    rw [ops_tick_bind, ops_lift_ok h1, List.countP_cons, List.countP_cons, hk b, hq b, h1]
    cases f with
    | none =>
      simp only [res_bind, res_lift, res_tick, Res.bind_eq_ok] at h2
      obtain ⟨_, _, h2⟩ := h2
      obtain ⟨i1, i2, i3⟩ := ih _ _ h2
      simp only [ops_tick_bind, Bool.false_eq_true, if_false, if_true, Nat.add_zero]
      refine ⟨?_, ?_, ?_⟩ <;> rw [← List.append_assoc]
      · rw [← Nat.zero_add (strs.countP k)]
        exact Adds.append (by rintro (_ | _) <;> rfl) i1
      · rw [← Nat.zero_add (strs.countP k)]
        exact Adds.append (by rintro (_ | _) <;> rfl) i2
      · rw [Nat.add_comm]
        exact Adds.append (by rintro (_ | _) <;> rfl) i3
    | some f =>
      simp only [res_bind, res_lift, res_tick, Res.bind_eq_ok] at h2
      obtain ⟨_, _, bs', h3, _, _, h2⟩ := h2
      obtain ⟨i1, i2, i3⟩ := ih _ _ h2
      simp only [ops_tick_bind, ops_lift_ok h3, Bool.false_eq_true, if_false, if_true, Nat.add_zero]
      refine ⟨?_, ?_, ?_⟩ <;> rw [← List.append_assoc, ← List.append_assoc]
      · rw [Nat.add_comm (strs.countP k)]
        exact Adds.append (by rintro (_ | _) <;> rfl) i1
      · rw [Nat.add_comm (strs.countP k)]
        exact Adds.append (by rintro (_ | _) <;> rfl) i2
      · rw [← Nat.zero_add (strs.countP q)]
        exact Adds.append (by rintro (_ | _) <;> rfl) i3

/-- what is added for the three tasks of features -/
def AddsF (l : List PerfOp) (k q : Nat) : Prop := Adds deserOkay l k ∧ Adds PerfTask.add l k ∧ Adds deserSkip l q

theorem AddsF.append {l m : List PerfOp} {a b c d : Nat} (h1 : AddsF l a b) (h2 : AddsF m c d) : AddsF (l ++ m) (a + c) (b + d) :=
  ⟨h1.1.append h2.1, h1.2.1.append h2.2.1, h1.2.2.append h2.2.2⟩

theorem addsF_avoids {α : Type} {x : Traced α} (h1 : x.Avoids deserOkay) (h2 : x.Avoids PerfTask.add) (h3 : x.Avoids deserSkip) : AddsF x.ops 0 0 :=
  ⟨adds_avoids h1.mem, adds_avoids h2.mem, adds_avoids h3.mem⟩

theorem addsF_list {l : List PerfOp} (h : ∀ o ∈ l, o.task ≠ deserOkay ∧ o.task ≠ PerfTask.add ∧ o.task ≠ deserSkip) : AddsF l 0 0 :=
  ⟨adds_avoids fun o ho => (h o ho).1, adds_avoids fun o ho => (h o ho).2.1, adds_avoids fun o ho => (h o ho).2.2⟩

/-- the strings of the packs, those that can be read -/
def packStrings (tile : Tile) (ps : List (Tile × Bytes)) : List Bytes := ps.flatMap fun p => match unpackTile p.1 p.2 tile with
  | .ok ss => ss
  | _ => []

section
variable {ctx : GetCtx} {s : TileSpec} {k q : Bytes → Bool} (hk : ∀ b, k b = match deserializeFeature ctx.rd ctx.dec b s.draw s.tile.z with | .ok (some _) => true | _ => false)
    (hq : ∀ b, q b = match deserializeFeature ctx.rd ctx.dec b s.draw s.tile.z with | .ok none => true | _ => false)
include hk hq

theorem packSeq_adds (bs : Builders) (n : Nat) (t : Tile) (p : Bytes) (r : Builders × Nat) (h : (packSeq ctx s bs n t p).res = .ok r) :
    AddsF (packSeq ctx s bs n t p).ops ((packStrings s.tile [(t, p)]).countP k) ((packStrings s.tile [(t, p)]).countP q) := by
  rw [packSeq] at h ⊢
  simp only [res_bind, res_lift, res_tick, res_pure, Res.bind_eq_ok, Res.ok.injEq] at h
  obtain ⟨_, _, ss, h1, _, h2, _, _, rfl⟩ := h
  have := featuresSeq_adds ctx s ss bs n _ h2 k q hk hq
  rw [ops_tick_bind, ops_lift_ok h1, ops_bind_ok h2, ops_tick_bind, packStrings]
  simp only [List.flatMap_cons, List.flatMap_nil, List.append_nil, h1]
  rw [← Nat.zero_add (ss.countP k), ← Nat.zero_add (ss.countP q)]
  refine AddsF.append (addsF_list (by simp [PerfOp.task])) ?_
  rw [← Nat.add_zero (ss.countP k), ← Nat.add_zero (ss.countP q)]
  exact AddsF.append this (addsF_list (by simp [PerfOp.task, ops_pure]))

theorem recordsSeq_adds (pf : PackFile) (t : Tile) (rs : List PackRecord) (bs : Builders) (n : Nat) (r : Builders × Nat)
    (h : (recordsSeq pf ctx s t bs n rs).res = .ok r) : ∃ ps, fetchRecords pf t rs = .ok ps ∧
      AddsF (recordsSeq pf ctx s t bs n rs).ops ((packStrings s.tile ps).countP k) ((packStrings s.tile ps).countP q) := by
  induction rs generalizing bs n with
  | nil => exact ⟨[], rfl, addsF_list (by simp [recordsSeq, ops_pure])⟩
  | cons a rs ih =>
    rw [recordsSeq] at h ⊢
    simp only [res_bind, res_lift, Res.bind_eq_ok] at h
    obtain ⟨p, h1, ⟨bs', n'⟩, h2, h3⟩ := h
    obtain ⟨ps, h4, h5⟩ := ih _ _ h3
    refine ⟨(t, p) :: ps, by rw [fetchRecords, h1, Res.ok_bind, h4]; rfl, ?_⟩
    rw [ops_lift_ok h1, ops_bind_ok h2, show packStrings s.tile ((t, p) :: ps) = packStrings s.tile [(t, p)] ++ packStrings s.tile ps by simp [packStrings],
      List.countP_append, List.countP_append]
    exact (packSeq_adds hk hq bs n t p _ h2).append h5

theorem valuesSeq_adds (pf : PackFile) (es : List (Tile × Bytes)) (bs : Builders) (n : Nat) (r : Builders × Nat)
    (h : (valuesSeq pf ctx s bs n es).res = .ok r) : ∃ ps, fetchValues pf es = .ok ps ∧
      AddsF (valuesSeq pf ctx s bs n es).ops ((packStrings s.tile ps).countP k) ((packStrings s.tile ps).countP q) := by
  induction es generalizing bs n with
  | nil => exact ⟨[], rfl, addsF_list (by simp [valuesSeq, ops_pure])⟩
  | cons e es ih =>
    obtain ⟨t, v⟩ := e
    rw [valuesSeq] at h ⊢
    simp only [res_bind, res_lift, Res.bind_eq_ok] at h
    obtain ⟨rs, h1, ⟨bs', n'⟩, h2, h3⟩ := h
    obtain ⟨qs, h4, h5⟩ := ih _ _ h3
    obtain ⟨ps, h6, h7⟩ := recordsSeq_adds hk hq pf t rs bs n _ h2
    refine ⟨ps ++ qs, by rw [fetchValues, h1, Res.ok_bind, h6, Res.ok_bind, h4]; rfl, ?_⟩
    rw [ops_lift_ok h1, ops_bind_ok h2, show packStrings s.tile (ps ++ qs) = packStrings s.tile ps ++ packStrings s.tile qs by simp [packStrings],
      List.countP_append, List.countP_append]
    exact h7.append h5

end

theorem tileSpec_eq {tile : Tile} {s : TileSpec} (h : tileSpec tile = .ok s) : s = ⟨tile, pxBounds tile, insertBounds tile, drawBounds tile⟩ := by
  simp only [tileSpec, Res.bind_eq_ok, Res.pure_eq, Res.ok.injEq] at h
  obtain ⟨_, _, _, _, h⟩ := h
  exact h.symm

theorem renderTileSeq_adds (ctx : GetCtx) (tile : Tile) (packs : TileSpec → Builders → Traced (Builders × Nat)) (b : Option Bytes)
    (h : (renderTileSeq ctx tile packs).res = .ok b) (x y : Nat)
    (hp : ∀ s bs r, s.tile = tile → s.draw = drawBounds tile → (packs s bs).res = .ok r → AddsF (packs s bs).ops x y) : AddsF (renderTileSeq ctx tile packs).ops x y := by
  rw [renderTileSeq] at h ⊢
  simp only [res_bind, res_tick, Res.ok_bind, res_lift, Res.bind_eq_ok] at h
  obtain ⟨s, h1, bs, h2, ⟨bs', n⟩, h3, h4⟩ := h
  have hs := tileSpec_eq h1
  have hx := hp s bs _ (by rw [hs]) (by rw [hs]) h3
  have hsea : AddsF (renderSeasideSeq ctx s []).ops 0 0 := by
    refine addsF_avoids ?_ ?_ ?_ <;>
    exact avoids_bind (avoids_tick (by simp [PerfOp.task])) fun _ _ => avoids_bind avoids_lift fun _ _ => avoids_bind (avoids_tick (by simp [PerfOp.task])) fun _ _ =>
      seasideSeq_avoids (by simp) ..
  have hfin : AddsF (finishSeq ctx tile s bs' n).ops 0 0 := addsF_avoids (finishSeq_avoids (by simp) ..) (finishSeq_avoids (by simp) ..) (finishSeq_avoids (by simp) ..)
  rw [ops_tick_bind, ops_lift_ok h1, ops_bind_ok h2, ops_tick_bind, ops_bind_ok h3]
  rw [← Nat.zero_add x, ← Nat.zero_add y]
  refine AddsF.append (addsF_list (by simp [PerfOp.task])) ?_
  rw [← Nat.zero_add x, ← Nat.zero_add y]
  refine AddsF.append hsea ?_
  rw [← Nat.zero_add x, ← Nat.zero_add y]
  exact AddsF.append (addsF_list (by simp [PerfOp.task])) (hx.append hfin)

theorem run_features (c : TileCall) (b : Option Bytes) (h : getTile c.tiles c.features c.pf c.ctx c.tile = .ok b) :
    AddsF c.run.ops ((offered c).countP (isKept c)) ((offered c).countP (isSkipped c)) := by
  have hr := (C65_same c b).2 h
  rw [TileCall.run, getTileSeq, res_bind, res_lift] at hr
  obtain ⟨_, hz, hr⟩ := Res.bind_eq_ok.1 hr
  have hz : c.tile.z ≤ kMaxZoomLevel := by
    by_contra hc
    rw [decide_eq_false hc] at hz
    exact absurd hz (by simp)
  rw [run_ops, if_pos hz]
  rw [res_inScope, getTileBody] at hr
  rw [← Nat.add_zero (List.countP (isKept c) _), ← Nat.add_zero (List.countP (isSkipped c) _)]
  refine AddsF.append ?_ (addsF_list (by simp [PerfOp.task]))
  rw [← Nat.zero_add (List.countP (isKept c) _), ← Nat.zero_add (List.countP (isSkipped c) _)]
  refine AddsF.append (l := [.start total]) (addsF_list (by simp [PerfOp.task])) ?_
  rw [getTileBody, offered, wantsPrepared]
  by_cases hw : c.ctx.ignorePrepared = false ∧ (c.tile.z : Int) ≤ c.ctx.maxPrepared
  · rw [if_pos hw] at hr ⊢
    rw [decide_eq_true hw, if_pos rfl]
    simp only [res_bind, res_tick, Res.ok_bind, res_lift, Res.bind_eq_ok] at hr
    obtain ⟨key, h1, hr⟩ := hr
    rw [ops_tick_bind, ops_lift_ok h1]
    dsimp only
    rw [ops_tick_bind, ← List.append_assoc, ← Nat.zero_add (List.countP _ _), ← Nat.zero_add (List.countP (isSkipped c) _)]
    refine AddsF.append (addsF_list (by simp [PerfOp.task])) ?_
    cases ht : c.tiles key with
    | some t => exact addsF_list (by simp [ops_pure])
    | none =>
      rw [ht] at hr
      simp only [res_bind, res_lift, Res.bind_eq_ok] at hr
      obtain ⟨c', h2, hr⟩ := hr
      rw [ops_lift_ok h2]
      split at hr
      · rename_i hc
        rw [if_pos hc]
        exact renderTileSeq_adds _ _ _ b hr 0 0 fun _ _ _ _ _ _ => addsF_list (by simp [ops_pure])
      · rename_i hc
        rw [if_neg hc]
        exact addsF_list (by simp [ops_pure])
  · rw [if_neg hw] at hr ⊢
    rw [decide_eq_false hw]
    simp only [Bool.false_eq_true, if_false]
    refine renderTileSeq_adds _ _ _ b hr _ _ fun s bs r hs1 hs2 hr => ?_
    rw [res_bind, res_lift] at hr
    obtain ⟨es, h1, hr⟩ := Res.bind_eq_ok.1 hr
    rw [ops_lift_ok h1]
    obtain ⟨ps, h2, h3⟩ := valuesSeq_adds (k := isKept c) (q := isSkipped c) (fun b => by rw [hs1, hs2]; rfl) (fun b => by rw [hs1, hs2]; rfl) c.pf es bs 0 r hr
    rw [packsOf, h1, Res.ok_bind, h2]
    rw [hs1] at h3
    exact h3

/-- Features: when all requests of a session are answered, DESER_OKAY and ADD have a value for each stored feature that was drawn, DESER_SKIP for each that was skipped. -/
theorem C65_features (calls : List TileCall) (l : List (Int × PerfOp)) (hl : Session calls l)
    (hok : ∀ c ∈ calls, ∃ b, getTile c.tiles c.features c.pf c.ctx c.tile = .ok b) :
    ((perfRun perfInit l).finished deserOkay).length = (calls.map fun c => (offered c).countP (isKept c)).sum ∧
    ((perfRun perfInit l).finished PerfTask.add).length = (calls.map fun c => (offered c).countP (isKept c)).sum ∧
    ((perfRun perfInit l).finished deserSkip).length = (calls.map fun c => (offered c).countP (isSkipped c)).sum := by
  have h : ∀ c ∈ calls, AddsF c.run.ops ((offered c).countP (isKept c)) ((offered c).countP (isSkipped c)) := by
    intro c hc
    obtain ⟨b, hb⟩ := hok c hc
    exact run_features c b hb
  exact ⟨adds_session (fun c hc => (h c hc).1) hl, adds_session (fun c hc => (h c hc).2.1) hl, adds_session (fun c hc => (h c hc).2.2) hl⟩

theorem renderTileSeq_fetch (ctx : GetCtx) (tile : Tile) (packs : TileSpec → Builders → Traced (Builders × Nat)) (hp : ∀ s bs, (packs s bs).Avoids fetch) :
    (renderTileSeq ctx tile packs).Avoids fetch := by
  refine avoids_bind (avoids_tick (by simp [PerfOp.task])) fun _ _ => avoids_bind avoids_lift fun s _ => avoids_bind ?_ fun bs _ =>
    avoids_bind (avoids_tick (by simp [PerfOp.task])) fun _ _ => avoids_bind (hp ..) fun _ _ => finishSeq_avoids (by simp) ..
  exact avoids_bind (avoids_tick (by simp [PerfOp.task])) fun _ _ => avoids_bind avoids_lift fun _ _ => avoids_bind (avoids_tick (by simp [PerfOp.task])) fun _ _ =>
    seasideSeq_avoids (by simp) ..

theorem run_fetch (c : TileCall) (b : Option Bytes) (h : getTile c.tiles c.features c.pf c.ctx c.tile = .ok b) :
    Adds fetch c.run.ops (if wantsPrepared c then 1 else 0) := by
  have hr := (C65_same c b).2 h
  rw [TileCall.run, getTileSeq, res_bind, res_lift] at hr
  obtain ⟨_, hz, hr⟩ := Res.bind_eq_ok.1 hr
  have hz : c.tile.z ≤ kMaxZoomLevel := by
    by_contra hc
    rw [decide_eq_false hc] at hz
    exact absurd hz (by simp)
  rw [run_ops, if_pos hz]
  rw [res_inScope, getTileBody] at hr
  rw [← Nat.add_zero (ite _ _ _)]
  refine Adds.append ?_ (adds_avoids (by simp [PerfOp.task]))
  rw [← Nat.zero_add (ite _ _ _)]
  refine Adds.append (l := [.start total]) (adds_avoids (by simp [PerfOp.task])) ?_
  rw [getTileBody, wantsPrepared]
  by_cases hw : c.ctx.ignorePrepared = false ∧ (c.tile.z : Int) ≤ c.ctx.maxPrepared
  · rw [if_pos hw] at hr ⊢
    rw [decide_eq_true hw, if_pos rfl]
    simp only [res_bind, res_tick, Res.ok_bind, res_lift, Res.bind_eq_ok] at hr
    obtain ⟨key, h1, hr⟩ := hr
    rw [ops_tick_bind, ops_lift_ok h1]
    dsimp only
    rw [ops_tick_bind, ← List.append_assoc]
    refine Adds.append (a := 1) (b := 0) (by rintro (_ | _) <;> rfl) (adds_avoids (Avoids.mem ?_))
    cases c.tiles key with
    | some t => exact avoids_pure
    | none =>
      refine avoids_bind avoids_lift fun c' _ => ?_
      split
      · exact renderTileSeq_fetch _ _ _ fun _ _ => avoids_pure
      · exact avoids_pure
  · rw [if_neg hw, decide_eq_false hw]
    exact adds_avoids (renderTileSeq_fetch _ _ _ fun _ _ => avoids_bind avoids_lift fun _ _ => valuesSeq_avoids (by simp) ..).mem

/-- Lookups: when all requests of a session are answered, FETCH has a value for each request on a prepared level (unless prepared tiles are ignored), whether there was a
prepared tile or not. -/
theorem C65_fetch (calls : List TileCall) (l : List (Int × PerfOp)) (hl : Session calls l)
    (hok : ∀ c ∈ calls, ∃ b, getTile c.tiles c.features c.pf c.ctx c.tile = .ok b) :
    ((perfRun perfInit l).finished fetch).length = (calls.filter wantsPrepared).length := by
  rw [adds_session (fun c hc => by obtain ⟨b, hb⟩ := hok c hc; exact run_fetch c b hb) hl]
  clear hl hok
  induction calls with
  | nil => rfl
  | cons c calls ih =>
    rw [List.map_cons, List.sum_cons, ih, List.filter_cons]
    cases wantsPrepared c
    · simp
    · simp; omega

/-! ### Times -/

/-- Whether the recorded intervals of the tasks in `S` do not overlap.  State of a task: not running (`some false`), started after the last recorded interval ended
(`some true`), or not known. -/
def phase (S : PerfTask → Bool) (st : PerfTask → Option Bool) : List PerfOp → Option (PerfTask → Option Bool)
  | [] => some st
  | .append u _ :: l => if S u then none else phase S st l
  | .start t :: l => if S t then phase S (fun u => if u = t then some true else st u) l else phase S st l
  | .stop t :: l => if S t then match st t with
      | none => none
      | some false => phase S st l
      | some true => phase S (fun u => if u = t then some false else if st u = some true then none else st u) l
    else phase S st l

theorem phase_append (S : PerfTask → Bool) (st : PerfTask → Option Bool) (l m : List PerfOp) : phase S st (l ++ m) = (phase S st l).bind fun st => phase S st m := by
  induction l generalizing st with
  | nil => rfl
  | cons o l ih =>
    cases o with
    | start t => simp only [List.cons_append, phase]; split <;> exact ih _
    | stop t =>
      simp only [List.cons_append, phase]
      split
      · split
        · rfl
        · exact ih _
        · exact ih _
      · exact ih _
    | append u v =>
      simp only [List.cons_append, phase]
      split
      · rfl
      · exact ih _

/-- the recorded values of the tasks, added up -/
def perfSum (S : PerfTask → Bool) (p : Perf) : Nat :=
  ([resultSize, total, fetch, render, compress, findSeaside, addSeaside, query, iter, deserOkay, deserSkip, PerfTask.add, finish].map
    fun t => if S t then (p.finished t).sum else 0).sum

theorem perfSum_add (S : PerfTask → Bool) (p q : Perf) (t : PerfTask) (v : Nat) (h : q.finished = fun u => if u = t then p.finished t ++ [v] else p.finished u) :
    perfSum S q = perfSum S p + if S t then v else 0 := by
  rw [perfSum, perfSum, h]
  cases hS : S t
  · cases t <;> simp [hS]
  · cases t <;> simp [hS] <;> ac_rfl

theorem phase_sum (S : PerfTask → Bool) (T : Int) (hT : T < 2 ^ 63) (l : List (Int × PerfOp)) (st st' : PerfTask → Option Bool) (p : Perf) (lo now : Int)
    (h : phase S st (l.map Prod.snd) = some st') (h1 : ∀ t, S t → st t = some false → p.running t = none)
    (h2 : ∀ t, S t → st t = some true → ∃ s, p.running t = some s ∧ lo ≤ s ∧ s ≤ now) (hlo : 0 ≤ lo) (hn : lo ≤ now) (hnT : now ≤ T)
    (hs : l.Pairwise (fun a b => a.1 ≤ b.1)) (hb : ∀ a ∈ l, now ≤ a.1 ∧ a.1 ≤ T) : (perfSum S (perfRun p l) : Int) ≤ perfSum S p + (T - lo) := by
  induction l generalizing st p lo now with
  | nil => rw [perfRun]; omega
  | cons o l ih =>
    obtain ⟨x, o⟩ := o
    obtain ⟨hx1, hx2⟩ := hb (x, o) (by simp)
    have hs' := (List.pairwise_cons.1 hs).2
    have hb' : ∀ a ∈ l, x ≤ a.1 ∧ a.1 ≤ T := fun a ha => ⟨(List.pairwise_cons.1 hs).1 a ha, (hb a (by simp [ha])).2⟩
    dsimp only at hx1 hx2
    rw [List.map_cons] at h
    rw [perfRun]
    cases o with
    | append u v =>
      rw [phase] at h
      split at h
      · exact absurd h (by simp)
      · rename_i hu
        have e : perfSum S (perfStep p x (.append u v)) = perfSum S p := by
          rw [perfSum_add S p _ u v rfl, if_neg hu]; rfl
        rw [← e]
        exact ih st _ lo x h h1 (fun t ht hst => by obtain ⟨s, a, b, c⟩ := h2 t ht hst; exact ⟨s, a, b, by omega⟩) hlo (by omega) hx2 hs' hb'
    | start t =>
      rw [phase] at h
      have e : perfSum S (perfStep p x (.start t)) = perfSum S p := rfl
      rw [← e]
      split at h
      · refine ih _ _ lo x h (fun u hu hst => ?_) (fun u hu hst => ?_) hlo (by omega) hx2 hs' hb'
        · simp only [perfStep]
          split at hst
          · exact absurd hst (by simp)
          · rename_i hut
            rw [if_neg hut]; exact h1 u hu hst
        · simp only [perfStep]
          by_cases hut : u = t
          · rw [if_pos hut]; exact ⟨x, rfl, by omega, by omega⟩
          · rw [if_neg hut] at hst ⊢
            obtain ⟨s, a, b, c⟩ := h2 u hu hst
            exact ⟨s, a, b, by omega⟩
      · rename_i htS
        refine ih st _ lo x h (fun u hu hst => ?_) (fun u hu hst => ?_) hlo (by omega) hx2 hs' hb'
        · have hut : u ≠ t := fun e => htS (e ▸ hu)
          simp only [perfStep, if_neg hut]; exact h1 u hu hst
        · have hut : u ≠ t := fun e => htS (e ▸ hu)
          simp only [perfStep, if_neg hut]
          obtain ⟨s, a, b, c⟩ := h2 u hu hst
          exact ⟨s, a, b, by omega⟩
    | stop t =>
      rw [phase] at h
      split at h
      · rename_i htS
        split at h
        · exact absurd h (by simp)
        · rename_i hst
          have hr := h1 t htS hst
          have e : perfStep p x (.stop t) = p := by simp only [perfStep, hr]
          rw [e]
          exact ih st _ lo x h h1 (fun t ht hst => by obtain ⟨s, a, b, c⟩ := h2 t ht hst; exact ⟨s, a, b, by omega⟩) hlo (by omega) hx2 hs' hb'
        · rename_i hst
          obtain ⟨s, a, b, c⟩ := h2 t htS hst
          have e : perfStep p x (.stop t) =
              ⟨fun u => if u = t then none else p.running u, fun u => if u = t then p.finished t ++ [((x - s) % 2 ^ 64).toNat] else p.finished u⟩ := by
            simp only [perfStep, a]
          have e2 := perfSum_add S p (perfStep p x (.stop t)) t ((x - s) % 2 ^ 64).toNat (by rw [e])
          rw [if_pos htS, Int.emod_eq_of_lt (by omega) (by omega)] at e2
          have := ih _ (perfStep p x (.stop t)) x x h (fun u hu hsu => ?_) (fun u hu hsu => ?_) (by omega) (by omega) hx2 hs' hb'
          · rw [e2] at this
            push_cast at this
            rw [Int.toNat_of_nonneg (by omega)] at this
            omega
          · rw [e]
            dsimp only
            by_cases hut : u = t
            · rw [if_pos hut]
            · rw [if_neg hut] at hsu ⊢
              split at hsu
              · exact absurd hsu (by simp)
              · exact h1 u hu hsu
          · by_cases hut : u = t
            · rw [if_pos hut] at hsu; exact absurd hsu (by simp)
            · rw [if_neg hut] at hsu
              split at hsu
              · exact absurd hsu (by simp)
              · rename_i hn; exact absurd hsu hn
      · rename_i htS
        have hf : perfSum S (perfStep p x (.stop t)) = perfSum S p := by
          cases hr : p.running t with
          | none => simp only [perfStep, hr]
          | some s =>
            rw [perfSum_add S p (perfStep p x (.stop t)) t ((x - s) % 2 ^ 64).toNat (by simp only [perfStep, hr]), if_neg htS]; rfl
        have hr : ∀ u, S u → (perfStep p x (.stop t)).running u = p.running u := by
          intro u hu
          have hut : u ≠ t := fun e => htS (e ▸ hu)
          cases hr : p.running t with
          | none => simp only [perfStep, hr]
          | some s => simp only [perfStep, hr, if_neg hut]
        rw [← hf]
        refine ih st _ lo x h (fun u hu hst => by rw [hr u hu]; exact h1 u hu hst) (fun u hu hst => ?_) hlo (by omega) hx2 hs' hb'
        rw [hr u hu]
        obtain ⟨s, a, b, c⟩ := h2 u hu hst
        exact ⟨s, a, b, by omega⟩

/-- started in a state with `P`, the code keeps the recorded intervals disjoint, and ends in a state with `Q` if it returns -/
structure PhaseOk (S : PerfTask → Bool) {α : Type} (P : (PerfTask → Option Bool) → Prop) (x : Traced α) (Q : (PerfTask → Option Bool) → Prop) : Prop where
  run : ∀ st, P st → ∃ st', phase S st x.ops = some st' ∧ ∀ a, x.res = .ok a → Q st'

theorem phase_bind {S : PerfTask → Bool} {α β : Type} {P Q R : (PerfTask → Option Bool) → Prop} {x : Traced α} {f : α → Traced β} (h1 : PhaseOk S P x Q)
    (h2 : ∀ a, x.res = .ok a → PhaseOk S Q (f a) R) : PhaseOk S P (x >>= f) R := by
  refine ⟨fun st hst => ?_⟩
  obtain ⟨st', h3, h4⟩ := h1.run st hst
  by_cases h : ∃ a, x.res = .ok a
  · obtain ⟨a, h⟩ := h
    obtain ⟨st'', h5, h6⟩ := (h2 a h).run st' (h4 a h)
    refine ⟨st'', by rw [ops_bind_ok h, phase_append, h3]; exact h5, fun b hb => h6 b ?_⟩
    rw [res_bind, h] at hb; exact hb
  · refine ⟨st', by rw [ops_bind_fail (fun a e => h ⟨a, e⟩)]; exact h3, fun b hb => ?_⟩
    rw [res_bind] at hb
    obtain ⟨a, ha, _⟩ := Res.bind_eq_ok.1 hb
    exact absurd ⟨a, ha⟩ h

theorem phase_lift {S : PerfTask → Bool} {α : Type} {P : (PerfTask → Option Bool) → Prop} {r : Res α} : PhaseOk S P (lift r) P := ⟨fun st h => ⟨st, rfl, fun _ _ => h⟩⟩
theorem phase_pure {S : PerfTask → Bool} {α : Type} {P : (PerfTask → Option Bool) → Prop} {a : α} : PhaseOk S P (pure a) P := ⟨fun st h => ⟨st, rfl, fun _ _ => h⟩⟩
theorem phase_tick {S : PerfTask → Bool} {P Q : (PerfTask → Option Bool) → Prop} {l : List PerfOp} (h : ∀ st, P st → ∃ st', phase S st l = some st' ∧ Q st') :
    PhaseOk S P (tick l) Q := ⟨fun st hst => by obtain ⟨st', a, b⟩ := h st hst; exact ⟨st', a, fun _ _ => b⟩⟩
theorem phase_weaken {S : PerfTask → Bool} {α : Type} {P P' Q Q' : (PerfTask → Option Bool) → Prop} {x : Traced α} (h : PhaseOk S P x Q) (hp : ∀ st, P' st → P st)
    (hq : ∀ st, Q st → Q' st) : PhaseOk S P' x Q' :=
  ⟨fun st hst => by obtain ⟨st', a, b⟩ := h.run st (hp st hst); exact ⟨st', a, fun c hc => hq _ (b c hc)⟩⟩
theorem phase_avoids {S : PerfTask → Bool} {α : Type} {P : (PerfTask → Option Bool) → Prop} {x : Traced α} (h : ∀ t, S t → x.Avoids t) : PhaseOk S P x P := by
  refine ⟨fun st hst => ⟨st, ?_, fun _ _ => hst⟩⟩
  have : ∀ l : List PerfOp, (∀ o ∈ l, S o.task = false) → phase S st l = some st := by
    intro l
    induction l with
    | nil => intro _; rfl
    | cons o l ih =>
      intro hl
      have h1 := hl o (by simp)
      have h2 := ih fun o ho => hl o (by simp [ho])
      cases o <;> simp_all [phase, PerfOp.task]
  refine this _ fun o ho => ?_
  cases hS : S o.task with
  | false => rfl
  | true => exact absurd rfl ((h _ hS).mem o ho)

/-- the three parts of a request -/
def partsOf : PerfTask → Bool
  | .fetch | .render | .compress => true
  | _ => false

/-- the steps of a request, without ITER -/
def stepsOf : PerfTask → Bool
  | .fetch | .findSeaside | .addSeaside | .query | .deserOkay | .deserSkip | .add | .finish | .compress => true
  | _ => false

theorem seasideSeq_phase (ctx : GetCtx) (s : TileSpec) (ts : List Tile) (bs : Builders) : PhaseOk stepsOf (fun _ => True) (seasideSeq ctx s bs ts) (fun _ => True) := by
  induction ts generalizing bs with
  | nil => exact phase_pure
  | cons a ts ih =>
    refine phase_bind phase_lift fun _ _ => phase_bind (Q := fun st => st addSeaside = some true) (phase_tick fun st _ => ⟨_, rfl, by simp⟩) fun _ _ =>
      phase_bind phase_lift fun _ _ => phase_bind (phase_tick fun st h => ⟨_, by simp [phase, stepsOf, h]; rfl, trivial⟩) fun _ _ => ih _

theorem featuresSeq_phase (ctx : GetCtx) (s : TileSpec) (strs : List Bytes) (bs : Builders) (n : Nat) :
    PhaseOk stepsOf (fun st => st query = some false) (featuresSeq ctx s bs n strs) (fun st => st query = some false) := by
  induction strs generalizing bs n with
  | nil => exact phase_pure
  | cons a strs ih =>
    refine phase_bind (Q := fun st => st query = some false ∧ st deserOkay = some true ∧ st deserSkip = some true) (phase_tick fun st h => ⟨_, rfl, by simp [h]⟩) fun _ _ =>
      phase_bind phase_lift fun f _ => ?_
    cases f with
    | none => exact phase_bind (phase_tick fun st h => ⟨_, by simp [phase, stepsOf, h]; rfl, by simp [h]⟩) fun _ _ => ih _ _
    | some f =>
      refine phase_bind (Q := fun st => st query = some false ∧ st PerfTask.add = some true) (phase_tick fun st h => ⟨_, by simp [phase, stepsOf, h]; rfl, by simp [h]⟩) fun _ _ =>
        phase_bind phase_lift fun _ _ => phase_bind (phase_tick fun st h => ⟨_, by simp [phase, stepsOf, h]; rfl, by simp [h]⟩) fun _ _ => ih _ _

theorem packSeq_phase (ctx : GetCtx) (s : TileSpec) (bs : Builders) (n : Nat) (t : Tile) (p : Bytes) :
    PhaseOk stepsOf (fun st => st query ≠ none) (packSeq ctx s bs n t p) (fun st => st query ≠ none) := by
  refine phase_bind (Q := fun st => st query = some false) (phase_tick fun st h => ?_) fun _ _ => phase_bind phase_lift fun ss _ =>
    phase_bind (featuresSeq_phase ..) fun _ _ => phase_bind (Q := fun st => st query ≠ none) (phase_tick fun st h => ⟨_, rfl, by simp [h]⟩) fun _ _ => phase_pure
  rcases hq : st query with _ | _ | _
  · exact absurd hq h
  · exact ⟨st, by simp [phase, stepsOf, hq], hq⟩
  · exact ⟨_, by simp [phase, stepsOf, hq]; rfl, by simp⟩

theorem valuesSeq_phase (pf : PackFile) (ctx : GetCtx) (s : TileSpec) (es : List (Tile × Bytes)) (bs : Builders) (n : Nat) :
    PhaseOk stepsOf (fun st => st query ≠ none) (valuesSeq pf ctx s bs n es) (fun st => st query ≠ none) := by
  have hr : ∀ t (rs : List PackRecord) bs n, PhaseOk stepsOf (fun st => st query ≠ none) (recordsSeq pf ctx s t bs n rs) (fun st => st query ≠ none) := by
    intro t rs
    induction rs with
    | nil => intro _ _; exact phase_pure
    | cons r rs ih => intro _ _; exact phase_bind phase_lift fun _ _ => phase_bind (packSeq_phase ..) fun _ _ => ih _ _
  induction es generalizing bs n with
  | nil => exact phase_pure
  | cons r rs ih => exact phase_bind phase_lift fun _ _ => phase_bind (hr ..) fun _ _ => ih _ _

theorem finishSeq_steps (ctx : GetCtx) (tile : Tile) (s : TileSpec) (bs : Builders) (n : Nat) :
    PhaseOk stepsOf (fun _ => True) (finishSeq ctx tile s bs n) (fun _ => True) := by
  rw [finishSeq]
  refine phase_bind phase_lift fun full _ => ?_
  split
  · exact phase_pure
  · refine phase_bind (Q := fun st => st finish = some true) (phase_tick fun st _ => ⟨_, rfl, by simp⟩) fun _ _ => phase_bind phase_lift fun bytes _ =>
      phase_bind (Q := fun _ => True) (phase_tick fun st h => ⟨_, by simp [phase, stepsOf, h]; rfl, trivial⟩) fun _ _ => ?_
    split
    · exact phase_pure
    · cases ctx.deflate with
      | some z => exact phase_bind (phase_tick fun st h => ⟨_, by simp [phase, stepsOf]; rfl, trivial⟩) fun _ _ => phase_pure
      | none => exact phase_bind (phase_tick fun st h => ⟨_, rfl, trivial⟩) fun _ _ => phase_pure

theorem finishSeq_parts (ctx : GetCtx) (tile : Tile) (s : TileSpec) (bs : Builders) (n : Nat) :
    PhaseOk partsOf (fun st => st render = some true) (finishSeq ctx tile s bs n) (fun _ => True) := by
  rw [finishSeq]
  refine phase_bind phase_lift fun full _ => ?_
  split
  · exact phase_weaken (phase_pure (P := fun _ => True)) (fun _ _ => trivial) (fun _ h => h)
  · refine phase_bind (Q := fun st => st render = some true) (phase_tick fun st h => ⟨_, rfl, h⟩) fun _ _ => phase_bind phase_lift fun bytes _ =>
      phase_bind (Q := fun _ => True) (phase_tick fun st h => ⟨_, by simp [phase, partsOf, h]; rfl, trivial⟩) fun _ _ => ?_
    split
    · exact phase_pure
    · cases ctx.deflate with
      | some z => exact phase_bind (phase_tick fun st h => ⟨_, by simp [phase, partsOf]; rfl, trivial⟩) fun _ _ => phase_pure
      | none => exact phase_bind (phase_tick fun st h => ⟨_, rfl, trivial⟩) fun _ _ => phase_pure

theorem renderTileSeq_steps (ctx : GetCtx) (tile : Tile) (packs : TileSpec → Builders → Traced (Builders × Nat))
    (hp : ∀ s bs, PhaseOk stepsOf (fun st => st query ≠ none) (packs s bs) (fun st => st query ≠ none)) :
    PhaseOk stepsOf (fun _ => True) (renderTileSeq ctx tile packs) (fun _ => True) := by
  refine phase_bind (Q := fun _ => True) (phase_tick fun st h => ⟨_, rfl, trivial⟩) fun _ _ => phase_bind phase_lift fun s _ => phase_bind (Q := fun _ => True) ?_ fun bs _ =>
    phase_bind (Q := fun st => st query ≠ none) (phase_tick fun st h => ⟨_, rfl, by simp⟩) fun _ _ => phase_bind (hp ..) fun _ _ =>
      phase_weaken (finishSeq_steps ..) (fun _ _ => trivial) (fun _ h => h)
  exact phase_bind (Q := fun st => st findSeaside = some true) (phase_tick fun st h => ⟨_, rfl, by simp⟩) fun _ _ => phase_bind phase_lift fun _ _ =>
    phase_bind (phase_tick fun st h => ⟨_, by simp [phase, stepsOf, h]; rfl, trivial⟩) fun _ _ => seasideSeq_phase ..

theorem renderTileSeq_parts (ctx : GetCtx) (tile : Tile) (packs : TileSpec → Builders → Traced (Builders × Nat))
    (hp : ∀ s bs t, partsOf t → (packs s bs).Avoids t) : PhaseOk partsOf (fun _ => True) (renderTileSeq ctx tile packs) (fun _ => True) := by
  refine phase_bind (Q := fun st => st render = some true) (phase_tick fun st h => ⟨_, rfl, by simp⟩) fun _ _ => phase_bind phase_lift fun s _ =>
    phase_bind (phase_avoids fun t ht => ?_) fun bs _ => phase_bind (phase_avoids fun t ht => avoids_tick ?_) fun _ _ => phase_bind (phase_avoids (hp s bs)) fun _ _ =>
      finishSeq_parts ..
  · refine avoids_bind (avoids_tick ?_) fun _ _ => avoids_bind avoids_lift fun _ _ => avoids_bind (avoids_tick ?_) fun _ _ => seasideSeq_avoids ?_ ..
    all_goals cases t <;> simp_all [PerfOp.task, partsOf]
  · cases t <;> simp_all [PerfOp.task, partsOf]

theorem body_steps (c : TileCall) : PhaseOk stepsOf (fun _ => True) (getTileBody c.tiles c.features c.pf c.ctx c.tile) (fun _ => True) := by
  rw [getTileBody]
  split
  · refine phase_bind (Q := fun st => st fetch = some true) (phase_tick fun st h => ⟨_, rfl, by simp⟩) fun _ _ => phase_bind phase_lift fun k _ =>
      phase_bind (Q := fun _ => True) (phase_tick fun st h => ⟨_, by simp [phase, stepsOf, h]; rfl, trivial⟩) fun _ _ => ?_
    cases c.tiles k with
    | some t => exact phase_pure
    | none =>
      refine phase_bind phase_lift fun k _ => ?_
      split
      · exact renderTileSeq_steps _ _ _ fun _ _ => phase_pure
      · exact phase_pure
  · exact renderTileSeq_steps _ _ _ fun _ _ => phase_bind phase_lift fun _ _ => valuesSeq_phase ..

theorem body_parts (c : TileCall) : PhaseOk partsOf (fun _ => True) (getTileBody c.tiles c.features c.pf c.ctx c.tile) (fun _ => True) := by
  rw [getTileBody]
  split
  · refine phase_bind (Q := fun st => st fetch = some true) (phase_tick fun st h => ⟨_, rfl, by simp⟩) fun _ _ => phase_bind phase_lift fun k _ =>
      phase_bind (Q := fun _ => True) (phase_tick fun st h => ⟨_, by simp [phase, partsOf, h]; rfl, trivial⟩) fun _ _ => ?_
    cases c.tiles k with
    | some t => exact phase_pure
    | none =>
      refine phase_bind phase_lift fun k _ => ?_
      split
      · exact renderTileSeq_parts _ _ _ fun _ _ _ _ => avoids_pure
      · exact phase_pure
  · refine renderTileSeq_parts _ _ _ fun _ _ t ht => avoids_bind avoids_lift fun _ _ => valuesSeq_avoids ?_ ..
    cases t <;> simp_all [partsOf]

theorem perfRun_append (p : Perf) (l m : List (Int × PerfOp)) : perfRun p (l ++ m) = perfRun (perfRun p l) m := by
  induction l generalizing p with
  | nil => rfl
  | cons o l ih => exact ih _

theorem perfRun_avoid (t : PerfTask) (l : List (Int × PerfOp)) (p : Perf) (h : ∀ o ∈ l.map Prod.snd, o.task ≠ t) :
    (perfRun p l).running t = p.running t ∧ (perfRun p l).finished t = p.finished t := by
  induction l generalizing p with
  | nil => exact ⟨rfl, rfl⟩
  | cons o l ih =>
    obtain ⟨now, o⟩ := o
    rw [perfRun]
    obtain ⟨i1, i2⟩ := ih (perfStep p now o) fun o ho => h o (by simp at ho ⊢; exact .inr ho)
    have h1 := h o (by simp)
    rw [i1, i2]
    cases o with
    | start u => have : t ≠ u := fun e => h1 e.symm
                 simp [perfStep, this]
    | append u v => have : t ≠ u := fun e => h1 e.symm
                    simp [perfStep, this]
    | stop u =>
      have : t ≠ u := fun e => h1 e.symm
      cases hr : p.running u <;> simp [perfStep, hr, this]

theorem session_sum (S : PerfTask → Bool) (hS : S total = false) (h : ∀ c : TileCall, PhaseOk S (fun _ => True) (getTileBody c.tiles c.features c.pf c.ctx c.tile) (fun _ => True))
    (calls : List TileCall) (l : List (Int × PerfOp)) (hl : Session calls l) (hs : Steady l) (p : Perf) (hp : perfSum S p ≤ (p.finished total).sum) :
    perfSum S (perfRun p l) ≤ ((perfRun p l).finished total).sum := by
  induction calls generalizing l p with
  | nil =>
    have : l = [] := by simpa [Session] using hl
    subst this
    exact hp
  | cons c calls ih =>
    rw [Session, List.flatMap_cons] at hl
    obtain ⟨l1, l2, rfl, e1, e2⟩ := List.map_eq_append_iff.1 hl
    obtain ⟨s1, s2⟩ := hs
    rw [List.pairwise_append] at s1
    rw [perfRun_append]
    refine ih l2 e2 ⟨s1.2.1, fun a ha => s2 a (by simp [ha])⟩ _ ?_
    rw [run_ops] at e1
    split at e1
    · rw [List.cons_append] at e1
      obtain ⟨⟨t0, o0⟩, l3, rfl, e3, e4⟩ := List.map_eq_cons_iff.1 e1
      obtain ⟨l4, l5, rfl, e5, e6⟩ := List.map_eq_append_iff.1 e4
      obtain ⟨⟨t1, o1⟩, l6, rfl, e7, e8⟩ := List.map_eq_cons_iff.1 e6
      have : l6 = [] := by simpa using e8
      subst this
      dsimp only at e3 e7
      subst e3 e7
      have s3 := s1.1
      have a0 := s2 (t0, .start total) (by simp)
      have a1 := s2 (t1, .stop total) (by simp)
      have p1 := List.pairwise_cons.1 s3
      have p2 := List.pairwise_append.1 p1.2
      have hle : t0 ≤ t1 := p1.1 (t1, .stop total) (by simp)
      dsimp only at a0 a1
      rw [perfRun, perfRun_append, perfRun, perfRun]
      obtain ⟨r1, r2⟩ := perfRun_avoid total l4 (perfStep p t0 (.start total)) (by rw [e5]; exact (getTileBody_total c).mem)
      obtain ⟨st', q1, _⟩ := (h c).run (fun _ => none) trivial
      have hsum := phase_sum S t1 a1.2 l4 (fun _ => none) st' (perfStep p t0 (.start total)) t0 t0 (by rw [e5]; exact q1) (by simp) (by simp) a0.1 le_rfl hle p2.1
        (fun a ha => ⟨p1.1 a (by simp [ha]), p2.2.2 a ha (t1, .stop total) (by simp)⟩)
      generalize perfRun (perfStep p t0 (.start total)) l4 = q at r1 r2 hsum
      have r1 : q.running total = some t0 := by rw [r1]; simp [perfStep]
      have r2 : q.finished total = p.finished total := by rw [r2]; rfl
      have hsum : (perfSum S q : Int) ≤ perfSum S p + (t1 - t0) := hsum
      have hf : (perfStep q t1 (.stop total)).finished = fun u => if u = total then q.finished total ++ [((t1 - t0) % 2 ^ 64).toNat] else q.finished u := by
        simp only [perfStep, r1]
      rw [perfSum_add S q _ total _ hf, hS, hf]
      rw [Int.emod_eq_of_lt (by omega) (by omega)]
      simp only [if_true, Bool.false_eq_true, if_false, List.sum_append, r2, List.sum_cons, List.sum_nil]
      omega
    · have : l1 = [] := by simpa using e1
      subst this
      exact hp

/-- Times: with a clock that does not go back, whatever happens in the session, the times recorded for fetching, rendering and compressing add up to no more than the total
times. -/
theorem C65_parts (calls : List TileCall) (l : List (Int × PerfOp)) (hl : Session calls l) (hs : Steady l) :
    ((perfRun perfInit l).finished fetch).sum + ((perfRun perfInit l).finished render).sum + ((perfRun perfInit l).finished compress).sum ≤
      ((perfRun perfInit l).finished total).sum := by
  have := session_sum partsOf rfl body_parts calls l hl hs perfInit (by decide)
  simp [perfSum, partsOf] at this
  omega

/-- So do the times of all steps, except ITER. -/
theorem C65_steps (calls : List TileCall) (l : List (Int × PerfOp)) (hl : Session calls l) (hs : Steady l) :
    ((perfRun perfInit l).finished fetch).sum + ((perfRun perfInit l).finished findSeaside).sum + ((perfRun perfInit l).finished addSeaside).sum +
      ((perfRun perfInit l).finished query).sum + ((perfRun perfInit l).finished deserOkay).sum + ((perfRun perfInit l).finished deserSkip).sum +
      ((perfRun perfInit l).finished PerfTask.add).sum + ((perfRun perfInit l).finished finish).sum + ((perfRun perfInit l).finished compress).sum ≤
      ((perfRun perfInit l).finished total).sum := by
  have := session_sum stepsOf rfl body_steps calls l hl hs perfInit (by decide)
  simp [perfSum, stepsOf] at this
  omega

/-! ### ITER -/

/-- how the code uses ITER: not at all, or it stops it first and leaves it started -/
def IterUse (l : List PerfOp) : Bool → Prop
  | false => ∀ o ∈ l, o.task ≠ iter
  | true => (∃ pre post, l = pre ++ .stop iter :: post ∧ ∀ o ∈ pre, o.task ≠ iter) ∧ ∃ pre post, l = pre ++ .start iter :: post ∧ ∀ o ∈ post, o.task ≠ iter

theorem IterUse.append {l m : List PerfOp} {a b : Bool} (h1 : IterUse l a) (h2 : IterUse m b) : IterUse (l ++ m) (a || b) := by
  have av : ∀ {l m : List PerfOp}, (∀ o ∈ l, o.task ≠ iter) → (∀ o ∈ m, o.task ≠ iter) → ∀ o ∈ l ++ m, o.task ≠ iter := by
    intro l m h1 h2 o ho
    exact (List.mem_append.1 ho).elim (h1 o) (h2 o)
  cases a <;> cases b
  · exact av h1 h2
  · obtain ⟨⟨p, q, e, h⟩, p', q', e', h'⟩ := h2
    exact ⟨⟨l ++ p, q, by rw [e]; simp, av h1 h⟩, l ++ p', q', by rw [e']; simp, h'⟩
  · obtain ⟨⟨p, q, e, h⟩, p', q', e', h'⟩ := h1
    exact ⟨⟨p, q ++ m, by rw [e]; simp, h⟩, p', q' ++ m, by rw [e']; simp, av h' h2⟩
  · obtain ⟨⟨p, q, e, h⟩, _⟩ := h1
    obtain ⟨_, p', q', e', h'⟩ := h2
    exact ⟨⟨p, q ++ m, by rw [e]; simp, h⟩, l ++ p', q', by rw [e']; simp, h'⟩

theorem packSeq_iter (ctx : GetCtx) (s : TileSpec) (bs : Builders) (n : Nat) (t : Tile) (p : Bytes) (r : Builders × Nat) (h : (packSeq ctx s bs n t p).res = .ok r) :
    IterUse (packSeq ctx s bs n t p).ops true := by
  rw [packSeq] at h ⊢
  simp only [res_bind, res_lift, res_tick, res_pure, Res.bind_eq_ok, Res.ok.injEq] at h
  obtain ⟨_, _, ss, h1, _, h2, _, _, rfl⟩ := h
  rw [ops_tick_bind, ops_lift_ok h1, ops_bind_ok h2, ops_tick_bind]
  exact ⟨⟨[.stop query], _, rfl, by simp [PerfOp.task]⟩, [.stop query, .stop iter] ++ (featuresSeq ctx s bs n ss).ops, [], by simp [ops_pure], by simp⟩

theorem recordsSeq_iter (pf : PackFile) (ctx : GetCtx) (s : TileSpec) (t : Tile) (rs : List PackRecord) (bs : Builders) (n : Nat) (r : Builders × Nat)
    (h : (recordsSeq pf ctx s t bs n rs).res = .ok r) : ∃ ps, fetchRecords pf t rs = .ok ps ∧ IterUse (recordsSeq pf ctx s t bs n rs).ops (!ps.isEmpty) := by
  induction rs generalizing bs n with
  | nil => exact ⟨[], rfl, by simp [IterUse, recordsSeq, ops_pure]⟩
  | cons a rs ih =>
    rw [recordsSeq] at h ⊢
    simp only [res_bind, res_lift, Res.bind_eq_ok] at h
    obtain ⟨p, h1, ⟨bs', n'⟩, h2, h3⟩ := h
    obtain ⟨ps, h4, h5⟩ := ih _ _ h3
    refine ⟨(t, p) :: ps, by rw [fetchRecords, h1, Res.ok_bind, h4]; rfl, ?_⟩
    rw [ops_lift_ok h1, ops_bind_ok h2]
    exact (packSeq_iter _ _ _ _ _ _ _ h2).append h5

theorem valuesSeq_iter (pf : PackFile) (ctx : GetCtx) (s : TileSpec) (es : List (Tile × Bytes)) (bs : Builders) (n : Nat) (r : Builders × Nat)
    (h : (valuesSeq pf ctx s bs n es).res = .ok r) : ∃ ps, fetchValues pf es = .ok ps ∧ IterUse (valuesSeq pf ctx s bs n es).ops (!ps.isEmpty) := by
  induction es generalizing bs n with
  | nil => exact ⟨[], rfl, by simp [IterUse, valuesSeq, ops_pure]⟩
  | cons e es ih =>
    obtain ⟨t, v⟩ := e
    rw [valuesSeq] at h ⊢
    simp only [res_bind, res_lift, Res.bind_eq_ok] at h
    obtain ⟨rs, h1, ⟨bs', n'⟩, h2, h3⟩ := h
    obtain ⟨qs, h4, h5⟩ := ih _ _ h3
    obtain ⟨ps, h6, h7⟩ := recordsSeq_iter pf ctx s t rs bs n _ h2
    refine ⟨ps ++ qs, by rw [fetchValues, h1, Res.ok_bind, h6, Res.ok_bind, h4]; rfl, ?_⟩
    rw [ops_lift_ok h1, ops_bind_ok h2, show (!(ps ++ qs).isEmpty) = (!ps.isEmpty || !qs.isEmpty) by cases ps <;> cases qs <;> rfl]
    exact h7.append h5

theorem run_iter (c : TileCall) (b : Option Bytes) (h : getTile c.tiles c.features c.pf c.ctx c.tile = .ok b) (hw : wantsPrepared c = false) {ps : List (Tile × Bytes)}
    (hps : packsOf c.features c.pf c.tile = .ok ps) (hne : ps ≠ []) : IterUse c.run.ops true := by
  have hr := (C65_same c b).2 h
  rw [TileCall.run, getTileSeq, res_bind, res_lift] at hr
  obtain ⟨_, hz, hr⟩ := Res.bind_eq_ok.1 hr
  have hz : c.tile.z ≤ kMaxZoomLevel := by
    by_contra hc
    rw [decide_eq_false hc] at hz
    exact absurd hz (by simp)
  rw [run_ops, if_pos hz]
  rw [res_inScope, getTileBody] at hr
  have hw' : ¬ (c.ctx.ignorePrepared = false ∧ (c.tile.z : Int) ≤ c.ctx.maxPrepared) := by
    rw [wantsPrepared] at hw; exact of_decide_eq_false hw
  rw [if_neg hw', renderTileSeq] at hr
  rw [getTileBody, if_neg hw', renderTileSeq]
  simp only [res_bind, res_tick, Res.ok_bind, res_lift, Res.bind_eq_ok] at hr
  obtain ⟨s, h1, bs, h2, ⟨bs', n⟩, ⟨es, h3, h3'⟩, h4⟩ := hr
  have hx := hps
  rw [packsOf, h3, Res.ok_bind] at hx
  obtain ⟨ps', q1, q2⟩ := valuesSeq_iter c.pf c.ctx s es bs 0 _ h3'
  rw [hx] at q1
  injection q1 with q1
  subst q1
  have hne' : (!ps.isEmpty) = true := by cases ps with | nil => exact absurd rfl hne | cons _ _ => rfl
  rw [hne'] at q2
  rw [ops_tick_bind, ops_lift_ok h1, ops_bind_ok h2, ops_tick_bind, ops_bind_ok (a := (bs', n)) (by rw [res_bind, res_lift, h3]; exact h3'), ops_lift_ok h3]
  have hsea : IterUse (renderSeasideSeq c.ctx s []).ops false := by
    refine Avoids.mem ?_
    exact avoids_bind (avoids_tick (by simp [PerfOp.task])) fun _ _ => avoids_bind avoids_lift fun _ _ => avoids_bind (avoids_tick (by simp [PerfOp.task])) fun _ _ =>
      seasideSeq_avoids (by simp) ..
  have hfin : IterUse (finishSeq c.ctx c.tile s bs' n).ops false := (finishSeq_avoids (by simp) ..).mem
  have l1 : IterUse [.start total] false := by simp [IterUse, PerfOp.task]
  have l2 : IterUse [.stop total] false := by simp [IterUse, PerfOp.task]
  have l3 : IterUse [.start render] false := by simp [IterUse, PerfOp.task]
  have l4 : IterUse [.start query] false := by simp [IterUse, PerfOp.task]
  exact (l1.append (l3.append (hsea.append (l4.append (q2.append hfin))))).append l2

theorem perfRun_grows (t : PerfTask) (l : List (Int × PerfOp)) (p : Perf) {v : Nat} (h : v ∈ p.finished t) : v ∈ (perfRun p l).finished t := by
  induction l generalizing p with
  | nil => exact h
  | cons o l ih =>
    obtain ⟨now, o⟩ := o
    refine ih _ ?_
    cases o with
    | start u => exact h
    | append u w =>
      simp only [perfStep]
      split
      · rename_i e; rw [← e]; simp [h]
      · exact h
    | stop u =>
      simp only [perfStep]
      split
      · exact h
      · dsimp only
        split
        · rename_i e; rw [← e]; simp [h]
        · exact h

/-- ITER is different: it is left running at the end of a request, so when two requests that look at packs follow each other, a value is recorded that contains all the
time between them (a pause of the client, for instance), and the times of ITER can be more than the total times. -/
theorem C65_iter_gap (c1 c2 : TileCall) (l1 l2 : List (Int × PerfOp)) (h1 : Session [c1] l1) (h2 : Session [c2] l2) (hs : Steady (l1 ++ l2))
    (b1 b2 : Option Bytes) (g1 : getTile c1.tiles c1.features c1.pf c1.ctx c1.tile = .ok b1) (g2 : getTile c2.tiles c2.features c2.pf c2.ctx c2.tile = .ok b2)
    (w1 : wantsPrepared c1 = false) (w2 : wantsPrepared c2 = false) (ps1 ps2 : List (Tile × Bytes)) (k1 : packsOf c1.features c1.pf c1.tile = .ok ps1)
    (k2 : packsOf c2.features c2.pf c2.tile = .ok ps2) (n1 : ps1 ≠ []) (n2 : ps2 ≠ []) (t1 t2 : Int) (ht1 : ∀ a ∈ l1, a.1 ≤ t1) (ht2 : ∀ a ∈ l2, t2 ≤ a.1) :
    ∃ v ∈ (perfRun perfInit (l1 ++ l2)).finished iter, t2 - t1 ≤ v := by
  obtain ⟨_, pre, post, e1, a1⟩ := run_iter c1 b1 g1 w1 k1 n1
  obtain ⟨⟨pre', post', e2, a2⟩, _⟩ := run_iter c2 b2 g2 w2 k2 n2
  rw [Session, List.flatMap_cons, List.flatMap_nil, List.append_nil, e1] at h1
  rw [Session, List.flatMap_cons, List.flatMap_nil, List.append_nil, e2] at h2
  obtain ⟨x1, x2, rfl, f1, f2⟩ := List.map_eq_append_iff.1 h1
  obtain ⟨⟨u1, o1⟩, x3, rfl, f3, f4⟩ := List.map_eq_cons_iff.1 f2
  obtain ⟨y1, y2, rfl, f5, f6⟩ := List.map_eq_append_iff.1 h2
  obtain ⟨⟨u2, o2⟩, y3, rfl, f7, f8⟩ := List.map_eq_cons_iff.1 f6
  dsimp only at f3 f7
  subst f3 f7
  have r1 := ht1 (u1, .start iter) (by simp)
  have r2 := ht2 (u2, .stop iter) (by simp)
  have s1 := hs.2 (u1, .start iter) (by simp)
  have s2 := hs.2 (u2, .stop iter) (by simp)
  have hle : u1 ≤ u2 := (List.pairwise_append.1 hs.1).2.2 (u1, .start iter) (by simp) (u2, .stop iter) (by simp)
  dsimp only at r1 r2 s1 s2
  rw [perfRun_append, perfRun_append, perfRun, perfRun_append, perfRun]
  generalize perfRun perfInit x1 = p
  obtain ⟨i1, _⟩ := perfRun_avoid iter x3 (perfStep p u1 (.start iter)) (by rw [f4]; exact a1)
  obtain ⟨i2, _⟩ := perfRun_avoid iter y1 (perfRun (perfStep p u1 (.start iter)) x3) (by rw [f5]; exact a2)
  generalize perfRun (perfRun (perfStep p u1 (.start iter)) x3) y1 = q at i2
  rw [i1] at i2
  have i2 : q.running iter = some u1 := by rw [i2]; simp [perfStep]
  refine ⟨(u2 - u1).toNat, perfRun_grows _ _ _ ?_, by omega⟩
  simp only [perfStep, i2]
  rw [if_pos trivial, Int.emod_eq_of_lt (by omega) (by omega)]
  simp

/-! ### The report -/

theorem q95_bounds (fl : ℚ → ℚ) (hfl : Accurate fl) (n : Nat) (hn : 0 < n) : q95Index fl n < n ∧ (94 / 100 : ℚ) * n < q95Index fl n + 1 := by
  have hq : (0 : ℚ) < n := by exact_mod_cast hn
  have a1 := abs_le.1 (hfl n)
  have a2 := abs_le.1 (hfl (19 / 20))
  have a3 := abs_le.1 (hfl (fl n * fl (19 / 20)))
  rw [abs_of_pos hq] at a1
  rw [abs_of_pos (by norm_num)] at a2
  have b1 : fl n ≤ n * (1 + 1 / 2 ^ 53) := by linarith [a1.2]
  have b2 : n * (1 - 1 / 2 ^ 53) ≤ fl n := by linarith [a1.1]
  have b3 : fl (19 / 20) ≤ 96 / 100 := by
    have := a2.2
    have : (19 / 20 : ℚ) / 2 ^ 53 ≤ 1 / 100 := by norm_num
    linarith
  have b4 : (949 / 1000 : ℚ) ≤ fl (19 / 20) := by
    have := a2.1
    have : (19 / 20 : ℚ) / 2 ^ 53 ≤ 1 / 1000 := by norm_num
    linarith
  have b5 : 0 < fl n := lt_of_lt_of_le (by positivity) (le_trans (mul_le_mul_of_nonneg_left (by norm_num : (1 / 2 : ℚ) ≤ 1 - 1 / 2 ^ 53) hq.le) b2)
  have b6 : 0 < fl n * fl (19 / 20) := mul_pos b5 (by linarith)
  rw [abs_of_pos b6] at a3
  rw [q95Index]
  generalize fl (fl n * fl (19 / 20)) = r at a3 ⊢
  have c1 : fl n * fl (19 / 20) ≤ n * (97 / 100) := by
    calc fl n * fl (19 / 20) ≤ (n * (1 + 1 / 2 ^ 53)) * (96 / 100) := mul_le_mul b1 b3 (by linarith) (by positivity)
      _ ≤ n * (97 / 100) := by
        rw [mul_assoc]; exact mul_le_mul_of_nonneg_left (by norm_num) hq.le
  have c2 : n * (948 / 1000) ≤ fl n * fl (19 / 20) := by
    calc (n : ℚ) * (948 / 1000) ≤ (n * (1 - 1 / 2 ^ 53)) * (949 / 1000) := by rw [mul_assoc]; exact mul_le_mul_of_nonneg_left (by norm_num) hq.le
      _ ≤ _ := mul_le_mul b2 b4 (by norm_num) b5.le
  have c3 : fl n * fl (19 / 20) / 2 ^ 53 ≤ n / 1000 := by
    rw [div_le_iff₀ (by norm_num)]
    have : (n : ℚ) / 1000 * 2 ^ 53 = n * (2 ^ 53 / 1000) := by ring
    rw [this]
    exact c1.trans (mul_le_mul_of_nonneg_left (by norm_num) hq.le)
  have d1 : r < n := by linarith [a3.2]
  have d2 : 94 / 100 * (n : ℚ) < r := by linarith [a3.1]
  have d3 : (0 : ℚ) ≤ r := by linarith
  refine ⟨?_, d2.trans (Nat.lt_floor_add_one r)⟩
  have := (Nat.floor_le d3).trans_lt d1
  exact_mod_cast this

theorem countP_sorted {ms : List Nat} (hs : ms.Pairwise (· ≤ ·)) {k : Nat} (hk : k < ms.length) : k + 1 ≤ ms.countP (· ≤ ms[k]) := by
  have e : (ms.take (k + 1)).countP (· ≤ ms[k]) = k + 1 := by
    rw [List.countP_eq_length.2]
    · rw [List.length_take]; omega
    · intro x hx
      obtain ⟨i, hi, rfl⟩ := List.getElem_of_mem hx
      rw [List.length_take] at hi
      rw [List.getElem_take, decide_eq_true_eq]
      rcases Nat.lt_or_ge i k with h | h
      · exact List.pairwise_iff_getElem.1 hs i _ (by omega) hk h
      · have : i = k := by omega
        subst this
        exact le_rfl
  calc k + 1 = (ms.take (k + 1)).countP (· ≤ ms[k]) := e.symm
    _ ≤ (ms.take (k + 1)).countP (· ≤ ms[k]) + (ms.drop (k + 1)).countP (· ≤ ms[k]) := Nat.le_add_right _ _
    _ = (ms.take (k + 1) ++ ms.drop (k + 1)).countP (· ≤ ms[k]) := by rw [List.countP_append]
    _ = _ := by rw [List.take_append_drop]

/-- The report: with double arithmetic, the index of the 95% value is always within the list, the reported value is a measured one with (almost) 95% of the values up to it,
and the last one is the maximum. -/
theorem C65_report (fl : ℚ → ℚ) (hfl : Accurate fl) (m : List Nat) (hm : m ≠ []) :
    ∃ q b, perfReport fl m = .ok (m.length, q, b) ∧ q ∈ m ∧ b ∈ m ∧ (∀ x ∈ m, x ≤ b) ∧ 94 * m.length < 100 * m.countP (· ≤ q) := by
  have hl : m.mergeSort.length = m.length := List.length_mergeSort _
  have hpos : 0 < m.length := List.length_pos_of_ne_nil hm
  have hp : m.mergeSort.Perm m := List.mergeSort_perm _ _
  have hsort : m.mergeSort.Pairwise (· ≤ ·) := by
    have := List.pairwise_mergeSort (le := fun a b : Nat => decide (a ≤ b)) (by intro a b c; simp; omega) (by intro a b; simp; omega) m
    simpa using this
  obtain ⟨h1, h2⟩ := q95_bounds fl hfl m.length hpos
  have hne : m.mergeSort ≠ [] := fun e => by rw [e] at hl; simp at hl; omega
  have hidx : q95Index fl m.length < m.mergeSort.length := by omega
  refine ⟨m.mergeSort[q95Index fl m.length], m.mergeSort.getLast hne, ?_, hp.mem_iff.1 (List.getElem_mem _), hp.mem_iff.1 (List.getLast_mem _), fun x hx => ?_, ?_⟩
  · simp only [perfReport, hl]
    rw [List.getElem?_eq_getElem hidx, List.getLast?_eq_getLast_of_ne_nil hne]
  · have hx := hp.mem_iff.2 hx
    rw [← List.dropLast_append_getLast hne] at hsort hx
    rcases List.mem_append.1 hx with h | h
    · exact (List.pairwise_append.1 hsort).2.2 x h _ (by simp)
    · rw [List.mem_singleton.1 h]
  · rw [← hp.countP_eq]
    have := countP_sorted hsort hidx
    have h3 : (94 : ℚ) * m.length < 100 * (q95Index fl m.length + 1) := by linarith
    have h3 : 94 * m.length < 100 * (q95Index fl m.length + 1) := by exact_mod_cast h3
    omega

/-! ### A session -/

/-- a request that draws the imported feature of C52 -/
def C65_call : TileCall := ⟨fun _ => none, stored C52_entries, ((PackFile.mk [] 0).append C52_pack).1, { C54_ctx with maxPrepared := 5 }, ⟨1024, 0, 11⟩⟩
/-- the same request, one on a prepared level, one that is refused, and the first again -/
def C65_calls : List TileCall := [C65_call, { C65_call with tile := ⟨16, 0, 5⟩ }, { C65_call with tile := ⟨3, 0, 21⟩ }, C65_call]
/-- a tick between two readings of the clock, from a given time on -/
def C65_times (t : Nat) (calls : List TileCall) : List (Int × PerfOp) := (calls.flatMap fun c => c.run.ops).zipIdx.map fun p => ((t + p.2 : Nat), p.1)

theorem C65_times_session (t : Nat) (calls : List TileCall) : Session calls (C65_times t calls) := by
  simp [Session, C65_times, Function.comp_def]

example : Session C65_calls (C65_times 0 C65_calls) ∧ Steady (C65_times 0 C65_calls) ∧
    (∃ b, getTile C65_call.tiles C65_call.features C65_call.pf C65_call.ctx C65_call.tile = .ok (some b)) ∧
    (C65_calls.filter fun c => decide (c.tile.z ≤ 20)).length = 3 ∧ C65_calls.filterMap drawnSize = [46, 46] ∧
    (offered C65_call).countP (isKept C65_call) = 1 ∧ ((perfRun perfInit (C65_times 0 C65_calls)).finished total) = [17, 3, 17] ∧
    ((perfRun perfInit (C65_times 0 C65_calls)).finished PerfTask.add) = [1, 1] := by
  refine ⟨C65_times_session _ _, ⟨?_, ?_⟩, ?_, by decide +kernel, by decide +kernel, by decide +kernel, by decide +kernel, by decide +kernel⟩
  · decide +kernel
  · decide +kernel
  · have h : drawnSize C65_call = some 46 := by decide +kernel
    rw [drawnSize] at h
    split at h
    · rename_i b hb; exact ⟨b, hb⟩
    · exact absurd h (by simp)

/-- two requests of 17 ticks each, a pause of more than 1000 ticks between them: ITER reports the pause -/
example : Session [C65_call, C65_call] (C65_times 0 [C65_call] ++ C65_times 1000 [C65_call]) ∧ Steady (C65_times 0 [C65_call] ++ C65_times 1000 [C65_call]) ∧
    (perfRun perfInit (C65_times 0 [C65_call] ++ C65_times 1000 [C65_call])).finished total = [17, 17] ∧
    (perfRun perfInit (C65_times 0 [C65_call] ++ C65_times 1000 [C65_call])).finished iter = [994] := by
  refine ⟨?_, ⟨?_, ?_⟩, ?_, ?_⟩
  · have h := C65_times_session 0 [C65_call]
    have h' := C65_times_session 1000 [C65_call]
    rw [Session] at h h' ⊢
    rw [List.map_append, h, h']
    simp
  all_goals decide +kernel

end Tiles
