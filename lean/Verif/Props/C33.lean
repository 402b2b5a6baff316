import Verif.Proof.Threads
/-! C33 — the loops that collect the results of parallel workers.  The loop of load_coastlines.cc is right; the one of
repack_features.h reads the two counters in the wrong order and can stop with a result left in the queue. -/
namespace Tiles
variable {R : Type}

namespace Spec
mutual
/-- all results a task and the tasks it creates hand out -/
def resultsOf : WTask R → List R
  | .mk es => resultsOfEmits es
def resultsOfEmits : List (WTask R ⊕ R) → List R
  | [] => []
  | .inl t :: es => resultsOf t ++ resultsOfEmits es
  | .inr r :: es => r :: resultsOfEmits es
end
end Spec
open Spec

/-- full property, for both loops: when the collecting loop has ended, all results of all tasks were handled -/
def C33_full : Prop := ∀ (R : Type) (workFirst : Bool) (tasks : List (WTask R)) (workers : Nat) (s : DrainShared R × List (DrainPc R)),
  Reach (DrainStep workFirst) (drainInit tasks workers) s → .cExit ∈ s.2 →
  s.1.handled.Perm (tasks.flatMap resultsOf)

/-- units a thread contributes to the counter of the task queue -/
def DrainPc.work : DrainPc R → Nat
  | .wRun _ => 1
  | .wPutWork _ _ => 2
  | .wPutResult _ _ => 1
  | _ => 0

/-- units a thread contributes to the counter of the result queue -/
def DrainPc.result : DrainPc R → Nat
  | .wPutResult _ _ => 1
  | .cGot _ => 1
  | _ => 0

/-- results a thread is still going to hand out or handle -/
def DrainPc.held : DrainPc R → List R
  | .wRun es => resultsOfEmits es
  | .wPutWork t es => resultsOf t ++ resultsOfEmits es
  | .wPutResult r es => r :: resultsOfEmits es
  | .cGot r => [r]
  | _ => []

structure DrainInv (workFirst : Bool) (tasks : List (WTask R)) (s : DrainShared R × List (DrainPc R)) : Prop where
  work : s.1.work.pending = s.1.work.items.length + (s.2.map DrainPc.work).sum
  result : s.1.result.pending = s.1.result.items.length + (s.2.map DrainPc.result).sum
  cons : (s.1.handled ++ s.1.result.items ++ s.2.flatMap DrainPc.held ++ s.1.work.items.flatMap resultsOf).Perm
    (tasks.flatMap resultsOf)
  second : workFirst = true → .cSecond ∈ s.2 → s.1.work.pending = 0
  exit1 : .cExit ∈ s.2 → s.1.work.pending = 0
  exit2 : workFirst = true → .cExit ∈ s.2 → s.1.result.pending = 0

theorem drainInv_init (workFirst : Bool) (tasks : List (WTask R)) (n : Nat) : DrainInv workFirst tasks (drainInit tasks n) := by
  refine ⟨?_, ?_, ?_, ?_, ?_, ?_⟩
  · simp [drainInit, DrainPc.work, List.map_replicate]
  · simp [drainInit, DrainPc.result, List.map_replicate]
  · have : (List.replicate n (DrainPc.wIdle (R := R))).flatMap DrainPc.held = [] := by
      rw [List.flatMap_eq_nil_iff]; intro p hp; rw [(List.mem_replicate.1 hp).2]; rfl
    simp [drainInit, this, DrainPc.held]
  · intro _ h; simp [drainInit, List.mem_replicate] at h
  · intro h; simp [drainInit, List.mem_replicate] at h
  · intro _ h; simp [drainInit, List.mem_replicate] at h

theorem take_spec {A : Type} {q q' : WQueue A} {k : Option Nat} {a : A} (h : q.take k = some (a, q')) :
    q'.pending = q.pending ∧ q.items.Perm (a :: q'.items) := by
  simp only [WQueue.take] at h
  split at h
  · cases h
  · split at h
    · cases h
    · rename_i k b hb
      injection h with h; injection h with h1 h2; subst h1; subst h2
      refine ⟨rfl, ?_⟩
      obtain ⟨hk, rfl⟩ := List.getElem?_eq_some_iff.1 hb
      rw [List.eraseIdx_eq_take_drop_succ]
      refine List.Perm.trans (List.Perm.of_eq ?_) List.perm_middle
      simp

theorem mem_mid {P : Type} {a b : List P} {p q x : P} (hq : x ≠ q) (h : x ∈ a ++ q :: b) : x ∈ a ++ p :: b := by
  simp only [List.mem_append, List.mem_cons] at h ⊢
  rcases h with h | h | h
  · exact .inl h
  · exact absurd h hq
  · exact .inr (.inr h)

open Classical in
theorem perm_of_count {A : Type} {l m : List A} (h : ∀ x, l.count x = m.count x) : l.Perm m :=
  List.perm_iff_count.2 h

theorem drainInv_step (workFirst : Bool) (tasks : List (WTask R)) {s t : DrainShared R × List (DrainPc R)}
    (h : DrainInv workFirst tasks s) (st : DrainStep workFirst s t) : DrainInv workFirst tasks t := by
  classical
  obtain ⟨k, quit, s, s', a, b, p, p', hp⟩ := st
  obtain ⟨hw, hr, hc, h2, h3, h4⟩ := h
  dsimp only at hw hr hc h2 h3 h4
  simp only [List.map_append, List.map_cons, List.sum_append, List.sum_cons] at hw hr
  simp only [List.flatMap_append, List.flatMap_cons] at hc
  have hc' := fun x => List.perm_iff_count.1 hc x
  simp only [List.count_append] at hc'
  match p with
  | .wIdle =>
    simp only [drainStep] at hp
    split at hp
    · split at hp
      · injection hp with hp; injection hp with e1 e2; subst e1; subst e2
        refine ⟨?_, ?_, ?_, ?_, ?_, ?_⟩
        · simpa [DrainPc.work] using hw
        · simpa [DrainPc.result] using hr
        · simpa [DrainPc.held] using hc
        · exact fun e hm => h2 e (mem_mid (by simp) hm)
        · exact fun hm => h3 (mem_mid (by simp) hm)
        · exact fun e hm => h4 e (mem_mid (by simp) hm)
      · cases hp
    · split at hp
      · injection hp with hp; injection hp with e1 e2; subst e1; subst e2
        refine ⟨?_, ?_, ?_, h2, h3, h4⟩
        · simpa using hw
        · simpa using hr
        · simpa using hc
      · rename_i es q hq
        injection hp with hp; injection hp with e1 e2; subst e1; subst e2
        obtain ⟨hq1, hq2⟩ := take_spec hq
        have hl := hq2.length_eq
        simp only [List.length_cons] at hl
        refine ⟨?_, ?_, ?_, ?_, ?_, ?_⟩
        · simp only [List.map_append, List.map_cons, List.sum_append, List.sum_cons, DrainPc.work] at hw ⊢; omega
        · simpa [DrainPc.result] using hr
        · refine perm_of_count fun x => ?_
          have e := List.perm_iff_count.1 (hq2.flatMap_right resultsOf) x
          simp only [List.flatMap_cons, List.count_append, resultsOf] at e
          have hx := hc' x
          simp only [List.flatMap_append, List.flatMap_cons, List.count_append, DrainPc.held, List.count_nil] at hx ⊢
          omega
        · exact fun e hm => by dsimp only; rw [hq1]; exact h2 e (mem_mid (by simp) hm)
        · exact fun hm => by dsimp only; rw [hq1]; exact h3 (mem_mid (by simp) hm)
        · exact fun e hm => h4 e (mem_mid (by simp) hm)
  | .wRun (.inl t :: es) =>
    simp only [drainStep] at hp
    injection hp with hp; injection hp with e1 e2; subst e1; subst e2
    have hpos : 0 < s.work.pending := by simp only [DrainPc.work] at hw; omega
    refine ⟨?_, ?_, ?_, ?_, ?_, ?_⟩
    · simp only [List.map_append, List.map_cons, List.sum_append, List.sum_cons, DrainPc.work] at hw ⊢; omega
    · simpa [DrainPc.result] using hr
    · simpa [DrainPc.held, resultsOfEmits] using hc
    · exact fun e hm => by have := h2 e (mem_mid (by simp) hm); omega
    · exact fun hm => by have := h3 (mem_mid (by simp) hm); omega
    · exact fun e hm => h4 e (mem_mid (by simp) hm)
  | .wRun (.inr r :: es) =>
    simp only [drainStep] at hp
    injection hp with hp; injection hp with e1 e2; subst e1; subst e2
    have hpos : 0 < s.work.pending := by simp only [DrainPc.work] at hw; omega
    refine ⟨?_, ?_, ?_, ?_, ?_, ?_⟩
    · simpa [DrainPc.work] using hw
    · simp only [List.map_append, List.map_cons, List.sum_append, List.sum_cons, DrainPc.result] at hr ⊢; omega
    · simpa [DrainPc.held, resultsOfEmits] using hc
    · exact fun e hm => h2 e (mem_mid (by simp) hm)
    · exact fun hm => h3 (mem_mid (by simp) hm)
    · exact fun e hm => by have := h3 (mem_mid (by simp) hm); omega
  | .wRun [] =>
    simp only [drainStep] at hp
    injection hp with hp; injection hp with e1 e2; subst e1; subst e2
    have hpos : 0 < s.work.pending := by simp only [DrainPc.work] at hw; omega
    refine ⟨?_, ?_, ?_, ?_, ?_, ?_⟩
    · simp only [List.map_append, List.map_cons, List.sum_append, List.sum_cons, DrainPc.work] at hw ⊢; omega
    · simpa [DrainPc.result] using hr
    · simpa [DrainPc.held, resultsOfEmits] using hc
    · exact fun e hm => by have := h2 e (mem_mid (by simp) hm); omega
    · exact fun hm => by have := h3 (mem_mid (by simp) hm); omega
    · exact fun e hm => h4 e (mem_mid (by simp) hm)
  | .wPutWork t es =>
    simp only [drainStep] at hp
    injection hp with hp; injection hp with e1 e2; subst e1; subst e2
    refine ⟨?_, ?_, ?_, ?_, ?_, ?_⟩
    · simp only [List.map_append, List.map_cons, List.sum_append, List.sum_cons, DrainPc.work, List.length_append,
        List.length_cons, List.length_nil] at hw ⊢; omega
    · simpa [DrainPc.result] using hr
    · refine perm_of_count fun x => ?_
      have hx := hc' x
      simp only [List.flatMap_append, List.flatMap_cons, List.flatMap_nil, List.count_append, DrainPc.held, List.count_nil] at hx ⊢
      omega
    · exact fun e hm => h2 e (mem_mid (by simp) hm)
    · exact fun hm => h3 (mem_mid (by simp) hm)
    · exact fun e hm => h4 e (mem_mid (by simp) hm)
  | .wPutResult r es =>
    simp only [drainStep] at hp
    injection hp with hp; injection hp with e1 e2; subst e1; subst e2
    refine ⟨?_, ?_, ?_, ?_, ?_, ?_⟩
    · simpa [DrainPc.work] using hw
    · simp only [List.map_append, List.map_cons, List.sum_append, List.sum_cons, DrainPc.result, List.length_append,
        List.length_cons, List.length_nil] at hr ⊢; omega
    · refine perm_of_count fun x => ?_
      have hx := hc' x
      simp only [List.flatMap_append, List.flatMap_cons, List.count_append, DrainPc.held, List.count_cons, List.count_nil] at hx ⊢
      omega
    · exact fun e hm => h2 e (mem_mid (by simp) hm)
    · exact fun hm => h3 (mem_mid (by simp) hm)
    · exact fun e hm => h4 e (mem_mid (by simp) hm)
  | .wExit => simp [drainStep] at hp
  | .cExit => simp [drainStep] at hp
  | .cFirst =>
    simp only [drainStep] at hp
    by_cases hz : (if workFirst then s.work.pending else s.result.pending) = 0
    · rw [if_pos hz] at hp
      injection hp with hp; injection hp with e1 e2; subst e1; subst e2
      refine ⟨?_, ?_, ?_, ?_, ?_, ?_⟩
      · simpa [DrainPc.work] using hw
      · simpa [DrainPc.result] using hr
      · simpa [DrainPc.held] using hc
      · intro e hm; subst e; exact hz
      · exact fun hm => h3 (mem_mid (by simp) hm)
      · exact fun e hm => h4 e (mem_mid (by simp) hm)
    · rw [if_neg hz] at hp
      injection hp with hp; injection hp with e1 e2; subst e1; subst e2
      refine ⟨?_, ?_, ?_, ?_, ?_, ?_⟩
      · simpa [DrainPc.work] using hw
      · simpa [DrainPc.result] using hr
      · simpa [DrainPc.held] using hc
      · exact fun e hm => h2 e (mem_mid (by simp) hm)
      · exact fun hm => h3 (mem_mid (by simp) hm)
      · exact fun e hm => h4 e (mem_mid (by simp) hm)
  | .cSecond =>
    simp only [drainStep] at hp
    by_cases hz : (if workFirst then s.result.pending else s.work.pending) = 0
    · rw [if_pos hz] at hp
      injection hp with hp; injection hp with e1 e2; subst e1; subst e2
      refine ⟨?_, ?_, ?_, ?_, ?_, ?_⟩
      · simpa [DrainPc.work] using hw
      · simpa [DrainPc.result] using hr
      · simpa [DrainPc.held] using hc
      · exact fun e hm => h2 e (mem_mid (by simp) hm)
      · intro hm
        cases hwf : workFirst
        · subst hwf; exact hz
        · exact h2 hwf (by simp)
      · intro e hm; subst e; exact hz
    · rw [if_neg hz] at hp
      injection hp with hp; injection hp with e1 e2; subst e1; subst e2
      refine ⟨?_, ?_, ?_, ?_, ?_, ?_⟩
      · simpa [DrainPc.work] using hw
      · simpa [DrainPc.result] using hr
      · simpa [DrainPc.held] using hc
      · exact fun e hm => h2 e (mem_mid (by simp) hm)
      · exact fun hm => h3 (mem_mid (by simp) hm)
      · exact fun e hm => h4 e (mem_mid (by simp) hm)
  | .cDequeue =>
    simp only [drainStep] at hp
    split at hp
    · injection hp with hp; injection hp with e1 e2; subst e1; subst e2
      refine ⟨?_, ?_, ?_, ?_, ?_, ?_⟩
      · simpa [DrainPc.work] using hw
      · simpa [DrainPc.result] using hr
      · simpa [DrainPc.held] using hc
      · exact fun e hm => h2 e (mem_mid (by simp) hm)
      · exact fun hm => h3 (mem_mid (by simp) hm)
      · exact fun e hm => h4 e (mem_mid (by simp) hm)
    · rename_i r q hq
      injection hp with hp; injection hp with e1 e2; subst e1; subst e2
      obtain ⟨hq1, hq2⟩ := take_spec hq
      have hl := hq2.length_eq
      simp only [List.length_cons] at hl
      refine ⟨?_, ?_, ?_, ?_, ?_, ?_⟩
      · simpa [DrainPc.work] using hw
      · simp only [List.map_append, List.map_cons, List.sum_append, List.sum_cons, DrainPc.result] at hr ⊢; omega
      · refine perm_of_count fun x => ?_
        have e := List.perm_iff_count.1 hq2 x
        have hx := hc' x
        simp only [List.flatMap_append, List.flatMap_cons, List.count_append, DrainPc.held, List.count_cons, List.count_nil] at e hx ⊢
        omega
      · exact fun e hm => h2 e (mem_mid (by simp) hm)
      · exact fun hm => h3 (mem_mid (by simp) hm)
      · exact fun e hm => by dsimp only; rw [hq1]; exact h4 e (mem_mid (by simp) hm)
  | .cGot r =>
    simp only [drainStep] at hp
    injection hp with hp; injection hp with e1 e2; subst e1; subst e2
    have hpos : 0 < s.result.pending := by simp only [DrainPc.result] at hr; omega
    refine ⟨?_, ?_, ?_, ?_, ?_, ?_⟩
    · simpa [DrainPc.work] using hw
    · simp only [List.map_append, List.map_cons, List.sum_append, List.sum_cons, DrainPc.result] at hr ⊢; omega
    · refine perm_of_count fun x => ?_
      have hx := hc' x
      simp only [List.flatMap_append, List.flatMap_cons, List.count_append, DrainPc.held, List.count_cons, List.count_nil] at hx ⊢
      omega
    · exact fun e hm => h2 e (mem_mid (by simp) hm)
    · exact fun hm => h3 (mem_mid (by simp) hm)
    · exact fun e hm => by have := h4 e (mem_mid (by simp) hm); omega

theorem drainInv_reach (workFirst : Bool) (tasks : List (WTask R)) (n : Nat) {s : DrainShared R × List (DrainPc R)}
    (h : Reach (DrainStep workFirst) (drainInit tasks n) s) : DrainInv workFirst tasks s := by
  induction h with
  | refl => exact drainInv_init workFirst tasks n
  | step _ st ih => exact drainInv_step workFirst tasks ih st

theorem no_work_held {s : List (DrainPc R)} (h : (s.map DrainPc.work).sum = 0) (h' : (s.map DrainPc.result).sum = 0) :
    s.flatMap DrainPc.held = [] := by
  rw [List.flatMap_eq_nil_iff]
  intro p hp
  have h1 := List.sum_eq_zero_iff_forall_eq_nat.1 h _ (List.mem_map.2 ⟨p, hp, rfl⟩)
  have h2 := List.sum_eq_zero_iff_forall_eq_nat.1 h' _ (List.mem_map.2 ⟨p, hp, rfl⟩)
  cases p <;> simp [DrainPc.work, DrainPc.result, DrainPc.held] at h1 h2 ⊢

/-- The coastline loader: whatever the interleaving, the number of workers and the tree of tasks, when the collecting loop has
ended every result of every task was handled, each exactly once, and no task and no result is left. -/
theorem C33_coastline_loop (tasks : List (WTask R)) (workers : Nat) (s : DrainShared R × List (DrainPc R))
    (h : Reach (DrainStep true) (drainInit tasks workers) s) (he : .cExit ∈ s.2) :
    s.1.handled.Perm (tasks.flatMap resultsOf) ∧ s.1.work.items = [] ∧ s.1.result.items = [] := by
  obtain ⟨hw, hr, hc, h2, h3, h4⟩ := drainInv_reach true tasks workers h
  have e1 := h3 he
  have e2 := h4 rfl he
  have w1 : s.1.work.items = [] := List.eq_nil_of_length_eq_zero (by omega)
  have w2 : s.1.result.items = [] := List.eq_nil_of_length_eq_zero (by omega)
  have w3 := no_work_held (s := s.2) (by omega) (by omega)
  rw [w1, w2, w3] at hc
  exact ⟨by simpa using hc, w1, w2⟩

/-- Workers stop only when every task is finished: none is waiting and no thread runs one. -/
theorem C33_workers_stop (workFirst : Bool) (tasks : List (WTask R)) (workers : Nat) (s t : DrainShared R × List (DrainPc R))
    (a b : List (DrainPc R)) (k : Option Nat)
    (h : Reach (DrainStep workFirst) (drainInit tasks workers) s) (hs : s.2 = a ++ .wIdle :: b)
    (hq : drainStep workFirst k true s.1 .wIdle = some (t.1, .wExit)) :
    s.1.work.items = [] ∧ ∀ p ∈ s.2, (∀ es, p ≠ .wRun es) ∧ (∀ t es, p ≠ .wPutWork t es) ∧ (∀ r es, p ≠ .wPutResult r es) := by
  obtain ⟨hw, _, _, _, _, _⟩ := drainInv_reach workFirst tasks workers h
  have hz : s.1.work.pending = 0 := by
    simp only [drainStep, if_true] at hq
    split at hq
    · assumption
    · cases hq
  refine ⟨List.eq_nil_of_length_eq_zero (by omega), ?_⟩
  intro p hp
  have h1 := List.sum_eq_zero_iff_forall_eq_nat.1 (show (s.2.map DrainPc.work).sum = 0 by omega) _ (List.mem_map.2 ⟨p, hp, rfl⟩)
  refine ⟨?_, ?_, ?_⟩ <;> intros <;> rintro rfl <;> simp [DrainPc.work] at h1

/-- The repacking loop, what it does guarantee: when it has ended all tasks were run, nothing was handled twice, and whatever
was not handled is still in the result queue or is being handed over. -/
theorem C33_repack_loop_partial (tasks : List (WTask R)) (workers : Nat) (s : DrainShared R × List (DrainPc R))
    (h : Reach (DrainStep false) (drainInit tasks workers) s) (he : .cExit ∈ s.2) :
    ∃ rest, (s.1.handled ++ rest).Perm (tasks.flatMap resultsOf) ∧ rest = s.1.result.items ++ s.2.flatMap DrainPc.held ∧
      s.1.work.items = [] := by
  obtain ⟨hw, hr, hc, h2, h3, h4⟩ := drainInv_reach false tasks workers h
  have e1 := h3 he
  have w1 : s.1.work.items = [] := List.eq_nil_of_length_eq_zero (by omega)
  rw [w1] at hc
  exact ⟨_, by simpa using hc, rfl, w1⟩

/-- run a schedule: which thread moves and what its `dequeue` gives -/
def drainRun (workFirst : Bool) : DrainShared R × List (DrainPc R) → List (Nat × Option Nat) → Option (DrainShared R × List (DrainPc R))
  | s, [] => some s
  | s, (i, k) :: is => match runSched (drainStep workFirst k false) s [i] with
    | none => none
    | some t => drainRun workFirst t is

theorem drainRun_reach {workFirst : Bool} {s0 s t : DrainShared R × List (DrainPc R)} {is : List (Nat × Option Nat)}
    (h0 : Reach (DrainStep workFirst) s0 s) (h : drainRun workFirst s is = some t) : Reach (DrainStep workFirst) s0 t := by
  induction is generalizing s with
  | nil => simp only [drainRun] at h; injection h with h; subst h; exact h0
  | cons i is ih =>
    obtain ⟨i, k⟩ := i
    obtain ⟨s, ps⟩ := s
    simp only [drainRun] at h
    split at h
    · cases h
    · rename_i u hu
      refine ih (.step h0 ?_) h
      simp only [runSched] at hu
      split at hu
      · cases hu
      · rename_i p hp
        split at hu
        · cases hu
        · rename_i s' p' hst
          injection hu with hu; subst hu
          exact ⟨k, false, threadStep_set hp hst⟩

/-- one task with one result, one worker: the collector reads the result counter (0), the worker takes the task, hands out the result and
finishes, then the collector reads the task counter (0) and leaves -/
theorem C33_repack_loop_loses_result :
    ∃ s : DrainShared Nat × List (DrainPc Nat), Reach (DrainStep false) (drainInit [.mk [.inr 7]] 1) s ∧
      .cExit ∈ s.2 ∧ s.1.handled = [] ∧ s.1.result.items = [7] := by
  refine ⟨(⟨⟨0, []⟩, ⟨1, [7]⟩, []⟩, [.cExit, .wIdle]), ?_, by simp, rfl, rfl⟩
  exact drainRun_reach (is := [(0, none), (1, some 0), (1, none), (1, none), (1, none), (0, none)]) .refl rfl

/-- hypotheses of the coastline theorem met: a task that creates a task with a result, besides a result of its own -/
example : Reach (DrainStep true) (drainInit [.mk [.inl (.mk [.inr 1]), .inr 2]] 1)
    (⟨⟨0, []⟩, ⟨0, []⟩, [2, 1]⟩, [.cExit, .wIdle]) :=
  drainRun_reach (is := [(1, some 0), (1, none), (1, none), (1, none), (1, none), (1, none), (1, some 0), (0, none), (0, some 0),
    (0, none), (1, none), (1, none), (1, none), (0, none), (0, none), (0, some 0), (0, none), (0, none), (0, none)]) .refl rfl

/-- finding: the full property is false, because of the repacking loop -/
theorem C33_full_refuted : ¬ C33_full := by
  intro hfull
  obtain ⟨s, hr, he, hh, _⟩ := C33_repack_loop_loses_result
  have := hfull Nat false _ _ s hr he
  rw [hh] at this
  simp [resultsOf, resultsOfEmits] at this

end Tiles
