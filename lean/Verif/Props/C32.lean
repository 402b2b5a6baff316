import Verif.Proof.Threads
/-! C32 — `sequential_until_finish` hands out consecutive unique indices in production order, for every interleaving. -/
namespace Tiles
variable {T : Type}

/-- is the thread inside `process()`? -/
def SeqPc.inside : SeqPc T → Bool
  | .idle => false
  | _ => true

/-- the values returned so far: the first `m` produced values, each with its number, then `j` times "nothing" -/
def Spec.SeqOut (fn : Nat → Option T) (m j : Nat) (out : List (Option (Nat × T))) : Prop :=
  ∃ ts : List T, ts.length = m ∧ (∀ i, i < m → fn i = ts[i]?) ∧
    out = ts.zipIdx.map (fun p => some (p.2, p.1)) ++ List.replicate j none
open Spec

/-- what holds for the thread inside `process()` -/
def SeqOk (fn : Nat → Option T) (s : SeqShared T) (m j : Nat) : SeqPc T → Prop
  | .idle => False
  | .locked => s.counter = m ∧ (s.finished = false → s.calls = m ∧ j = 0) ∧ (s.finished = true → fn m = none ∧ s.calls = m + 1)
  | .calling n => n = m ∧ j = 0 ∧ s.finished = false ∧ s.counter = m ∧ s.calls = m + 1
  | .called t => t = fn m ∧ j = 0 ∧ s.finished = false ∧ s.counter = m ∧ s.calls = m + 1
  | .returning none => s.finished = true ∧ s.counter = m ∧ s.calls = m + 1 ∧ fn m = none
  | .returning (some (c, t)) => c = m ∧ j = 0 ∧ fn m = some t ∧ s.finished = false ∧ s.counter = m + 1 ∧ s.calls = m + 1

/-- the invariant -/
def SeqInv (fn : Nat → Option T) (s : SeqShared T × List (SeqPc T)) : Prop :=
  ∃ m j, SeqOut fn m j s.1.out ∧
    ((s.1.mutex = false ∧ s.2.filter SeqPc.inside = [] ∧ SeqOk fn s.1 m j .locked) ∨
     (s.1.mutex = true ∧ ∃ p, s.2.filter SeqPc.inside = [p] ∧ SeqOk fn s.1 m j p))

theorem SeqOut.snoc_some {fn : Nat → Option T} {m : Nat} {out : List (Option (Nat × T))} {t : T}
    (h : SeqOut fn m 0 out) (ht : fn m = some t) : SeqOut fn (m + 1) 0 (out ++ [some (m, t)]) := by
  obtain ⟨ts, hl, hf, rfl⟩ := h
  refine ⟨ts ++ [t], by simp [hl], ?_, ?_⟩
  · intro i hi
    by_cases h1 : i < m
    · rw [List.getElem?_append_left (by omega), hf i h1]
    · have : i = m := by omega
      subst this; subst hl
      rw [ht]; simp
  · simp [List.zipIdx_append, hl]

theorem SeqOut.snoc_none {fn : Nat → Option T} {m j : Nat} {out : List (Option (Nat × T))}
    (h : SeqOut fn m j out) : SeqOut fn m (j + 1) (out ++ [none]) := by
  obtain ⟨ts, hl, hf, rfl⟩ := h
  exact ⟨ts, hl, hf, by simp [List.replicate_succ', List.append_assoc]⟩

theorem seqInv_init (fn : Nat → Option T) (n : Nat) : SeqInv fn (seqInit n) := by
  refine ⟨0, 0, ⟨[], rfl, by simp, rfl⟩, .inl ⟨rfl, ?_, rfl, fun _ => ⟨rfl, rfl⟩, fun h => by cases h⟩⟩
  simp [seqInit, SeqPc.inside]

theorem seqInv_step (fn : Nat → Option T) {s t : SeqShared T × List (SeqPc T)} (h : SeqInv fn s)
    (st : ThreadStep (seqStep fn) s t) : SeqInv fn t := by
  obtain ⟨s, s', a, b, p, p', hp⟩ := st
  obtain ⟨m, j, ho, hcase⟩ := h
  dsimp only at ho hcase
  cases p with
  | idle =>
    simp only [seqStep] at hp
    split at hp
    · cases hp
    · rename_i hm
      injection hp with hp; injection hp with e1 e2; subst e1; subst e2
      rcases hcase with ⟨_, hf, hok⟩ | ⟨hm', _⟩
      · refine ⟨m, j, ho, .inr ⟨rfl, .locked, ?_, hok⟩⟩
        obtain ⟨ha, hb⟩ := filter_split_neg hf rfl
        exact filter_join ha hb rfl
      · exact absurd hm' hm
  | locked =>
    rcases hcase with ⟨_, hf, _⟩ | ⟨hm, q, hf, hok⟩
    · simp [List.filter_append, SeqPc.inside] at hf
    obtain ⟨ha, hb, rfl⟩ := filter_split hf rfl
    simp only [seqStep] at hp
    split at hp
    · rename_i hfin
      injection hp with hp; injection hp with e1 e2; subst e1; subst e2
      refine ⟨m, j, ho, .inr ⟨hm, .returning none, filter_join ha hb rfl, ?_⟩⟩
      obtain ⟨h1, h2, h3⟩ := hok
      exact ⟨hfin, h1, (h3 hfin).2, (h3 hfin).1⟩
    · rename_i hfin
      injection hp with hp; injection hp with e1 e2; subst e1; subst e2
      obtain ⟨h1, h2, h3⟩ := hok
      have hfin' : s.finished = false := by simpa using hfin
      refine ⟨m, j, ho, .inr ⟨hm, .calling s.calls, filter_join ha hb rfl, ?_⟩⟩
      exact ⟨(h2 hfin').1, (h2 hfin').2, hfin', h1, by simp [(h2 hfin').1]⟩
  | calling n =>
    rcases hcase with ⟨_, hf, _⟩ | ⟨hm, q, hf, hok⟩
    · simp [List.filter_append, SeqPc.inside] at hf
    obtain ⟨ha, hb, rfl⟩ := filter_split hf rfl
    simp only [seqStep] at hp
    injection hp with hp; injection hp with e1 e2; subst e1; subst e2
    obtain ⟨rfl, h⟩ := hok
    exact ⟨n, j, ho, .inr ⟨hm, .called (fn n), filter_join ha hb rfl, rfl, h⟩⟩
  | called r =>
    rcases hcase with ⟨_, hf, _⟩ | ⟨hm, q, hf, hok⟩
    · simp [List.filter_append, SeqPc.inside] at hf
    obtain ⟨ha, hb, rfl⟩ := filter_split hf rfl
    obtain ⟨hr, h1, h2, h3, h4⟩ := hok
    cases r with
    | none =>
      simp only [seqStep] at hp
      injection hp with hp; injection hp with e1 e2; subst e1; subst e2
      exact ⟨m, j, ho, .inr ⟨hm, .returning none, filter_join ha hb rfl,
        rfl, h3, h4, hr.symm⟩⟩
    | some r =>
      simp only [seqStep] at hp
      injection hp with hp; injection hp with e1 e2; subst e1; subst e2
      exact ⟨m, j, ho, .inr ⟨hm, .returning (some (s.counter, r)), filter_join ha hb rfl,
        h3, h1, hr.symm, h2, by simp [h3], h4⟩⟩
  | returning r =>
    rcases hcase with ⟨_, hf, _⟩ | ⟨hm, q, hf, hok⟩
    · simp [List.filter_append, SeqPc.inside] at hf
    obtain ⟨ha, hb, rfl⟩ := filter_split hf rfl
    simp only [seqStep] at hp
    injection hp with hp; injection hp with e1 e2; subst e1; subst e2
    cases r with
    | none =>
      obtain ⟨h1, h2, h3, h4⟩ := hok
      refine ⟨m, j + 1, SeqOut.snoc_none ho, .inl ⟨rfl, filter_join_neg ha hb rfl, h2, ?_, fun _ => ⟨h4, h3⟩⟩⟩
      intro hc
      exact absurd (show s.finished = false from hc) (by simp [h1])
    | some c =>
      obtain ⟨c, t⟩ := c
      obtain ⟨rfl, rfl, h3, h4, h5, h6⟩ := hok
      refine ⟨c + 1, 0, SeqOut.snoc_some ho h3, .inl ⟨rfl, filter_join_neg ha hb rfl, h5, fun _ => ⟨h6, rfl⟩, ?_⟩⟩
      intro hc
      exact absurd (show s.finished = true from hc) (by simp [h4])

theorem seqInv_reach (fn : Nat → Option T) (n : Nat) {s : SeqShared T × List (SeqPc T)}
    (h : Reach (ThreadStep (seqStep fn)) (seqInit n) s) : SeqInv fn s := by
  induction h with
  | refl => exact seqInv_init fn n
  | step _ st ih => exact seqInv_step fn ih st

/-- Whatever the number of threads and the interleaving: the returned values are, in order of return, the produced values
`fn 0, fn 1, …` with their numbers 0, 1, … as indices, followed by "nothing" answers; a "nothing" answer means that the producer
reported the end at exactly that point, and the producer is called at most once more than values were produced. -/
theorem C32_indices_consecutive (fn : Nat → Option T) (threads : Nat) (s : SeqShared T × List (SeqPc T))
    (h : Reach (ThreadStep (seqStep fn)) (seqInit threads) s) :
    ∃ m j, SeqOut fn m j s.1.out ∧ (0 < j → fn m = none) ∧ m ≤ s.1.calls ∧ s.1.calls ≤ m + 1 := by
  obtain ⟨m, j, ho, hc⟩ := seqInv_reach fn threads h
  refine ⟨m, j, ho, ?_⟩
  rcases hc with ⟨_, _, h1, h2, h3⟩ | ⟨_, p, _, hok⟩
  · cases hf : s.1.finished
    · obtain ⟨h4, h5⟩ := h2 hf
      exact ⟨by omega, by omega, by omega⟩
    · obtain ⟨h4, h5⟩ := h3 hf
      exact ⟨fun _ => h4, by omega, by omega⟩
  · match p, hok with
    | .locked, ⟨h1, h2, h3⟩ =>
      cases hf : s.1.finished
      · obtain ⟨h4, h5⟩ := h2 hf
        exact ⟨by omega, by omega, by omega⟩
      · obtain ⟨h4, h5⟩ := h3 hf
        exact ⟨fun _ => h4, by omega, by omega⟩
    | .calling n, ⟨h1, h2, h3, h4, h5⟩ => exact ⟨by omega, by omega, by omega⟩
    | .called n, ⟨h1, h2, h3, h4, h5⟩ => exact ⟨by omega, by omega, by omega⟩
    | .returning none, ⟨h1, h2, h3, h4⟩ => exact ⟨fun _ => h4, by omega, by omega⟩
    | .returning (some (c, t)), ⟨h1, h2, h3, h4, h5, h6⟩ => exact ⟨by omega, by omega, by omega⟩

/-- after the producer reported the end (its `m`-th call gave nothing) no further call of it is ever made -/
theorem C32_no_call_after_end (fn : Nat → Option T) (threads m : Nat) (hend : fn m = none)
    (s : SeqShared T × List (SeqPc T)) (h : Reach (ThreadStep (seqStep fn)) (seqInit threads) s) :
    s.1.calls ≤ m + 1 := by
  obtain ⟨k, j, ⟨ts, hl, hf, _⟩, _, _, h2⟩ := C32_indices_consecutive fn threads s h
  have : k ≤ m := by
    refine Decidable.byContradiction fun hlt => ?_
    have := hf m (by omega)
    rw [hend, List.getElem?_eq_getElem (by omega)] at this
    cases this
  omega

/-- a thread waiting outside can always enter or some thread inside can move: no deadlock -/
theorem C32_no_deadlock (fn : Nat → Option T) (threads : Nat) (s : SeqShared T × List (SeqPc T)) (hpos : s.2 ≠ [])
    (h : Reach (ThreadStep (seqStep fn)) (seqInit threads) s) : ∃ t, ThreadStep (seqStep fn) s t := by
  obtain ⟨s, ps⟩ := s
  obtain ⟨m, j, _, hc⟩ := seqInv_reach fn threads h
  rcases hc with ⟨hm, hf, _⟩ | ⟨_, p, hf, _⟩
  · cases ps with
    | nil => exact absurd rfl hpos
    | cons p ps =>
      have hp : p = .idle := by
        cases p with
        | idle => rfl
        | _ => simp [SeqPc.inside] at hf
      subst hp
      refine ⟨_, ThreadStep.mk s { s with mutex := true } [] ps .idle .locked ?_⟩
      have : s.mutex = false := hm
      simp [seqStep, this]
  · have hmem : p ∈ ps.filter SeqPc.inside := by rw [hf]; simp
    obtain ⟨hmem, hin⟩ := List.mem_filter.1 hmem
    obtain ⟨a, b, rfl⟩ := List.append_of_mem hmem
    have : ∃ r, seqStep fn s p = some r := by
      match p, hin with
      | .locked, _ => simp only [seqStep]; split <;> exact ⟨_, rfl⟩
      | .calling n, _ => exact ⟨_, rfl⟩
      | .called none, _ => exact ⟨_, rfl⟩
      | .called (some t), _ => exact ⟨_, rfl⟩
      | .returning r, _ => exact ⟨_, rfl⟩
    obtain ⟨⟨s', p'⟩, hr⟩ := this
    exact ⟨_, .mk s s' a b p p' hr⟩

/-- a non-trivial reachable state: two threads, one got item 0, the other waits for the mutex meanwhile -/
example : Reach (ThreadStep (seqStep (fun n => if n < 1 then some n else none))) (seqInit 2)
    (⟨false, false, 1, 1, [some (0, 0)]⟩, [.idle, .idle]) := by
  exact runSched_reach (is := [1, 1, 1, 1, 1]) .refl rfl

end Tiles
