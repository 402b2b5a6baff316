import Verif.Proof.Threads
import Mathlib.Data.List.Perm.Subperm
import Mathlib.Data.List.Nodup
/-! C31 — `in_order_queue`: every item is processed once, in index order, never two at a time, and nothing is left behind. -/
namespace Tiles
variable {T : Type}

/-- the calls of the user function for a list of items: one after the other -/
def Spec.evs (l : List (Nat × T)) : List (IoEv T) := l.flatMap (fun x => [.enter x, .leave x])
open Spec

/-- threads that own the right to process -/
def IoPc.isActive : IoPc T → Bool
  | .start _ _ => false
  | .done => false
  | _ => true

/-- items a thread holds that were not handed to the user function completely -/
def IoPc.held : IoPc T → List (Nat × T)
  | .start i t => [(i, t)]
  | .run i t => [(i, t)]
  | .inFn i t => [(i, t)]
  | .batch todo _ => todo
  | .inBatch x todo _ => x :: todo
  | _ => []

/-- what holds for the thread that owns the right to process, when the items `l` have been processed -/
def IoOk (l : List (Nat × T)) (next : Nat) (log : List (IoEv T)) : IoPc T → Prop
  | .start _ _ => False
  | .done => False
  | .run i _ => next = i ∧ i = l.length ∧ log = evs l
  | .inFn i t => next = i ∧ i = l.length ∧ log = evs l ++ [.enter (i, t)]
  | .after i => i + 1 = l.length ∧ log = evs l
  | .loop => next = l.length ∧ log = evs l
  | .batch todo ready => todo.map Prod.fst = List.range' l.length todo.length ∧
      (∃ x, ready.getLast? = some x ∧ x.1 + 1 = l.length + todo.length) ∧ log = evs l
  | .inBatch x todo ready => (x :: todo).map Prod.fst = List.range' l.length (todo.length + 1) ∧
      (∃ y, ready.getLast? = some y ∧ y.1 + 1 = l.length + (todo.length + 1)) ∧ log = evs l ++ [.enter x]

def QDesc (q : List (Nat × T)) : Prop := q.Pairwise (fun a b => b.1 ≤ a.1)

structure IoInv (calls : List (Nat × T)) (l : List (Nat × T)) (s : IoShared T × List (IoPc T)) : Prop where
  idx : l.map Prod.fst = List.range l.length
  cons : (l ++ s.1.queue ++ s.2.flatMap IoPc.held).Perm calls
  sorted : s.1.dirty = false → QDesc s.1.queue
  act : (s.1.active = false ∧ s.2.filter IoPc.isActive = [] ∧ s.1.next = l.length ∧ s.1.log = evs l ∧
            ∀ x ∈ s.1.queue, x.1 ≠ s.1.next) ∨
        (s.1.active = true ∧ ∃ p, s.2.filter IoPc.isActive = [p] ∧ IoOk l s.1.next s.1.log p)

theorem evs_snoc (l : List (Nat × T)) (x : Nat × T) : evs (l ++ [x]) = evs l ++ [.enter x] ++ [.leave x] := by
  simp [evs]

theorem idx_snoc {l : List (Nat × T)} {x : Nat × T} (h : l.map Prod.fst = List.range l.length) (hx : x.1 = l.length) :
    (l ++ [x]).map Prod.fst = List.range (l ++ [x]).length := by
  simp [h, hx, List.range_succ]

/-! the batch taken from the queue -/

theorem takeReady_append (n : Nat) (q : List (Nat × T)) : (takeReady n q).1 ++ (takeReady n q).2 = q := by
  induction q generalizing n with
  | nil => rfl
  | cons x q ih =>
    simp only [takeReady]
    split
    · rfl
    · simp [ih]

theorem takeReady_idx (n : Nat) (q : List (Nat × T)) :
    (takeReady n q).1.map Prod.fst = List.range' n (takeReady n q).1.length := by
  induction q generalizing n with
  | nil => rfl
  | cons x q ih =>
    simp only [takeReady]
    split
    · rfl
    · rename_i h
      simp only [List.map_cons, List.length_cons, List.range'_succ, ih]
      simp at h; rw [h]

theorem takeReady_nil {n : Nat} {q : List (Nat × T)} (hs : q.Pairwise (fun a b => a.1 ≤ b.1)) (hge : ∀ x ∈ q, n ≤ x.1)
    (h : (takeReady n q).1 = []) : ∀ x ∈ q, x.1 ≠ n := by
  cases q with
  | nil => simp
  | cons x q =>
    simp only [takeReady] at h
    split at h
    · rename_i hx
      intro y hy
      rcases List.mem_cons.1 hy with rfl | hy
      · exact hx
      · have h1 := (List.pairwise_cons.1 hs).1 y hy
        have h2 := hge x (by simp)
        omega
    · simp at h

theorem getLast_range' {l : List (Nat × T)} {n : Nat} (h : l.map Prod.fst = List.range' n l.length) (hne : l ≠ []) :
    ∃ x, l.getLast? = some x ∧ x.1 + 1 = n + l.length := by
  refine ⟨l.getLast hne, List.getLast?_eq_some_getLast hne, ?_⟩
  have hl : 0 < l.length := List.length_pos_iff.2 hne
  have h1 : (l.map Prod.fst)[l.length - 1]? = some (l.getLast hne).1 := by
    rw [List.getElem?_map, ← List.getLast?_eq_getElem?, List.getLast?_eq_some_getLast hne]; rfl
  rw [h, List.getElem?_range' (by omega)] at h1
  injection h1 with h1
  omega

theorem ioSorted_perm (s : IoShared T) : (ioSorted s).Perm s.queue := by
  unfold ioSorted; split
  · exact sortBy_perm _ _
  · exact List.Perm.refl _

theorem ioSorted_desc (s : IoShared T) (h : s.dirty = false → QDesc s.queue) : QDesc (ioSorted s) := by
  unfold ioSorted; split
  · have := sortBy_sorted (le := fun (a b : Nat × T) => decide (b.1 ≤ a.1)) (by simp; omega) (by simp; omega) s.queue
    simpa [QDesc] using this
  · rename_i hd; exact h (by simpa using hd)

/-- no item of the queue was processed before -/
theorem queue_ge {calls l : List (Nat × T)} {s : IoShared T × List (IoPc T)} (hn : (calls.map Prod.fst).Nodup)
    (h : IoInv calls l s) : ∀ x ∈ s.1.queue, l.length ≤ x.1 := by
  intro x hx
  have h1 := ((h.cons.map Prod.fst).nodup_iff.2 hn)
  simp only [List.map_append, List.append_assoc] at h1
  rw [List.nodup_append] at h1
  have h2 := h1.2.2
  refine Decidable.byContradiction fun hlt => ?_
  refine h2 x.1 (by rw [h.idx]; simp; omega) x.1 (by simp only [List.mem_append, List.mem_map]; exact .inl ⟨x, hx, rfl⟩) rfl

theorem ioInv_init (calls : List (Nat × T)) : IoInv calls [] (ioInit calls) := by
  refine ⟨rfl, ?_, fun _ => List.Pairwise.nil, .inl ⟨rfl, ?_, rfl, rfl, by simp [ioInit]⟩⟩
  · simp [ioInit, List.flatMap_map, IoPc.held]
  · simp only [ioInit, List.filter_eq_nil_iff, List.mem_map]
    rintro p ⟨c, _, rfl⟩
    simp [IoPc.isActive]

theorem ioInv_step (calls : List (Nat × T)) (hn : (calls.map Prod.fst).Nodup) {s t : IoShared T × List (IoPc T)}
    {l : List (Nat × T)} (h : IoInv calls l s) (st : ThreadStep ioStep s t) : ∃ l', IoInv calls l' t := by
  obtain ⟨s, s', a, b, p, p', hp⟩ := st
  have hge := queue_ge hn h
  obtain ⟨hidx, hcons, hsort, hact⟩ := h
  dsimp only at hcons hsort hact hge
  simp only [List.flatMap_append, List.flatMap_cons] at hcons
  match p with
  | .start i t =>
    simp only [ioStep] at hp
    split at hp
    · rename_i hc
      injection hp with hp; injection hp with e1 e2; subst e1; subst e2
      refine ⟨l, hidx, ?_, by simp, ?_⟩
      · refine List.Perm.trans ?_ hcons
        simp only [List.flatMap_append, List.flatMap_cons, IoPc.held, List.append_assoc, List.nil_append,
          List.cons_append]
        refine List.Perm.append_left _ (List.Perm.append_left _ ?_)
        exact List.perm_middle.symm
      · rcases hact with ⟨h1, h2, h3, h4, h5⟩ | ⟨h1, p, h2, h3⟩
        · obtain ⟨ha, hb⟩ := filter_split_neg h2 rfl
          refine .inl ⟨h1, filter_join_neg ha hb rfl, h3, h4, ?_⟩
          intro x hx
          rcases List.mem_append.1 hx with hx | hx
          · exact h5 x hx
          · simp at hx; subst hx
            rcases hc with hc | hc
            · exact fun e => hc e.symm
            · exact absurd hc (by simp [h1])
        · refine .inr ⟨h1, p, ?_, h3⟩
          rw [List.filter_append, List.filter_cons_of_neg (by simp [IoPc.isActive])] at h2 ⊢
          exact h2
    · rename_i hc
      injection hp with hp; injection hp with e1 e2; subst e1; subst e2
      have hc1 : s.next = i := by
        refine Decidable.byContradiction fun hh => hc (.inl hh)
      have hc2 : s.active = false := by
        cases ha : s.active
        · rfl
        · exact absurd (.inr ha) hc
      rcases hact with ⟨h1, h2, h3, h4, h5⟩ | ⟨h1, p, h2, h3⟩
      · obtain ⟨ha, hb⟩ := filter_split_neg h2 rfl
        refine ⟨l, hidx, by simpa [IoPc.held] using hcons, hsort, .inr ⟨rfl, .run i t, filter_join ha hb rfl, hc1, by omega, h4⟩⟩
      · rw [hc2] at h1; cases h1
  | .done => simp [ioStep] at hp
  | .run i t =>
    rcases hact with ⟨_, hf, _⟩ | ⟨hm, q, hf, hok⟩
    · simp [List.filter_append, IoPc.isActive] at hf
    obtain ⟨ha, hb, rfl⟩ := filter_split hf rfl
    simp only [ioStep] at hp
    injection hp with hp; injection hp with e1 e2; subst e1; subst e2
    obtain ⟨h1, h2, h3⟩ := hok
    exact ⟨l, hidx, by simpa [IoPc.held] using hcons, hsort, .inr ⟨hm, .inFn i t, filter_join ha hb rfl, h1, h2, by simp [h3]⟩⟩
  | .inFn i t =>
    rcases hact with ⟨_, hf, _⟩ | ⟨hm, q, hf, hok⟩
    · simp [List.filter_append, IoPc.isActive] at hf
    obtain ⟨ha, hb, rfl⟩ := filter_split hf rfl
    simp only [ioStep] at hp
    injection hp with hp; injection hp with e1 e2; subst e1; subst e2
    obtain ⟨h1, h2, h3⟩ := hok
    refine ⟨l ++ [(i, t)], idx_snoc hidx h2, ?_, hsort, .inr ⟨hm, .after i, filter_join ha hb rfl, by simp [h2], ?_⟩⟩
    · refine List.Perm.trans ?_ hcons
      simp only [List.flatMap_append, List.flatMap_cons, IoPc.held, List.append_assoc, List.nil_append, List.cons_append]
      refine List.Perm.append_left _ ?_
      rw [← List.append_assoc, ← List.append_assoc]
      exact List.perm_middle.symm
    · rw [evs_snoc, h3]
  | .after i =>
    rcases hact with ⟨_, hf, _⟩ | ⟨hm, q, hf, hok⟩
    · simp [List.filter_append, IoPc.isActive] at hf
    obtain ⟨ha, hb, rfl⟩ := filter_split hf rfl
    simp only [ioStep] at hp
    injection hp with hp; injection hp with e1 e2; subst e1; subst e2
    exact ⟨l, hidx, by simpa [IoPc.held] using hcons, hsort, .inr ⟨hm, .loop, filter_join ha hb rfl, hok⟩⟩
  | .loop =>
    rcases hact with ⟨_, hf, _⟩ | ⟨hm, q, hf, hok⟩
    · simp [List.filter_append, IoPc.isActive] at hf
    obtain ⟨ha, hb, rfl⟩ := filter_split hf rfl
    obtain ⟨h1, h2⟩ := hok
    have hap := takeReady_append s.next (ioSorted s).reverse
    have hidr := takeReady_idx s.next (ioSorted s).reverse
    have hdesc := ioSorted_desc s hsort
    have hrev : (ioSorted s).reverse.Pairwise (fun a b => a.1 ≤ b.1) := List.pairwise_reverse.2 hdesc
    have hperm : ((takeReady s.next (ioSorted s).reverse).1 ++ (takeReady s.next (ioSorted s).reverse).2).Perm s.queue := by
      rw [hap]; exact (List.reverse_perm _).trans (ioSorted_perm s)
    have hsorted' : QDesc (takeReady s.next (ioSorted s).reverse).2.reverse := by
      refine List.pairwise_reverse.2 ?_
      rw [← hap] at hrev
      exact (List.pairwise_append.1 hrev).2.1
    have hnil := takeReady_nil (n := s.next) hrev (by
      intro x hx
      rw [h1]; exact hge x ((ioSorted_perm s).mem_iff.1 (List.mem_reverse.1 hx)))
    simp only [ioStep] at hp
    generalize hr : takeReady s.next (ioSorted s).reverse = r at *
    obtain ⟨ready, rest⟩ := r
    dsimp only at *
    split at hp
    · rename_i hem
      have hem : ready = [] := by simpa using hem
      injection hp with hp; injection hp with e1 e2; subst e1; subst e2
      subst hem
      refine ⟨l, hidx, ?_, fun _ => hsorted', .inl ⟨rfl, filter_join_neg ha hb rfl, h1, h2, ?_⟩⟩
      · refine List.Perm.trans ?_ hcons
        simp only [List.flatMap_append, List.flatMap_cons, IoPc.held]
        exact ((((List.reverse_perm rest).trans (by simpa using hperm)).append_left l).append_right _)
      · intro x hx
        refine hnil rfl x ?_
        have : rest = (ioSorted s).reverse := by simpa using hap
        rw [← this]; exact List.mem_reverse.1 hx
    · rename_i hem
      have hem : ready ≠ [] := by simpa using hem
      injection hp with hp; injection hp with e1 e2; subst e1; subst e2
      refine ⟨l, hidx, ?_, fun _ => hsorted', .inr ⟨hm, .batch ready ready, filter_join ha hb rfl, ?_, ?_, h2⟩⟩
      · refine List.Perm.trans ?_ hcons
        simp only [List.flatMap_append, List.flatMap_cons, IoPc.held, List.append_assoc, List.nil_append]
        refine List.Perm.append_left _ ?_
        have h3 : (rest.reverse ++ ready).Perm s.queue :=
          (((List.reverse_perm rest).append_right ready).trans List.perm_append_comm).trans hperm
        refine List.Perm.trans ?_ (h3.append_right _)
        rw [List.append_assoc]
        refine List.Perm.append_left _ ?_
        exact List.perm_append_comm_assoc _ _ _
      · rw [← h1]; exact hidr
      · rw [← h1]; exact getLast_range' hidr hem
  | .batch (x :: todo) ready =>
    rcases hact with ⟨_, hf, _⟩ | ⟨hm, q, hf, hok⟩
    · simp [List.filter_append, IoPc.isActive] at hf
    obtain ⟨ha, hb, rfl⟩ := filter_split hf rfl
    simp only [ioStep] at hp
    injection hp with hp; injection hp with e1 e2; subst e1; subst e2
    obtain ⟨h1, h2, h3⟩ := hok
    exact ⟨l, hidx, by simpa [IoPc.held] using hcons, hsort, .inr ⟨hm, .inBatch x todo ready, filter_join ha hb rfl, h1, h2, by simp [h3]⟩⟩
  | .inBatch x todo ready =>
    rcases hact with ⟨_, hf, _⟩ | ⟨hm, q, hf, hok⟩
    · simp [List.filter_append, IoPc.isActive] at hf
    obtain ⟨ha, hb, rfl⟩ := filter_split hf rfl
    simp only [ioStep] at hp
    injection hp with hp; injection hp with e1 e2; subst e1; subst e2
    obtain ⟨h1, ⟨y, h2, h2'⟩, h3⟩ := hok
    rw [List.map_cons, List.range'_succ] at h1
    injection h1 with hx h1
    refine ⟨l ++ [x], idx_snoc hidx hx, ?_, hsort, .inr ⟨hm, .batch todo ready, filter_join ha hb rfl, by simpa using h1, ⟨y, h2, ?_⟩, ?_⟩⟩
    · refine List.Perm.trans ?_ hcons
      simp only [List.flatMap_append, List.flatMap_cons, IoPc.held, List.append_assoc, List.nil_append, List.cons_append]
      refine List.Perm.append_left _ ?_
      rw [← List.append_assoc, ← List.append_assoc s.queue]
      exact List.perm_middle.symm
    · simp; omega
    · rw [evs_snoc, h3]
  | .batch [] ready =>
    rcases hact with ⟨_, hf, _⟩ | ⟨hm, q, hf, hok⟩
    · simp [List.filter_append, IoPc.isActive] at hf
    obtain ⟨ha, hb, rfl⟩ := filter_split hf rfl
    obtain ⟨h1, ⟨y, h2, h2'⟩, h3⟩ := hok
    simp only [ioStep, h2] at hp
    injection hp with hp; injection hp with e1 e2; subst e1; subst e2
    exact ⟨l, hidx, by simpa [IoPc.held] using hcons, hsort, .inr ⟨hm, .loop, filter_join ha hb rfl, by simpa using h2', h3⟩⟩

theorem ioInv_reach (calls : List (Nat × T)) (hn : (calls.map Prod.fst).Nodup) {s : IoShared T × List (IoPc T)}
    (h : Reach (ThreadStep ioStep) (ioInit calls) s) : ∃ l, IoInv calls l s := by
  induction h with
  | refl => exact ⟨[], ioInv_init calls⟩
  | step _ st ih => obtain ⟨l, ih⟩ := ih; exact ioInv_step calls hn ih st

/-- At every moment of every interleaving: the user function was called for items with the indices 0, 1, 2, … in this order,
each handed in by some call, one call after the other; at most one call is still running, and it is the last. -/
theorem C31_in_order (calls : List (Nat × T)) (hn : (calls.map Prod.fst).Nodup) (s : IoShared T × List (IoPc T))
    (h : Reach (ThreadStep ioStep) (ioInit calls) s) :
    ∃ l : List (Nat × T), l.map Prod.fst = List.range l.length ∧ (∀ x ∈ l, x ∈ calls) ∧
      (s.1.log = evs l ∨ ∃ x ∈ calls, x.1 = l.length ∧ s.1.log = evs l ++ [.enter x]) := by
  obtain ⟨l, hidx, hcons, hsort, hact⟩ := ioInv_reach calls hn h
  refine ⟨l, hidx, fun x hx => hcons.mem_iff.1 (by simp [hx]), ?_⟩
  rcases hact with ⟨_, _, _, h4, _⟩ | ⟨_, p, hf, hok⟩
  · exact .inl h4
  have hmem : p ∈ s.2 := (List.mem_filter.1 (show p ∈ s.2.filter IoPc.isActive by rw [hf]; simp)).1
  have hheld : ∀ x ∈ p.held, x ∈ calls := fun x hx => hcons.mem_iff.1 (by
    simp only [List.mem_append, List.mem_flatMap]; exact .inr ⟨p, hmem, hx⟩)
  match p, hok with
  | .run i t, ⟨_, _, h⟩ => exact .inl h
  | .inFn i t, ⟨_, h2, h⟩ => exact .inr ⟨(i, t), hheld _ (by simp [IoPc.held]), h2, h⟩
  | .after i, ⟨_, h⟩ => exact .inl h
  | .loop, ⟨_, h⟩ => exact .inl h
  | .batch _ _, ⟨_, _, h⟩ => exact .inl h
  | .inBatch x todo _, ⟨h1, _, h⟩ =>
    refine .inr ⟨x, hheld _ (by simp [IoPc.held]), ?_, h⟩
    rw [List.map_cons, List.range'_succ] at h1
    injection h1 with hx h1

/-- When all calls have returned, the processed items are those with indices 0 … m-1, where m is the smallest index nobody handed in -/
theorem C31_drained (calls : List (Nat × T)) (hn : (calls.map Prod.fst).Nodup) (s : IoShared T × List (IoPc T))
    (h : Reach (ThreadStep ioStep) (ioInit calls) s) (hdone : ∀ p ∈ s.2, p = .done) :
    ∃ l : List (Nat × T), l.map Prod.fst = List.range l.length ∧ (∀ x ∈ l, x ∈ calls) ∧ l.length ∉ calls.map Prod.fst ∧
      s.1.log = evs l := by
  obtain ⟨l, hidx, hcons, hsort, hact⟩ := ioInv_reach calls hn h
  have hheld : s.2.flatMap IoPc.held = [] := by
    rw [List.flatMap_eq_nil_iff]; intro p hp; rw [hdone p hp]; rfl
  rw [hheld, List.append_nil] at hcons
  rcases hact with ⟨_, _, h3, h4, h5⟩ | ⟨_, p, hf, hok⟩
  · refine ⟨l, hidx, fun x hx => hcons.mem_iff.1 (by simp [hx]), ?_, h4⟩
    intro hm
    obtain ⟨x, hx, hxl⟩ := List.mem_map.1 hm
    rcases List.mem_append.1 (hcons.mem_iff.2 hx) with hx | hx
    · have : x.1 ∈ l.map Prod.fst := List.mem_map.2 ⟨x, hx, rfl⟩
      rw [hidx, List.mem_range] at this
      omega
    · exact h5 x hx (by omega)
  · have hmem : p ∈ s.2.filter IoPc.isActive := by rw [hf]; simp
    obtain ⟨h1, h2⟩ := List.mem_filter.1 hmem
    rw [hdone p h1] at h2; cases h2

/-- When the indices are 0 … n-1 and all calls have returned, every item was processed, exactly once and in order -/
theorem C31_all_processed (calls : List (Nat × T)) (hperm : (calls.map Prod.fst).Perm (List.range calls.length))
    (s : IoShared T × List (IoPc T)) (h : Reach (ThreadStep ioStep) (ioInit calls) s) (hdone : ∀ p ∈ s.2, p = .done) :
    ∃ l : List (Nat × T), l.Perm calls ∧ l.map Prod.fst = List.range calls.length ∧ s.1.log = evs l := by
  have hn : (calls.map Prod.fst).Nodup := hperm.nodup_iff.2 List.nodup_range
  obtain ⟨l, hidx, hsub, hmin, hlog⟩ := C31_drained calls hn s h hdone
  have hnl : l.Nodup := by
    have : (l.map Prod.fst).Nodup := by rw [hidx]; exact List.nodup_range
    exact List.Nodup.of_map _ this
  have hle : l.length ≤ calls.length := (List.subperm_of_subset hnl hsub).length_le
  have hge : calls.length ≤ l.length := by
    refine Decidable.byContradiction fun hlt => hmin (hperm.mem_iff.2 ?_)
    rw [List.mem_range]; omega
  have hp : l.Perm calls := (List.subperm_of_subset hnl hsub).perm_of_length_le hge
  exact ⟨l, hp, by rw [hidx, hp.length_eq], hlog⟩

/-- a call that has not returned can always continue: no deadlock -/
theorem C31_no_deadlock (calls : List (Nat × T)) (hn : (calls.map Prod.fst).Nodup) (s : IoShared T × List (IoPc T))
    (h : Reach (ThreadStep ioStep) (ioInit calls) s) (hd : ∃ p ∈ s.2, p ≠ .done) : ∃ t, ThreadStep ioStep s t := by
  obtain ⟨s, ps⟩ := s
  obtain ⟨l, hidx, hcons, hsort, hact⟩ := ioInv_reach calls hn h
  obtain ⟨p, hp, hne⟩ := hd
  obtain ⟨a, b, e⟩ := List.append_of_mem hp
  dsimp only at e; subst e
  have : ∃ r, ioStep s p = some r := by
    match p, hne, hact with
    | .start i t, _, _ => simp only [ioStep]; split <;> exact ⟨_, rfl⟩
    | .run i t, _, _ => exact ⟨_, rfl⟩
    | .inFn i t, _, _ => exact ⟨_, rfl⟩
    | .after i, _, _ => exact ⟨_, rfl⟩
    | .loop, _, _ => simp only [ioStep]; split <;> exact ⟨_, rfl⟩
    | .batch (x :: xs) r, _, _ => exact ⟨_, rfl⟩
    | .inBatch x xs r, _, _ => exact ⟨_, rfl⟩
    | .batch [] r, _, hact =>
      rcases hact with ⟨_, hf, _⟩ | ⟨_, q, hf, hok⟩
      · simp [List.filter_append, IoPc.isActive] at hf
      · obtain ⟨_, _, rfl⟩ := filter_split hf rfl
        obtain ⟨_, ⟨x, hx, _⟩, _⟩ := hok
        exact ⟨({ s with next := x.1 + 1 }, .loop), by simp only [ioStep, hx]⟩
    | .done, h, _ => exact absurd rfl h
  obtain ⟨⟨s', p'⟩, hr⟩ := this
  exact ⟨_, .mk s s' a b p p' hr⟩

/-- work left in a program counter -/
def IoPc.weight : IoPc T → Nat
  | .start _ _ => 20
  | .run _ _ => 9
  | .inFn _ _ => 8
  | .after _ => 7
  | .loop => 4
  | .batch todo _ => 6 + 8 * todo.length
  | .inBatch _ todo _ => 13 + 8 * todo.length
  | .done => 0

/-- work left in a state -/
def ioMeasure (s : IoShared T × List (IoPc T)) : Nat := 12 * s.1.queue.length + (s.2.map IoPc.weight).sum

theorem takeReady_length (n : Nat) (q : List (Nat × T)) : (takeReady n q).1.length + (takeReady n q).2.length = q.length := by
  rw [← List.length_append, takeReady_append]

/-- every step does some of the work: all executions end -/
theorem C31_terminates (s t : IoShared T × List (IoPc T)) (st : ThreadStep ioStep s t) : ioMeasure t < ioMeasure s := by
  obtain ⟨s, s', a, b, p, p', hp⟩ := st
  have key : 12 * s'.queue.length + p'.weight < 12 * s.queue.length + p.weight := by
    match p with
    | .start i t =>
      simp only [ioStep] at hp
      split at hp <;> (injection hp with hp; injection hp with e1 e2; subst e1; subst e2) <;> simp [IoPc.weight]
      omega
    | .run i t =>
      simp only [ioStep] at hp; injection hp with hp; injection hp with e1 e2; subst e1; subst e2; simp [IoPc.weight]
    | .inFn i t =>
      simp only [ioStep] at hp; injection hp with hp; injection hp with e1 e2; subst e1; subst e2; simp [IoPc.weight]
    | .after i =>
      simp only [ioStep] at hp; injection hp with hp; injection hp with e1 e2; subst e1; subst e2; simp [IoPc.weight]
    | .loop =>
      simp only [ioStep] at hp
      have hl := takeReady_length s.next (ioSorted s).reverse
      rw [List.length_reverse, (ioSorted_perm s).length_eq] at hl
      split at hp <;> (injection hp with hp; injection hp with e1 e2; subst e1; subst e2)
      · simp [IoPc.weight]; omega
      · rename_i hem
        have : 0 < (takeReady s.next (ioSorted s).reverse).1.length := by
          refine List.length_pos_iff.2 ?_; simpa using hem
        simp [IoPc.weight]; omega
    | .batch (x :: xs) r =>
      simp only [ioStep] at hp; injection hp with hp; injection hp with e1 e2; subst e1; subst e2
      simp [IoPc.weight]; omega
    | .inBatch x xs r =>
      simp only [ioStep] at hp; injection hp with hp; injection hp with e1 e2; subst e1; subst e2
      simp [IoPc.weight]
    | .batch [] r =>
      simp only [ioStep] at hp
      split at hp
      · cases hp
      · injection hp with hp; injection hp with e1 e2; subst e1; subst e2; simp [IoPc.weight]
    | .done => simp [ioStep] at hp
  simp only [ioMeasure, List.map_append, List.map_cons, List.sum_append, List.sum_cons]
  omega

/-- a non-trivial run: items 2 and 1 arrive first and wait, item 0 is processed and then takes them along -/
example : (runSched ioStep (ioInit [(0, 'a'), (2, 'c'), (1, 'b')]) [1, 2, 0, 0, 0, 0, 0, 0, 0, 0, 0, 0, 0]).map
    (fun s => (s.1.next, s.1.active, s.1.queue)) = some (3, false, []) := by decide

end Tiles
