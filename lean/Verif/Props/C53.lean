import Verif.Model.HandlerSlots
import Verif.Proof.Threads
import Mathlib.Data.List.Nodup
import Mathlib.Data.List.Perm.Subperm
/-! C53 — every thread of the loader gets a handler of its own, always the same one, whatever the schedule. -/
namespace Tiles

/-- the thread has taken a number: it is about to write it, has failed, or its id is in the table -/
def slotClaimed (slots : List (Option Nat)) (t : SlotThread) : Bool :=
  (match t.pc with | .write _ => true | .failed => true | _ => false) || decide (some t.id ∈ slots)

/-- what holds of one thread -/
def slotAt (s : SlotShared) (t : SlotThread) : Prop :=
  match t.pc with
  | .idle => True
  | .scan i => ∀ j, j < i → s.slots[j]? ≠ some (some t.id)
  | .fetch => some t.id ∉ s.slots
  | .write k => some t.id ∉ s.slots ∧ k < s.next ∧ (s.slots[k]? = none ∨ s.slots[k]? = some none)
  | .holds k => s.slots[k]? = some (some t.id)
  | .failed => some t.id ∉ s.slots ∧ s.slots.length < s.next

structure SlotInv (size : Nat) (ids : List Nat) (s : SlotShared) (ts : List SlotThread) : Prop where
  len : s.slots.length = size
  idsEq : ts.map (·.id) = ids
  mine : ∀ (j a : Nat), s.slots[j]? = some (some a) → j < s.next ∧ a ∈ ids
  once : ∀ (i j a : Nat), s.slots[i]? = some (some a) → s.slots[j]? = some (some a) → i = j
  at_ : ∀ t ∈ ts, slotAt s t
  apart : ts.Pairwise (fun t u => ∀ k, t.pc = .write k → u.pc ≠ .write k)
  log : ∀ (a k : Nat), (a, k) ∈ s.log → s.slots[k]? = some (some a)
  count : s.next = ts.countP (slotClaimed s.slots)

theorem slotInv_init (size : Nat) (ids : List Nat) : SlotInv size ids (slotInit size ids).1 (slotInit size ids).2 := by
  have hn : ∀ (j a : Nat), (List.replicate size (none : Option Nat))[j]? ≠ some (some a) := by
    intro j a h
    have := List.mem_of_getElem? h
    rw [List.mem_replicate] at this
    cases this.2
  refine ⟨by simp [slotInit], by simp [slotInit, Function.comp_def], fun j a h => absurd h (hn j a), fun i j a h => absurd h (hn i a), ?_, ?_, ?_, ?_⟩
  · intro t ht
    simp only [slotInit, List.mem_map] at ht
    obtain ⟨a, _, rfl⟩ := ht
    trivial
  · simp only [slotInit, List.pairwise_map]
    exact List.pairwise_of_forall (by intro a b k h; cases h)
  · intro a k h; cases h
  · simp only [slotInit]
    symm
    rw [List.countP_eq_zero]
    intro t ht
    rw [List.mem_map] at ht
    obtain ⟨a, _, rfl⟩ := ht
    simp [slotClaimed]

theorem slotInv_local {size : Nat} {ids : List Nat} {s s' : SlotShared} {a b : List SlotThread} {t t' : SlotThread}
    (h : SlotInv size ids s (a ++ t :: b)) (h1 : s'.slots = s.slots) (h2 : s'.next = s.next)
    (h3 : ∀ x k, (x, k) ∈ s'.log → (x, k) ∈ s.log ∨ s.slots[k]? = some (some x)) (h4 : t'.id = t.id) (h5 : slotAt s' t')
    (h6 : ∀ k, t'.pc ≠ .write k) (h7 : slotClaimed s.slots t' = slotClaimed s.slots t) : SlotInv size ids s' (a ++ t' :: b) := by
  have hat : ∀ u, slotAt s u → slotAt s' u := by
    intro u hu
    unfold slotAt at hu ⊢
    rw [h1, h2]; exact hu
  refine ⟨by rw [h1]; exact h.len, by have := h.idsEq; simpa [h4] using this, by rw [h1, h2]; exact h.mine, by rw [h1]; exact h.once,
    ?_, ?_, ?_, ?_⟩
  · intro u hu
    rcases List.mem_append.1 hu with hu | hu
    · exact hat u (h.at_ u (List.mem_append_left _ hu))
    · rcases List.mem_cons.1 hu with rfl | hu
      · exact h5
      · exact hat u (h.at_ u (List.mem_append_right _ (.tail _ hu)))
  · have hp := h.apart
    rw [List.pairwise_append, List.pairwise_cons] at hp ⊢
    obtain ⟨p1, ⟨p2, p3⟩, p4⟩ := hp
    refine ⟨p1, ⟨fun u hu k hk => absurd hk (h6 k), p3⟩, fun u hu v hv k hk => ?_⟩
    rcases List.mem_cons.1 hv with rfl | hv
    · exact h6 k
    · exact p4 u hu v (.tail _ hv) k hk
  · intro x k hk
    rw [h1]
    rcases h3 x k hk with h | h'
    · exact SlotInv.log ‹_› x k h
    · exact h'
  · rw [h2, h1, h.count]
    simp only [List.countP_append, List.countP_cons, h7]

theorem slotInv_step {size : Nat} {ids : List Nat} (hnd : ids.Nodup) {s t : SlotShared × List SlotThread} (h : SlotInv size ids s.1 s.2)
    (st : ThreadStep slotStep s t) : SlotInv size ids t.1 t.2 := by
  cases st with
  | mk s s' a b p p' hp =>
    have hother : ∀ u ∈ a ++ b, u.id ≠ p.id := by
      intro u hu e
      have hn : ((a ++ p :: b).map (·.id)).Nodup := by rw [h.idsEq]; exact hnd
      rw [List.map_append, List.map_cons, List.nodup_middle, List.nodup_cons] at hn
      apply hn.1
      rw [← e, ← List.map_append]
      exact List.mem_map_of_mem hu
    have hself := h.at_ p (by simp)
    obtain ⟨id, pc⟩ := p
    dsimp only at h hother hself ⊢
    cases pc with
    | idle =>
      simp only [slotStep, Option.some.injEq, Prod.mk.injEq] at hp
      obtain ⟨rfl, rfl⟩ := hp
      exact slotInv_local h rfl rfl (fun _ _ h => .inl h) rfl (by intro j hj; omega) (by simp) (by simp [slotClaimed])
    | holds k =>
      simp only [slotStep, Option.some.injEq, Prod.mk.injEq] at hp
      obtain ⟨rfl, rfl⟩ := hp
      exact slotInv_local h rfl rfl (fun _ _ h => .inl h) rfl trivial (by simp) (by simp [slotClaimed])
    | failed => simp [slotStep] at hp
    | scan i =>
      simp only [slotStep] at hp
      split at hp
      · rename_i hi
        simp only [Option.some.injEq, Prod.mk.injEq] at hp
        obtain ⟨rfl, rfl⟩ := hp
        refine slotInv_local h rfl rfl (fun _ _ h => .inl h) rfl ?_ (by simp) (by simp [slotClaimed])
        intro hm
        obtain ⟨j, hj⟩ := List.mem_iff_getElem?.1 hm
        refine hself j ?_ hj
        have := (List.getElem?_eq_some_iff.1 hj).1
        have := List.getElem?_eq_none_iff.1 hi
        omega
      · rename_i o ho
        split at hp
        · rename_i e
          simp only [Option.some.injEq, Prod.mk.injEq] at hp
          obtain ⟨rfl, rfl⟩ := hp
          subst e
          refine slotInv_local h rfl rfl (fun x k hk => ?_) rfl ho (by simp) (by simp [slotClaimed])
          rcases List.mem_append.1 hk with hk | hk
          · exact .inl hk
          · simp only [List.mem_singleton, Prod.mk.injEq] at hk
            obtain ⟨rfl, rfl⟩ := hk
            exact .inr ho
        · rename_i e
          simp only [Option.some.injEq, Prod.mk.injEq] at hp
          obtain ⟨rfl, rfl⟩ := hp
          refine slotInv_local h rfl rfl (fun _ _ h => .inl h) rfl ?_ (by simp) (by simp [slotClaimed])
          intro j hj hc
          rcases Nat.lt_succ_iff_lt_or_eq.1 hj with hj | rfl
          · exact hself j hj hc
          · rw [ho] at hc; injection hc with hc; exact e hc
    | fetch =>
      simp only [slotStep, Option.some.injEq, Prod.mk.injEq] at hp
      obtain ⟨rfl, rfl⟩ := hp
      have hself' : some id ∉ s.slots := hself
      have hat : ∀ u, slotAt s u → slotAt { s with next := s.next + 1 } u := by
        intro u hu
        unfold slotAt at hu ⊢
        split <;> rename_i e <;> rw [e] at hu <;> dsimp only at hu ⊢
        · exact hu
        · exact hu
        · exact ⟨hu.1, by omega, hu.2.2⟩
        · exact hu
        · exact ⟨hu.1, by omega⟩
      have hwr : ∀ u ∈ a ++ b, u.pc ≠ .write s.next := by
        intro u hu e
        have := h.at_ u (by rcases List.mem_append.1 hu with h | h <;> simp [h])
        unfold slotAt at this
        rw [e] at this
        dsimp only at this
        omega
      refine ⟨h.len, by have := h.idsEq; simpa using this, fun j x hx => ⟨by have := (h.mine j x hx).1; dsimp only; omega, (h.mine j x hx).2⟩,
        h.once, ?_, ?_, h.log, ?_⟩
      · intro u hu
        rcases List.mem_append.1 hu with hu | hu
        · exact hat u (h.at_ u (List.mem_append_left _ hu))
        · rcases List.mem_cons.1 hu with rfl | hu
          · refine ⟨hself', Nat.lt_succ_self _, ?_⟩
            dsimp only
            cases e : s.slots[s.next]? with
            | none => exact .inl rfl
            | some o =>
              cases o with
              | none => exact .inr rfl
              | some x => have := (h.mine _ _ e).1; omega
          · exact hat u (h.at_ u (List.mem_append_right _ (.tail _ hu)))
      · have hp := h.apart
        rw [List.pairwise_append, List.pairwise_cons] at hp ⊢
        obtain ⟨p1, ⟨p2, p3⟩, p4⟩ := hp
        refine ⟨p1, ⟨fun u hu k hk => ?_, p3⟩, fun u hu v hv k hk => ?_⟩
        · injection hk with hk
          subst hk
          exact hwr u (by simp [hu])
        · rcases List.mem_cons.1 hv with rfl | hv
          · intro e
            injection e with e
            subst e
            exact hwr u (by simp [hu]) hk
          · exact p4 u hu v (.tail _ hv) k hk
      · have := h.count
        simp only [List.countP_append, List.countP_cons] at this ⊢
        have e1 : slotClaimed s.slots ⟨id, .fetch⟩ = false := by simp [slotClaimed, hself']
        have e2 : slotClaimed s.slots ⟨id, .write s.next⟩ = true := rfl
        rw [e1] at this
        rw [e2]
        simp only [Bool.false_eq_true, if_false, if_true] at this ⊢
        omega
    | write k =>
      obtain ⟨hm, hk, hfree⟩ := hself
      dsimp only at hm hk hfree
      simp only [slotStep] at hp
      split at hp
      · rename_i hlt
        simp only [Option.some.injEq, Prod.mk.injEq] at hp
        obtain ⟨rfl, rfl⟩ := hp
        have hfree' : s.slots[k]? = some none := by
          rcases hfree with h | h
          · rw [List.getElem?_eq_none_iff] at h; omega
          · exact h
        have hget : ∀ j, (s.slots.set k (some id))[j]? = if j = k then some (some id) else s.slots[j]? := by
          intro j
          rw [List.getElem?_set]
          by_cases e : k = j
          · subst e; simp [hlt]
          · rw [if_neg e, if_neg (fun h => e h.symm)]
        have hmem : ∀ x, x ≠ id → (some x ∈ s.slots.set k (some id) ↔ some x ∈ s.slots) := by
          intro x hx
          rw [List.mem_iff_getElem?, List.mem_iff_getElem?]
          constructor
          · rintro ⟨j, hj⟩
            rw [hget] at hj
            split at hj
            · injection hj with hj; injection hj with hj; exact absurd hj.symm hx
            · exact ⟨j, hj⟩
          · rintro ⟨j, hj⟩
            refine ⟨j, ?_⟩
            rw [hget, if_neg]
            · exact hj
            · rintro rfl; rw [hfree'] at hj; cases hj
        have hwr : ∀ u ∈ a ++ b, u.pc ≠ .write k := by
          intro u hu e
          have hp := h.apart
          rw [List.pairwise_append, List.pairwise_cons] at hp
          obtain ⟨_, ⟨p2, _⟩, p4⟩ := hp
          rcases List.mem_append.1 hu with hu | hu
          · exact p4 u hu _ (.head _) k e rfl
          · exact p2 u hu k rfl e
        have hat : ∀ u ∈ a ++ b, slotAt s u → slotAt { s with slots := s.slots.set k (some id), log := s.log ++ [(id, k)] } u := by
          intro u hu hs
          have hne := hother u hu
          have hnw := hwr u hu
          unfold slotAt at hs ⊢
          split <;> rename_i e <;> rw [e] at hs <;> dsimp only at hs ⊢
          · intro j hj
            rw [hget]
            split
            · intro h; injection h with h; injection h with h; exact hne h.symm
            · exact hs j hj
          · rw [hmem _ hne]; exact hs
          · refine ⟨by rw [hmem _ hne]; exact hs.1, hs.2.1, ?_⟩
            rw [hget, if_neg]
            · exact hs.2.2
            · rintro rfl; exact hnw e
          · rw [hget, if_neg]
            · exact hs
            · rintro rfl; rw [hfree'] at hs; cases hs
          · refine ⟨by rw [hmem _ hne]; exact hs.1, by rw [List.length_set]; exact hs.2⟩
        refine ⟨by simpa using h.len, by have := h.idsEq; simpa using this, ?_, ?_, ?_, ?_, ?_, ?_⟩
        · intro j x hx
          dsimp only at hx ⊢
          rw [hget] at hx
          split at hx
          · rename_i e; subst e
            injection hx with hx; injection hx with hx; subst hx
            refine ⟨hk, ?_⟩
            rw [← h.idsEq]; simp
          · exact h.mine j x hx
        · intro i j x hi hj
          dsimp only at hi hj
          rw [hget] at hi hj
          split at hi <;> split at hj
          · omega
          · injection hi with hi; injection hi with hi; subst hi
            exact absurd (List.mem_of_getElem? hj) hm
          · injection hj with hj; injection hj with hj; subst hj
            exact absurd (List.mem_of_getElem? hi) hm
          · exact h.once i j x hi hj
        · intro u hu
          rcases List.mem_append.1 hu with hu | hu
          · exact hat u (by simp [hu]) (h.at_ u (List.mem_append_left _ hu))
          · rcases List.mem_cons.1 hu with rfl | hu
            · show (s.slots.set k (some id))[k]? = _
              rw [hget, if_pos rfl]
            · exact hat u (by simp [hu]) (h.at_ u (List.mem_append_right _ (.tail _ hu)))
        · have hp := h.apart
          rw [List.pairwise_append, List.pairwise_cons] at hp ⊢
          obtain ⟨p1, ⟨p2, p3⟩, p4⟩ := hp
          refine ⟨p1, ⟨fun u hu k hk => by (cases hk), p3⟩, fun u hu v hv k hk => ?_⟩
          rcases List.mem_cons.1 hv with rfl | hv
          · intro e; cases e
          · exact p4 u hu v (.tail _ hv) k hk
        · intro x j hx
          dsimp only at hx ⊢
          rw [hget]
          rcases List.mem_append.1 hx with hx | hx
          · have := h.log x j hx
            rw [if_neg]
            · exact this
            · rintro rfl; rw [hfree'] at this; cases this
          · simp only [List.mem_singleton, Prod.mk.injEq] at hx
            obtain ⟨rfl, rfl⟩ := hx
            rw [if_pos rfl]
        · have := h.count
          have hcl : ∀ u ∈ a ++ b, slotClaimed (s.slots.set k (some id)) u = slotClaimed s.slots u := by
            intro u hu
            unfold slotClaimed
            congr 1
            rw [decide_eq_decide, hmem _ (hother u hu)]
          simp only [List.countP_append, List.countP_cons] at this ⊢
          have e1 : slotClaimed s.slots ⟨id, .write k⟩ = true := rfl
          have e2 : slotClaimed (s.slots.set k (some id)) ⟨id, .holds k⟩ = true := by
            simp only [slotClaimed, Bool.false_or, decide_eq_true_eq]
            exact List.mem_set hlt _
          rw [List.countP_congr (l := a) (fun u hu => by rw [hcl u (by simp [hu])]),
            List.countP_congr (l := b) (fun u hu => by rw [hcl u (by simp [hu])]), e2]
          rw [e1] at this
          exact this
      · rename_i hge
        simp only [Option.some.injEq, Prod.mk.injEq] at hp
        obtain ⟨rfl, rfl⟩ := hp
        exact slotInv_local h rfl rfl (fun _ _ h => .inl h) rfl ⟨hm, by omega⟩ (by simp) (by simp [slotClaimed])

theorem slotInv_reach {size : Nat} {ids : List Nat} (hnd : ids.Nodup) {s : SlotShared × List SlotThread}
    (h : Reach (ThreadStep slotStep) (slotInit size ids) s) : SlotInv size ids s.1 s.2 := by
  induction h with
  | refl => exact slotInv_init size ids
  | step _ r ih => exact slotInv_step hnd ih r

/-! ### the claims -/

/-- a thread gets the same handler every time, and it is one of the handlers -/
theorem C53_same (size : Nat) (ids : List Nat) (hnd : ids.Nodup) (s : SlotShared × List SlotThread)
    (h : Reach (ThreadStep slotStep) (slotInit size ids) s) (a k k' : Nat) (h1 : (a, k) ∈ s.1.log) (h2 : (a, k') ∈ s.1.log) : k = k' ∧ k < size := by
  have inv := slotInv_reach hnd h
  refine ⟨inv.once _ _ _ (inv.log _ _ h1) (inv.log _ _ h2), ?_⟩
  rw [← inv.len]
  exact (List.getElem?_eq_some_iff.1 (inv.log _ _ h1)).1

/-- no handler is ever given to two threads -/
theorem C53_exclusive (size : Nat) (ids : List Nat) (hnd : ids.Nodup) (s : SlotShared × List SlotThread)
    (h : Reach (ThreadStep slotStep) (slotInit size ids) s) (a b k : Nat) (h1 : (a, k) ∈ s.1.log) (h2 : (b, k) ∈ s.1.log) : a = b := by
  have inv := slotInv_reach hnd h
  have e := inv.log _ _ h1
  rw [inv.log _ _ h2] at e
  injection e with e; injection e with e; exact e.symm

/-- no two threads use the same handler at the same time -/
theorem C53_in_use (size : Nat) (ids : List Nat) (hnd : ids.Nodup) (s : SlotShared × List SlotThread)
    (h : Reach (ThreadStep slotStep) (slotInit size ids) s) (t u : SlotThread) (ht : t ∈ s.2) (hu : u ∈ s.2) (k : Nat)
    (h1 : t.pc = .holds k) (h2 : u.pc = .holds k) : t = u := by
  have inv := slotInv_reach hnd h
  have e1 := inv.at_ t ht
  have e2 := inv.at_ u hu
  unfold slotAt at e1 e2
  rw [h1] at e1
  rw [h2] at e2
  dsimp only at e1 e2
  rw [e1] at e2
  injection e2 with e2
  injection e2 with e2
  obtain ⟨_, _⟩ := t
  obtain ⟨_, _⟩ := u
  dsimp only at h1 h2 e2
  rw [h1, h2, e2]

/-- with at most as many threads as handlers no call throws -/
theorem C53_no_throw (size : Nat) (ids : List Nat) (hnd : ids.Nodup) (hle : ids.length ≤ size) (s : SlotShared × List SlotThread)
    (h : Reach (ThreadStep slotStep) (slotInit size ids) s) : ∀ t ∈ s.2, t.pc ≠ .failed := by
  intro t ht e
  have inv := slotInv_reach hnd h
  have h1 := inv.at_ t ht
  unfold slotAt at h1
  rw [e] at h1
  dsimp only at h1
  have h2 := inv.len
  have h3 := inv.count
  have h4 := List.countP_le_length (l := s.2) (p := slotClaimed s.1.slots)
  have h5 : s.2.length = ids.length := by rw [← inv.idsEq, List.length_map]
  omega

/-- with more threads than handlers, once each thread has made a call that ended, one of them has thrown -/
theorem C53_throws (size : Nat) (ids : List Nat) (hnd : ids.Nodup) (hlt : size < ids.length) (s : SlotShared × List SlotThread)
    (h : Reach (ThreadStep slotStep) (slotInit size ids) s) (hall : ∀ t ∈ s.2, t.pc = .failed ∨ ∃ k, (t.id, k) ∈ s.1.log) :
    ∃ t ∈ s.2, t.pc = .failed := by
  by_contra hn
  have inv := slotInv_reach hnd h
  have hsub : ids.map some ⊆ s.1.slots := by
    intro o ho
    rw [← inv.idsEq, List.map_map, List.mem_map] at ho
    obtain ⟨t, ht, rfl⟩ := ho
    rcases hall t ht with e | ⟨k, hk⟩
    · exact absurd ⟨t, ht, e⟩ hn
    · exact List.mem_of_getElem? (inv.log _ _ hk)
  have hnd' : (ids.map some).Nodup := hnd.map (fun a b h => by injection h)
  have := (hnd'.subperm hsub).length_le
  rw [List.length_map, inv.len] at this
  omega

/-- how many steps of its own a thread needs at most until its call ends -/
def slotLeft (size : Nat) : SlotPc → Nat
  | .scan i => size - i + 3
  | .fetch => 2
  | .write _ => 1
  | _ => 0

/-- a call never waits for another thread: it ends after at most `size + 3` steps of its own -/
theorem C53_wait_free (size : Nat) (ids : List Nat) (hnd : ids.Nodup) (s : SlotShared × List SlotThread)
    (h : Reach (ThreadStep slotStep) (slotInit size ids) s) (t : SlotThread) (hne : t.pc ≠ .failed) :
    ∃ s' t', slotStep s.1 t = some (s', t') ∧ slotLeft size t.pc ≤ size + 3 ∧
      ((∃ k, t.pc = .holds k) ∨ t.pc = .idle ∨ slotLeft size t'.pc < slotLeft size t.pc) := by
  have inv := slotInv_reach hnd h
  obtain ⟨id, pc⟩ := t
  have hl := inv.len
  cases pc with
  | idle => exact ⟨_, _, rfl, by simp [slotLeft], .inr (.inl rfl)⟩
  | holds k => exact ⟨_, _, rfl, by simp [slotLeft], .inl ⟨k, rfl⟩⟩
  | failed => exact absurd rfl hne
  | fetch => exact ⟨_, _, rfl, by simp [slotLeft], .inr (.inr (by simp [slotLeft]))⟩
  | write k =>
    simp only [slotStep]
    split <;> exact ⟨_, _, rfl, by simp [slotLeft], .inr (.inr (by simp [slotLeft]))⟩
  | scan i =>
    simp only [slotStep]
    split
    · exact ⟨_, _, rfl, by simp only [slotLeft]; omega, .inr (.inr (by simp only [slotLeft]; omega))⟩
    · rename_i o ho
      have := (List.getElem?_eq_some_iff.1 ho).1
      split
      · exact ⟨_, _, rfl, by simp only [slotLeft]; omega, .inr (.inr (by simp only [slotLeft]; omega))⟩
      · exact ⟨_, _, rfl, by simp only [slotLeft]; omega, .inr (.inr (by simp only [slotLeft]; omega))⟩

/-- finding: one thread can be about to read the id of a handler while another is about to write it; these accesses are not synchronised,
so the program has a data race (undefined behaviour in C++), for any number of handlers and at least two threads -/
theorem C53_race (size : Nat) (hs : 0 < size) (a b : Nat) :
    ∃ s, Reach (ThreadStep slotStep) (slotInit size [a, b]) s ∧ ∃ i, s.2 = [SlotThread.mk a (.write i), SlotThread.mk b (.scan i)] ∧ i < s.1.slots.length := by
  have hscan : ∀ i, i ≤ size → Reach (ThreadStep slotStep) (slotInit size [a, b])
      ((slotInit size []).1, [SlotThread.mk a (.scan i), SlotThread.mk b .idle]) := by
    intro i hi
    induction i with
    | zero => exact .step .refl (.mk _ _ [] [SlotThread.mk b .idle] (SlotThread.mk a .idle) _ rfl)
    | succ i ih =>
      refine .step (ih (by omega)) (.mk _ _ [] [SlotThread.mk b .idle] (SlotThread.mk a (.scan i)) (SlotThread.mk a (.scan (i + 1))) ?_)
      have : (List.replicate size (none : Option Nat))[i]? = some none := by
        rw [List.getElem?_replicate, if_pos (by omega)]
      simp only [slotStep, slotInit, this]
      rfl
  have h1 := hscan size (Nat.le_refl _)
  have h2 : ThreadStep slotStep ((slotInit size []).1, [SlotThread.mk a (.scan size), SlotThread.mk b .idle]) ((slotInit size []).1, [SlotThread.mk a .fetch, SlotThread.mk b .idle]) := by
    refine .mk _ _ [] [SlotThread.mk b .idle] (SlotThread.mk a (.scan size)) (SlotThread.mk a .fetch) ?_
    have : (List.replicate size (none : Option Nat))[size]? = none := by simp
    simp only [slotStep, slotInit, this]
  have h3 : ThreadStep slotStep ((slotInit size []).1, [SlotThread.mk a .fetch, SlotThread.mk b .idle])
      ({ (slotInit size []).1 with next := 1 }, [SlotThread.mk a (.write 0), SlotThread.mk b .idle]) := .mk _ _ [] [SlotThread.mk b .idle] (SlotThread.mk a .fetch) (SlotThread.mk a (.write 0)) rfl
  have h4 : ThreadStep slotStep ({ (slotInit size []).1 with next := 1 }, [SlotThread.mk a (.write 0), SlotThread.mk b .idle])
      ({ (slotInit size []).1 with next := 1 }, [SlotThread.mk a (.write 0), SlotThread.mk b (.scan 0)]) := .mk _ _ [SlotThread.mk a (.write 0)] [] (SlotThread.mk b .idle) (SlotThread.mk b (.scan 0)) rfl
  exact ⟨_, .step (.step (.step h1 h2) h3) h4, 0, rfl, by simpa [slotInit] using hs⟩

/-- the number of handlers is at least two and at least the number of hardware threads -/
theorem C53_count (hardware : Nat) : 2 ≤ handlerCount hardware ∧ hardware ≤ handlerCount hardware := by
  unfold handlerCount; omega

/-- two threads on a machine with two: an execution in which both have been given their handlers twice -/
example : ∃ s, Reach (ThreadStep slotStep) (slotInit (handlerCount 2) [7, 9]) s ∧ s.1.log = [(9, 0), (7, 1), (7, 1), (9, 0)] := by
  refine ⟨_, runSched_reach .refl (is := [0, 1, 0, 1, 0, 1, 0, 1, 1, 0, 1, 0, 0, 0, 0, 0, 1, 1, 1]) rfl, rfl⟩

/-- three threads and two handlers: the third call throws -/
example : ∃ s, Reach (ThreadStep slotStep) (slotInit (handlerCount 1) [7, 9, 4]) s ∧
    (∀ t ∈ s.2, t.pc = .failed ∨ ∃ k, (t.id, k) ∈ s.1.log) ∧ ∃ t ∈ s.2, t = ⟨4, .failed⟩ := by
  refine ⟨_, runSched_reach .refl (is := [0, 0, 0, 0, 0, 0, 1, 1, 1, 1, 1, 1, 2, 2, 2, 2, 2, 2]) rfl, ?_, ?_⟩
  · simp [slotInit, handlerCount]
  · simp

end Tiles
