import Verif.Proof.BqTree
/-
Helper lemmas: the serialized seaside tree represents the tree it was made from.
-/
namespace Tiles

/-- number of inner children before child `i` -/
def Bq.rank (n : Bq) (i : Nat) : Nat := ((List.range i).filter (fun j => (n.child j).isInner)).length

/-- `vec` holds the inner node `n` at `off` -/
def BqRepr (vec : List Nat) : Nat → Bq → Prop
  | off, .inner c0 c1 c2 c3 => ∃ w, vec[off]? = some w ∧
      (∀ i < 4, w.testBit (i + kBqFalseOffset) = decide ((Bq.inner c0 c1 c2 c3).child i = .empty) ∧
        w.testBit (i + kBqTrueOffset) = decide ((Bq.inner c0 c1 c2 c3).child i = .leaf)) ∧
      w < 2 ^ 32 ∧
      BqRepr vec (w % 2 ^ 24 + (Bq.inner c0 c1 c2 c3).rank 0) c0 ∧ BqRepr vec (w % 2 ^ 24 + (Bq.inner c0 c1 c2 c3).rank 1) c1 ∧
      BqRepr vec (w % 2 ^ 24 + (Bq.inner c0 c1 c2 c3).rank 2) c2 ∧ BqRepr vec (w % 2 ^ 24 + (Bq.inner c0 c1 c2 c3).rank 3) c3
  | _, _ => True

theorem and_mask (w : Nat) : w &&& kBqOffsetMask = w % 2 ^ 24 := by
  unfold kBqOffsetMask; exact Nat.and_two_pow_sub_one_eq_mod w 24

theorem Bq.rank_succ (n : Bq) (i : Nat) : n.rank (i + 1) = n.rank i + if (n.child i).isInner then 1 else 0 := by
  unfold Bq.rank
  rw [List.range_succ, List.filter_append, List.length_append]
  congr 1
  by_cases h : (n.child i).isInner <;> simp [h]

theorem Bq.rank_zero (n : Bq) : n.rank 0 = 0 := rfl

/-- state after `i` children of `node` were processed -/
structure BqStep (vec : List Nat) (stack : List (Nat × Bq)) (off : Nat) (node : Bq) (i : Nat)
    (s : List Nat × List (Nat × Bq)) : Prop where
  len : s.1.length = vec.length + node.rank i
  stk : s.2 = (((List.range i).filter (fun j => (node.child j).isInner)).map
      (fun j => (vec.length + node.rank j, node.child j))).reverse ++ stack
  old : ∀ j < vec.length, j ≠ off → s.1[j]? = vec[j]?
  new : ∀ j, vec.length ≤ j → j < s.1.length → s.1[j]? = some 0
  word : vec.length < 2 ^ 24 ∨ node.rank i = 0 → ∃ w, s.1[off]? = some w ∧ w < 2 ^ 32 ∧
    w % 2 ^ 24 = (if node.rank i = 0 then 0 else vec.length) ∧
    ∀ j < 4, w.testBit (j + kBqFalseOffset) = decide (j < i ∧ node.child j = .empty) ∧
        w.testBit (j + kBqTrueOffset) = decide (j < i ∧ node.child j = .leaf)

theorem or_shift_mod (w b : Nat) (hb : 24 ≤ b) : (w ||| 1 <<< b) % 2 ^ 24 = w % 2 ^ 24 := by
  rw [Nat.or_mod_two_pow, Nat.shiftLeft_eq, Nat.one_mul]
  have : 2 ^ b % 2 ^ 24 = 0 := Nat.mod_eq_zero_of_dvd (Nat.pow_dvd_pow 2 hb)
  rw [this, Nat.or_zero]

theorem or_shift_lt {w b : Nat} (hw : w < 2 ^ 32) (hb : b < 32) : w ||| 1 <<< b < 2 ^ 32 := by
  apply Nat.or_lt_two_pow hw
  rw [Nat.shiftLeft_eq, Nat.one_mul]
  exact Nat.pow_lt_pow_right (by omega) hb

theorem testBit_or_shift (w b j : Nat) : (w ||| 1 <<< b).testBit j = (w.testBit j || decide (j = b)) := by
  rw [Nat.testBit_or, Nat.shiftLeft_eq, Nat.one_mul, Nat.testBit_two_pow]
  congr 1; simp [eq_comm]

theorem BqStep.next {vec stack off node i s} (h : BqStep vec stack off node i s) (hi : i < 4) (hoff : off < vec.length) :
    BqStep vec stack off node (i + 1) (bqSerChild off node s i) := by
  obtain ⟨hlen, hstk, hold, hnew, hword⟩ := h
  have hfilt : (List.range (i + 1)).filter (fun j => (node.child j).isInner) =
      (List.range i).filter (fun j => (node.child j).isInner) ++ if (node.child i).isInner then [i] else [] := by
    rw [List.range_succ, List.filter_append]
    congr 1
    by_cases h : (node.child i).isInner <;> simp [h]
  unfold bqSerChild
  cases hc : node.child i with
  | empty =>
    have hr : node.rank (i + 1) = node.rank i := by rw [Bq.rank_succ, hc]; simp [Bq.isInner]
    refine ⟨by simp [hlen, hr], ?_, ?_, ?_, ?_⟩
    · rw [hfilt, hc]; simpa [Bq.isInner] using hstk
    · intro j hj hne; simp only [List.getElem?_modify, Ne.symm hne, if_false]
      simpa using hold j hj hne
    · intro j hj hj'
      simp only [List.length_modify] at hj'
      simp only [List.getElem?_modify, show off ≠ j by omega, if_false, hnew j hj hj']; rfl
    · intro hv
      obtain ⟨w, hw, hlt, hmod, hbits⟩ := hword (by omega)
      refine ⟨w ||| 1 <<< (i + kBqFalseOffset), by simp [List.getElem?_modify, hw], or_shift_lt hlt (by simp only [kBqFalseOffset]; omega), ?_, ?_⟩
      · rw [or_shift_mod _ _ (by simp only [kBqFalseOffset]; omega), hmod, hr]
      · intro j hj
        obtain ⟨h1, h2⟩ := hbits j hj
        rw [testBit_or_shift, testBit_or_shift, h1, h2]
        by_cases hji : j = i
        · subst hji; simp [hc, kBqFalseOffset, kBqTrueOffset]
        · have : (j < i + 1) ↔ j < i := by omega
          simp only [this, kBqFalseOffset, kBqTrueOffset]
          constructor
          · simp [hji]
          · have : ¬ (j + 28 = i + 24) := by omega
            simp [this]
  | leaf =>
    have hr : node.rank (i + 1) = node.rank i := by rw [Bq.rank_succ, hc]; simp [Bq.isInner]
    refine ⟨by simp [hlen, hr], ?_, ?_, ?_, ?_⟩
    · rw [hfilt, hc]; simpa [Bq.isInner] using hstk
    · intro j hj hne; simp only [List.getElem?_modify, Ne.symm hne, if_false]
      simpa using hold j hj hne
    · intro j hj hj'
      simp only [List.length_modify] at hj'
      simp only [List.getElem?_modify, show off ≠ j by omega, if_false, hnew j hj hj']; rfl
    · intro hv
      obtain ⟨w, hw, hlt, hmod, hbits⟩ := hword (by omega)
      refine ⟨w ||| 1 <<< (i + kBqTrueOffset), by simp [List.getElem?_modify, hw], or_shift_lt hlt (by simp only [kBqTrueOffset]; omega), ?_, ?_⟩
      · rw [or_shift_mod _ _ (by simp only [kBqTrueOffset]; omega), hmod, hr]
      · intro j hj
        obtain ⟨h1, h2⟩ := hbits j hj
        rw [testBit_or_shift, testBit_or_shift, h1, h2]
        by_cases hji : j = i
        · subst hji; simp [hc, kBqFalseOffset, kBqTrueOffset]
        · have : (j < i + 1) ↔ j < i := by omega
          simp only [this, kBqFalseOffset, kBqTrueOffset]
          constructor
          · have : ¬ (j = i + 4) := by omega
            simp [this]
          · simp [hji]
  | inner a b c d =>
    have hr : node.rank (i + 1) = node.rank i + 1 := by rw [Bq.rank_succ, hc]; simp [Bq.isInner]
    refine ⟨by simp [hlen, hr]; omega, ?_, ?_, ?_, ?_⟩
    · rw [hfilt]
      have hi' : (node.child i).isInner = true := by rw [hc]; rfl
      simp only [hi', if_true, List.map_append, List.map_cons, List.map_nil, List.reverse_append,
        List.reverse_cons, List.reverse_nil, List.nil_append, List.cons_append]
      rw [hstk, hlen, hc]
    · intro j hj hne
      simp only
      rw [List.getElem?_append_left (by simp; omega)]
      simp only [List.getElem?_modify, Ne.symm hne, if_false]
      simpa using hold j hj hne
    · intro j hj hj'
      simp only [List.length_append, List.length_modify, List.length_singleton] at hj'
      simp only
      by_cases hjl : j < s.1.length
      · rw [List.getElem?_append_left (by simpa using hjl)]
        simp only [List.getElem?_modify, show off ≠ j by omega, if_false, hnew j hj hjl]; rfl
      · rw [List.getElem?_append_right (by simp; omega)]
        have : j = s.1.length := by omega
        simp [this]
    · intro hv
      have hv : vec.length < 2 ^ 24 := by omega
      obtain ⟨w, hw, hlt, hmod, hbits⟩ := hword (Or.inl hv)
      simp only
      rw [List.getElem?_append_left (by simp; omega)]
      simp only [List.getElem?_modify, if_true, hw, Option.map_some, and_mask]
      refine ⟨_, rfl, ?_⟩
      simp only
      by_cases hz : w % 2 ^ 24 = 0
      · have hr0 : node.rank i = 0 := by
          rw [hmod] at hz
          by_cases h0 : node.rank i = 0
          · exact h0
          · rw [if_neg h0] at hz; omega
        rw [if_pos hz, hr, if_neg (by omega), hlen, hr0, Nat.add_zero]
        have hor : (w ||| vec.length) < 2 ^ 32 := Nat.or_lt_two_pow hlt (by omega)
        rw [Nat.mod_eq_of_lt hor]
        refine ⟨hor, ?_, ?_⟩
        · rw [Nat.or_mod_two_pow, hz, Nat.zero_or, Nat.mod_eq_of_lt hv]
        · intro j hj
          obtain ⟨h1, h2⟩ := hbits j hj
          have t1 : vec.length.testBit (j + kBqFalseOffset) = false :=
            Nat.testBit_lt_two_pow (Nat.lt_of_lt_of_le hv (Nat.pow_le_pow_right (by omega) (by simp [kBqFalseOffset])))
          have t2 : vec.length.testBit (j + kBqTrueOffset) = false :=
            Nat.testBit_lt_two_pow (Nat.lt_of_lt_of_le hv (Nat.pow_le_pow_right (by omega) (by simp only [kBqTrueOffset]; omega)))
          rw [Nat.testBit_or, Nat.testBit_or, h1, h2, t1, t2]
          by_cases hji : j = i
          · subst hji; simp [hc]
          · have : (j < i + 1) ↔ j < i := by omega
            simp [this]
      · have hr0 : node.rank i ≠ 0 := by
          intro h0; rw [hmod, if_pos h0] at hz; exact hz rfl
        rw [if_neg hz, hr, if_neg (by omega)]
        rw [if_neg hr0] at hmod
        refine ⟨hlt, hmod, ?_⟩
        intro j hj
        obtain ⟨h1, h2⟩ := hbits j hj
        rw [h1, h2]
        by_cases hji : j = i
        · subst hji; simp [hc]
        · have : (j < i + 1) ↔ j < i := by omega
          simp [this]

theorem BqStep.four {vec stack off node} (hoff : off < vec.length) (h0 : vec[off]? = some 0) :
    BqStep vec stack off node 4 ([0, 1, 2, 3].foldl (bqSerChild off node) (vec, stack)) := by
  have b : BqStep vec stack off node 0 (vec, stack) := by
    refine ⟨rfl, by simp, fun _ _ _ => rfl, fun j h h' => ?_, fun _ => ⟨0, h0, by omega, by simp [Bq.rank_zero], ?_⟩⟩
    · simp only at h'; omega
    · intro j _; simp
  simp only [List.foldl_cons, List.foldl_nil]
  exact (((b.next (by omega) hoff).next (by omega) hoff).next (by omega) hoff).next (by omega) hoff

/-- inner nodes waiting on the stack, not counting the ones that already have a word -/
def bqPending (stack : List (Nat × Bq)) : Nat := (stack.map (fun e => e.2.innerCount)).sum

theorem innerCount_children (a b c d : Bq) :
    bqPending ((((List.range 4).filter (fun j => ((Bq.inner a b c d).child j).isInner)).map
      (fun j => (0 + (Bq.inner a b c d).rank j, (Bq.inner a b c d).child j))).reverse) + 1 = (Bq.inner a b c d).innerCount := by
  simp only [bqPending, List.map_reverse, List.sum_reverse, List.map_map]
  have h : ∀ n : Bq, n.isInner = false → n.innerCount = 0 := by
    intro n hn; cases n <;> simp_all [Bq.isInner, Bq.innerCount]
  have e : List.range 4 = [0, 1, 2, 3] := rfl
  rw [e]
  simp only [Bq.child, Bq.innerCount]
  cases ha : a.isInner <;> cases hb : b.isInner <;> cases hc : c.isInner <;> cases hd : d.isInner <;>
    simp [List.filter_cons, Bq.child, ha, hb, hc, hd, h a, h b, h c, h d] <;> omega

/-- what a pushed list of children is -/
def bqPushes (n : Nat) (node : Bq) : List (Nat × Bq) :=
  (((List.range 4).filter (fun j => (node.child j).isInner)).map (fun j => (n + node.rank j, node.child j))).reverse

theorem bqPushes_pending (n : Nat) (a b c d : Bq) :
    bqPending (bqPushes n (.inner a b c d)) + 1 = (Bq.inner a b c d).innerCount := by
  rw [← innerCount_children]
  simp [bqPending, bqPushes, Function.comp_def]

theorem Bq.rank_mono (n : Bq) {i j : Nat} (h : i ≤ j) : n.rank i ≤ n.rank j := by
  induction h with
  | refl => exact Nat.le_refl _
  | step _ ih => rw [Bq.rank_succ]; omega

theorem Bq.rank_lt (n : Bq) {i j : Nat} (h : i < j) (hi : (n.child i).isInner) : n.rank i < n.rank j := by
  have := Bq.rank_mono n (show i + 1 ≤ j from h)
  rw [Bq.rank_succ, if_pos hi] at this; omega

theorem mem_bqPushes {n : Nat} {node : Bq} {e : Nat × Bq} :
    e ∈ bqPushes n node ↔ ∃ j < 4, (node.child j).isInner ∧ e = (n + node.rank j, node.child j) := by
  simp only [bqPushes, List.mem_reverse, List.mem_map, List.mem_filter, List.mem_range]
  constructor
  · rintro ⟨j, ⟨h1, h2⟩, rfl⟩; exact ⟨j, h1, h2, rfl⟩
  · rintro ⟨j, h1, h2, rfl⟩; exact ⟨j, ⟨h1, h2⟩, rfl⟩

theorem bqPushes_nodup (n : Nat) (node : Bq) : ((bqPushes n node).map (·.1)).Nodup := by
  simp only [bqPushes, List.map_reverse, List.map_map]
  rw [List.Nodup, List.pairwise_reverse, List.pairwise_map]
  have hp : ((List.range 4).filter (fun j => (node.child j).isInner)).Pairwise (· < ·) :=
    List.Pairwise.filter _ List.pairwise_lt_range
  have hm : ∀ j ∈ (List.range 4).filter (fun j => (node.child j).isInner), (node.child j).isInner := by
    intro j hj; exact (List.mem_filter.1 hj).2
  refine List.Pairwise.imp_of_mem ?_ hp
  intro a b ha _ hab
  have := Bq.rank_lt node hab (hm a ha)
  simp only [Function.comp]; omega

/-- the serialization loop terminates within its fuel and its result has one word per inner node -/
theorem bqSerLoop_length (fuel : Nat) (vec : List Nat) (stack : List (Nat × Bq))
    (hin : ∀ e ∈ stack, e.2.isInner) (hoff : ∀ e ∈ stack, e.1 < vec.length ∧ vec[e.1]? = some 0)
    (hnd : (stack.map (·.1)).Nodup) (hf : bqPending stack ≤ fuel) :
    ∃ vec', bqSerLoop fuel vec stack = .ok vec' ∧ vec'.length + stack.length = vec.length + bqPending stack ∧
      (vec'.length ≤ 2 ^ 24 →
        (∀ j < vec.length, j ∉ stack.map (·.1) → vec'[j]? = vec[j]?) ∧ ∀ e ∈ stack, BqRepr vec' e.1 e.2) := by
  induction fuel generalizing vec stack with
  | zero =>
    cases stack with
    | nil => exact ⟨vec, rfl, by simp [bqPending], fun _ => ⟨fun _ _ _ => rfl, by simp⟩⟩
    | cons e stack =>
      exfalso
      have := hin e (by simp)
      cases he : e.2 <;> simp [he, Bq.isInner] at this
      simp [bqPending, he, Bq.innerCount] at hf
  | succ fuel ih =>
    cases stack with
    | nil => exact ⟨vec, rfl, by simp [bqPending], fun _ => ⟨fun _ _ _ => rfl, by simp⟩⟩
    | cons e stack =>
      obtain ⟨off, node⟩ := e
      have hinner := hin (off, node) (by simp)
      obtain ⟨ho1, ho2⟩ := hoff (off, node) (by simp)
      simp only at hinner ho1 ho2
      cases node with
      | empty => simp [Bq.isInner] at hinner
      | leaf => simp [Bq.isInner] at hinner
      | inner a b c d =>
        have hst := BqStep.four (stack := stack) (node := .inner a b c d) ho1 ho2
        obtain ⟨hlen, hstk, hold, hnew, hword⟩ := hst
        simp only [bqSerLoop]
        generalize ([0, 1, 2, 3].foldl (bqSerChild off (.inner a b c d)) (vec, stack)) = s at *
        change s.2 = bqPushes vec.length (.inner a b c d) ++ stack at hstk
        have hpl : (bqPushes vec.length (.inner a b c d)).length = (Bq.inner a b c d).rank 4 := by
          simp [bqPushes, Bq.rank]
        simp only [List.map_cons, List.nodup_cons] at hnd
        have hpo : ∀ e ∈ bqPushes vec.length (.inner a b c d), vec.length ≤ e.1 ∧ e.1 < s.1.length := by
          intro e he
          obtain ⟨j, hj, hji, rfl⟩ := mem_bqPushes.1 he
          have := Bq.rank_lt _ hj hji
          simp only; omega
        have hpend := bqPushes_pending vec.length a b c d
        have hpend2 : bqPending ((off, Bq.inner a b c d) :: stack) =
            (Bq.inner a b c d).innerCount + bqPending stack := by simp [bqPending]
        have hpend3 : bqPending s.2 = bqPending (bqPushes vec.length (.inner a b c d)) + bqPending stack := by
          rw [hstk]; simp [bqPending]
        obtain ⟨vec', hr, hl, hrep⟩ := ih s.1 s.2 (by
            intro e he; rw [hstk] at he
            rcases List.mem_append.1 he with h | h
            · obtain ⟨j, hj, hji, rfl⟩ := mem_bqPushes.1 h; exact hji
            · exact hin e (by simp [h])) (by
            intro e he; rw [hstk] at he
            rcases List.mem_append.1 he with h | h
            · obtain ⟨h1, h2⟩ := hpo e h
              exact ⟨h2, hnew _ h1 h2⟩
            · obtain ⟨h1, h2⟩ := hoff e (by simp [h])
              refine ⟨by omega, ?_⟩
              rw [hold _ h1, h2]
              intro h3; exact hnd.1 (List.mem_map.2 ⟨e, h, h3⟩)) (by
            rw [hstk, List.map_append, List.nodup_append]
            refine ⟨bqPushes_nodup _ _, hnd.2, ?_⟩
            intro x hx y hy
            obtain ⟨e, he, rfl⟩ := List.mem_map.1 hx
            obtain ⟨e', he', rfl⟩ := List.mem_map.1 hy
            have := (hpo e he).1
            have := (hoff e' (by simp [he'])).1
            omega) (by omega)
        refine ⟨vec', hr, ?_, ?_⟩
        · rw [hpend2]
          rw [hpend3, hstk, List.length_append, hpl] at hl
          simp only [List.length_cons]; omega
        · intro hle
          obtain ⟨hk1, hk2⟩ := hrep hle
          have hpos : stack.length ≤ bqPending stack := by
            have : ∀ st : List (Nat × Bq), (∀ e ∈ st, e.2.isInner) → st.length ≤ bqPending st := by
              intro st
              induction st with
              | nil => simp [bqPending]
              | cons e st ihs =>
                intro h
                have h1 := ihs (fun e he => h e (by simp [he]))
                have h2 := h e (by simp)
                cases he : e.2 <;> simp [he, Bq.isInner] at h2
                simp only [bqPending, List.map_cons, List.sum_cons, List.length_cons, he, Bq.innerCount] at *
                omega
            exact this stack (fun e he => hin e (by simp [he]))
          have hpp : (bqPushes vec.length (.inner a b c d)).length ≤ bqPending (bqPushes vec.length (.inner a b c d)) := by
            have : ∀ st : List (Nat × Bq), (∀ e ∈ st, e.2.isInner) → st.length ≤ bqPending st := by
              intro st
              induction st with
              | nil => simp [bqPending]
              | cons e st ihs =>
                intro h
                have h1 := ihs (fun e he => h e (by simp [he]))
                have h2 := h e (by simp)
                cases he : e.2 <;> simp [he, Bq.isInner] at h2
                simp only [bqPending, List.map_cons, List.sum_cons, List.length_cons, he, Bq.innerCount] at *
                omega
            apply this
            intro e he
            obtain ⟨j, hj, hji, rfl⟩ := mem_bqPushes.1 he; exact hji
          have hvle : vec.length ≤ vec'.length := by
            rw [hpend3, hstk, List.length_append] at hl
            omega
          constructor
          · intro j hj hjn
            simp only [List.map_cons, List.mem_cons, not_or] at hjn
            rw [hk1 j (by omega), hold j hj hjn.1]
            rw [hstk, List.map_append, List.mem_append]
            rintro (h | h)
            · obtain ⟨e, he, rfl⟩ := List.mem_map.1 h
              have := (hpo e he).1; omega
            · exact hjn.2 h
          · intro e he
            rcases List.mem_cons.1 he with rfl | he
            · simp only
              have hvoff : vec'[off]? = s.1[off]? := by
                apply hk1 off (by omega)
                rw [hstk, List.map_append, List.mem_append]
                rintro (h | h)
                · obtain ⟨e, he', he2⟩ := List.mem_map.1 h
                  have := (hpo e he').1; omega
                · exact hnd.1 h
              obtain ⟨w, hw, hlt, hmod, hbits⟩ := hword (by
                rw [hpend3, hstk, List.length_append] at hl
                omega)
              have hc : ∀ j < 4, BqRepr vec' (w % 2 ^ 24 + (Bq.inner a b c d).rank j) ((Bq.inner a b c d).child j) := by
                intro j hj
                by_cases hji : ((Bq.inner a b c d).child j).isInner
                · have hr0 := Bq.rank_lt _ hj hji
                  rw [hmod, if_neg (by omega)]
                  exact hk2 _ (by rw [hstk]; exact List.mem_append_left _ (mem_bqPushes.2 ⟨j, hj, hji, rfl⟩))
                · cases hcj : (Bq.inner a b c d).child j with
                  | empty => simp [BqRepr]
                  | leaf => simp [BqRepr]
                  | inner => rw [hcj] at hji; simp [Bq.isInner] at hji
              rw [forall_lt_four] at hc
              refine ⟨w, by rw [hvoff, hw], ?_, hlt, hc⟩
              intro j hj
              have := hbits j hj
              simpa [hj] using this
            · exact hk2 e (by rw [hstk]; simp [he])

theorem bqSerialize_spec {a b c d : Bq} : ∃ vec, bqSerialize (.inner a b c d) = .ok vec ∧
    vec.length = (Bq.inner a b c d).innerCount ∧ (vec.length ≤ 2 ^ 24 → BqRepr vec 0 (.inner a b c d)) := by
  obtain ⟨vec, h1, h2, h3⟩ := bqSerLoop_length (Bq.inner a b c d).innerCount [0] [(0, .inner a b c d)]
    (by simp [Bq.isInner]) (by simp) (by simp) (by simp [bqPending])
  refine ⟨vec, h1, ?_, fun h => (h3 h).2 (0, .inner a b c d) (by simp)⟩
  simp [bqPending] at h2; omega

end Tiles
