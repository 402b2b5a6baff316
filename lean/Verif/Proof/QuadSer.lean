import Verif.Proof.QuadTree
import Verif.Proof.BqSer
/-
Helper lemmas: the serialized quad tree represents the tree it was made from.
-/
namespace Tiles

def Qt.rank (n : Qt) (i : Nat) : Nat := ((List.range i).filter (fun j => (n.child j).isNode)).length

theorem Qt.rank_succ (n : Qt) (i : Nat) : n.rank (i + 1) = n.rank i + if (n.child i).isNode then 1 else 0 := by
  unfold Qt.rank
  rw [List.range_succ, List.filter_append, List.length_append]
  congr 1
  by_cases h : (n.child i).isNode <;> simp [h]

theorem Qt.rank_zero (n : Qt) : n.rank 0 = 0 := rfl

theorem Qt.rank_mono (n : Qt) {i j : Nat} (h : i ≤ j) : n.rank i ≤ n.rank j := by
  induction h with
  | refl => exact Nat.le_refl _
  | step _ ih => rw [Qt.rank_succ]; omega

theorem Qt.rank_lt (n : Qt) {i j : Nat} (h : i < j) (hi : (n.child i).isNode) : n.rank i < n.rank j := by
  have := Qt.rank_mono n (show i + 1 ≤ j from h)
  rw [Qt.rank_succ, if_pos hi] at this; omega

/-- the word reader `rd` finds node `n` at `off` -/
def QRepr (rd : Nat → Res Nat) : Nat → Qt → Prop
  | off, .node o s t c0 c1 c2 c3 => ∃ w, rd off = .ok w ∧ rd (off + 1) = .ok o ∧ rd (off + 2) = .ok s ∧ rd (off + 3) = .ok t ∧
      (∀ i < 4, w.testBit (kQuadChildOffset + i) = ((Qt.node o s t c0 c1 c2 c3).child i).isNode) ∧
      QRepr rd (w % 2 ^ 28 + 4 * (Qt.node o s t c0 c1 c2 c3).rank 0) c0 ∧ QRepr rd (w % 2 ^ 28 + 4 * (Qt.node o s t c0 c1 c2 c3).rank 1) c1 ∧
      QRepr rd (w % 2 ^ 28 + 4 * (Qt.node o s t c0 c1 c2 c3).rank 2) c2 ∧ QRepr rd (w % 2 ^ 28 + 4 * (Qt.node o s t c0 c1 c2 c3).rank 3) c3
  | _, .none => True

theorem QRepr.mono {rd rd' : Nat → Res Nat} (h : ∀ n w, rd n = .ok w → rd' n = .ok w) {off : Nat} {n : Qt}
    (hr : QRepr rd off n) : QRepr rd' off n := by
  induction n generalizing off with
  | none => trivial
  | node o s t c0 c1 c2 c3 i0 i1 i2 i3 =>
    obtain ⟨w, h0, h1, h2, h3, hb, r0, r1, r2, r3⟩ := hr
    exact ⟨w, h _ _ h0, h _ _ h1, h _ _ h2, h _ _ h3, hb, i0 r0, i1 r1, i2 r2, i3 r3⟩

/-- word reader of a vector -/
def rdVec (vec : List Nat) (n : Nat) : Res Nat :=
  match vec[n]? with
  | some w => .ok w
  | none => .ub

theorem rdVec_ok {vec : List Nat} {n w : Nat} : rdVec vec n = .ok w ↔ vec[n]? = some w := by
  unfold rdVec; cases vec[n]? <;> simp

structure QStep (vec : List Nat) (stack : List (Nat × Qt)) (off : Nat) (node : Qt) (i : Nat)
    (s : List Nat × List (Nat × Qt)) : Prop where
  len : s.1.length = vec.length + 4 * node.rank i
  stk : s.2 = (((List.range i).filter (fun j => (node.child j).isNode)).map
      (fun j => (vec.length + 4 * node.rank j, node.child j))).reverse ++ stack
  old : ∀ j < vec.length, j ≠ off → s.1[j]? = vec[j]?
  new : ∀ j, vec.length ≤ j → j < s.1.length → s.1[j]? = some 0
  word : vec.length < 2 ^ 28 ∨ node.rank i = 0 → ∃ w, s.1[off]? = some w ∧ w < 2 ^ 32 ∧
    (node.rank i = 0 → w = 0) ∧ (node.rank i ≠ 0 → w % 2 ^ 28 = vec.length) ∧
    ∀ j < 4, w.testBit (kQuadChildOffset + j) = decide (j < i ∧ (node.child j).isNode)

theorem or_shift_mod28 (w b : Nat) (hb : 28 ≤ b) : (w ||| 1 <<< b) % 2 ^ 28 = w % 2 ^ 28 := by
  rw [Nat.or_mod_two_pow, Nat.shiftLeft_eq, Nat.one_mul]
  have : 2 ^ b % 2 ^ 28 = 0 := Nat.mod_eq_zero_of_dvd (Nat.pow_dvd_pow 2 hb)
  rw [this, Nat.or_zero]

theorem QStep.next {vec stack off node i s} (h : QStep vec stack off node i s) (hi : i < 4) (hoff : off < vec.length) :
    QStep vec stack off node (i + 1) (qSerChild off node s i) := by
  obtain ⟨hlen, hstk, hold, hnew, hword⟩ := h
  have hfilt : (List.range (i + 1)).filter (fun j => (node.child j).isNode) =
      (List.range i).filter (fun j => (node.child j).isNode) ++ if (node.child i).isNode then [i] else [] := by
    rw [List.range_succ, List.filter_append]
    congr 1
    by_cases h : (node.child i).isNode <;> simp [h]
  unfold qSerChild
  cases hc : node.child i with
  | none =>
    have hr : node.rank (i + 1) = node.rank i := by rw [Qt.rank_succ, hc]; simp [Qt.isNode]
    refine ⟨by rw [hr]; exact hlen, ?_, hold, hnew, ?_⟩
    · rw [hfilt, hc]; simpa [Qt.isNode] using hstk
    · rw [hr]
      intro hv
      obtain ⟨w, hw, hlt, hz, hmod, hbits⟩ := hword hv
      refine ⟨w, hw, hlt, hz, hmod, ?_⟩
      intro j hj
      rw [hbits j hj]
      by_cases hji : j = i
      · subst hji; simp [hc, Qt.isNode]
      · have : (j < i + 1) ↔ j < i := by omega
        simp [this]
  | node o se su a b c d =>
    have hi' : (node.child i).isNode = true := by rw [hc]; rfl
    have hr : node.rank (i + 1) = node.rank i + 1 := by rw [Qt.rank_succ, if_pos hi']
    refine ⟨by simp [hlen, hr]; omega, ?_, ?_, ?_, ?_⟩
    · rw [hfilt]
      simp only [hi', if_true, List.map_append, List.map_cons, List.map_nil, List.reverse_append,
        List.reverse_cons, List.reverse_nil, List.nil_append, List.cons_append]
      rw [hstk, hlen, hc]
    · intro j hj hne
      simp only
      rw [List.getElem?_append_left (by simp; omega)]
      simp only [List.getElem?_modify, Ne.symm hne, if_false]
      simpa using hold j hj hne
    · intro j hj hj'
      simp only [List.length_append, List.length_modify, List.length_cons, List.length_nil] at hj'
      simp only
      by_cases hjl : j < s.1.length
      · rw [List.getElem?_append_left (by simpa using hjl)]
        simp only [List.getElem?_modify, show off ≠ j by omega, if_false, hnew j hj hjl]; rfl
      · rw [List.getElem?_append_right (by simp; omega)]
        simp only [List.length_modify]
        obtain ⟨m, hm⟩ : ∃ m, j = s.1.length + m := ⟨j - s.1.length, by omega⟩
        have hm4 : m < 4 := by omega
        rw [hm, Nat.add_sub_cancel_left]
        match m, hm4 with
        | 0, _ => rfl
        | 1, _ => rfl
        | 2, _ => rfl
        | 3, _ => rfl
    · intro hv
      have hv : vec.length < 2 ^ 28 := by omega
      obtain ⟨w, hw, hlt, hz, hmod, hbits⟩ := hword (Or.inl hv)
      simp only
      rw [List.getElem?_append_left (by simp; omega)]
      simp only [List.getElem?_modify, if_true, hw]
      refine ⟨_, rfl, ?_⟩
      simp only
      rw [hr]
      have key : ∀ v, v < 2 ^ 32 → v % 2 ^ 28 = vec.length →
          (∀ j < 4, v.testBit (kQuadChildOffset + j) = decide (j < i ∧ (node.child j).isNode)) →
          (v ||| 1 <<< (i + kQuadChildOffset)) < 2 ^ 32 ∧
          (node.rank i + 1 = 0 → (v ||| 1 <<< (i + kQuadChildOffset)) = 0) ∧
          (node.rank i + 1 ≠ 0 → (v ||| 1 <<< (i + kQuadChildOffset)) % 2 ^ 28 = vec.length) ∧
          ∀ j < 4, (v ||| 1 <<< (i + kQuadChildOffset)).testBit (kQuadChildOffset + j) =
            decide (j < i + 1 ∧ (node.child j).isNode) := by
        intro v hv1 hv2 hv3
        refine ⟨or_shift_lt hv1 (by simp only [kQuadChildOffset]; omega), by omega, fun _ => ?_, ?_⟩
        · rw [or_shift_mod28 _ _ (by simp only [kQuadChildOffset]; omega), hv2]
        · intro j hj
          rw [testBit_or_shift, hv3 j hj]
          by_cases hji : j = i
          · subst hji; simp [hi', Nat.add_comm]
          · have h1 : (j < i + 1) ↔ j < i := by omega
            have h2 : ¬ (kQuadChildOffset + j = i + kQuadChildOffset) := by omega
            simp [h1, h2]
      by_cases hr0 : node.rank i = 0
      · have := hz hr0
        subst this
        rw [if_pos rfl]
        have hl' : s.1.length % 2 ^ 32 = vec.length := by rw [hlen, hr0]; omega
        rw [hl']
        refine key _ (by omega) (Nat.mod_eq_of_lt hv) ?_
        intro j hj
        have t1 : vec.length.testBit (kQuadChildOffset + j) = false :=
          Nat.testBit_lt_two_pow (Nat.lt_of_lt_of_le hv (Nat.pow_le_pow_right (by omega) (by simp [kQuadChildOffset])))
        have t2 := hbits j hj
        rw [Nat.zero_testBit] at t2
        rw [t1, t2]
      · have hm := hmod hr0
        have hw0 : w ≠ 0 := by rintro rfl; simp at hm; omega
        rw [if_neg hw0]
        exact key w hlt hm hbits

theorem QStep.four {vec stack off node} (hoff : off < vec.length) (h0 : vec[off]? = some 0) :
    QStep vec stack off node 4 ([0, 1, 2, 3].foldl (qSerChild off node) (vec, stack)) := by
  have b : QStep vec stack off node 0 (vec, stack) := by
    refine ⟨by simp [Qt.rank_zero], by simp, fun _ _ _ => rfl, fun j h h' => ?_, fun _ => ⟨0, h0, by omega, by simp, by simp [Qt.rank_zero], ?_⟩⟩
    · simp only at h'; omega
    · intro j _; simp
  simp only [List.foldl_cons, List.foldl_nil]
  exact (((b.next (by omega) hoff).next (by omega) hoff).next (by omega) hoff).next (by omega) hoff

def qPending (stack : List (Nat × Qt)) : Nat := (stack.map (fun e => e.2.count)).sum

def qPushes (n : Nat) (node : Qt) : List (Nat × Qt) :=
  (((List.range 4).filter (fun j => (node.child j).isNode)).map (fun j => (n + 4 * node.rank j, node.child j))).reverse

theorem qPushes_pending (n o s t : Nat) (a b c d : Qt) :
    qPending (qPushes n (.node o s t a b c d)) + 1 = (Qt.node o s t a b c d).count := by
  simp only [qPending, qPushes, List.map_reverse, List.sum_reverse, List.map_map]
  have h : ∀ n : Qt, n.isNode = false → n.count = 0 := by
    intro n hn; cases n <;> simp_all [Qt.isNode, Qt.count]
  have e : List.range 4 = [0, 1, 2, 3] := rfl
  rw [e]
  simp only [Qt.child, Qt.count]
  cases ha : a.isNode <;> cases hb : b.isNode <;> cases hc : c.isNode <;> cases hd : d.isNode <;>
    simp [List.filter_cons, Qt.child, ha, hb, hc, hd, h a, h b, h c, h d] <;> omega

theorem mem_qPushes {n : Nat} {node : Qt} {e : Nat × Qt} :
    e ∈ qPushes n node ↔ ∃ j < 4, (node.child j).isNode ∧ e = (n + 4 * node.rank j, node.child j) := by
  simp only [qPushes, List.mem_reverse, List.mem_map, List.mem_filter, List.mem_range]
  constructor
  · rintro ⟨j, ⟨h1, h2⟩, rfl⟩; exact ⟨j, h1, h2, rfl⟩
  · rintro ⟨j, h1, h2, rfl⟩; exact ⟨j, ⟨h1, h2⟩, rfl⟩

theorem qPending_ge (st : List (Nat × Qt)) (h : ∀ e ∈ st, e.2.isNode) : st.length ≤ qPending st := by
  induction st with
  | nil => simp [qPending]
  | cons e st ihs =>
    have h1 := ihs (fun e he => h e (by simp [he]))
    have h2 := h e (by simp)
    cases he : e.2 <;> simp [he, Qt.isNode] at h2
    simp only [qPending, List.map_cons, List.sum_cons, List.length_cons, he, Qt.count] at *
    omega

/-- stack offsets are at least one node apart -/
def QApart (st : List (Nat × Qt)) : Prop := st.Pairwise (fun a b => a.1 + 4 ≤ b.1 ∨ b.1 + 4 ≤ a.1)

theorem qPushes_apart (n : Nat) (node : Qt) : QApart (qPushes n node) := by
  unfold QApart qPushes
  rw [List.pairwise_reverse, List.pairwise_map]
  have hp : ((List.range 4).filter (fun j => (node.child j).isNode)).Pairwise (· < ·) :=
    List.Pairwise.filter _ List.pairwise_lt_range
  refine List.Pairwise.imp_of_mem ?_ hp
  intro a b ha _ hab
  have := Qt.rank_lt node hab (List.mem_filter.1 ha).2
  simp only; omega

theorem qSerLoop_spec (fuel : Nat) (vec : List Nat) (stack : List (Nat × Qt))
    (hin : ∀ e ∈ stack, e.2.isNode) (hoff : ∀ e ∈ stack, e.1 + 4 ≤ vec.length ∧ vec[e.1]? = some 0)
    (hnd : QApart stack) (hf : qPending stack ≤ fuel) :
    ∃ vec', qSerLoop fuel vec stack = .ok vec' ∧ vec'.length + 4 * stack.length = vec.length + 4 * qPending stack ∧
      (vec'.length ≤ 2 ^ 28 →
        (∀ j < vec.length, (∀ e ∈ stack, j < e.1 ∨ e.1 + 4 ≤ j) → vec'[j]? = vec[j]?) ∧
        ∀ e ∈ stack, QRepr (rdVec vec') e.1 e.2) := by
  induction fuel generalizing vec stack with
  | zero =>
    cases stack with
    | nil => exact ⟨vec, rfl, by simp [qPending], fun _ => ⟨fun _ _ _ => rfl, by simp⟩⟩
    | cons e stack =>
      exfalso
      have := qPending_ge _ hin
      simp at this; omega
  | succ fuel ih =>
    cases stack with
    | nil => exact ⟨vec, rfl, by simp [qPending], fun _ => ⟨fun _ _ _ => rfl, by simp⟩⟩
    | cons e stack =>
      obtain ⟨off, node⟩ := e
      have hinner := hin (off, node) (by simp)
      obtain ⟨ho1, ho2⟩ := hoff (off, node) (by simp)
      simp only at hinner ho1 ho2
      cases node with
      | none => simp [Qt.isNode] at hinner
      | node o se su a b c d =>
        have hdl : (qSerData off (.node o se su a b c d) vec).length = vec.length := by simp [qSerData]
        have hd0 : (qSerData off (.node o se su a b c d) vec)[off]? = some 0 := by
          simp only [qSerData]
          rw [List.getElem?_set_ne (by omega), List.getElem?_set_ne (by omega), List.getElem?_set_ne (by omega), ho2]
        have hdj : ∀ j, (j < off ∨ off + 4 ≤ j) → (qSerData off (.node o se su a b c d) vec)[j]? = vec[j]? := by
          intro j hj
          simp only [qSerData]
          rw [List.getElem?_set_ne (by omega), List.getElem?_set_ne (by omega), List.getElem?_set_ne (by omega)]
        have hd1 : (qSerData off (.node o se su a b c d) vec)[off + 1]? = some o ∧
            (qSerData off (.node o se su a b c d) vec)[off + 2]? = some se ∧
            (qSerData off (.node o se su a b c d) vec)[off + 3]? = some su := by
          simp only [qSerData]
          refine ⟨?_, ?_, ?_⟩
          · rw [List.getElem?_set_ne (by omega), List.getElem?_set_ne (by omega), List.getElem?_set_self (by omega)]
          · rw [List.getElem?_set_ne (by omega), List.getElem?_set_self (by simp; omega)]
          · rw [List.getElem?_set_self (by simp; omega)]
        have hst := QStep.four (vec := qSerData off (.node o se su a b c d) vec) (stack := stack)
          (node := .node o se su a b c d) (by omega) hd0
        obtain ⟨hlen, hstk, hold, hnew, hword⟩ := hst
        simp only [qSerLoop]
        generalize qSerData off (.node o se su a b c d) vec = vd at *
        generalize ([0, 1, 2, 3].foldl (qSerChild off (.node o se su a b c d)) (vd, stack)) = s at *
        change s.2 = qPushes vd.length (.node o se su a b c d) ++ stack at hstk
        generalize hnode : Qt.node o se su a b c d = nd at *
        have hpl : (qPushes vd.length nd).length = nd.rank 4 := by
          simp [qPushes, Qt.rank]
        unfold QApart at hnd
        rw [List.pairwise_cons] at hnd
        have hpo : ∀ e ∈ qPushes vd.length nd, vd.length ≤ e.1 ∧ e.1 + 4 ≤ s.1.length := by
          intro e he
          obtain ⟨j, hj, hji, rfl⟩ := mem_qPushes.1 he
          have := Qt.rank_lt _ hj hji
          simp only; omega
        have hpn : ∀ e ∈ qPushes vd.length nd, e.2.isNode := by
          intro e he
          obtain ⟨j, hj, hji, rfl⟩ := mem_qPushes.1 he
          exact hji
        have hpend : qPending (qPushes vd.length nd) + 1 = nd.count := by
          rw [← hnode]; exact qPushes_pending _ _ _ _ _ _ _ _
        have hpend2 : qPending ((off, nd) :: stack) = nd.count + qPending stack := by simp [qPending]
        have hpend3 : qPending s.2 = qPending (qPushes vd.length nd) + qPending stack := by
          rw [hstk]; simp [qPending]
        obtain ⟨vec', hr, hl, hrep⟩ := ih s.1 s.2 (by
            intro e he; rw [hstk] at he
            rcases List.mem_append.1 he with h | h
            · exact hpn e h
            · exact hin e (by simp [h])) (by
            intro e he; rw [hstk] at he
            rcases List.mem_append.1 he with h | h
            · obtain ⟨h1, h2⟩ := hpo e h
              exact ⟨h2, hnew _ h1 (by omega)⟩
            · obtain ⟨h1, h2⟩ := hoff e (by simp [h])
              have h3 := hnd.1 e h
              simp only at h3
              refine ⟨by omega, ?_⟩
              rw [hold _ (by omega) (by omega), hdj _ (by omega), h2]) (by
            unfold QApart
            rw [hstk, List.pairwise_append]
            refine ⟨qPushes_apart _ _, hnd.2, ?_⟩
            intro x hx y hy
            have := (hpo x hx).1
            have := (hoff y (by simp [hy])).1
            omega) (by omega)
        refine ⟨vec', hr, ?_, ?_⟩
        · rw [hpend2]
          rw [hpend3, hstk, List.length_append, hpl] at hl
          simp only [List.length_cons]; omega
        · intro hle
          obtain ⟨hk1, hk2⟩ := hrep hle
          have hpos := qPending_ge stack (fun e he => hin e (by simp [he]))
          have hpp := qPending_ge (qPushes vd.length nd) hpn
          have hvle : vec.length ≤ vec'.length := by
            rw [hpend3, hstk, List.length_append] at hl
            omega
          -- words of older nodes stay
          have hkeep : ∀ j < vec.length, (∀ e ∈ stack, j < e.1 ∨ e.1 + 4 ≤ j) → vec'[j]? = s.1[j]? := by
            intro j hj hje
            apply hk1 j (by omega)
            intro e he
            rw [hstk] at he
            rcases List.mem_append.1 he with h | h
            · have := (hpo e h).1; omega
            · exact hje e h
          constructor
          · intro j hj hjn
            have h0 := hjn (off, nd) (by simp)
            simp only at h0
            rw [hkeep j hj (fun e he => hjn e (by simp [he])), hold j (by omega) (by omega), hdj j h0]
          · intro e he
            rcases List.mem_cons.1 he with rfl | he
            · simp only
              have hself : ∀ m, m < 4 → ∀ e ∈ stack, off + m < e.1 ∨ e.1 + 4 ≤ off + m := by
                intro m hm e he
                have := hnd.1 e he
                simp only at this; omega
              obtain ⟨w, hw, hlt, hz, hmod, hbits⟩ := hword (by
                rw [hpend3, hstk, List.length_append] at hl
                omega)
              have hc : ∀ j < 4, QRepr (rdVec vec') (w % 2 ^ 28 + 4 * nd.rank j) (nd.child j) := by
                intro j hj
                by_cases hji : (nd.child j).isNode
                · have hr0 := Qt.rank_lt _ hj hji
                  rw [hmod (by omega)]
                  exact hk2 _ (by rw [hstk]; exact List.mem_append_left _ (mem_qPushes.2 ⟨j, hj, hji, rfl⟩))
                · cases hcj : nd.child j with
                  | none => simp [QRepr]
                  | node => rw [hcj] at hji; simp [Qt.isNode] at hji
              rw [forall_lt_four] at hc
              subst hnode
              refine ⟨w, ?_, ?_, ?_, ?_, ?_, hc⟩
              · rw [rdVec_ok, show off = off + 0 from rfl, hkeep (off + 0) (by omega) (hself 0 (by omega))]; exact hw
              · rw [rdVec_ok, hkeep (off + 1) (by omega) (hself 1 (by omega)), hold _ (by omega) (by omega)]; exact hd1.1
              · rw [rdVec_ok, hkeep (off + 2) (by omega) (hself 2 (by omega)), hold _ (by omega) (by omega)]; exact hd1.2.1
              · rw [rdVec_ok, hkeep (off + 3) (by omega) (hself 3 (by omega)), hold _ (by omega) (by omega)]; exact hd1.2.2
              · intro j hj
                have := hbits j hj
                simpa [hj] using this
            · exact hk2 e (by rw [hstk]; simp [he])

theorem qSerialize_spec {n : Qt} (h : n.isNode) : ∃ vec, qSerialize n = .ok vec ∧
    vec.length = 4 * n.count ∧ (vec.length ≤ 2 ^ 28 → QRepr (rdVec vec) 0 n) := by
  obtain ⟨vec, h1, h2, h3⟩ := qSerLoop_spec n.count [0, 0, 0, 0] [(0, n)]
    (by simpa using h) (by simp) (by simp [QApart]) (by simp [qPending])
  refine ⟨vec, h1, ?_, fun h => (h3 h).2 (0, n) (by simp)⟩
  simp [qPending] at h2; omega

end Tiles
