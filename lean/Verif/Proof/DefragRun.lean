import Verif.Proof.Defrag
import Mathlib.Algebra.Order.BigOperators.Group.List
/-! The run of the defragmentation: it ends, and it does not fail if there is enough space. -/
namespace Tiles

/-- The loops end, with all records at their final place or by the exhausted queues; `P` holds along the run. -/
theorem DInv.run {S n : Nat} {sz : Nat → Nat} {dat : Nat → Bytes} (P : Defrag → DefragPc → Prop)
    (hP : ∀ s pc q e b s' pc', DInv S n sz dat s → s.cur < n → P s pc → DInv S n sz dat { s with q := q } → q.Ready s.cur e b →
      FragQ.Refreshed s.cur s.q q → DInv S n sz dat s' → DTr n sz s q e b s' pc pc' → P s' pc') :
    ∀ (w : Nat) (s : Defrag) (pc : DefragPc), s.weight n pc < w → DInv S n sz dat s → P s pc → (pc ≠ .record → s.cur < n) →
      (pc = .record → s.cur < n → s.q.frag ≠ []) →
      ∃ fuel, (∃ s', defragRun fuel s pc = some (.ok s') ∧ DInv S n sz dat s' ∧ s'.cur = n) ∨
        (defragRun fuel s pc = some .throw_ ∧ ∃ s' pc', DInv S n sz dat s' ∧ P s' pc' ∧ s'.cur < n ∧ s'.q.liveF s'.cur = [] ∧ s'.q.last = some s'.cur) := by
  intro w
  induction w with
  | zero => intro s pc h; omega
  | succ w ih =>
    intro s pc hw h hp hpc hne
    by_cases hcur : s.cur < n
    · rcases h.step pc hpc hne with ⟨h1, h2⟩ | ⟨h1, h2, h3⟩ | ⟨q, e, b, s', pc', h0, h1, h2, h3, h4, h5, h6, h7, h8, h9⟩
      · omega
      · exact ⟨1, .inr ⟨by rw [defragRun, h1], s, pc, h, hp, hcur, h2, h3⟩⟩
      · obtain ⟨fuel, hr⟩ := ih s' pc' (by omega) h5 (hP _ _ _ _ _ _ _ h h0 hp h2 h3 h4 h5 h6) h7 (fun a _ => h8 a)
        refine ⟨fuel + 1, ?_⟩
        rw [defragRun, h1]
        exact hr
    · rcases h.step pc hpc hne with ⟨h1, h2⟩ | ⟨h1, h2, h3⟩ | ⟨q, e, b, s', pc', h0, _⟩
      · exact ⟨1, .inl ⟨s, by rw [defragRun, h1], h, h2⟩⟩
      · exfalso
        rw [defragStep.eq_def] at h1
        cases pc with
        | record => dsimp only at h1; rw [if_neg (by rw [h.len]; exact hcur)] at h1; cases h1
        | outer => exact hcur (hpc (by decide))
        | inner => exact hcur (hpc (by decide))
      · exact absurd h0 hcur

/-! ### enough space -/

/-- the sum of the sizes of the listed records -/
def szSum (sz : Nat → Nat) (l : List Nat) : Nat := (l.map sz).sum

theorem szSum_append (sz : Nat → Nat) (a b : List Nat) : szSum sz (a ++ b) = szSum sz a + szSum sz b := by
  unfold szSum; rw [List.map_append, List.sum_append]

theorem szSum_cons (sz : Nat → Nat) (a : Nat) (b : List Nat) : szSum sz (a :: b) = sz a + szSum sz b := by
  unfold szSum; rw [List.map_cons, List.sum_cons]

theorem szSum_perm (sz : Nat → Nat) {a b : List Nat} (h : a.Perm b) : szSum sz a = szSum sz b := (h.map sz).sum_nat

theorem szSum_range' (sz : Nat → Nat) (c : Nat) : ∀ m, sumTo sz c + szSum sz (List.range' c m) = sumTo sz (c + m) := by
  intro m
  induction m with
  | zero => simp [szSum]
  | succ m ih =>
    rw [List.range'_concat, szSum_append, ← Nat.add_assoc, ih, szSum_cons]
    simp [szSum, sumTo, ← Nat.add_assoc]

namespace DInv
variable {S n : Nat} {sz : Nat → Nat} {dat : Nat → Bytes} {s : Defrag} {e b : Nat}

theorem live_nodup (h : DInv S n sz dat s) : (s.q.live s.cur).Nodup := by
  refine List.Pairwise.imp_of_mem ?_ h.order
  intro a c ha hc hac heq
  subst heq
  have ha := (h.mem a).1 ha
  rw [h.R_end ha.2] at hac
  have := h.pos a ha.2
  omega

theorem live_sum (h : DInv S n sz dat s) : sumTo sz s.cur + (szSum sz (s.q.liveD s.cur) + szSum sz (s.q.liveF s.cur)) = sumTo sz n := by
  have hp : (s.q.live s.cur).Perm (List.range' s.cur (n - s.cur)) := by
    refine (List.perm_ext_iff_of_nodup h.live_nodup (List.nodup_range')).2 ?_
    intro k
    rw [h.mem, List.mem_range'_1]
    have := h.cur_le
    omega
  have := szSum_perm sz hp
  rw [FragQ.live, szSum_append] at this
  rw [this, szSum_range']
  have := h.cur_le
  congr 1
  omega

end DInv

/-- What holds along a run with enough space: the front is packed tightly; after the first swap all records are low; and the last swap
was not for the record at hand, or there are records behind the front. -/
structure DRoom (n : Nat) (sz : Nat → Nat) (s : Defrag) (pc : DefragPc) : Prop where
  tight : ∀ d ∈ s.q.liveD s.cur, (s.R d).endOffset ≤ sumTo sz s.cur + szSum sz (s.q.liveD s.cur)
  low : s.q.last ≠ none → ∀ k ∈ s.q.live s.cur, (s.R k).endOffset ≤ sumTo sz n
  swap : ∀ c, s.q.last = some c → c ≤ s.cur
  record : pc = .record → s.q.last ≠ some s.cur
  outer : pc = .outer → s.q.last = some s.cur → s.q.liveF s.cur ≠ []
  inner : pc = .inner → s.q.last = none ∧ ∃ b init, s.q.liveF s.cur = init ++ [b] ∧ s.endOff < (s.R b).endOffset + sz s.cur

namespace DRoom
variable {S n L : Nat} {sz : Nat → Nat} {dat : Nat → Bytes} {s s' : Defrag} {e b : Nat} {pc pc' : DefragPc} {q : FragQ}

theorem no_stall (h : DRoom n sz s pc) : ¬ (s.q.liveF s.cur = [] ∧ s.q.last = some s.cur) := by
  rintro ⟨h1, h2⟩
  cases pc with
  | record => exact h.record rfl h2
  | outer => exact h.outer rfl h2 h1
  | inner => have := (h.inner rfl).1; rw [h2] at this; cases this

/-- refreshing keeps the first parts -/
theorem refresh (h : DRoom n sz s pc) (hi : DInv S n sz dat s) (hq : FragQ.Refreshed s.cur s.q q) :
    (∀ d ∈ q.liveD s.cur, (s.R d).endOffset ≤ sumTo sz s.cur + szSum sz (q.liveD s.cur)) ∧
    (q.last ≠ none → ∀ k ∈ q.live s.cur, (s.R k).endOffset ≤ sumTo sz n) ∧ (∀ c, q.last = some c → c ≤ s.cur) := by
  have hl := hq.live
  rcases hq.cases with ⟨a, _, b, c⟩ | ⟨a, b, c, d, e⟩
  · rw [hl, a, b]
    exact ⟨h.tight, h.low, h.swap⟩
  · refine ⟨?_, ?_, ?_⟩
    · rw [d]; intro k hk; cases hk
    · intro _ k hk
      rw [hl, FragQ.live, c, List.append_nil] at hk
      have := h.tight k hk
      have := hi.live_sum
      omega
    · intro k hk; rw [b] at hk; injection hk with hk; omega

/-- placing the record at hand -/
theorem placed {pc : DefragPc} (hi : DInv S n sz dat { s with q := q }) (hcur : s.cur < n) (hi' : DInv S n sz dat s') (ht : ∀ d ∈ q.liveD s.cur, (s.R d).endOffset ≤ sumTo sz s.cur + szSum sz (q.liveD s.cur))
    (hlow : q.last ≠ none → ∀ k ∈ q.live s.cur, (s.R k).endOffset ≤ sumTo sz n) (hsw : ∀ c, q.last = some c → c ≤ s.cur)
    (hq : s'.q = q) (hc : s'.cur = s.cur + 1) (hR : ∀ j, j ≠ s.cur → s'.R j = s.R j) (hpc : pc = .record) : DRoom n sz s' pc := by
  subst hpc
  have hfil : ∀ l : List Nat, l.filter (fun e => decide (s.cur + 1 ≤ e)) = (l.filter (fun e => decide (s.cur ≤ e))).filter (fun e => decide (e ≠ s.cur)) := by
    intro l
    rw [List.filter_filter]
    congr 1
    funext e
    by_cases h1 : s.cur + 1 ≤ e
    · simp [h1]; omega
    · by_cases h2 : e = s.cur
      · simp [h2]
      · have : ¬ s.cur ≤ e := by omega
        simp [h1, this]
  have hD : s'.q.liveD s'.cur = (q.liveD s.cur).filter (fun e => decide (e ≠ s.cur)) := by
    rw [hq, hc]; exact hfil _
  have hF : s'.q.liveF s'.cur = (q.liveF s.cur).filter (fun e => decide (e ≠ s.cur)) := by
    rw [hq, hc]; exact hfil _
  have hsum : sumTo sz s.cur + szSum sz (q.liveD s.cur) ≤ sumTo sz s'.cur + szSum sz (s'.q.liveD s'.cur) := by
    rw [hD, hc, sumTo]
    have hnd : (q.liveD s.cur).Nodup := (List.nodup_append.1 (show (q.liveD s.cur ++ q.liveF s.cur).Nodup from hi.live_nodup)).1
    by_cases hm : s.cur ∈ q.liveD s.cur
    · have := szSum_perm sz (List.perm_cons_erase hm)
      rw [szSum_cons, hnd.erase_eq_filter] at this
      have heq : (q.liveD s.cur).filter (fun e => decide (e ≠ s.cur)) = (q.liveD s.cur).filter (fun x => x != s.cur) := by
        congr 1; funext x; by_cases hx : x = s.cur <;> simp [hx]
      rw [heq]
      omega
    · rw [List.filter_eq_self.2]
      · omega
      · intro a ha; simp; rintro rfl; exact hm ha
  refine ⟨?_, ?_, ?_, ?_, (fun h => by cases h), (fun h => by cases h)⟩
  · intro d hd
    rw [hD, List.mem_filter] at hd
    rw [hR d (by simpa using hd.2)]
    have := ht d hd.1
    omega
  · intro hl k hk
    rw [FragQ.live, hD, hF, ← List.filter_append, List.mem_filter] at hk
    rw [hR k (by simpa using hk.2)]
    exact hlow (by rw [← hq]; exact hl) k hk.1
  · intro c hk
    rw [hq] at hk
    have := hsw c hk
    omega
  · intro _ hk
    rw [hq] at hk
    have := hsw _ hk
    omega

theorem step (hS : 2 * sumTo sz n + L ≤ S) (hL : ∀ k, k < n → sz k ≤ L) (h : DRoom n sz s pc) (hi : DInv S n sz dat s) (hcur : s.cur < n)
    (hiq : DInv S n sz dat { s with q := q }) (hr : q.Ready s.cur e b) (hq : FragQ.Refreshed s.cur s.q q) (hi' : DInv S n sz dat s')
    (ht : DTr n sz s q e b s' pc pc') : DRoom n sz s' pc' := by
  obtain ⟨r1, r2, r3⟩ := h.refresh hi hq
  obtain ⟨rest, he1, he2⟩ := DInv.liveF_first hr (s := { s with q := q })
  obtain ⟨init, hb1, hb2⟩ := DInv.liveF_last hr (s := { s with q := q })
  dsimp only at he1 he2 hb1 hb2
  have hsum := hiq.live_sum
  dsimp only at hsum
  have hend := hi.endOff
  have hszc := hL _ hcur
  have hbn : b < n := by have := (hiq.fresh hr).b_lt; rw [hiq.len] at this; exact this
  have hen : e < n := by have := (hiq.fresh hr).e_lt; rw [hiq.len] at this; exact this
  have hbF : sz b ≤ szSum sz (q.liveF s.cur) := by rw [hb1, szSum_append, szSum_cons]; omega
  -- the front after a record was added to it
  have hfront : Defrag.frontEnd { s with q := q } ≤ sumTo sz s.cur + szSum sz (q.liveD s.cur) := by
    rcases (hiq.front_top hr).2 with h0 | ⟨d, hd, h0⟩
    · rw [h0]; exact Nat.zero_le _
    · rw [h0]; exact r1 d hd
  have hndup := List.nodup_append.1 (show (q.liveD s.cur ++ q.liveF s.cur).Nodup from hiq.live_nodup)
  have htight : ∀ (k : Nat) (q' : FragQ), k ∈ q.liveF s.cur → s'.cur = s.cur → s'.q = q' → q'.liveD s.cur = q.liveD s.cur ++ [k] →
      (∀ j, s'.R j = if j = k then ⟨Defrag.frontEnd { s with q := q }, sz k⟩ else s.R j) →
      ∀ d ∈ s'.q.liveD s'.cur, (s'.R d).endOffset ≤ sumTo sz s'.cur + szSum sz (s'.q.liveD s'.cur) := by
    intro k q' hk hc hq' hD hR d hd
    rw [hq', hc, hD] at hd ⊢
    rw [szSum_append, szSum_cons, hR]
    rcases List.mem_append.1 hd with hd1 | hd
    · have hdk : d ≠ k := by rintro rfl; exact hndup.2.2 d hd1 d hk rfl
      rw [if_neg hdk]
      have := r1 d hd1
      omega
    · have hdk : d = k := by simpa using hd
      rw [if_pos hdk]
      show Defrag.frontEnd { s with q := q } + sz k ≤ _
      omega
  have hinner : pc = .inner → q.last = none ∧ s.endOff < (s.R b).endOffset + sz s.cur := by
    intro hp
    obtain ⟨a1, b', init', a2, a3⟩ := h.inner hp
    rcases hq.cases with ⟨c1, _, _, c4⟩ | ⟨_, _, c3, _⟩
    · rw [hb1, a2] at c4
      have := List.append_inj_right' c4 rfl
      have hbb : b = b' := by simpa using this
      exact ⟨by rw [c1]; exact a1, by rw [hbb]; exact a3⟩
    · rw [a2] at c3; simp at c3
  cases ht with
  | last hb hq' hc hR => exact placed hiq hcur hi' r1 r2 r3 hq' hc hR rfl
  | look hs =>
    subst hs
    exact ⟨r1, r2, r3, (fun h => by cases h), fun _ _ => (by rw [he1]; simp), (fun h => by cases h)⟩
  | fits hq' hc hR => exact placed hiq hcur hi' r1 r2 r3 hq' hc hR rfl
  | blocked hs hsp =>
    subst hs
    refine ⟨r1, r2, r3, (fun h => by cases h), (fun h => by cases h), fun _ => ⟨?_, b, init, hb1, hsp⟩⟩
    by_contra hl
    have := r2 hl b (List.mem_append.2 (.inr (by rw [hb1]; simp)))
    have := sumTo_mono sz (show s.cur ≤ n by omega)
    omega
  | next hsp hle hc he hq' hR =>
    obtain ⟨hl, hbl⟩ := hinner rfl
    rw [hiq.R_end hbn (s := { s with q := q }) (k := b) |> (fun h => show (s.R b).endOffset = (s.R b).offset + sz b from h)] at hbl
    have hDs : FragQ.liveD { q with idx := q.idx + 1, defrag := q.defrag ++ [e] } s.cur = q.liveD s.cur ++ [e] := by
      rw [FragQ.liveD, FragQ.liveD, List.filter_append]; congr 1; simp [hr.ce]
    refine ⟨htight e _ (by rw [he1]; simp) hc hq' hDs hR, ?_, ?_, (fun h => by cases h), (fun h => by cases h), fun _ => ⟨by rw [hq']; exact hl, ?_⟩⟩
    · intro hl'; rw [hq'] at hl'; exact absurd hl hl'
    · intro c hk; rw [hq'] at hk; change q.last = some c at hk; rw [hl] at hk; cases hk
    · have hrest : s'.q.liveF s'.cur = rest := by rw [hq', hc, he2]; rfl
      rw [hrest]
      by_cases hne : rest = []
      · exfalso
        have hbe : b = e := by
          have : q.liveF s.cur = [e] := by rw [he1, hne]
          rw [hb1] at this
          have := congrArg List.getLast? this
          rw [List.getLast?_concat] at this
          injection this
        rw [hbe] at hbl hsp hbF
        have := sumTo_mono sz (show s.cur ≤ n by omega)
        omega
      · have hrl : rest.getLast? = some b := by
          have := congrArg List.getLast? (he1.symm.trans hb1)
          rw [List.getLast?_concat, List.getLast?_cons] at this
          cases hg : rest.getLast? with
          | none => exact absurd (List.getLast?_eq_none_iff.1 hg) hne
          | some x => rw [hg] at this; simpa using this
        obtain ⟨i, hi⟩ := List.getLast?_eq_some_iff.1 hrl
        refine ⟨b, i, hi, ?_⟩
        have hbe : b ≠ e := by
          have h1 := hndup.2.1
          rw [he1] at h1
          rintro rfl
          exact (List.nodup_cons.1 h1).1 (by rw [hi]; simp)
        rw [hR, if_neg hbe, he, hc]
        rw [show (s.R b).endOffset = (s.R b).offset + sz b from hiq.R_end hbn (s := { s with q := q })]
        omega
  | blocker hle hc he hq' hR =>
    obtain ⟨hl, hbl⟩ := hinner rfl
    have hDs : FragQ.liveD { q with frag := q.frag.dropLast, defrag := q.defrag ++ [b] } s.cur = q.liveD s.cur ++ [b] := by
      rw [FragQ.liveD, FragQ.liveD, List.filter_append]; congr 1; simp [hr.cb]
    have hl' : s'.q.last = none := by rw [hq']; exact hl
    refine ⟨htight b _ (by rw [hb1]; simp) hc hq' hDs hR, fun h => absurd hl' h, ?_, (fun h => by cases h), ?_, (fun h => by cases h)⟩
    · intro c hk; rw [hl'] at hk; cases hk
    · intro _ hk; rw [hl'] at hk; cases hk

end DRoom

end Tiles
