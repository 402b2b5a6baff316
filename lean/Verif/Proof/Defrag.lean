import Verif.Model.Defrag
import Verif.Proof.PackFileOps
import Mathlib.Tactic.ByContra
import Mathlib.Tactic.Ring
/-! Proofs about the defragmentation. -/
namespace Tiles

/-! ### the queues -/

namespace FragQ

/-- the records that are not at their final place yet, in the order of the queues -/
def liveD (q : FragQ) (cur : Nat) : List Nat := q.defrag.filter (fun e => decide (cur ≤ e))
def liveF (q : FragQ) (cur : Nat) : List Nat := (q.frag.drop q.idx).filter (fun e => decide (cur ≤ e))
def live (q : FragQ) (cur : Nat) : List Nat := q.liveD cur ++ q.liveF cur

/-- number of entries still looked at -/
def left (q : FragQ) : Nat := q.frag.length - q.idx

/-- both ends of `q_frag` and the end of `q_defrag` are unfinished -/
structure Ready (q : FragQ) (cur e b : Nat) : Prop where
  first : q.frag[q.idx]? = some e
  last : q.frag.getLast? = some b
  ce : cur ≤ e
  cb : cur ≤ b
  cd : ∀ d, q.defrag.getLast? = some d → cur ≤ d

/-- what refreshing does to the queues -/
structure Refreshed (cur : Nat) (q q' : FragQ) : Prop where
  ready : (q'.frag = [] ∧ q'.defrag = []) ∨ ∃ e b, q'.Ready cur e b
  total : q'.defrag.length + q'.left ≤ q.defrag.length + q.left
  cases : (q'.last = q.last ∧ q'.left ≤ q.left ∧ q'.liveD cur = q.liveD cur ∧ q'.liveF cur = q.liveF cur) ∨
    (q.last ≠ some cur ∧ q'.last = some cur ∧ q.liveF cur = [] ∧ q'.liveD cur = [] ∧ q'.liveF cur = q.liveD cur)

theorem Refreshed.live {cur : Nat} {q q' : FragQ} (h : Refreshed cur q q') : q'.live cur = q.live cur := by
  rcases h.cases with ⟨_, _, a, b⟩ | ⟨_, _, a, b, c⟩
  · rw [FragQ.live, FragQ.live, a, b]
  · rw [FragQ.live, FragQ.live, a, b, c, List.nil_append, List.append_nil]

theorem filter_dropLast_lt {l : List Nat} {b cur : Nat} (hb : l.getLast? = some b) (hlt : b < cur) :
    l.dropLast.filter (fun e => decide (cur ≤ e)) = l.filter (fun e => decide (cur ≤ e)) := by
  obtain ⟨l', rfl⟩ := List.getLast?_eq_some_iff.1 hb
  rw [List.dropLast_concat, List.filter_append]
  simp [Nat.not_le.2 hlt]

theorem getLast?_drop' {l : List Nat} {i : Nat} (h : i < l.length) : (l.drop i).getLast? = l.getLast? := by
  rw [List.getLast?_drop, if_neg (by omega)]

theorem dropLast_drop {l : List Nat} {i : Nat} (h : i < l.length) : l.dropLast.drop i = (l.drop i).dropLast := by
  rw [List.dropLast_eq_take, List.dropLast_eq_take, List.drop_take, List.length_drop]
  congr 1
  omega

theorem refreshLoop_spec (cur : Nat) : ∀ (fuel : Nat) (q : FragQ), 3 * q.defrag.length + q.frag.length + q.left < fuel →
    (∃ q', refreshLoop cur fuel q = .ok q' ∧ Refreshed cur q q') ∨
    (refreshLoop cur fuel q = .throw_ ∧ q.liveF cur = [] ∧ (q.last = some cur ∨ q.liveD cur = [])) := by
  intro fuel
  induction fuel with
  | zero => intro q h; omega
  | succ fuel ih =>
    intro q hm
    rw [refreshLoop]
    by_cases h0 : q.frag = [] ∧ q.defrag = []
    · rw [if_pos h0]
      exact .inl ⟨q, rfl, .inl h0, Nat.le_refl _, .inl ⟨rfl, Nat.le_refl _, rfl, rfl⟩⟩
    rw [if_neg h0]
    by_cases h1 : q.frag.length ≤ q.idx
    · rw [if_pos h1]
      have hF : q.liveF cur = [] := by rw [FragQ.liveF, List.drop_eq_nil_of_le h1]; rfl
      have hleft : q.left = 0 := by rw [FragQ.left]; omega
      by_cases hl : q.last = some cur
      · right
        rw [decide_eq_false (by simpa using hl), verify_false]
        exact ⟨rfl, hF, .inl hl⟩
      · rw [decide_eq_true hl, verify_true, Res.ok_bind]
        have hlen : ¬ (q.frag.length = 0 ∧ q.defrag.length = 0) := by
          rintro ⟨a, b⟩; exact h0 ⟨List.length_eq_zero_iff.1 a, List.length_eq_zero_iff.1 b⟩
        rcases ih ⟨q.defrag, 0, [], some cur⟩ (by simp only [FragQ.left, List.length_nil] at *; omega) with ⟨q', h2, h3⟩ | ⟨h2, h3, h4⟩
        · left
          refine ⟨q', h2, h3.ready, ?_, .inr ⟨hl, ?_, hF, ?_, ?_⟩⟩
          · have := h3.total; simp only [FragQ.left, List.length_nil] at this hleft ⊢; omega
          · rcases h3.cases with ⟨a, _⟩ | ⟨a, _⟩
            · exact a
            · exact absurd rfl a
          · rcases h3.cases with ⟨_, _, a, b⟩ | ⟨a, _⟩
            · exact a
            · exact absurd rfl a
          · rcases h3.cases with ⟨_, _, a, b⟩ | ⟨a, _⟩
            · exact b
            · exact absurd rfl a
        · right
          exact ⟨h2, hF, .inr h3⟩
    · rw [if_neg h1]
      have hi : q.idx < q.frag.length := by omega
      have he : q.frag[q.idx]? = some q.frag[q.idx] := List.getElem?_eq_getElem hi
      obtain ⟨b, hb⟩ : ∃ b, q.frag.getLast? = some b := by
        cases h : q.frag.getLast? with
        | none => rw [List.getLast?_eq_none_iff] at h; rw [h] at hi; simp at hi
        | some b => exact ⟨b, rfl⟩
      rw [he, hb]
      dsimp only
      have hdrop : q.frag.drop q.idx = q.frag[q.idx] :: q.frag.drop (q.idx + 1) := List.drop_eq_getElem_cons hi
      by_cases h2 : q.frag[q.idx] < cur
      · rw [if_pos h2]
        have hF : FragQ.liveF { q with idx := q.idx + 1 } cur = q.liveF cur := by
          rw [FragQ.liveF, FragQ.liveF, hdrop, List.filter_cons, if_neg (by simpa using h2)]
        rcases ih { q with idx := q.idx + 1 } (by simp only [FragQ.left] at *; omega) with ⟨q', h3, h4⟩ | ⟨h3, h4, h5⟩
        · left
          refine ⟨q', h3, h4.ready, ?_, ?_⟩
          · have := h4.total; simp only [FragQ.left] at this ⊢; omega
          · rcases h4.cases with ⟨a, a', b', c⟩ | ⟨a, b', c, d, e⟩
            · exact .inl ⟨a, by simp only [FragQ.left] at a' ⊢; omega, b', c.trans hF⟩
            · exact .inr ⟨a, b', hF ▸ c, d, e⟩
        · exact .inr ⟨h3, hF ▸ h4, h5⟩
      rw [if_neg h2]
      by_cases h3 : b < cur
      · rw [if_pos h3]
        have hF : FragQ.liveF { q with frag := q.frag.dropLast } cur = q.liveF cur := by
          rw [FragQ.liveF, FragQ.liveF]
          show (q.frag.dropLast.drop q.idx).filter _ = _
          rw [dropLast_drop hi, filter_dropLast_lt (by rw [getLast?_drop' hi]; exact hb) h3]
        rcases ih { q with frag := q.frag.dropLast } (by simp only [FragQ.left, List.length_dropLast] at *; omega) with ⟨q', h4, h5⟩ | ⟨h4, h5, h6⟩
        · left
          refine ⟨q', h4, h5.ready, ?_, ?_⟩
          · have := h5.total; simp only [FragQ.left, List.length_dropLast] at this ⊢; omega
          · rcases h5.cases with ⟨a, a', b', c⟩ | ⟨a, b', c, d, e⟩
            · exact .inl ⟨a, by simp only [FragQ.left, List.length_dropLast] at a' ⊢; omega, b', c.trans hF⟩
            · exact .inr ⟨a, b', hF ▸ c, d, e⟩
        · exact .inr ⟨h4, hF ▸ h5, h6⟩
      rw [if_neg h3]
      have hready : ∀ (hc : ∀ d, q.defrag.getLast? = some d → cur ≤ d), Refreshed cur q q := fun hc =>
        ⟨.inr ⟨_, _, he, hb, by omega, by omega, hc⟩, Nat.le_refl _, .inl ⟨rfl, Nat.le_refl _, rfl, rfl⟩⟩
      cases hd : q.defrag.getLast? with
      | none => exact .inl ⟨q, rfl, hready (by intro d h; rw [hd] at h; cases h)⟩
      | some d =>
        dsimp only
        by_cases h4 : d < cur
        · rw [if_pos h4]
          have hD : FragQ.liveD { q with defrag := q.defrag.dropLast } cur = q.liveD cur := filter_dropLast_lt hd h4
          have hlen : 0 < q.defrag.length := by
            cases hq : q.defrag with
            | nil => rw [hq] at hd; cases hd
            | cons => simp
          rcases ih { q with defrag := q.defrag.dropLast } (by simp only [FragQ.left, List.length_dropLast] at *; omega) with ⟨q', h5, h6⟩ | ⟨h5, h6, h7⟩
          · left
            refine ⟨q', h5, h6.ready, ?_, ?_⟩
            · have := h6.total; simp only [FragQ.left, List.length_dropLast] at this ⊢; omega
            · rcases h6.cases with ⟨a, a', b', c⟩ | ⟨a, b', c, d, e⟩
              · exact .inl ⟨a, a', b'.trans hD, c⟩
              · exact .inr ⟨a, b', c, d, e.trans hD⟩
          · exact .inr ⟨h5, h6, h7.imp id (fun h => hD ▸ h)⟩
        · rw [if_neg h4]
          exact .inl ⟨q, rfl, hready (by intro d' h; rw [hd] at h; injection h with h; omega)⟩

theorem refreshQ_spec (cur : Nat) (q : FragQ) : (∃ q', refreshQ cur q = .ok q' ∧ Refreshed cur q q') ∨
    (refreshQ cur q = .throw_ ∧ q.liveF cur = [] ∧ (q.last = some cur ∨ q.liveD cur = [])) :=
  refreshLoop_spec cur _ q (by simp only [FragQ.left]; omega)

theorem refreshQ_ready {cur e b : Nat} {q : FragQ} (h : q.Ready cur e b) : refreshQ cur q = .ok q := by
  have hi : q.idx < q.frag.length := by
    by_contra hc
    have := h.first
    rw [List.getElem?_eq_none (by omega)] at this; cases this
  have hne : q.frag ≠ [] := by intro h'; rw [h'] at hi; simp at hi
  have hce := h.ce
  have hcb := h.cb
  rw [refreshQ, refreshLoop, if_neg (by rintro ⟨a, _⟩; exact hne a), if_neg (by omega), h.first, h.last]
  dsimp only
  rw [if_neg (by omega), if_neg (by omega)]
  cases hd : q.defrag.getLast? with
  | none => rfl
  | some d => have := h.cd d hd; dsimp only; rw [if_neg (by omega)]

end FragQ

/-! ### the helpers of the loops, when the queues are ready -/

namespace Defrag

/-- the record with number `k` -/
def R (s : Defrag) (k : Nat) : PackRecord := s.recs.getD k default

theorem recOf_ok {s : Defrag} {k : Nat} (h : k < s.recs.length) : s.recOf k = .ok (s.R k) := by
  rw [recOf, R, List.getD_eq_getElem?_getD, List.getElem?_eq_getElem h]; rfl

/-- the end of the records that were moved to the front -/
def frontEnd (s : Defrag) : Nat := match s.q.defrag.getLast? with | some d => (s.R d).endOffset | none => 0

/-- the queues are ready and all numbers in them denote records -/
structure Fresh (s : Defrag) (e b : Nat) : Prop where
  ready : s.q.Ready s.cur e b
  frag : ∀ k ∈ s.q.frag, k < s.recs.length
  defrag : ∀ k ∈ s.q.defrag, k < s.recs.length

variable {s s1 : Defrag} {e b : Nat}

theorem Fresh.refresh (h : Fresh s e b) : s.refresh = .ok s := by
  rw [Defrag.refresh, FragQ.refreshQ_ready h.ready, Res.ok_bind]; rfl

theorem Fresh.ne (h : Fresh s e b) : s.q.frag ≠ [] := by
  intro h'; have := h.ready.last; rw [h'] at this; cases this

theorem Fresh.idx (h : Fresh s e b) : s.q.idx < s.q.frag.length := by
  by_contra hc
  have := h.ready.first
  rw [List.getElem?_eq_none (by omega)] at this; cases this

theorem Fresh.e_lt (h : Fresh s e b) : e < s.recs.length := h.frag e (List.mem_of_getElem? h.ready.first)
theorem Fresh.b_lt (h : Fresh s e b) : b < s.recs.length := h.frag b (List.mem_of_getLast? h.ready.last)

theorem Fresh.verify (h : Fresh s e b) : verify (!s.q.frag.isEmpty) = .ok () := by
  have := h.ne
  cases hq : s.q.frag with
  | nil => exact absurd hq this
  | cons => rfl

theorem Fresh.peekLast (h : Fresh s e b) : s.peekLast = .ok (b, s) := by
  rw [Defrag.peekLast, h.refresh, Res.ok_bind, h.verify, Res.ok_bind, fragBack, h.ready.last]; rfl

theorem Fresh.peekNext (h : Fresh s e b) : s.peekNext = .ok (e, s) := by
  rw [Defrag.peekNext, h.refresh, Res.ok_bind, h.verify, Res.ok_bind, at_of_getElem? h.ready.first]; rfl

theorem Fresh.getLast (h : Fresh s e b) : s.getLast = .ok (b, { s with q := { s.q with frag := s.q.frag.dropLast } }) := by
  rw [Defrag.getLast, h.refresh, Res.ok_bind, h.verify, Res.ok_bind, fragBack, h.ready.last]; rfl

theorem Fresh.getNext (h : Fresh s e b) : s.getNext = .ok (e, { s with q := { s.q with idx := s.q.idx + 1 } }) := by
  rw [Defrag.getNext, h.refresh, Res.ok_bind, h.verify, Res.ok_bind, at_of_getElem? h.ready.first]; rfl

theorem Fresh.insertOffset (h : Fresh s e b) : s.insertOffset = .ok (s.frontEnd, s) := by
  rw [Defrag.insertOffset, h.refresh, Res.ok_bind, frontEnd]
  cases hd : s.q.defrag.getLast? with
  | none => rfl
  | some d => dsimp only; rw [recOf_ok (h.defrag d (List.mem_of_getLast? hd)), Res.ok_bind]; rfl

theorem Fresh.beginSpace (h : Fresh s e b) (hle : s.frontEnd ≤ (s.R e).offset) : s.beginSpace = .ok ((s.R e).offset - s.frontEnd, s) := by
  rw [Defrag.beginSpace, h.refresh, Res.ok_bind, if_neg (by rintro ⟨a, _⟩; exact h.ne a)]
  by_cases hd : s.q.defrag = []
  · rw [if_pos hd, h.peekNext, Res.ok_bind]
    dsimp only
    rw [recOf_ok h.e_lt, Res.ok_bind, frontEnd, hd]; rfl
  · rw [if_neg hd, if_neg h.ne, h.peekNext, Res.ok_bind]
    dsimp only
    rw [recOf_ok h.e_lt, Res.ok_bind]
    cases hl : s.q.defrag.getLast? with
    | none => exact absurd (List.getLast?_eq_none_iff.1 hl) hd
    | some d =>
      dsimp only
      rw [frontEnd, hl] at hle
      rw [recOf_ok (h.defrag d (List.mem_of_getLast? hl)), Res.ok_bind, decide_eq_true hle, verify_true, Res.ok_bind, frontEnd, hl]; rfl

theorem Fresh.endSpace (h : Fresh s e b) (hle : (s.R b).endOffset ≤ s.endOff) : s.endSpace = .ok (s.endOff - (s.R b).endOffset, s) := by
  rw [Defrag.endSpace, h.refresh, Res.ok_bind, if_neg h.ne, fragBack, h.ready.last]
  dsimp only
  rw [Res.ok_bind, recOf_ok h.b_lt, Res.ok_bind, subU, if_pos hle]; rfl

/-! a helper first refreshes -/

theorem peekLast_refresh (h1 : s.refresh = .ok s1) (h : Fresh s1 e b) : s.peekLast = s1.peekLast := by
  rw [Defrag.peekLast, h1, Res.ok_bind, Defrag.peekLast, h.refresh, Res.ok_bind]

theorem endSpace_refresh (h1 : s.refresh = .ok s1) (h : Fresh s1 e b) : s.endSpace = s1.endSpace := by
  rw [Defrag.endSpace, h1, Res.ok_bind, Defrag.endSpace, h.refresh, Res.ok_bind]

theorem beginSpace_refresh (h1 : s.refresh = .ok s1) (h : Fresh s1 e b) : s.beginSpace = s1.beginSpace := by
  rw [Defrag.beginSpace, h1, Res.ok_bind, Defrag.beginSpace, h.refresh, Res.ok_bind]

end Defrag

/-! ### the invariant -/

/-- the sum of the first sizes -/
def sumTo (sz : Nat → Nat) : Nat → Nat
  | 0 => 0
  | k + 1 => sumTo sz k + sz k

theorem sumTo_mono (sz : Nat → Nat) {a b : Nat} (h : a ≤ b) : sumTo sz a ≤ sumTo sz b := by
  induction h with
  | refl => exact Nat.le_refl _
  | step _ ih => rw [sumTo]; omega

/-- Of `n` records with sizes `sz` and bytes `dat` in a file of size `S`, the first `cur` are at their final place, one below the other from
the end of the file; the others do not overlap and lie below these, in the order of the queues. -/
structure DInv (S n : Nat) (sz : Nat → Nat) (dat : Nat → Bytes) (s : Defrag) : Prop where
  len : s.recs.length = n
  wf : s.pf.WF
  size : s.pf.size = S
  pos : ∀ k, k < n → 0 < sz k
  sizes : ∀ k, k < n → (s.R k).size = sz k
  bytes : ∀ k, k < n → s.pf.get (s.R k) = .ok (dat k)
  used : sumTo sz n < S
  cur_le : s.cur ≤ n
  endOff : s.endOff + sumTo sz s.cur = S
  done : ∀ k, k < s.cur → (s.R k).offset + sumTo sz (k + 1) = S
  frag : ∀ k ∈ s.q.frag, k < n
  defrag : ∀ k ∈ s.q.defrag, k < n
  mem : ∀ k, k ∈ s.q.live s.cur ↔ s.cur ≤ k ∧ k < n
  order : (s.q.live s.cur).Pairwise (fun a b => (s.R a).endOffset ≤ (s.R b).offset)
  below : ∀ k ∈ s.q.live s.cur, (s.R k).endOffset ≤ s.endOff
  total : s.q.defrag.length + s.q.left ≤ n

namespace DInv
variable {S n : Nat} {sz : Nat → Nat} {dat : Nat → Bytes} {s : Defrag} {e b : Nat}

theorem datLen (h : DInv S n sz dat s) {k : Nat} (hk : k < n) : (dat k).length = sz k := by
  have hg := (PackFile.get_eq_ok_iff ..).1 (h.bytes k hk)
  rw [← hg.2.2, slice_length, h.sizes k hk]
  have := h.wf
  have h2 := hg.2.1
  unfold PackFile.WF at this
  unfold PackRecord.endOffset at h2
  omega

/-- a record can be moved to any place that does not overlap another one -/
theorem move (h : DInv S n sz dat s) {k off : Nat} (hk : k < n) (hoff : off + sz k ≤ S)
    (hap : ∀ j, j < n → j ≠ k → (s.R j).endOffset ≤ off ∨ off + sz k ≤ (s.R j).offset) :
    ∃ pf, s.pf.move off (s.R k) = .ok (pf, ⟨off, sz k⟩) ∧ pf.WF ∧ pf.size = S ∧ pf.get ⟨off, sz k⟩ = .ok (dat k) ∧
      ∀ j, j < n → j ≠ k → pf.get (s.R j) = .ok (dat j) := by
  have hl := h.datLen hk
  refine ⟨(s.pf.insert off (dat k)).1, ?_, PackFile.insert_wf _ _ _ h.wf, ?_, ?_, ?_⟩
  · rw [PackFile.move_eq_insert _ _ _ _ h.wf (h.bytes k hk), ← hl]
    rfl
  · rw [PackFile.insert_size, h.size, hl]; omega
  · have := PackFile.insert_get_self s.pf off (dat k) h.wf (by
      intro hc; rw [hc] at hl; have := h.pos k hk; simp at hl; omega)
    rw [← hl]; exact this
  · intro j hj hne
    apply PackFile.insert_get_other _ _ _ h.wf _ _ (h.bytes j hj)
    rw [hl]
    exact hap j hj hne

theorem R_set {recs : List PackRecord} {k j : Nat} {r : PackRecord} (hk : k < recs.length) :
    (recs.set k r).getD j default = if j = k then r else recs.getD j default := by
  rw [List.getD_eq_getElem?_getD, List.getD_eq_getElem?_getD, List.getElem?_set]
  by_cases hj : k = j
  · subst hj; rw [if_pos rfl, if_pos hk, if_pos rfl]; rfl
  · rw [if_neg hj, if_neg (fun h => hj h.symm)]

theorem live_parts (h : s.q.Ready s.cur e b) : ∃ rest init, s.q.frag.drop s.q.idx = e :: rest ∧ s.q.frag.drop s.q.idx = init ++ [b] ∧
    rest = s.q.frag.drop (s.q.idx + 1) ∧ init = s.q.frag.dropLast.drop s.q.idx := by
  have hi : s.q.idx < s.q.frag.length := by
    by_contra hc
    have := h.first
    rw [List.getElem?_eq_none (by omega)] at this; cases this
  have he : s.q.frag[s.q.idx] = e := by
    have := h.first
    rw [List.getElem?_eq_getElem hi] at this
    injection this
  have hb := h.last
  rw [← FragQ.getLast?_drop' hi] at hb
  obtain ⟨l', hl'⟩ := List.getLast?_eq_some_iff.1 hb
  refine ⟨_, l', by rw [← he]; exact List.drop_eq_getElem_cons hi, hl', rfl, ?_⟩
  rw [FragQ.dropLast_drop hi, hl', List.dropLast_concat]

/-- the unfinished records behind the front: the first is `e`, the last `b` -/
theorem liveF_first (h : s.q.Ready s.cur e b) : ∃ rest, s.q.liveF s.cur = e :: rest ∧
    rest = FragQ.liveF { s.q with idx := s.q.idx + 1 } s.cur := by
  obtain ⟨rest, init, h1, h2, h3, h4⟩ := live_parts h
  refine ⟨_, ?_, rfl⟩
  rw [FragQ.liveF, FragQ.liveF, h1, List.filter_cons, if_pos (by simpa using h.ce), h3]

theorem liveF_last (h : s.q.Ready s.cur e b) : ∃ init, s.q.liveF s.cur = init ++ [b] ∧
    init = FragQ.liveF { s.q with frag := s.q.frag.dropLast } s.cur := by
  obtain ⟨rest, init, h1, h2, h3, h4⟩ := live_parts h
  refine ⟨_, ?_, rfl⟩
  rw [FragQ.liveF, FragQ.liveF, h2, List.filter_append, h4]
  congr 1
  simp [h.cb]

theorem R_end (h : DInv S n sz dat s) {k : Nat} (hk : k < n) : (s.R k).endOffset = (s.R k).offset + sz k := by
  rw [PackRecord.endOffset, h.sizes k hk]

/-- `b` is the topmost unfinished record -/
theorem last_top (h : DInv S n sz dat s) (hr : s.q.Ready s.cur e b) {k : Nat} (hk : s.cur ≤ k) (hkn : k < n) :
    k = b ∨ (s.R k).endOffset ≤ (s.R b).offset := by
  obtain ⟨init, h1, _⟩ := liveF_last hr
  have hm := (h.mem k).2 ⟨hk, hkn⟩
  have ho := h.order
  rw [FragQ.live, h1, ← List.append_assoc] at hm ho
  rcases List.mem_append.1 hm with hm | hm
  · exact .inr ((List.pairwise_append.1 ho).2.2 k hm b (by simp))
  · exact .inl (by simpa using hm)

/-- the end of the front is the end of its last unfinished record -/
theorem front_top (h : DInv S n sz dat s) (hr : s.q.Ready s.cur e b) :
    (∀ k ∈ s.q.liveD s.cur, (s.R k).endOffset ≤ s.frontEnd) ∧ (s.frontEnd = 0 ∨ ∃ d ∈ s.q.liveD s.cur, s.frontEnd = (s.R d).endOffset) := by
  unfold Defrag.frontEnd
  cases hd : s.q.defrag.getLast? with
  | none =>
    have : s.q.defrag = [] := List.getLast?_eq_none_iff.1 hd
    rw [FragQ.liveD, this]
    exact ⟨fun k hk => (by cases hk), .inl rfl⟩
  | some d =>
    dsimp only
    have hcd := hr.cd d hd
    obtain ⟨l, hl⟩ := List.getLast?_eq_some_iff.1 hd
    have hD : s.q.liveD s.cur = l.filter (fun e => decide (s.cur ≤ e)) ++ [d] := by
      rw [FragQ.liveD, hl, List.filter_append]
      congr 1
      simp [hcd]
    refine ⟨?_, .inr ⟨d, by rw [hD]; simp, rfl⟩⟩
    intro k hk
    have ho := (List.pairwise_append.1 (show (s.q.liveD s.cur ++ s.q.liveF s.cur).Pairwise _ from h.order)).1
    rw [hD] at hk ho
    rcases List.mem_append.1 hk with hk | hk
    · have := (List.pairwise_append.1 ho).2.2 k hk d (by simp)
      have hdn : d < n := h.defrag d (List.mem_of_getLast? hd)
      rw [h.R_end hdn]
      omega
    · rw [show k = d by simpa using hk]

theorem front_le (h : DInv S n sz dat s) (hr : s.q.Ready s.cur e b) {k : Nat} (hk : k ∈ s.q.liveF s.cur) : s.frontEnd ≤ (s.R k).offset := by
  rcases (h.front_top hr).2 with h0 | ⟨d, hd, h0⟩
  · rw [h0]; exact Nat.zero_le _
  · rw [h0]
    exact (List.pairwise_append.1 (show (s.q.liveD s.cur ++ s.q.liveF s.cur).Pairwise _ from h.order)).2.2 d hd k hk

theorem fresh (h : DInv S n sz dat s) (hr : s.q.Ready s.cur e b) : s.Fresh e b :=
  ⟨hr, by rw [h.len]; exact h.frag, by rw [h.len]; exact h.defrag⟩

theorem endOff_ge (h : DInv S n sz dat s) {k : Nat} (hk : s.cur ≤ k) (hkn : k < n) : sumTo sz s.cur + sz k ≤ sumTo sz n := by
  have h1 := sumTo_mono sz hk
  have h2 := sumTo_mono sz (show k + 1 ≤ n from hkn)
  rw [sumTo] at h2
  omega

/-- a finished record lies at or above the end of what is still to be filled -/
theorem done_above (h : DInv S n sz dat s) {k : Nat} (hk : k < s.cur) : s.endOff ≤ (s.R k).offset := by
  have h1 := h.done k hk
  have h2 := h.endOff
  have := sumTo_mono sz (show k + 1 ≤ s.cur from hk)
  omega

/-! ### the three moves -/

/-- the current record is moved to the end -/
theorem place (h : DInv S n sz dat s) (hcur : s.cur < n)
    (habove : ∀ k, s.cur < k → k < n → (s.R k).endOffset + sz s.cur ≤ s.endOff) :
    ∃ s', s.place = .ok s' ∧ DInv S n sz dat s' ∧ s'.cur = s.cur + 1 ∧ s'.q = s.q := by
  have hge := h.endOff_ge (Nat.le_refl _) hcur
  have hused := h.used
  have hend := h.endOff
  have hsz := h.sizes _ hcur
  obtain ⟨pf, h1, h2, h3, h4, h5⟩ := h.move (k := s.cur) (off := s.endOff - sz s.cur) hcur (by omega) (by
    intro j hj hne
    rcases Nat.lt_or_ge j s.cur with hlt | hge'
    · right
      have := h.done_above hlt
      omega
    · left
      have := habove j (by omega) hj
      omega)
  have hset : ∀ j, Defrag.R { s with pf := pf, recs := s.recs.set s.cur ⟨s.endOff - sz s.cur, sz s.cur⟩, endOff := s.endOff - sz s.cur, cur := s.cur + 1 } j =
      if j = s.cur then ⟨s.endOff - sz s.cur, sz s.cur⟩ else s.R j := by
    intro j
    exact R_set (by rw [h.len]; exact hcur)
  have hlive : ∀ k, k ∈ s.q.live (s.cur + 1) ↔ s.cur + 1 ≤ k ∧ k < n := by
    intro k
    have := h.mem k
    rw [FragQ.live, FragQ.liveD, FragQ.liveF, ← List.filter_append, List.mem_filter] at this ⊢
    simp only [decide_eq_true_eq] at this ⊢
    constructor
    · rintro ⟨a, b⟩; exact ⟨b, (this.1 ⟨a, by omega⟩).2⟩
    · rintro ⟨a, b⟩; exact ⟨(this.2 ⟨by omega, b⟩).1, a⟩
  have hsub : (s.q.live (s.cur + 1)).Sublist (s.q.live s.cur) := by
    have : s.q.live (s.cur + 1) = (s.q.live s.cur).filter (fun e => decide (s.cur + 1 ≤ e)) := by
      rw [FragQ.live, FragQ.liveD, FragQ.liveF, FragQ.live, FragQ.liveD, FragQ.liveF, ← List.filter_append, ← List.filter_append, List.filter_filter]
      congr 1
      funext e
      by_cases he : s.cur + 1 ≤ e
      · simp [he]; omega
      · simp [he]
    rw [this]
    exact List.filter_sublist
  refine ⟨{ s with pf := pf, recs := s.recs.set s.cur ⟨s.endOff - sz s.cur, sz s.cur⟩, endOff := s.endOff - sz s.cur, cur := s.cur + 1 }, ?_, ?_, rfl, rfl⟩
  · rw [Defrag.place, Defrag.recOf_ok (by rw [h.len]; exact hcur), Res.ok_bind, subU, if_pos (by omega), Res.ok_bind, hsz, h1, Res.ok_bind]
    dsimp only
    rw [decide_eq_true (by omega), verify_true, Res.ok_bind]
    rfl
  · refine ⟨by simp [h.len], h2, h3, h.pos, ?_, ?_, h.used, hcur, ?_, ?_, h.frag, h.defrag, hlive, ?_, ?_, h.total⟩
    · intro k hk
      rw [hset]
      by_cases hkc : k = s.cur
      · rw [if_pos hkc, hkc]
      · rw [if_neg hkc]; exact h.sizes k hk
    · intro k hk
      rw [hset]
      by_cases hkc : k = s.cur
      · rw [if_pos hkc, hkc]; exact h4
      · rw [if_neg hkc]; exact h5 k hk hkc
    · show s.endOff - sz s.cur + sumTo sz (s.cur + 1) = S
      rw [sumTo]; omega
    · intro k hk
      have hk : k < s.cur + 1 := hk
      rw [hset]
      by_cases hkc : k = s.cur
      · rw [if_pos hkc, hkc, sumTo]; dsimp only; omega
      · rw [if_neg hkc]; exact h.done k (by omega)
    · refine List.Pairwise.imp_of_mem ?_ (h.order.sublist hsub)
      intro a c ha hc hac
      have ha := (hlive a).1 ha
      have hc := (hlive c).1 hc
      rw [hset, hset, if_neg (by omega), if_neg (by omega)]
      exact hac
    · intro k hk
      have hk := (hlive k).1 hk
      rw [hset, if_neg (by omega)]
      have := habove k (by omega) hk.2
      show _ ≤ s.endOff - sz s.cur
      omega

/-- a record is moved to the end of the front: the state except for the queues -/
theorem moveDown (h : DInv S n sz dat s) (hr : s.q.Ready s.cur e b) (q : FragQ) {k : Nat} (hk : k ∈ s.q.liveF s.cur)
    (hspace : ∀ j ∈ s.q.liveF s.cur, j ≠ k → s.frontEnd + sz k ≤ (s.R j).offset)
    (hq : FragQ.live { q with defrag := q.defrag ++ [k] } s.cur = s.q.liveD s.cur ++ k :: (s.q.liveF s.cur).erase k)
    (hfrag : ∀ k ∈ q.frag, k < n) (hdefrag : ∀ k ∈ q.defrag, k < n) (htotal : q.defrag.length + 1 + q.left ≤ n) :
    ∃ s', Defrag.moveDown { s with q := q } s.frontEnd k = .ok s' ∧ DInv S n sz dat s' ∧ s'.cur = s.cur ∧
      s'.q = { q with defrag := q.defrag ++ [k] } ∧ s'.endOff = s.endOff ∧
      ∀ j, s'.R j = if j = k then ⟨s.frontEnd, sz k⟩ else s.R j := by
  have hkl := (h.mem k).1 (List.mem_append.2 (.inr hk))
  have hfk := h.front_le hr hk
  have hbk := h.below k (List.mem_append.2 (.inr hk))
  rw [h.R_end hkl.2] at hbk
  have hnd : (s.q.live s.cur).Nodup := by
    refine List.Pairwise.imp_of_mem ?_ h.order
    intro a c ha hc hac heq
    subst heq
    have ha := (h.mem a).1 ha
    rw [h.R_end ha.2] at hac
    have := h.pos a ha.2
    omega
  have hend := h.endOff
  obtain ⟨pf, h1, h2, h3, h4, h5⟩ := h.move (k := k) (off := s.frontEnd) hkl.2 (by omega) (by
    intro j hj hne
    rcases Nat.lt_or_ge j s.cur with hlt | hge'
    · right
      have := h.done_above hlt
      omega
    · rcases List.mem_append.1 ((h.mem j).2 ⟨hge', hj⟩) with hjd | hjf
      · left; exact (h.front_top hr).1 j hjd
      · right; exact hspace j hjf hne)
  have hset : ∀ j, Defrag.R { s with pf := pf, recs := s.recs.set k ⟨s.frontEnd, sz k⟩, q := { q with defrag := q.defrag ++ [k] } } j =
      if j = k then ⟨s.frontEnd, sz k⟩ else s.R j := by
    intro j
    exact R_set (by rw [h.len]; exact hkl.2)
  have hkf : k ∉ s.q.liveD s.cur := fun hd => (List.nodup_append.1 (show (s.q.liveD s.cur ++ s.q.liveF s.cur).Nodup from hnd)).2.2 k hd k hk rfl
  have hfnd : (s.q.liveF s.cur).Nodup := (List.nodup_append.1 (show (s.q.liveD s.cur ++ s.q.liveF s.cur).Nodup from hnd)).2.1
  have hmem' : ∀ j, j ∈ s.q.liveD s.cur ++ k :: (s.q.liveF s.cur).erase k ↔ j ∈ s.q.live s.cur := by
    intro j
    rw [FragQ.live, List.mem_append, List.mem_append, List.mem_cons, hfnd.mem_erase_iff]
    constructor
    · rintro (a | rfl | a)
      · exact .inl a
      · exact .inr hk
      · exact .inr a.2
    · rintro (a | a)
      · exact .inl a
      · by_cases hjk : j = k
        · exact .inr (.inl hjk)
        · exact .inr (.inr ⟨hjk, a⟩)
  refine ⟨{ s with pf := pf, recs := s.recs.set k ⟨s.frontEnd, sz k⟩, q := { q with defrag := q.defrag ++ [k] } }, ?_, ?_, rfl, rfl, rfl, hset⟩
  · rw [Defrag.moveDown, show Defrag.recOf { s with q := q } k = .ok (s.R k) from Defrag.recOf_ok (by rw [h.len]; exact hkl.2), Res.ok_bind,
      decide_eq_true hfk, verify_true, Res.ok_bind]
    dsimp only
    rw [h1, Res.ok_bind]
    rfl
  · refine ⟨by simp [h.len], h2, h3, h.pos, ?_, ?_, h.used, h.cur_le, h.endOff, ?_, hfrag, ?_, ?_, ?_, ?_, ?_⟩
    · intro j hj
      rw [hset]
      by_cases hjk : j = k
      · rw [if_pos hjk, hjk]
      · rw [if_neg hjk]; exact h.sizes j hj
    · intro j hj
      rw [hset]
      by_cases hjk : j = k
      · rw [if_pos hjk, hjk]; exact h4
      · rw [if_neg hjk]; exact h5 j hj hjk
    · intro j hj
      have hj : j < s.cur := hj
      rw [hset, if_neg (by omega)]
      exact h.done j hj
    · intro j hj
      rcases List.mem_append.1 hj with hj | hj
      · exact hdefrag j hj
      · rw [show j = k by simpa using hj]; exact hkl.2
    · intro j
      show j ∈ FragQ.live { q with defrag := q.defrag ++ [k] } s.cur ↔ _
      rw [hq, hmem', h.mem]
    · show (FragQ.live { q with defrag := q.defrag ++ [k] } s.cur).Pairwise _
      rw [hq]
      have ho := List.pairwise_append.1 (show (s.q.liveD s.cur ++ s.q.liveF s.cur).Pairwise _ from h.order)
      rw [List.pairwise_append, List.pairwise_cons]
      refine ⟨?_, ⟨?_, ?_⟩, ?_⟩
      · refine List.Pairwise.imp_of_mem ?_ ho.1
        intro a c ha hc hac
        rw [hset, hset, if_neg (by rintro rfl; exact hkf ha), if_neg (by rintro rfl; exact hkf hc)]
        exact hac
      · intro a ha
        rw [hfnd.mem_erase_iff] at ha
        rw [hset, hset, if_pos rfl, if_neg ha.1]
        exact hspace a ha.2 ha.1
      · refine List.Pairwise.imp_of_mem ?_ (ho.2.1.sublist List.erase_sublist)
        intro a c ha hc hac
        rw [hfnd.mem_erase_iff] at ha hc
        rw [hset, hset, if_neg ha.1, if_neg hc.1]
        exact hac
      · intro a ha c hc
        rw [hset, if_neg (by rintro rfl; exact hkf ha)]
        rcases List.mem_cons.1 hc with rfl | hc
        · rw [hset, if_pos rfl]; exact (h.front_top hr).1 a ha
        · rw [hfnd.mem_erase_iff] at hc
          rw [hset, if_neg hc.1]
          exact ho.2.2 a ha c hc.2
    · intro j hj
      have hj : j ∈ FragQ.live { q with defrag := q.defrag ++ [k] } s.cur := hj
      rw [hq, hmem'] at hj
      rw [hset]
      by_cases hjk : j = k
      · rw [if_pos hjk]
        show s.frontEnd + sz k ≤ s.endOff
        omega
      · rw [if_neg hjk]; exact h.below j hj
    · show (q.defrag ++ [k]).length + FragQ.left { q with defrag := q.defrag ++ [k] } ≤ n
      rw [List.length_append, List.length_singleton]
      exact htotal

end DInv

theorem refreshLoop_mem (cur : Nat) : ∀ (fuel : Nat) (q q' : FragQ), refreshLoop cur fuel q = .ok q' →
    (∀ k ∈ q'.frag, k ∈ q.frag ∨ k ∈ q.defrag) ∧ (∀ k ∈ q'.defrag, k ∈ q.defrag) := by
  intro fuel
  induction fuel with
  | zero => intro q q' h; cases h
  | succ fuel ih =>
    intro q q' h
    rw [refreshLoop] at h
    have hid : ∀ {q'}, Res.ok q = Res.ok q' → (∀ k ∈ q'.frag, k ∈ q.frag ∨ k ∈ q.defrag) ∧ (∀ k ∈ q'.defrag, k ∈ q.defrag) := by
      intro q' h; injection h with h; subst h; exact ⟨fun k hk => .inl hk, fun k hk => hk⟩
    split at h
    · exact hid h
    · split at h
      · rw [Res.bind_eq_ok] at h
        obtain ⟨_, _, h⟩ := h
        obtain ⟨a, b⟩ := ih _ _ h
        exact ⟨fun k hk => (a k hk).elim .inr (fun h => by cases h), fun k hk => by cases b k hk⟩
      · split at h
        · split at h
          · obtain ⟨a, b⟩ := ih _ _ h
            exact ⟨a, b⟩
          · split at h
            · obtain ⟨a, b⟩ := ih _ _ h
              exact ⟨fun k hk => (a k hk).imp (fun h => List.dropLast_subset _ h) id, b⟩
            · split at h
              · split at h
                · obtain ⟨a, b⟩ := ih _ _ h
                  exact ⟨fun k hk => (a k hk).imp id (fun h => List.dropLast_subset _ h), fun k hk => List.dropLast_subset _ (b k hk)⟩
                · exact hid h
              · exact hid h
        · cases h

/-! ### one step -/

def DefragPc.rank : DefragPc → Nat
  | .record => 2
  | .outer => 1
  | .inner => 0

/-- decreases with every step -/
def Defrag.weight (n : Nat) (s : Defrag) (pc : DefragPc) : Nat :=
  (n - s.cur) * (6 * n + 6) + (if s.q.last = some s.cur then 0 else 3 * n + 3) + 3 * s.q.left + pc.rank

theorem Defrag.weight_next {n : Nat} {s s' : Defrag} {pc pc' : DefragPc} (hc : s'.cur = s.cur + 1) (hlt : s.cur < n) (hl : s'.q.left ≤ n) :
    s'.weight n pc' < s.weight n pc := by
  unfold Defrag.weight
  have h1 : (if s'.q.last = some s'.cur then 0 else 3 * n + 3) ≤ 3 * n + 3 := by split <;> omega
  have h2 : pc'.rank ≤ 2 := by cases pc' <;> decide
  have h3 : (n - s.cur) * (6 * n + 6) = (n - s'.cur) * (6 * n + 6) + (6 * n + 6) := by
    rw [show n - s.cur = (n - s'.cur) + 1 by omega, Nat.add_mul, Nat.one_mul]
  omega

namespace DInv
variable {S n : Nat} {sz : Nat → Nat} {dat : Nat → Bytes} {s : Defrag} {e b : Nat}

/-- refreshing keeps the invariant; it fails only when the queue was exhausted already without progress -/
theorem refresh (h : DInv S n sz dat s) (hcur : s.cur < n) :
    (∃ q e b, s.refresh = .ok { s with q := q } ∧ DInv S n sz dat { s with q := q } ∧ q.Ready s.cur e b ∧ FragQ.Refreshed s.cur s.q q) ∨
    (s.refresh = .throw_ ∧ s.q.liveF s.cur = [] ∧ s.q.last = some s.cur) := by
  have hne : s.q.live s.cur ≠ [] := by
    intro hc
    have := (h.mem s.cur).2 ⟨Nat.le_refl _, hcur⟩
    rw [hc] at this; cases this
  have hsub := FragQ.refreshQ_spec s.cur s.q
  rcases hsub with ⟨q, h1, h2⟩ | ⟨h1, h2, h3⟩
  · left
    have hlive := h2.live
    rcases h2.ready with ⟨a, b⟩ | ⟨e, b, hr⟩
    · exfalso
      rw [FragQ.live, FragQ.liveD, FragQ.liveF, a, b] at hlive
      simp at hlive
      exact hne hlive
    · refine ⟨q, e, b, by rw [Defrag.refresh, h1, Res.ok_bind]; rfl, ?_, hr, h2⟩
      have hq := refreshLoop_mem s.cur _ s.q q h1
      refine ⟨h.len, h.wf, h.size, h.pos, h.sizes, h.bytes, h.used, h.cur_le, h.endOff, h.done, ?_, ?_, ?_, ?_, ?_, ?_⟩
      · intro k hk; rcases hq.1 k hk with hk | hk
        · exact h.frag k hk
        · exact h.defrag k hk
      · intro k hk; exact h.defrag k (hq.2 k hk)
      · intro k; show k ∈ q.live s.cur ↔ _; rw [hlive]; exact h.mem k
      · show (q.live s.cur).Pairwise _; rw [hlive]; exact h.order
      · intro k hk
        have hk : k ∈ q.live s.cur := hk
        rw [hlive] at hk; exact h.below k hk
      · have := h.total; have := h2.total; show q.defrag.length + q.left ≤ n; omega
  · right
    refine ⟨by rw [Defrag.refresh, h1]; rfl, h2, ?_⟩
    rcases h3 with h3 | h3
    · exact h3
    · exfalso; apply hne; rw [FragQ.live, h2, h3]; rfl

end DInv

/-- what a step does; `q` are the refreshed queues, with the ends `e` and `b` -/
inductive DTr (n : Nat) (sz : Nat → Nat) (s : Defrag) (q : FragQ) (e b : Nat) (s' : Defrag) : DefragPc → DefragPc → Prop
  | last (hb : b = s.cur) (hq : s'.q = q) (hc : s'.cur = s.cur + 1) (hR : ∀ j, j ≠ s.cur → s'.R j = s.R j) : DTr n sz s q e b s' .record .record
  | look (hs : s' = { s with q := q }) : DTr n sz s q e b s' .record .outer
  | fits (hq : s'.q = q) (hc : s'.cur = s.cur + 1) (hR : ∀ j, j ≠ s.cur → s'.R j = s.R j) : DTr n sz s q e b s' .outer .record
  | blocked (hs : s' = { s with q := q }) (hsp : s.endOff < (s.R b).endOffset + sz s.cur) : DTr n sz s q e b s' .outer .inner
  | next (hsp : (s.R e).offset < Defrag.frontEnd { s with q := q } + sz b) (hle : Defrag.frontEnd { s with q := q } ≤ (s.R e).offset) (hc : s'.cur = s.cur) (he : s'.endOff = s.endOff)
      (hq : s'.q = { q with idx := q.idx + 1, defrag := q.defrag ++ [e] })
      (hR : ∀ j, s'.R j = if j = e then ⟨Defrag.frontEnd { s with q := q }, sz e⟩ else s.R j) : DTr n sz s q e b s' .inner .inner
  | blocker (hle : Defrag.frontEnd { s with q := q } ≤ (s.R b).offset) (hc : s'.cur = s.cur) (he : s'.endOff = s.endOff)
      (hq : s'.q = { q with frag := q.frag.dropLast, defrag := q.defrag ++ [b] })
      (hR : ∀ j, s'.R j = if j = b then ⟨Defrag.frontEnd { s with q := q }, sz b⟩ else s.R j) : DTr n sz s q e b s' .inner .outer

namespace DInv
variable {S n : Nat} {sz : Nat → Nat} {dat : Nat → Bytes} {s : Defrag} {e b : Nat}

/-- A step ends the loops, fails on exhausted queues, or keeps the invariant. -/
theorem step (h : DInv S n sz dat s) (pc : DefragPc) (hpc : pc ≠ .record → s.cur < n) (hne : pc = .record → s.cur < n → s.q.frag ≠ []) :
    (defragStep s pc = .ok none ∧ s.cur = n) ∨
    (defragStep s pc = .throw_ ∧ s.q.liveF s.cur = [] ∧ s.q.last = some s.cur) ∨
    (∃ q e b s' pc', s.cur < n ∧ defragStep s pc = .ok (some (s', pc')) ∧ DInv S n sz dat { s with q := q } ∧ q.Ready s.cur e b ∧ FragQ.Refreshed s.cur s.q q ∧
      DInv S n sz dat s' ∧ DTr n sz s q e b s' pc pc' ∧ (pc' ≠ .record → s'.cur < n) ∧ (pc' = .record → s'.q.frag ≠ []) ∧
      s'.weight n pc' < s.weight n pc) := by
  by_cases hcur : s.cur < n
  swap
  · left
    have : pc = .record := by by_contra hc; exact hcur (hpc hc)
    subst this
    have := h.cur_le
    refine ⟨?_, by omega⟩
    rw [defragStep, if_neg (by rw [h.len]; exact hcur)]
  right
  rcases h.refresh hcur with ⟨q, e, b, h1, h2, hr, hq⟩ | ⟨h1, h2, h3⟩
  swap
  · left
    refine ⟨?_, h2, h3⟩
    cases pc with
    | record =>
      have := hne rfl hcur
      have hv : verify (!s.q.frag.isEmpty) = .ok () := by
        cases hq : s.q.frag with
        | nil => exact absurd hq this
        | cons => rfl
      rw [defragStep, if_pos (by rw [h.len]; exact hcur), hv, Res.ok_bind, Defrag.peekLast, h1]; rfl
    | outer => rw [defragStep, Defrag.endSpace, h1]; rfl
    | inner => rw [defragStep, Defrag.beginSpace, h1]; rfl
  right
  have hf := h2.fresh hr
  have hn := hf.ne
  have hw : ∀ pc, Defrag.weight n { s with q := q } pc ≤ s.weight n pc := by
    intro pc
    unfold Defrag.weight
    have ht : q.left ≤ n := by have := h2.total; dsimp only at this; omega
    rcases hq.cases with ⟨a, b, _⟩ | ⟨a, b, _⟩
    · dsimp only; rw [a]; omega
    · dsimp only; rw [if_pos b, if_neg a]; omega
  have hbn : b < n := by have := hf.b_lt; rw [← h.len]; exact this
  have hen : e < n := by have := hf.e_lt; rw [← h.len]; exact this
  have htop : ∀ k, s.cur ≤ k → k < n → k = b ∨ (s.R k).endOffset ≤ (s.R b).offset := fun k a c => h2.last_top hr a c
  have hbelow : (s.R b).endOffset ≤ s.endOff := h2.below b ((h2.mem b).2 ⟨hr.cb, hbn⟩)
  have hidx : q.idx < q.frag.length := hf.idx
  -- the current record is placed
  have hplace : ∀ (_ : ∀ k, s.cur < k → k < n → (s.R k).endOffset + sz s.cur ≤ s.endOff),
      ∃ s', Defrag.place { s with q := q } = .ok s' ∧ DInv S n sz dat s' ∧ s'.cur = s.cur + 1 ∧ s'.q = q ∧ (∀ j, j ≠ s.cur → s'.R j = s.R j) := by
    intro ha
    obtain ⟨s', p1, p2, p3, p4⟩ := h2.place hcur ha
    refine ⟨s', p1, p2, p3, p4, ?_⟩
    intro j hj
    rw [Defrag.place, Defrag.recOf_ok (by rw [h2.len]; exact hcur), Res.ok_bind, Res.bind_eq_ok] at p1
    obtain ⟨off, _, p1⟩ := p1
    rw [Res.bind_eq_ok] at p1
    obtain ⟨⟨pf, r'⟩, _, p1⟩ := p1
    rw [Res.bind_eq_ok] at p1
    obtain ⟨_, _, p1⟩ := p1
    injection p1 with p1
    subst p1
    show (s.recs.set s.cur r').getD j default = s.recs.getD j default
    rw [R_set (by rw [h.len]; exact hcur), if_neg hj]
  cases pc with
  | record =>
    have hne' := hne rfl hcur
    have hv : verify (!s.q.frag.isEmpty) = .ok () := by
      cases hq : s.q.frag with
      | nil => exact absurd hq hne'
      | cons => rfl
    rw [defragStep, if_pos (by rw [h.len]; exact hcur), hv, Res.ok_bind, Defrag.peekLast_refresh h1 hf, hf.peekLast, Res.ok_bind]
    dsimp only
    by_cases hb : b = s.cur
    · obtain ⟨s', p1, p2, p3, p4, p5⟩ := hplace (by
        intro k hk hkn
        rcases htop k (by omega) hkn with rfl | ht
        · omega
        · rw [hb] at ht hbelow
          rw [h.R_end hcur] at hbelow
          omega)
      refine ⟨q, e, b, s', .record, hcur, ?_, h2, hr, hq, p2, .last hb p4 p3 p5, fun h => absurd rfl h, fun _ => p4 ▸ hn, ?_⟩
      · rw [if_pos hb, p1, Res.ok_bind]; rfl
      · refine Nat.lt_of_lt_of_le (Defrag.weight_next (s := { s with q := q }) (pc := .record) p3 hcur ?_) (hw .record)
        have := p2.total; omega
    · refine ⟨q, e, b, { s with q := q }, .outer, hcur, by rw [if_neg hb]; rfl, h2, hr, hq, h2, .look rfl, fun _ => hcur, (fun h => by cases h), ?_⟩
      have := hw .outer
      refine Nat.lt_of_le_of_lt this ?_
      simp only [Defrag.weight, DefragPc.rank]; omega
  | outer =>
    have hrec := Defrag.recOf_ok (s := { s with q := q }) (k := s.cur) (by rw [h2.len]; exact hcur)
    have hRcur : Defrag.R { s with q := q } s.cur = s.R s.cur := rfl
    have hRb : Defrag.R { s with q := q } b = s.R b := rfl
    rw [defragStep, Defrag.endSpace_refresh h1 hf, hf.endSpace hbelow, Res.ok_bind]
    dsimp only
    rw [hrec, Res.ok_bind, hRcur, hRb, h.sizes _ hcur]
    by_cases hsp : s.endOff - (s.R b).endOffset < sz s.cur
    · refine ⟨q, e, b, { s with q := q }, .inner, hcur, by rw [if_pos hsp]; rfl, h2, hr, hq, h2, .blocked rfl (by omega), fun _ => hcur, (fun h => by cases h), ?_⟩
      refine Nat.lt_of_le_of_lt (hw .inner) ?_
      simp only [Defrag.weight, DefragPc.rank]; omega
    · obtain ⟨s', p1, p2, p3, p4, p5⟩ := hplace (by
        intro k hk hkn
        rcases htop k (by omega) hkn with rfl | ht
        · omega
        · rw [h.R_end hbn] at hbelow hsp
          omega)
      refine ⟨q, e, b, s', .record, hcur, ?_, h2, hr, hq, p2, .fits p4 p3 p5, fun h => absurd rfl h, fun _ => p4 ▸ hn, ?_⟩
      · rw [if_neg hsp, p1, Res.ok_bind]; rfl
      · refine Nat.lt_of_lt_of_le (Defrag.weight_next (s := { s with q := q }) (pc := .outer) p3 hcur ?_) (hw .outer)
        have := p2.total; omega
  | inner =>
    obtain ⟨rest, he1, he2⟩ := liveF_first hr (s := { s with q := q })
    obtain ⟨init, hb1, hb2⟩ := liveF_last hr (s := { s with q := q })
    dsimp only at he1 he2 hb1 hb2
    have hef : e ∈ q.liveF s.cur := by rw [he1]; simp
    have hbf : b ∈ q.liveF s.cur := by rw [hb1]; simp
    have hle := h2.front_le hr hef
    have hleb := h2.front_le hr hbf
    have hRe : Defrag.R { s with q := q } e = s.R e := rfl
    have hRb : Defrag.R { s with q := q } b = s.R b := rfl
    rw [hRe] at hle
    rw [hRb] at hleb
    have hord : (q.liveF s.cur).Pairwise (fun a b => (s.R a).endOffset ≤ (s.R b).offset) :=
      (List.pairwise_append.1 (show (q.liveD s.cur ++ q.liveF s.cur).Pairwise _ from h2.order)).2.1
    have hlt : ∀ k ∈ q.liveF s.cur, k < n := fun k hk => ((h2.mem k).1 (List.mem_append.2 (.inr hk))).2
    have hnd : (q.liveF s.cur).Nodup := by
      refine List.Pairwise.imp_of_mem ?_ hord
      intro a c ha hc hac heq
      subst heq
      have ha := hlt a ha
      rw [h.R_end ha] at hac
      have := h.pos a ha
      omega
    have hRb : Defrag.R { s with q := q } b = s.R b := rfl
    rw [defragStep, Defrag.beginSpace_refresh h1 hf, hf.beginSpace hle, Res.ok_bind]
    dsimp only
    rw [hf.peekLast, Res.ok_bind]
    dsimp only
    rw [Defrag.recOf_ok hf.b_lt, Res.ok_bind, hRe, hRb, h.sizes b hbn]
    by_cases hsp : (s.R e).offset - Defrag.frontEnd { s with q := q } < sz b
    · rw [if_pos hsp, hf.insertOffset, Res.ok_bind]
      dsimp only
      rw [hf.getNext, Res.ok_bind]
      dsimp only
      obtain ⟨s', m1, m2, m3, m4, m5, m6⟩ := h2.moveDown hr { q with idx := q.idx + 1 } (k := e) hef (by
          intro j hj hne
          have hj : j ∈ q.liveF s.cur := hj
          rw [he1] at hord hj
          have := (List.pairwise_cons.1 hord).1 j ((List.mem_cons.1 hj).resolve_left hne)
          rw [h.R_end hen] at this
          show _ ≤ (s.R j).offset
          omega) (by
          show FragQ.live { q with idx := q.idx + 1, defrag := q.defrag ++ [e] } s.cur = _
          dsimp only
          rw [FragQ.live, FragQ.liveD]
          have hcut : FragQ.liveF { q with idx := q.idx + 1, defrag := q.defrag ++ [e] } s.cur = rest := he2.symm
          rw [hcut, he1, List.erase_cons_head, List.filter_append, FragQ.liveD, List.append_assoc]
          congr 1
          simp [hr.ce]) h2.frag h2.defrag (by
          have := h2.total
          dsimp only [FragQ.left] at this ⊢
          omega)
      refine ⟨q, e, b, s', .inner, hcur, by rw [m1, Res.ok_bind]; rfl, h2, hr, hq, m2, .next (by omega) hle m3 m5 m4 m6, fun _ => m3 ▸ hcur, (fun h => by cases h), ?_⟩
      refine Nat.lt_of_lt_of_le ?_ (hw .inner)
      simp only [Defrag.weight, DefragPc.rank, m3, m4, FragQ.left]; omega
    · rw [if_neg hsp, hf.insertOffset, Res.ok_bind]
      dsimp only
      rw [hf.getLast, Res.ok_bind]
      dsimp only
      have hbe : ∀ j ∈ q.liveF s.cur, (s.R e).offset ≤ (s.R j).offset := by
        intro j hj
        rw [he1] at hord hj
        rcases List.mem_cons.1 hj with rfl | hj
        · exact Nat.le_refl _
        · have := (List.pairwise_cons.1 hord).1 j hj
          rw [h.R_end hen] at this
          omega
      obtain ⟨s', m1, m2, m3, m4, m5, m6⟩ := h2.moveDown hr { q with frag := q.frag.dropLast } (k := b) hbf (by
          intro j hj hne
          have := hbe j hj
          show _ ≤ (s.R j).offset
          omega) (by
          show FragQ.live { q with frag := q.frag.dropLast, defrag := q.defrag ++ [b] } s.cur = _
          dsimp only
          rw [FragQ.live, FragQ.liveD]
          have hcut : FragQ.liveF { q with frag := q.frag.dropLast, defrag := q.defrag ++ [b] } s.cur = init := hb2.symm
          have hbi : b ∉ init := by
            rw [hb1] at hnd
            intro hc
            exact (List.nodup_append.1 hnd).2.2 b hc b (by simp) rfl
          rw [hcut, hb1, List.erase_append_right _ hbi, List.erase_cons_head, List.append_nil, List.filter_append, FragQ.liveD, List.append_assoc]
          congr 1
          simp [hr.cb]) (fun k hk => h2.frag k (List.dropLast_subset _ hk)) h2.defrag (by
          have := h2.total
          dsimp only [FragQ.left] at this ⊢
          rw [List.length_dropLast]
          omega)
      refine ⟨q, e, b, s', .outer, hcur, by rw [m1, Res.ok_bind]; rfl, h2, hr, hq, m2, .blocker hleb m3 m5 m4 m6, fun _ => m3 ▸ hcur, (fun h => by cases h), ?_⟩
      refine Nat.lt_of_lt_of_le ?_ (hw .inner)
      simp only [Defrag.weight, DefragPc.rank, m3, m4, FragQ.left, List.length_dropLast]; omega

end DInv

end Tiles
