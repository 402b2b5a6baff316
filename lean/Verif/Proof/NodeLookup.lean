import Verif.Proof.NodeBuild
/-! Single and batch lookups in the node index. -/
namespace Tiles

theorem nodeAt_natAbs (nodes : List (Int × XY)) (id : Int) : Spec.nodeAt nodes id = Spec.nodeAt nodes (id.natAbs : Int) := by
  simp only [Spec.nodeAt, Int.natAbs_natCast]

theorem nodeAt_eq (nodes : List (Int × XY)) {i j : Int} (h : i.natAbs = j.natAbs) : Spec.nodeAt nodes i = Spec.nodeAt nodes j := by
  simp [Spec.nodeAt, h]

theorem takeWhile_at {α : Type} (p : α → Bool) (l : List α) {x : α} (h : l[(l.takeWhile p).length]? = some x) : p x = false := by
  induction l with
  | nil => simp at h
  | cons a l ih =>
    simp only [List.takeWhile_cons] at h
    by_cases ha : p a
    · simp [ha] at h; exact ih h
    · simp [ha] at h; subst h; simpa using ha

theorem takeWhile_before {α : Type} (p : α → Bool) (l : List α) {i : Nat} (hi : i < (l.takeWhile p).length) :
    ∃ x, l[i]? = some x ∧ p x = true := by
  induction l generalizing i with
  | nil => simp at hi
  | cons a l ih =>
    simp only [List.takeWhile_cons] at hi
    by_cases ha : p a
    · simp only [ha, if_true, List.length_cons] at hi
      cases i with
      | zero => exact ⟨a, rfl, ha⟩
      | succ i => exact ih (by omega)
    · simp [ha] at hi

/-- the entry chosen does not lie behind the id -/
theorem entryFor_spec {idx : List IdOffset} {e0 : IdOffset} {r : List IdOffset} {a : Int} (h : idx = e0 :: r) (ha : e0.id ≤ a) :
    ∃ e ∈ idx, entryFor idx a = .ok e ∧ e.id ≤ a := by
  have hprev : ∀ i, i < lowerBoundId idx a → ∃ x, idx[i]? = some x ∧ x.id < a := by
    intro i hi
    obtain ⟨x, h1, h2⟩ := takeWhile_before _ _ hi
    exact ⟨x, h1, by simpa using h2⟩
  unfold entryFor
  dsimp only
  cases he : idx[lowerBoundId idx a]? with
  | some e =>
    have hge : ¬ e.id < a := by
      have := takeWhile_at _ _ he
      simpa using this
    dsimp only
    by_cases hea : e.id = a
    · rw [if_neg (by simpa using hea)]
      exact ⟨e, List.mem_of_getElem? he, rfl, by omega⟩
    · rw [if_pos hea]
      by_cases h0 : lowerBoundId idx a = 0
      · rw [h0, h] at he
        simp at he
        subst he
        omega
      · rw [if_neg h0]
        obtain ⟨x, h1, h2⟩ := hprev (lowerBoundId idx a - 1) (by omega)
        rw [h1]
        exact ⟨x, List.mem_of_getElem? h1, rfl, by omega⟩
  | none =>
    dsimp only
    by_cases h0 : lowerBoundId idx a = 0
    · rw [h0, h] at he; simp at he
    · rw [if_neg h0]
      obtain ⟨x, h1, h2⟩ := hprev (lowerBoundId idx a - 1) (by omega)
      rw [h1]
      exact ⟨x, List.mem_of_getElem? h1, rfl, by omega⟩

theorem lowerBound_zero {e0 : IdOffset} {r : List IdOffset} {a : Int} : lowerBoundId (e0 :: r) a = 0 ↔ a ≤ e0.id := by
  simp only [lowerBoundId, List.takeWhile_cons]
  by_cases h : e0.id < a
  · simp [h]
  · simp [h]; omega

/-- the bytes behind an index entry -/
theorem Built.drop {nodes : List (Int × XY)} {n : NodeIdx} {start : Int} {ss : List NSpan} (h : Built nodes n start ss)
    {e : IdOffset} (he : e ∈ n.idx) :
    ∃ A B, ss = A ++ B ∧ n.dat.drop e.offset = encAll B ++ encVarint 1 ∧ e.id = start + (flatAll A).length := by
  obtain ⟨A, B, e1, e2, e3⟩ := h.entries e he
  refine ⟨A, B, e1, ?_, e3⟩
  rw [h.dat_eq, e1, encAll_append, e2, List.append_assoc, List.drop_left]

theorem getCoords_built {nodes : List (Int × XY)} {n : NodeIdx} {start : Int} {ss : List NSpan} (h : Built nodes n start ss)
    {id : Int} (hid : -2 ^ 63 < id) : getCoords n id = .ok (Spec.nodeAt nodes id) := by
  obtain ⟨r, hr⟩ := h.head
  unfold getCoords
  rw [hr]
  dsimp only
  rw [← hr, absId_ok hid, Res.ok_bind]
  by_cases hlt : (id.natAbs : Int) < start
  · rw [if_pos ⟨by rw [hr, lowerBound_zero]; first | omega | (dsimp only; omega), by first | omega | (dsimp only; omega)⟩, h.before id hlt]
    rfl
  · rw [if_neg (by
      rw [hr, lowerBound_zero]
      simp only
      omega)]
    obtain ⟨e, h1, h2, h3⟩ := entryFor_spec (a := (id.natAbs : Int)) hr (by simp only; omega)
    obtain ⟨A, B, q1, q2, q3⟩ := h.drop h1
    rw [h2, Res.ok_bind, q2]
    have hd : (id.natAbs : Int) = e.id + ((id.natAbs - e.id).toNat : Nat) := by omega
    rw [scanSpans_enc B (n.dat.length + 1) e.id ((id.natAbs - e.id).toNat) (fun s hs => h.ok s (by rw [q1]; simp [hs])) ?_ hd]
    · have hc := h.content ((flatAll A).length + (id.natAbs - e.id).toNat)
      rw [q1, flatAll_append, List.getElem?_append_right (by omega)] at hc
      rw [show (flatAll A).length + (id.natAbs - e.id).toNat - (flatAll A).length = (id.natAbs - e.id).toNat from by omega] at hc
      rw [hc, nodeAt_natAbs nodes id]
      congr 2
      have := h.start0
      omega
    · have := encAll_length B
      have e4 := congrArg List.length q2
      simp only [List.length_append, List.length_drop] at e4
      have := encVarint_length_pos 1
      omega

/-! ### batch -/

/-- the locations after the queries were answered one by one -/
def applyAll (nodes : List (Int × XY)) (qs : List NodeQuery) (l : Nat → XY) : Nat → XY :=
  qs.foldl (fun l q => match Spec.nodeAt nodes q.1 with
    | some p => setLoc l q.2 ⟨wrap32 p.x, wrap32 p.y⟩
    | none => l) l

theorem applyAll_append (nodes : List (Int × XY)) (a b : List NodeQuery) (l : Nat → XY) :
    applyAll nodes (a ++ b) l = applyAll nodes b (applyAll nodes a l) := by
  simp [applyAll, List.foldl_append]

theorem applyAll_none {nodes : List (Int × XY)} {qs : List NodeQuery} (h : ∀ q ∈ qs, Spec.nodeAt nodes q.1 = none) (l : Nat → XY) :
    applyAll nodes qs l = l := by
  induction qs generalizing l with
  | nil => rfl
  | cons q qs ih =>
    simp only [applyAll, List.foldl_cons, h q (by simp)]
    exact ih (fun q hq => h q (by simp [hq])) l

theorem applyAll_some {nodes : List (Int × XY)} {qs : List NodeQuery} {p : XY} (h : ∀ q ∈ qs, Spec.nodeAt nodes q.1 = some p)
    (l : Nat → XY) : applyAll nodes qs l = setLocs p qs l := by
  induction qs generalizing l with
  | nil => rfl
  | cons q qs ih =>
    simp only [applyAll, List.foldl_cons, h q (by simp), setLocs]
    exact ih (fun q hq => h q (by simp [hq])) _

/-- the loop ends, with every query left answered -/
def Ends (nodes : List (Int × XY)) (n : NodeIdx) (s : BatchState) : Prop :=
  ∃ fuel, batchRun n fuel s = .ok (some (applyAll nodes s.qs s.locs))

theorem ends_step {nodes : List (Int × XY)} {n : NodeIdx} {s s' : BatchState} (h : batchStep n s = .ok (some s'))
    (he : applyAll nodes s'.qs s'.locs = applyAll nodes s.qs s.locs) (h' : Ends nodes n s') : Ends nodes n s := by
  obtain ⟨f, hf⟩ := h'
  refine ⟨f + 1, ?_⟩
  rw [batchRun, h, Res.ok_bind]
  dsimp only
  rw [hf, he]

theorem ends_done {nodes : List (Int × XY)} {n : NodeIdx} {s : BatchState} (h : batchStep n s = .ok none)
    (he : ∀ q ∈ s.qs, Spec.nodeAt nodes q.1 = none) : Ends nodes n s :=
  ⟨1, by rw [batchRun, h, Res.ok_bind, applyAll_none he]; rfl⟩

theorem ends_empty {nodes : List (Int × XY)} {n : NodeIdx} {s : BatchState} (h : s.qs = []) : Ends nodes n s :=
  ends_done (by unfold batchStep; rw [h]) (by simp [h])

def QSorted (qs : List NodeQuery) : Prop := qs.Pairwise (fun a b => a.1.natAbs ≤ b.1.natAbs)

/-- at the start of a span -/
structure AtSpan (nodes : List (Int × XY)) (start : Int) (ss : List NSpan) (s : BatchState) (B : List NSpan) : Prop where
  st : s.st = .atSpanStart
  split : ∃ A, ss = A ++ B ∧ s.curr = start + (flatAll A).length
  rest : s.rest = encAll B ++ encVarint 1
  sorted : QSorted s.qs
  from_ : ∀ q ∈ s.qs, start ≤ (q.1.natAbs : Int)
  missing : ∀ q ∈ s.qs, (q.1.natAbs : Int) < s.curr → Spec.nodeAt nodes q.1 = none

/-- inside a span, at its node `k` -/
structure InSpan (start : Int) (ss : List NSpan) (s : BatchState) (A : List NSpan) (p : XY) (ps : List XY) (B : List NSpan)
    (k : Nat) : Prop where
  st : s.st = .inSpan
  split : ss = A ++ .coords p ps :: B
  curr : s.curr = start + (flatAll A).length + k
  size : s.size = ps.length + 1
  pos : s.pos = k
  cur : (p :: ps)[k]? = some s.cur
  rest : s.rest = encDeltas s.cur (ps.drop k) ++ (encAll B ++ encVarint 1)
  sorted : QSorted s.qs
  ahead : ∀ q ∈ s.qs, s.curr ≤ (q.1.natAbs : Int)

theorem qsorted_head {q : NodeQuery} {qs : List NodeQuery} (h : QSorted (q :: qs)) : ∀ r ∈ q :: qs, q.1.natAbs ≤ r.1.natAbs := by
  intro r hr
  rcases List.mem_cons.mp hr with rfl | hr
  · exact Nat.le_refl _
  · exact (List.pairwise_cons.mp h).1 r hr

theorem takeWhile_append_dropWhile_eq {α : Type} (p : α → Bool) (l : List α) : l.takeWhile p ++ l.dropWhile p = l :=
  List.takeWhile_append_dropWhile

theorem mem_takeWhile_imp {α : Type} {p : α → Bool} {l : List α} {x : α} (h : x ∈ l.takeWhile p) : p x = true := by
  induction l with
  | nil => simp at h
  | cons a l ih =>
    simp only [List.takeWhile_cons] at h
    by_cases ha : p a
    · simp only [ha, if_true, List.mem_cons] at h
      rcases h with rfl | h
      · exact ha
      · exact ih h
    · simp [ha] at h

theorem mem_of_dropWhile {α : Type} {p : α → Bool} {l : List α} {x : α} (h : x ∈ l.dropWhile p) : x ∈ l :=
  (List.dropWhile_suffix p).subset h

/-- what is left behind a `dropWhile` on a sorted list fails the test when the test is downward closed -/
theorem qsorted_dropWhile {qs : List NodeQuery} (h : QSorted qs) (p : NodeQuery → Bool) : QSorted (qs.dropWhile p) :=
  List.Pairwise.sublist (List.dropWhile_suffix p).sublist h

theorem dropWhile_ge {qs : List NodeQuery} (h : QSorted qs) (c : Int) :
    ∀ q ∈ qs.dropWhile (fun q => decide ((q.1.natAbs : Int) < c)), c ≤ (q.1.natAbs : Int) := by
  induction qs with
  | nil => simp
  | cons a qs ih =>
    intro q hq
    simp only [List.dropWhile_cons] at hq
    by_cases ha : (a.1.natAbs : Int) < c
    · simp only [ha, decide_true, if_true] at hq
      exact ih (List.pairwise_cons.mp h).2 q hq
    · simp only [ha, decide_false, Bool.false_eq_true, if_false] at hq
      have := qsorted_head h q hq
      omega

theorem dropWhile_gt {qs : List NodeQuery} (h : QSorted qs) (c : Int) (hc : ∀ q ∈ qs, c ≤ (q.1.natAbs : Int)) :
    ∀ q ∈ qs.dropWhile (fun q => decide ((q.1.natAbs : Int) = c)), c < (q.1.natAbs : Int) := by
  induction qs with
  | nil => simp
  | cons a qs ih =>
    intro q hq
    simp only [List.dropWhile_cons] at hq
    by_cases ha : (a.1.natAbs : Int) = c
    · simp only [ha, decide_true, if_true] at hq
      exact ih (List.pairwise_cons.mp h).2 (fun q hq => hc q (by simp [hq])) q hq
    · simp only [ha, decide_false, Bool.false_eq_true, if_false] at hq
      have := qsorted_head h q hq
      have := hc a (by simp)
      omega

theorem dropWhile_length_lt {α : Type} {p : α → Bool} {a : α} {l : List α} (h : p a = true) :
    ((a :: l).dropWhile p).length < (a :: l).length := by
  simp only [List.dropWhile_cons, h, if_true, List.length_cons]
  have := (List.dropWhile_suffix p (l := l)).length_le
  omega

/-- skipping delta pairs -/
theorem skipDeltas_enc (ps : List XY) (cur : XY) (rest : Bytes) (hc : cur.U32) (h : ∀ q ∈ ps, q.U32) :
    skipDeltas ps.length (encDeltas cur ps ++ rest) = .ok rest := by
  induction ps generalizing cur with
  | nil => simp [skipDeltas, encDeltas]
  | cons p ps ih =>
    obtain ⟨a1, a2, a3, a4⟩ := hc
    obtain ⟨b1, b2, b3, b4⟩ := h p (by simp)
    have hx : zigzag (p.x - cur.x) < 2 ^ 64 := zigzag_lt (by omega) (by omega)
    have hy : zigzag (p.y - cur.y) < 2 ^ 64 := zigzag_lt (by omega) (by omega)
    simp only [List.length_cons, skipDeltas, encDeltas, encS64, List.append_assoc, skipVarint]
    rw [decVarint_enc _ _ hx]
    simp only [Res.ok_bind, Res.pure_eq]
    rw [decVarint_enc _ _ hy]
    simp only [Res.ok_bind]
    exact ih p (h p (by simp)) (fun q hq => h q (by simp [hq]))

/-- walking inside a span -/
theorem walkSpan_enc (a size : Int) (j : Nat) (ps : List XY) (cur : XY) (curr pos : Int) (rest : Bytes) (q : XY) (hc : cur.U32)
    (h : ∀ q ∈ ps, q.U32) (hj : (cur :: ps)[j]? = some q) (hpos : pos + ps.length < size + 1) (hr : rest ≠ []) :
    walkSpan a size j cur curr pos (encDeltas cur ps ++ rest) =
      .ok (q, curr + j, pos + j, encDeltas q (ps.drop j) ++ rest) := by
  induction j generalizing cur ps curr pos with
  | zero =>
    simp at hj
    subst hj
    simp [walkSpan]
  | succ j ih =>
    cases ps with
    | nil => simp at hj
    | cons p ps =>
      simp only [List.getElem?_cons_succ] at hj
      simp only [List.length_cons] at hpos
      simp only [walkSpan, encDeltas]
      rw [show (!(encS64 (p.x - cur.x) ++ encS64 (p.y - cur.y) ++ encDeltas p ps ++ rest).isEmpty) = true from by
        simp [hr], verify_true, Res.ok_bind]
      rw [show decide (pos < size) = true from by simp only [decide_eq_true_eq]; omega, verify_true, Res.ok_bind,
        List.append_assoc, readDelta_enc hc (h p (by simp)), Res.ok_bind]
      dsimp only
      rw [ih ps p (curr + 1) (pos + 1) (h p (by simp)) (fun q hq => h q (by simp [hq])) hj (by omega)]
      simp only [List.drop_succ_cons]
      congr 3
      · omega
      · congr 1
        omega

/-- the positions inside a span are what the index answers -/
theorem Built.at_span {nodes : List (Int × XY)} {n : NodeIdx} {start : Int} {ss : List NSpan} (h : Built nodes n start ss)
    {A B : List NSpan} {p : XY} {ps : List XY} (e : ss = A ++ .coords p ps :: B) {k : Nat} {x : XY} (hk : (p :: ps)[k]? = some x) :
    Spec.nodeAt nodes (start + (flatAll A).length + k) = some x := by
  have hc := h.content ((flatAll A).length + k)
  have hlt : k < (p :: ps).length := (List.getElem?_eq_some_iff.mp hk).1
  rw [e, flatAll_append, List.getElem?_append_right (by omega), flatAll_cons,
    show (flatAll A).length + k - (flatAll A).length = k from by omega] at hc
  simp only [NSpan.flat] at hc
  rw [List.getElem?_append_left (by simpa using hlt), List.getElem?_map, hk] at hc
  simp only [Option.map_some, Option.join_some] at hc
  rw [hc]
  congr 1
  omega

theorem Built.in_gap {nodes : List (Int × XY)} {n : NodeIdx} {start : Int} {ss : List NSpan} (h : Built nodes n start ss)
    {A B : List NSpan} {g : Nat} (e : ss = A ++ .gap g :: B) {k : Nat} (hk : k < g) :
    Spec.nodeAt nodes (start + (flatAll A).length + k) = none := by
  have hc := h.content ((flatAll A).length + k)
  rw [e, flatAll_append, List.getElem?_append_right (by omega), flatAll_cons,
    show (flatAll A).length + k - (flatAll A).length = k from by omega] at hc
  simp only [NSpan.flat] at hc
  rw [List.getElem?_append_left (by simpa using hk), List.getElem?_replicate, if_pos hk] at hc
  rw [show (start + (flatAll A).length + k : Int) = start + ((flatAll A).length + k : Nat) from by omega, ← hc]
  rfl

theorem Built.behind {nodes : List (Int × XY)} {n : NodeIdx} {start : Int} {ss : List NSpan} (h : Built nodes n start ss)
    {id : Int} (hid : start + (flatAll ss).length ≤ (id.natAbs : Int)) : Spec.nodeAt nodes id = none := by
  have hc := h.content ((id.natAbs : Int) - start).toNat
  rw [List.getElem?_eq_none (by omega)] at hc
  rw [nodeAt_natAbs, ← show start + (((id.natAbs : Int) - start).toNat : Nat) = (id.natAbs : Int) from by omega, ← hc]
  rfl

/-- inside a span with the next query in it: one round answers it -/
theorem inSpan_answer {nodes : List (Int × XY)} {n : NodeIdx} {start : Int} {ss : List NSpan} (h : Built nodes n start ss)
    {s : BatchState} {A B : List NSpan} {p : XY} {ps : List XY} {k : Nat} (hs : InSpan start ss s A p ps B k)
    {q : NodeQuery} {qs : List NodeQuery} (hq : s.qs = q :: qs) (ha : (q.1.natAbs : Int) < s.curr + (s.size - s.pos)) :
    ∃ s' k', batchStep n s = .ok (some s') ∧ InSpan start ss s' A p ps B k' ∧ s'.qs.length < s.qs.length ∧
      applyAll nodes s'.qs s'.locs = applyAll nodes s.qs s.locs := by
  have hok : NSpan.Ok (.coords p ps) := h.ok _ (by rw [hs.split]; simp)
  have hpU : ∀ x ∈ p :: ps, x.U32 := by
    intro x hx
    rcases List.mem_cons.mp hx with rfl | hx
    · exact hok.1
    · exact hok.2.1 x hx
  have hahead := hs.ahead q (by rw [hq]; simp)
  have hsz := hs.size
  have hps := hs.pos
  have hcu := hs.curr
  have hs0 := h.start0
  obtain ⟨j, hj⟩ : ∃ j : Nat, (q.1.natAbs : Int) = s.curr + j := ⟨((q.1.natAbs : Int) - s.curr).toNat, by omega⟩
  have hkj : k + j < (p :: ps).length := by simp only [List.length_cons]; omega
  obtain ⟨x, hx⟩ : ∃ x, (p :: ps)[k + j]? = some x := ⟨_, List.getElem?_eq_getElem hkj⟩
  have hcur : s.cur.U32 := hpU _ (List.mem_of_getElem? hs.cur)
  have hjx : (s.cur :: ps.drop k)[j]? = some x := by
    cases j with
    | zero =>
      have h2 := hs.cur
      rw [Nat.add_zero, h2] at hx
      exact hx
    | succ j =>
      rw [show k + (j + 1) = (k + j) + 1 from by omega, List.getElem?_cons_succ] at hx
      rw [List.getElem?_cons_succ, List.getElem?_drop]
      exact hx
  have hw := walkSpan_enc (q.1.natAbs : Int) s.size j (ps.drop k) s.cur s.curr s.pos (encAll B ++ encVarint 1) x hcur
    (fun y hy => hok.2.1 y (List.mem_of_mem_drop hy)) hjx (by simp only [List.length_drop]; simp only [List.length_cons] at hkj; omega)
    (by simp [encVarint_ne_nil])
  have htn : ((q.1.natAbs : Int) - s.curr).toNat = j := by omega
  have hat : ∀ r ∈ s.qs.takeWhile (fun r => decide ((r.1.natAbs : Int) = (q.1.natAbs : Int))), Spec.nodeAt nodes r.1 = some x := by
    intro r hr
    have hre := mem_takeWhile_imp hr
    simp only [decide_eq_true_eq] at hre
    rw [nodeAt_natAbs, hre, ← h.at_span hs.split hx]
    congr 1
    omega
  have hsub : ∀ r ∈ s.qs.dropWhile (fun r => decide ((r.1.natAbs : Int) = (q.1.natAbs : Int))), r ∈ s.qs :=
    fun r hr => mem_of_dropWhile hr
  refine ⟨{ s with cur := x, curr := s.curr + j, pos := s.pos + j, st := .inSpan, rest := encDeltas x ((ps.drop k).drop j) ++ (encAll B ++ encVarint 1), locs := setLocs x (s.qs.takeWhile (fun r => decide ((r.1.natAbs : Int) = (q.1.natAbs : Int)))) s.locs, qs := s.qs.dropWhile (fun r => decide ((r.1.natAbs : Int) = (q.1.natAbs : Int))) }, k + j, ?_, ?_, ?_, ?_⟩
  · unfold batchStep
    rw [hq]
    dsimp only
    rw [hs.st]
    dsimp only
    rw [if_pos ha, htn, hs.rest, hw, Res.ok_bind]
    dsimp only
    rw [show decide ((q.1.natAbs : Int) = s.curr + j) = true from by simpa using hj, verify_true, Res.ok_bind, Res.pure_eq, ← hq]
  · refine ⟨rfl, hs.split, ?_, hsz, ?_, hx, ?_, ?_, ?_⟩
    · dsimp only; omega
    · dsimp only; omega
    · dsimp only
      rw [List.drop_drop]
    · exact qsorted_dropWhile hs.sorted _
    · intro r hr
      have := dropWhile_gt hs.sorted (q.1.natAbs : Int) (fun r hr => by
        have := hs.sorted
        rw [hq] at this hr
        have := qsorted_head this r hr
        omega) r hr
      dsimp only
      omega
  · dsimp only
    rw [hq]
    exact dropWhile_length_lt (by simp)
  · dsimp only
    rw [← applyAll_some hat, ← applyAll_append, takeWhile_append_dropWhile_eq]

/-- entering a span at its first node -/
theorem atSpan_enter {nodes : List (Int × XY)} {start : Int} {ss : List NSpan} {s : BatchState} {A B : List NSpan} {p : XY}
    {ps : List XY} (hs : AtSpan nodes start ss s (.coords p ps :: B)) (hA : ss = A ++ .coords p ps :: B)
    (hcurr : s.curr = start + (flatAll A).length) (qs : List NodeQuery) (hqs : QSorted qs) (hah : ∀ q ∈ qs, s.curr ≤ (q.1.natAbs : Int)) :
    InSpan start ss { s with rest := encDeltas p ps ++ (encAll B ++ encVarint 1), size := (ps.length : Int) + 1, pos := 0, cur := p, st := .inSpan, qs := qs }
      A p ps B 0 :=
  ⟨rfl, hA, by simpa using hcurr, rfl, rfl, rfl, by simp, hqs, hah⟩

theorem atSpan_ends {nodes : List (Int × XY)} {n : NodeIdx} {start : Int} {ss : List NSpan} (h : Built nodes n start ss) (m : Nat)
    (ih : ∀ s A p ps B k, InSpan start ss s A p ps B k → s.qs.length < m → Ends nodes n s)
    (B : List NSpan) (s : BatchState) (hs : AtSpan nodes start ss s B) (hm : s.qs.length ≤ m) : Ends nodes n s := by
  induction B generalizing s with
  | nil =>
    cases hq : s.qs with
    | nil => exact ends_empty hq
    | cons q qs =>
      refine ends_done ?_ ?_
      · unfold batchStep
        rw [hq]
        dsimp only
        rw [hs.st]
        dsimp only
        have e1 := decVarint_enc 1 [] (by decide)
        simp only [List.append_nil] at e1
        rw [hs.rest, encAll_nil, List.nil_append, e1]
        rfl
      · intro r hr
        obtain ⟨A, hA, hcurr⟩ := hs.split
        rcases Int.lt_or_le (r.1.natAbs : Int) s.curr with hlt | hge
        · exact hs.missing r hr hlt
        · refine h.behind ?_
          rw [hA, List.append_nil]
          omega
  | cons sp B ihB =>
    cases hq : s.qs with
    | nil => exact ends_empty hq
    | cons q qs =>
      obtain ⟨A, hA, hcurr⟩ := hs.split
      have hsp : sp.Ok := h.ok sp (by rw [hA]; simp)
      cases sp with
      | gap g =>
        obtain ⟨g1, g2⟩ := hsp
        have hstep : batchStep n s = .ok (some { s with curr := s.curr + (g : Nat), rest := encAll B ++ encVarint 1, size := (g : Nat), st := .atSpanStart }) := by
          unfold batchStep
          rw [hq]
          dsimp only
          rw [hs.st]
          dsimp only
          rw [hs.rest, encAll_cons, List.append_assoc]
          simp only [NSpan.enc]
          rw [decVarint_enc _ _ (by omega), Res.ok_bind]
          dsimp only
          rw [if_pos (by omega), if_neg (by omega)]
          have : (2 * g + 1) / 2 = g := by omega
          rw [this, ← hq]
          rfl
        refine ends_step hstep rfl (ihB _ ?_ hm)
        refine ⟨rfl, ⟨A ++ [.gap g], by simp [hA], ?_⟩, rfl, hs.sorted, hs.from_, ?_⟩
        · dsimp only
          rw [flatAll_append, flatAll_cons]
          simp [NSpan.flat]
          omega
        · intro r hr hlt
          dsimp only at hr hlt
          rcases Int.lt_or_le (r.1.natAbs : Int) s.curr with hl | hge
          · exact hs.missing r hr hl
          · have := h.in_gap hA (k := ((r.1.natAbs : Int) - s.curr).toNat) (by omega)
            rw [nodeAt_natAbs, ← this]
            congr 1
            omega
      | coords p ps =>
        obtain ⟨c1, c2, c3⟩ := hsp
        have hdec : decVarint s.rest = .ok (2 * ps.length, fixed32 p.x ++ (fixed32 p.y ++ (encDeltas p ps ++ (encAll B ++ encVarint 1)))) := by
          rw [hs.rest, encAll_cons]
          simp only [NSpan.enc, List.append_assoc]
          exact decVarint_enc _ _ (by omega)
        have hdiv : 2 * ps.length / 2 = ps.length := by omega
        by_cases h1 : (q.1.natAbs : Int) < s.curr
        · -- queries before this span are missing
          have hmiss : ∀ r ∈ s.qs.takeWhile (fun q => decide ((q.1.natAbs : Int) < s.curr)), Spec.nodeAt nodes r.1 = none := by
            intro r hr
            have := mem_takeWhile_imp hr
            simp only [decide_eq_true_eq] at this
            exact hs.missing r ((List.takeWhile_prefix _).subset hr) this
          have hin := atSpan_enter hs hA hcurr (s.qs.dropWhile (fun q => decide ((q.1.natAbs : Int) < s.curr)))
            (qsorted_dropWhile hs.sorted _) (dropWhile_ge hs.sorted s.curr)
          refine ends_step (s' := { s with rest := encDeltas p ps ++ (encAll B ++ encVarint 1), size := (ps.length : Int) + 1, pos := 0, cur := p, st := .inSpan, qs := s.qs.dropWhile (fun q => decide ((q.1.natAbs : Int) < s.curr)) }) ?_ ?_ (ih _ A p ps B 0 hin ?_)
          · unfold batchStep
            rw [hq]
            dsimp only
            rw [hs.st]
            dsimp only
            rw [hdec, Res.ok_bind]
            dsimp only
            rw [if_neg (by omega), hdiv, if_pos h1, readFixed_fixed32 c1.1 c1.2.1, Res.ok_bind]
            dsimp only
            rw [readFixed_fixed32 c1.2.2.1 c1.2.2.2, Res.ok_bind]
            rfl
          · dsimp only
            conv_rhs => rw [← takeWhile_append_dropWhile_eq (fun q : NodeQuery => decide ((q.1.natAbs : Int) < s.curr)) s.qs, applyAll_append, applyAll_none hmiss]
          · dsimp only
            have := dropWhile_length_lt (p := fun q : NodeQuery => decide ((q.1.natAbs : Int) < s.curr)) (a := q) (l := qs) (by simpa using h1)
            rw [← hq] at this
            omega
        · have hah : ∀ r ∈ s.qs, s.curr ≤ (r.1.natAbs : Int) := by
            intro r hr
            have := hs.sorted
            rw [hq] at this hr
            have := qsorted_head this r hr
            omega
          by_cases h2 : (q.1.natAbs : Int) < s.curr + ((ps.length : Int) + 1)
          · have hin := atSpan_enter hs hA hcurr s.qs hs.sorted hah
            refine ends_step (s' := { s with rest := encDeltas p ps ++ (encAll B ++ encVarint 1), size := (ps.length : Int) + 1, pos := 0, cur := p, st := .inSpan, qs := s.qs }) ?_ rfl ?_
            · unfold batchStep
              rw [hq]
              dsimp only
              rw [hs.st]
              dsimp only
              rw [hdec, Res.ok_bind]
              dsimp only
              rw [if_neg (by omega), hdiv, if_neg h1, if_pos h2, readFixed_fixed32 c1.1 c1.2.1, Res.ok_bind]
              dsimp only
              rw [readFixed_fixed32 c1.2.2.1 c1.2.2.2, Res.ok_bind, ← hq]
              rfl
            · obtain ⟨s', k', t1, t2, t3, t4⟩ := inSpan_answer h hin hq (by dsimp only; omega)
              refine ends_step t1 t4 (ih s' A p ps B k' t2 ?_)
              dsimp only at t3
              omega
          · refine ends_step (s' := { s with rest := encAll B ++ encVarint 1, size := (ps.length : Int) + 1, pos := 0, curr := s.curr + ((ps.length : Int) + 1), st := .atSpanStart }) ?_ rfl (ihB _ ?_ hm)
            · unfold batchStep
              rw [hq]
              dsimp only
              rw [hs.st]
              dsimp only
              rw [hdec, Res.ok_bind]
              dsimp only
              rw [if_neg (by omega), hdiv, if_neg h1, if_neg h2]
              have hf : (fixed32 p.x ++ (fixed32 p.y ++ (encDeltas p ps ++ (encAll B ++ encVarint 1)))).drop 8 =
                  encDeltas p ps ++ (encAll B ++ encVarint 1) := by
                rw [← List.append_assoc]
                exact List.drop_left' (by simp [fixed32])
              rw [hf, show ((ps.length : Int) + 1 - 1).toNat = ps.length from by omega,
                skipDeltas_enc ps p _ c1 c2, Res.ok_bind, ← hq]
              rfl
            · refine ⟨rfl, ⟨A ++ [.coords p ps], by simp [hA], ?_⟩, rfl, hs.sorted, hs.from_, ?_⟩
              · dsimp only
                rw [flatAll_append, flatAll_cons]
                simp [NSpan.flat]
                omega
              · intro r hr hlt
                dsimp only at hr hlt
                have := hs.sorted
                rw [hq] at this hr
                have := qsorted_head this r hr
                omega

theorem fromIndex_ends {nodes : List (Int × XY)} {n : NodeIdx} {start : Int} {ss : List NSpan} (h : Built nodes n start ss) (m : Nat)
    (ih : ∀ s A p ps B k, InSpan start ss s A p ps B k → s.qs.length < m → Ends nodes n s)
    (s : BatchState) (hst : s.st = .fromIndex) (hsort : QSorted s.qs) (hfrom : ∀ q ∈ s.qs, start ≤ (q.1.natAbs : Int))
    (hm : s.qs.length ≤ m) : Ends nodes n s := by
  cases hq : s.qs with
  | nil => exact ends_empty hq
  | cons q qs =>
    obtain ⟨r, hr⟩ := h.head
    have hqs : start ≤ (q.1.natAbs : Int) := hfrom q (by rw [hq]; simp)
    obtain ⟨e, h1, h2, h3⟩ := entryFor_spec (a := (q.1.natAbs : Int)) hr hqs
    obtain ⟨A, B, q1, q2, q3⟩ := h.drop h1
    refine ends_step (s' := { s with curr := e.id, rest := n.dat.drop e.offset, st := .atSpanStart }) ?_ rfl
      (atSpan_ends h m ih B _ ?_ hm)
    · unfold batchStep
      rw [hq]
      dsimp only
      rw [hst]
      dsimp only
      rw [hr]
      dsimp only
      rw [← hr]
      have hv : decide (¬ (lowerBoundId n.idx (q.1.natAbs : Int) = 0 ∧ start ≠ (q.1.natAbs : Int))) = true := by
        simp only [decide_eq_true_eq]
        rw [hr, lowerBound_zero]
        dsimp only
        omega
      rw [hv, verify_true, Res.ok_bind, h2, Res.ok_bind, ← hq]
      rfl
    · refine ⟨rfl, ⟨A, q1, q3⟩, q2, hsort, hfrom, ?_⟩
      intro x hx hlt
      dsimp only at hx hlt
      rw [hq] at hx hsort
      have := qsorted_head hsort x hx
      omega

theorem inSpan_ends {nodes : List (Int × XY)} {n : NodeIdx} {start : Int} {ss : List NSpan} (h : Built nodes n start ss) (m : Nat) :
    ∀ s A p ps B k, InSpan start ss s A p ps B k → s.qs.length ≤ m → Ends nodes n s := by
  induction m with
  | zero =>
    intro s A p ps B k _ hm
    exact ends_empty (List.length_eq_zero_iff.mp (by omega))
  | succ m ihm =>
    have ih : ∀ s A p ps B k, InSpan start ss s A p ps B k → s.qs.length < m + 1 → Ends nodes n s :=
      fun s A p ps B k hs hlt => ihm s A p ps B k hs (by omega)
    intro s A p ps B k hs hm
    cases hq : s.qs with
    | nil => exact ends_empty hq
    | cons q qs =>
      have hs0 := h.start0
      have hcu := hs.curr
      have hsz := hs.size
      have hps := hs.pos
      have hklt : k < (p :: ps).length := (List.getElem?_eq_some_iff.mp hs.cur).1
      simp only [List.length_cons] at hklt
      have hfrom : ∀ r ∈ s.qs, start ≤ (r.1.natAbs : Int) := fun r hr => by
        have := hs.ahead r hr
        omega
      by_cases h1 : (q.1.natAbs : Int) < s.curr + (s.size - s.pos)
      · obtain ⟨s', k', t1, t2, t3, t4⟩ := inSpan_answer h hs hq h1
        exact ends_step t1 t4 (ih s' A p ps B k' t2 (by omega))
      · by_cases h2 : (q.1.natAbs : Int) > s.curr + 1024
        · refine ends_step (s' := { s with st := .fromIndex }) ?_ rfl
            (fromIndex_ends h (m + 1) ih _ rfl hs.sorted hfrom hm)
          unfold batchStep
          rw [hq]
          dsimp only
          rw [hs.st]
          dsimp only
          rw [if_neg h1, if_pos h2, ← hq]
        · have hok : NSpan.Ok (.coords p ps) := h.ok _ (by rw [hs.split]; simp)
          have hcur : s.cur.U32 := by
            have := List.mem_of_getElem? hs.cur
            rcases List.mem_cons.mp this with e | e
            · rw [e]; exact hok.1
            · exact hok.2.1 _ e
          have hk : (s.size - (s.pos + 1)).toNat = (ps.drop k).length := by
            rw [List.length_drop]; omega
          refine ends_step (s' := { s with rest := encAll B ++ encVarint 1, pos := s.size, curr := s.curr + ((ps.drop k).length : Nat) + 1, st := .atSpanStart }) ?_ rfl
            (atSpan_ends h (m + 1) ih B _ ?_ hm)
          · unfold batchStep
            rw [hq]
            dsimp only
            rw [hs.st]
            dsimp only
            rw [if_neg h1, if_neg h2, hk, hs.rest, skipDeltas_enc (ps.drop k) s.cur _ hcur
              (fun y hy => hok.2.1 y (List.mem_of_mem_drop hy)), Res.ok_bind, ← hq]
            rfl
          · have hl : (flatAll (A ++ [NSpan.coords p ps])).length = (flatAll A).length + (ps.length + 1) := by
              rw [flatAll_append, flatAll_cons]
              simp [NSpan.flat]
            have hdl : ((ps.drop k).length : Int) = ps.length - k := by rw [List.length_drop]; omega
            refine ⟨rfl, ⟨A ++ [.coords p ps], by rw [hs.split]; simp, ?_⟩, rfl, hs.sorted, hfrom, ?_⟩
            · dsimp only
              omega
            · intro r hr hlt
              dsimp only at hr hlt
              have hsort := hs.sorted
              rw [hq] at hr hsort
              have := qsorted_head hsort r hr
              omega

/-- the whole batch -/
theorem batch_ends {nodes : List (Int × XY)} {n : NodeIdx} {start : Int} {ss : List NSpan} (h : Built nodes n start ss)
    {srt : List NodeQuery → List NodeQuery} (qs : List NodeQuery) (hsort : QSorted (srt qs)) (locs : Nat → XY) :
    ∃ fuel, batchRun n fuel (batchInit n srt qs locs) = .ok (some (applyAll nodes (srt qs) locs)) := by
  obtain ⟨r, hr⟩ := h.head
  have hin : batchInit n srt qs locs = ⟨.fromIndex, -2 ^ 63, [], 0, 0, ⟨0, 0⟩,
      (srt qs).dropWhile (fun q => decide ((q.1.natAbs : Int) < start)), locs⟩ := by
    unfold batchInit
    rw [hr]
  have := fromIndex_ends h ((srt qs).dropWhile (fun q => decide ((q.1.natAbs : Int) < start))).length
    (fun s A p ps B k hs hlt => inSpan_ends h _ s A p ps B k hs (Nat.le_of_lt hlt))
    (batchInit n srt qs locs) (by rw [hin]) (by rw [hin]; exact qsorted_dropWhile hsort _)
    (by rw [hin]; exact dropWhile_ge hsort start) (by rw [hin])
  obtain ⟨fuel, hf⟩ := this
  refine ⟨fuel, hf.trans ?_⟩
  rw [hin]
  dsimp only
  congr 2
  conv_rhs => rw [← takeWhile_append_dropWhile_eq (fun q : NodeQuery => decide ((q.1.natAbs : Int) < start)) (srt qs), applyAll_append]
  rw [applyAll_none (qs := (srt qs).takeWhile _)]
  intro q hq
  have := mem_takeWhile_imp hq
  exact h.before _ (by simpa using this)

end Tiles
