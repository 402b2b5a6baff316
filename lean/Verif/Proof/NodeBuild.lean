import Verif.Proof.NodeIdx
import Verif.Spec.NodeIdx
/-! The invariant of the node index builder. -/
namespace Tiles

/-- what the builder's vectors mean: `F` are the positions of the ids `start`, `start + 1`, … -/
structure IdxOk (start : Int) (ss : List NSpan) (idx : List IdOffset) (dat : Bytes) : Prop where
  dat_eq : dat = encAll ss
  ok : ∀ s ∈ ss, s.Ok
  entries : ∀ e ∈ idx, ∃ A B, ss = A ++ B ∧ e.offset = (encAll A).length ∧ e.id = start + (flatAll A).length
  below : ∀ e ∈ idx, e.id < start + (flatAll ss).length
  sorted : idx.Pairwise (fun a b => a.id < b.id)
  head : (idx = [] ∧ ss = []) ∨ ∃ r, idx = ⟨start, 0⟩ :: r

structure BInv (nodes : List (Int × XY)) (b : NodeBuilder) (start : Int) (ss : List NSpan) : Prop where
  idx : IdxOk start ss b.idx b.dat
  span_ne : b.span ≠ []
  span_ok : ∀ p ∈ b.span, p.U32
  start0 : 0 ≤ start
  last : start + (flatAll ss ++ b.span.map some).length = b.lastId + 1
  last_lt : b.lastId < 2 ^ 63
  nodes_ok : Spec.NodesOk nodes
  last_node : ∃ d n, nodes = d ++ [n] ∧ (n.1.natAbs : Int) = b.lastId ∧ n.2 = b.lastPos
  content : ∀ i : Nat, ((flatAll ss ++ b.span.map some)[i]?).join = Spec.nodeAt nodes (start + i)
  before : ∀ id : Int, (id.natAbs : Int) < start → Spec.nodeAt nodes id = none

/-- writing a coordinate span keeps the meaning -/
theorem idxOk_pushCoordSpan {start : Int} {ss : List NSpan} {b : NodeBuilder} (h : IdxOk start ss b.idx b.dat)
    (hne : b.span ≠ []) (hok : ∀ p ∈ b.span, p.U32) (hl : start + (flatAll ss ++ b.span.map some).length = b.lastId + 1)
    (h0 : 0 ≤ start) (hlt : b.lastId < 2 ^ 63) :
    ∃ ss', IdxOk start ss' b.pushCoordSpan.idx b.pushCoordSpan.dat ∧
      flatAll ss' = flatAll ss ++ b.span.map some ∧ b.pushCoordSpan.idx ≠ [] := by
  have hlen : 0 < b.span.length := List.length_pos_iff.mpr hne
  simp only [List.length_append, List.length_map] at hl
  obtain ⟨tt, h1, h2, h3⟩ := encCoords_spans b.span hok (by omega)
  refine ⟨ss ++ tt, ?_, by rw [flatAll_append, h2], ?_⟩
  · have hb : b.span.isEmpty = false := by simpa using hne
    simp only [NodeBuilder.pushCoordSpan, hb, Bool.false_eq_true, if_false]
    have hgrow : ∀ e ∈ b.idx, ∃ A B, ss ++ tt = A ++ B ∧ e.offset = (encAll A).length ∧ e.id = start + (flatAll A).length := by
      intro e he
      obtain ⟨A, B, e1, e2, e3⟩ := h.entries e he
      exact ⟨A, B ++ tt, by rw [e1, List.append_assoc], e2, e3⟩
    have hf : (flatAll (ss ++ tt)).length = (flatAll ss).length + b.span.length := by
      rw [flatAll_append, h2]; simp
    have hbelow : ∀ e ∈ b.idx, e.id < start + (flatAll (ss ++ tt)).length := by
      intro e he
      have := h.below e he
      omega
    refine ⟨by rw [h.dat_eq, h1, encAll_append], ?_, ?_, ?_, ?_, ?_⟩
    · intro s hs
      rcases List.mem_append.mp hs with hs | hs
      · exact h.ok s hs
      · exact h3 s hs
    · split
      · intro e he
        rcases List.mem_append.mp he with he | he
        · exact hgrow e he
        · simp only [List.mem_singleton] at he
          subst he
          exact ⟨ss, tt, rfl, by rw [h.dat_eq], by simp only; omega⟩
      · exact hgrow
    · split
      · intro e he
        rcases List.mem_append.mp he with he | he
        · exact hbelow e he
        · simp only [List.mem_singleton] at he
          subst he
          simp only
          omega
      · exact hbelow
    · split
      · rw [List.pairwise_append]
        refine ⟨h.sorted, by simp, ?_⟩
        intro x hx y hy
        simp only [List.mem_singleton] at hy
        subst hy
        have := h.below x hx
        simp only
        omega
      · exact h.sorted
    · right
      rcases h.head with ⟨e1, e2⟩ | ⟨r, e1⟩
      · subst e2
        rw [e1, h.dat_eq]
        simp only [List.isEmpty_nil, Bool.true_or, if_true, encAll_nil, List.length_nil, List.nil_append]
        refine ⟨[], ?_⟩
        simp only [flatAll_nil, List.length_nil] at hl
        congr 2
        omega
      · rw [e1]
        split
        · exact ⟨r ++ _, rfl⟩
        · exact ⟨r, rfl⟩
  · have hb : b.span.isEmpty = false := by simpa using hne
    simp only [NodeBuilder.pushCoordSpan, hb, Bool.false_eq_true, if_false]
    rcases h.head with ⟨e1, e2⟩ | ⟨r, e1⟩
    · simp [e1]
    · rw [e1]; split <;> simp

theorem idxOk_append {start : Int} {ss : List NSpan} {idx : List IdOffset} {dat : Bytes} (h : IdxOk start ss idx dat)
    (hne : idx ≠ []) (s : NSpan) (hs : s.Ok) : IdxOk start (ss ++ [s]) idx (dat ++ s.enc) := by
  refine ⟨by rw [h.dat_eq, encAll_append, encAll_cons]; simp, ?_, ?_, ?_, h.sorted, ?_⟩
  · intro t ht
    rcases List.mem_append.mp ht with ht | ht
    · exact h.ok t ht
    · simp only [List.mem_singleton] at ht; subst ht; exact hs
  · intro e he
    obtain ⟨A, B, e1, e2, e3⟩ := h.entries e he
    exact ⟨A, B ++ [s], by rw [e1, List.append_assoc], e2, e3⟩
  · intro e he
    have := h.below e he
    rw [flatAll_append, List.length_append]
    omega
  · rcases h.head with ⟨e1, e2⟩ | h
    · exact absurd e1 hne
    · exact .inr h

theorem nodeAt_append (nodes : List (Int × XY)) (n : Int × XY) (id : Int) :
    Spec.nodeAt (nodes ++ [n]) id =
      (Spec.nodeAt nodes id).or (if n.1.natAbs = id.natAbs then some n.2 else none) := by
  simp only [Spec.nodeAt, List.find?_append]
  cases h : nodes.find? (fun n => n.1.natAbs == id.natAbs) with
  | some m => simp
  | none => 
    simp only [Option.none_or, Option.map_none]
    by_cases hn : n.1.natAbs = id.natAbs
    · simp [hn]
    · simp [hn]

/-- nothing is found behind the last id -/
theorem nodeAt_after {nodes : List (Int × XY)} {id : Int} (h : ∀ n ∈ nodes, n.1.natAbs < id.natAbs) :
    Spec.nodeAt nodes id = none := by
  simp only [Spec.nodeAt, Option.map_eq_none_iff, List.find?_eq_none]
  intro n hn
  have := h n hn
  simp; omega

/-- the last node has the largest absolute id -/
theorem last_largest {d : List (Int × XY)} {n : Int × XY} (h : Spec.NodesOk (d ++ [n])) :
    ∀ m ∈ d ++ [n], m.1.natAbs ≤ n.1.natAbs ∧ (m.1.natAbs = n.1.natAbs → m.2 = n.2) := by
  intro m hm
  rcases List.mem_append.mp hm with hm | hm
  · exact (List.pairwise_append.mp h.2).2.2 m hm n (by simp)
  · simp only [List.mem_singleton] at hm
    subst hm
    exact ⟨Nat.le_refl _, fun _ => rfl⟩

theorem nodesOk_append {nodes : List (Int × XY)} {n : Int × XY} :
    Spec.NodesOk (nodes ++ [n]) ↔ Spec.NodesOk nodes ∧ n.2.U32 ∧
      ∀ m ∈ nodes, m.1.natAbs ≤ n.1.natAbs ∧ (m.1.natAbs = n.1.natAbs → m.2 = n.2) := by
  unfold Spec.NodesOk
  rw [List.pairwise_append]
  constructor
  · rintro ⟨h1, h2, _, h4⟩
    exact ⟨⟨fun m hm => h1 m (by simp [hm]), h2⟩, h1 n (by simp), fun m hm => h4 m hm n (by simp)⟩
  · rintro ⟨⟨h1, h2⟩, h3, h4⟩
    refine ⟨fun m hm => ?_, h2, by simp, fun m hm k hk => ?_⟩
    · rcases List.mem_append.mp hm with hm | hm
      · exact h1 m hm
      · simp only [List.mem_singleton] at hm; subst hm; exact h3
    · simp only [List.mem_singleton] at hk; subst hk; exact h4 m hm

theorem absId_ok {id : Int} (h : -2 ^ 63 < id) : absId id = .ok (id.natAbs : Int) := by
  unfold absId; rw [if_neg (by omega)]

theorem push_first {id : Int} {pos : XY} (hid : -2 ^ 63 < id) (hid' : id < 2 ^ 63) (hp : pos.U32) :
    ∃ b', NodeBuilder.init.push id pos = .ok b' ∧ BInv [(id, pos)] b' id.natAbs [] := by
  obtain ⟨p1, p2, p3, p4⟩ := hp
  refine ⟨{ NodeBuilder.init with lastId := id.natAbs, lastPos := pos, span := [pos] }, ?_, ?_⟩
  · unfold NodeBuilder.push
    rw [show (decide (0 ≤ pos.x ∧ 0 ≤ pos.y ∧ pos.x ≤ 2 ^ 32 - 1 ∧ pos.y ≤ 2 ^ 32 - 1)) = true from by
      simp only [decide_eq_true_eq]; omega, verify_true, Res.ok_bind, absId_ok hid, Res.ok_bind]
    have hl : NodeBuilder.init.lastId = -2 ^ 63 := rfl
    have hs : NodeBuilder.init.span = [] := rfl
    rw [if_neg (by rw [hl]; omega), hl]
    rw [show (decide ((id.natAbs : Int) > -2 ^ 63)) = true from by simp only [decide_eq_true_eq]; omega,
      verify_true, Res.ok_bind, hs]
    simp [NodeBuilder.init]
  · refine ⟨⟨rfl, by simp, ?_, ?_, ?_, .inl ⟨rfl, rfl⟩⟩, by simp, ?_, by omega, ?_, ?_, ?_, ?_, ?_, ?_⟩
    · intro e he; simp [NodeBuilder.init] at he
    · intro e he; simp [NodeBuilder.init] at he
    · simp [NodeBuilder.init]
    · intro q hq
      simp only [List.mem_singleton] at hq
      subst hq
      exact ⟨p1, p2, p3, p4⟩
    · simp
    · simp only; omega
    · refine ⟨?_, by simp⟩
      intro n hn
      simp only [List.mem_singleton] at hn
      subst hn
      exact ⟨p1, p2, p3, p4⟩
    · exact ⟨[], (id, pos), rfl, rfl, rfl⟩
    · intro i
      cases i with
      | zero =>
        have : (id.natAbs == ((id.natAbs : Int) + ((0 : Nat) : Int)).natAbs) = true := by
          rw [beq_iff_eq]; omega
        simp only [Spec.nodeAt, List.find?_cons, this]
        rfl
      | succ i =>
        have : (id.natAbs == ((id.natAbs : Int) + ((i + 1 : Nat) : Int)).natAbs) = false := by
          rw [beq_eq_false_iff_ne]; omega
        simp only [Spec.nodeAt, List.find?_cons, this]
        rfl
    · intro j hj
      have : (id.natAbs == j.natAbs) = false := by
        rw [beq_eq_false_iff_ne]; omega
      simp only [Spec.nodeAt, List.find?_cons, this]
      rfl

theorem push_next {nodes : List (Int × XY)} {b : NodeBuilder} {start : Int} {ss : List NSpan} (h : BInv nodes b start ss)
    {id : Int} {pos : XY} (hid : -2 ^ 63 < id) (hid' : id < 2 ^ 63) :
    (Spec.NodesOk (nodes ++ [(id, pos)]) → ∃ b' ss', b.push id pos = .ok b' ∧ BInv (nodes ++ [(id, pos)]) b' start ss') ∧
    (¬ Spec.NodesOk (nodes ++ [(id, pos)]) → b.push id pos = .throw_) := by
  obtain ⟨d, n, hn, hna, hnp⟩ := h.last_node
  have hs0 := h.start0
  have hlast : ∀ m ∈ nodes, m.1.natAbs ≤ n.1.natAbs ∧ (m.1.natAbs = n.1.natAbs → m.2 = n.2) := by
    have := h.nodes_ok
    rw [hn] at this ⊢
    exact last_largest this
  have hmem : n ∈ nodes := by rw [hn]; simp
  have hU : decide (0 ≤ pos.x ∧ 0 ≤ pos.y ∧ pos.x ≤ 2 ^ 32 - 1 ∧ pos.y ≤ 2 ^ 32 - 1) = true ↔ pos.U32 := by
    simp only [decide_eq_true_eq, XY.U32]; omega
  rw [nodesOk_append]
  unfold NodeBuilder.push
  by_cases hp : pos.U32
  · rw [hU.mpr hp, verify_true, Res.ok_bind, absId_ok hid, Res.ok_bind]
    by_cases ha : (id.natAbs : Int) = b.lastId
    · rw [if_pos ha]
      by_cases hpos : pos = b.lastPos
      · -- a repeated node
        rw [show decide (pos = b.lastPos) = true from by simpa using hpos, verify_true, Res.ok_bind, Res.pure_eq]
        refine ⟨fun hok => ⟨b, ss, rfl, ?_⟩, fun hno => absurd ⟨h.nodes_ok, hp, ?_⟩ hno⟩
        · have hsame : ∀ j : Int, Spec.nodeAt (nodes ++ [(id, pos)]) j = Spec.nodeAt nodes j := by
            intro j
            rw [nodeAt_append]
            cases hj : Spec.nodeAt nodes j with
            | some q => rfl
            | none =>
              have : id.natAbs ≠ j.natAbs := by
                intro hij
                simp only [Spec.nodeAt, Option.map_eq_none_iff, List.find?_eq_none] at hj
                have := hj n hmem
                simp at this
                omega
              simp [this]
          refine ⟨h.idx, h.span_ne, h.span_ok, h.start0, h.last, h.last_lt, ?_, ⟨nodes, (id, pos), rfl, ha, hpos⟩, ?_, ?_⟩
          · rw [nodesOk_append]; exact hok
          · intro i; rw [hsame, h.content]
          · intro j hj; rw [hsame, h.before j hj]
        · intro m hm
          obtain ⟨q1, q2⟩ := hlast m hm
          simp only
          refine ⟨by omega, fun he => ?_⟩
          rw [q2 (by omega), hnp, hpos]
      · rw [show decide (pos = b.lastPos) = false from by simpa using hpos, verify_false, Res.throw_bind]
        refine ⟨fun hok => absurd ?_ hpos, fun _ => rfl⟩
        have := (hok.2.2 n hmem).2 (by simp only; omega)
        rw [← hnp, this]
    · rw [if_neg ha]
      by_cases hgt : (id.natAbs : Int) > b.lastId
      · rw [show decide ((id.natAbs : Int) > b.lastId) = true from by simpa using hgt, verify_true, Res.ok_bind, Res.pure_eq]
        have hC : ∀ m ∈ nodes, m.1.natAbs ≤ (id, pos).1.natAbs ∧ (m.1.natAbs = (id, pos).1.natAbs → m.2 = (id, pos).2) := by
          intro m hm
          obtain ⟨q1, q2⟩ := hlast m hm
          simp only
          exact ⟨by omega, fun he => by omega⟩
        refine ⟨fun hok => ?_, fun hno => absurd ⟨h.nodes_ok, hp, hC⟩ hno⟩
        have hstart : start ≤ b.lastId := by
          have h1 := h.last
          have h2 : 0 < b.span.length := List.length_pos_iff.mpr h.span_ne
          simp only [List.length_append, List.length_map] at h1
          omega
        have hbefore : ∀ j : Int, (j.natAbs : Int) < start → Spec.nodeAt (nodes ++ [(id, pos)]) j = none := by
          intro j hj
          rw [nodeAt_append, h.before j hj, if_neg (by simp only; omega)]
          rfl
        have hafter : ∀ j : Int, b.lastId < j.natAbs → Spec.nodeAt nodes j = none := by
          intro j hj
          refine nodeAt_after (fun m hm => ?_)
          have := hlast m hm
          omega
        by_cases hgap : b.lastId + 1 ≠ (id.natAbs : Int)
        · -- a gap: the collected span and the gap are written
          have hc : (b.lastId + 1 ≠ (id.natAbs : Int) ∧ ¬ b.span.isEmpty = true) := ⟨hgap, by simpa using h.span_ne⟩
          rw [if_pos hc]
          obtain ⟨tt, t1, t2, t3⟩ := idxOk_pushCoordSpan h.idx h.span_ne h.span_ok h.last h.start0 h.last_lt
          have hspan : b.pushCoordSpan.span = [] := by
            have hb : b.span.isEmpty = false := by simpa using h.span_ne
            simp [NodeBuilder.pushCoordSpan, hb]
          have hlid : b.pushCoordSpan.lastId = b.lastId := by
            simp only [NodeBuilder.pushCoordSpan]; split <;> rfl
          have hgok : (NSpan.gap ((id.natAbs : Int) - b.lastId - 1).toNat).Ok := ⟨by omega, by omega⟩
          have t4 := idxOk_append t1 t3 _ hgok
          refine ⟨_, tt ++ [.gap ((id.natAbs : Int) - b.lastId - 1).toNat], rfl, ?_⟩
          have hl := h.last
          have hF : flatAll (tt ++ [.gap ((id.natAbs : Int) - b.lastId - 1).toNat]) =
              flatAll ss ++ b.span.map some ++ List.replicate ((id.natAbs : Int) - b.lastId - 1).toNat none := by
            rw [flatAll_append, t2, flatAll_cons]
            simp [NSpan.flat]
          refine ⟨?_, by simp, ?_, h.start0, ?_, ?_, nodesOk_append.mpr hok, ⟨nodes, (id, pos), rfl, rfl, rfl⟩, ?_, hbefore⟩
          · simp only [NodeBuilder.pushEmptySpan, hlid]
            exact t4
          · intro q hq
            simp only [NodeBuilder.pushEmptySpan, hspan, List.nil_append, List.mem_singleton] at hq
            subst hq
            exact hp
          · simp only [NodeBuilder.pushEmptySpan, hspan, hF, List.length_append, List.length_replicate, List.nil_append,
              List.length_map, List.length_cons, List.length_nil] at hl ⊢
            omega
          · simp only [NodeBuilder.pushEmptySpan]; omega
          · intro i
            simp only [NodeBuilder.pushEmptySpan, hspan, hF, List.nil_append, List.map_cons, List.map_nil]
            rw [nodeAt_append]
            have hl' := hl
            have hci := h.content i
            generalize hG : flatAll ss ++ b.span.map some = G at hl' hci
            rcases Nat.lt_or_ge i G.length with hi | hi
            · rw [List.append_assoc, List.getElem?_append_left hi, hci, if_neg (by simp only; omega)]
              simp
            · have hno : Spec.nodeAt nodes (start + i) = none := hafter _ (by omega)
              rw [hno, List.append_assoc, List.getElem?_append_right hi]
              rcases Nat.lt_or_ge (i - G.length) ((id.natAbs : Int) - b.lastId - 1).toNat with hi2 | hi2
              · rw [List.getElem?_append_left (by simpa using hi2), if_neg (by simp only; omega),
                  List.getElem?_replicate, if_pos hi2]
                rfl
              · rw [List.getElem?_append_right (by simpa using hi2)]
                by_cases he : id.natAbs = (start + (i : Int)).natAbs
                · rw [if_pos he]
                  have : i - G.length - (List.replicate ((id.natAbs : Int) - b.lastId - 1).toNat (none : Option XY)).length = 0 := by
                    simp only [List.length_replicate]; omega
                  rw [this]; simp
                · rw [if_neg he]
                  have : i - G.length - (List.replicate ((id.natAbs : Int) - b.lastId - 1).toNat (none : Option XY)).length ≠ 0 := by
                    simp only [List.length_replicate]; omega
                  rw [List.getElem?_eq_none (by simp only [List.length_singleton]; omega)]
                  simp
        · have hc : ¬ (b.lastId + 1 ≠ (id.natAbs : Int) ∧ ¬ b.span.isEmpty = true) := fun hh => hgap hh.1
          rw [if_neg hc]
          simp only [ne_eq, Decidable.not_not] at hgap
          refine ⟨_, ss, rfl, ?_⟩
          have hl := h.last
          refine ⟨h.idx, by simp, ?_, h.start0, ?_, ?_, nodesOk_append.mpr hok, ⟨nodes, (id, pos), rfl, rfl, rfl⟩, ?_, hbefore⟩
          · intro q hq
            simp only at hq
            rcases List.mem_append.mp hq with hq | hq
            · exact h.span_ok q hq
            · simp only [List.mem_singleton] at hq
              subst hq
              exact hp
          · simp only [List.map_append, List.length_append, List.length_map, List.length_cons, List.length_nil] at hl ⊢
            omega
          · simp only; omega
          · intro i
            simp only [List.map_append, List.map_cons, List.map_nil]
            rw [nodeAt_append, ← List.append_assoc]
            have hci := h.content i
            generalize hG : flatAll ss ++ b.span.map some = G at hl hci
            rcases Nat.lt_or_ge i G.length with hi | hi
            · rw [List.getElem?_append_left hi, hci, if_neg (by simp only; omega)]
              simp
            · have hno : Spec.nodeAt nodes (start + i) = none := hafter _ (by omega)
              rw [hno, List.getElem?_append_right hi]
              by_cases he : id.natAbs = (start + (i : Int)).natAbs
              · rw [if_pos he]
                have : i - G.length = 0 := by omega
                rw [this]; simp
              · rw [if_neg he, List.getElem?_eq_none (by simp only [List.length_singleton]; omega)]
                simp
      · rw [show decide ((id.natAbs : Int) > b.lastId) = false from by simpa using hgt, verify_false, Res.throw_bind]
        refine ⟨fun hok => absurd (hok.2.2 n hmem).1 (by simp only; omega), fun _ => rfl⟩
  · rw [show decide (0 ≤ pos.x ∧ 0 ≤ pos.y ∧ pos.x ≤ 2 ^ 32 - 1 ∧ pos.y ≤ 2 ^ 32 - 1) = false from by
      rw [← Bool.not_eq_true, hU]; exact hp, verify_false, Res.throw_bind]
    exact ⟨fun hok => absurd hok.2.1 hp, fun _ => rfl⟩

/-- what a finished index means -/
structure Built (nodes : List (Int × XY)) (n : NodeIdx) (start : Int) (ss : List NSpan) : Prop where
  ok : ∀ s ∈ ss, s.Ok
  dat_eq : n.dat = encAll ss ++ encVarint 1
  entries : ∀ e ∈ n.idx, ∃ A B, ss = A ++ B ∧ e.offset = (encAll A).length ∧ e.id = start + (flatAll A).length
  sorted : n.idx.Pairwise (fun a b => a.id < b.id)
  head : ∃ r, n.idx = ⟨start, 0⟩ :: r
  content : ∀ i : Nat, ((flatAll ss)[i]?).join = Spec.nodeAt nodes (start + i)
  before : ∀ id : Int, (id.natAbs : Int) < start → Spec.nodeAt nodes id = none
  start0 : 0 ≤ start

theorem nodeFinish_spec {nodes : List (Int × XY)} {b : NodeBuilder} {start : Int} {ss : List NSpan} (h : BInv nodes b start ss)
    (hl : b.lastId ≠ 2 ^ 63 - 1) : ∃ n ss', b.finish = .ok n ∧ Built nodes n start ss' := by
  obtain ⟨tt, t1, t2, t3⟩ := idxOk_pushCoordSpan h.idx h.span_ne h.span_ok h.last h.start0 h.last_lt
  have hlid : b.pushCoordSpan.lastId = b.lastId := by
    simp only [NodeBuilder.pushCoordSpan]; split <;> rfl
  refine ⟨_, tt, by unfold NodeBuilder.finish; rw [if_neg hl], t1.ok, ?_, t1.entries, t1.sorted, ?_, ?_, h.before, h.start0⟩
  · simp only [NodeBuilder.pushEmptySpan, hlid, t1.dat_eq]
    have : (b.lastId + 1 - b.lastId - 1).toNat = 0 := by omega
    rw [this]
  · rcases t1.head with ⟨e, _⟩ | hh
    · exact absurd e t3
    · exact hh
  · intro i; rw [t2, h.content]

theorem nodePushAll_spec {nodes : List (Int × XY)} {b : NodeBuilder} {start : Int} {ss : List NSpan} (h : BInv nodes b start ss)
    (ns : List (Int × XY)) (hids : ∀ n ∈ ns, -2 ^ 63 < n.1 ∧ n.1 < 2 ^ 63) :
    (Spec.NodesOk (nodes ++ ns) → ∃ b' ss', b.pushAll ns = .ok b' ∧ BInv (nodes ++ ns) b' start ss') ∧
    (¬ Spec.NodesOk (nodes ++ ns) → b.pushAll ns = .throw_) := by
  induction ns generalizing nodes b ss with
  | nil => exact ⟨fun _ => ⟨b, ss, rfl, by simpa using h⟩, fun hn => absurd (by simpa using h.nodes_ok) hn⟩
  | cons n ns ih =>
    obtain ⟨id, pos⟩ := n
    obtain ⟨g1, g2⟩ := hids _ (List.mem_cons_self)
    have hs := push_next h (id := id) (pos := pos) g1 g2
    have he : nodes ++ (id, pos) :: ns = (nodes ++ [(id, pos)]) ++ ns := by simp
    rw [he]
    simp only [NodeBuilder.pushAll]
    by_cases hok : Spec.NodesOk (nodes ++ [(id, pos)])
    · obtain ⟨b', ss', e1, e2⟩ := hs.1 hok
      rw [e1, Res.ok_bind]
      exact ih e2 (fun n hn => hids n (by simp [hn]))
    · rw [hs.2 hok, Res.throw_bind]
      refine ⟨fun hh => absurd ⟨fun n hn => hh.1 n (List.mem_append_left _ hn), ?_⟩ hok, fun _ => rfl⟩
      exact (List.pairwise_append.mp hh.2).1

/-- the whole build -/
theorem build_spec {nodes : List (Int × XY)} (hids : ∀ n ∈ nodes, -(2 ^ 63 - 1) < n.1 ∧ n.1 < 2 ^ 63 - 1) (hne : nodes ≠ []) :
    (Spec.NodesOk nodes → ∃ n start ss, buildNodeIdx nodes = .ok n ∧ Built nodes n start ss) ∧
    (¬ Spec.NodesOk nodes → buildNodeIdx nodes = .throw_) := by
  cases nodes with
  | nil => exact absurd rfl hne
  | cons n ns =>
    obtain ⟨id, pos⟩ := n
    obtain ⟨g1, g2⟩ := hids _ (List.mem_cons_self)
    simp only at g1 g2
    unfold buildNodeIdx
    simp only [NodeBuilder.pushAll]
    by_cases hp : pos.U32
    · obtain ⟨b, e1, e2⟩ := push_first (id := id) (pos := pos) (by omega) (by omega) hp
      rw [e1, Res.ok_bind]
      have hs := nodePushAll_spec e2 ns (fun n hn => by have := hids n (by simp [hn]); omega)
      simp only [List.singleton_append] at hs
      constructor
      · intro hok
        obtain ⟨b', ss', f1, f2⟩ := hs.1 hok
        rw [f1, Res.ok_bind]
        have hl : b'.lastId ≠ 2 ^ 63 - 1 := by
          obtain ⟨d, n, q1, q2, _⟩ := f2.last_node
          have hm : n ∈ (id, pos) :: ns := by rw [q1]; simp
          have := hids n hm
          omega
        obtain ⟨n, ss'', k1, k2⟩ := nodeFinish_spec f2 hl
        exact ⟨n, _, ss'', k1, k2⟩
      · intro hno
        rw [hs.2 hno, Res.throw_bind]
    · refine ⟨fun hok => absurd (hok.1 (id, pos) (by simp)) hp, fun _ => ?_⟩
      have : NodeBuilder.init.push id pos = .throw_ := by
        unfold NodeBuilder.push
        rw [show decide (0 ≤ pos.x ∧ 0 ≤ pos.y ∧ pos.x ≤ 2 ^ 32 - 1 ∧ pos.y ≤ 2 ^ 32 - 1) = false from by
          simp only [decide_eq_false_iff_not]
          intro hh
          exact hp ⟨hh.1, by omega, hh.2.1, by omega⟩, verify_false, Res.throw_bind]
      rw [this, Res.throw_bind, Res.throw_bind]

end Tiles
