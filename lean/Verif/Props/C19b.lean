import Verif.Props.C19
/-! C19 — how large the files of the node index get. -/
namespace Tiles
open Spec

theorem encVarint_size (v : Nat) : (encVarint v).length = varintSize v := by
  induction v using Nat.strongRecOn with
  | _ v ih =>
    rw [encVarint, varintSize]
    split
    · rfl
    · rw [List.length_cons, ih _ (by omega)]

theorem varintSize_small (k : Nat) : 64 * varintSize (2 * k) ≤ k + 64 := by
  have key : ∀ v, 128 * varintSize v ≤ v + 128 := by
    intro v
    induction v using Nat.strongRecOn with
    | _ v ih =>
      rw [varintSize]
      split
      · omega
      · have := ih (v / 128) (by omega)
        omega
  have := key (2 * k)
  omega

theorem varintSize_step {k m : Nat} (h : ∀ v, v < m → varintSize v ≤ k) {v : Nat} (hv : v < m * 128) : varintSize v ≤ k + 1 := by
  rw [varintSize]
  split
  · omega
  · have := h (v / 128) (by omega)
    omega

theorem varintSize_ten {v : Nat} (h : v < 2 ^ 70) : varintSize v ≤ 10 := by
  have h1 : ∀ v, v < 2 ^ 7 → varintSize v ≤ 1 := fun v hv => by rw [varintSize, if_pos (by omega)]
  have h2 := fun v => @varintSize_step 1 (2 ^ 7) h1 v
  have h3 := fun v => @varintSize_step 2 (2 ^ 14) h2 v
  have h4 := fun v => @varintSize_step 3 (2 ^ 21) h3 v
  have h5 := fun v => @varintSize_step 4 (2 ^ 28) h4 v
  have h6 := fun v => @varintSize_step 5 (2 ^ 35) h5 v
  have h7 := fun v => @varintSize_step 6 (2 ^ 42) h6 v
  have h8 := fun v => @varintSize_step 7 (2 ^ 49) h7 v
  have h9 := fun v => @varintSize_step 8 (2 ^ 56) h8 v
  exact @varintSize_step 9 (2 ^ 63) h9 v h

theorem encDeltas_size (cur : XY) (ps : List XY) : (encDeltas cur (ps.take (spanRun cur ps))).length ≤ 9 * spanRun cur ps := by
  induction ps generalizing cur with
  | nil => simp [spanRun, encDeltas]
  | cons p ps ih =>
    rw [spanRun]
    split
    · simp [encDeltas]
    · rename_i h
      rw [List.take_succ_cons, encDeltas, List.length_append, List.length_append, encS64, encS64, encVarint_size, encVarint_size]
      have := ih p
      omega

/-- at most 9 bytes for each point, and one more for each 64 points of a span -/
theorem encCoords_size (l : List XY) : 64 * (encCoords l).length ≤ 577 * l.length := by
  induction l using encCoords.induct with
  | case1 => simp [encCoords]
  | case2 p ps ih =>
    rw [encCoords]
    simp only [List.length_append, List.length_drop, List.length_cons] at ih ⊢
    have h1 := encDeltas_size p ps
    have h2 := varintSize_small (spanRun p ps)
    have h3 := spanRun_le p ps
    have h4 : ∀ v, (fixed32 v).length = 4 := by intro v; simp [fixed32, leBytes_length]
    rw [encVarint_size, h4, h4]
    omega

/-- the number of places in the sequence where an id is neither the one before nor the next number (the first id counts) -/
def Spec.gaps : Int → List (Int × XY) → Nat
  | _, [] => 0
  | last, n :: ns => (if (n.1.natAbs : Int) = last ∨ (n.1.natAbs : Int) = last + 1 then 0 else 1) + gaps n.1.natAbs ns

theorem pushAll_size (ns : List (Int × XY)) (hids : ∀ n ∈ ns, -(2 ^ 63 - 1) < n.1 ∧ n.1 < 2 ^ 63 - 1) :
    ∀ b b' : NodeBuilder, b.pushAll ns = .ok b' → (b.span ≠ [] → 0 ≤ b.lastId) →
      64 * b'.dat.length + 577 * b'.span.length ≤ 64 * b.dat.length + 577 * b.span.length + 577 * ns.length + 640 * gaps b.lastId ns ∧
      (b'.span ≠ [] → 0 ≤ b'.lastId) := by
  induction ns with
  | nil => intro b b' h hb; injection h with h; subst h; exact ⟨by simp, hb⟩
  | cons n ns ih =>
    intro b b' h hb
    obtain ⟨id, pos⟩ := n
    rw [NodeBuilder.pushAll, Res.bind_eq_ok] at h
    obtain ⟨b1, h1, h2⟩ := h
    have hid := hids (id, pos) (by simp)
    dsimp only at hid
    rw [NodeBuilder.push, Res.bind_eq_ok] at h1
    obtain ⟨_, _, h1⟩ := h1
    rw [absId, if_neg (by omega), Res.ok_bind] at h1
    have step : 64 * b1.dat.length + 577 * b1.span.length ≤ 64 * b.dat.length + 577 * b.span.length + 577 +
        640 * (if (id.natAbs : Int) = b.lastId ∨ (id.natAbs : Int) = b.lastId + 1 then 0 else 1) ∧ b1.lastId = id.natAbs ∧ (b1.span ≠ [] → 0 ≤ b1.lastId) := by
      split at h1
      · rename_i he
        rw [Res.bind_eq_ok] at h1
        obtain ⟨_, _, h1⟩ := h1
        injection h1 with h1
        subst h1
        exact ⟨by omega, he.symm, hb⟩
      · rename_i he
        rw [Res.bind_eq_ok] at h1
        obtain ⟨_, h0, h1⟩ := h1
        injection h1 with h1
        subst h1
        refine ⟨?_, rfl, fun _ => Int.natCast_nonneg _⟩
        split
        · rename_i hc
          rw [if_neg (by omega)]
          have hs : b.span.isEmpty = false := by simpa using hc.2
          have h3 := encCoords_size b.span
          have h4 : varintSize (2 * ((id.natAbs : Int) - b.lastId - 1).toNat + 1) ≤ 10 := by
            apply varintSize_ten
            have := hb (by intro h; rw [h] at hs; cases hs)
            omega
          simp only [NodeBuilder.pushEmptySpan, NodeBuilder.pushCoordSpan, hs, Bool.false_eq_true, if_false, List.length_append, encVarint_size,
            List.length_cons, List.length_nil]
          omega
        · simp only [List.length_append, List.length_cons, List.length_nil]
          split <;> omega
    obtain ⟨s1, s2, s3⟩ := step
    obtain ⟨i1, i2⟩ := ih (fun n hn => hids n (by simp [hn])) b1 b' h2 s3
    refine ⟨?_, i2⟩
    rw [s2] at i1
    rw [gaps]
    simp only [List.length_cons]
    omega

/-- The data file: at most 9 bytes for each node (and one more for each 64 nodes), and at most 10 for each gap between ids. -/
theorem C19_data_size (nodes : List (Int × XY)) (hids : ∀ n ∈ nodes, -(2 ^ 63 - 1) < n.1 ∧ n.1 < 2 ^ 63 - 1) (n : NodeIdx)
    (hn : buildNodeIdx nodes = .ok n) : 64 * n.dat.length ≤ 577 * nodes.length + 640 * gaps (-2 ^ 63) nodes + 640 := by
  rw [buildNodeIdx, Res.bind_eq_ok] at hn
  obtain ⟨b, h1, h2⟩ := hn
  obtain ⟨h3, h5⟩ := pushAll_size nodes hids _ _ h1 (by simp [NodeBuilder.init])
  rw [NodeBuilder.finish] at h2
  split at h2
  · cases h2
  injection h2 with h2
  subst h2
  simp only [NodeBuilder.init, List.length_nil] at h3
  have h4 := encCoords_size b.span
  have hl : (encVarint (2 * (b.lastId + 1 - b.pushCoordSpan.lastId - 1).toNat + 1)).length ≤ 10 := by
    rw [encVarint_size]
    apply varintSize_ten
    have : b.pushCoordSpan.lastId = b.lastId := by rw [NodeBuilder.pushCoordSpan]; split <;> rfl
    rw [this]
    have : b.lastId + 1 - b.lastId - 1 = 0 := by omega
    rw [this]; decide
  have hd : 64 * b.pushCoordSpan.dat.length ≤ 64 * b.dat.length + 577 * b.span.length := by
    rw [NodeBuilder.pushCoordSpan]
    split
    · omega
    · simp only [List.length_append]; omega
  simp only [NodeBuilder.pushEmptySpan, List.length_append]
  omega

theorem pushAll_entries (ns : List (Int × XY)) : ∀ b b' : NodeBuilder, b.pushAll ns = .ok b' →
    (b.idx = [] → b.written = 0) → (b'.idx = [] → b'.written = 0) ∧
    1025 * (b'.idx.length - 1) + b'.written + b'.span.length ≤ 1025 * (b.idx.length - 1) + b.written + b.span.length + ns.length := by
  induction ns with
  | nil => intro b b' h hb; injection h with h; subst h; exact ⟨hb, by simp⟩
  | cons n ns ih =>
    intro b b' h hb
    obtain ⟨id, pos⟩ := n
    rw [NodeBuilder.pushAll, Res.bind_eq_ok] at h
    obtain ⟨b1, h1, h2⟩ := h
    rw [NodeBuilder.push, Res.bind_eq_ok] at h1
    obtain ⟨_, _, h1⟩ := h1
    rw [Res.bind_eq_ok] at h1
    obtain ⟨a, _, h1⟩ := h1
    have step : (b1.idx = [] → b1.written = 0) ∧ 1025 * (b1.idx.length - 1) + b1.written + b1.span.length ≤ 1025 * (b.idx.length - 1) + b.written + b.span.length + 1 := by
      split at h1
      · rw [Res.bind_eq_ok] at h1
        obtain ⟨_, _, h1⟩ := h1
        injection h1 with h1
        subst h1
        exact ⟨hb, by omega⟩
      · rw [Res.bind_eq_ok] at h1
        obtain ⟨_, h0, h1⟩ := h1
        injection h1 with h1
        subst h1
        split
        · rename_i hc
          have hs : b.span.isEmpty = false := by simpa using hc.2
          simp only [NodeBuilder.pushEmptySpan, NodeBuilder.pushCoordSpan, hs, Bool.false_eq_true, if_false, List.length_append,
            List.length_cons, List.length_nil]
          cases hi : b.idx with
          | nil => simp [hb hi]
          | cons e es =>
            simp only [List.isEmpty_cons, Bool.false_or, decide_eq_true_eq]
            split
            · simp; omega
            · simp; omega
        · exact ⟨hb, by simp only [List.length_append, List.length_cons, List.length_nil]; omega⟩
    obtain ⟨i1, i2⟩ := ih b1 b' h2 step.1
    exact ⟨i1, by simp only [List.length_cons]; omega⟩

/-- The index file: there are at least 1025 nodes between two entries. -/
theorem C19_index_size (nodes : List (Int × XY)) (n : NodeIdx) (hn : buildNodeIdx nodes = .ok n) : 1025 * (n.idx.length - 1) ≤ nodes.length := by
  rw [buildNodeIdx, Res.bind_eq_ok] at hn
  obtain ⟨b, h1, h2⟩ := hn
  obtain ⟨h3, h4⟩ := pushAll_entries nodes _ _ h1 (fun _ => rfl)
  rw [NodeBuilder.finish] at h2
  split at h2
  · cases h2
  injection h2 with h2
  subst h2
  simp only [NodeBuilder.init, List.length_nil] at h4
  show 1025 * (b.pushCoordSpan.idx.length - 1) ≤ _
  rw [NodeBuilder.pushCoordSpan]
  split
  · omega
  · dsimp only
    cases hi : b.idx with
    | nil => simp
    | cons e es =>
      rw [hi] at h4
      simp only [List.isEmpty_cons, Bool.false_or, decide_eq_true_eq]
      split
      · simp at h4 ⊢; omega
      · simp at h4 ⊢; omega

theorem pushAll_dense (ns : List (Int × XY)) : ∀ b b' : NodeBuilder, b.pushAll ns = .ok b' → b.idx = [] → ((b.span = [] ∧ b.lastId < -1) ∨ gaps b.lastId ns = 0) →
    gaps b.lastId ns ≤ 1 → b'.idx = [] := by
  induction ns with
  | nil => intro b b' h hb _ _; injection h with h; subst h; exact hb
  | cons n ns ih =>
    intro b b' h hb hg hg1
    obtain ⟨id, pos⟩ := n
    rw [NodeBuilder.pushAll, Res.bind_eq_ok] at h
    obtain ⟨b1, h1, h2⟩ := h
    rw [NodeBuilder.push, Res.bind_eq_ok] at h1
    obtain ⟨_, _, h1⟩ := h1
    rw [Res.bind_eq_ok] at h1
    obtain ⟨a, ha, h1⟩ := h1
    have ha : a = id.natAbs := by rw [absId] at ha; split at ha <;> cases ha; rfl
    subst ha
    rw [gaps] at hg hg1
    dsimp only at hg hg1
    split at h1
    · rename_i he
      rw [Res.bind_eq_ok] at h1
      obtain ⟨_, _, h1⟩ := h1
      injection h1 with h1
      subst h1
      rw [if_pos (.inl he), he, Nat.zero_add] at hg hg1
      exact ih _ _ h2 hb hg hg1
    · rename_i he
      rw [Res.bind_eq_ok] at h1
      obtain ⟨_, h0, h1⟩ := h1
      injection h1 with h1
      subst h1
      by_cases hn : (id.natAbs : Int) = b.lastId + 1
      · rw [if_pos (.inr hn), Nat.zero_add] at hg hg1
        rw [if_neg (by omega)] at h2
        rcases hg with hg | hg
        · omega
        · exact ih _ _ h2 hb (.inr hg) hg1
      · rw [if_neg (by omega)] at hg hg1
        have hs : b.span = [] := by rcases hg with hg | hg; exact hg.1; omega
        rw [if_neg (by simp [hs])] at h2
        exact ih _ _ h2 hb (.inr (by show gaps (id.natAbs : Int) ns = 0; omega)) (by show gaps (id.natAbs : Int) ns ≤ 1; omega)

/-- Finding: a sequence of ids without gaps has a single entry in the index, whatever its length; a lookup reads the data from there. -/
theorem C19_dense_ids (nodes : List (Int × XY)) (hg : gaps (-2 ^ 63) nodes ≤ 1) (n : NodeIdx) (hn : buildNodeIdx nodes = .ok n) : n.idx.length ≤ 1 := by
  rw [buildNodeIdx, Res.bind_eq_ok] at hn
  obtain ⟨b, h1, h2⟩ := hn
  have h3 := pushAll_dense nodes _ _ h1 rfl (.inl ⟨rfl, by simp [NodeBuilder.init]⟩) hg
  rw [NodeBuilder.finish] at h2
  split at h2
  · cases h2
  injection h2 with h2
  subst h2
  show b.pushCoordSpan.idx.length ≤ 1
  rw [NodeBuilder.pushCoordSpan]
  split
  · rw [h3]; simp
  · rw [h3]; simp

example : gaps (-2 ^ 63) [(7, ⟨1, 2⟩), (8, ⟨3, 4⟩), (-9, ⟨5, 6⟩), (9, ⟨5, 6⟩), (10, ⟨0, 0⟩)] = 1 ∧ gaps (-2 ^ 63) [(7, ⟨1, 2⟩), (9, ⟨3, 4⟩)] = 2 := by decide +kernel

end Tiles
