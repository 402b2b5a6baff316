import Verif.Model.Crc
import Verif.Spec.Crc
/-! Lemmas about the CRC-32 remainder. -/
namespace Tiles
open Spec

theorem crcPoly_top : crcPoly.getLsbD 31 = true := by decide

theorem crcBytes_eq (s : BitVec 32) (bs : Bytes) : crcBytes s bs = (bitsOf bs).foldl crcBit s := by
  induction bs generalizing s with
  | nil => rfl
  | cons c cs ih => rw [crcBytes, ih, bitsOf, List.foldl_append]; rfl

theorem crcBit_top (s : BitVec 32) (b : Bool) : (crcBit s b).getLsbD 31 = (s.getLsbD 0 ^^ b) := by
  rw [crcBit]
  cases h : s.getLsbD 0 ^^ b
  · simp
  · simp [crcPoly_top]

theorem crcBit_low (s : BitVec 32) (b : Bool) (i : Nat) (hi : i < 31) :
    (crcBit s b).getLsbD i = (s.getLsbD (i + 1) ^^ ((s.getLsbD 0 ^^ b) && crcPoly.getLsbD i)) := by
  rw [crcBit]
  cases h : s.getLsbD 0 ^^ b
  · simp [Nat.add_comm]
  · simp [Nat.add_comm]

theorem xor_cancel {a b x : Bool} (h : (a ^^ x) = (b ^^ x)) : a = b := by
  cases a <;> cases b <;> cases x <;> first | rfl | cases h

/-- equal results: the states differ at most in the lowest bit, exactly if the input bits differ -/
theorem crcBit_inj {s t : BitVec 32} {b c : Bool} (h : crcBit s b = crcBit t c) :
    (∀ i, 0 < i → s.getLsbD i = t.getLsbD i) ∧ (s.getLsbD 0 ^^ b) = (t.getLsbD 0 ^^ c) := by
  have h0 : (s.getLsbD 0 ^^ b) = (t.getLsbD 0 ^^ c) := by rw [← crcBit_top, h, crcBit_top]
  refine ⟨fun i hi => ?_, h0⟩
  by_cases h31 : i < 32
  · obtain ⟨j, rfl⟩ : ∃ j, i = j + 1 := ⟨i - 1, by omega⟩
    have := congrArg (·.getLsbD j) h
    simp only [crcBit_low _ _ j (by omega), h0] at this
    exact xor_cancel this
  · rw [BitVec.getLsbD_of_ge _ _ (by omega), BitVec.getLsbD_of_ge _ _ (by omega)]

theorem bitvec_ext {s t : BitVec 32} (h : ∀ i, s.getLsbD i = t.getLsbD i) : s = t :=
  BitVec.eq_of_getLsbD_eq (fun i _ => h i)

theorem crcBit_inj_same {s t : BitVec 32} {b : Bool} (h : crcBit s b = crcBit t b) : s = t := by
  obtain ⟨h1, h2⟩ := crcBit_inj h
  apply bitvec_ext
  intro i
  rcases Nat.eq_zero_or_pos i with rfl | hi
  · revert h2; cases s.getLsbD 0 <;> cases t.getLsbD 0 <;> cases b <;> simp
  · exact h1 i hi

theorem crcRun_inj (l : List Bool) : ∀ {s t : BitVec 32}, l.foldl crcBit s = l.foldl crcBit t → s = t := by
  induction l with
  | nil => intro s t h; exact h
  | cons b l ih => intro s t h; exact crcBit_inj_same (ih h)

/-- the highest position at which the two states differ is `k` -/
def DiffTop (s t : BitVec 32) (k : Nat) : Prop := s.getLsbD k ≠ t.getLsbD k ∧ ∀ i, k < i → s.getLsbD i = t.getLsbD i

theorem crcBit_diffTop {s t : BitVec 32} {b c : Bool} {k : Nat} (hk : k < 31) (h : DiffTop (crcBit s b) (crcBit t c) k) : DiffTop s t (k + 1) := by
  obtain ⟨h1, h2⟩ := h
  have h0 := h2 31 hk
  rw [crcBit_top, crcBit_top] at h0
  refine ⟨?_, fun i hi => ?_⟩
  · intro e
    apply h1
    rw [crcBit_low _ _ _ hk, crcBit_low _ _ _ hk, h0, e]
  · by_cases h31 : i < 32
    · obtain ⟨j, rfl⟩ : ∃ j, i = j + 1 := ⟨i - 1, by omega⟩
      have := h2 j (by omega)
      rw [crcBit_low _ _ _ (by omega), crcBit_low _ _ _ (by omega), h0] at this
      exact xor_cancel this
    · rw [BitVec.getLsbD_of_ge _ _ (by omega), BitVec.getLsbD_of_ge _ _ (by omega)]

theorem crcRun_burst : ∀ (m m' : List Bool), m.length = m'.length → m.length ≤ 32 → m ≠ m' → ∀ {s t : BitVec 32},
    m.foldl crcBit s = m'.foldl crcBit t → ∃ k, k < m.length ∧ DiffTop s t k := by
  intro m
  induction m with
  | nil =>
    intro m' hl _ hne
    cases m' with
    | nil => exact absurd rfl hne
    | cons c m' => cases hl
  | cons b m ih =>
    intro m' hl h32 hne s t h
    cases m' with
    | nil => cases hl
    | cons c m' =>
      rw [List.length_cons] at h32
      rw [List.foldl_cons, List.foldl_cons] at h
      by_cases e : m = m'
      · subst e
        obtain ⟨h1, h2⟩ := crcBit_inj (crcRun_inj _ h)
        refine ⟨0, by simp, ?_, fun i hi => h1 i hi⟩
        intro e0
        apply hne
        rw [e0] at h2
        congr 1
        revert h2
        cases t.getLsbD 0 <;> cases b <;> cases c <;> simp
      · obtain ⟨k, hk, hd⟩ := ih m' (by simpa using hl) (by omega) e h
        exact ⟨k + 1, by simp; omega, crcBit_diffTop (by omega) hd⟩

/-- the number with these bits, lowest first -/
def bitsVal : List Bool → Nat
  | [] => 0
  | b :: r => b.toNat + 2 * bitsVal r

theorem bitsVal_lt (l : List Bool) : bitsVal l < 2 ^ l.length := by
  induction l with
  | nil => simp [bitsVal]
  | cons b l ih => rw [bitsVal, List.length_cons, Nat.pow_succ]; cases b <;> simp <;> omega

theorem bitsVal_byte (c : UInt8) (r : List Bool) : bitsVal (byteBits c ++ r) = c.toNat + 256 * bitsVal r := by
  have h : ∀ n : Fin 256, (n.val.testBit 0).toNat + 2 * ((n.val.testBit 1).toNat + 2 * ((n.val.testBit 2).toNat + 2 * ((n.val.testBit 3).toNat +
      2 * ((n.val.testBit 4).toNat + 2 * ((n.val.testBit 5).toNat + 2 * ((n.val.testBit 6).toNat + 2 * (n.val.testBit 7).toNat)))))) = n.val := by decide +kernel
  have := h ⟨c.toNat, c.toNat_lt⟩
  simp only [byteBits, List.cons_append, List.nil_append, bitsVal]
  simp only at this
  omega

theorem bitsVal_bytes (bs : Bytes) : bitsVal (bitsOf bs) = leNat bs := by
  induction bs with
  | nil => rfl
  | cons c cs ih => rw [bitsOf, leNat]; exact (bitsVal_byte c _).trans (by rw [ih])

theorem bitsOf_length (bs : Bytes) : (bitsOf bs).length = 8 * bs.length := by
  induction bs with
  | nil => rfl
  | cons c cs ih => rw [bitsOf, List.length_append, ih, List.length_cons]; simp; omega

theorem bitsVal_testBit (b : Bool) (l : List Bool) (i : Nat) : (bitsVal (b :: l)).testBit (i + 1) = (bitsVal l).testBit i := by
  rw [bitsVal, Nat.testBit_succ]
  congr 1
  cases b <;> simp <;> omega

theorem bitsVal_testBit_zero (b : Bool) (l : List Bool) : (bitsVal (b :: l)).testBit 0 = b := by
  rw [bitsVal, Nat.testBit_zero]
  cases b <;> simp <;> omega

/-- reading bits is reading zeros from the state with the bits added -/
theorem crcRun_zeros (l : List Bool) : ∀ (s : BitVec 32), l.length ≤ 32 →
    l.foldl crcBit s = (List.replicate l.length false).foldl crcBit (s ^^^ BitVec.ofNat 32 (bitsVal l)) := by
  induction l with
  | nil => intro s _; simp [bitsVal]
  | cons b l ih =>
    intro s h
    rw [List.length_cons] at h
    rw [List.foldl_cons, ih _ (by omega), List.length_cons, List.replicate_succ, List.foldl_cons]
    congr 1
    have e0 : (s ^^^ BitVec.ofNat 32 (bitsVal (b :: l))).getLsbD 0 = (s.getLsbD 0 ^^ b) := by
      rw [BitVec.getLsbD_xor, BitVec.getLsbD_ofNat, bitsVal_testBit_zero]; simp
    apply bitvec_ext
    intro i
    rcases Nat.lt_trichotomy i 31 with hi | rfl | hi
    · rw [BitVec.getLsbD_xor, crcBit_low _ _ _ hi, crcBit_low _ _ _ hi, e0, BitVec.getLsbD_xor, BitVec.getLsbD_ofNat, BitVec.getLsbD_ofNat, bitsVal_testBit]
      have h1 : decide (i < 32) = true := by simp; omega
      have h2 : decide (i + 1 < 32) = true := by simp; omega
      rw [h1, h2]
      cases s.getLsbD (i + 1) <;> cases (bitsVal l).testBit i <;> cases s.getLsbD 0 <;> cases b <;> cases crcPoly.getLsbD i <;> rfl
    · rw [BitVec.getLsbD_xor, crcBit_top, crcBit_top, e0, BitVec.getLsbD_ofNat]
      have : (bitsVal l).testBit 31 = false := by
        apply Nat.testBit_lt_two_pow
        exact Nat.lt_of_lt_of_le (bitsVal_lt l) (Nat.pow_le_pow_right (by omega) (by omega))
      rw [this]
      simp
    · rw [BitVec.getLsbD_of_ge _ _ (by omega), BitVec.getLsbD_of_ge _ _ (by omega)]

end Tiles
