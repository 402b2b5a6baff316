import Verif.Proof.Crc
import Verif.Proof.CrcPows
import Mathlib.Dynamics.PeriodicPts.Defs
import Mathlib.Tactic.NormNum.Prime
/-! The period of the CRC-32 register without input: 2^32 - 1, computed with powers of the (linear) transition as bit matrices. -/
namespace Tiles
open Spec

/-- the register without input -/
def crcShift (s : BitVec 32) : BitVec 32 := crcBit s false

theorem crcBit_linear (s t : BitVec 32) (b c : Bool) : crcBit (s ^^^ t) (b ^^ c) = crcBit s b ^^^ crcBit t c := by
  apply bitvec_ext
  intro i
  rcases Nat.lt_trichotomy i 31 with hi | rfl | hi
  · rw [BitVec.getLsbD_xor, crcBit_low _ _ _ hi, crcBit_low _ _ _ hi, crcBit_low _ _ _ hi, BitVec.getLsbD_xor, BitVec.getLsbD_xor]
    cases s.getLsbD (i + 1) <;> cases t.getLsbD (i + 1) <;> cases s.getLsbD 0 <;> cases t.getLsbD 0 <;> cases b <;> cases c <;> cases crcPoly.getLsbD i <;> rfl
  · rw [BitVec.getLsbD_xor, crcBit_top, crcBit_top, crcBit_top, BitVec.getLsbD_xor]
    cases s.getLsbD 0 <;> cases t.getLsbD 0 <;> cases b <;> cases c <;> rfl
  · rw [BitVec.getLsbD_of_ge _ _ (by omega), BitVec.getLsbD_of_ge _ _ (by omega)]

theorem crcShift_linear (s t : BitVec 32) : crcShift (s ^^^ t) = crcShift s ^^^ crcShift t := crcBit_linear s t false false

/-- a bit matrix (columns) applied to a vector, from bit `i` on -/
def natApply : List Nat → Nat → Nat → Nat
  | [], _, _ => 0
  | c :: cs, i, v => (c * (v / 2 ^ i % 2)) ^^^ natApply cs (i + 1) v

/-- the columns represent the map -/
def Columns (m : List Nat) (f : BitVec 32 → BitVec 32) : Prop := ∀ v : BitVec 32, natApply m 0 v.toNat = (f v).toNat

theorem natApply_cols (f : BitVec 32 → BitVec 32) (hf : ∀ v w, f (v ^^^ w) = f v ^^^ f w) : ∀ (n i : Nat) (m : List Nat) (v : BitVec 32), i + n = 32 →
    m = (List.range' i n).map (fun j => (f (BitVec.twoPow 32 j)).toNat) → natApply m i v.toNat = (f ((v >>> i) <<< i)).toNat := by
  have h0 : f 0#32 = 0#32 := by have := hf 0#32 0#32; simpa using this
  intro n
  induction n with
  | zero =>
    intro i m v hi hm
    subst hm
    have : (v >>> i) <<< i = 0#32 := by
      apply bitvec_ext; intro j
      rw [BitVec.getLsbD_shiftLeft]
      by_cases h : j < i
      · simp [h]
      · rw [BitVec.getLsbD_ushiftRight, BitVec.getLsbD_of_ge _ _ (by omega)]; simp
    rw [this, h0]
    rfl
  | succ n ih =>
    intro i m v hi hm
    rw [List.range'_succ, List.map_cons] at hm
    subst hm
    rw [natApply, ih (i + 1) _ v (by omega) rfl]
    have e2 : (v >>> i) <<< i = (if v.getLsbD i then BitVec.twoPow 32 i else 0#32) ^^^ ((v >>> (i + 1)) <<< (i + 1)) := by
      apply bitvec_ext
      intro j
      rw [BitVec.getLsbD_xor, BitVec.getLsbD_shiftLeft, BitVec.getLsbD_ushiftRight, BitVec.getLsbD_shiftLeft, BitVec.getLsbD_ushiftRight]
      by_cases h32 : j < 32
      · rcases Nat.lt_trichotomy j i with h | rfl | h
        · rw [show decide (j < i) = true by simp [h], show decide (j < i + 1) = true by simp; omega]
          cases v.getLsbD i <;> simp <;> omega
        · rw [show j + (j - j) = j by omega]
          cases h : v.getLsbD j <;> simp [h, h32]
        · rw [show i + (j - i) = j by omega, show i + 1 + (j - (i + 1)) = j by omega]
          rw [show decide (j < i) = false by simp; omega, show decide (j < i + 1) = false by simp; omega]
          have h1 : (BitVec.twoPow 32 i).getLsbD j = false := by rw [BitVec.getLsbD_twoPow]; simp; omega
          have h2 : ¬ j = i := by omega
          cases v.getLsbD i <;> simp [h2, h32]
      · rw [show decide (j < 32) = false by simpa using h32, BitVec.getLsbD_of_ge (if v.getLsbD i then BitVec.twoPow 32 i else 0#32) _ (by omega)]; simp
    rw [e2, hf, BitVec.toNat_xor]
    congr 1
    have hb : v.toNat / 2 ^ i % 2 = (v.getLsbD i).toNat := by
      rw [← BitVec.testBit_toNat, Nat.testBit_eq_decide_div_mod_eq]
      rcases Nat.mod_two_eq_zero_or_one (v.toNat / 2 ^ i) with h | h <;> rw [h] <;> rfl
    rw [hb]
    cases v.getLsbD i <;> simp [h0]

theorem columns_of (f : BitVec 32 → BitVec 32) (hf : ∀ v w, f (v ^^^ w) = f v ^^^ f w) (m : List Nat)
    (hm : m = (List.range' 0 32).map (fun j => (f (BitVec.twoPow 32 j)).toNat)) : Columns m f := by
  intro v
  rw [natApply_cols f hf 32 0 m v rfl hm]
  simp

/-- the second matrix is the square of the first: its columns are the images of the columns -/
def checkSquare (m n : List Nat) : Bool := m.map (natApply m 0) == n

def checkSquares : List (List Nat) → Bool
  | m :: n :: r => checkSquare m n && checkSquares (n :: r)
  | _ => true

theorem columns_square {f : BitVec 32 → BitVec 32} (hf : ∀ v w, f (v ^^^ w) = f v ^^^ f w) {m n : List Nat}
    (hm : m = (List.range' 0 32).map (fun j => (f (BitVec.twoPow 32 j)).toNat)) (h : checkSquare m n = true) :
    n = (List.range' 0 32).map (fun j => (f (f (BitVec.twoPow 32 j))).toNat) := by
  have hc := columns_of f hf m hm
  rw [checkSquare, beq_iff_eq] at h
  rw [← h]
  conv => lhs; rw [hm]
  rw [List.map_map]
  apply List.map_congr_left
  intro j _
  simp only [Function.comp]
  rw [← hm]
  exact hc _

theorem iterate_linear {f : BitVec 32 → BitVec 32} (hf : ∀ v w, f (v ^^^ w) = f v ^^^ f w) (n : Nat) : ∀ v w, f^[n] (v ^^^ w) = f^[n] v ^^^ f^[n] w := by
  induction n with
  | zero => intro v w; rfl
  | succ n ih => intro v w; rw [Function.iterate_succ_apply, Function.iterate_succ_apply, Function.iterate_succ_apply, hf, ih]

/-- continue with the number computed -/
def forceNat (n : Nat) (k : Nat → Nat) : Nat := Nat.rec (k 0) (fun m _ => k (m + 1)) n

theorem forceNat_eq (n : Nat) (k : Nat → Nat) : forceNat n k = k n := by cases n <;> rfl

/-- the power with the given binary digits (lowest first) -/
def natPow : List Bool → List (List Nat) → Nat → Nat
  | b :: r, m :: ms, v => forceNat (cond b (natApply m 0 v) v) (natPow r ms)
  | _, _, v => v

theorem natPow_eq {f : BitVec 32 → BitVec 32} (hf : ∀ v w, f (v ^^^ w) = f v ^^^ f w) : ∀ (l : List Bool) (ms : List (List Nat)) (k : Nat) (v : BitVec 32),
    l.length ≤ ms.length → (∀ m ∈ ms.head?, m = (List.range' 0 32).map (fun j => (f^[k] (BitVec.twoPow 32 j)).toNat)) → checkSquares ms = true →
    natPow l ms v.toNat = (f^[k * bitsVal l] v).toNat := by
  intro l
  induction l with
  | nil => intro ms k v _ _ _; cases ms <;> simp [natPow, bitsVal]
  | cons b l ih =>
    intro ms k v hl h1 h2
    cases ms with
    | nil => simp at hl
    | cons m ms =>
      have hm := h1 m (by simp)
      have hstep : cond b (natApply m 0 v.toNat) v.toNat = ((if b then f^[k] v else v).toNat) := by
        cases b
        · rfl
        · exact columns_of (f^[k]) (iterate_linear hf k) m hm v
      rw [natPow, forceNat_eq, hstep, ih ms (k + k) _ (by simpa using hl)]
      · congr 1
        rw [bitsVal]
        cases b
        · simp only [Bool.false_eq_true, if_false, Bool.toNat_false]
          rw [show (k + k) * bitsVal l = k * (0 + 2 * bitsVal l) by ring]
        · simp only [if_true, Bool.toNat_true]
          rw [← Function.iterate_add_apply, show (k + k) * bitsVal l + k = k * (1 + 2 * bitsVal l) by ring]
      · intro n hn
        cases ms with
        | nil => simp at hn
        | cons n' ms =>
          simp only [List.head?_cons, Option.mem_def, Option.some.injEq] at hn
          subst hn
          rw [checkSquares, Bool.and_eq_true] at h2
          rw [columns_square (iterate_linear hf k) hm h2.1]
          simp only [Function.iterate_add_apply]
      · cases ms with
        | nil => rfl
        | cons n ms => rw [checkSquares, Bool.and_eq_true] at h2; exact h2.2

theorem crcPows_ok : checkSquares crcPows = true := by decide +kernel

theorem crcPow (l : List Bool) (hl : l.length ≤ 32) (v : BitVec 32) : natPow l crcPows v.toNat = (crcShift^[bitsVal l] v).toNat := by
  rw [natPow_eq crcShift_linear l crcPows 1 v (by simpa [crcPows] using hl) ?_ crcPows_ok, Nat.one_mul]
  decide +kernel

/-- the binary digits of a number below 2^32 -/
def digits32 (n : Nat) : List Bool := (List.range 32).map n.testBit

def period : Nat := 2 ^ 32 - 1

theorem crcPow_period (v : BitVec 32) (hv : v = 1#32 ∨ v = 0xFFFFFFFF#32) :
    crcShift^[period] v = v ∧ ∀ p ∈ [3, 5, 17, 257, 65537], crcShift^[period / p] v ≠ v := by
  have e0 : bitsVal (digits32 period) = period := by decide +kernel
  have ep : ∀ p ∈ [3, 5, 17, 257, 65537], bitsVal (digits32 (period / p)) = period / p := by decide +kernel
  have c : ∀ v ∈ [1, 0xFFFFFFFF], natPow (digits32 period) crcPows v = v ∧
      ∀ p ∈ [3, 5, 17, 257, 65537], natPow (digits32 (period / p)) crcPows v ≠ v := by decide +kernel
  have hm : v.toNat ∈ [1, 0xFFFFFFFF] := by rcases hv with rfl | rfl <;> decide
  refine ⟨?_, fun p hp h => ?_⟩
  · have := (c _ hm).1
    rw [crcPow _ (by simp [digits32]), e0] at this
    exact BitVec.eq_of_toNat_eq this
  · refine (c _ hm).2 p hp ?_
    rw [crcPow _ (by simp [digits32]), ep p hp, h]

theorem prime_of_period {p : Nat} (hp : p.Prime) (h : p ∣ period) : p ∈ [3, 5, 17, 257, 65537] := by
  have e : period = 3 * 5 * 17 * 257 * 65537 := by decide
  rw [e, hp.dvd_mul, hp.dvd_mul, hp.dvd_mul, hp.dvd_mul] at h
  have h3 : Nat.Prime 3 := by norm_num
  have h5 : Nat.Prime 5 := by norm_num
  have h17 : Nat.Prime 17 := by norm_num
  have h257 : Nat.Prime 257 := by norm_num
  have h65537 : Nat.Prime 65537 := by norm_num
  rw [Nat.prime_dvd_prime_iff_eq hp h3, Nat.prime_dvd_prime_iff_eq hp h5, Nat.prime_dvd_prime_iff_eq hp h17, Nat.prime_dvd_prime_iff_eq hp h257,
    Nat.prime_dvd_prime_iff_eq hp h65537] at h
  simp only [List.mem_cons, List.not_mem_nil, or_false]
  omega

/-- no shorter cycle -/
theorem crcShift_period (v : BitVec 32) (hv : v = 1#32 ∨ v = 0xFFFFFFFF#32) (d : Nat) (h0 : 0 < d) (hd : d < period) : crcShift^[d] v ≠ v := by
  intro h
  obtain ⟨hN, hp⟩ := crcPow_period v hv
  have h1 : Function.IsPeriodicPt crcShift d v := h
  have h2 : Function.IsPeriodicPt crcShift period v := hN
  have hle := h1.minimalPeriod_le h0
  obtain ⟨k, hk⟩ := h2.minimalPeriod_dvd
  have hpos : 0 < Function.minimalPeriod crcShift v := h1.minimalPeriod_pos h0
  have hk1 : k ≠ 1 := by rintro rfl; omega
  obtain ⟨p, pp, c, rfl⟩ := Nat.exists_prime_and_dvd hk1
  have hpm : p ∈ [3, 5, 17, 257, 65537] := prime_of_period pp ⟨Function.minimalPeriod crcShift v * c, by rw [hk]; ring⟩
  apply hp p hpm
  have e : period / p = Function.minimalPeriod crcShift v * c := by
    rw [hk, show Function.minimalPeriod crcShift v * (p * c) = p * (Function.minimalPeriod crcShift v * c) by ring]
    exact Nat.mul_div_cancel_left _ pp.pos
  rw [e]
  exact (Function.isPeriodicPt_minimalPeriod crcShift v).mul_const c

end Tiles
