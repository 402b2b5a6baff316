import Verif.Props.C12
import Verif.Proof.CrcPeriod
/-! C58 — damage that the checksum of a pack detects, with the CRC-32 the code uses. -/
namespace Tiles
open Spec

theorem crc32_toNat (bs : Bytes) : (crc32 bs).toNat = (crcBytes 0xFFFFFFFF#32 bs ^^^ 0xFFFFFFFF#32).toNat := rfl

theorem bitsOf_append (a b : Bytes) : bitsOf (a ++ b) = bitsOf a ++ bitsOf b := by
  induction a with
  | nil => rfl
  | cons c a ih => rw [List.cons_append, bitsOf, bitsOf, ih, List.append_assoc]

theorem bitsOf_inj : ∀ {a b : Bytes}, a.length = b.length → bitsOf a = bitsOf b → a = b := by
  intro a
  induction a with
  | nil => intro b hl _; cases b with
    | nil => rfl
    | cons c b => cases hl
  | cons c a ih =>
    intro b hl h
    cases b with
    | nil => cases hl
    | cons d b =>
      have h1 := congrArg bitsVal h
      rw [bitsVal_bytes, bitsVal_bytes, leNat, leNat] at h1
      have hc := c.toNat_lt
      have hd := d.toNat_lt
      have e1 : c = d := UInt8.toNat_inj.1 (by omega)
      subst e1
      rw [bitsOf, bitsOf, List.append_cancel_left_eq] at h
      rw [ih (by simpa using hl) h]

/-- all valid packs leave the same remainder -/
theorem valid_residue (sv : Bytes) (h : featurePackValid crc32 sv = true) :
    (bitsOf sv).foldl crcBit 0xFFFFFFFF#32 = (List.replicate 32 false).foldl crcBit 0xFFFFFFFF#32 := by
  obtain ⟨body, rfl⟩ := (C12_valid_iff _ _).1 h
  rw [bitsOf_append, List.foldl_append, ← crcBytes_eq _ body]
  have hl : (bitsOf (leBytes 4 (crc32 body).toNat)).length = 32 := by rw [bitsOf_length]; simp
  rw [crcRun_zeros _ _ (by omega), hl, bitsVal_bytes, leNat_leBytes_of_lt (by have := (crc32 body).toNat_lt; simpa using this), crc32_toNat,
    BitVec.ofNat_toNat, BitVec.setWidth_eq]
  congr 1
  rw [← BitVec.xor_assoc, BitVec.xor_self, BitVec.zero_xor]

/-- Damage within 32 consecutive bits (of a pack of any length) is detected, wherever it is: in the features, in the checksum or across both. -/
theorem C58_burst (sv sv' : Bytes) (pre mid mid' post : List Bool) (hv : featurePackValid crc32 sv = true) (h : bitsOf sv = pre ++ mid ++ post)
    (h' : bitsOf sv' = pre ++ mid' ++ post) (hl : mid.length = mid'.length) (h32 : mid.length ≤ 32) (hne : mid ≠ mid') :
    featurePackValid crc32 sv' = false := by
  rw [Bool.eq_false_iff]
  intro hv'
  have e := (valid_residue sv hv).trans (valid_residue sv' hv').symm
  rw [h, h', List.foldl_append, List.foldl_append, List.foldl_append, List.foldl_append] at e
  obtain ⟨k, _, hd, _⟩ := crcRun_burst mid mid' hl h32 hne (crcRun_inj _ e)
  exact hd rfl

/-- In particular: up to four consecutive bytes may have any other value. -/
theorem C58_four_bytes (pre mid mid' post : Bytes) (hv : featurePackValid crc32 (pre ++ mid ++ post) = true) (hl : mid.length = mid'.length)
    (h4 : mid.length ≤ 4) (hne : mid ≠ mid') : featurePackValid crc32 (pre ++ mid' ++ post) = false := by
  refine C58_burst _ _ (bitsOf pre) (bitsOf mid) (bitsOf mid') (bitsOf post) hv (by rw [bitsOf_append, bitsOf_append])
    (by rw [bitsOf_append, bitsOf_append]) (by rw [bitsOf_length, bitsOf_length, hl]) (by rw [bitsOf_length]; omega) (fun h => hne (bitsOf_inj hl h))

theorem foldl_zeros (n : Nat) (s : BitVec 32) : (List.replicate n false).foldl crcBit s = crcShift^[n] s := by
  induction n generalizing s with
  | zero => rfl
  | succ n ih => rw [List.replicate_succ, List.foldl_cons, ih, Function.iterate_succ_apply]; rfl

theorem crcShift_iter_inj (n : Nat) {s t : BitVec 32} (h : crcShift^[n] s = crcShift^[n] t) : s = t := by
  rw [← foldl_zeros, ← foldl_zeros] at h
  exact crcRun_inj _ h

theorem foldl_diff (l : List Bool) : ∀ s t : BitVec 32, l.foldl crcBit s ^^^ l.foldl crcBit t = crcShift^[l.length] (s ^^^ t) := by
  induction l with
  | nil => intro s t; rfl
  | cons b l ih =>
    intro s t
    rw [List.foldl_cons, List.foldl_cons, ih, List.length_cons, Function.iterate_succ_apply]
    congr 1
    have := crcBit_linear s t b b
    rw [Bool.xor_self] at this
    exact this.symm

theorem crcBit_flip (s t : BitVec 32) (b : Bool) : crcBit s b ^^^ crcBit t (!b) = crcShift ((s ^^^ t) ^^^ 1#32) := by
  have h1 := crcBit_linear s t b (!b)
  have h2 : (b ^^ !b) = true := by cases b <;> rfl
  rw [h2] at h1
  rw [← h1]
  apply bitvec_ext
  intro i
  have e0 : ((s ^^^ t) ^^^ 1#32).getLsbD 0 = !((s ^^^ t).getLsbD 0) := by rw [BitVec.getLsbD_xor]; simp
  have ei : ∀ j, ((s ^^^ t) ^^^ 1#32).getLsbD (j + 1) = (s ^^^ t).getLsbD (j + 1) := by
    intro j
    rw [BitVec.getLsbD_xor]
    simp
  rcases Nat.lt_trichotomy i 31 with hi | rfl | hi
  · rw [crcShift, crcBit_low _ _ _ hi, crcBit_low _ _ _ hi, e0, ei]; simp
  · rw [crcShift, crcBit_top, crcBit_top, e0]; simp
  · rw [BitVec.getLsbD_of_ge _ _ (by omega), BitVec.getLsbD_of_ge _ _ (by omega)]

/-- Two flipped bits are detected wherever they are, if they are less than 2^32 - 1 bits (512 MiB) apart. -/
theorem C58_two_bits (sv sv' : Bytes) (pre mid post : List Bool) (b c : Bool) (hv : featurePackValid crc32 sv = true)
    (h : bitsOf sv = pre ++ b :: mid ++ c :: post) (h' : bitsOf sv' = pre ++ (!b) :: mid ++ (!c) :: post) (hd : mid.length + 1 < 2 ^ 32 - 1) :
    featurePackValid crc32 sv' = false := by
  rw [Bool.eq_false_iff]
  intro hv'
  have e := (valid_residue sv hv).trans (valid_residue sv' hv').symm
  rw [h, h', List.append_assoc, List.append_assoc, List.foldl_append, List.foldl_append, List.foldl_append, List.foldl_append, List.foldl_cons,
    List.foldl_cons, List.foldl_cons, List.foldl_cons] at e
  have e := crcRun_inj _ e
  have e2 := crcBit_flip (mid.foldl crcBit (crcBit (pre.foldl crcBit 0xFFFFFFFF#32) b)) (mid.foldl crcBit (crcBit (pre.foldl crcBit 0xFFFFFFFF#32) (!b))) c
  rw [e, BitVec.xor_self, foldl_diff, crcBit_flip, BitVec.xor_self, BitVec.zero_xor] at e2
  have e3 : crcShift 0#32 = crcShift ((crcShift^[mid.length] (crcShift 1#32)) ^^^ 1#32) := by
    rw [← e2]; decide
  have e4 := crcBit_inj_same e3
  refine crcShift_period 1#32 (.inl rfl) (mid.length + 1) (by omega) (by rw [period]; exact hd) ?_
  rw [Function.iterate_succ_apply]
  have : ∀ x y : BitVec 32, 0#32 = x ^^^ y → x = y := by
    intro x y hxy
    apply bitvec_ext
    intro i
    have := congrArg (·.getLsbD i) hxy
    simp only [BitVec.getLsbD_xor, BitVec.getLsbD_zero] at this
    revert this
    cases x.getLsbD i <;> cases y.getLsbD i <;> simp
  exact this _ _ e4

theorem bitsOf_zeros (n : Nat) : bitsOf (List.replicate n 0) = List.replicate (8 * n) false := by
  induction n with
  | zero => rfl
  | succ n ih => rw [List.replicate_succ, bitsOf, ih, show 8 * (n + 1) = 8 + 8 * n by omega, List.replicate_add]; rfl

/-- A pack whose bytes were never written (all zero) is not valid, up to a size of 512 MiB; four zero bytes are. -/
theorem C58_zeros (n : Nat) (hn : n < 2 ^ 29) : featurePackValid crc32 (List.replicate n 0) = true ↔ n = 4 := by
  constructor
  · intro h
    have h4 : ¬ n < 4 := by
      intro hlt
      rw [C12_short_rejected _ _ (by simpa using hlt)] at h
      cases h
    by_contra hne
    have e := valid_residue _ h
    rw [bitsOf_zeros, foldl_zeros, foldl_zeros] at e
    have e2 : crcShift^[32] (crcShift^[8 * n - 32] 0xFFFFFFFF#32) = crcShift^[32] 0xFFFFFFFF#32 := by
      rw [← Function.iterate_add_apply, show 32 + (8 * n - 32) = 8 * n by omega, e]
    exact crcShift_period _ (.inr rfl) (8 * n - 32) (by omega) (by rw [period]; omega) (crcShift_iter_inj _ e2)
  · rintro rfl; decide +kernel

/-- the published check value of CRC-32: "123456789" ↦ CBF43926 -/
example : crc32 "123456789".toUTF8.toList = 0xCBF43926 := by decide +kernel

/-- a pack and a damaged pack -/
example : featurePackValid crc32 (finishPack crc32 [1, 2, 3]) = true ∧ featurePackValid crc32 [1, 2, 4, 29, 128, 188, 85] = false := by decide +kernel

/-- more damage can go unnoticed: two valid packs of the same length that differ in five bytes -/
example : ∃ a b : Bytes, a.length = b.length ∧ a ≠ b ∧ featurePackValid crc32 a = true ∧ featurePackValid crc32 b = true :=
  ⟨finishPack crc32 [1], finishPack crc32 [2], by decide +kernel, by decide +kernel, by decide +kernel, by decide +kernel⟩

end Tiles
