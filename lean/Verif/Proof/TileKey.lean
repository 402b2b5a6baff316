import Verif.Model.TileKey
import Mathlib.Tactic.NormNum
namespace Tiles

theorem xmask_nat : kTileKeyXMask.toNat = 2 ^ 21 - 1 := by decide
theorem ymask_nat : kTileKeyYMask.toNat = 2 ^ 21 - 1 := by decide
theorem zmask_nat : kTileKeyZMask.toNat = 2 ^ 5 - 1 := by decide
theorem nmask_nat : kTileKeyNMask.toNat = 2 ^ 17 - 1 := by decide

theorem and_mask_eq_iff (a m : UInt64) (k : Nat) (hm : m.toNat = 2 ^ k - 1) :
    (a &&& m) = a ↔ a.toNat < 2 ^ k := by
  rw [← UInt64.toNat_inj, UInt64.toNat_and, hm, Nat.and_two_pow_sub_one_eq_mod]
  constructor
  · intro h; rw [← h]; exact Nat.mod_lt _ (Nat.pow_pos (by decide))
  · exact Nat.mod_eq_of_lt

/-- disjoint `or` is addition -/
theorem or_shift_add (a b i : Nat) (hb : b < 2 ^ i) : (a * 2 ^ i) ||| b = a * 2 ^ i + b := by
  have := Nat.two_pow_add_eq_or_of_lt hb a
  rw [Nat.mul_comm, this]

def keyNat (x y z n : Nat) : Nat := z * 2 ^ 59 + (y * 2 ^ 38 + (x * 2 ^ 17 + n))

theorem tileToKey_ok {x y z n : UInt64} (hx : x.toNat < 2 ^ 21) (hy : y.toNat < 2 ^ 21)
    (hz : z.toNat < 2 ^ 5) (hn : n.toNat < 2 ^ 17) :
    ∃ k, tileToKey x y z n = .ok k ∧ k.toNat = keyNat x.toNat y.toNat z.toNat n.toNat := by
  have ex := (and_mask_eq_iff x _ 21 xmask_nat).2 hx
  have ey := (and_mask_eq_iff y _ 21 ymask_nat).2 hy
  have ez := (and_mask_eq_iff z _ 5 zmask_nat).2 hz
  have en := (and_mask_eq_iff n _ 17 nmask_nat).2 hn
  simp only [tileToKey, ex, ey, ez, en, beq_self_eq_true, Bool.and_true, verify_true, Res.ok_bind,
    Res.pure_eq]
  refine ⟨_, rfl, ?_⟩
  simp only [UInt64.toNat_or, UInt64.toNat_shiftLeft, kTileKeyZShift, kTileKeyYShift,
    kTileKeyXShift, kTileKeyNShift, UInt64.reduceToNat, Nat.shiftLeft_eq, keyNat]
  norm_num
  rw [Nat.mod_eq_of_lt (by omega), Nat.mod_eq_of_lt (by omega), Nat.mod_eq_of_lt (by omega)]
  have h1 := or_shift_add x.toNat n.toNat 17 hn
  have h2 := or_shift_add y.toNat (x.toNat * 2 ^ 17 + n.toNat) 38 (by omega)
  have h3 := or_shift_add z.toNat (y.toNat * 2 ^ 38 + (x.toNat * 2 ^ 17 + n.toNat)) 59 (by omega)
  norm_num at h1 h2 h3
  rw [Nat.or_assoc, Nat.or_assoc, h1, h2, h3]

theorem tileToKey_throw {x y z n : UInt64}
    (h : ¬ (x.toNat < 2 ^ 21 ∧ y.toNat < 2 ^ 21 ∧ z.toNat < 2 ^ 5 ∧ n.toNat < 2 ^ 17)) :
    tileToKey x y z n = .throw_ := by
  have : ((x &&& kTileKeyXMask) == x && (y &&& kTileKeyYMask) == y &&
    (z &&& kTileKeyZMask) == z && (n &&& kTileKeyNMask) == n) = false := by
    rw [Bool.eq_false_iff]
    intro hh
    apply h
    simp only [Bool.and_eq_true, beq_iff_eq, and_assoc] at hh
    obtain ⟨a, b, c, d⟩ := hh
    exact ⟨(and_mask_eq_iff x _ 21 xmask_nat).1 a, (and_mask_eq_iff y _ 21 ymask_nat).1 b,
      (and_mask_eq_iff z _ 5 zmask_nat).1 c, (and_mask_eq_iff n _ 17 nmask_nat).1 d⟩
  simp only [tileToKey, this, verify_false, Res.throw_bind]

theorem keyToTile_nat (k : UInt64) :
    keyToTile k = ⟨k.toNat / 2 ^ 17 % 2 ^ 21, k.toNat / 2 ^ 38 % 2 ^ 21, k.toNat / 2 ^ 59 % 2 ^ 5⟩ := by
  simp only [keyToTile, UInt64.toNat_toUInt32, UInt64.toNat_and, UInt64.toNat_shiftRight,
    xmask_nat, ymask_nat, zmask_nat, Nat.and_two_pow_sub_one_eq_mod, kTileKeyZShift,
    kTileKeyYShift, kTileKeyXShift, UInt64.reduceToNat, Nat.shiftRight_eq_div_pow]
  norm_num
  omega

theorem keyToN_nat (k : UInt64) : (keyToN k).toNat = k.toNat % 2 ^ 17 := by
  simp only [keyToN, UInt64.toNat_and, UInt64.toNat_shiftRight, nmask_nat,
    Nat.and_two_pow_sub_one_eq_mod, kTileKeyNShift, UInt64.reduceToNat]
  norm_num

end Tiles
