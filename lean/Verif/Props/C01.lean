import Verif.Proof.TileKey
/-! C01 — tile keys round-trip and reject out-of-range input. -/
namespace Tiles

/-- the documented ranges of the four key fields -/
def KeyInRange (x y z n : UInt64) : Prop :=
  x.toNat < 2 ^ 21 ∧ y.toNat < 2 ^ 21 ∧ z.toNat < 32 ∧ n.toNat < 2 ^ 17

/-- Out-of-range input throws; in-range input gives a key that decodes to exactly the input. -/
theorem C01_key_round_trip (x y z n : UInt64) :
    (¬ KeyInRange x y z n ∧ tileToKey x y z n = .throw_) ∨
    (KeyInRange x y z n ∧ ∃ k, tileToKey x y z n = .ok k ∧
      keyToTile k = ⟨x.toNat, y.toNat, z.toNat⟩ ∧ keyToN k = n) := by
  by_cases h : KeyInRange x y z n
  · right
    obtain ⟨hx, hy, hz, hn⟩ := id h
    obtain ⟨k, hk, hkn⟩ := tileToKey_ok hx hy (by simpa using hz) hn
    refine ⟨h, k, hk, ?_, ?_⟩
    · rw [keyToTile_nat, hkn]; simp only [keyNat, Tile.mk.injEq]; omega
    · rw [← UInt64.toNat_inj, keyToN_nat, hkn]; simp only [keyNat]; omega
  · exact .inl ⟨h, tileToKey_throw (by simpa [KeyInRange] using h)⟩

/-- No two different (x,y,z,n) share a key. -/
theorem C01_key_injective {x y z n x' y' z' n' k : UInt64}
    (h : tileToKey x y z n = .ok k) (h' : tileToKey x' y' z' n' = .ok k) :
    x = x' ∧ y = y' ∧ z = z' ∧ n = n' := by
  rcases C01_key_round_trip x y z n with ⟨_, hh⟩ | ⟨_, k1, hk1, ht, hn⟩
  · rw [hh] at h; cases h
  rcases C01_key_round_trip x' y' z' n' with ⟨_, hh⟩ | ⟨_, k2, hk2, ht', hn'⟩
  · rw [hh] at h'; cases h'
  rw [h] at hk1; rw [h'] at hk2
  cases hk1; cases hk2
  rw [ht] at ht'
  simp only [Tile.mk.injEq, UInt64.toNat_inj] at ht'
  exact ⟨ht'.1, ht'.2.1, ht'.2.2, hn.symm.trans hn'⟩

/-- Every 64-bit value is the key of some in-range (x,y,z,n): decoding never leaves the domain. -/
theorem C01_key_surjective (k : UInt64) :
    ∃ x y z n, KeyInRange x y z n ∧ tileToKey x y z n = .ok k := by
  have hk := k.toNat_lt
  have e1 : (UInt64.ofNat (k.toNat / 2 ^ 17 % 2 ^ 21)).toNat = k.toNat / 2 ^ 17 % 2 ^ 21 := by
    rw [UInt64.toNat_ofNat']; omega
  have e2 : (UInt64.ofNat (k.toNat / 2 ^ 38 % 2 ^ 21)).toNat = k.toNat / 2 ^ 38 % 2 ^ 21 := by
    rw [UInt64.toNat_ofNat']; omega
  have e3 : (UInt64.ofNat (k.toNat / 2 ^ 59)).toNat = k.toNat / 2 ^ 59 := by
    rw [UInt64.toNat_ofNat']; omega
  have e4 : (UInt64.ofNat (k.toNat % 2 ^ 17)).toNat = k.toNat % 2 ^ 17 := by
    rw [UInt64.toNat_ofNat']; omega
  refine ⟨UInt64.ofNat (k.toNat / 2 ^ 17 % 2 ^ 21), UInt64.ofNat (k.toNat / 2 ^ 38 % 2 ^ 21),
    UInt64.ofNat (k.toNat / 2 ^ 59), UInt64.ofNat (k.toNat % 2 ^ 17), ?_, ?_⟩
  · refine ⟨?_, ?_, ?_, ?_⟩
    · rw [e1]; omega
    · rw [e2]; omega
    · rw [e3]; omega
    · rw [e4]; omega
  · obtain ⟨k', h1, h2⟩ := tileToKey_ok (x := UInt64.ofNat (k.toNat / 2 ^ 17 % 2 ^ 21))
      (y := UInt64.ofNat (k.toNat / 2 ^ 38 % 2 ^ 21)) (z := UInt64.ofNat (k.toNat / 2 ^ 59))
      (n := UInt64.ofNat (k.toNat % 2 ^ 17)) (by rw [e1]; omega) (by rw [e2]; omega)
      (by rw [e3]; omega) (by rw [e4]; omega)
    rw [h1]
    congr 1
    rw [← UInt64.toNat_inj, h2, e1, e2, e3, e4]
    simp only [keyNat]; omega

-- non-vacuity: both branches occur
example : ∃ k, tileToKey 531 342 10 3 = .ok k ∧ keyToTile k = ⟨531, 342, 10⟩ ∧ keyToN k = 3 :=
  ⟨_, rfl, by decide, by decide⟩
example : tileToKey 2097152 0 10 0 = .throw_ := by decide

end Tiles
