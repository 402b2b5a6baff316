import Verif.Proof.RecordScan
/-! C02 — key order is (z,y,x,n) order; the cursor scan visits exactly the wanted records. -/
namespace Tiles
open Spec

/-- lexicographic order on (z,y,x,n) -/
def LexLt (z y x n z' y' x' n' : Nat) : Prop :=
  z < z' ∨ z = z' ∧ (y < y' ∨ y = y' ∧ (x < x' ∨ x = x' ∧ n < n'))

/-- Integer order of keys is lexicographic order of (z, y, x, n). -/
theorem C02_key_order {x y z n x' y' z' n' k k' : UInt64}
    (h : tileToKey x y z n = .ok k) (h' : tileToKey x' y' z' n' = .ok k') :
    k < k' ↔ LexLt z.toNat y.toNat x.toNat n.toNat z'.toNat y'.toNat x'.toNat n'.toNat := by
  have aux : ∀ {x y z n k : UInt64}, tileToKey x y z n = .ok k →
      (x.toNat < 2 ^ 21 ∧ y.toNat < 2 ^ 21 ∧ z.toNat < 2 ^ 5 ∧ n.toNat < 2 ^ 17) ∧
      k.toNat = keyNat x.toNat y.toNat z.toNat n.toNat := by
    intro x y z n k h
    by_cases hr : (x.toNat < 2 ^ 21 ∧ y.toNat < 2 ^ 21 ∧ z.toNat < 2 ^ 5 ∧ n.toNat < 2 ^ 17)
    · obtain ⟨k1, h1, h2⟩ := tileToKey_ok hr.1 hr.2.1 hr.2.2.1 hr.2.2.2
      rw [h] at h1; cases h1
      exact ⟨hr, h2⟩
    · rw [tileToKey_throw hr] at h; cases h
  obtain ⟨⟨a1, a2, a3, a4⟩, e⟩ := aux h
  obtain ⟨⟨b1, b2, b3, b4⟩, e'⟩ := aux h'
  rw [UInt64.lt_iff_toNat_lt, e, e']
  simp only [keyNat, LexLt]
  omega

/-- For every table content (any 64-bit keys, sorted as LMDB stores them) and every existing
query tile, the scan calls back for exactly the zoom-10 entries whose tile shares area with the
query, in key order, each once — including the whole-database query (zoom 0). -/
theorem C02_scan_exact {V : Type} (db : List (UInt64 × V)) (hs : DbSorted db)
    (q : Tile) (hq : q.Valid) (hz : q.z ≤ 20) :
    scanQuery db q = .ok ((db.filter (fun e =>
        decide ((keyToTile e.1).z = 10 ∧ Meet (keyToTile e.1) q))).map
      (fun e => (keyToTile e.1, e.2))) := by
  obtain ⟨hqx, hqy⟩ := hq
  unfold scanQuery
  simp only
  by_cases hlt : 10 < q.z
  · have hb : q.boundsOnZ kTileDefaultIndexZoomLvl = ⟨q.x / 2 ^ (q.z - 10), q.y / 2 ^ (q.z - 10),
        q.x / 2 ^ (q.z - 10) + 1, q.y / 2 ^ (q.z - 10) + 1⟩ := by
      simp [Tile.boundsOnZ, kTileDefaultIndexZoomLvl, hlt]
    have hpow : 2 ^ q.z = 2 ^ 10 * 2 ^ (q.z - 10) := by rw [← Nat.pow_add]; congr 1; omega
    have hx10 : q.x / 2 ^ (q.z - 10) < 2 ^ 10 := by
      rw [Nat.div_lt_iff_lt_mul (Nat.pow_pos (by decide))]; omega
    have hy10 : q.y / 2 ^ (q.z - 10) < 2 ^ 10 := by
      rw [Nat.div_lt_iff_lt_mul (Nat.pow_pos (by decide))]; omega
    rw [hb, scanRows_eq hs _ (by simp) (by simp only; omega) _ _ (by simp only; omega)]
    congr 2
    apply List.filter_congr
    intro e _
    rw [Bool.eq_iff_iff]
    simp only [inRows, Bool.and_eq_true, beq_iff_eq, decide_eq_true_eq]
    unfold Meet AncOrSelf
    constructor
    · rintro ⟨⟨⟨⟨h1, h2⟩, h3⟩, h4⟩, h5⟩
      refine ⟨h1, .inl ⟨by omega, ?_, ?_⟩⟩ <;> rw [h1] <;> omega
    · rintro ⟨h1, ⟨h2, h3, h4⟩ | ⟨h2, h3, h4⟩⟩
      · rw [h1] at h3 h4; omega
      · omega
  · have hle : q.z ≤ 10 := by omega
    have hb : q.boundsOnZ kTileDefaultIndexZoomLvl = ⟨q.x * 2 ^ (10 - q.z), q.y * 2 ^ (10 - q.z),
        (q.x + 1) * 2 ^ (10 - q.z), (q.y + 1) * 2 ^ (10 - q.z)⟩ := by
      simp [Tile.boundsOnZ, kTileDefaultIndexZoomLvl, hlt]
    have hp : 0 < 2 ^ (10 - q.z) := Nat.pow_pos (by decide)
    have hpow : 2 ^ q.z * 2 ^ (10 - q.z) = 2 ^ 10 := by rw [← Nat.pow_add]; congr 1; omega
    have hx10 : (q.x + 1) * 2 ^ (10 - q.z) ≤ 2 ^ 10 := by
      rw [← hpow]; exact Nat.mul_le_mul_right _ hqx
    have hy10 : (q.y + 1) * 2 ^ (10 - q.z) ≤ 2 ^ 10 := by
      rw [← hpow]; exact Nat.mul_le_mul_right _ hqy
    have hmx : q.x * 2 ^ (10 - q.z) ≤ (q.x + 1) * 2 ^ (10 - q.z) :=
      Nat.mul_le_mul_right _ (by omega)
    have hmy : q.y * 2 ^ (10 - q.z) ≤ (q.y + 1) * 2 ^ (10 - q.z) :=
      Nat.mul_le_mul_right _ (by omega)
    rw [hb, scanRows_eq hs _ hmx (by simp only; omega) _ _ (by simp only; omega)]
    congr 2
    apply List.filter_congr
    intro e _
    rw [Bool.eq_iff_iff]
    simp only [inRows, Bool.and_eq_true, beq_iff_eq, decide_eq_true_eq]
    unfold Meet AncOrSelf
    have hX := div_eq_iff_bounds (keyToTile e.1).x q.x (2 ^ (10 - q.z)) hp
    have hY := div_eq_iff_bounds (keyToTile e.1).y q.y (2 ^ (10 - q.z)) hp
    constructor
    · rintro ⟨⟨⟨⟨h1, h2⟩, h3⟩, h4⟩, h5⟩
      refine ⟨h1, .inr ⟨by omega, ?_, ?_⟩⟩ <;> rw [h1] <;> symm
      · exact hX.2 ⟨h4, h5⟩
      · exact hY.2 ⟨h2, by omega⟩
    · rintro ⟨h1, ⟨h2, h3, h4⟩ | ⟨h2, h3, h4⟩⟩
      · have hz10 : q.z = 10 := by omega
        rw [h1, hz10, Nat.sub_self, Nat.pow_zero, Nat.div_one] at h3 h4
        rw [hz10, h3, h4]; simp [h1]
      · rw [h1] at h3 h4
        have := hX.1 h3.symm
        have := hY.1 h4.symm
        exact ⟨⟨⟨⟨h1, this.1⟩, by omega⟩, by omega⟩, by omega⟩

-- non-vacuity: a table with a record in each of two rows and one at another zoom level
example : ∃ a b c, tileToKey 531 342 10 0 = .ok a ∧ tileToKey 530 343 10 1 = .ok b ∧
    tileToKey 0 0 11 0 = .ok c ∧ DbSorted [(a, "p"), (b, "q"), (c, "r")] ∧
    (⟨265, 171, 9⟩ : Tile).Valid ∧
    scanQuery [(a, "p"), (b, "q"), (c, "r")] ⟨265, 171, 9⟩
      = .ok [(⟨531, 342, 10⟩, "p"), (⟨530, 343, 10⟩, "q")] :=
  ⟨_, _, _, rfl, rfl, rfl, by unfold DbSorted; decide, by decide, by decide⟩

end Tiles
