import Verif.Model.Fixed
import Verif.Spec.Tile
import Verif.Proof.RecordScan
import Mathlib.Data.List.Nodup
import Mathlib.Tactic.Lift
/-! C03 — a box is indexed in exactly the tiles it meets. -/
namespace Tiles
open Spec

/-- a box inside the fixed coordinate range -/
def Box.InRange (b : Box) : Prop :=
  0 ≤ b.min.x ∧ b.min.x ≤ b.max.x ∧ b.max.x ≤ kFixedCoordMax ∧
  0 ≤ b.min.y ∧ b.min.y ≤ b.max.y ∧ b.max.y ≤ kFixedCoordMax

/-- the box contains the point -/
def Box.Has (b : Box) (px py : Nat) : Prop :=
  b.min.x ≤ px ∧ (px : Int) ≤ b.max.x ∧ b.min.y ≤ py ∧ (py : Int) ≤ b.max.y

theorem tileCoord_shift (n d : Nat) (h : n ≤ kFixedCoordMax) :
    tileCoord ((n : Int) >>> d) = n / (4096 * 2 ^ d) := by
  have e1 : ((n : Int) >>> d) = ((n / 2 ^ d : Nat) : Int) := by
    rw [Int.shiftRight_eq_div_pow]; norm_cast
  rw [tileCoord, e1, show ((n / 2 ^ d : Nat) : Int).tdiv (kTileSize : Nat) = ((n / 2 ^ d / 4096 : Nat) : Int) by
    rw [Int.tdiv_eq_ediv_of_nonneg (Int.natCast_nonneg _)]; rfl]
  have : n / 2 ^ d / 4096 < 2 ^ 32 := by
    have h1 : n / 2 ^ d / 4096 ≤ n / 2 ^ d := Nat.div_le_self _ _
    have h2 : n / 2 ^ d ≤ n := Nat.div_le_self _ _
    have : kFixedCoordMax = 2 ^ 32 - 1 := by decide
    omega
  norm_cast
  rw [Int.toNat_natCast, Nat.mod_eq_of_lt this, Nat.div_div_eq_div_mul, Nat.mul_comm]

theorem mem_geoTileRange {x1 y1 x2 y2 z : Nat} {t : Tile} :
    t ∈ geoTileRange x1 y1 x2 y2 z ↔
      t.z = z ∧ x1 ≤ t.x ∧ t.x ≤ x2 ∧ y1 ≤ t.y ∧ t.y ≤ y2 := by
  simp only [geoTileRange, List.mem_flatMap, List.mem_map, List.mem_range'_1]
  constructor
  · rintro ⟨y, ⟨hy, hy'⟩, x, ⟨hx, hx'⟩, rfl⟩
    exact ⟨rfl, hx, by show x ≤ x2; omega, hy, by show y ≤ y2; omega⟩
  · rintro ⟨h1, h2, h3, h4, h5⟩
    exact ⟨t.y, by omega, t.x, by omega, by rw [← h1]⟩

theorem nodup_geoTileRange (x1 y1 x2 y2 z : Nat) : (geoTileRange x1 y1 x2 y2 z).Nodup := by
  unfold geoTileRange
  rw [List.nodup_flatMap]
  constructor
  · intro y _
    exact (List.nodup_range').map (fun a b h => by simpa using h)
  · refine (List.nodup_range' (s := y1) (n := y2 + 1 - y1)).imp ?_
    intro a b hab
    simp only [Function.onFun, List.disjoint_left, List.mem_map, not_exists, not_and]
    rintro t ⟨x, _, rfl⟩ x' _ h
    simp only [Tile.mk.injEq] at h
    exact hab h.2.1.symm

theorem interval_meets (a b k s : Nat) (hs : 0 < s) (hab : a ≤ b) :
    (∃ p, (a ≤ p ∧ p ≤ b) ∧ k * s ≤ p ∧ p < (k + 1) * s) ↔ a / s ≤ k ∧ k ≤ b / s := by
  constructor
  · rintro ⟨p, ⟨h1, h2⟩, h3, h4⟩
    constructor
    · exact Nat.le_of_lt_succ ((Nat.div_lt_iff_lt_mul hs).2 (by have : k.succ = k + 1 := rfl; rw [this]; omega))
    · exact (Nat.le_div_iff_mul_le hs).2 (by omega)
  · rintro ⟨h1, h2⟩
    have h3 := (Nat.le_div_iff_mul_le hs).1 h2
    have h4 := (Nat.div_lt_iff_lt_mul hs).1 (Nat.lt_succ_of_le h1)
    have h5 : k * s < (k + 1) * s := Nat.mul_lt_mul_of_pos_right (by omega) hs
    refine ⟨Nat.max a (k * s), ⟨Nat.le_max_left .., Nat.max_le.2 ⟨hab, h3⟩⟩, Nat.le_max_right .., ?_⟩
    exact Nat.max_lt.2 ⟨h4, h5⟩

/-- `make_tile_range(box, z)` enumerates, without repetition, exactly the zoom-`z` tiles whose
square contains a point of the box; it never throws nor runs into undefined behaviour for z ≤ 20. -/
theorem C03_tile_range_exact (b : Box) (hb : b.InRange) (z : Nat) (hz : z ≤ 20) :
    ∃ ts, makeTileRange b z = .ok ts ∧ ts.Nodup ∧
      ∀ t : Tile, t ∈ ts ↔ t.z = z ∧ ∃ px py, b.Has px py ∧ PointIn t px py := by
  obtain ⟨⟨ax, ay⟩, ⟨bx, by_⟩⟩ := b
  obtain ⟨h1, h2, h3, h4, h5, h6⟩ := hb
  simp only at h1 h2 h3 h4 h5 h6
  lift ax to Nat using h1
  lift ay to Nat using h4
  lift bx to Nat using by omega
  lift by_ to Nat using by omega
  refine ⟨_, by simp only [makeTileRange, deltaZ, if_pos hz, Res.ok_bind, Res.pure_eq]; rfl,
    nodup_geoTileRange .., ?_⟩
  intro t
  simp only [shiftBox, shiftXY]
  rw [mem_geoTileRange, tileCoord_shift _ _ (by omega), tileCoord_shift _ _ (by omega),
    tileCoord_shift _ _ (by omega), tileCoord_shift _ _ (by omega)]
  have hs : 0 < 4096 * 2 ^ (20 - z) := Nat.mul_pos (by decide) (Nat.pow_pos (by decide))
  have hX := interval_meets ax bx t.x (4096 * 2 ^ (20 - z)) hs (by omega)
  have hY := interval_meets ay by_ t.y (4096 * 2 ^ (20 - z)) hs (by omega)
  constructor
  · rintro ⟨hz', a, b, c, d⟩
    obtain ⟨px, ⟨p1, p2⟩, p3, p4⟩ := hX.2 ⟨a, b⟩
    obtain ⟨py, ⟨q1, q2⟩, q3, q4⟩ := hY.2 ⟨c, d⟩
    refine ⟨hz', px, py, ⟨by simpa using p1, by simpa using p2, by simpa using q1, by simpa using q2⟩, ?_⟩
    simp only [PointIn, side, hz']
    exact ⟨p3, p4, q3, q4⟩
  · rintro ⟨hz', px, py, ⟨p1, p2, q1, q2⟩, hin⟩
    simp only [PointIn, side, hz'] at hin
    obtain ⟨p3, p4, q3, q4⟩ := hin
    simp only [Nat.cast_le] at p1 p2 q1 q2
    have a := hX.1 ⟨px, ⟨by exact_mod_cast p1, by exact_mod_cast p2⟩, p3, p4⟩
    have b := hY.1 ⟨py, ⟨by exact_mod_cast q1, by exact_mod_cast q2⟩, q3, q4⟩
    exact ⟨hz', a.1, a.2, b.1, b.2⟩

/-- All enumerated tiles exist (`x, y < 2^z`), so their keys never throw. -/
theorem C03_tile_range_valid (b : Box) (hb : b.InRange) (z : Nat) (hz : z ≤ 20)
    (ts : List Tile) (h : makeTileRange b z = .ok ts) (t : Tile) (ht : t ∈ ts) : t.Valid := by
  obtain ⟨ts', h', -, hm⟩ := C03_tile_range_exact b hb z hz
  rw [h] at h'; cases h'
  obtain ⟨hz', px, py, ⟨_, p2, _, q2⟩, p3, _, q3, _⟩ := (hm t).1 ht
  obtain ⟨_, _, h3, _, _, h6⟩ := hb
  have hside : 2 ^ t.z * side t.z = 2 ^ 32 := by
    rw [side, hz', Nat.mul_left_comm, ← Nat.pow_add, show z + (20 - z) = 20 by omega]
    norm_num
  have hmax : kFixedCoordMax = 2 ^ 32 - 1 := by decide
  have hpos : 0 < side t.z := by
    rcases Nat.eq_zero_or_pos (side t.z) with h0 | h0
    · rw [h0] at hside; simp at hside
    · exact h0
  constructor
  · by_contra hlt
    have : 2 ^ t.z * side t.z ≤ t.x * side t.z := Nat.mul_le_mul_right _ (by omega)
    omega
  · by_contra hlt
    have : 2 ^ t.z * side t.z ≤ t.y * side t.z := Nat.mul_le_mul_right _ (by omega)
    omega

-- non-vacuity: a box that crosses a tile edge at zoom 10 (tile side 4194304)
example : (⟨⟨4194303, 0⟩, ⟨4194304, 5⟩⟩ : Box).InRange ∧
    makeTileRange ⟨⟨4194303, 0⟩, ⟨4194304, 5⟩⟩ 10 = .ok [⟨0, 0, 10⟩, ⟨1, 0, 10⟩] := by
  constructor
  · unfold Box.InRange; decide
  · decide

end Tiles
