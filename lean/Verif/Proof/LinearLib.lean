import Verif.Props.C64
/-! A map library that is linear near the equator: it is as good as C64 asks for (an error of 512 units), and its values are easy to calculate (for examples). -/
namespace Tiles
open Spec Real

theorem arsinh_tan_near {θ : ℝ} (h0 : 0 ≤ θ) (h1 : θ ≤ 1 / 1000) : θ - θ ^ 2 ≤ arsinh (tan θ) ∧ arsinh (tan θ) ≤ θ + θ ^ 2 := by
  have hpi := Real.pi_gt_three
  have hθ : θ < π / 2 := by linarith
  have htan : θ ≤ tan θ := Real.le_tan h0 hθ
  constructor
  · have hs : (1 : ℝ) ≤ √(1 + θ ^ 2) := Real.one_le_sqrt.2 (by nlinarith)
    have h2 : Real.log (1 + θ) ≤ arsinh θ := by
      rw [Real.arsinh]
      exact Real.log_le_log (by linarith) (by linarith)
    have h3 := Real.one_sub_inv_le_log_of_pos (show 0 < 1 + θ by linarith)
    have h4 : θ - θ ^ 2 ≤ 1 - (1 + θ)⁻¹ := by
      have h5 : (1 + θ)⁻¹ ≤ 1 - θ + θ ^ 2 := by
        rw [inv_le_iff_one_le_mul₀ (by linarith)]
        nlinarith [pow_nonneg h0 3]
      linarith
    have h6 := Real.arsinh_le_arsinh.2 htan
    linarith
  · have h2 : arsinh (tan θ) ≤ tan θ := by
      have := Real.arsinh_le_arsinh.2 (Real.self_le_sinh_iff.2 (h0.trans htan))
      rwa [Real.arsinh_sinh] at this
    have hc := Real.one_sub_sq_div_two_le_cos (x := θ)
    have hs := Real.sin_le h0
    have hcpos : 0 < cos θ := by nlinarith
    have h3 : tan θ ≤ θ + θ ^ 2 := by
      rw [Real.tan_eq_sin_div_cos, div_le_iff₀ hcpos]
      nlinarith [mul_le_mul_of_nonneg_left hc (show 0 ≤ θ + θ ^ 2 by nlinarith), pow_nonneg h0 3, pow_nonneg h0 4, pow_nonneg h0 2]
    linarith

/-- near the equator the map is almost linear -/
theorem mapY_near {p : LatLng} (h0 : 0 ≤ p.lat) (h1 : p.lat ≤ 9 / 200) : |mapY p - (1 / 2 - p.lat / 360)| * 2 ^ 32 ≤ 511 := by
  have hpi := Real.pi_gt_three
  have hpi' := Real.pi_lt_d2
  have hpos := Real.pi_pos
  have hθ0 : 0 ≤ p.lat * (π / 180) := by positivity
  have hθ1 : p.lat * (π / 180) ≤ 9 / 200 * (π / 180) := mul_le_mul_of_nonneg_right h1 (by positivity)
  have hθ2 : p.lat * (π / 180) ≤ 1 / 1000 := by linarith
  obtain ⟨h2, h3⟩ := arsinh_tan_near hθ0 hθ2
  have e : mapY p - (1 / 2 - p.lat / 360) = (p.lat * (π / 180) - arsinh (tan (p.lat * (π / 180)))) / π / 2 := by
    rw [mapY]
    field_simp
    ring
  rw [e, abs_div, abs_div, abs_of_pos hpos, abs_of_pos (show (0 : ℝ) < 2 by norm_num)]
  have h4 : |p.lat * (π / 180) - arsinh (tan (p.lat * (π / 180)))| ≤ (p.lat * (π / 180)) ^ 2 := by
    rw [abs_le]; constructor <;> linarith
  have h5 : (p.lat * (π / 180)) ^ 2 ≤ (9 / 200 * (π / 180)) ^ 2 := pow_le_pow_left₀ hθ0 hθ1 2
  have h6 : |p.lat * (π / 180) - arsinh (tan (p.lat * (π / 180)))| / π ≤ (9 / 200 / 180) ^ 2 * π := by
    rw [div_le_iff₀ hpos]
    refine (h4.trans h5).trans (le_of_eq ?_)
    ring
  have h7 : (9 / 200 / 180 : ℝ) ^ 2 * π ≤ (9 / 200 / 180) ^ 2 * 3.15 := mul_le_mul_of_nonneg_left hpi'.le (by positivity)
  nlinarith

open Classical in
noncomputable def linPx (p : LatLng) : XY :=
  ⟨⌊mapX p * 2 ^ 32⌋, if 0 ≤ p.lat ∧ p.lat ≤ 9 / 200 then ⌊(1 / 2 - p.lat / 360) * 2 ^ 32⌋ else ⌊mapY p * 2 ^ 32⌋⟩

theorem lin_lib : GeoLib 512 linPx where
  nonneg := fun p hp => by
    obtain ⟨h1, h2⟩ := C64_lib.nonneg p hp
    refine ⟨h1, ?_⟩
    rw [linPx]
    dsimp only
    split
    · rename_i h
      exact Int.floor_nonneg.2 (mul_nonneg (by linarith [h.2]) (by positivity))
    · exact h2
  x := fun p hp => (C64_lib.x p hp).trans (by norm_num)
  y := fun p hp => by
    rw [linPx]
    dsimp only
    split
    · rename_i h
      have h1 := mapY_near h.1 h.2
      have h2 := Int.floor_le ((1 / 2 - p.lat / 360) * 2 ^ 32)
      have h3 := Int.lt_floor_add_one ((1 / 2 - p.lat / 360) * 2 ^ 32)
      rw [abs_sub_comm] at h1
      rw [← abs_of_pos (show (0 : ℝ) < 2 ^ 32 by positivity), ← abs_mul] at h1
      rw [abs_le] at h1 ⊢
      constructor <;> nlinarith
    · exact (C64_lib.y p hp).trans (by norm_num)

end Tiles
