import Verif.Spec.Mercator
import Verif.Props.C62
import Mathlib.Analysis.Calculus.MeanValue
import Mathlib.Analysis.SpecialFunctions.Trigonometric.ArctanDeriv
import Mathlib.Analysis.SpecialFunctions.Trigonometric.Bounds
import Mathlib.Analysis.Real.Pi.Bounds
import Mathlib.Analysis.Complex.ExponentialBounds
/-! C64 — places are where maps expect them: the Mercator projection, the numbering of tiles, and coordinates in tiles. -/
namespace Tiles
open Spec Real

/-! ### the map -/

theorem cos_pos_of_lat {a : ℝ} (h : |a| < π / 2) : 0 < cos a := cos_pos_of_mem_Ioo (by rw [abs_lt] at h; exact h)

/-- The formula of the wiki: `y = (1 - ln(tan φ + 1 / cos φ) / π) / 2`. -/
theorem C64_formula (p : LatLng) (h : |p.lat| < 90) :
    mapY p = (1 - log (tan (p.lat * (π / 180)) + 1 / cos (p.lat * (π / 180))) / π) / 2 := by
  have hpi := pi_pos
  have ha : |p.lat * (π / 180)| < π / 2 := by
    rw [abs_mul, abs_of_pos (by positivity : 0 < π / 180)]
    calc |p.lat| * (π / 180) < 90 * (π / 180) := mul_lt_mul_of_pos_right h (by positivity)
      _ = π / 2 := by ring
  have hc := cos_pos_of_lat ha
  rw [mapY, arsinh]
  have : √(1 + tan (p.lat * (π / 180)) ^ 2) = 1 / cos (p.lat * (π / 180)) := by
    rw [sqrt_eq_iff_mul_self_eq (by positivity) (by positivity), tan_eq_sin_div_cos]
    have := sin_sq_add_cos_sq (p.lat * (π / 180))
    generalize p.lat * (π / 180) = a at *
    field_simp
    linarith
  rw [this]

theorem maxLat_lt : maxLat < 90 := by
  have hpi := pi_pos
  rw [maxLat]
  have := arctan_lt_pi_div_two (sinh π)
  calc arctan (sinh π) * (180 / π) < π / 2 * (180 / π) := mul_lt_mul_of_pos_right this (by positivity)
    _ = 90 := by field_simp; norm_num

/-- further to the north is further up -/
theorem mapY_anti {p q : LatLng} (h1 : -90 < p.lat) (h2 : q.lat < 90) (h : p.lat < q.lat) : mapY q < mapY p := by
  have hpi := pi_pos
  have h3 : tan (p.lat * (π / 180)) < tan (q.lat * (π / 180)) := by
    apply strictMonoOn_tan
    · constructor
      · calc -(π / 2) = -90 * (π / 180) := by ring
          _ < _ := mul_lt_mul_of_pos_right h1 (by positivity)
      · calc p.lat * (π / 180) < 90 * (π / 180) := mul_lt_mul_of_pos_right (by linarith) (by positivity)
          _ = π / 2 := by ring
    · constructor
      · calc -(π / 2) = -90 * (π / 180) := by ring
          _ < _ := mul_lt_mul_of_pos_right (by linarith) (by positivity)
      · calc q.lat * (π / 180) < 90 * (π / 180) := mul_lt_mul_of_pos_right h2 (by positivity)
          _ = π / 2 := by ring
    · exact mul_lt_mul_of_pos_right h (by positivity)
  have h4 := div_lt_div_of_pos_right (arsinh_lt_arsinh.2 h3) hpi
  rw [mapY, mapY]
  linarith

theorem mapY_max (lng : ℝ) : mapY ⟨maxLat, lng⟩ = 0 ∧ mapY ⟨-maxLat, lng⟩ = 1 ∧ mapY ⟨0, lng⟩ = 1 / 2 := by
  have hpi := pi_pos
  have : arctan (sinh π) * (180 / π) * (π / 180) = arctan (sinh π) := by field_simp
  refine ⟨?_, ?_, ?_⟩
  · rw [mapY, maxLat, this, tan_arctan, arsinh_sinh, div_self hpi.ne']; norm_num
  · rw [mapY, maxLat]
    dsimp only
    rw [neg_mul, this, tan_neg, tan_arctan, arsinh_neg, arsinh_sinh, neg_div, div_self hpi.ne']; norm_num
  · simp [mapY]

/-- places on the map have positions on the map -/
theorem onMap_pos {p : LatLng} (h : OnMap p) : 0 ≤ mapX p ∧ mapX p ≤ 1 ∧ 0 ≤ mapY p ∧ mapY p ≤ 1 := by
  obtain ⟨h1, h2⟩ := h
  rw [abs_le] at h1 h2
  have hm := maxLat_lt
  obtain ⟨m1, m2, _⟩ := mapY_max p.lng
  refine ⟨?_, ?_, ?_, ?_⟩
  · rw [mapX]; apply div_nonneg <;> linarith
  · rw [mapX, div_le_one (by norm_num)]; linarith
  · rcases h2.2.lt_or_eq with h | h
    · rw [← m1]; exact (mapY_anti (p := p) (q := ⟨maxLat, p.lng⟩) (by linarith) hm h).le
    · rw [← m1, ← h]
  · rcases h2.1.lt_or_eq with h | h
    · rw [← m2]; exact (mapY_anti (p := ⟨-maxLat, p.lng⟩) (q := p) (show -90 < -maxLat by linarith) (by linarith) h).le
    · rw [← m2, h]

/-! ### positions -/

theorem clamp_near {e v : ℝ} {k : Int} (he : 1 ≤ e) (hk : 0 ≤ k) (h : |(k : ℝ) - v * 2 ^ 32| ≤ e) (hv : v ≤ 1) :
    0 ≤ min k kFixedCoordMax ∧ min k kFixedCoordMax < 2 ^ 32 ∧ |((min k kFixedCoordMax : Int) : ℝ) - v * 2 ^ 32| ≤ e := by
  have hmax : (kFixedCoordMax : Int) = 2 ^ 32 - 1 := by decide
  rw [hmax]
  refine ⟨le_min hk (by norm_num), (min_le_right _ _).trans_lt (by norm_num), ?_⟩
  rcases le_total k (2 ^ 32 - 1) with hle | hle
  · rw [min_eq_left hle]; exact h
  · rw [min_eq_right hle]
    rw [abs_le] at h ⊢
    have : ((2 ^ 32 - 1 : Int) : ℝ) ≤ k := by exact_mod_cast hle
    push_cast at this ⊢
    constructor
    · linarith
    · linarith

/-- Every place on the map has a position in the range of the coordinates, at most `e` units from its position on the map. -/
theorem C64_near {e : ℝ} (he : 1 ≤ e) {px : LatLng → XY} (hl : GeoLib e px) (p : LatLng) (hp : OnMap p) :
    ∃ x y : Nat, latlngToFixed px p = ⟨x, y⟩ ∧ x < 2 ^ 32 ∧ y < 2 ^ 32 ∧ |(x : ℝ) - mapX p * 2 ^ 32| ≤ e ∧ |(y : ℝ) - mapY p * 2 ^ 32| ≤ e := by
  obtain ⟨m1, m2, m3, m4⟩ := onMap_pos hp
  obtain ⟨n1, n2⟩ := hl.nonneg p hp
  obtain ⟨x1, x2, x3⟩ := clamp_near he n1 (hl.x p hp) m2
  obtain ⟨y1, y2, y3⟩ := clamp_near he n2 (hl.y p hp) m4
  rw [latlngToFixed]
  obtain ⟨x, hx⟩ := Int.eq_ofNat_of_zero_le x1
  obtain ⟨y, hy⟩ := Int.eq_ofNat_of_zero_le y1
  rw [hx] at x2 x3 ⊢
  rw [hy] at y2 y3 ⊢
  exact ⟨x, y, rfl, by omega, by omega, by simpa using x3, by simpa using y3⟩

/-- places keep their order on the map, unless they are within `2 e` units of each other -/
theorem C64_order {e : ℝ} (he : 1 ≤ e) {px : LatLng → XY} (hl : GeoLib e px) (p q : LatLng) (hp : OnMap p) (hq : OnMap q) :
    (mapX p * 2 ^ 32 + 2 * e < mapX q * 2 ^ 32 → (latlngToFixed px p).x < (latlngToFixed px q).x) ∧
    (mapY p * 2 ^ 32 + 2 * e < mapY q * 2 ^ 32 → (latlngToFixed px p).y < (latlngToFixed px q).y) := by
  obtain ⟨x, y, h1, _, _, h2, h3⟩ := C64_near he hl p hp
  obtain ⟨x', y', h1', _, _, h2', h3'⟩ := C64_near he hl q hq
  rw [h1, h1']
  rw [abs_le] at h2 h3 h2' h3'
  constructor
  · intro h
    have : (x : ℝ) < x' := by linarith
    show (x : Int) < x'
    exact_mod_cast this
  · intro h
    have : (y : ℝ) < y' := by linarith
    show (y : Int) < y'
    exact_mod_cast this

theorem side_pow' {z : Nat} (hz : z ≤ 20) : side z * 2 ^ z = 2 ^ 32 := by
  rw [side, Nat.mul_assoc, ← pow_add, Nat.sub_add_cancel (by omega)]; norm_num

theorem side_pow {z : Nat} (hz : z ≤ 20) : (side z : ℝ) * 2 ^ z = 2 ^ 32 := by exact_mod_cast side_pow' hz

theorem side_pos (z : Nat) : (0 : ℝ) < side z := by rw [side]; positivity

/-- The position of a place lies in the tile of its zoom level that the usual numbering gives, unless the place is within `e` units of the border of the tile. -/
theorem C64_tile {e : ℝ} (he : 1 ≤ e) {px : LatLng → XY} (hl : GeoLib e px) (p : LatLng) (hp : OnMap p) (q : Tile) (hz : q.z ≤ 20) (hin : WellInside e q p) :
    slippyTile q.z p = q ∧ ∃ x y : Nat, latlngToFixed px p = ⟨x, y⟩ ∧ PointIn q x y := by
  obtain ⟨w1, w2, w3, w4⟩ := hin
  obtain ⟨m1, m2, m3, m4⟩ := onMap_pos hp
  have hs := side_pos q.z
  have hes : 0 ≤ e / side q.z := by positivity
  constructor
  · have h1 : ⌊mapX p * 2 ^ q.z⌋₊ = q.x := (Nat.floor_eq_iff (by positivity)).2 ⟨by linarith, by linarith⟩
    have h2 : ⌊mapY p * 2 ^ q.z⌋₊ = q.y := (Nat.floor_eq_iff (by positivity)).2 ⟨by linarith, by linarith⟩
    rw [slippyTile, h1, h2]
  · obtain ⟨x, y, h1, _, _, h2, h3⟩ := C64_near he hl p hp
    refine ⟨x, y, h1, ?_⟩
    rw [abs_le, ← side_pow hz] at h2 h3
    have key : ∀ (v : ℝ) (a k : Nat), a + e / side q.z ≤ v * 2 ^ q.z → v * 2 ^ q.z + e / side q.z < a + 1 →
        -e ≤ k - v * (side q.z * 2 ^ q.z) ∧ k - v * (side q.z * 2 ^ q.z) ≤ e → a * side q.z ≤ k ∧ k < (a + 1) * side q.z := by
      intro v a k k1 k2 k3
      have e1 : e / side q.z * side q.z = e := div_mul_cancel₀ _ hs.ne'
      have k4 := mul_le_mul_of_nonneg_right k1 hs.le
      have k5 := mul_lt_mul_of_pos_right k2 hs
      rw [add_mul, e1] at k4 k5
      have e2 : v * ((side q.z : ℝ) * 2 ^ q.z) = v * 2 ^ q.z * side q.z := by ring
      rw [e2] at k3
      constructor
      · have : (a : ℝ) * side q.z ≤ k := by linarith
        exact_mod_cast this
      · have : (k : ℝ) < (a + 1) * side q.z := by linarith
        exact_mod_cast this
    obtain ⟨a1, a2⟩ := key _ _ _ w1 w2 h2
    obtain ⟨b1, b2⟩ := key _ _ _ w3 w4 h3
    exact ⟨a1, a2, b1, b2⟩

/-- ... and only a tile that the place lies in, or misses by no more than `e` units. -/
theorem C64_tile_only {e : ℝ} (he : 1 ≤ e) {px : LatLng → XY} (hl : GeoLib e px) (p : LatLng) (hp : OnMap p) (q : Tile) (hz : q.z ≤ 20) (x y : Nat)
    (hxy : latlngToFixed px p = ⟨x, y⟩) (hin : PointIn q x y) :
    q.x - e / side q.z ≤ mapX p * 2 ^ q.z ∧ mapX p * 2 ^ q.z < q.x + 1 + e / side q.z ∧
    q.y - e / side q.z ≤ mapY p * 2 ^ q.z ∧ mapY p * 2 ^ q.z < q.y + 1 + e / side q.z := by
  obtain ⟨i1, i2, i3, i4⟩ := hin
  have hs := side_pos q.z
  obtain ⟨x', y', h1, _, _, h2, h3⟩ := C64_near he hl p hp
  rw [hxy] at h1
  injection h1 with hx hy
  have hx : x = x' := by exact_mod_cast hx
  have hy : y = y' := by exact_mod_cast hy
  subst x' y'
  rw [abs_le, ← side_pow hz] at h2 h3
  have key : ∀ (v : ℝ) (a k : Nat), a * side q.z ≤ k → k < (a + 1) * side q.z → -e ≤ k - v * (side q.z * 2 ^ q.z) ∧ k - v * (side q.z * 2 ^ q.z) ≤ e →
      a - e / side q.z ≤ v * 2 ^ q.z ∧ v * 2 ^ q.z < a + 1 + e / side q.z := by
    intro v a k k1 k2 k3
    have k1 : (a : ℝ) * side q.z ≤ k := by exact_mod_cast k1
    have k2 : (k : ℝ) < (a + 1) * side q.z := by exact_mod_cast k2
    have e1 : e / side q.z * side q.z = e := div_mul_cancel₀ _ hs.ne'
    have e2 : v * ((side q.z : ℝ) * 2 ^ q.z) = v * 2 ^ q.z * side q.z := by ring
    rw [e2] at k3
    constructor
    · rw [← mul_le_mul_iff_left₀ hs, sub_mul, e1]; linarith
    · rw [← mul_lt_mul_iff_left₀ hs, add_mul _ _ (side q.z : ℝ), e1]; linarith
  obtain ⟨a1, a2⟩ := key _ _ _ i1 i2 h2
  obtain ⟨b1, b2⟩ := key _ _ _ i3 i4 h3
  exact ⟨a1, a2, b1, b2⟩

/-- The eastern border of the map (180 degrees) belongs to the last column of tiles, at every zoom level, although its position is that of the column after it. -/
theorem C64_antimeridian {e : ℝ} (he : 1 ≤ e) (he' : e ≤ 2 ^ 12) {px : LatLng → XY} (hl : GeoLib e px) (p : LatLng) (hp : OnMap p) (h : p.lng = 180) (z : Nat) (hz : z ≤ 20) :
    (slippyTile z p).x = 2 ^ z ∧ ∃ x y : Nat, latlngToFixed px p = ⟨x, y⟩ ∧ x / side z = 2 ^ z - 1 := by
  have hx : mapX p = 1 := by rw [mapX, h]; norm_num
  constructor
  · rw [slippyTile, hx, one_mul]
    have : ((2 ^ z : Nat) : ℝ) = 2 ^ z := by push_cast; rfl
    show ⌊(2 : ℝ) ^ z⌋₊ = 2 ^ z
    rw [← this, Nat.floor_natCast]
  · obtain ⟨x, y, h1, h2, _, h3, _⟩ := C64_near he hl p hp
    refine ⟨x, y, h1, ?_⟩
    rw [hx, abs_le] at h3
    have hlow : 2 ^ 32 ≤ x + 2 ^ 12 := by
      have : ((2 ^ 32 : Nat) : ℝ) ≤ (x + 2 ^ 12 : Nat) := by push_cast; linarith
      exact_mod_cast this
    have hs := side_pow' hz
    have hs12 : 2 ^ 12 ≤ side z := by rw [side]; have := Nat.one_le_two_pow (n := 20 - z); omega
    obtain ⟨n, hn⟩ : ∃ n, 2 ^ z = n + 1 := ⟨2 ^ z - 1, by have := Nat.one_le_two_pow (n := z); omega⟩
    rw [hn] at hs ⊢
    rw [Nat.add_sub_cancel]
    rw [Nat.mul_add, Nat.mul_one] at hs
    apply Nat.div_eq_of_lt_le
    · rw [Nat.mul_comm]; omega
    · rw [Nat.add_mul, Nat.one_mul, Nat.mul_comm n]; omega

theorem gd_lipschitz (a b : ℝ) : |arctan (sinh a) - arctan (sinh b)| ≤ |a - b| := by
  have hd : ∀ x : ℝ, HasDerivAt (fun x => arctan (sinh x)) (1 / (1 + sinh x ^ 2) * cosh x) x := fun x => (hasDerivAt_sinh x).arctan
  have hb : ∀ x : ℝ, ‖1 / (1 + sinh x ^ 2) * cosh x‖ ≤ 1 := by
    intro x
    have h1 := one_le_cosh x
    have h2 : 1 + sinh x ^ 2 = cosh x ^ 2 := by rw [sinh_sq]; ring
    rw [h2, norm_eq_abs, abs_of_nonneg (by positivity)]
    have h3 : 1 / cosh x ^ 2 * cosh x = 1 / cosh x := by field_simp
    rw [h3, div_le_one (by positivity)]
    exact h1
  have := Convex.norm_image_sub_le_of_norm_hasDerivWithin_le (s := Set.univ) (fun x _ => (hd x).hasDerivWithinAt) (fun x _ => hb x) convex_univ (Set.mem_univ b)
    (Set.mem_univ a)
  simpa [norm_eq_abs] using this

/-- The other way: a place on the map is found again from its position, up to `e` units (360 / 2^32 degrees each) and the error of the library. -/
theorem C64_back {e d : ℝ} (he : 1 ≤ e) {px : LatLng → XY} (hl : GeoLib e px) {M : Type} (mx my : Int → M) (inv : M → M → LatLng)
    (hb : GeoBack d mx my inv) (p : LatLng) (hp : OnMap p) :
    |(fixedToLatlng mx my inv (latlngToFixed px p)).lng - p.lng| ≤ e * (360 / 2 ^ 32) + d ∧
    |(fixedToLatlng mx my inv (latlngToFixed px p)).lat - p.lat| ≤ e * (360 / 2 ^ 32) + d := by
  have hpi := pi_pos
  obtain ⟨x, y, h1, _, _, h2, h3⟩ := C64_near he hl p hp
  have b1 := hb.lng x y
  have b2 := hb.lat x y
  rw [h1, fixedToLatlng]
  generalize inv (mx _) (my _) = r at b1 b2 ⊢
  simp only [Int.cast_natCast] at b1 b2
  constructor
  · have e1 : p.lng = mapX p * 2 ^ 32 * (360 / 2 ^ 32) - 180 := by rw [mapX]; ring
    have e2 : |(x : ℝ) * 360 / 2 ^ 32 - 180 - p.lng| ≤ e * (360 / 2 ^ 32) := by
      rw [e1, show (x : ℝ) * 360 / 2 ^ 32 - 180 - (mapX p * 2 ^ 32 * (360 / 2 ^ 32) - 180) = (x - mapX p * 2 ^ 32) * (360 / 2 ^ 32) by ring, abs_mul,
        abs_of_pos (by norm_num : (0 : ℝ) < 360 / 2 ^ 32)]
      exact mul_le_mul_of_nonneg_right h2 (by norm_num)
    have := abs_add_le (r.lng - (x * 360 / 2 ^ 32 - 180)) (x * 360 / 2 ^ 32 - 180 - p.lng)
    rw [sub_add_sub_cancel] at this
    linarith
  · have hlat : |p.lat| < 90 := hp.2.trans_lt maxLat_lt
    rw [abs_lt] at hlat
    have e1 : p.lat = arctan (sinh (π * (1 - 2 * mapY p))) * (180 / π) := by
      have : π * (1 - 2 * mapY p) = arsinh (tan (p.lat * (π / 180))) := by rw [mapY]; field_simp; ring
      rw [this, sinh_arsinh, arctan_tan]
      · field_simp
      · calc -(π / 2) = -90 * (π / 180) := by ring
          _ < _ := mul_lt_mul_of_pos_right hlat.1 (by positivity)
      · calc p.lat * (π / 180) < 90 * (π / 180) := mul_lt_mul_of_pos_right hlat.2 (by positivity)
          _ = π / 2 := by ring
    have e2 : |arctan (sinh (π * (1 - 2 * (y / 2 ^ 32)))) * (180 / π) - p.lat| ≤ e * (360 / 2 ^ 32) := by
      rw [e1, ← sub_mul, abs_mul, abs_of_pos (by positivity : 0 < 180 / π)]
      have g := gd_lipschitz (π * (1 - 2 * (y / 2 ^ 32))) (π * (1 - 2 * mapY p))
      have g2 : |π * (1 - 2 * ((y : ℝ) / 2 ^ 32)) - π * (1 - 2 * mapY p)| = |(y : ℝ) - mapY p * 2 ^ 32| * (2 * π / 2 ^ 32) := by
        rw [show π * (1 - 2 * ((y : ℝ) / 2 ^ 32)) - π * (1 - 2 * mapY p) = -((y - mapY p * 2 ^ 32) * (2 * π / 2 ^ 32)) by ring, abs_neg, abs_mul,
          abs_of_pos (by positivity : 0 < 2 * π / 2 ^ 32)]
      rw [g2] at g
      have g3 := mul_le_mul_of_nonneg_right h3 (by positivity : 0 ≤ 2 * π / 2 ^ 32)
      have g4 := mul_le_mul_of_nonneg_right (g.trans g3) (by positivity : 0 ≤ 180 / π)
      refine g4.trans (le_of_eq ?_)
      field_simp
      ring
    have := abs_add_le (r.lat - arctan (sinh (π * (1 - 2 * (y / 2 ^ 32)))) * (180 / π)) (arctan (sinh (π * (1 - 2 * (y / 2 ^ 32)))) * (180 / π) - p.lat)
    rw [sub_add_sub_cancel] at this
    linarith

/-- the condition on the way back can be met -/
noncomputable example : GeoBack 0 (fun x : Int => ((x : ℝ) * 360 / 2 ^ 32 - 180)) (fun y : Int => arctan (sinh (π * (1 - 2 * ((y : ℝ) / 2 ^ 32)))) * (180 / π))
    (fun a b => { lng := a, lat := b }) := ⟨fun x y => by simp, fun x y => by simp⟩

/-- every place up to 85 degrees north and south is on the map -/
theorem C64_on_map (p : LatLng) (h1 : |p.lng| ≤ 180) (h2 : |p.lat| ≤ 85) : OnMap p := by
  refine ⟨h1, h2.trans ?_⟩
  have hpi := pi_pos
  have hpi3 : 3.1415 < π := pi_gt_d4
  rw [maxLat]
  have hsinh : 11.5 ≤ sinh π := by
    have e1 : (23.1 : ℝ) ≤ exp π := by
      have g1 : exp 3.1415 ≤ exp π := exp_le_exp.2 hpi3.le
      have g2 : exp (3.1415 : ℝ) = exp 1 ^ 3 * exp 0.1415 := by
        rw [← exp_nat_mul, ← exp_add]; norm_num
      have g3 : (1.1515 : ℝ) ≤ exp 0.1415 := by
        have := quadratic_le_exp_of_nonneg (x := 0.1415) (by norm_num)
        norm_num at this ⊢
        linarith
      have g4 : (20.08 : ℝ) ≤ exp 1 ^ 3 := by
        have := exp_one_gt_d9
        calc (20.08 : ℝ) ≤ 2.7182818283 ^ 3 := by norm_num
          _ ≤ exp 1 ^ 3 := pow_le_pow_left₀ (by norm_num) this.le 3
      have g5 : (20.08 : ℝ) * 1.1515 ≤ exp 1 ^ 3 * exp 0.1415 := mul_le_mul g4 g3 (by norm_num) (by positivity)
      rw [g2] at g1
      have g6 : (23.1 : ℝ) ≤ 20.08 * 1.1515 := by norm_num
      exact g6.trans (g5.trans g1)
    have e2 : exp (-π) ≤ 0.1 := by
      rw [exp_neg, inv_le_comm₀ (exp_pos _) (by norm_num)]
      norm_num at e1 ⊢
      linarith
    rw [sinh_eq]
    norm_num at e1 e2 ⊢
    linarith
  have h3 : tan (85 * (π / 180)) ≤ sinh π := by
    have g1 : 85 * (π / 180) = π / 2 - π / 36 := by ring
    rw [g1, tan_pi_div_two_sub]
    have g2 : π / 36 < tan (π / 36) := lt_tan (by positivity) (by linarith)
    calc (tan (π / 36))⁻¹ ≤ (π / 36)⁻¹ := inv_anti₀ (by positivity) g2.le
      _ ≤ 11.5 := by rw [inv_le_comm₀ (by positivity) (by norm_num)]; norm_num at hpi3 ⊢; linarith
      _ ≤ sinh π := hsinh
  have h4 : 85 * (π / 180) ≤ arctan (sinh π) := by
    rw [← arctan_tan (x := 85 * (π / 180)) (by linarith) (by linarith)]
    exact arctan_mono h3
  have h5 := mul_le_mul_of_nonneg_right h4 (by positivity : 0 ≤ 180 / π)
  have h6 : 85 * (π / 180) * (180 / π) = 85 := by field_simp
  linarith

/-- a library as assumed exists -/
theorem C64_lib : GeoLib 1 (fun p => ⟨⌊mapX p * 2 ^ 32⌋, ⌊mapY p * 2 ^ 32⌋⟩) := by
  have h : ∀ v : ℝ, |((⌊v⌋ : Int) : ℝ) - v| ≤ 1 := by
    intro v
    have h1 := Int.floor_le v
    have h2 := Int.lt_floor_add_one v
    rw [abs_le]
    constructor <;> linarith
  refine ⟨fun p hp => ?_, fun p _ => h _, fun p _ => h _⟩
  obtain ⟨m1, _, m3, _⟩ := onMap_pos hp
  exact ⟨Int.floor_nonneg.2 (by positivity), Int.floor_nonneg.2 (by positivity)⟩

/-- the place at 0 degrees north and east is the corner of tiles 1/1, its position the corner's -/
example : latlngToFixed (fun p => ⟨⌊mapX p * 2 ^ 32⌋, ⌊mapY p * 2 ^ 32⌋⟩) ⟨0, 0⟩ = ⟨2 ^ 31, 2 ^ 31⟩ ∧ slippyTile 1 ⟨0, 0⟩ = ⟨1, 1, 1⟩ := by
  have h1 : mapX ⟨0, 0⟩ = 1 / 2 := by norm_num [mapX]
  have h2 : mapY ⟨0, 0⟩ = 1 / 2 := (mapY_max 0).2.2
  rw [latlngToFixed, slippyTile, h1, h2]
  have h3 : (1 / 2 : ℝ) * 2 ^ 32 = ((2 ^ 31 : Int) : ℝ) := by norm_num
  have h4 : (1 / 2 : ℝ) * 2 ^ 1 = ((1 : Nat) : ℝ) := by norm_num
  rw [h3, h4]
  simp only [Int.floor_intCast, Nat.floor_natCast]
  exact ⟨by decide, trivial⟩

/-- the place at a given share of the width and height of the map -/
noncomputable def C64_place (u v : ℝ) : LatLng := ⟨arctan (sinh (π * (1 - 2 * v))) * (180 / π), u * 360 - 180⟩

theorem C64_place_at (u v : ℝ) : mapX (C64_place u v) = u ∧ mapY (C64_place u v) = v := by
  have hpi := pi_pos
  constructor
  · rw [mapX, C64_place]; ring
  · have : arctan (sinh (π * (1 - 2 * v))) * (180 / π) * (π / 180) = arctan (sinh (π * (1 - 2 * v))) := by field_simp
    rw [mapY, C64_place, this, tan_arctan, arsinh_sinh]
    field_simp
    ring

theorem C64_place_on {u v : ℝ} (hu : 0 ≤ u) (hu' : u ≤ 1) (hv : 0 ≤ v) (hv' : v ≤ 1) : OnMap (C64_place u v) := by
  have hpi := pi_pos
  rw [OnMap, C64_place, maxLat, abs_le, abs_le]
  refine ⟨⟨by dsimp only; linarith, by dsimp only; linarith⟩, ?_, ?_⟩
  · rw [← neg_mul, ← arctan_neg, ← sinh_neg]
    apply mul_le_mul_of_nonneg_right _ (by positivity)
    apply arctan_mono
    rw [sinh_le_sinh]
    nlinarith
  · apply mul_le_mul_of_nonneg_right _ (by positivity)
    apply arctan_mono
    rw [sinh_le_sinh]
    nlinarith

/-- the place in the middle of a tile is well inside -/
example : slippyTile 2 (C64_place (5 / 8) (5 / 8)) = ⟨2, 2, 2⟩ := by
  obtain ⟨h1, h2⟩ := C64_place_at (5 / 8) (5 / 8)
  refine (C64_tile le_rfl C64_lib (C64_place (5 / 8) (5 / 8)) (C64_place_on (by norm_num) (by norm_num) (by norm_num) (by norm_num)) ⟨2, 2, 2⟩ (by decide) ?_).1
  rw [WellInside, h1, h2]
  norm_num [side]

/-! ### what a client sees -/

/-- how far a coordinate in a tile is from the exact one -/
theorem rel_near {e v : ℝ} {z x a : Nat} (hz : z ≤ 20) (h : |(x : ℝ) - v * 2 ^ 32| ≤ e) :
    |((((x : Int) / 2 ^ (20 - z) - (a : Int) * 4096 : Int)) : ℝ) - (v * 2 ^ z - a) * 4096| ≤ e / 2 ^ (20 - z) + 1 := by
  have hp : (0 : ℝ) < 2 ^ (20 - z) := by positivity
  have hpi : (0 : Int) < 2 ^ (20 - z) := by positivity
  have hpow : (2 : ℝ) ^ 32 = 4096 * 2 ^ z * 2 ^ (20 - z) := by
    rw [mul_assoc, ← pow_add, Nat.add_sub_cancel' hz]; norm_num
  have f1 : (((x : Int) / 2 ^ (20 - z) : Int) : ℝ) * 2 ^ (20 - z) ≤ x := by
    have := Int.ediv_mul_le (x : Int) hpi.ne'
    exact_mod_cast this
  have f2 : (x : ℝ) < (((x : Int) / 2 ^ (20 - z) : Int) : ℝ) * 2 ^ (20 - z) + 2 ^ (20 - z) := by
    have := Int.lt_ediv_add_one_mul_self (x : Int) hpi
    rw [add_mul, one_mul] at this
    exact_mod_cast this
  generalize (x : Int) / 2 ^ (20 - z) = k at *
  rw [hpow] at h
  push_cast
  generalize (2 : ℝ) ^ (20 - z) = D at *
  rw [show ((k : ℝ) - a * 4096 - (v * 2 ^ z - a) * 4096) = k - v * (4096 * 2 ^ z) by ring]
  have e1 : v * (4096 * 2 ^ z * D) = v * (4096 * 2 ^ z) * D := by ring
  rw [e1] at h
  generalize v * (4096 * 2 ^ z) = w at *
  rw [abs_le] at h ⊢
  have e2 : e / D * D = e := div_mul_cancel₀ _ hp.ne'
  constructor
  · rw [← mul_le_mul_iff_left₀ hp, neg_mul, add_mul, one_mul, e2, sub_mul]; linarith
  · rw [← mul_le_mul_iff_left₀ hp, add_mul, one_mul, e2, sub_mul]; linarith

/-- After an import, a client that asks for the tile in which a node lies - by the usual numbering of tiles - sees it there: with its id and tags, in its layer, and at its
place in the tile, exactly to one unit and the error of the projection. -/
theorem C64_served {ι : Type} (env : ImportEnv ι) (coast osm : Bool) (hsrt : SortsByKey env.srt)
    (hm : ∀ l z, (env.rd (env.mkMask l) z).length = l.length) (hw : 0 < env.workers)
    (hin : ∀ fs i, env.loads coast osm fs i → (env.decOf i).length ≤ 2 ^ 64 ∧ (∀ x ∈ fs.flatten, Importable env.mkMask (env.decOf i) plainOf x) ∧ fs.flatten.length < 2 ^ 32)
    (runs : List (List String)) (hacts : changes runs = [.load coast osm, .pack, .tiles]) (a b : TileDb ι) (hr : Imports (importParts env) runs a b)
    (hsmall : SmallPacks b.features) (hsize : b.pf.reopen.size < 2 ^ 64) (features : List (UInt64 × Bytes)) (hdb : EntriesOf b.features features)
    (ctx : GetCtx) (hctx : ∃ m, env.ctxOf b.info = { ctx with maxPrepared := m }) (hrd : ctx.rd = env.rd) (hdec : ctx.dec = env.decOf b.info) (hc : Serving ctx 10)
    -- the libraries
    (e : Int) (he : 0 ≤ e) (he' : e ≤ 2 ^ 20) (inter : Box → List Line → List Line) (clipper : List Line → Box → Option (List PolyNode))
    (correct : List Polygon → List Polygon) (hl : ClipLib e inter clipper correct) (hclip : ctx.clip = clipGeometry inter clipper correct)
    (simplify : Nat → Line → Line) (hagg : ∀ z fs out, aggregateLineFeatures simplify z fs = .ok out → ctx.aggregate z fs = out)
    (g : ℝ) (hg : 1 ≤ g) (px : LatLng → XY) (hgeo : GeoLib g px) :
    ∃ fs, env.loads coast osm fs b.info ∧
      ((∀ x ∈ fs.flatten, x.feature.layer < ctx.layerNames.length) → 0 < ctx.layerNames.length → ∀ sea, SeaTree sea ctx.seaside →
        ∀ q : Tile, q.Valid → q.z ≤ 20 →
        10 < q.z ∨ InArea (dbBounds (features.map (·.1))) q ∨ (∃ t ∈ sea, AncOrSelf t q) ∨ (∀ t ∈ sea, ¬ AncOrSelf q t) →
        (∀ x ∈ fs.flatten, Drawable (fun l => env.rd (env.mkMask l) q.z) x.feature) →
        (∀ gs i, (∀ g ∈ gs, (∃ t, g = seaSquare t) ∨ ∃ x ∈ fs.flatten, StoredAs (fun l => env.rd (env.mkMask l) q.z) x.feature g) →
          ∀ f ∈ candidates (drawing ctx 10 q).toRenderCtx (specOf q) (ofLayer gs i), NoLongLine (drawing ctx 10 q).toRenderCtx q f) →
        ∃ bytes layers, getTile b.tiles features b.pf.reopen ctx q = .ok (if bytes = [] then none else some (ctx.encode bytes)) ∧
          (bytes.length < 2 ^ 32 → clientTile bytes = some layers) ∧
          ∀ f, whole f ∈ fs.flatten → f.zmin ≤ q.z → q.z ≤ f.zmax →
            (∀ x ∈ fs.flatten, x.feature.layer = f.layer → x.feature.id = f.id → typeOf x.feature.geometry = 1 → x.feature = f) →
            ∀ p, OnMap p → f.geometry = .point [latlngToFixed px p] → WellInside g q p →
            slippyTile q.z p = q ∧
            ∃ L ∈ layers, ctx.layerNames[f.layer]? = some L.name ∧ ∃ c ∈ L.features, c.id = f.id ∧ c.type = 1 ∧ c.tags.Perm (tagsOf f.metas) ∧
              ∃ cx cy : Int, ⟨[⟨cx, cy⟩], false⟩ ∈ c.parts ∧
                |(cx : ℝ) - (mapX p * 2 ^ q.z - q.x) * 4096| ≤ g / 2 ^ (20 - q.z) + 1 ∧
                |(cy : ℝ) - (mapY p * 2 ^ q.z - q.y) * 4096| ≤ g / 2 ^ (20 - q.z) + 1) := by
  obtain ⟨fs, h1, h2⟩ := C62_served env coast osm hsrt hm hw hin runs hacts a b hr hsmall hsize features hdb ctx hctx hrd hdec hc e he he' inter clipper correct
    hl hclip simplify hagg
  refine ⟨fs, h1, fun k1 k2 sea k3 q k4 k5 k6 k7 k8 => ?_⟩
  obtain ⟨bytes, layers, m1, m2, _, m3⟩ := h2 k1 k2 sea k3 q k4 k5 k6 k7 k8
  refine ⟨bytes, layers, m1, fun h => (m2 h).1, fun f hf z1 z2 hone p hp hgeom hwell => ?_⟩
  obtain ⟨t1, x, y, t2, t3⟩ := C64_tile hg hgeo p hp q k5 hwell
  obtain ⟨x', y', t2', _, _, t4, t5⟩ := C64_near hg hgeo p hp
  rw [t2] at t2'
  injection t2' with hx hy
  have hx : x = x' := by exact_mod_cast hx
  have hy : y = y' := by exact_mod_cast hy
  subst x' y'
  refine ⟨t1, ?_⟩
  obtain ⟨L, n1, n2, c, n3, n4, n5, n6, n7⟩ := m3 f hf z1 z2 hone _ hgeom x y (by rw [t2]; simp) t3
  exact ⟨L, n1, n2, c, n3, n4, n5, n6, _, _, n7, rel_near k5 t4, rel_near k5 t5⟩

/-- the conditions of the theorem are met: the import of C62, with the node at the place whose position it has -/
example : ∃ (b : TileDb Unit) (bytes : Bytes) (layers : List ClientLayer) (p : LatLng), Imports (importParts { C54_env with ctxOf := fun _ => C62_ctx }) [["all"]]
      ⟨(), none, fun _ => none, fun _ => none, ⟨[], 0⟩⟩ b ∧
    getTile b.tiles C54_entries b.pf.reopen C62_ctx ⟨1024, 0, 11⟩ = .ok (if bytes = [] then none else some (C62_ctx.encode bytes)) ∧
    (bytes.length < 2 ^ 32 → clientTile bytes = some layers) ∧ slippyTile 11 p = ⟨1024, 0, 11⟩ ∧
    ∃ L ∈ layers, L.name = [97] ∧ ∃ c ∈ L.features, c.id = 7 ∧ ∃ cx cy : Int, ⟨[⟨cx, cy⟩], false⟩ ∈ c.parts ∧
      |(cx : ℝ) - (mapX p * 2 ^ 11 - 1024) * 4096| ≤ 1 / 2 ^ 9 + 1 ∧ |(cy : ℝ) - (mapY p * 2 ^ 11 - 0) * 4096| ≤ 1 / 2 ^ 9 + 1 := by
  obtain ⟨b, h1, h2, h3, h4⟩ := runs_with C62_ctx C62_renders
  obtain ⟨fs, h5, h6⟩ := C64_served { C54_env with ctxOf := fun _ => C62_ctx } true true C13_sort_exists (fun l z => by simp [C54_env, C52_mk, C52_rd])
    (by decide) (by
      intro fs i hfs
      have hfs : fs = [[whole C14_ex]] := hfs
      subst hfs
      refine ⟨by simp [C54_env], fun f hf => ?_, by decide⟩
      rw [show f = whole C14_ex by simpa using hf]
      exact C52_ex_ok) [["all"]] (by simp [changes, actsOf, Asked]) _ b h1 h2 h3 C54_entries h4 C62_ctx ⟨10, rfl⟩ rfl rfl ⟨rfl, rfl, rfl, rfl⟩
    0 (by omega) (by norm_num) C62_inter C62_clipper id C62_lib rfl (fun _ l => l) (by intro z fs out h; show C62_agg z fs = out; rw [C62_agg, h]) 1 le_rfl _ C64_lib
  have h5 : fs = [[whole C14_ex]] := h5
  subst h5
  have hmem : ∀ f ∈ [[whole C14_ex]].flatten, f = whole C14_ex := by simp
  obtain ⟨bytes, layers, k1, k2, k3⟩ := h6 (by intro f hf; rw [hmem f hf]; decide) (by decide) C29_sea C29_sea_tree ⟨1024, 0, 11⟩ (by decide) (by decide) (.inl (by decide))
    (by intro f hf; rw [hmem f hf]; exact C62_drawable _) (by
      intro gs i hgs f hf c hcl l hl
      exact C62_short _ gs i hgs f hf c hcl l hl)
  obtain ⟨u1, u2⟩ := C64_place_at ((2147483649 + 1 / 2) / 2 ^ 32) ((5 + 1 / 2) / 2 ^ 32)
  obtain ⟨m0, L, m1, m2, c, m3, m4, _, _, m5⟩ := k3 C14_ex (by simp) (by decide) (by decide) (by intro f' hf' _ _ _; rw [hmem f' hf']; rfl)
    (C64_place ((2147483649 + 1 / 2) / 2 ^ 32) ((5 + 1 / 2) / 2 ^ 32)) (C64_place_on (by norm_num) (by norm_num) (by norm_num) (by norm_num)) (by
      rw [latlngToFixed, u1, u2]
      have g1 : ((2147483649 + 1 / 2) / 2 ^ 32 : ℝ) * 2 ^ 32 = 2147483649 + 1 / 2 := by norm_num
      have g2 : ((5 + 1 / 2) / 2 ^ 32 : ℝ) * 2 ^ 32 = 5 + 1 / 2 := by norm_num
      have g3 : ⌊(2147483649 + 1 / 2 : ℝ)⌋ = 2147483649 := by rw [Int.floor_eq_iff]; norm_num
      have g4 : ⌊(5 + 1 / 2 : ℝ)⌋ = 5 := by rw [Int.floor_eq_iff]; norm_num
      rw [g1, g2, g3, g4]
      decide) (by
      rw [WellInside, u1, u2]
      norm_num [side])
  refine ⟨b, bytes, layers, _, h1, k1, k2, m0, L, m1, ?_, c, m3, m4, ?_⟩
  · have : C62_ctx.layerNames[C14_ex.layer]? = some [97] := by decide
    rw [this] at m2; injection m2 with m2; exact m2.symm
  · obtain ⟨cx, cy, n1, n2, n3⟩ := m5
    exact ⟨cx, cy, n1, by simpa using n2, by simpa using n3⟩

end Tiles
