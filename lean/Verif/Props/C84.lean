import Verif.Model.Report
import Verif.Spec.Report
import Verif.Props.C60
import Verif.Props.C65
import Mathlib.Tactic.Linarith
import Mathlib.Tactic.Positivity
import Mathlib.Tactic.FieldSimp
/-!
C84: the figures in the reports.  Numbers, sizes and durations are printed with a unit.  The text of a figure can be read back, its error is at most half of its
last digit, the unit fits the amount, and larger amounts never show as smaller ones.  The lines of the reports of the performance counter and of the database show
the number of values, their sum, mean, the value at 95% and the largest one.
-/
namespace Tiles
open Spec

/-! ### decimal text -/

theorem decVal_zeros (k : Nat) (t : Bytes) : decVal (List.replicate k 48 ++ t) = decVal t := by
  induction k with
  | zero => rfl
  | succ k ih => rw [List.replicate_succ, List.cons_append, decVal, ih]; simp

theorem toDec_ne (n : Nat) : toDec n ≠ [] := by
  unfold toDec
  split
  · simp
  · rename_i h
    simpa [Nat.digits_eq_nil_iff_eq_zero] using h

theorem toDec_len {n d : Nat} (hd : 0 < d) (h : n < 10 ^ d) : (toDec n).length ≤ d := by
  unfold toDec
  split
  · exact hd
  · simp only [List.length_map, List.length_reverse]
    exact (Nat.digits_length_le_iff (by norm_num) n).2 h

theorem digits_zeros (k : Nat) (t : Bytes) (h : Digits t) : Digits (List.replicate k 48 ++ t) := by
  intro c hc
  rcases List.mem_append.1 hc with hc | hc
  · rw [List.eq_of_mem_replicate hc]; decide
  · exact h c hc

theorem padZero_spec (d n : Nat) (hd : 0 < d) (h : n < 10 ^ d) : Digits (padZero d n) ∧ decVal (padZero d n) = n ∧ (padZero d n).length = d := by
  refine ⟨digits_zeros _ _ (toDec_spec n).1, by rw [padZero, decVal_zeros]; exact (toDec_spec n).2, ?_⟩
  have := toDec_len hd h
  rw [padZero, List.length_append, List.length_replicate]
  omega

theorem decDigit_of {t : Bytes} (h : Digits t) : ∀ c ∈ t, decDigit c = true := fun c hc => by
  unfold decDigit; exact decide_eq_true_iff.2 (h c hc)

theorem take_digits {t r : Bytes} (h : Digits t) (hr : ∀ c ∈ r.head?, decDigit c = false) :
    (t ++ r).takeWhile decDigit = t ∧ (t ++ r).dropWhile decDigit = r := by
  induction t with
  | nil =>
    cases r with
    | nil => simp
    | cons c r =>
      have := hr c (by simp)
      simp [this]
  | cons c t ih =>
    have hc := decDigit_of h c (by simp)
    obtain ⟨h1, h2⟩ := ih (fun x hx => h x (by simp [hx]))
    simp [hc, h1, h2]

theorem drop_blanks (b : Nat) {t : Bytes} (h : ∀ c ∈ t.head?, c ≠ 32) : (List.replicate b (32 : UInt8) ++ t).dropWhile (· == 32) = t := by
  induction b with
  | zero =>
    cases t with
    | nil => rfl
    | cons c t =>
      have := h c (by simp)
      simp [this]
  | succ b ih => rw [List.replicate_succ, List.cons_append, List.dropWhile_cons_of_pos (by simp), ih]

theorem head_digit {t r : Bytes} (h : Digits t) (hne : t ≠ []) : ∀ c ∈ (t ++ r).head?, c ≠ 32 := by
  cases t with
  | nil => exact absurd rfl hne
  | cons c t =>
    intro x hx he
    simp at hx
    have := h c (by simp)
    rw [hx, he] at this
    exact absurd this.1 (by decide)

/-- reading a number with a fraction -/
theorem read_fraction (units : List (Bytes × ℚ)) (b : Nat) {whole frac name : Bytes} {u : ℚ} (hw : Digits whole) (hne : whole ≠ []) (hf : Digits frac)
    (hn : ∀ c ∈ name.head?, decDigit c = false) (hu : units.lookup name = some u) :
    readFigure units (List.replicate b 32 ++ (whole ++ (46 :: (frac ++ name)))) = some ((decVal whole : ℚ) + (decVal frac : ℚ) / 10 ^ frac.length, u) := by
  unfold readFigure
  obtain ⟨h1, h2⟩ := take_digits (r := 46 :: (frac ++ name)) hw (by intro c hc; simp at hc; subst hc; decide)
  obtain ⟨h3, h4⟩ := take_digits hf hn
  simp only [drop_blanks b (head_digit hw hne), h1, h2, if_neg hne, h3, h4, hu, Option.map_some]

/-- the number that `fixedText` writes -/
def shownNum (near : ℚ → Nat) (d : Nat) (q : ℚ) : ℚ := (near (q * 10 ^ d) : ℚ) / 10 ^ d

theorem read_fixed (units : List (Bytes × ℚ)) (near : ℚ → Nat) (w d : Nat) (hd : 0 < d) (q : ℚ) {name : Bytes} {u : ℚ}
    (hn : ∀ c ∈ name.head?, decDigit c = false) (hu : units.lookup name = some u) :
    readFigure units (padLeft w (fixedText near d q) ++ name) = some (shownNum near d q, u) := by
  have hp := padZero_spec d (near (q * 10 ^ d) % 10 ^ d) hd (Nat.mod_lt _ (by positivity))
  have h := read_fraction units (w - (fixedText near d q).length) (toDec_spec (near (q * 10 ^ d) / 10 ^ d)).1 (toDec_ne _) hp.1 hn hu
  rw [hp.2.1, hp.2.2, (toDec_spec _).2] at h
  rw [padLeft]
  simp only [fixedText, List.append_assoc, List.cons_append, List.nil_append] at h ⊢
  rw [h, shownNum]
  congr 2
  have := Nat.div_add_mod (near (q * 10 ^ d)) (10 ^ d)
  have h10 : (10 ^ d : ℚ) ≠ 0 := by positivity
  rw [eq_div_iff h10, add_mul, div_mul_cancel₀ _ h10]
  have h' : (near (q * 10 ^ d) / 10 ^ d : Nat) * 10 ^ d + near (q * 10 ^ d) % 10 ^ d = near (q * 10 ^ d) := by rw [mul_comm]; exact this
  exact_mod_cast h'

/-! ### rounding -/

theorem near_le {near : ℚ → Nat} (hn : Nearest near) {q : ℚ} (hq : 0 ≤ q) {k : Nat} (h : q < k + 1 / 2) : near q ≤ k := by
  have := (abs_le.1 (hn q hq)).2
  have : (near q : ℚ) < k + 1 := by linarith
  have : near q < k + 1 := by exact_mod_cast this
  omega

theorem near_ge {near : ℚ → Nat} (hn : Nearest near) {q : ℚ} (hq : 0 ≤ q) {k : Nat} (h : (k : ℚ) - 1 / 2 < q) : k ≤ near q := by
  have := (abs_le.1 (hn q hq)).1
  have : (k : ℚ) < near q + 1 := by linarith
  have : k < near q + 1 := by exact_mod_cast this
  omega

theorem near_mono {near : ℚ → Nat} (hn : Nearest near) {p q : ℚ} (hp : 0 ≤ p) (h : p ≤ q) : near p ≤ near q := by
  rcases eq_or_lt_of_le h with rfl | h
  · exact le_rfl
  · have h1 := (abs_le.1 (hn p hp)).2
    have h2 := (abs_le.1 (hn q (hp.trans h.le))).1
    have : (near p : ℚ) < near q + 1 := by linarith
    have : near p < near q + 1 := by exact_mod_cast this
    omega

theorem near_whole {near : ℚ → Nat} (hn : Nearest near) (k : Nat) : near (k : ℚ) = k :=
  le_antisymm (near_le hn (by positivity) (by linarith)) (near_ge hn (by positivity) (by linarith))

theorem shown_mono {near : ℚ → Nat} (hn : Nearest near) (d : Nat) {p q : ℚ} (hp : 0 ≤ p) (h : p ≤ q) : shownNum near d p ≤ shownNum near d q := by
  have h10 : (0 : ℚ) < 10 ^ d := by positivity
  have : near (p * 10 ^ d) ≤ near (q * 10 ^ d) := near_mono hn (by positivity) (by nlinarith)
  exact div_le_div_of_nonneg_right (by exact_mod_cast this) h10.le

theorem shown_err {near : ℚ → Nat} (hn : Nearest near) (d : Nat) {q : ℚ} (hq : 0 ≤ q) : |shownNum near d q - q| ≤ 1 / (2 * 10 ^ d) := by
  have h10 : (0 : ℚ) < 10 ^ d := by positivity
  have h := hn (q * 10 ^ d) (by positivity)
  have e : shownNum near d q - q = ((near (q * 10 ^ d) : ℚ) - q * 10 ^ d) / 10 ^ d := by rw [shownNum]; field_simp
  rw [e, abs_div, abs_of_pos h10, div_le_div_iff₀ h10 (by positivity)]
  nlinarith

theorem shown_le {near : ℚ → Nat} (hn : Nearest near) (d : Nat) {q : ℚ} (hq : 0 ≤ q) (k : Nat) (h : q ≤ k) : shownNum near d q ≤ k := by
  have h10 : (0 : ℚ) < 10 ^ d := by positivity
  have : near (q * 10 ^ d) ≤ k * 10 ^ d := near_le hn (by positivity) (by push_cast; nlinarith)
  rw [shownNum, div_le_iff₀ h10]
  exact_mod_cast this

theorem shown_ge_one {near : ℚ → Nat} (hn : Nearest near) (d : Nat) {q : ℚ} (hq : 0 ≤ q) (h : 1 - 1 / (2 * 10 ^ d) < q) : 1 ≤ shownNum near d q := by
  have h10 : (0 : ℚ) < 10 ^ d := by positivity
  have : 10 ^ d ≤ near (q * 10 ^ d) := by
    apply near_ge hn (by positivity)
    push_cast
    have := mul_lt_mul_of_pos_right h h10
    rw [sub_mul, one_mul] at this
    have e : (1 : ℚ) / (2 * 10 ^ d) * 10 ^ d = 1 / 2 := by field_simp
    linarith
  rw [shownNum, le_div_iff₀ h10, one_mul]
  exact_mod_cast this

/-! ### the choice of the unit -/

/-- the unit that is chosen: `B ^ pick` -/
def pick (fl : ℚ → ℚ) (B n : ℚ) : Nat :=
  if n < B then 0 else if fl (n / B) < B then 1 else if fl (n / B ^ 2) < B then 2 else 3

theorem pick_spec {fl : ℚ → ℚ} {B n : ℚ} (hn : fl n = n) :
    pick fl B n ≤ 3 ∧ (∀ j < pick fl B n, B ≤ fl (n / B ^ j)) ∧ (pick fl B n < 3 → fl (n / B ^ pick fl B n) < B) := by
  unfold pick
  split
  · rename_i h; refine ⟨by omega, fun j hj => by omega, fun _ => by simpa [hn] using h⟩
  split
  · rename_i h0 h
    refine ⟨by omega, fun j hj => ?_, fun _ => by simpa using h⟩
    obtain rfl : j = 0 := by omega
    simpa [hn] using h0
  split
  · rename_i h0 h1 h
    refine ⟨by omega, fun j hj => ?_, fun _ => h⟩
    obtain rfl | rfl : j = 0 ∨ j = 1 := by omega
    · simpa [hn] using h0
    · simpa using h1
  · rename_i h0 h1 h2
    refine ⟨by omega, fun j hj => ?_, fun h => by omega⟩
    obtain rfl | rfl | rfl : j = 0 ∨ j = 1 ∨ j = 2 := by omega
    · simpa [hn] using h0
    · simpa using h1
    · simpa using h2

/-- the number that is shown in front of the unit -/
def shownIn (fl : ℚ → ℚ) (near : ℚ → Nat) (B : ℚ) (d : Nat) (n : ℚ) : ℚ := shownNum near d (fl (n / B ^ pick fl B n))

theorem fl_nonneg {fl : ℚ → ℚ} (h : Doubles fl) {q : ℚ} (hq : 0 ≤ q) : 0 ≤ fl q := by
  have := h.mono hq
  rwa [show fl 0 = 0 by simpa using h.whole 0 (by norm_num)] at this

theorem shownIn_good {fl : ℚ → ℚ} (hfl : Doubles fl) {near : ℚ → Nat} (hnear : Nearest near) {B n : ℚ} (hB : 1 ≤ B) (d : Nat) (hn : fl n = n) (h0 : 0 ≤ n) :
    |shownIn fl near B d n * B ^ pick fl B n - n| ≤ B ^ pick fl B n / (2 * 10 ^ d) + n / 2 ^ 53 ∧
    (B ^ pick fl B n = 1 ∨ B ^ pick fl B n * (1 - 1 / 2 ^ 52) ≤ n) ∧ (pick fl B n < 3 → n < B * B ^ pick fl B n * (1 + 1 / 2 ^ 52)) := by
  obtain ⟨-, p1, p2⟩ := pick_spec (fl := fl) (B := B) hn
  unfold shownIn
  generalize pick fl B n = i at *
  have hu : (0 : ℚ) < B ^ i := by positivity
  have hx : 0 ≤ n / B ^ i := by positivity
  have e := shown_err hnear d (fl_nonneg hfl hx)
  have a := hfl.accurate (n / B ^ i)
  rw [abs_of_nonneg hx] at a
  have hd : n / B ^ i * B ^ i = n := div_mul_cancel₀ _ hu.ne'
  refine ⟨?_, ?_, fun hi => ?_⟩
  · have e1 := mul_le_mul_of_nonneg_right e hu.le
    have a1 := mul_le_mul_of_nonneg_right a hu.le
    rw [← abs_of_pos hu, ← abs_mul, abs_of_pos hu] at e1 a1
    have : shownNum near d (fl (n / B ^ i)) * B ^ i - n = (shownNum near d (fl (n / B ^ i)) - fl (n / B ^ i)) * B ^ i + (fl (n / B ^ i) - n / B ^ i) * B ^ i := by
      rw [sub_mul, sub_mul, hd]; ring
    rw [this]
    refine (abs_add_le _ _).trans ?_
    have r1 : 1 / (2 * 10 ^ d) * B ^ i = B ^ i / (2 * 10 ^ d) := by ring
    have r2 : n / B ^ i / 2 ^ 53 * B ^ i = n / 2 ^ 53 := by rw [div_mul_eq_mul_div, hd]
    rw [r1] at e1
    rw [r2] at a1
    linarith
  · rcases Nat.eq_zero_or_pos i with rfl | hi
    · left; simp
    · right
      obtain ⟨j, rfl⟩ : ∃ j, i = j + 1 := ⟨i - 1, by omega⟩
      have h1 := p1 j (by omega)
      have hj : (0 : ℚ) < B ^ j := by positivity
      have hy : 0 ≤ n / B ^ j := by positivity
      have a2 := (abs_le.1 (hfl.accurate (n / B ^ j))).2
      rw [abs_of_nonneg hy] at a2
      have h2 : B ≤ n / B ^ j * (1 + 1 / 2 ^ 53) := by linarith
      have h3 := mul_le_mul_of_nonneg_right h2 hj.le
      have h4 : n / B ^ j * (1 + 1 / 2 ^ 53) * B ^ j = n * (1 + 1 / 2 ^ 53) := by field_simp
      rw [h4] at h3
      rw [pow_succ, mul_comm (B ^ j) B]
      have h5 := mul_le_mul_of_nonneg_right h3 (show (0 : ℚ) ≤ 1 - 1 / 2 ^ 52 by norm_num)
      have h6 : n * (1 + 1 / 2 ^ 53) * (1 - 1 / 2 ^ 52) ≤ n := by
        rw [mul_assoc]
        exact mul_le_of_le_one_right h0 (by norm_num)
      linarith
  · have h1 := p2 hi
    have a2 := (abs_le.1 a).1
    have h2 : n / B ^ i * (1 - 1 / 2 ^ 53) < B := by linarith
    have h3 := mul_lt_mul_of_pos_right h2 hu
    have h4 : n / B ^ i * (1 - 1 / 2 ^ 53) * B ^ i = n * (1 - 1 / 2 ^ 53) := by field_simp
    rw [h4] at h3
    have h5 := mul_lt_mul_of_pos_right h3 (show (0 : ℚ) < 1 + 1 / 2 ^ 52 by norm_num)
    have h6 : n ≤ n * (1 - 1 / 2 ^ 53) * (1 + 1 / 2 ^ 52) := by
      rw [mul_assoc]
      exact le_mul_of_one_le_right h0 (by norm_num)
    linarith

theorem shownIn_mono {fl : ℚ → ℚ} (hfl : Doubles fl) {near : ℚ → Nat} (hnear : Nearest near) {B : Nat} (hB : 1 ≤ B) (d : Nat) (hd : d ≤ 10) {n m : ℚ}
    (hn : fl n = n) (hm : fl m = m) (h0 : 0 ≤ n) (h : n ≤ m) :
    shownIn fl near B d n * (B : ℚ) ^ pick fl B n ≤ shownIn fl near B d m * (B : ℚ) ^ pick fl B m := by
  have hB' : (1 : ℚ) ≤ B := by exact_mod_cast hB
  obtain ⟨n0, n1, n2⟩ := pick_spec (fl := fl) (B := (B : ℚ)) hn
  obtain ⟨m0, m1, m2⟩ := pick_spec (fl := fl) (B := (B : ℚ)) hm
  unfold shownIn
  have hij : pick fl B n ≤ pick fl B m := by
    by_contra hc
    have h1 := n1 (pick fl B m) (by omega)
    have h2 := m2 (by omega)
    have h3 : fl (n / (B : ℚ) ^ pick fl B m) ≤ fl (m / (B : ℚ) ^ pick fl B m) := hfl.mono (div_le_div_of_nonneg_right h (by positivity))
    linarith
  generalize pick fl B n = i at *
  generalize pick fl B m = j at *
  have hui : (0 : ℚ) < (B : ℚ) ^ i := by positivity
  have huj : (0 : ℚ) < (B : ℚ) ^ j := by positivity
  have hxi : 0 ≤ fl (n / (B : ℚ) ^ i) := fl_nonneg hfl (by positivity)
  have hxj : 0 ≤ fl (m / (B : ℚ) ^ j) := fl_nonneg hfl (div_nonneg (h0.trans h) huj.le)
  rcases eq_or_lt_of_le hij with rfl | hlt
  · exact mul_le_mul_of_nonneg_right (shown_mono hnear d hxi (hfl.mono (div_le_div_of_nonneg_right h hui.le))) hui.le
  · have s1 : shownNum near d (fl (n / (B : ℚ) ^ i)) ≤ B := shown_le hnear d hxi B (n2 (by omega)).le
    have s2 : 1 ≤ shownNum near d (fl (m / (B : ℚ) ^ j)) := by
      apply shown_ge_one hnear d hxj
      obtain ⟨k, rfl⟩ : ∃ k, j = k + 1 := ⟨j - 1, by omega⟩
      have h1 := m1 k (by omega)
      have hk : (0 : ℚ) < (B : ℚ) ^ k := by positivity
      have hy : 0 ≤ m / (B : ℚ) ^ k := div_nonneg (h0.trans h) hk.le
      have a2 := (abs_le.1 (hfl.accurate (m / (B : ℚ) ^ k))).2
      rw [abs_of_nonneg hy] at a2
      have h2 : (B : ℚ) ≤ m / (B : ℚ) ^ k * (1 + 1 / 2 ^ 53) := by linarith
      have hz : 0 ≤ m / (B : ℚ) ^ (k + 1) := div_nonneg (h0.trans h) huj.le
      have hz1 : 1 - 1 / 2 ^ 53 ≤ m / (B : ℚ) ^ (k + 1) := by
        have e : m / (B : ℚ) ^ (k + 1) = m / (B : ℚ) ^ k / B := by rw [pow_succ, div_div]
        rw [e, le_div_iff₀ (by linarith)]
        have h5 := mul_le_mul_of_nonneg_right h2 (show (0 : ℚ) ≤ 1 - 1 / 2 ^ 53 by norm_num)
        have h6 : m / (B : ℚ) ^ k * (1 + 1 / 2 ^ 53) * (1 - 1 / 2 ^ 53) ≤ m / (B : ℚ) ^ k := by
          rw [mul_assoc]
          exact mul_le_of_le_one_right hy (by norm_num)
        linarith
      have a3 := (abs_le.1 (hfl.accurate (m / (B : ℚ) ^ (k + 1)))).1
      rw [abs_of_nonneg hz] at a3
      have h7 : (1 - 1 / 2 ^ 53) * (1 - 1 / 2 ^ 53) ≤ m / (B : ℚ) ^ (k + 1) * (1 - 1 / 2 ^ 53) := mul_le_mul_of_nonneg_right hz1 (by norm_num)
      have h8 : (1 : ℚ) / (2 * 10 ^ 10) ≤ 1 / (2 * 10 ^ d) := by
        apply div_le_div_of_nonneg_left (by norm_num) (by positivity)
        have : (10 : ℚ) ^ d ≤ 10 ^ 10 := pow_le_pow_right₀ (by norm_num) hd
        linarith
      have h9 : (1 : ℚ) - 1 / (2 * 10 ^ 10) < (1 - 1 / 2 ^ 53) * (1 - 1 / 2 ^ 53) := by norm_num
      linarith
    calc shownNum near d (fl (n / (B : ℚ) ^ i)) * (B : ℚ) ^ i ≤ B * (B : ℚ) ^ i := mul_le_mul_of_nonneg_right s1 hui.le
      _ = (B : ℚ) ^ (i + 1) := by rw [pow_succ, mul_comm]
      _ ≤ (B : ℚ) ^ j := pow_le_pow_right₀ hB' (by omega)
      _ ≤ shownNum near d (fl (m / (B : ℚ) ^ j)) * (B : ℚ) ^ j := le_mul_of_one_le_left huj.le s2

/-! ### the three formats -/

theorem doubles_id : Doubles id := ⟨fun _ => rfl, fun _ _ => rfl, fun q => by simpa using div_nonneg (abs_nonneg q) (by positivity), monotone_id⟩

theorem bytes_read (near : ℚ → Nat) (n : ℚ) :
    readFigure byteUnits (printableBytes near n) = some (shownIn id near 1024 2 n, 1024 ^ pick id 1024 n) := by
  unfold printableBytes shownIn pick
  simp only [id]
  rw [show (1024 * 1024 : ℚ) = 1024 ^ 2 by norm_num, show (1024 ^ 2 * 1024 : ℚ) = 1024 ^ 3 by norm_num]
  split
  · rw [read_fixed byteUnits near 7 2 (by norm_num) n (u := 1) (by decide) rfl]; simp
  split
  · rw [read_fixed byteUnits near 7 2 (by norm_num) _ (u := 1024) (by decide) rfl]; simp
  split
  · rw [read_fixed byteUnits near 7 2 (by norm_num) _ (u := 1024 ^ 2) (by decide) rfl]
  · rw [read_fixed byteUnits near 7 2 (by norm_num) _ (u := 1024 ^ 3) (by decide) rfl]

theorem ns_read (fl : ℚ → ℚ) (near : ℚ → Nat) (n : ℚ) (hn : fl n = n) :
    readFigure timeUnits (printableNs fl near n) = some (shownIn fl near 1000 3 n, 1000 ^ pick fl 1000 n) := by
  unfold printableNs shownIn pick
  simp only []
  rw [show (1000000 : ℚ) = 1000 ^ 2 by norm_num, show (1000000000 : ℚ) = 1000 ^ 3 by norm_num]
  split
  · rw [read_fixed timeUnits near 7 3 (by norm_num) n (u := 1) (by decide) rfl]; simp [hn]
  split
  · rw [read_fixed timeUnits near 7 3 (by norm_num) _ (u := 1000) (by decide) rfl]; simp
  split
  · rw [read_fixed timeUnits near 7 3 (by norm_num) _ (u := 1000 ^ 2) (by decide) rfl]
  · rw [read_fixed timeUnits near 7 3 (by norm_num) _ (u := 1000 ^ 3) (by decide) rfl]

theorem num_read {fl : ℚ → ℚ} {near : ℚ → Nat} (hnear : Nearest near) {short : ℚ → Bytes} (hs : ShortText short) (n : Nat) (hn : fl n = n) :
    readFigure countUnits (printableNum fl near short n) = some (shownIn fl near 1000 1 n, 1000 ^ pick fl 1000 n) := by
  unfold printableNum shownIn pick
  simp only []
  rw [show (1000000 : ℚ) = 1000 ^ 2 by norm_num, show (1000000000 : ℚ) = 1000 ^ 3 by norm_num]
  split
  · rename_i h
    have h' : n < 1000 := by exact_mod_cast h
    rw [padLeft, (hs n h' _).1, pow_zero, div_one, hn, shownNum]
    have : near ((n : ℚ) * 10 ^ 1) = n * 10 := by
      have := near_whole hnear (n * 10)
      push_cast at this
      simpa using this
    rw [this]
    push_cast
    simp
  split
  · rw [read_fixed countUnits near 6 1 (by norm_num) _ (u := 1000) (by decide) rfl]; simp
  split
  · rw [read_fixed countUnits near 6 1 (by norm_num) _ (u := 1000 ^ 2) (by decide) rfl]
  · rw [read_fixed countUnits near 6 1 (by norm_num) _ (u := 1000 ^ 3) (by decide) rfl]

theorem good_of {units : List (Bytes × ℚ)} {fl : ℚ → ℚ} (hfl : Doubles fl) {near : ℚ → Nat} (hnear : Nearest near) {B : ℚ} (hB : 1 ≤ B) {d : Nat} {n : ℚ} {t : Bytes}
    (hn : fl n = n) (h0 : 0 ≤ n) (hr : readFigure units t = some (shownIn fl near B d n, B ^ pick fl B n)) (hu : ∀ p ∈ units, p.2 ≤ B ^ 3) :
    GoodFigure units B d t n := by
  obtain ⟨h1, h2, h3⟩ := shownIn_good hfl hnear hB d hn h0
  refine ⟨_, _, hr, h1, h2, ?_⟩
  by_cases hp : pick fl B n < 3
  · exact Or.inl (h3 hp)
  · right
    have := (pick_spec (fl := fl) (B := B) hn).1
    rw [show pick fl B n = 3 by omega]
    exact hu

/-- C84: the figure of a size: read back, it is the size to the precision that is shown, in the right unit. -/
theorem C84_bytes (near : ℚ → Nat) (hnear : Nearest near) (n : ℚ) (h0 : 0 ≤ n) : GoodFigure byteUnits 1024 2 (printableBytes near n) n :=
  good_of doubles_id hnear (by norm_num) rfl h0 (bytes_read near n) (by simp [byteUnits]; norm_num)

/-- C84: the figure of a duration. -/
theorem C84_ns (fl : ℚ → ℚ) (hfl : Doubles fl) (near : ℚ → Nat) (hnear : Nearest near) (n : ℚ) (hn : fl n = n) (h0 : 0 ≤ n) :
    GoodFigure timeUnits 1000 3 (printableNs fl near n) n :=
  good_of hfl hnear (by norm_num) hn h0 (ns_read fl near n hn) (by simp [timeUnits]; norm_num)

/-- C84: the figure of a count. -/
theorem C84_num (fl : ℚ → ℚ) (hfl : Doubles fl) (near : ℚ → Nat) (hnear : Nearest near) (short : ℚ → Bytes) (hs : ShortText short) (n : Nat) (hn : n ≤ 2 ^ 53) :
    GoodFigure countUnits 1000 1 (printableNum fl near short n) n :=
  good_of hfl hnear (by norm_num) (hfl.whole n hn) (by positivity) (num_read hnear hs n (hfl.whole n hn)) (by simp [countUnits]; norm_num)

theorem amount_of {units : List (Bytes × ℚ)} {t : Bytes} {v u : ℚ} (h : readFigure units t = some (v, u)) : amount units t = some (v * u) := by
  rw [amount, h]; rfl

/-- C84: a larger size never shows as a smaller one, whatever the units. -/
theorem C84_bytes_order (near : ℚ → Nat) (hnear : Nearest near) (n m : ℚ) (h0 : 0 ≤ n) (h : n ≤ m) :
    ∃ a b, amount byteUnits (printableBytes near n) = some a ∧ amount byteUnits (printableBytes near m) = some b ∧ a ≤ b :=
  ⟨_, _, amount_of (bytes_read near n), amount_of (bytes_read near m), by simpa using shownIn_mono doubles_id hnear (B := 1024) (by norm_num) 2 (by norm_num) rfl rfl h0 h⟩

/-- C84: a longer duration never shows as a shorter one. -/
theorem C84_ns_order (fl : ℚ → ℚ) (hfl : Doubles fl) (near : ℚ → Nat) (hnear : Nearest near) (n m : ℚ) (hn : fl n = n) (hm : fl m = m) (h0 : 0 ≤ n) (h : n ≤ m) :
    ∃ a b, amount timeUnits (printableNs fl near n) = some a ∧ amount timeUnits (printableNs fl near m) = some b ∧ a ≤ b :=
  ⟨_, _, amount_of (ns_read fl near n hn), amount_of (ns_read fl near m hm), by simpa using shownIn_mono hfl hnear (B := 1000) (by norm_num) 3 (by norm_num) hn hm h0 h⟩

/-- C84: a larger count never shows as a smaller one. -/
theorem C84_num_order (fl : ℚ → ℚ) (hfl : Doubles fl) (near : ℚ → Nat) (hnear : Nearest near) (short : ℚ → Bytes) (hs : ShortText short) (n m : Nat)
    (hm : m ≤ 2 ^ 53) (h : n ≤ m) :
    ∃ a b, amount countUnits (printableNum fl near short n) = some a ∧ amount countUnits (printableNum fl near short m) = some b ∧ a ≤ b :=
  ⟨_, _, amount_of (num_read hnear hs n (hfl.whole n (h.trans hm))), amount_of (num_read hnear hs m (hfl.whole m hm)),
    by simpa using shownIn_mono hfl hnear (B := 1000) (by norm_num) 1 (by norm_num) (hfl.whole n (h.trans hm)) (hfl.whole m hm) (by positivity) (by exact_mod_cast h)⟩

/-! ### columns -/

theorem fixed_len {near : ℚ → Nat} (hnear : Nearest near) {d : Nat} (hd : 0 < d) {q : ℚ} (h0 : 0 ≤ q) {k : Nat} (hk : 0 < k) (h : shownNum near d q < 10 ^ k) :
    (fixedText near d q).length ≤ k + 1 + d := by
  have h10 : (0 : ℚ) < 10 ^ d := by positivity
  rw [shownNum, div_lt_iff₀ h10] at h
  have h' : near (q * 10 ^ d) < 10 ^ k * 10 ^ d := by exact_mod_cast h
  have h1 : near (q * 10 ^ d) / 10 ^ d < 10 ^ k := Nat.div_lt_of_lt_mul (h'.trans_eq (mul_comm _ _))
  have h2 := (padZero_spec d (near (q * 10 ^ d) % 10 ^ d) hd (Nat.mod_lt _ (by positivity))).2.2
  have h3 := toDec_len hk h1
  simp only [fixedText, List.length_append, List.length_cons, List.length_nil, h2]
  omega

theorem padLeft_len {w : Nat} {s : Bytes} (h : s.length ≤ w) : (padLeft w s).length = w := by
  rw [padLeft, List.length_append, List.length_replicate]; omega

/-- C84: sizes below 9999 GB have nine characters, so the columns of a report are straight. -/
theorem C84_bytes_width (near : ℚ → Nat) (hnear : Nearest near) (n : ℚ) (h0 : 0 ≤ n) (h : n ≤ 9999 * 1024 ^ 3) : (printableBytes near n).length = 9 := by
  have key : ∀ q : ℚ, 0 ≤ q → q ≤ 9999 → (padLeft 7 (fixedText near 2 q)).length = 7 := fun q hq hq' =>
    padLeft_len (fixed_len hnear (k := 4) (by norm_num) hq (by norm_num)
      (lt_of_le_of_lt (shown_le hnear 2 hq 9999 (by exact_mod_cast hq')) (by norm_num)))
  unfold printableBytes
  simp only []
  split
  · rw [List.length_append, key n h0 (by linarith)]; rfl
  split
  · rw [List.length_append, key _ (by positivity) (by linarith)]; rfl
  split
  · rw [List.length_append, key _ (by positivity) (by linarith)]; rfl
  · rw [List.length_append, key _ (by positivity) (by rw [div_le_iff₀ (by norm_num)]; linarith)]; rfl

/-! ### lines -/

/-- a way to print figures -/
structure GoodFormat (fl : ℚ → ℚ) (units : List (Bytes × ℚ)) (base : ℚ) (d : Nat) (shw : ℚ → Bytes) : Prop where
  good : ∀ n, fl n = n → 0 ≤ n → GoodFigure units base d (shw n) n
  order : ∀ n m, fl n = n → fl m = m → 0 ≤ n → n ≤ m → ShowsAtMost units (shw n) (shw m)

theorem format_bytes (fl : ℚ → ℚ) {near : ℚ → Nat} (hnear : Nearest near) : GoodFormat fl byteUnits 1024 2 (printableBytes near) :=
  ⟨fun n _ h => C84_bytes near hnear n h, fun n m _ _ h0 h => C84_bytes_order near hnear n m h0 h⟩

theorem format_ns {fl : ℚ → ℚ} (hfl : Doubles fl) {near : ℚ → Nat} (hnear : Nearest near) : GoodFormat fl timeUnits 1000 3 (printableNs fl near) :=
  ⟨fun n hn h => C84_ns fl hfl near hnear n hn h, fun n m hn hm h0 h => C84_ns_order fl hfl near hnear n m hn hm h0 h⟩

theorem sumDoubles_exact {fl : ℚ → ℚ} (hfl : Doubles fl) (m : List Nat) (h : m.sum ≤ 2 ^ 53) : sumDoubles fl m = (m.sum : Nat) := by
  have key : ∀ (m : List Nat) (a : Nat), a + m.sum ≤ 2 ^ 53 → m.foldl (fun (a : ℚ) (x : Nat) => fl (a + fl x)) (a : ℚ) = ((a + m.sum : Nat) : ℚ) := by
    intro m
    induction m with
    | nil => intro a _; simp
    | cons x m ih =>
      intro a ha
      rw [List.sum_cons] at ha
      rw [List.foldl_cons, hfl.whole x (by omega), ← Nat.cast_add, hfl.whole (a + x) (by omega), ih (a + x) (by omega), List.sum_cons, Nat.add_assoc]
  have := key m 0 (by omega)
  rw [sumDoubles, show (0 : ℚ) = ((0 : Nat) : ℚ) by simp, this, Nat.zero_add]

theorem sum_le_max {m : List Nat} {b : Nat} (h : ∀ x ∈ m, x ≤ b) : m.sum ≤ m.length * b := by
  induction m with
  | nil => simp
  | cons x m ih =>
    have h1 := h x (by simp)
    have h2 := ih (fun z hz => h z (by simp [hz]))
    rw [List.sum_cons, List.length_cons, Nat.add_mul]; omega

theorem sum_ge_min {m : List Nat} {b : Nat} (h : ∀ x ∈ m, b ≤ x) : m.length * b ≤ m.sum := by
  induction m with
  | nil => simp
  | cons x m ih =>
    have h1 := h x (by simp)
    have h2 := ih (fun z hz => h z (by simp [hz]))
    rw [List.sum_cons, List.length_cons, Nat.add_mul]; omega

theorem line_says {fl : ℚ → ℚ} (hfl : Doubles fl) {near : ℚ → Nat} (hnear : Nearest near) {short : ℚ → Bytes} (hs : ShortText short)
    {units : List (Bytes × ℚ)} {base : ℚ} {d : Nat} {shw : ℚ → Bytes} (hf : GoodFormat fl units base d shw) (w : Nat) (gap label : Bytes) (m : List Nat)
    (hl : m.length ≤ 2 ^ 53) (hsum : m.sum ≤ 2 ^ 53) :
    ∃ line, reportLine fl (printableNum fl near short) shw w gap label m = .ok line ∧ LineSays units base d w gap label m line := by
  have e1 := sumDoubles_exact hfl m hsum
  have e2 := hfl.whole m.length hl
  have hc := C84_num fl hfl near hnear short hs m.length hl
  have hS := hf.good (m.sum : Nat) (hfl.whole _ hsum) (by positivity)
  by_cases hm : m = []
  · refine ⟨_, by rw [reportLine, e1, e2]; simp only [if_pos hm]; rfl, _, _, hc, hS, Or.inl ⟨hm, rfl⟩⟩
  · obtain ⟨x, y, h1, h2, h3, h4, h5⟩ := C65_report fl hfl.accurate m hm
    have hx : x ≤ 2 ^ 53 := (List.single_le_sum (by simp) x h2).trans hsum
    have hys : y ≤ m.sum := List.single_le_sum (by simp) y h3
    have hy : y ≤ 2 ^ 53 := hys.trans hsum
    have hpos : (0 : ℚ) < m.length := by exact_mod_cast List.length_pos_of_ne_nil hm
    have hmu : 0 ≤ (m.sum : ℚ) / m.length := by positivity
    have hmu0 := fl_nonneg hfl hmu
    have hmax : fl ((m.sum : ℚ) / m.length) ≤ y := by
      rw [← hfl.whole y hy]
      apply hfl.mono
      rw [div_le_iff₀ hpos, mul_comm]
      exact_mod_cast sum_le_max h4
    have e3 : reportLine fl (printableNum fl near short) shw w gap label m =
        .ok (label ++ List.replicate (w - label.length) 32 ++ chars " > cnt: " ++ printableNum fl near short m.length ++ chars " sum: " ++ shw (m.sum : Nat) ++ gap ++
          chars "mean: " ++ shw (fl ((m.sum : ℚ) / m.length)) ++ chars " q95: " ++ shw x ++ chars " max: " ++ shw y ++ [10]) := by
      rw [reportLine, e1, e2]
      simp only [if_neg hm, h1, Res.ok_bind, e2, hfl.whole x hx, hfl.whole y hy]
      rfl
    refine ⟨_, e3, _, _, hc, hS, Or.inr ⟨hm, _, _, _, _, x, y, rfl, ?_, ?_, hmax, hf.good _ (hfl.idem _) hmu0, h2, h5, hf.good x (hfl.whole x hx) (by positivity), h3, h4,
      hf.good y (hfl.whole y hy) (by positivity), hf.order _ _ (hfl.idem _) (hfl.whole y hy) hmu0 hmax,
      hf.order _ _ (hfl.whole x hx) (hfl.whole y hy) (by positivity) (by exact_mod_cast h4 x h2),
      hf.order _ _ (hfl.whole y hy) (hfl.whole _ hsum) (by positivity) (by exact_mod_cast hys)⟩⟩
    · have := hfl.accurate ((m.sum : ℚ) / m.length)
      rwa [abs_of_nonneg hmu] at this
    · intro lo hlo
      have : lo ≤ 2 ^ 53 := (hlo x h2).trans hx
      rw [← hfl.whole lo this]
      apply hfl.mono
      rw [le_div_iff₀ hpos, mul_comm]
      exact_mod_cast sum_ge_min hlo

theorem printAll_ok {α : Type} (f : α → Res Bytes) (P : α → Bytes → Prop) (l : List α) (h : ∀ a ∈ l, ∃ t, f a = .ok t ∧ P a t) :
    ∃ ts, List.Forall₂ P l ts ∧ printAll (l.map f) = .ok ts.flatten := by
  induction l with
  | nil => exact ⟨[], .nil, rfl⟩
  | cons a l ih =>
    obtain ⟨t, h1, h2⟩ := h a (by simp)
    obtain ⟨ts, h3, h4⟩ := ih (fun x hx => h x (by simp [hx]))
    exact ⟨t :: ts, .cons h2 h3, by rw [List.map_cons, printAll, h1, Res.ok_bind, h4]; rfl⟩

theorem printAll_append (l l' : List (Res Bytes)) {a b : Bytes} (h : printAll l = .ok a) (h' : printAll l' = .ok b) : printAll (l ++ l') = .ok (a ++ b) := by
  induction l generalizing a with
  | nil => injection h with h; subst h; exact h'
  | cons r l ih =>
    rw [printAll, Res.bind_eq_ok] at h
    obtain ⟨t, h1, h⟩ := h
    rw [Res.bind_eq_ok] at h
    obtain ⟨ts, h2, h⟩ := h
    injection h with h
    subst h
    rw [List.cons_append, printAll, h1, Res.ok_bind, ih h2, Res.ok_bind, List.append_assoc]
    rfl

/-- C84: the report of a performance counter is always printed, one line after the other for all thirteen tasks, sizes in bytes and all others in time units, and every line says
what was measured. -/
theorem C84_perf (fl : ℚ → ℚ) (hfl : Doubles fl) (near : ℚ → Nat) (hnear : Nearest near) (short : ℚ → Bytes) (hs : ShortText short) (p : Perf)
    (hp : ∀ t, (p.finished t).length ≤ 2 ^ 53 ∧ (p.finished t).sum ≤ 2 ^ 53) :
    (∀ t, ∃! l, l ∈ perfLines ∧ l.2.1 = t) ∧ (∀ l ∈ perfLines, l.2.2 = decide (l.2.1 ≠ .resultSize)) ∧
    ∃ lines, perfText fl near short p = .ok lines.flatten ∧
      List.Forall₂ (fun l line => LineSays (if l.2.2 then timeUnits else byteUnits) (if l.2.2 then 1000 else 1024) (if l.2.2 then 3 else 2) 18 [32] (chars l.1)
        (p.finished l.2.1) line) perfLines lines := by
  refine ⟨fun t => ?_, by decide, ?_⟩
  · cases t <;> simp [perfLines, ExistsUnique]
  · obtain ⟨ts, h1, h2⟩ := printAll_ok (fun l : String × PerfTask × Bool =>
      reportLine fl (printableNum fl near short) (if l.2.2 then printableNs fl near else printableBytes near) 18 [32] l.1.toUTF8.data.toList (p.finished l.2.1))
      (fun l line => LineSays (if l.2.2 then timeUnits else byteUnits) (if l.2.2 then 1000 else 1024) (if l.2.2 then 3 else 2) 18 [32] (chars l.1) (p.finished l.2.1) line)
      perfLines (fun l _ => by
        cases hb : l.2.2
        · exact line_says hfl hnear hs (format_bytes fl hnear) 18 [32] _ _ (hp _).1 (hp _).2
        · exact line_says hfl hnear hs (format_ns hfl hnear) 18 [32] _ _ (hp _).1 (hp _).2)
    exact ⟨ts, h2, h1⟩

/-! ### the report of the database -/

/-- the numbers of the report are below 2^53 -/
structure FitsDoubles (st : DbStats) : Prop where
  payload : ∀ m ∈ [st.packs.packs, st.packs.index, st.packs.feats.headers, st.packs.feats.masks, st.packs.feats.geos], m.length ≤ 2 ^ 53 ∧ m.sum ≤ 2 ^ 53
  tiles : ∀ x ∈ st.tiles, (∀ m ∈ x.1, m.length ≤ 2 ^ 53 ∧ m.sum ≤ 2 ^ 53) ∧ x.2 ≤ 2 ^ 53

/-- the labels of the payload lines -/
def payloadOf (st : DbStats) : List (String × List Nat) :=
  [("pack", st.packs.packs), ("pack: index", st.packs.index), ("feature: header", st.packs.feats.headers), ("feature: masks", st.packs.feats.masks),
   ("feature: geo", st.packs.feats.geos)]

/-- C84: the label of the line of a zoom level: the level with two digits. -/
theorem C84_label (z : Nat) (hz : z < 100) : ∃ ds, Digits ds ∧ ds.length = 2 ∧ decVal ds = z ∧ tilesLabel z = chars "tiles[z=" ++ ds ++ chars "]" := by
  obtain ⟨h1, h2, h3⟩ := padZero_spec 2 z (by norm_num) (by omega)
  exact ⟨_, h1, h3, h2, by rw [tilesLabel]; rfl⟩

theorem sizes_line {fl : ℚ → ℚ} (hfl : Doubles fl) {near : ℚ → Nat} (hnear : Nearest near) {short : ℚ → Bytes} (hs : ShortText short) (label : Bytes) (m : List Nat)
    (h : m.length ≤ 2 ^ 53 ∧ m.sum ≤ 2 ^ 53) :
    ∃ line, sizesLine fl near short label m = .ok line ∧ LineSays byteUnits 1024 2 16 [] label m line :=
  line_says hfl hnear hs (format_bytes fl hnear) 16 [] label m h.1 h.2

theorem payload_ok {fl : ℚ → ℚ} (hfl : Doubles fl) {near : ℚ → Nat} (hnear : Nearest near) {short : ℚ → Bytes} (hs : ShortText short) (st : DbStats) (hst : FitsDoubles st) :
    ∃ lines : List Bytes, List.Forall₂ (fun l line => LineSays byteUnits 1024 2 16 [] (chars l.1) l.2 line) (payloadOf st) lines ∧
      printAll [.ok (">> payload stats:\n".toUTF8.data.toList),
        sizesLine fl near short "pack".toUTF8.data.toList st.packs.packs,
        sizesLine fl near short "pack: index".toUTF8.data.toList st.packs.index,
        sizesLine fl near short "feature: header".toUTF8.data.toList st.packs.feats.headers,
        sizesLine fl near short "feature: masks".toUTF8.data.toList st.packs.feats.masks,
        sizesLine fl near short "feature: geo".toUTF8.data.toList st.packs.feats.geos] = .ok (chars ">> payload stats:\n" ++ lines.flatten) := by
  obtain ⟨ts, h1, h2⟩ := printAll_ok (fun l : String × List Nat => sizesLine fl near short (chars l.1) l.2) (fun l line => LineSays byteUnits 1024 2 16 [] (chars l.1) l.2 line)
    (payloadOf st) (fun l hl => sizes_line hfl hnear hs _ _ (hst.payload _ (by
      simp only [payloadOf, List.mem_cons, List.not_mem_nil, or_false] at hl ⊢
      rcases hl with rfl | rfl | rfl | rfl | rfl <;> simp)))
  exact ⟨ts, h1, printAll_append [.ok (chars ">> payload stats:\n")] _ (a := chars ">> payload stats:\n") (by simp [printAll, Res.ok_bind, Res.pure_eq]) h2⟩

/-- C84: the report of a database without prepared tiles. -/
theorem C84_stats_unprepared (fl : ℚ → ℚ) (hfl : Doubles fl) (near : ℚ → Nat) (hnear : Nearest near) (short : ℚ → Bytes) (hs : ShortText short) (st : DbStats)
    (hst : FitsDoubles st) (ht : st.tiles = none) :
    ∃ lines : List Bytes, List.Forall₂ (fun l line => LineSays byteUnits 1024 2 16 [] (chars l.1) l.2 line) (payloadOf st) lines ∧
      statsText fl near short st = .ok (chars ">> payload stats:\n" ++ lines.flatten ++ chars "no tiles prepared!\n") := by
  obtain ⟨ts, h1, h2⟩ := payload_ok hfl hnear hs st hst
  refine ⟨ts, h1, ?_⟩
  rw [statsText, ht]
  exact printAll_append _ _ h2 (by simp [printAll, Res.ok_bind, Res.pure_eq, chars])

/-- C84: the report of a database with prepared tiles: five lines about the payload, one line for each zoom level with the sizes of its prepared tiles, and the total. -/
theorem C84_stats (fl : ℚ → ℚ) (hfl : Doubles fl) (near : ℚ → Nat) (hnear : Nearest near) (short : ℚ → Bytes) (hs : ShortText short) (st : DbStats)
    (hst : FitsDoubles st) (sizes : List (List Nat)) (total : Nat) (ht : st.tiles = some (sizes, total)) :
    ∃ (lines levels : List Bytes) (t : Bytes), List.Forall₂ (fun l line => LineSays byteUnits 1024 2 16 [] (chars l.1) l.2 line) (payloadOf st) lines ∧
      levels.length = sizes.length ∧ (∀ z (h : z < sizes.length) (h' : z < levels.length), LineSays byteUnits 1024 2 16 [] (tilesLabel z) sizes[z] levels[z]) ∧
      GoodFigure byteUnits 1024 2 t total ∧
      statsText fl near short st = .ok (chars ">> payload stats:\n" ++ lines.flatten ++ levels.flatten ++ chars "====\ntotal: " ++ t ++ [10, 10]) := by
  obtain ⟨ts, h1, h2⟩ := payload_ok hfl hnear hs st hst
  obtain ⟨hz, htot⟩ := hst.tiles _ ht
  obtain ⟨lv, h3, h4⟩ := printAll_ok (fun p : List Nat × Nat => sizesLine fl near short (tilesLabel p.2) p.1)
    (fun p line => LineSays byteUnits 1024 2 16 [] (tilesLabel p.2) p.1 line) sizes.zipIdx (fun p hp => sizes_line hfl hnear hs _ _ (hz _ (by
      obtain ⟨m, i⟩ := p
      exact (List.mem_zipIdx_iff_getElem?.1 hp |> List.mem_of_getElem?))))
  have hlen := h3.length_eq
  rw [List.length_zipIdx] at hlen
  refine ⟨ts, lv, _, h1, hlen.symm, fun z h h' => ?_, C84_bytes near hnear _ (by positivity), ?_⟩
  · have := (List.forall₂_iff_get.1 h3).2 z (by simpa using h) h'
    simpa using this
  · rw [statsText, ht]
    have h5 : printAll [.ok "====\n".toUTF8.data.toList, .ok ("total: ".toUTF8.data.toList ++ printableBytes near (fl total)), .ok [10, 10]] =
        .ok (chars "====\ntotal: " ++ printableBytes near total ++ [10, 10]) := by
      rw [hfl.whole total htot]
      simp only [printAll, Res.ok_bind, Res.pure_eq, chars, List.append_nil, List.append_assoc]
      rfl
    have := printAll_append _ _ h2 (printAll_append _ _ h4 h5)
    simpa only [List.append_assoc] using this

/-! ### a concrete case -/

/-- round half up, and a text for small whole numbers -/
def nearDemo (q : ℚ) : Nat := ⌊q + 1 / 2⌋₊

theorem nearDemo_nearest : Nearest nearDemo := fun q hq => by
  have h1 := Nat.floor_le (show 0 ≤ q + 1 / 2 by positivity)
  have h2 := Nat.lt_floor_add_one (q + 1 / 2)
  rw [abs_le, nearDemo]
  constructor <;> linarith

def shortDemo (q : ℚ) : Bytes := toDec ⌊q⌋₊

theorem shortDemo_ok : ShortText shortDemo := fun k hk b => by
  rw [shortDemo, Nat.floor_natCast]
  refine ⟨?_, (toDec_len (d := 3) (by norm_num) hk).trans (by norm_num)⟩
  obtain ⟨h1, h2⟩ := toDec_spec k
  obtain ⟨h3, h4⟩ := take_digits (r := [32]) h1 (by decide)
  unfold readFigure
  rw [List.append_assoc]
  simp only [drop_blanks b (head_digit h1 (toDec_ne k)), h3, h4, if_neg (toDec_ne k), h2]
  rfl

/-- The hypotheses hold for a counter with three requests; the first two figures. -/
example : ∃ lines : List Bytes, perfText id nearDemo shortDemo ⟨fun _ => none, fun t => if t = .resultSize then [900, 2048, 1500000] else [3, 1500]⟩ = .ok lines.flatten ∧ lines.length = 13 := by
  obtain ⟨-, -, lines, h, h'⟩ := C84_perf id doubles_id nearDemo nearDemo_nearest shortDemo shortDemo_ok
    ⟨fun _ => none, fun t => if t = .resultSize then [900, 2048, 1500000] else [3, 1500]⟩ (fun t => by dsimp only; split <;> decide)
  exact ⟨lines, h, h'.length_eq.symm⟩

example : printableBytes nearDemo 1536 = chars "   1.50KB" ∧ printableBytes nearDemo 1000 = chars "1000.00B " ∧ printableNs id nearDemo 2500000 = chars "  2.500ms" := by
  refine ⟨by decide +kernel, by decide +kernel, by decide +kernel⟩

/-- The report of a database runs the words together: there is no blank between the sum and "mean". -/
example : sizesLine id nearDemo shortDemo (chars "pack") [1024, 2048] =
    .ok (chars "pack             > cnt:      2  sum:    3.00KBmean:    1.50KB q95:    2.00KB max:    2.00KB\n") := by
  have h : perfReport id [1024, 2048] = .ok (2, 2048, 2048) := by
    rw [perfReport, List.mergeSort_of_pairwise (by decide)]
    decide +kernel
  rw [sizesLine, reportLine, h]
  decide +kernel

end Tiles
