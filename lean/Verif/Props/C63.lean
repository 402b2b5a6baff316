import Verif.Spec.Area
import Verif.Spec.Profile
import Verif.Props.C62
import Mathlib.Tactic.Ring
import Mathlib.Tactic.Linarith
import Mathlib.Tactic.Positivity
/-! C63 — areas: which polygons are left out of a tile, and which zoom levels an object is approved for by its area. -/
namespace Tiles
open Spec

/-! ### the sum over the segments of a ring -/

/-- twice the area between a path and the y-axis -/
def pathSum : Line → Int
  | p :: q :: l => (p.x + q.x) * (p.y - q.y) + pathSum (q :: l)
  | _ => 0

/-- within `B` of a point, in each coordinate -/
def NearPt (X Y B : Int) (p : XY) : Prop := |p.x - X| ≤ B ∧ |p.y - Y| ≤ B

theorem areaTerm_exact {fl : ℚ → ℚ} (hfl : ExactSmall fl) {X Y B : Int} {p q : XY} (hX : |X| + B ≤ 2 ^ 52) (hY : |Y| + B ≤ 2 ^ 52) (hp : NearPt X Y B p)
    (hq : NearPt X Y B q) (hb : 4 * |X| * B + 4 * B * B ≤ 2 ^ 53) : areaTerm fl p q = ((p.x + q.x) * (p.y - q.y) : Int) := by
  obtain ⟨p1, p2⟩ := hp
  obtain ⟨q1, q2⟩ := hq
  have hB : 0 ≤ B := (abs_nonneg _).trans p1
  have ab : ∀ {a A : Int}, |a - A| ≤ B → |a| ≤ |A| + B := by
    intro a A h
    have := abs_add_le (a - A) A
    rw [sub_add_cancel] at this
    linarith
  have e : ∀ k : Int, |k| ≤ 2 ^ 53 → fl (k : ℚ) = k := fun k hk => (hfl k hk).1
  have hpx := ab p1; have hpy := ab p2; have hqx := ab q1; have hqy := ab q2
  have hs : |p.x + q.x| ≤ 2 * |X| + 2 * B := (abs_add_le _ _).trans (by linarith)
  have hd : |p.y - q.y| ≤ 2 * B := by
    have : p.y - q.y = (p.y - Y) - (q.y - Y) := by ring
    rw [this]
    exact (abs_sub _ _).trans (by linarith)
  have hm : |(p.x + q.x) * (p.y - q.y)| ≤ 2 ^ 53 := by
    rw [abs_mul]
    calc |p.x + q.x| * |p.y - q.y| ≤ (2 * |X| + 2 * B) * (2 * B) := mul_le_mul hs hd (abs_nonneg _) (by positivity)
      _ ≤ 2 ^ 53 := by linarith
  rw [areaTerm, e _ (by linarith), e _ (by linarith), e _ (by linarith), e _ (by linarith)]
  have h1 : ((p.x : ℚ) + q.x) = ((p.x + q.x : Int) : ℚ) := by push_cast; rfl
  have h2 : ((p.y : ℚ) - q.y) = ((p.y - q.y : Int) : ℚ) := by push_cast; rfl
  have hYn := abs_nonneg Y
  rw [h1, h2, e _ (by linarith), e _ (by linarith), ← Int.cast_mul, e _ hm]

theorem ringSum_exact {fl : ℚ → ℚ} (hfl : ExactSmall fl) {X Y B y0 : Int} (hX : |X| + B ≤ 2 ^ 52) (hY : |Y| + B ≤ 2 ^ 52) (hy : |y0 - Y| ≤ B) :
    ∀ (l : Line) (p : XY) (k : Nat) (s : Int), (∀ q ∈ p :: l, NearPt X Y B q) → |s - 2 * X * (y0 - p.y)| ≤ 4 * k * B * B →
      4 * |X| * B + 4 * (k + l.length) * B * B ≤ 2 ^ 53 →
      ringSum fl s (p :: l) = (s + pathSum (p :: l) : Int) ∧ |s + pathSum (p :: l) - 2 * X * (y0 - (l.getLastD p).y)| ≤ 4 * (k + l.length) * B * B := by
  intro l
  induction l with
  | nil => intro p k s _ h _; simpa [ringSum, pathSum] using h
  | cons q l ih =>
    intro p k s hn h hb
    have hp := hn p (by simp)
    have hq := hn q (by simp)
    have hB : 0 ≤ B := (abs_nonneg _).trans hy
    have hBB : 0 ≤ B * B := mul_nonneg hB hB
    have hlen : (0 : Int) ≤ l.length := by positivity
    have hk : (0 : Int) ≤ k := by positivity
    rw [List.length_cons] at hb ⊢
    push_cast at hb ⊢
    have hterm := areaTerm_exact hfl hX hY hp hq (by nlinarith)
    have hd : |p.y - q.y| ≤ 2 * B := by
      have : p.y - q.y = (p.y - Y) - (q.y - Y) := by ring
      rw [this]
      exact (abs_sub _ _).trans (by linarith [hp.2, hq.2])
    have hxs : |(p.x - X) + (q.x - X)| ≤ 2 * B := (abs_add_le _ _).trans (by linarith [hp.1, hq.1])
    have hmul : |((p.x - X) + (q.x - X)) * (p.y - q.y)| ≤ 4 * B * B := by
      rw [abs_mul]
      calc _ ≤ (2 * B) * (2 * B) := mul_le_mul hxs hd (abs_nonneg _) (by positivity)
        _ = 4 * B * B := by ring
    have hnext : |s + (p.x + q.x) * (p.y - q.y) - 2 * X * (y0 - q.y)| ≤ 4 * (k + 1) * B * B := by
      have : s + (p.x + q.x) * (p.y - q.y) - 2 * X * (y0 - q.y) = (s - 2 * X * (y0 - p.y)) + ((p.x - X) + (q.x - X)) * (p.y - q.y) := by ring
      rw [this]
      exact (abs_add_le _ _).trans (by linarith)
    have hyq : |y0 - q.y| ≤ 2 * B := by
      have : y0 - q.y = (y0 - Y) - (q.y - Y) := by ring
      rw [this]
      exact (abs_sub _ _).trans (by linarith [hq.2])
    have hsmall : |s + (p.x + q.x) * (p.y - q.y)| ≤ 2 ^ 53 := by
      have h1 : |2 * X * (y0 - q.y)| ≤ 4 * |X| * B := by
        rw [abs_mul, abs_mul, abs_two]
        calc 2 * |X| * |y0 - q.y| ≤ 2 * |X| * (2 * B) := mul_le_mul_of_nonneg_left hyq (by positivity)
          _ = _ := by ring
      have h2 := abs_add_le (s + (p.x + q.x) * (p.y - q.y) - 2 * X * (y0 - q.y)) (2 * X * (y0 - q.y))
      rw [sub_add_cancel] at h2
      nlinarith
    rw [ringSum, hterm, ← Int.cast_add, (hfl _ hsmall).1, pathSum]
    obtain ⟨i1, i2⟩ := ih q (k + 1) (s + (p.x + q.x) * (p.y - q.y)) (fun x hx => hn x (by simp [hx])) (by push_cast; exact hnext) (by push_cast; linarith)
    refine ⟨by rw [i1]; push_cast; ring, ?_⟩
    have e : (List.getLastD (q :: l) p) = l.getLastD q := by cases l <;> rfl
    rw [e]
    have : s + ((p.x + q.x) * (p.y - q.y) + pathSum (q :: l)) = s + (p.x + q.x) * (p.y - q.y) + pathSum (q :: l) := by ring
    rw [this]
    push_cast at i2
    linarith

/-! ### rings and polygons -/

theorem pathSum_shoelace (l : Line) : ∀ (p a : XY), pathSum (p :: l) =
    p.x * p.y - (l.getLastD p).x * (l.getLastD p).y - ((((p :: l).zip (l ++ [a])).map (fun e => e.1.x * e.2.y - e.2.x * e.1.y)).sum
      - ((l.getLastD p).x * a.y - a.x * (l.getLastD p).y)) := by
  induction l with
  | nil => intro p a; simp [pathSum]
  | cons q l ih =>
    intro p a
    have e : (List.getLastD (q :: l) p) = l.getLastD q := by cases l <;> rfl
    rw [pathSum, ih q a, e, List.cons_append, List.zip_cons_cons, List.map_cons, List.sum_cons]
    ring

/-- for a closed ring it is the shoelace formula -/
theorem pathSum_closed {r : Line} (h : r.head? = r.getLast?) : pathSum r = - area2 r := by
  cases r with
  | nil => rfl
  | cons p l =>
    have hl : l.getLastD p = p := by
      rw [List.head?_cons, List.getLast?_cons] at h
      injection h with h
      rw [List.getLastD_eq_getLast?]; exact h.symm
    rw [pathSum_shoelace l p p, hl, area2]
    simp

theorem pathSum_short {r : Line} (h : r.head? = r.getLast?) (hl : r.length < 4) : pathSum r = 0 := by
  match r, h with
  | [], _ => rfl
  | [_], _ => rfl
  | [p, q], h =>
    have : p = q := by simpa using h
    subst this; simp [pathSum]
  | [p, q, x], h =>
    have : p = x := by simpa using h
    subst this
    simp [pathSum]; ring
  | _ :: _ :: _ :: _ :: _, _ => simp at hl; omega

theorem ringArea_exact {fl : ℚ → ℚ} (hfl : ExactSmall fl) {X Y B : Int} (hX : |X| + B ≤ 2 ^ 52) (hY : |Y| + B ≤ 2 ^ 52) {r : Line} (hr : r.head? = r.getLast?)
    (hn : ∀ p ∈ r, NearPt X Y B p) (hb : 4 * |X| * B + 4 * r.length * B * B ≤ 2 ^ 53) :
    ringArea fl r = (((- area2 r : Int) : ℚ) / 2) ∧ |area2 r| ≤ 4 * r.length * B * B := by
  rw [← pathSum_closed hr]
  have habs : |area2 r| = |pathSum r| := by rw [pathSum_closed hr, abs_neg]
  rw [habs]
  cases r with
  | nil => simp [ringArea, pathSum]
  | cons p l =>
    have hp := hn p (by simp)
    have hB : 0 ≤ B := (abs_nonneg _).trans hp.1
    have hBB : 0 ≤ B * B := mul_nonneg hB hB
    have hXB : 0 ≤ |X| * B := mul_nonneg (abs_nonneg _) hB
    rw [List.length_cons] at hb ⊢
    push_cast at hb ⊢
    obtain ⟨h1, h2⟩ := ringSum_exact hfl hX hY (y0 := p.y) hp.2 l p 0 0 hn (by simp) (by push_cast; nlinarith)
    have hl : l.getLastD p = p := by
      rw [List.head?_cons, List.getLast?_cons] at hr
      injection hr with hr
      rw [List.getLastD_eq_getLast?]; exact hr.symm
    rw [hl, sub_self, mul_zero, sub_zero, zero_add] at h2
    push_cast at h2
    rw [zero_add] at h2
    refine ⟨?_, by nlinarith⟩
    rw [ringArea]
    split
    · rename_i hs
      rw [pathSum_short hr hs]; simp
    · have h1 : ringSum fl 0 (p :: l) = (pathSum (p :: l) : Int) := by simpa using h1
      rw [h1]
      exact (hfl _ (by nlinarith)).2

theorem sumHalves {fl : ℚ → ℚ} (hfl : ExactSmall fl) {α : Type} (f : α → ℚ) (g : α → Int) (n : α → Nat) (C : Int) (hC : 0 ≤ C) :
    ∀ (l : List α) (s : Int) (k : Nat), (∀ a ∈ l, f a = (g a : ℚ) / 2 ∧ |g a| ≤ n a * C) → |s| ≤ k * C → ((k + (l.map n).sum : Nat) : Int) * C ≤ 2 ^ 53 →
      l.foldl (fun s a => fl (s + f a)) ((s : ℚ) / 2) = ((s + (l.map g).sum : Int) : ℚ) / 2 ∧ |s + (l.map g).sum| ≤ ((k + (l.map n).sum : Nat) : Int) * C := by
  intro l
  induction l with
  | nil => intro s k _ hs _; simpa using hs
  | cons a l ih =>
    intro s k h hs hb
    obtain ⟨h1, h2⟩ := h a (by simp)
    have hsa : |s + g a| ≤ ((k + n a : Nat) : Int) * C := by
      push_cast
      exact (abs_add_le _ _).trans (by linarith)
    have hb' : (((k + n a) + (l.map n).sum : Nat) : Int) * C ≤ 2 ^ 53 := by
      rw [List.map_cons, List.sum_cons, ← Nat.add_assoc] at hb; exact hb
    have hle : ((k + n a : Nat) : Int) * C ≤ 2 ^ 53 := by
      refine le_trans ?_ hb'
      apply mul_le_mul_of_nonneg_right _ hC
      push_cast
      have : (0 : Int) ≤ ((l.map n).sum : Nat) := by positivity
      linarith
    have e : (s : ℚ) / 2 + f a = ((s + g a : Int) : ℚ) / 2 := by rw [h1]; push_cast; ring
    rw [List.foldl_cons, e, (hfl _ (hsa.trans hle)).2]
    obtain ⟨i1, i2⟩ := ih (s + g a) (k + n a) (fun b hb => h b (by simp [hb])) hsa hb'
    rw [List.map_cons, List.sum_cons, List.map_cons, List.sum_cons]
    refine ⟨by rw [i1]; push_cast; ring, ?_⟩
    rw [← add_assoc, ← Nat.add_assoc]; exact i2

/-- number of points -/
def pointsOf (p : Polygon) : Nat := p.outer.length + (p.inners.map List.length).sum

theorem polygonArea_exact {fl : ℚ → ℚ} (hfl : ExactSmall fl) {X Y B : Int} (hB : 0 ≤ B) (hX : |X| + B ≤ 2 ^ 52) (hY : |Y| + B ≤ 2 ^ 52) {p : Polygon}
    (hr : ∀ r ∈ p.outer :: p.inners, r.head? = r.getLast?) (hn : ∀ r ∈ p.outer :: p.inners, ∀ q ∈ r, NearPt X Y B q)
    (hb : 4 * |X| * B + pointsOf p * (4 * B * B) ≤ 2 ^ 53) :
    polygonArea fl p = (((((p.outer :: p.inners).map (fun r => - area2 r)).sum : Int) : ℚ) / 2) ∧
    |((p.outer :: p.inners).map (fun r => - area2 r)).sum| ≤ pointsOf p * (4 * B * B) := by
  have hBB : 0 ≤ B * B := mul_nonneg hB hB
  have hC : 0 ≤ 4 * B * B := by linarith
  have hXB : 0 ≤ 4 * |X| * B := by have := mul_nonneg (abs_nonneg X) hB; linarith
  have hlen : ∀ r ∈ p.outer :: p.inners, (r.length : Int) * (4 * B * B) ≤ pointsOf p * (4 * B * B) := by
    intro r hrm
    apply mul_le_mul_of_nonneg_right _ hC
    rw [pointsOf]
    rcases List.mem_cons.1 hrm with rfl | hrm
    · push_cast
      have : (0 : Int) ≤ ((p.inners.map List.length).sum : Nat) := by positivity
      linarith
    · have := List.single_le_sum (l := p.inners.map List.length) (by simp) _ (List.mem_map_of_mem hrm)
      push_cast
      have : (r.length : Int) ≤ ((p.inners.map List.length).sum : Nat) := by exact_mod_cast this
      linarith
  have hring : ∀ r ∈ p.outer :: p.inners, ringArea fl r = (((- area2 r : Int) : ℚ) / 2) ∧ |- area2 r| ≤ r.length * (4 * B * B) := by
    intro r hrm
    obtain ⟨h1, h2⟩ := ringArea_exact hfl hX hY (hr r hrm) (hn r hrm) (by have := hlen r hrm; nlinarith)
    exact ⟨h1, by rw [abs_neg]; linarith⟩
  obtain ⟨o1, o2⟩ := hring p.outer (by simp)
  have htot : (((0 + (p.inners.map List.length).sum : Nat) : Int)) * (4 * B * B) ≤ 2 ^ 53 := by
    rw [pointsOf] at hb
    push_cast at hb ⊢
    have : (0 : Int) ≤ p.outer.length * (4 * B * B) := mul_nonneg (by positivity) hC
    nlinarith
  obtain ⟨i1, i2⟩ := sumHalves hfl (ringArea fl) (fun r => - area2 r) List.length (4 * B * B) hC p.inners 0 0
    (fun r hrm => hring r (by simp [hrm])) (by simp) htot
  rw [Int.cast_zero, zero_div] at i1
  have htotal : |((p.outer :: p.inners).map (fun r => - area2 r)).sum| ≤ pointsOf p * (4 * B * B) := by
    rw [List.map_cons, List.sum_cons, pointsOf]
    rw [zero_add] at i2
    push_cast at i2 ⊢
    exact (abs_add_le _ _).trans (by linarith)
  refine ⟨?_, htotal⟩
  rw [polygonArea, i1, o1]
  have e : (((- area2 p.outer : Int) : ℚ) / 2) + ((0 + (p.inners.map (fun r => - area2 r)).sum : Int) : ℚ) / 2 =
      ((((p.outer :: p.inners).map (fun r => - area2 r)).sum : Int) : ℚ) / 2 := by
    rw [List.map_cons, List.sum_cons]; push_cast; ring
  rw [e]
  exact (hfl _ (by linarith)).2

theorem toInt64_half {k : Int} (h : |k| ≤ 2 ^ 63) : toInt64 ((k : ℚ) / 2) = .ok (k.tdiv 2) := by
  have hk : (if (0 : ℚ) ≤ (k : ℚ) / 2 then ⌊(k : ℚ) / 2⌋ else ⌈(k : ℚ) / 2⌉) = k.tdiv 2 := by
    have hfloor : ∀ j : Int, ⌊(j : ℚ) / 2⌋ = j / 2 := by
      intro j
      rw [Int.floor_eq_iff]
      have h1 : j / 2 * 2 ≤ j := by omega
      have h2 : j < (j / 2 + 1) * 2 := by omega
      have h1 : ((j / 2 : Int) : ℚ) * 2 ≤ j := by exact_mod_cast h1
      have h2 : (j : ℚ) < (((j / 2 : Int) : ℚ) + 1) * 2 := by exact_mod_cast h2
      constructor <;> linarith
    split
    · rename_i h0
      rw [hfloor]
      have : (0 : ℚ) ≤ k := by linarith
      have : 0 ≤ k := by exact_mod_cast this
      rw [Int.tdiv_eq_ediv_of_nonneg this]
    · rename_i h0
      have : (k : ℚ) < 0 := by linarith
      have hneg : k < 0 := by exact_mod_cast this
      have e : ⌈(k : ℚ) / 2⌉ = - ⌊((-k : Int) : ℚ) / 2⌋ := by
        rw [← Int.ceil_neg]; congr 1; push_cast; ring
      rw [e, hfloor]
      have : k.tdiv 2 = - ((-k).tdiv 2) := by rw [Int.neg_tdiv, neg_neg]
      rw [this, Int.tdiv_eq_ediv_of_nonneg (by omega)]
  rw [toInt64, hk]
  rw [abs_le] at h
  have h1 : - 2 ^ 63 ≤ k.tdiv 2 ∧ k.tdiv 2 < 2 ^ 63 := by
    clear hk
    rcases le_total 0 k with h0 | h0
    · rw [Int.tdiv_eq_ediv_of_nonneg h0]; omega
    · have : k.tdiv 2 = - ((-k).tdiv 2) := by rw [Int.neg_tdiv, neg_neg]
      rw [this, Int.tdiv_eq_ediv_of_nonneg (by omega)]; omega
  rw [if_pos h1]

/-- The area of polygons that are not too large is exact: when all points lie in a square of side `2 B` around `(X, Y)` and the polygons have `n` points, with
`4 |X| B + 4 n B² ≤ 2^53`, the result is half of the shoelace sum, rounded towards zero. -/
theorem C63_exact {fl : ℚ → ℚ} (hfl : ExactSmall fl) (X Y B : Int) (hB : 0 ≤ B) (hX : |X| + B ≤ 2 ^ 52) (hY : |Y| + B ≤ 2 ^ 52) (ps : List Polygon)
    (hr : ∀ r ∈ ringsOf ps, r.head? = r.getLast?) (hn : ∀ r ∈ ringsOf ps, ∀ p ∈ r, |p.x - X| ≤ B ∧ |p.y - Y| ≤ B)
    (hb : 4 * |X| * B + ((ringsOf ps).map List.length).sum * (4 * B * B) ≤ 2 ^ 53) :
    geometryArea fl (.polygon ps) = .ok ((areaTwice ps).tdiv 2) := by
  have hBB : 0 ≤ B * B := mul_nonneg hB hB
  have hC : 0 ≤ 4 * B * B := by linarith
  have hXB : 0 ≤ 4 * |X| * B := by have := mul_nonneg (abs_nonneg X) hB; linarith
  have hpts : ((ringsOf ps).map List.length).sum = (ps.map pointsOf).sum := by
    clear hr hn hb
    induction ps with
    | nil => rfl
    | cons p ps ih =>
      rw [List.map_cons (l := ps), List.sum_cons, ← ih, ringsOf, List.flatMap_cons, List.map_append, List.sum_append]; rfl
  have hsum : areaTwice ps = (ps.map (fun p => ((p.outer :: p.inners).map (fun r => - area2 r)).sum)).sum := by
    clear hr hn hb hpts
    induction ps with
    | nil => rfl
    | cons p ps ih =>
      rw [List.map_cons (l := ps), List.sum_cons, ← ih, areaTwice, ringsOf, List.flatMap_cons, List.map_append, List.sum_append]; rfl
  rw [hpts] at hb
  have hmem : ∀ p ∈ ps, ∀ r ∈ p.outer :: p.inners, r ∈ ringsOf ps := fun p hp r hr => List.mem_flatMap.2 ⟨p, hp, hr⟩
  have heach : ∀ p ∈ ps, polygonArea fl p = (((((p.outer :: p.inners).map (fun r => - area2 r)).sum : Int) : ℚ) / 2) ∧
      |((p.outer :: p.inners).map (fun r => - area2 r)).sum| ≤ pointsOf p * (4 * B * B) := by
    intro p hp
    refine polygonArea_exact hfl hB hX hY (fun r h => hr r (hmem p hp r h)) (fun r h => hn r (hmem p hp r h)) ?_
    refine le_trans ?_ hb
    have := List.single_le_sum (l := ps.map pointsOf) (by simp) _ (List.mem_map_of_mem hp)
    have : (pointsOf p : Int) ≤ ((ps.map pointsOf).sum : Nat) := by exact_mod_cast this
    have := mul_le_mul_of_nonneg_right this hC
    linarith
  obtain ⟨h1, h2⟩ := sumHalves hfl (polygonArea fl) (fun p => ((p.outer :: p.inners).map (fun r => - area2 r)).sum) pointsOf (4 * B * B) hC ps 0 0 heach (by simp)
    (by rw [Nat.zero_add]; linarith)
  rw [Int.cast_zero, zero_div, zero_add, ← hsum] at h1
  rw [zero_add, Nat.zero_add, ← hsum] at h2
  rw [geometryArea, multiArea, h1]
  exact toInt64_half (by norm_num at *; linarith)

/-! ### polygons in a tile -/

/-- Whether a polygon that is drawn in a tile is smaller than a pixel of the screen (16 x 16 units) is decided exactly, from the shoelace formula on its
coordinates in the tile (as long as it has no more than 2^23 points). -/
theorem C63_pixel {fl : ℚ → ℚ} (hfl : ExactSmall fl) {e : Int} (he : 0 ≤ e) (he' : e ≤ 2048) (q : Tile) (hq : q.Valid) (hz : q.z ≤ 20) (qs : List Polygon)
    (hr : ∀ r ∈ ringsOf qs, r.head? = r.getLast?) (hn : ∀ r ∈ ringsOf qs, ∀ p ∈ r, InMargin e q.z (rel (specOf q).px.min p))
    (hlen : ((ringsOf qs).map List.length).sum ≤ 2 ^ 23) : smallerThanPixel fl (.polygon qs) = .ok (decide (areaTwice qs < 512)) := by
  have hD : (1 : Int) ≤ 2 ^ (20 - q.z) := one_le_pow₀ (by omega)
  have hup : (4096 + e) / 2 ^ (20 - q.z) ≤ 4096 + e := Int.ediv_le_self _ (by omega)
  have hlow : -(4096 + e) ≤ (-(4096 + e)) / 2 ^ (20 - q.z) := by
    rw [Int.le_ediv_iff_mul_le (by omega)]
    nlinarith
  have hpow : (2 : Nat) ^ q.z ≤ 2 ^ 20 := Nat.pow_le_pow_right (by omega) hz
  obtain ⟨v1, v2⟩ := hq
  have hx : q.x < 2 ^ 20 := by omega
  have hy : q.y < 2 ^ 20 := by omega
  have hX : |((q.x * 4096 + 2048 : Nat) : Int)| = q.x * 4096 + 2048 := by rw [abs_of_nonneg (by positivity)]; push_cast; rfl
  have hY : |((q.y * 4096 + 2048 : Nat) : Int)| = q.y * 4096 + 2048 := by rw [abs_of_nonneg (by positivity)]; push_cast; rfl
  have hlen' : (((ringsOf qs).map List.length).sum : Int) ≤ 2 ^ 23 := by exact_mod_cast hlen
  have key := C63_exact hfl ((q.x * 4096 + 2048 : Nat) : Int) ((q.y * 4096 + 2048 : Nat) : Int) 8192 (by norm_num) (by rw [hX]; norm_num; omega) (by rw [hY]; norm_num; omega) qs hr
    (by
      intro r hrm p hp
      obtain ⟨h1, h2, h3, h4⟩ := hn r hrm p hp
      simp only [rel, specOf, pxBounds] at h1 h2 h3 h4
      generalize (4096 + e) / 2 ^ (20 - q.z) = U at h1 h2 h3 h4 hup
      generalize (-(4096 + e)) / 2 ^ (20 - q.z) = V at h1 h2 h3 h4 hlow
      rw [abs_le, abs_le]
      push_cast at h1 h2 h3 h4 ⊢
      omega)
    (by rw [hX]; norm_num at hlen' ⊢; omega)
  rw [smallerThanPixel, key, Res.ok_bind]
  show Res.ok _ = Res.ok _
  congr 1
  rw [decide_eq_decide]
  simp only [kScreenPixelArea]
  rcases le_total 0 (areaTwice qs) with h0 | h0
  · rw [Int.tdiv_eq_ediv_of_nonneg h0]; omega
  · have : (areaTwice qs).tdiv 2 = - ((-areaTwice qs).tdiv 2) := by rw [Int.neg_tdiv, neg_neg]
    rw [this, Int.tdiv_eq_ediv_of_nonneg (by omega)]; omega

section
variable {e : Int} {inter : Box → List Line → List Line} {clipper : List Line → Box → Option (List PolyNode)} {correct : List Polygon → List Polygon}

/-- Which polygons a client sees: a polygon of the coastline layer (the first one) if anything is drawn of it; any other if what is drawn of it has an area of at
least one pixel of the screen, by the shoelace formula. -/
theorem C63_polygon {fl : ℚ → ℚ} (hfl : ExactSmall fl) (hl : ClipLib e inter clipper correct) (he : 0 ≤ e) (he' : e ≤ 2048) (ctx : RenderCtx)
    (hctx : ctx.clip = clipGeometry inter clipper correct) (htiny : ∀ g b, smallerThanPixel fl g = .ok b → ctx.tiny g = b) (hagg : ctx.aggPolygons = true)
    (hdrop : ctx.dropSubpixel = true) (hnames : ctx.layerNames.Nodup)
    (simplify : Nat → Line → Line) (q : Tile) (hq : q.Valid) (hz : q.z ≤ 20)
    (haggl : ∀ fs out, aggregateLineFeatures simplify q.z fs = .ok out → ctx.aggregate q.z fs = out) (fs : List Feature)
    (hline : ∀ g ∈ fs, isLine g = true → LineFeature g) (f : Feature) (hf : f ∈ fs) (hlay : f.layer < ctx.layerNames.length)
    (hone : ∀ g ∈ fs, g.layer = f.layer → g.id = f.id → typeOf g.geometry = 3 → g.geometry = f.geometry)
    (ps : List Polygon) (hg : f.geometry = .polygon ps) (hclip : Clippable f.geometry) (hshort : NoLongLine ctx q f) :
    ∃ r, drawGeometry ctx (specOf q) f.geometry = .ok r ∧ (((allLines r).map List.length).sum ≤ 2 ^ 23 →
      ((∃ L ∈ tileContent ctx (specOf q) fs, ctx.layerNames[f.layer]? = some L.name ∧ ∃ c ∈ L.features, c.id = f.id ∧ c.type = 3) ↔
        ∃ qs, r = .polygon qs ∧ (f.layer = 0 ∨ 512 ≤ areaTwice qs))) := by
  obtain ⟨r, h1, h2, _, h3⟩ := C62_draw hl he (by norm_num at he' ⊢; omega) ctx hctx q hz f.geometry hclip hshort
  refine ⟨r, h1, fun hlen => ?_⟩
  have hty : typeOf f.geometry = 3 := by rw [hg]; rfl
  have hrty : r ≠ .null → ∃ qs, r = .polygon qs := by
    intro hne
    have := drawn_type hctx (s := specOf q) hz h1 hne
    rw [hty] at this
    cases r with
    | polygon qs => exact ⟨qs, rfl⟩
    | _ => cases this
  have hdropped : ∀ qs, r = .polygon qs → ctx.tiny r = decide (areaTwice qs < 512) := by
    rintro qs rfl
    exact htiny _ _ (C63_pixel hfl he he' q hq hz qs (h3 ps hg) h2 hlen)
  have hall : ∀ g ∈ ofLayer fs f.layer, g.id = f.id → typeOf g.geometry = 3 → g.geometry = f.geometry := by
    intro g hgm
    obtain ⟨k1, k2⟩ := List.mem_filter.1 hgm
    exact hone g k1 (of_decide_eq_true k2)
  have hlayer : ∀ g ∈ ofLayer fs f.layer, g.layer = f.layer := fun g hgm => of_decide_eq_true (List.mem_filter.1 hgm).2
  constructor
  · rintro ⟨L, hL, hname, c, hc, hid, htype⟩
    rw [tileContent, List.mem_filterMap] at hL
    obtain ⟨i, hi, hL⟩ := hL
    dsimp only at hL
    split at hL
    · cases hL
    injection hL with hL
    subst hL
    rw [List.mem_range] at hi
    have hi' : i = f.layer := by
      rw [List.getElem?_eq_getElem hi, List.getElem?_eq_getElem hlay] at hname
      injection hname with hname
      exact ((List.Nodup.getElem_inj_iff hnames).1 hname).symm
    subst hi'
    obtain ⟨w, hw, rfl⟩ := List.mem_map.1 hc
    have hw' := hw
    rw [layerContent, List.mem_filter] at hw
    obtain ⟨hw, hn⟩ := hw
    have hn : w.geometry ≠ .null := by simpa [nonNull] using hn
    have htype : typeOf w.geometry = 3 := htype
    have hid : w.id = f.id := hid
    have hgeo : ∀ g, w = drawn ctx (specOf q) g → typeOf g.geometry = 3 := by
      rintro g rfl
      have hx : ∃ x, drawGeometry ctx (specOf q) g.geometry = .ok x := by
        by_contra hc
        apply hn
        rw [drawn]
        cases hx : drawGeometry ctx (specOf q) g.geometry with
        | ok x => exact absurd ⟨x, hx⟩ hc
        | _ => rfl
      obtain ⟨x, hx⟩ := hx
      have hwx : (drawn ctx (specOf q) g).geometry = x := by simp only [drawn, hx]
      rw [hwx] at hn htype
      rw [← drawn_type hctx (s := specOf q) hz hx hn]; exact htype
    simp only [List.mem_append, List.mem_map, List.mem_filter] at hw
    rcases hw with (⟨g, k1, rfl⟩ | ⟨⟨g, k1, rfl⟩, k2⟩) | ⟨g, k1, rfl⟩
    · exfalso
      have k2 := (List.mem_filter.1 k1).2
      simp [hagg, isPoly, hgeo g rfl] at k2
    · rw [bufferedPolys, if_pos hagg] at k1
      have k3 := (C28_unique (ofLayer fs f.layer)).2.2.subset (List.mem_filter.1 k1).1
      have k4 := hall g k3 hid (hgeo g rfl)
      have k5 : (drawn ctx (specOf q) g).geometry = r := by simp only [drawn, k4, h1]
      rw [k5] at hn
      obtain ⟨qs, hqs⟩ := hrty hn
      refine ⟨qs, hqs, ?_⟩
      have hl2 : (drawn ctx (specOf q) g).layer = f.layer := hlayer g k3
      rw [dropped, k5, hdropped qs hqs, hl2] at k2
      by_cases h0 : f.layer = 0
      · exact .inl h0
      · right
        simpa [h0, hdrop] using k2
    · exfalso
      obtain ⟨⟨ls, k2⟩, _⟩ := joined_from haggl (fun g hgm => hline g (List.mem_filter.1 hgm).1) k1
      have := hgeo g rfl
      rw [k2] at this; cases this
  · rintro ⟨qs, rfl, hbig⟩
    obtain ⟨g, k1, k2, k3⟩ := unique_has (List.mem_filter.2 ⟨hf, by simp⟩ : f ∈ ofLayer fs f.layer) (by rw [hg]; simp)
    have k4 := (C28_unique (ofLayer fs f.layer)).2.2.subset k1
    have k5 := hall g k4 k2 (k3.trans hty)
    have hb : g ∈ bufferedPolys ctx (ofLayer fs f.layer) := by
      rw [bufferedPolys, if_pos hagg, List.mem_filter]
      exact ⟨k1, by simp [isPoly, k5, hty]⟩
    have hgeo : (drawn ctx (specOf q) g).geometry = .polygon qs := by simp only [drawn, k5, h1]
    have hcontent : drawn ctx (specOf q) g ∈ layerContent ctx (specOf q) (ofLayer fs f.layer) := by
      rw [layerContent, List.mem_filter]
      refine ⟨?_, by simp [nonNull, hgeo]⟩
      simp only [List.mem_append, List.mem_map, List.mem_filter]
      refine .inl (.inr ⟨⟨g, hb, rfl⟩, ?_⟩)
      have hl2 : (drawn ctx (specOf q) g).layer = f.layer := hlayer g k4
      rw [dropped, hgeo, hdropped qs rfl, hl2]
      rcases hbig with h | h
      · simp [h]
      · simp [not_lt.2 h]
    refine ⟨⟨2, ctx.layerNames[f.layer]?.getD [], 4096, (layerContent ctx (specOf q) (ofLayer fs f.layer)).map (view (specOf q).px.min)⟩, ?_, ?_,
      view (specOf q).px.min (drawn ctx (specOf q) g), List.mem_map_of_mem hcontent, k2, ?_⟩
    · rw [tileContent, List.mem_filterMap]
      refine ⟨f.layer, List.mem_range.2 hlay, ?_⟩
      dsimp only
      rw [if_neg]
      intro hc
      rw [hc] at hcontent
      cases hcontent
    · rw [List.getElem?_eq_getElem hlay]; rfl
    · show typeOf (drawn ctx (specOf q) g).geometry = 3
      rw [hgeo]; rfl
end

/-! ### large polygons: how far the result can be off -/

theorem sumError {fl : ℚ → ℚ} (hfl : Accurate fl) {α : Type} (x' x : α → ℚ) (n : α → Nat) (M e : ℚ) (hM : 0 ≤ M) (he : 0 ≤ e) :
    ∀ (l : List α) (s' s : ℚ) (k : Nat), (∀ a ∈ l, 1 ≤ n a ∧ |x a| ≤ n a * M ∧ |x' a - x a| ≤ n a * e) → |s| ≤ k * M →
      |s' - s| ≤ 2 * k * (e + k * (M / 2 ^ 53)) → k + (l.map n).sum ≤ 2 ^ 50 →
      |l.foldl (fun s a => fl (s + x' a)) s' - (s + (l.map x).sum)| ≤ 2 * (k + (l.map n).sum : Nat) * (e + (k + (l.map n).sum : Nat) * (M / 2 ^ 53)) ∧
      |s + (l.map x).sum| ≤ (k + (l.map n).sum : Nat) * M := by
  intro l
  induction l with
  | nil => intro s' s k _ h1 h2 _; simpa using ⟨h2, h1⟩
  | cons a l ih =>
    intro s' s k hl h1 h2 hk
    obtain ⟨a1, a2, a3⟩ := hl a (by simp)
    rw [List.map_cons, List.sum_cons, ← Nat.add_assoc] at hk
    have hq : (k : ℚ) + n a ≤ 2 ^ 50 := by
      have : k + n a ≤ 2 ^ 50 := by omega
      exact_mod_cast this
    have hn : (1 : ℚ) ≤ n a := by exact_mod_cast a1
    have hk0 : (0 : ℚ) ≤ k := by positivity
    have b1 : |s + x a| ≤ ((k + n a : Nat) : ℚ) * M := by
      push_cast
      exact (abs_add_le _ _).trans (by linarith)
    have b2 : |fl (s' + x' a) - (s + x a)| ≤ 2 * (k + n a : Nat) * (e + (k + n a : Nat) * (M / 2 ^ 53)) := by
      have c1 := hfl (s' + x' a)
      have c2 : |s' + x' a - (s + x a)| ≤ |s' - s| + |x' a - x a| := by
        rw [show s' + x' a - (s + x a) = (s' - s) + (x' a - x a) by ring]; exact abs_add_le _ _
      have c3 : |s' + x' a| ≤ |s' + x' a - (s + x a)| + |s + x a| := by
        have := abs_add_le (s' + x' a - (s + x a)) (s + x a)
        rwa [sub_add_cancel] at this
      have c4 : |fl (s' + x' a) - (s + x a)| ≤ |fl (s' + x' a) - (s' + x' a)| + |s' + x' a - (s + x a)| := by
        have := abs_add_le (fl (s' + x' a) - (s' + x' a)) (s' + x' a - (s + x a))
        rwa [sub_add_sub_cancel] at this
      push_cast at b1 ⊢
      have f1 : 0 ≤ (n a : ℚ) - (2 * k + n a) / 2 ^ 53 := by
        have : (2 * (k : ℚ) + n a) / 2 ^ 53 ≤ 1 := by rw [div_le_one (by norm_num)]; linarith
        linarith
      have f2 : 0 ≤ 2 * ((k : ℚ) + n a) ^ 2 - (1 + 1 / 2 ^ 53) * (2 * (k : ℚ) ^ 2) - (k + n a) := by
        have g1 : (k : ℚ) * (2 * k / 2 ^ 53) ≤ k * 1 := mul_le_mul_of_nonneg_left (by rw [div_le_one (by norm_num)]; linarith) hk0
        have g2 : (k : ℚ) * 1 ≤ k * n a := mul_le_mul_of_nonneg_left hn hk0
        have g3 : (n a : ℚ) * 1 ≤ n a * n a := mul_le_mul_of_nonneg_left hn (by linarith)
        nlinarith
      have f3 := mul_nonneg f1 he
      have f4 := mul_nonneg f2 (div_nonneg hM (by norm_num : (0 : ℚ) ≤ 2 ^ 53))
      have c5 : |fl (s' + x' a) - (s + x a)| ≤ ((k + n a) * M + (2 * k * (e + k * (M / 2 ^ 53)) + n a * e)) / 2 ^ 53 + (2 * k * (e + k * (M / 2 ^ 53)) + n a * e) := by
        have : |s' + x' a| / 2 ^ 53 ≤ ((k + n a) * M + (2 * k * (e + k * (M / 2 ^ 53)) + n a * e)) / 2 ^ 53 :=
          div_le_div_of_nonneg_right (by linarith) (by norm_num)
        linarith
      refine c5.trans ?_
      rw [← sub_nonneg]
      have : 2 * ((k : ℚ) + n a) * (e + (k + n a) * (M / 2 ^ 53)) -
          (((k + n a) * M + (2 * k * (e + k * (M / 2 ^ 53)) + n a * e)) / 2 ^ 53 + (2 * k * (e + k * (M / 2 ^ 53)) + n a * e)) =
          ((n a : ℚ) - (2 * k + n a) / 2 ^ 53) * e + (2 * ((k : ℚ) + n a) ^ 2 - (1 + 1 / 2 ^ 53) * (2 * (k : ℚ) ^ 2) - (k + n a)) * (M / 2 ^ 53) := by ring
      rw [this]
      exact add_nonneg f3 f4
    have := ih (fl (s' + x' a)) (s + x a) (k + n a) (fun b hb => hl b (by simp [hb])) b1 b2 hk
    simpa only [List.map_cons, List.sum_cons, ← add_assoc, List.foldl_cons] using this

/-- the segments of a ring -/
def segsOf (r : Line) : List (XY × XY) := r.zip r.tail

theorem ringSum_segs (fl : ℚ → ℚ) (r : Line) : ∀ s, ringSum fl s r = (segsOf r).foldl (fun s a => fl (s + areaTerm fl a.1 a.2)) s := by
  induction r with
  | nil => intro s; rfl
  | cons p l ih =>
    intro s
    cases l with
    | nil => rfl
    | cons q l => rw [ringSum, ih]; rfl

theorem pathSum_segs (r : Line) : (pathSum r : ℚ) = ((segsOf r).map (fun a => (((a.1.x + a.2.x) * (a.1.y - a.2.y) : Int) : ℚ))).sum := by
  induction r with
  | nil => rfl
  | cons p l ih =>
    cases l with
    | nil => rfl
    | cons q l =>
      rw [pathSum, Int.cast_add, ih]
      rfl

/-- on the map, and between `Y` and `Y + D` -/
def InStrip (Y D : Int) (p : XY) : Prop := 0 ≤ p.x ∧ p.x ≤ 2 ^ 32 ∧ 0 ≤ p.y ∧ p.y ≤ 2 ^ 32 ∧ Y ≤ p.y ∧ p.y ≤ Y + D

theorem areaTerm_error {fl : ℚ → ℚ} (hfl : ExactSmall fl) (hacc : Accurate fl) {Y D : Int} {p q : XY} (hp : InStrip Y D p) (hq : InStrip Y D q) :
    |(((p.x + q.x) * (p.y - q.y) : Int) : ℚ)| ≤ 2 ^ 33 * D ∧ |areaTerm fl p q - ((p.x + q.x) * (p.y - q.y) : Int)| ≤ 2 ^ 33 * D / 2 ^ 53 := by
  obtain ⟨p1, p2, p3, p4, p5, p6⟩ := hp
  obtain ⟨q1, q2, q3, q4, q5, q6⟩ := hq
  have e : ∀ k : Int, |k| ≤ 2 ^ 53 → fl (k : ℚ) = k := fun k hk => (hfl k hk).1
  have hm : |(p.x + q.x) * (p.y - q.y)| ≤ 2 ^ 33 * D := by
    rw [abs_mul]
    refine mul_le_mul ?_ ?_ (abs_nonneg _) (by norm_num)
    · rw [abs_le]; omega
    · rw [abs_le]; omega
  have hm' : |(((p.x + q.x) * (p.y - q.y) : Int) : ℚ)| ≤ 2 ^ 33 * D := by exact_mod_cast hm
  refine ⟨hm', ?_⟩
  rw [areaTerm, e p.x (by rw [abs_le]; omega), e q.x (by rw [abs_le]; omega), e p.y (by rw [abs_le]; omega), e q.y (by rw [abs_le]; omega),
    ← Int.cast_add, ← Int.cast_sub, e (p.x + q.x) (by rw [abs_le]; omega), e (p.y - q.y) (by rw [abs_le]; omega), ← Int.cast_mul]
  exact (hacc _).trans (div_le_div_of_nonneg_right hm' (by norm_num))

theorem segsOf_mem {r : Line} {a : XY × XY} (h : a ∈ segsOf r) : a.1 ∈ r ∧ a.2 ∈ r :=
  ⟨(List.of_mem_zip h).1, List.mem_of_mem_tail (List.of_mem_zip h).2⟩

theorem ringArea_error {fl : ℚ → ℚ} (hfl : ExactSmall fl) (hacc : Accurate fl) {Y D : Int} (hD : 0 ≤ D) {r : Line} (hr : r.head? = r.getLast?)
    (hn : ∀ p ∈ r, InStrip Y D p) {N : Nat} (hN : r.length + 1 ≤ N) (hb : N ≤ 2 ^ 50) :
    |ringArea fl r - (-(area2 r : ℚ)) / 2| ≤ (r.length + 1 : Nat) * (N * (2 ^ 33 * D / 2 ^ 53)) ∧ |(-(area2 r : ℚ)) / 2| ≤ (r.length + 1 : Nat) * (2 ^ 33 * D) := by
  have hDq : (0 : ℚ) ≤ D := by exact_mod_cast hD
  have hex : (-(area2 r : ℚ)) = (pathSum r : ℚ) := by rw [pathSum_closed hr]; push_cast; rfl
  rw [hex]
  by_cases hlen : r.length < 4
  · rw [ringArea, if_pos hlen, pathSum_short hr hlen]
    norm_num
    constructor <;> positivity
  rw [ringArea, if_neg hlen]
  have hseg : (segsOf r).length = r.length - 1 := by simp [segsOf]
  have hcount : ((segsOf r).map (fun _ => 1)).sum = r.length - 1 := by rw [← hseg]; simp
  obtain ⟨h1, h2⟩ := sumError hacc (fun a : XY × XY => areaTerm fl a.1 a.2) (fun a => (((a.1.x + a.2.x) * (a.1.y - a.2.y) : Int) : ℚ)) (fun _ => 1) (2 ^ 33 * D)
    (2 ^ 33 * D / 2 ^ 53) (by positivity) (by positivity) (segsOf r) 0 0 0 (by
      intro a ha
      obtain ⟨m1, m2⟩ := segsOf_mem ha
      have := areaTerm_error hfl hacc (hn _ m1) (hn _ m2)
      simpa using this) (by simp) (by simp) (by rw [hcount]; omega)
  rw [← ringSum_segs, ← pathSum_segs, hcount, zero_add, Nat.zero_add] at h1
  rw [← pathSum_segs, hcount, zero_add, Nat.zero_add] at h2
  generalize ringSum fl 0 r = S at h1 ⊢
  generalize (pathSum r : ℚ) = P at h1 h2 ⊢
  obtain ⟨K, hK⟩ : ∃ K, r.length = K + 1 := ⟨r.length - 1, by omega⟩
  rw [hK] at h1 h2 hN ⊢
  simp only [Nat.add_sub_cancel] at h1 h2
  have hm0 : (0 : ℚ) ≤ 2 ^ 33 * D / 2 ^ 53 := by positivity
  have hMm : (2 : ℚ) ^ 33 * D = (2 ^ 33 * D / 2 ^ 53) * 2 ^ 53 := by ring
  generalize (2 : ℚ) ^ 33 * D / 2 ^ 53 = m at h1 hm0 hMm ⊢
  rw [hMm] at h2 ⊢
  have hKN : (K : ℚ) + 2 ≤ N := by exact_mod_cast hN
  have hNb : (N : ℚ) ≤ 2 ^ 50 := by exact_mod_cast hb
  have hK0 : (0 : ℚ) ≤ K := by positivity
  have hKm : 0 ≤ K * m := mul_nonneg hK0 hm0
  constructor
  · have c1 := hacc (S / 2)
    have c2 : |S| ≤ |S - P| + |P| := by
      have := abs_add_le (S - P) P
      rwa [sub_add_cancel] at this
    have c3 : |fl (S / 2) - P / 2| ≤ |fl (S / 2) - S / 2| + |S - P| / 2 := by
      have := abs_add_le (fl (S / 2) - S / 2) ((S - P) / 2)
      rw [abs_div, abs_two] at this
      rwa [show fl (S / 2) - S / 2 + (S - P) / 2 = fl (S / 2) - P / 2 by ring] at this
    rw [abs_div, abs_two] at c1
    push_cast
    have c4 : |fl (S / 2) - P / 2| ≤ (2 * K * (m + K * m) + K * (m * 2 ^ 53)) / 2 / 2 ^ 53 + (2 * K * (m + K * m)) / 2 := by
      have : |S| / 2 / 2 ^ 53 ≤ (2 * K * (m + K * m) + K * (m * 2 ^ 53)) / 2 / 2 ^ 53 := by
        apply div_le_div_of_nonneg_right _ (by norm_num)
        apply div_le_div_of_nonneg_right _ (by norm_num)
        have hd : (2 : ℚ) * K * (m + K * m) = 2 * K * (m + K * (m * 2 ^ 53 / 2 ^ 53)) := by ring
        linarith
      have hd : (2 : ℚ) * K * (m + K * m) = 2 * K * (m + K * (m * 2 ^ 53 / 2 ^ 53)) := by ring
      linarith
    refine c4.trans ?_
    have d1 : ((K : ℚ) + 1) / 2 ^ 53 ≤ 1 / 2 := by rw [div_le_div_iff₀ (by norm_num) (by norm_num)]; linarith
    have d2 := mul_le_mul_of_nonneg_left d1 hKm
    have d3 : K * m * (K + 2) ≤ (K + 1 + 1) * (N * m) := by
      have : (K : ℚ) * (K + 2) ≤ (K + 1 + 1) * N := by
        have := mul_le_mul (by linarith : (K : ℚ) ≤ K + 1 + 1) hKN (by linarith) (by linarith)
        exact this
      have := mul_le_mul_of_nonneg_right this hm0
      linarith
    have d4 : (2 * K * (m + K * m) + K * (m * 2 ^ 53)) / 2 / 2 ^ 53 + (2 * K * (m + K * m)) / 2 = K * m * ((K + 1) / 2 ^ 53) + K * m / 2 + K * m * (K + 1) := by ring
    rw [d4]
    linarith
  · rw [abs_div, abs_two]
    push_cast
    have : (0 : ℚ) ≤ m * 2 ^ 53 := by positivity
    have := mul_nonneg hK0 this
    linarith

/-- number of rings and points -/
def ringPoints (p : Polygon) : Nat := ((p.outer :: p.inners).map (fun r => r.length + 1)).sum

theorem polygonArea_error {fl : ℚ → ℚ} (hfl : ExactSmall fl) (hacc : Accurate fl) {Y D : Int} (hD : 0 ≤ D) {p : Polygon}
    (hr : ∀ r ∈ p.outer :: p.inners, r.head? = r.getLast?) (hn : ∀ r ∈ p.outer :: p.inners, ∀ q ∈ r, InStrip Y D q) {N : Nat} (hN : ringPoints p ≤ N)
    (hb : N ≤ 2 ^ 50) :
    |polygonArea fl p - ((p.outer :: p.inners).map (fun r => (-(area2 r : ℚ)) / 2)).sum| ≤ ringPoints p * (6 * N * (2 ^ 33 * D / 2 ^ 53)) ∧
    |((p.outer :: p.inners).map (fun r => (-(area2 r : ℚ)) / 2)).sum| ≤ ringPoints p * (2 ^ 33 * D) := by
  have hDq : (0 : ℚ) ≤ D := by exact_mod_cast hD
  rw [ringPoints, List.map_cons, List.sum_cons] at hN
  obtain ⟨o1, o2⟩ := ringArea_error hfl hacc hD (hr p.outer (by simp)) (hn p.outer (by simp)) (N := N) (by omega) hb
  have hin : ∀ r ∈ p.inners, 1 ≤ r.length + 1 ∧ |(-(area2 r : ℚ)) / 2| ≤ (r.length + 1 : Nat) * (2 ^ 33 * D) ∧
      |ringArea fl r - (-(area2 r : ℚ)) / 2| ≤ (r.length + 1 : Nat) * (N * (2 ^ 33 * D / 2 ^ 53)) := by
    intro r hrm
    have : r.length + 1 ≤ (p.inners.map (fun r => r.length + 1)).sum := List.single_le_sum (by simp) _ (List.mem_map.2 ⟨r, hrm, rfl⟩)
    obtain ⟨h1, h2⟩ := ringArea_error hfl hacc hD (hr r (by simp [hrm])) (hn r (by simp [hrm])) (N := N) (by omega) hb
    exact ⟨by omega, h2, h1⟩
  obtain ⟨i1, i2⟩ := sumError hacc (ringArea fl) (fun r => (-(area2 r : ℚ)) / 2) (fun r => r.length + 1) (2 ^ 33 * D) (N * (2 ^ 33 * D / 2 ^ 53)) (by positivity)
    (by positivity) p.inners 0 0 0 hin (by simp) (by simp) (by omega)
  rw [zero_add, Nat.zero_add] at i1 i2
  rw [polygonArea, ringPoints, List.map_cons, List.sum_cons, List.map_cons, List.sum_cons]
  generalize p.outer.length + 1 = a at *
  generalize (p.inners.map (fun r => r.length + 1)).sum = b at *
  generalize ringArea fl p.outer = A' at *
  generalize (-(area2 p.outer : ℚ)) / 2 = A at *
  generalize (p.inners.map (fun r => (-(area2 r : ℚ)) / 2)).sum = B at *
  generalize p.inners.foldl (fun s r => fl (s + ringArea fl r)) 0 = B' at *
  have hm0 : (0 : ℚ) ≤ 2 ^ 33 * D / 2 ^ 53 := by positivity
  have hMm : (2 : ℚ) ^ 33 * D = (2 ^ 33 * D / 2 ^ 53) * 2 ^ 53 := by ring
  generalize (2 : ℚ) ^ 33 * D / 2 ^ 53 = m at *
  rw [hMm] at o2 i2 ⊢
  have hab : (a : ℚ) + b ≤ N := by exact_mod_cast hN
  have hNb : (N : ℚ) ≤ 2 ^ 50 := by exact_mod_cast hb
  have ha0 : (0 : ℚ) ≤ a := by positivity
  have hb0 : (0 : ℚ) ≤ b := by positivity
  push_cast
  constructor
  · rcases Nat.eq_zero_or_pos (a + b) with h0 | h0
    · have : a = 0 := by omega
      have : b = 0 := by omega
      subst a b
      simp only [Nat.cast_zero, zero_mul, mul_zero, abs_nonpos_iff, sub_eq_zero] at o1 o2 i1 i2 ⊢
      subst i1 i2 o1 o2
      have := hacc 0
      simp only [abs_zero, zero_div, abs_nonpos_iff] at this
      norm_num at this ⊢
      exact this
    have hN1 : (1 : ℚ) ≤ N := by
      have : (1 : ℚ) ≤ (a + b : Nat) := by exact_mod_cast h0
      push_cast at this
      linarith
    have c1 := hacc (A' + B')
    have c2 : |A' + B' - (A + B)| ≤ |A' - A| + |B' - B| := by
      rw [show A' + B' - (A + B) = (A' - A) + (B' - B) by ring]; exact abs_add_le _ _
    have c3 : |A' + B'| ≤ |A' + B' - (A + B)| + (|A| + |B|) := by
      have := abs_add_le (A' + B' - (A + B)) (A + B)
      rw [sub_add_cancel] at this
      exact this.trans (by have := abs_add_le A B; linarith)
    have c4 : |fl (A' + B') - (A + B)| ≤ |fl (A' + B') - (A' + B')| + |A' + B' - (A + B)| := by
      have := abs_add_le (fl (A' + B') - (A' + B')) (A' + B' - (A + B))
      rwa [sub_add_sub_cancel] at this
    have hd : (2 : ℚ) * b * (N * m + b * (m * 2 ^ 53 / 2 ^ 53)) = 2 * b * (N * m + b * m) := by ring
    have e1 : |A' - A| + |B' - B| ≤ (a + b) * (4 * N * m) := by
      have g1 : (b : ℚ) * (b * m) ≤ b * (N * m) := mul_le_mul_of_nonneg_left (mul_le_mul_of_nonneg_right (by linarith) hm0) hb0
      have g2 : 0 ≤ a * (N * m) := by positivity
      linarith
    have c5 : |A' + B'| / 2 ^ 53 ≤ ((a + b) * (4 * N * m) + (a + b) * (m * 2 ^ 53)) / 2 ^ 53 := div_le_div_of_nonneg_right (by linarith) (by norm_num)
    have hq : 0 ≤ ((a : ℚ) + b) * m := by positivity
    have d1 : 4 * (N : ℚ) / 2 ^ 53 ≤ 1 := by rw [div_le_one (by norm_num)]; linarith
    have d2 := mul_le_mul_of_nonneg_left d1 hq
    have d3 := mul_le_mul_of_nonneg_left hN1 hq
    have d4 : (((a : ℚ) + b) * (4 * N * m) + (a + b) * (m * 2 ^ 53)) / 2 ^ 53 = (a + b) * m * (4 * N / 2 ^ 53) + (a + b) * m := by ring
    linarith
  · refine (abs_add_le _ _).trans ?_
    linarith

theorem multiArea_error {fl : ℚ → ℚ} (hfl : ExactSmall fl) (hacc : Accurate fl) (Y D : Int) (hD : 0 ≤ D) (ps : List Polygon)
    (hr : ∀ r ∈ ringsOf ps, r.head? = r.getLast?) (hn : ∀ r ∈ ringsOf ps, ∀ q ∈ r, InStrip Y D q) (N : Nat)
    (hN : ((ringsOf ps).map (fun r => r.length + 1)).sum = N) (hb : N ≤ 2 ^ 50) :
    |multiArea fl ps - areaTwice ps / 2| ≤ 14 * N ^ 2 * D / 2 ^ 20 := by
  have hDq : (0 : ℚ) ≤ D := by exact_mod_cast hD
  have hpts : ((ringsOf ps).map (fun r => r.length + 1)).sum = (ps.map ringPoints).sum := by
    clear hr hn hN
    induction ps with
    | nil => rfl
    | cons p ps ih =>
      rw [List.map_cons (l := ps), List.sum_cons, ← ih, ringsOf, List.flatMap_cons, List.map_append, List.sum_append]; rfl
  have hsum : (areaTwice ps : ℚ) / 2 = (ps.map (fun p => ((p.outer :: p.inners).map (fun r => (-(area2 r : ℚ)) / 2)).sum)).sum := by
    have hh : ∀ l : List Line, (((l.map (fun r => - area2 r)).sum : Int) : ℚ) / 2 = (l.map (fun r => (-(area2 r : ℚ)) / 2)).sum := by
      intro l
      induction l with
      | nil => norm_num
      | cons a l ih => rw [List.map_cons, List.sum_cons, List.map_cons, List.sum_cons, ← ih]; push_cast; ring
    rw [areaTwice, hh]
    clear hr hn hN hpts
    induction ps with
    | nil => rfl
    | cons p ps ih =>
      rw [List.map_cons (l := ps), List.sum_cons, ← ih, ringsOf, List.flatMap_cons, List.map_append, List.sum_append]; rfl
  rw [hpts] at hN
  have hmem : ∀ p ∈ ps, ∀ r ∈ p.outer :: p.inners, r ∈ ringsOf ps := fun p hp r hr => List.mem_flatMap.2 ⟨p, hp, hr⟩
  obtain ⟨h1, _⟩ := sumError hacc (polygonArea fl) (fun p => ((p.outer :: p.inners).map (fun r => (-(area2 r : ℚ)) / 2)).sum) ringPoints (2 ^ 33 * D)
    (6 * N * (2 ^ 33 * D / 2 ^ 53)) (by positivity) (by positivity) ps 0 0 0 (by
      intro p hp
      have hle : ringPoints p ≤ N := by rw [← hN]; exact List.single_le_sum (by simp) _ (List.mem_map_of_mem hp)
      obtain ⟨k1, k2⟩ := polygonArea_error hfl hacc hD (fun r h => hr r (hmem p hp r h)) (fun r h => hn r (hmem p hp r h)) hle hb
      exact ⟨by rw [ringPoints, List.map_cons, List.sum_cons]; omega, k2, k1⟩) (by simp) (by simp) (by omega)
  rw [zero_add, Nat.zero_add, ← hsum, hN] at h1
  refine le_trans (le_of_eq ?_) (h1.trans (le_of_eq ?_))
  · rfl
  · ring

/-- Areas of large polygons, up to the whole map: with `N` points and rings, the result differs from the shoelace formula by at most `14 N² D / 2^20` units, where
`D` is the height of the polygons, plus one for the conversion to an integer - unless it does not fit into 64 bits. -/
theorem C63_error {fl : ℚ → ℚ} (hfl : ExactSmall fl) (hacc : Accurate fl) (Y D : Int) (hD : 0 ≤ D) (ps : List Polygon)
    (hr : ∀ r ∈ ringsOf ps, r.head? = r.getLast?) (hn : ∀ r ∈ ringsOf ps, ∀ q ∈ r, InStrip Y D q) (N : Nat)
    (hN : ((ringsOf ps).map (fun r => r.length + 1)).sum = N) (hb : N ≤ 2 ^ 50)
    (hfit : |(areaTwice ps : ℚ)| + 28 * N ^ 2 * D / 2 ^ 20 < 2 ^ 64) :
    ∃ a, geometryArea fl (.polygon ps) = .ok a ∧ |2 * (a : ℚ) - areaTwice ps| ≤ 28 * N ^ 2 * D / 2 ^ 20 + 2 := by
  have hV := multiArea_error hfl hacc Y D hD ps hr hn N hN hb
  rw [geometryArea]
  generalize multiArea fl ps = V at hV ⊢
  generalize (areaTwice ps : ℚ) = A at hV hfit ⊢
  rw [abs_le] at hV
  have e : 28 * (N : ℚ) ^ 2 * D / 2 ^ 20 = 2 * (14 * N ^ 2 * D / 2 ^ 20) := by ring
  rw [e] at hfit ⊢
  generalize 14 * (N : ℚ) ^ 2 * D / 2 ^ 20 = E at *
  have hfit' : |A| < 2 ^ 64 - 2 * E := by linarith
  rw [abs_lt] at hfit'
  have hlo : -2 ^ 63 < V := by linarith
  have hhi : V < 2 ^ 63 := by linarith
  rw [toInt64]
  by_cases h0 : 0 ≤ V
  · rw [if_pos h0]
    have f1 := Int.floor_le V
    have f2 := Int.lt_floor_add_one V
    have f3 : (0 : Int) ≤ ⌊V⌋ := Int.floor_nonneg.2 h0
    have f4 : ⌊V⌋ < 2 ^ 63 := by
      have : ((⌊V⌋ : Int) : ℚ) < 2 ^ 63 := by linarith
      exact_mod_cast this
    refine ⟨_, if_pos ⟨by omega, f4⟩, ?_⟩
    rw [abs_le]
    constructor <;> linarith
  · rw [if_neg h0]
    have f1 := Int.le_ceil V
    have f2 := Int.ceil_lt_add_one V
    have f3 : ⌈V⌉ ≤ 0 := Int.ceil_le.2 (by push_cast; linarith)
    have f4 : - 2 ^ 63 < ⌈V⌉ := by
      have : - 2 ^ 63 < ((⌈V⌉ : Int) : ℚ) := by linarith
      exact_mod_cast this
    refine ⟨_, if_pos ⟨by omega, by omega⟩, ?_⟩
    rw [abs_le]
    constructor <;> linarith

/-- ... and if it does not fit into 64 bits - a polygon of more than half of the map -, the conversion is undefined. -/
theorem C63_overflow {fl : ℚ → ℚ} (hfl : ExactSmall fl) (hacc : Accurate fl) (Y D : Int) (hD : 0 ≤ D) (ps : List Polygon)
    (hr : ∀ r ∈ ringsOf ps, r.head? = r.getLast?) (hn : ∀ r ∈ ringsOf ps, ∀ q ∈ r, InStrip Y D q) (N : Nat)
    (hN : ((ringsOf ps).map (fun r => r.length + 1)).sum = N) (hb : N ≤ 2 ^ 50)
    (hfit : 2 ^ 64 + 28 * N ^ 2 * D / 2 ^ 20 ≤ (areaTwice ps : ℚ)) : geometryArea fl (.polygon ps) = .ub := by
  have hV := multiArea_error hfl hacc Y D hD ps hr hn N hN hb
  rw [geometryArea]
  generalize multiArea fl ps = V at hV ⊢
  generalize (areaTwice ps : ℚ) = A at hV hfit
  rw [abs_le] at hV
  have e : 28 * (N : ℚ) ^ 2 * D / 2 ^ 20 = 2 * (14 * N ^ 2 * D / 2 ^ 20) := by ring
  rw [e] at hfit
  generalize 14 * (N : ℚ) ^ 2 * D / 2 ^ 20 = E at *
  have hhi : 2 ^ 63 ≤ V := by linarith
  have h0 : 0 ≤ V := by linarith
  rw [toInt64, if_pos h0]
  have f1 : (2 ^ 63 : Int) ≤ ⌊V⌋ := Int.le_floor.2 (by push_cast; exact hhi)
  exact if_neg (by omega)

/-! ### where the area is not defined, lines, and the direction of rings -/

/-- `area.h` has no case for points (it has one for a single `fixed_xy`, which no geometry is): asking for the area of a node never returns, whatever the limits are. -/
theorem C63_point (fl : ℚ → ℚ) {L : Type} (ctx : ProfileCtx L) (harea : ctx.area = geometryArea fl) (o : OsmObj L) (p : Pending) (args : List Int)
    (heven : args.length % 2 = 0) (pts : List XY) (hg : readGeometry ctx o p = .ok (.point pts)) : applyCall ctx o p (.approvedMinByArea args) = .ub := by
  rw [applyCall, setApprovedMinByArea, hg, harea, heven]
  rfl

theorem runProfile_reaches {L : Type} (ctx : ProfileCtx L) (o : OsmObj L) (c : PfCall) (cs : List PfCall) (hc : ∀ q, q.geometry = none → applyCall ctx o q c = .ub) :
    ∀ (pre : List PfCall) (q : Pending), q.geometry = none → (∀ args, .approvedMinByArea args ∉ pre) → runProfile ctx o q (pre ++ c :: cs) = .ub := by
  intro pre
  induction pre with
  | nil => intro q hq _; simp only [List.nil_append, runProfile, hc q hq]
  | cons d pre ih =>
    intro q hq hpre
    have hd : ∃ q', applyCall ctx o q d = .ok q' ∧ q'.geometry = none := by
      cases d with
      | approvedMinByArea args => exact absurd (by simp) (hpre args)
      | _ => exact ⟨_, rfl, by simpa [setApprovedMin, setApproved] using hq⟩
    obtain ⟨q', h1, h2⟩ := hd
    rw [List.cons_append, runProfile, h1]
    exact ih q' h2 (fun args h => hpre args (by simp [h]))

/-- ... so the import does not survive a profile that does so, whatever it says before (short of another call of this kind) and after. -/
theorem C63_node_area (fl : ℚ → ℚ) {L : Type} (ctx : ProfileCtx L) (harea : ctx.area = geometryArea fl) (o : OsmObj L) (pts : List XY)
    (hg : readOsm ctx.conv o.shape = .ok (.point pts)) (pre : List PfCall) (args : List Int) (cs : List PfCall) (hcalls : o.calls = pre ++ .approvedMinByArea args :: cs)
    (hpre : ∀ args, .approvedMinByArea args ∉ pre) (heven : args.length % 2 = 0) : pendingFeature ctx o = .ub := by
  rw [pendingFeature, hcalls, runProfile_reaches ctx o _ cs (fun q hq => C63_point fl ctx harea o q args heven pts (by rw [readGeometry, hq]; exact hg)) pre pendingInit rfl hpre]
  rfl

/-- When a profile can ask for areas: for ways, and for polygons whose area - with `N` points and rings, and allowing for the errors - is less than half of the map;
not for nodes. -/
theorem C63_fine {fl : ℚ → ℚ} (hfl : ExactSmall fl) (hacc : Accurate fl) {L : Type} (ctx : ProfileCtx L) (harea : ctx.area = geometryArea fl) (o : OsmObj L)
    (hread : readOsm ctx.conv o.shape ≠ .ub) (hnode : ∀ pts, readOsm ctx.conv o.shape = .ok (.point pts) → ∀ args, .approvedMinByArea args ∈ o.calls → args.length % 2 = 1)
    (hpoly : ∀ ps, readOsm ctx.conv o.shape = .ok (.polygon ps) → ∀ N : Nat, ((ringsOf ps).map (fun r => r.length + 1)).sum = N →
      (∀ r ∈ ringsOf ps, r.head? = r.getLast? ∧ ∀ q ∈ r, InStrip 0 (2 ^ 32) q) ∧ N ≤ 2 ^ 50 ∧ |areaTwice ps| + 28 * N ^ 2 * 2 ^ 12 < 2 ^ 64) : Fine ctx o := by
  refine ⟨hread, fun args hc heven g hg => ?_⟩
  rw [harea]
  cases g with
  | null => exact ⟨0, rfl⟩
  | point pts => have := hnode pts hg args hc; omega
  | polyline ls => exact ⟨0, rfl⟩
  | polygon ps =>
    obtain ⟨h1, h2, h3⟩ := hpoly ps hg _ rfl
    obtain ⟨a, h4, _⟩ := C63_error hfl hacc 0 (2 ^ 32) (by norm_num) ps (fun r hr => (h1 r hr).1) (fun r hr => (h1 r hr).2) _ rfl h2 (by
      generalize ((ringsOf ps).map (fun r => r.length + 1)).sum = N at h3
      have : ((|areaTwice ps| + 28 * N ^ 2 * 2 ^ 12 : Int) : ℚ) < ((2 ^ 64 : Int) : ℚ) := by exact_mod_cast h3
      push_cast at this ⊢
      have e : 28 * (N : ℚ) ^ 2 * 4294967296 / 2 ^ 20 = 28 * N ^ 2 * 4096 := by ring
      rw [e]
      linarith)
    exact ⟨a, h4⟩

/-- lines and empty geometries have no area -/
theorem C63_line (fl : ℚ → ℚ) (ls : List Line) : geometryArea fl (.polyline ls) = .ok 0 ∧ geometryArea fl .null = .ok 0 := ⟨rfl, rfl⟩

theorem area2_reverse_path : ∀ (l : Line), pathSum l.reverse = - pathSum l
  | [] => rfl
  | [_] => rfl
  | p :: q :: l => by
    have happ : ∀ (l : Line) (a b : XY), pathSum (l ++ [a, b]) = pathSum (l ++ [a]) + (a.x + b.x) * (a.y - b.y) := by
      intro l
      induction l with
      | nil => intro a b; simp [pathSum]
      | cons c l ih =>
        intro a b
        cases l with
        | nil => simp [pathSum]
        | cons d l =>
          have := ih a b
          simp only [List.cons_append, pathSum] at this ⊢
          rw [this]; ring
    have := area2_reverse_path (q :: l)
    rw [List.reverse_cons, List.reverse_cons, List.append_assoc, List.singleton_append, happ, ← List.reverse_cons, this, pathSum]
    ring

/-- A ring that is given in the other direction has the negative area: such a polygon is smaller than any limit. -/
theorem C63_direction (r : Line) (hr : r.head? = r.getLast?) : areaTwice [⟨r.reverse, []⟩] = - areaTwice [⟨r, []⟩] := by
  have hr' : r.reverse.head? = r.reverse.getLast? := by simp [hr]
  simp only [areaTwice, ringsOf, List.flatMap_cons, List.flatMap_nil, List.append_nil, List.map_cons, List.map_nil, List.sum_cons, List.sum_nil, add_zero]
  rw [← pathSum_closed hr', ← pathSum_closed hr, area2_reverse_path]

/-- the area of a rectangle, counterclockwise on the map, and with one hole -/
theorem C63_rectangle (x y w h : Int) : areaTwice [⟨[⟨x, y⟩, ⟨x, y + h⟩, ⟨x + w, y + h⟩, ⟨x + w, y⟩, ⟨x, y⟩], []⟩] = 2 * (w * h) := by
  have hr : ([⟨x, y⟩, ⟨x, y + h⟩, ⟨x + w, y + h⟩, ⟨x + w, y⟩, ⟨x, y⟩] : Line).head? = ([⟨x, y⟩, ⟨x, y + h⟩, ⟨x + w, y + h⟩, ⟨x + w, y⟩, ⟨x, y⟩] : Line).getLast? := rfl
  simp only [areaTwice, ringsOf, List.flatMap_cons, List.flatMap_nil, List.append_nil, List.map_cons, List.map_nil, List.sum_cons, List.sum_nil, add_zero]
  rw [← pathSum_closed hr]
  simp only [pathSum]
  ring

/-- exact arithmetic meets what is assumed of `double` -/
theorem C63_id : ExactSmall id ∧ Accurate id := by
  refine ⟨fun k _ => ⟨rfl, rfl⟩, fun q => ?_⟩
  simp only [id, sub_self, abs_zero]
  positivity

/-- the outline of the map, and a square of half its size -/
def C63_square (w : Int) : List Polygon := [⟨[⟨0, 0⟩, ⟨0, 0 + w⟩, ⟨0 + w, 0 + w⟩, ⟨0 + w, 0⟩, ⟨0, 0⟩], []⟩]

theorem C63_square_ok {w : Int} (h0 : 0 ≤ w) (h1 : w ≤ 2 ^ 32) : (∀ r ∈ ringsOf (C63_square w), r.head? = r.getLast?) ∧
    (∀ r ∈ ringsOf (C63_square w), ∀ q ∈ r, InStrip 0 w q) ∧ ((ringsOf (C63_square w)).map (fun r => r.length + 1)).sum = 6 := by
  refine ⟨?_, ?_, rfl⟩
  · intro r hr
    simp only [ringsOf, C63_square, List.flatMap_cons, List.flatMap_nil, List.append_nil, List.mem_singleton] at hr
    subst hr; rfl
  · intro r hr q hq
    simp only [ringsOf, C63_square, List.flatMap_cons, List.flatMap_nil, List.append_nil, List.mem_singleton] at hr
    subst hr
    simp only [List.mem_cons, List.not_mem_nil, or_false] at hq
    rcases hq with rfl | rfl | rfl | rfl | rfl <;> refine ⟨?_, ?_, ?_, ?_, ?_, ?_⟩ <;> dsimp only <;> omega

/-- the conditions of the theorems are met -/
example : geometryArea id (.polygon (C63_square (2 ^ 32))) = .ub := by
  obtain ⟨h1, h2, h3⟩ := C63_square_ok (w := 2 ^ 32) (by norm_num) (by norm_num)
  refine C63_overflow C63_id.1 C63_id.2 0 (2 ^ 32) (by norm_num) _ h1 h2 6 h3 (by norm_num) ?_
  rw [C63_square, C63_rectangle]
  norm_num

example : ∃ a, geometryArea id (.polygon (C63_square (2 ^ 31))) = .ok a ∧ |2 * (a : ℚ) - 2 ^ 63| ≤ 2 ^ 22 := by
  obtain ⟨h1, h2, h3⟩ := C63_square_ok (w := 2 ^ 31) (by norm_num) (by norm_num)
  have h4 : areaTwice (C63_square (2 ^ 31)) = 2 ^ 63 := by rw [C63_square, C63_rectangle]; norm_num
  obtain ⟨a, k1, k2⟩ := C63_error C63_id.1 C63_id.2 0 (2 ^ 31) (by norm_num) _ h1 h2 6 h3 (by norm_num) (by rw [h4]; norm_num)
  rw [h4] at k2
  refine ⟨a, k1, ?_⟩
  norm_num at k2 ⊢
  linarith

example : geometryArea id (.polygon (C63_square 16)) = .ok 256 := by
  obtain ⟨h1, h2, h3⟩ := C63_square_ok (w := 16) (by norm_num) (by norm_num)
  rw [C63_exact C63_id.1 0 0 16 (by norm_num) (by norm_num) (by norm_num) _ h1 (by
    intro r hr q hq
    obtain ⟨k1, k2, k3, k4, k5, k6⟩ := h2 r hr q hq
    simp only [ringsOf, C63_square, List.flatMap_cons, List.flatMap_nil, List.append_nil, List.mem_singleton] at hr
    subst hr
    simp only [List.mem_cons, List.not_mem_nil, or_false] at hq
    rcases hq with rfl | rfl | rfl | rfl | rfl <;> decide) (by decide)]
  decide

/-- a polygon of 16 x 16 units is drawn, one of 15 x 15 units is not -/
def C63_ctx : RenderCtx :=
  { C62_ctx.toRenderCtx with
    dropSubpixel := true, aggPolygons := true, tiny := fun g => match smallerThanPixel id g with | .ok b => b | _ => false }

def C63_feature (w : Int) : Feature := ⟨7, 1, 0, 21, [], .polygon (C63_square w)⟩

theorem C63_shown (w : Int) (hw : w = 15 ∨ w = 16) :
    (∃ L ∈ tileContent C63_ctx (specOf ⟨0, 0, 20⟩) [C63_feature w], L.name = [97] ∧ ∃ c ∈ L.features, c.id = 7 ∧ c.type = 3) ↔ w = 16 := by
  have hmem : ∀ g ∈ [C63_feature w], g = C63_feature w := fun g hg => List.mem_singleton.1 hg
  have hdraw : drawGeometry C63_ctx (specOf ⟨0, 0, 20⟩) (C63_feature w).geometry = .ok (.polygon (C63_square w)) := by
    rcases hw with rfl | rfl <;> decide +kernel
  have hcl : C63_ctx.clip (C63_feature w).geometry (drawBounds ⟨0, 0, 20⟩) = .ok (.polygon (C63_square w)) := by
    rcases hw with rfl | rfl <;> decide +kernel
  obtain ⟨r, h1, h2⟩ := C63_polygon C63_id.1 C62_lib le_rfl (by norm_num) C63_ctx rfl (fun g b h => by show (match smallerThanPixel id g with | .ok b => b | _ => false) = b; rw [h]) rfl rfl
    (by decide) (fun _ l => l) ⟨0, 0, 20⟩ (by decide) le_rfl (by intro fs out h; show C62_agg 20 fs = out; rw [C62_agg, h]) [C63_feature w]
    (by intro g hg hl; rw [hmem g hg] at hl; cases hl) (C63_feature w) (by simp) (show 1 < 2 by decide) (by intro g hg _ _ _; rw [hmem g hg]) _ rfl
    (by rcases hw with rfl | rfl <;> exact ⟨by decide, by decide⟩) (by
      intro c hc l hl
      rw [hcl] at hc
      injection hc with hc
      subst hc
      simp only [allLines, C63_square, ringsOf, List.flatMap_cons, List.flatMap_nil, List.append_nil, List.mem_singleton] at hl
      subst hl
      simp)
  rw [hdraw] at h1
  injection h1 with h1
  subst h1
  have h3 := h2 (show 5 ≤ 2 ^ 23 by decide)
  have h4 : C63_ctx.layerNames[(C63_feature w).layer]? = some [97] := rfl
  rw [h4] at h3
  have h5 : areaTwice (C63_square w) = 2 * (w * w) := C63_rectangle 0 0 w w
  constructor
  · rintro ⟨L, k1, k2, k3⟩
    obtain ⟨qs, m1, m2⟩ := h3.1 ⟨L, k1, by rw [k2], k3⟩
    injection m1 with m1
    subst m1
    rcases m2 with m2 | m2
    · cases m2
    · rcases hw with rfl | rfl
      · rw [h5] at m2; norm_num at m2
      · rfl
  · rintro rfl
    obtain ⟨L, k1, k2, k3⟩ := h3.2 ⟨_, rfl, .inr (by rw [h5]; norm_num)⟩
    exact ⟨L, k1, by injection k2 with k2; exact k2.symm, k3⟩

end Tiles
