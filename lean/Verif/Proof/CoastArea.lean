import Mathlib.Tactic.Linarith
import Mathlib.Tactic.FieldSimp
import Mathlib.Tactic.Ring
import Verif.Proof.CoastRun
/-! C34: areas by the even-odd rule, and what the loader says about them. -/
namespace Tiles
open Spec

/-! ### the even-odd rule -/

theorem crosses_self (p : Pt) (a : XY) : crosses p a a = false := by simp [crosses]

/-- where the edge meets the height of the point -/
theorem edge_between {p : Pt} {a b : XY} (h : decide ((a.y : ℚ) > p.2) ≠ decide ((b.y : ℚ) > p.2)) :
    ∃ t : ℚ, 0 ≤ t ∧ t ≤ 1 ∧ (a.x : ℚ) + (p.2 - a.y) * (b.x - a.x) / (b.y - a.y) = a.x + t * (b.x - a.x) := by
  refine ⟨(p.2 - a.y) / (b.y - a.y), ?_, ?_, by ring⟩
  · by_cases h1 : (a.y : ℚ) > p.2
    · have h2 : ¬ (b.y : ℚ) > p.2 := by
        intro h2; exact h (by simp [h1, h2])
      rw [not_lt] at h2
      exact div_nonneg_of_nonpos (by linarith) (by linarith)
    · have h2 : (b.y : ℚ) > p.2 := by
        by_contra h2; exact h (by simp [h1, h2])
      rw [not_lt] at h1
      exact div_nonneg (by linarith) (by linarith)
  · by_cases h1 : (a.y : ℚ) > p.2
    · have h2 : ¬ (b.y : ℚ) > p.2 := by
        intro h2; exact h (by simp [h1, h2])
      rw [not_lt] at h2
      rw [div_le_one_of_neg (by linarith)]; linarith
    · have h2 : (b.y : ℚ) > p.2 := by
        by_contra h2; exact h (by simp [h1, h2])
      rw [not_lt] at h1
      rw [div_le_one (by linarith)]; linarith

theorem crosses_left {p : Pt} {a b : XY} (ha : (a.x : ℚ) < p.1) (hb : (b.x : ℚ) < p.1) : crosses p a b = false := by
  unfold crosses
  by_cases h : decide ((a.y : ℚ) > p.2) = decide ((b.y : ℚ) > p.2)
  · simp [h]
  · obtain ⟨t, h0, h1, e⟩ := edge_between h
    rw [e]
    have : ¬ ((a.x : ℚ) + t * (b.x - a.x) > p.1) := by
      rw [not_lt]; nlinarith
    simp [this]

theorem crosses_right {p : Pt} {a b : XY} (ha : p.1 < (a.x : ℚ)) (hb : p.1 < (b.x : ℚ)) :
    crosses p a b = xor (decide ((a.y : ℚ) > p.2)) (decide ((b.y : ℚ) > p.2)) := by
  unfold crosses
  by_cases h : decide ((a.y : ℚ) > p.2) = decide ((b.y : ℚ) > p.2)
  · rw [h]; simp
  · obtain ⟨t, h0, h1, e⟩ := edge_between h
    rw [e]
    have : (a.x : ℚ) + t * (b.x - a.x) > p.1 := by
      rcases lt_or_eq_of_le h1 with h1 | rfl
      · have := mul_pos (sub_pos.2 h1) (sub_pos.2 ha)
        have := mul_nonneg h0 (sub_pos.2 hb).le
        linarith
      · linarith
    simp only [this, decide_true, Bool.and_true]

theorem crosses_above {p : Pt} {a b : XY} (ha : p.2 < (a.y : ℚ)) (hb : p.2 < (b.y : ℚ)) : crosses p a b = false := by
  simp [crosses, ha, hb]

theorem crosses_below {p : Pt} {a b : XY} (ha : (a.y : ℚ) < p.2) (hb : (b.y : ℚ) < p.2) : crosses p a b = false := by
  simp [crosses, not_lt.2 ha.le, not_lt.2 hb.le]

theorem crossFrom_false {p : Pt} {f : XY} {l : Line} (P : XY → Prop) (hP : ∀ a b, P a → P b → crosses p a b = false) (hf : P f)
    (hl : ∀ a ∈ l, P a) : crossFrom p f l = false := by
  induction l with
  | nil => rfl
  | cons a l ih =>
    match l with
    | [] => exact hP a f (hl a (by simp)) hf
    | b :: l =>
      show xor (crosses p a b) (crossFrom p f (b :: l)) = false
      rw [hP a b (hl a (by simp)) (hl b (by simp)), ih (fun c hc => hl c (by simp [List.mem_cons.1 hc]))]; rfl

theorem crossFrom_right {p : Pt} {f a : XY} {l : Line} (hf : p.1 < (f.x : ℚ)) (hl : ∀ c ∈ a :: l, p.1 < (c.x : ℚ)) :
    crossFrom p f (a :: l) = xor (decide ((a.y : ℚ) > p.2)) (decide ((f.y : ℚ) > p.2)) := by
  induction l generalizing a with
  | nil => exact crosses_right (hl a (by simp)) hf
  | cons b l ih =>
    show xor (crosses p a b) (crossFrom p f (b :: l)) = _
    rw [crosses_right (hl a (by simp)) (hl b (by simp)), ih (fun c hc => hl c (by simp [List.mem_cons.1 hc]))]
    cases decide ((a.y : ℚ) > p.2) <;> cases decide ((b.y : ℚ) > p.2) <;> cases decide ((f.y : ℚ) > p.2) <;> rfl

/-- a point inside of a path is not outside of its extent -/
theorem inRing_hull {l : Line} {p : Pt} (h : inRing l p = true) :
    (∃ a ∈ l, (a.x : ℚ) ≤ p.1) ∧ (∃ a ∈ l, p.1 ≤ (a.x : ℚ)) ∧ (∃ a ∈ l, (a.y : ℚ) ≤ p.2) ∧ (∃ a ∈ l, p.2 ≤ (a.y : ℚ)) := by
  match l with
  | [] => cases h
  | f :: l =>
    simp only [inRing] at h
    refine ⟨?_, ?_, ?_, ?_⟩ <;> by_contra hn
    · have hn' : ∀ a ∈ f :: l, p.1 < (a.x : ℚ) := by
        intro a ha; by_contra hc; exact hn ⟨a, ha, not_lt.1 hc⟩
      rw [crossFrom_right (a := f) (l := l) (hn' f (.head _)) hn'] at h
      simp at h
    · have hn' : ∀ a ∈ f :: l, (a.x : ℚ) < p.1 := by
        intro a ha; by_contra hc; exact hn ⟨a, ha, not_lt.1 hc⟩
      rw [crossFrom_false (fun a => (a.x : ℚ) < p.1) (fun a b => crosses_left) (hn' f (.head _)) hn'] at h
      cases h
    · have hn' : ∀ a ∈ f :: l, p.2 < (a.y : ℚ) := by
        intro a ha; by_contra hc; exact hn ⟨a, ha, not_lt.1 hc⟩
      rw [crossFrom_false (fun a => p.2 < (a.y : ℚ)) (fun a b => crosses_above) (hn' f (.head _)) hn'] at h
      cases h
    · have hn' : ∀ a ∈ f :: l, (a.y : ℚ) < p.2 := by
        intro a ha; by_contra hc; exact hn ⟨a, ha, not_lt.1 hc⟩
      rw [crossFrom_false (fun a => (a.y : ℚ) < p.2) (fun a b => crosses_below) (hn' f (.head _)) hn'] at h
      cases h

/-- closing a path does not change its area -/
theorem crossFrom_close (p : Pt) (f a : XY) (l : Line) : crossFrom p f (a :: l ++ [f]) = crossFrom p f (a :: l) := by
  induction l generalizing a with
  | nil =>
    show xor (crosses p a f) (crosses p f f) = crosses p a f
    rw [crosses_self]; simp
  | cons b l ih =>
    show xor (crosses p a b) (crossFrom p f (b :: l ++ [f])) = xor (crosses p a b) (crossFrom p f (b :: l))
    rw [ih]

theorem inRing_close {path r : Line} (h : pathToRing path = .ok r) (p : Pt) : inRing r p = inRing path p := by
  match path with
  | [] => cases h
  | a :: l => injection h with h; subst h; exact crossFrom_close p a a l

theorem inPaths_cons (l : Line) (ls : List Line) (p : Pt) : inPaths (l :: ls) p = xor (inRing l p) (inPaths ls p) := rfl

theorem inPaths_append (a b : List Line) (p : Pt) : inPaths (a ++ b) p = xor (inPaths a p) (inPaths b p) := by
  induction a with
  | nil => simp [inPaths]
  | cons l a ih => rw [List.cons_append, inPaths_cons, inPaths_cons, ih, Bool.xor_assoc]

theorem inPaths_mem {ls : List Line} {p : Pt} (h : inPaths ls p = true) : ∃ l ∈ ls, inRing l p = true := by
  induction ls with
  | nil => cases h
  | cons l ls ih =>
    rw [inPaths_cons] at h
    cases hl : inRing l p
    · rw [hl, Bool.false_xor] at h
      obtain ⟨l', h1, h2⟩ := ih h
      exact ⟨l', .tail _ h1, h2⟩
    · exact ⟨l, .head _, hl⟩

theorem coast_foldl_expand (ps : List XY) (b : Box) :
    let r := ps.foldl expandBox b
    r.min.x ≤ b.min.x ∧ r.min.y ≤ b.min.y ∧ b.max.x ≤ r.max.x ∧ b.max.y ≤ r.max.y ∧
      ∀ a ∈ ps, r.min.x ≤ a.x ∧ a.x ≤ r.max.x ∧ r.min.y ≤ a.y ∧ a.y ≤ r.max.y := by
  induction ps generalizing b with
  | nil => simp
  | cons c ps ih =>
    have := ih (expandBox b c)
    simp only [List.foldl_cons, expandBox] at this ⊢
    obtain ⟨h1, h2, h3, h4, h5⟩ := this
    refine ⟨by omega, by omega, by omega, by omega, ?_⟩
    intro a ha
    rcases List.mem_cons.1 ha with rfl | ha
    · omega
    · exact h5 a ha

theorem hull_inBox {ps : List XY} {l : Line} (hl : ∀ a ∈ l, a ∈ ps) {p : Pt} (h : inRing l p = true) (b : Box) :
    InBox (ps.foldl expandBox b) p := by
  obtain ⟨⟨a1, m1, h1⟩, ⟨a2, m2, h2⟩, ⟨a3, m3, h3⟩, ⟨a4, m4, h4⟩⟩ := inRing_hull h
  obtain ⟨_, _, _, _, hm⟩ := coast_foldl_expand ps b
  have k1 := (hm a1 (hl _ m1)).1
  have k2 := (hm a2 (hl _ m2)).2.1
  have k3 := (hm a3 (hl _ m3)).2.2.1
  have k4 := (hm a4 (hl _ m4)).2.2.2
  have c1 : ((ps.foldl expandBox b).min.x : ℚ) ≤ a1.x := by exact_mod_cast k1
  have c2 : (a2.x : ℚ) ≤ (ps.foldl expandBox b).max.x := by exact_mod_cast k2
  have c3 : ((ps.foldl expandBox b).min.y : ℚ) ≤ a3.y := by exact_mod_cast k3
  have c4 : (a4.y : ℚ) ≤ (ps.foldl expandBox b).max.y := by exact_mod_cast k4
  exact ⟨by linarith, by linarith, by linarith, by linarith⟩

theorem inPaths_box {ls : List Line} {p : Pt} (h : inPaths ls p = true) : InBox (pathsBox ls) p := by
  obtain ⟨l, hl, hr⟩ := inPaths_mem h
  exact hull_inBox (ps := ls.flatten) (fun a ha => List.mem_flatten.2 ⟨l, hl, ha⟩) hr _

theorem inPolygons_append (a b : List Polygon) (p : Pt) : inPolygons (a ++ b) p = xor (inPolygons a p) (inPolygons b p) := by
  simp only [inPolygons, List.flatMap_append, inPaths_append]

theorem inPolygons_one (q : Polygon) (p : Pt) : inPolygons [q] p = xor (inRing q.outer p) (inPaths q.inners p) := by
  simp [inPolygons, inPaths_cons]

mutual
/-- `to_fixed_polygon` keeps the area -/
theorem toFixedPolygon_area (p : Pt) : ∀ (ns : List PolyNode) (acc r : List Polygon), toFixedPolygon acc ns = .ok r →
    inPolygons r p = xor (inPolygons acc p) (inPaths (treePaths ns) p)
  | [], acc, r, h => by
    simp only [toFixedPolygon] at h; injection h with h; subst h; simp [treePaths, inPaths]
  | .mk contour hole childs :: rest, acc, r, h => by
    rw [toFixedPolygon] at h
    obtain ⟨_, hv, h⟩ := Res.bind_eq_ok.1 h
    obtain ⟨outer, ho, h⟩ := Res.bind_eq_ok.1 h
    obtain ⟨⟨acc', inners⟩, hi, h⟩ := Res.bind_eq_ok.1 h
    have h1 := toFixedInners_area p childs acc [] acc' inners hi
    have h2 := toFixedPolygon_area p rest _ r h
    have h3 : contour ≠ [] := by rintro rfl; cases ho
    have h4 : contour.isEmpty = false := by simpa using h3
    have hnil : inPaths [] p = false := rfl
    rw [h2, inPolygons_append, inPolygons_one]
    simp only [treePaths, nodePaths, h4, inPaths_append, inRing_close ho]
    rw [hnil, Bool.xor_false] at h1
    simp only [Bool.false_eq_true, if_false, inPaths_cons, hnil, Bool.xor_false]
    revert h1
    generalize inPolygons acc' p = v1
    generalize inPaths inners p = v2
    generalize inPolygons acc p = v3
    generalize inPaths (treePaths childs) p = v4
    generalize inPaths (treePaths rest) p = v5
    generalize inRing contour p = v6
    revert v1 v2 v3 v4 v5 v6; decide
theorem toFixedInners_area (p : Pt) : ∀ (ns : List PolyNode) (acc : List Polygon) (inners : List Line) (acc' : List Polygon)
    (inners' : List Line), toFixedInners acc inners ns = .ok (acc', inners') →
    xor (inPolygons acc' p) (inPaths inners' p) = xor (xor (inPolygons acc p) (inPaths inners p)) (inPaths (treePaths ns) p)
  | [], acc, inners, acc', inners', h => by
    simp only [toFixedInners] at h; injection h with h; injection h with h1 h2; subst h1; subst h2; simp [treePaths, inPaths]
  | .mk contour hole childs :: rest, acc, inners, acc', inners', h => by
    rw [toFixedInners] at h
    obtain ⟨_, hv, h⟩ := Res.bind_eq_ok.1 h
    obtain ⟨ring, ho, h⟩ := Res.bind_eq_ok.1 h
    obtain ⟨acc2, hi, h⟩ := Res.bind_eq_ok.1 h
    have h1 := toFixedPolygon_area p childs acc acc2 hi
    have h2 := toFixedInners_area p rest acc2 _ acc' inners' h
    have h3 : contour ≠ [] := by rintro rfl; cases ho
    have h4 : contour.isEmpty = false := by simpa using h3
    have hnil : inPaths [] p = false := rfl
    rw [h2, h1, inPaths_append]
    simp only [treePaths, nodePaths, h4, inPaths_append, inPaths_cons, inRing_close ho]
    simp only [Bool.false_eq_true, if_false, inPaths_cons, hnil, Bool.xor_false]
    generalize inPaths inners p = v2
    generalize inPolygons acc p = v3
    generalize inPaths (treePaths childs) p = v4
    generalize inPaths (treePaths rest) p = v5
    generalize inRing contour p = v6
    revert v2 v3 v4 v5 v6; decide
end

/-- the number of coastlines that have the point -/
def coastCount (cs : List Coast) (p : Pt) : Nat := cs.countP (fun c => inPaths c.geo p)

theorem inSets_count (cs : List Coast) (p : Pt) : inSets (cs.map (·.geo)) p = decide (coastCount cs p % 2 = 1) := by
  induction cs with
  | nil => rfl
  | cons c cs ih =>
    have e : coastCount (c :: cs) p = coastCount cs p + if inPaths c.geo p then 1 else 0 := List.countP_cons ..
    show xor (inPaths c.geo p) (inSets (cs.map (·.geo)) p) = _
    rw [ih, e]
    cases h : inPaths c.geo p
    · simp
    · simp only [if_true, Bool.true_xor]
      rw [Bool.eq_iff_iff]; simp; omega

/-! ### boxes -/

theorem touches_false {a b : Box} (h : boxTouches a b = false) {p : Pt} (ha : InBox a p) : ¬ InBox b p := by
  rintro ⟨h1, h2, h3, h4⟩
  obtain ⟨k1, k2, k3, k4⟩ := ha
  have e1 : a.min.x ≤ b.max.x := by exact_mod_cast le_trans k1 h2
  have e2 : b.min.x ≤ a.max.x := by exact_mod_cast le_trans h1 k2
  have e3 : a.min.y ≤ b.max.y := by exact_mod_cast le_trans k3 h4
  have e4 : b.min.y ≤ a.max.y := by exact_mod_cast le_trans h3 k4
  simp [boxTouches, not_lt.2 e1, not_lt.2 e2, not_lt.2 e3, not_lt.2 e4] at h

theorem insert_in_draw {t : Tile} {p : Pt} (h : InBox (insertBounds t) p) : InBox (drawBounds t) p := by
  obtain ⟨h1, h2, h3, h4⟩ := h
  simp only [insertBounds] at h1 h2 h3 h4
  simp only [InBox, drawBounds, kOverdraw]
  push_cast at h1 h2 h3 h4 ⊢
  exact ⟨by linarith, by linarith, by linarith, by linarith⟩

theorem insert_child {t : Tile} (hz : t.z < 20) (i : Nat) {p : Pt} (h : InBox (insertBounds (t.child i)) p) : InBox (insertBounds t) p := by
  obtain ⟨h1, h2, h3, h4⟩ := h
  simp only [insertBounds, pxBounds, Tile.child] at h1 h2 h3 h4
  simp only [InBox, insertBounds, pxBounds]
  have e : (2 : ℚ) ^ (20 - t.z) = 2 * 2 ^ (19 - t.z) := by
    rw [← pow_succ']; congr 1; omega
  have e' : 20 - (t.z + 1) = 19 - t.z := by omega
  rw [e'] at h1 h2 h3 h4
  have hp : (0 : ℚ) < 2 ^ (19 - t.z) := by positivity
  have o1 : i % 2 ≤ 1 := by omega
  have o2 : i / 2 % 2 ≤ 1 := by omega
  generalize i % 2 = o at *
  generalize i / 2 % 2 = o' at *
  have b1 : ((o : Nat) : ℚ) ≤ 1 := by exact_mod_cast o1
  have b2 : ((o' : Nat) : ℚ) ≤ 1 := by exact_mod_cast o2
  have b3 : (0 : ℚ) ≤ (o : ℚ) := by positivity
  have b4 : (0 : ℚ) ≤ (o' : ℚ) := by positivity
  push_cast at h1 h2 h3 h4 ⊢
  rw [e]
  generalize (2 : ℚ) ^ (19 - t.z) = w at *
  have c1 := mul_nonneg b3 hp.le
  have c2 := mul_nonneg b4 hp.le
  have c3 := mul_nonneg (sub_nonneg.2 b1) hp.le
  have c4 := mul_nonneg (sub_nonneg.2 b2) hp.le
  refine ⟨?_, ?_, ?_, ?_⟩ <;> linarith

end Tiles
