import Verif.Spec.Coastline
import Verif.Proof.BqTree
import Verif.Props.C33
/-! C34: the tree of tiles of the coastline loader. -/
namespace Tiles
open Spec

theorem resultsOfEmits_append {R : Type} (a b : List (WTask R ⊕ R)) : resultsOfEmits (a ++ b) = resultsOfEmits a ++ resultsOfEmits b := by
  induction a with
  | nil => rfl
  | cons e a ih => cases e <;> simp [resultsOfEmits, ih]

theorem leaves_append (a b : List CoastEv) : leaves (a ++ b) = leaves a ++ leaves b := by
  induction a with
  | nil => rfl
  | cons e a ih => cases e <;> simp [leaves, ih]

theorem coastProgress_append (a b : List CoastEv) : coastProgress (a ++ b) = coastProgress a + coastProgress b := by
  simp [coastProgress]

theorem timesCovered_append (a b : List Tile) (q : Tile) : timesCovered (a ++ b) q = timesCovered a q + timesCovered b q := by
  simp [timesCovered]

theorem shift_progress (n : Nat) : (1 <<< (n * 1)) <<< n = 4 ^ n := by
  rw [Nat.mul_one, Nat.shiftLeft_eq, Nat.shiftLeft_eq, Nat.one_mul, ← Nat.mul_pow]

/-- the events decide about the whole tile, once -/
structure CoastOk (t : Tile) (es : List CoastEv) : Prop where
  below : ∀ l ∈ leaves es, AncOrSelf t l ∧ l.z ≤ 10
  once : ∀ q, 10 ≤ q.z → AncOrSelf t q → timesCovered (leaves es) q = 1
  progress : coastProgress es = 4 ^ (10 - t.z)
  db : ∀ l b, .db l b ∈ es → l.z = 10
  count : (leaves es).length ≤ coastProgress es

theorem CoastOk.none {t : Tile} {es : List CoastEv} (h : CoastOk t es) {q : Tile} (hq : ¬ AncOrSelf t q) : timesCovered (leaves es) q = 0 := by
  refine List.countP_eq_zero.2 fun l hl => ?_
  simp only [decide_eq_true_eq]
  exact fun hl' => hq (ancOrSelf_trans (h.below l hl).1 hl')

theorem coastOk_leaf (t : Tile) (hz : t.z ≤ 10) (e : CoastEv) (he : leaves [e] = [t]) (hd : ∀ l b, e = .db l b → l.z = 10) :
    CoastOk t [e, .tick t.z] := by
  have hl : leaves [e, .tick t.z] = [t] := by
    rw [show [e, CoastEv.tick t.z] = [e] ++ [.tick t.z] from rfl, leaves_append, he]; rfl
  have hp : coastProgress [e, .tick t.z] = 4 ^ (10 - t.z) := by
    have : coastProgress [e] = 0 := by cases e <;> first | rfl | (simp [leaves] at he)
    rw [show [e, CoastEv.tick t.z] = [e] ++ [.tick t.z] from rfl, coastProgress_append, this, Nat.zero_add]
    show ((1 <<< ((10 - t.z) * 1)) <<< (10 - t.z)) + 0 = _
    rw [shift_progress, Nat.add_zero]
  refine ⟨?_, ?_, hp, ?_, ?_⟩
  · rw [hl]; intro l hm; rw [List.mem_singleton.1 hm]; exact ⟨ancOrSelf_refl t, hz⟩
  · intro q _ hq; rw [hl]; simp [timesCovered, hq]
  · intro l b hm
    rcases List.mem_cons.1 hm with h | h
    · exact hd l b h.symm
    · simp at h
  · rw [hl, hp]; exact Nat.one_le_two_pow.trans (Nat.pow_le_pow_left (by omega) _)

theorem coastChild_ok {lib : CoastLib} {sub : Tile → List Coast → Res (WTask CoastEv)} {child : Tile} {cs : List Coast}
    {es : List (WTask CoastEv ⊕ CoastEv)} (hz : child.z ≤ 10)
    (hsub : ∀ cs w, child.z < 10 → sub child cs = .ok w → CoastOk child (resultsOf w))
    (h : coastChild lib sub child cs = .ok es) : CoastOk child (resultsOfEmits es) := by
  unfold coastChild at h
  obtain ⟨s, hs, h⟩ := Res.bind_eq_ok.1 h
  obtain ⟨m, hm, h⟩ := Res.bind_eq_ok.1 h
  match m, h with
  | none, h =>
    injection h with h; subst h
    exact coastOk_leaf child hz _ rfl (by simp)
  | some [], h =>
    injection h with h; subst h
    exact coastOk_leaf child hz _ rfl (by simp)
  | some (c :: ms), h =>
    dsimp only at h
    split at h
    · rename_i hlt
      obtain ⟨w, hw, h⟩ := Res.bind_eq_ok.1 h
      injection h with h; subst h
      have := hsub _ _ hlt hw
      simpa [resultsOfEmits] using this
    · rename_i hlt
      obtain ⟨k, hk, h⟩ := Res.bind_eq_ok.1 h
      obtain ⟨f, hf, h⟩ := Res.bind_eq_ok.1 h
      match f, h with
      | some b, h =>
        injection h with h; subst h
        exact coastOk_leaf child hz _ rfl (by rintro l b' ⟨⟩; omega)
      | none, h =>
        injection h with h; subst h
        exact coastOk_leaf child hz _ rfl (by simp)

theorem coastTask_ok (lib : CoastLib) (d : Nat) (t : Tile) (cs : List Coast) (w : WTask CoastEv) (hz : t.z + d = 10)
    (h : coastTask lib d t cs = .ok w) : CoastOk t (resultsOf w) ∧ ∀ l ∈ leaves (resultsOf w), t.z < l.z := by
  induction d generalizing t cs w with
  | zero => cases h
  | succ d ih =>
    unfold coastTask at h
    obtain ⟨e0, h0, h⟩ := Res.bind_eq_ok.1 h
    obtain ⟨e1, h1, h⟩ := Res.bind_eq_ok.1 h
    obtain ⟨e2, h2, h⟩ := Res.bind_eq_ok.1 h
    obtain ⟨e3, h3, h⟩ := Res.bind_eq_ok.1 h
    injection h with h; subst h
    have hc : ∀ i es, coastChild lib (coastTask lib d) (t.child i) cs = .ok es → CoastOk (t.child i) (resultsOfEmits es) := by
      intro i es hi
      have hzc : (t.child i).z = t.z + 1 := rfl
      exact coastChild_ok (by omega) (fun cs w hlt hw => (ih (t.child i) cs w (by omega) hw).1) hi
    have k0 := hc 0 e0 h0
    have k1 := hc 1 e1 h1
    have k2 := hc 2 e2 h2
    have k3 := hc 3 e3 h3
    have hl : ∀ l ∈ leaves (resultsOf (.mk (e0 ++ e1 ++ e2 ++ e3))), ∃ i, AncOrSelf (t.child i) l ∧ l.z ≤ 10 := by
      intro l hl
      simp only [resultsOf, resultsOfEmits_append, leaves_append, List.mem_append] at hl
      rcases hl with ((hl | hl) | hl) | hl
      · exact ⟨0, k0.below l hl⟩
      · exact ⟨1, k1.below l hl⟩
      · exact ⟨2, k2.below l hl⟩
      · exact ⟨3, k3.below l hl⟩
    refine ⟨⟨?_, ?_, ?_, ?_, ?_⟩, ?_⟩
    · intro l hm
      obtain ⟨i, hi, hz'⟩ := hl l hm
      exact ⟨ancOrSelf_trans (ancOrSelf_child t i) hi, hz'⟩
    · intro q hq hq'
      obtain ⟨i, hi, ha⟩ := ancOrSelf_child_of_lt hq' (by omega)
      have hn : ∀ j < 4, j ≠ i → ¬ AncOrSelf (t.child j) q := fun j hj hne hb => hne (ancOrSelf_child_unique hj hi hb ha)
      simp only [resultsOf, resultsOfEmits_append, leaves_append, timesCovered_append]
      have n0 := fun h => k0.none (hn 0 (by omega) h)
      have n1 := fun h => k1.none (hn 1 (by omega) h)
      have n2 := fun h => k2.none (hn 2 (by omega) h)
      have n3 := fun h => k3.none (hn 3 (by omega) h)
      match i, hi with
      | 0, _ => rw [k0.once q hq ha, n1 (by omega), n2 (by omega), n3 (by omega)]
      | 1, _ => rw [n0 (by omega), k1.once q hq ha, n2 (by omega), n3 (by omega)]
      | 2, _ => rw [n0 (by omega), n1 (by omega), k2.once q hq ha, n3 (by omega)]
      | 3, _ => rw [n0 (by omega), n1 (by omega), n2 (by omega), k3.once q hq ha]
    · simp only [resultsOf, resultsOfEmits_append, coastProgress_append, k0.progress, k1.progress, k2.progress, k3.progress]
      have e : ∀ i, 10 - (t.child i).z = d := fun i => by have : (t.child i).z = t.z + 1 := rfl; omega
      rw [e, e, e, e, show 10 - t.z = d + 1 by omega, Nat.pow_succ]; omega
    · intro l b hm
      simp only [resultsOf, resultsOfEmits_append, List.mem_append] at hm
      rcases hm with ((hm | hm) | hm) | hm
      · exact k0.db l b hm
      · exact k1.db l b hm
      · exact k2.db l b hm
      · exact k3.db l b hm
    · simp only [resultsOf, resultsOfEmits_append, coastProgress_append, leaves_append, List.length_append]
      have c0 := k0.count
      have c1 := k1.count
      have c2 := k2.count
      have c3 := k3.count
      omega
    · intro l hm
      obtain ⟨i, hi, _⟩ := hl l hm
      have : (t.child i).z = t.z + 1 := rfl
      have := hi.1
      omega

end Tiles
