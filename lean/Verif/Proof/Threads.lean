import Verif.Model.Parallel
/-! Lists of threads in which at most one is in a distinguished place. -/
namespace Tiles

theorem filter_split {P : Type} {f : P → Bool} {a b : List P} {p q : P} (h : (a ++ p :: b).filter f = [q])
    (hp : f p = true) : a.filter f = [] ∧ b.filter f = [] ∧ p = q := by
  rw [List.filter_append, List.filter_cons_of_pos hp] at h
  cases ha : a.filter f with
  | nil => rw [ha] at h; simp at h; exact ⟨rfl, by simpa using h.2, h.1⟩
  | cons x xs => rw [ha] at h; simp at h

theorem filter_split_neg {P : Type} {f : P → Bool} {a b : List P} {p : P} (h : (a ++ p :: b).filter f = [])
    (hp : f p = false) : a.filter f = [] ∧ b.filter f = [] := by
  rw [List.filter_append, List.filter_cons_of_neg (by simp [hp])] at h
  exact List.append_eq_nil_iff.1 h

theorem filter_join {P : Type} {f : P → Bool} {a b : List P} {p : P} (ha : a.filter f = []) (hb : b.filter f = [])
    (hp : f p = true) : (a ++ p :: b).filter f = [p] := by
  rw [List.filter_append, List.filter_cons_of_pos hp, ha, hb]; rfl

theorem filter_join_neg {P : Type} {f : P → Bool} {a b : List P} {p : P} (ha : a.filter f = []) (hb : b.filter f = [])
    (hp : f p = false) : (a ++ p :: b).filter f = [] := by
  rw [List.filter_append, List.filter_cons_of_neg (by simp [hp]), ha, hb]; rfl

/-- run a given schedule: the list of the threads that move -/
def runSched {S P : Type} (step : S → P → Option (S × P)) : S × List P → List Nat → Option (S × List P)
  | s, [] => some s
  | (s, ps), i :: is =>
    match ps[i]? with
    | none => none
    | some p => match step s p with
      | none => none
      | some (s', p') => runSched step (s', ps.set i p') is

theorem threadStep_set {S P : Type} {step : S → P → Option (S × P)} {s s' : S} {ps : List P} {i : Nat} {p p' : P}
    (h1 : ps[i]? = some p) (h2 : step s p = some (s', p')) : ThreadStep step (s, ps) (s', ps.set i p') := by
  obtain ⟨hi, rfl⟩ := List.getElem?_eq_some_iff.1 h1
  have e1 : ps = ps.take i ++ ps[i] :: ps.drop (i + 1) := by simp
  have e2 : ps.set i p' = ps.take i ++ p' :: ps.drop (i + 1) := by rw [List.set_eq_take_append_cons_drop, if_pos hi]
  rw [e2]
  conv => lhs; rw [e1]
  exact .mk s s' _ _ _ _ h2

theorem runSched_reach {S P : Type} {step : S → P → Option (S × P)} {s0 s t : S × List P} {is : List Nat}
    (h0 : Reach (ThreadStep step) s0 s) (h : runSched step s is = some t) : Reach (ThreadStep step) s0 t := by
  induction is generalizing s with
  | nil => simp only [runSched] at h; injection h with h; subst h; exact h0
  | cons i is ih =>
    obtain ⟨s, ps⟩ := s
    simp only [runSched] at h
    split at h
    · cases h
    · rename_i p hp
      split at h
      · cases h
      · rename_i s' p' hs
        exact ih (.step h0 (threadStep_set hp hs)) h

theorem reach_trans {S : Type} {R : S → S → Prop} {a b c : S} (h : Reach R a b) (h' : Reach R b c) : Reach R a c := by
  induction h' with
  | refl => exact h
  | step _ r ih => exact .step ih r

end Tiles
