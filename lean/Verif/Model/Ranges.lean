import Verif.Model.Sort
/-
`utl::equal_ranges_linear(c, eq, fn)` (external library): `fn` is called with every maximal run of consecutive equal elements.
The library compares with the first element of the run, the model with the next one; `eq` is an equivalence relation everywhere
it is used, so there is no difference.
-/
namespace Tiles
variable {α : Type}

def equalRanges (eq : α → α → Bool) : List α → List (List α)
  | [] => []
  | a :: l => match equalRanges eq l with
    | (b :: g) :: gs => if eq a b then (a :: b :: g) :: gs else [a] :: (b :: g) :: gs
    | gs => [a] :: gs

theorem equalRanges_flatten (eq : α → α → Bool) (l : List α) : (equalRanges eq l).flatten = l := by
  induction l with
  | nil => rfl
  | cons a l ih =>
    simp only [equalRanges]
    split
    · rename_i b g gs h
      rw [h] at ih
      split <;> simpa using ih
    · rename_i gs h
      simpa using ih

theorem equalRanges_ne (eq : α → α → Bool) (l : List α) : ∀ g ∈ equalRanges eq l, g ≠ [] := by
  induction l with
  | nil => simp [equalRanges]
  | cons a l ih =>
    simp only [equalRanges]
    split
    · rename_i b g gs h
      rw [h] at ih
      split
      · intro x hx
        rcases List.mem_cons.1 hx with rfl | hx
        · simp
        · exact ih x (by simp [hx])
      · intro x hx
        rcases List.mem_cons.1 hx with rfl | hx
        · simp
        · exact ih x hx
    · intro x hx
      rcases List.mem_cons.1 hx with rfl | hx
      · simp
      · exact ih x hx

/-- on a range sorted by a key, the runs are exactly the groups of equal keys, in strictly increasing key order -/
theorem equalRanges_sorted {κ : Type} [DecidableEq κ] {k : α → κ} {le : κ → κ → Prop} {eq : α → α → Bool}
    (heq : ∀ a b, eq a b = true ↔ k a = k b) (hanti : ∀ x y, le x y → le y x → x = y)
    (l : List α) (hs : l.Pairwise (fun a b => le (k a) (k b))) :
    (∀ g ∈ equalRanges eq l, ∀ a ∈ g, ∀ b ∈ g, k a = k b) ∧
    (equalRanges eq l).Pairwise (fun g h => ∀ a ∈ g, ∀ b ∈ h, le (k a) (k b) ∧ k a ≠ k b) := by
  induction l with
  | nil => simp [equalRanges]
  | cons a l ih =>
    rw [List.pairwise_cons] at hs
    have hfl := equalRanges_flatten eq l
    have hne := equalRanges_ne eq l
    obtain ⟨ih1, ih2⟩ := ih hs.2
    have hmem : ∀ g ∈ equalRanges eq l, ∀ x ∈ g, x ∈ l := by
      intro g hg x hx; rw [← hfl]; exact List.mem_flatten.2 ⟨g, hg, hx⟩
    simp only [equalRanges]
    split
    · rename_i b g gs h
      rw [h] at ih1 ih2 hmem
      have hbl : b ∈ l := hmem (b :: g) (by simp) b (by simp)
      split
      · rename_i hab
        have hab := (heq a b).1 hab
        have hg := ih1 (b :: g) (by simp)
        refine ⟨?_, ?_⟩
        · intro x hx
          rcases List.mem_cons.1 hx with rfl | hx
          · intro u hu v hv
            have hu' : k u = k b := by
              rcases List.mem_cons.1 hu with rfl | hu
              · exact hab
              · exact hg u hu b (by simp)
            have hv' : k v = k b := by
              rcases List.mem_cons.1 hv with rfl | hv
              · exact hab
              · exact hg v hv b (by simp)
            rw [hu', hv']
          · exact ih1 x (by simp [hx])
        · rw [List.pairwise_cons] at ih2 ⊢
          refine ⟨fun h' hh' u hu v hv => ?_, ih2.2⟩
          rcases List.mem_cons.1 hu with rfl | hu
          · have := ih2.1 h' hh' b (by simp) v hv
            rw [hab]; exact this
          · exact ih2.1 h' hh' u hu v hv
      · rename_i hab
        have hab : k a ≠ k b := fun e => hab ((heq a b).2 e)
        refine ⟨?_, ?_⟩
        · intro x hx
          rcases List.mem_cons.1 hx with rfl | hx
          · intro u hu v hv
            rw [List.mem_singleton.1 hu, List.mem_singleton.1 hv]
          · exact ih1 x hx
        · rw [List.pairwise_cons]
          refine ⟨fun h' hh' u hu v hv => ?_, ih2⟩
          rw [List.mem_singleton.1 hu]
          have hvl := hmem h' hh' v hv
          refine ⟨hs.1 v hvl, fun e => ?_⟩
          rcases List.mem_cons.1 hh' with rfl | hh''
          · exact hab (e.trans (ih1 _ hh' v hv b (by simp)))
          · rw [List.pairwise_cons] at ih2
            have h1 := ih2.1 h' hh'' b (by simp) v hv
            have h2 := hs.1 b hbl
            rw [e] at h2
            exact h1.2 (hanti _ _ h1.1 h2)
    · rename_i gs h
      have : equalRanges eq l = [] := by
        cases hc : equalRanges eq l with
        | nil => rfl
        | cons g gs' =>
          cases hg : g with
          | nil => exact absurd hg (hne g (by simp [hc]))
          | cons b g' => exact absurd (by rw [hc, hg]) (h b g' gs')
      rw [this]
      simp

end Tiles
