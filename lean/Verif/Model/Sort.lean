import Verif.Model.Basic
/-
`std::sort` / `std::stable_sort` as insertion sort.  (`std::sort` leaves the order of equivalent elements open; the model is stable.
Where this could matter the model says so.)
-/
namespace Tiles

variable {α : Type}

def sortInsert (le : α → α → Bool) (a : α) : List α → List α
  | [] => [a]
  | b :: l => if le a b then a :: b :: l else b :: sortInsert le a l

/-- sort with respect to `le` ("not greater") -/
def sortBy (le : α → α → Bool) : List α → List α
  | [] => []
  | a :: l => sortInsert le a (sortBy le l)

theorem sortInsert_perm (le : α → α → Bool) (a : α) (l : List α) : (sortInsert le a l).Perm (a :: l) := by
  induction l with
  | nil => exact List.Perm.refl _
  | cons b l ih =>
    simp only [sortInsert]
    split
    · exact List.Perm.refl _
    · exact (ih.cons b).trans (List.Perm.swap a b l)

theorem sortBy_perm (le : α → α → Bool) (l : List α) : (sortBy le l).Perm l := by
  induction l with
  | nil => exact List.Perm.refl _
  | cons a l ih => exact (sortInsert_perm le a _).trans (ih.cons a)

theorem sortInsert_sorted {le : α → α → Bool} (htr : ∀ a b c, le a b = true → le b c = true → le a c = true)
    (htot : ∀ a b, le a b = true ∨ le b a = true) (a : α) {l : List α} (h : l.Pairwise (fun a b => le a b = true)) :
    (sortInsert le a l).Pairwise (fun a b => le a b = true) := by
  induction l with
  | nil => simp [sortInsert]
  | cons b l ih =>
    simp only [sortInsert]
    have h' := h
    rw [List.pairwise_cons] at h
    split
    · rename_i hab
      rw [List.pairwise_cons]
      refine ⟨fun x hx => ?_, h'⟩
      rcases List.mem_cons.1 hx with rfl | hx
      · exact hab
      · exact htr _ _ _ hab (h.1 x hx)
    · rename_i hab
      rw [List.pairwise_cons]
      refine ⟨fun x hx => ?_, ih h.2⟩
      rcases List.mem_cons.1 ((sortInsert_perm le a l).mem_iff.1 hx) with rfl | hx
      · rcases htot x b with h | h
        · exact absurd h hab
        · exact h
      · exact h.1 x hx

theorem sortBy_sorted {le : α → α → Bool} (htr : ∀ a b c, le a b = true → le b c = true → le a c = true)
    (htot : ∀ a b, le a b = true ∨ le b a = true) (l : List α) : (sortBy le l).Pairwise (fun a b => le a b = true) := by
  induction l with
  | nil => exact List.Pairwise.nil
  | cons a l ih => exact sortInsert_sorted htr htot a ih

end Tiles
