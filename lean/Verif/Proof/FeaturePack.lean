import Verif.Model.FeaturePack
namespace Tiles

theorem nextSize_enc (n : Nat) (rest : Bytes) (h0 : 0 < n) (h : n < 2 ^ 64) :
    nextSize (encVarint n ++ rest) = .ok (n, rest) := by
  obtain ⟨m, rfl⟩ : ∃ m, n = m + 1 := ⟨n - 1, by omega⟩
  have h1 := decVarint_enc (m + 1) rest h
  rw [nextSize]
  split <;> rename_i heq <;> rw [h1] at heq <;> simp at heq
  obtain ⟨rfl, rfl⟩ := heq
  rfl

theorem nextSize_zero (rest : Bytes) : nextSize (encVarint 0 ++ rest) = nextSize rest := by
  have h1 := decVarint_enc 0 rest (by decide)
  conv => lhs; rw [nextSize]
  split <;> rename_i heq <;> rw [h1] at heq <;> simp at heq
  obtain rfl := heq
  rfl

/-- the bytes of a list of accepted features -/
def featureBytes (fs : List Bytes) : Bytes := fs.flatMap (fun f => encVarint f.length ++ f)

theorem appendFeatureList_ok (fs : List Bytes) (h : ∀ f ∈ fs, 32 ≤ f.length) :
    appendFeatureList fs = .ok (featureBytes fs) := by
  induction fs with
  | nil => rfl
  | cons f fs ih =>
    rw [appendFeatureList, ih (fun g hg => h g (by simp [hg]))]
    simp [appendFeature, h f (by simp), featureBytes]

theorem appendFeatureList_throw (fs : List Bytes) (h : ∃ f ∈ fs, f.length < 32) :
    appendFeatureList fs = .throw_ := by
  induction fs with
  | nil => simp at h
  | cons f fs ih =>
    rw [appendFeatureList]
    by_cases hf : f.length < 32
    · have : ¬ 32 ≤ f.length := by omega
      simp [appendFeature, this]
    · have hf' : 32 ≤ f.length := by omega
      obtain ⟨g, hg, hg'⟩ := h
      have : g ∈ fs := by
        rcases List.mem_cons.1 hg with rfl | hg
        · omega
        · exact hg
      simp [appendFeature, hf', ih ⟨g, this, hg'⟩]

theorem unpackLoop_featureBytes (fs : List Bytes) (rest : Bytes)
    (h : ∀ f ∈ fs, 32 ≤ f.length ∧ f.length < 2 ^ 64) :
    unpackLoop fs.length (featureBytes fs ++ rest) = .ok (fs, rest) := by
  induction fs with
  | nil => rfl
  | cons f fs ih =>
    have hf := h f (by simp)
    rw [List.length_cons, unpackLoop]
    have e : featureBytes (f :: fs) ++ rest
        = encVarint f.length ++ (f ++ (featureBytes fs ++ rest)) := by
      simp [featureBytes]
    rw [e, nextSize_enc _ _ (by omega) hf.2, Res.ok_bind]
    simp only [List.length_append, Nat.le_add_right, if_true, List.drop_left, List.take_left]
    rw [ih (fun g hg => h g (by simp [hg]))]
    rfl

end Tiles
