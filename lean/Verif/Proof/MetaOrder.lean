import Verif.Model.Metadata
/-! `std::string` and `metadata` comparison are total orders. -/
namespace Tiles

theorem bytesLe_refl (a : Bytes) : bytesLe a a = true := by
  induction a with
  | nil => rfl
  | cons x a ih => simp [bytesLe, ih]

theorem bytesLe_total (a b : Bytes) : bytesLe a b = true ∨ bytesLe b a = true := by
  induction a generalizing b with
  | nil => simp [bytesLe]
  | cons x a ih =>
    cases b with
    | nil => simp [bytesLe]
    | cons y b =>
      simp only [bytesLe]
      by_cases h1 : x.toNat < y.toNat
      · simp [h1]
      · by_cases h2 : y.toNat < x.toNat
        · simp [h1, h2]
        · simp only [h1, h2, if_false]; exact ih b

theorem bytesLe_antisymm {a b : Bytes} (h : bytesLe a b = true) (h' : bytesLe b a = true) : a = b := by
  induction a generalizing b with
  | nil => cases b with
    | nil => rfl
    | cons => simp [bytesLe] at h'
  | cons x a ih =>
    cases b with
    | nil => simp [bytesLe] at h
    | cons y b =>
      simp only [bytesLe] at h h'
      by_cases h1 : x.toNat < y.toNat
      · rw [if_neg (by omega), if_pos h1] at h'; simp at h'
      · by_cases h2 : y.toNat < x.toNat
        · rw [if_neg h1, if_pos h2] at h; simp at h
        · rw [if_neg h1, if_neg h2] at h
          rw [if_neg h2, if_neg h1] at h'
          have : x = y := UInt8.toNat_inj.1 (by omega)
          rw [this, ih h h']

theorem bytesLe_trans {a b c : Bytes} (h : bytesLe a b = true) (h' : bytesLe b c = true) : bytesLe a c = true := by
  induction a generalizing b c with
  | nil => simp [bytesLe]
  | cons x a ih =>
    cases b with
    | nil => simp [bytesLe] at h
    | cons y b =>
      cases c with
      | nil => simp [bytesLe] at h'
      | cons z c =>
        simp only [bytesLe] at h h' ⊢
        by_cases h1 : x.toNat < y.toNat
        · by_cases h3 : y.toNat < z.toNat
          · rw [if_pos (by omega)]
          · by_cases h4 : z.toNat < y.toNat
            · rw [if_neg h3, if_pos h4] at h'; simp at h'
            · rw [if_pos (by omega)]
        · by_cases h2 : y.toNat < x.toNat
          · rw [if_neg h1, if_pos h2] at h; simp at h
          · rw [if_neg h1, if_neg h2] at h
            by_cases h3 : y.toNat < z.toNat
            · rw [if_pos (by omega)]
            · by_cases h4 : z.toNat < y.toNat
              · rw [if_neg h3, if_pos h4] at h'; simp at h'
              · rw [if_neg h3, if_neg h4] at h'
                rw [if_neg (by omega), if_neg (by omega)]
                exact ih h h'

theorem metaLe_total (a b : Meta) : metaLe a b = true ∨ metaLe b a = true := by
  unfold metaLe
  by_cases h : a.key = b.key
  · have := bytesLe_total a.value b.value
    simpa only [h, if_true] using this
  · have := bytesLe_total a.key b.key
    simpa only [h, Ne.symm h, if_false] using this

theorem metaLe_trans (a b c : Meta) (h : metaLe a b = true) (h' : metaLe b c = true) : metaLe a c = true := by
  unfold metaLe at *
  by_cases h1 : a.key = b.key
  · by_cases h2 : b.key = c.key
    · simp only [h1, h2, if_true] at *; exact bytesLe_trans h h'
    · simp only [h1, h2, if_true, if_false] at *; exact h'
  · by_cases h2 : b.key = c.key
    · simp only [h2, if_true] at *
      rw [if_neg h1] at h ⊢; exact h
    · rw [if_neg h1] at h
      rw [if_neg h2] at h'
      by_cases h3 : a.key = c.key
      · rw [h3] at h; exact absurd (bytesLe_antisymm h' h) h2
      · rw [if_neg h3]; exact bytesLe_trans h h'

theorem metaLe_antisymm {a b : Meta} (h : metaLe a b = true) (h' : metaLe b a = true) : a = b := by
  unfold metaLe at h h'
  by_cases hk : a.key = b.key
  · rw [if_pos hk] at h
    rw [if_pos hk.symm] at h'
    have := bytesLe_antisymm h h'
    cases a; cases b; simp_all
  · rw [if_neg hk] at h
    rw [if_neg (fun e => hk e.symm)] at h'
    exact absurd (bytesLe_antisymm h h') hk

theorem metaLe_refl (a : Meta) : metaLe a a = true := (metaLe_total a a).elim id id

end Tiles
