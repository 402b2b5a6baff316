import Verif.Proof.Aggregate
/-! The index of line ends. -/
namespace Tiles
open Spec

theorem idxLe_iff (a b : XY × Nat) : idxLe a b = true ↔ a.1.x < b.1.x ∨ (a.1.x = b.1.x ∧ (a.1.y < b.1.y ∨ (a.1.y = b.1.y ∧ a.2 ≤ b.2))) := by
  simp [idxLe]

theorem idxLe_trans (a b c : XY × Nat) (h : idxLe a b = true) (h' : idxLe b c = true) : idxLe a c = true := by
  rw [idxLe_iff] at *; omega

theorem idxLe_total (a b : XY × Nat) : idxLe a b = true ∨ idxLe b a = true := by
  rw [idxLe_iff, idxLe_iff]; omega

theorem idxLe_antisymm {a b : XY × Nat} (h : idxLe a b = true) (h' : idxLe b a = true) : a = b := by
  rw [idxLe_iff] at *
  obtain ⟨⟨ax, ay⟩, ai⟩ := a
  obtain ⟨⟨bx, bY⟩, bi⟩ := b
  dsimp only at *
  have h1 : ax = bx := by omega
  have h2 : ay = bY := by omega
  have h3 : ai = bi := by omega
  rw [h1, h2, h3]

theorem uniqueAdj_mem {α : Type} [DecidableEq α] (l : List α) : ∀ a, a ∈ uniqueAdj l ↔ a ∈ l := by
  induction l with
  | nil => simp [uniqueAdj]
  | cons x l ih =>
    cases l with
    | nil => simp [uniqueAdj]
    | cons y l =>
      intro a
      unfold uniqueAdj
      by_cases h : x = y
      · rw [if_pos h, ih]; simp [h]
      · rw [if_neg h, List.mem_cons, ih]; simp only [List.mem_cons]

theorem uniqueAdj_sorted (l : List (XY × Nat)) (h : l.Pairwise (fun a b => idxLe a b = true)) :
    (uniqueAdj l).Pairwise (fun a b => idxLe a b = true ∧ a ≠ b) := by
  induction l with
  | nil => exact List.Pairwise.nil
  | cons x l ih =>
    cases l with
    | nil => exact List.pairwise_singleton _ _
    | cons y l =>
      unfold uniqueAdj
      have hp := List.pairwise_cons.1 h
      by_cases hxy : x = y
      · rw [if_pos hxy]; exact ih hp.2
      · rw [if_neg hxy, List.pairwise_cons]
        refine ⟨?_, ih hp.2⟩
        intro b hb
        rw [uniqueAdj_mem] at hb
        refine ⟨hp.1 b hb, ?_⟩
        rintro rfl
        have h1 := hp.1 y (by simp)
        rcases List.mem_cons.1 hb with e | e
        · exact hxy e
        · exact hxy (idxLe_antisymm h1 ((List.pairwise_cons.1 hp.2).1 _ e))

theorem entriesAt_filter (idx : List (XY × Nat)) (h : idx.Pairwise (fun a b => idxLe a b = true)) (p : XY) :
    entriesAt idx p = (idx.filter (fun e => e.1 == p)).map (·.2) := by
  unfold entriesAt
  congr 1
  induction idx with
  | nil => rfl
  | cons e idx ih =>
    have hp := List.pairwise_cons.1 h
    have ih := ih hp.2
    by_cases hlt : e.1.x < p.x ∨ (e.1.x = p.x ∧ e.1.y < p.y)
    · rw [List.dropWhile_cons, if_pos (by simpa using hlt), ih, List.filter_cons, if_neg]
      intro hc
      have hc : e.1 = p := by simpa using hc
      rw [hc] at hlt; omega
    · rw [List.dropWhile_cons, if_neg (by simpa using hlt)]
      clear ih
      -- everything from here on is at `p` or behind it
      have key : ∀ l : List (XY × Nat), l.Pairwise (fun a b => idxLe a b = true) → (∀ a ∈ l, ¬ (a.1.x < p.x ∨ (a.1.x = p.x ∧ a.1.y < p.y))) →
          l.takeWhile (fun e => e.1 == p) = l.filter (fun e => e.1 == p) := by
        intro l
        induction l with
        | nil => intro _ _; rfl
        | cons a l ih =>
          intro h1 h2
          have hq := List.pairwise_cons.1 h1
          by_cases ha : a.1 = p
          · rw [List.takeWhile_cons, List.filter_cons, if_pos (by simpa using ha), if_pos (by simpa using ha),
              ih hq.2 (fun b hb => h2 b (List.mem_cons_of_mem _ hb))]
          · rw [List.takeWhile_cons, if_neg (by simpa using ha)]
            symm
            rw [List.filter_eq_nil_iff]
            intro b hb hbp
            have hbp : b.1 = p := by simpa using hbp
            rcases List.mem_cons.1 hb with rfl | hb
            · exact ha hbp
            · have h3 := (idxLe_iff a b).1 (hq.1 b hb)
              have h4 := h2 a (by simp)
              apply ha
              rw [hbp] at h3
              have : a.1.x = p.x ∧ a.1.y = p.y := by omega
              cases hh : a.1; cases hh' : p
              rw [hh, hh'] at this
              simp only at this
              rw [this.1, this.2]
      refine key _ h ?_
      intro a ha
      rcases List.mem_cons.1 ha with rfl | ha
      · exact hlt
      · have := (idxLe_iff e a).1 (hp.1 a ha)
        omega

theorem idxEntries_mem (s : Slots) : ∀ (n : Nat) (p : XY) (i : Nat),
    (p, i) ∈ idxEntries n s ↔ ∃ k l, i = n + k ∧ s.get k = some l ∧ (p = l.from_ ∨ p = l.to_) := by
  induction s with
  | nil => intro n p i; simp [idxEntries, Slots.get]
  | cons o s ih =>
    intro n p i
    have hg0 : Slots.get (o :: s) 0 = o := by simp [Slots.get]
    have hgs : ∀ k, Slots.get (o :: s) (k + 1) = Slots.get s k := by intro k; simp [Slots.get]
    have step : (∃ k l, i = n + k ∧ Slots.get (o :: s) k = some l ∧ (p = l.from_ ∨ p = l.to_)) ↔
        (∃ l, i = n ∧ o = some l ∧ (p = l.from_ ∨ p = l.to_)) ∨ (∃ k l, i = (n + 1) + k ∧ Slots.get s k = some l ∧ (p = l.from_ ∨ p = l.to_)) := by
      constructor
      · rintro ⟨k, l, h1, h2, h3⟩
        cases k with
        | zero => exact .inl ⟨l, h1, hg0 ▸ h2, h3⟩
        | succ k => exact .inr ⟨k, l, by omega, hgs k ▸ h2, h3⟩
      · rintro (⟨l, h1, h2, h3⟩ | ⟨k, l, h1, h2, h3⟩)
        · exact ⟨0, l, h1, by rw [hg0]; exact h2, h3⟩
        · exact ⟨k + 1, l, by omega, by rw [hgs]; exact h2, h3⟩
    rw [step]
    cases o with
    | none => simp [idxEntries, ih]
    | some l =>
      simp only [idxEntries, List.mem_cons, ih, Prod.mk.injEq, Option.some.injEq]
      constructor
      · rintro (⟨h1, h2⟩ | ⟨h1, h2⟩ | h)
        · exact .inl ⟨l, h2, rfl, .inl h1⟩
        · exact .inl ⟨l, h2, rfl, .inr h1⟩
        · exact .inr h
      · rintro (⟨l', h1, rfl, h3 | h3⟩ | h)
        · exact .inl ⟨h3, h1⟩
        · exact .inr (.inl ⟨h3, h1⟩)
        · exact .inr (.inr h)

theorem makeHandles_ok (pts : List Line) (hne : ∀ l ∈ pts, l ≠ []) : ∀ n, ∃ s, makeHandles n pts = .ok s ∧ s.length = pts.length ∧
    ∀ k l, s.get k = some l ↔ ∃ g a b, pts[k]? = some g ∧ g.head? = some a ∧ g.getLast? = some b ∧ l = ⟨a, b, .leaf (n + k) false⟩ := by
  induction pts with
  | nil => intro n; exact ⟨[], rfl, rfl, by simp [Slots.get]⟩
  | cons g pts ih =>
    intro n
    obtain ⟨s, h1, h2, h3⟩ := ih (fun l hl => hne l (by simp [hl])) (n + 1)
    obtain ⟨a, ha⟩ : ∃ a, g.head? = some a := ⟨_, List.head?_eq_some_head (hne g (by simp))⟩
    obtain ⟨b, hb⟩ : ∃ b, g.getLast? = some b := ⟨_, List.getLast?_eq_some_getLast (hne g (by simp))⟩
    refine ⟨some ⟨a, b, .leaf n false⟩ :: s, ?_, by simp [h2], ?_⟩
    · simp only [makeHandles, ha, hb, h1, Res.ok_bind]; rfl
    · intro k l
      cases k with
      | zero =>
        have hg : Slots.get (some (⟨a, b, .leaf n false⟩ : JLine) :: s) 0 = some ⟨a, b, .leaf n false⟩ := by simp [Slots.get]
        rw [hg]
        simp only [List.getElem?_cons_zero, Option.some.injEq, Nat.add_zero]
        constructor
        · rintro rfl; exact ⟨g, a, b, rfl, ha, hb, rfl⟩
        · rintro ⟨g', a', b', rfl, h5, h6, rfl⟩
          rw [ha] at h5; rw [hb] at h6; injection h5 with h5; injection h6 with h6; rw [h5, h6]
      | succ k =>
        have hg : Slots.get (some (⟨a, b, .leaf n false⟩ : JLine) :: s) (k + 1) = Slots.get s k := by simp [Slots.get]
        rw [hg, h3, List.getElem?_cons_succ]
        have : n + 1 + k = n + (k + 1) := by omega
        rw [this]

theorem nodup_map_on {α β : Type} {f : α → β} {l : List α} (H : ∀ x ∈ l, ∀ y ∈ l, f x = f y → x = y) (h : l.Nodup) : (l.map f).Nodup := by
  unfold List.Nodup at *
  rw [List.pairwise_map]
  refine List.Pairwise.imp_of_mem ?_ h
  intro a b ha hb hab hf
  exact hab (H a ha b hb hf)

theorem idx_ok (pts : List Line) {s : Slots} 
    (h3 : ∀ k l, s.get k = some l ↔ ∃ g a b, pts[k]? = some g ∧ g.head? = some a ∧ g.getLast? = some b ∧ l = ⟨a, b, .leaf (0 + k) false⟩) :
    AggIdx pts (makeIdx s) := by
  have hs : (makeIdx s).Pairwise (fun a b => idxLe a b = true ∧ a ≠ b) := by
    exact uniqueAdj_sorted _ (sortBy_sorted idxLe_trans idxLe_total _)
  have hs' := hs.imp (fun h => h.1)
  constructor
  · intro p
    rw [entriesAt_filter _ hs']
    have hn : (makeIdx s).Nodup := hs.imp (fun h => h.2)
    refine nodup_map_on ?_ (hn.filter _)
    intro x hx y hy hxy
    have hx2 := (List.mem_filter.1 hx).2
    have hy2 := (List.mem_filter.1 hy).2
    rw [beq_iff_eq] at hx2 hy2
    exact Prod.ext (hx2.trans hy2.symm) hxy
  · intro p i
    rw [entriesAt_filter _ hs', List.mem_map]
    have hm : ∀ e, e ∈ makeIdx s ↔ e ∈ idxEntries 0 s := by
      intro e
      unfold makeIdx
      rw [uniqueAdj_mem, (sortBy_perm _ _).mem_iff]
    constructor
    · rintro ⟨⟨q, j⟩, h1, rfl⟩
      rw [List.mem_filter, hm] at h1
      obtain ⟨h1, h2⟩ := h1
      have h2 : q = p := by simpa using h2
      subst h2
      obtain ⟨k, l, h4, h5, h6⟩ := (idxEntries_mem s 0 q j).1 h1
      obtain ⟨g, a, b, h7, h8, h9, rfl⟩ := (h3 k l).1 h5
      have hj : j = k := by omega
      subst hj
      unfold EndsAt lineNo
      rw [List.getD_eq_getElem?_getD, h7]
      rcases h6 with rfl | rfl
      · exact .inl h8
      · exact .inr h9
    · intro h
      have hlt : ∃ g, pts[i]? = some g ∧ (g.head? = some p ∨ g.getLast? = some p) := by
        unfold EndsAt lineNo at h
        rw [List.getD_eq_getElem?_getD] at h
        cases hg : pts[i]? with
        | none => rw [hg] at h; simp at h
        | some g => exact ⟨g, rfl, by rw [hg] at h; exact h⟩
      obtain ⟨g, hg, hh⟩ := hlt
      have hgne : g ≠ [] := by rintro rfl; simp at hh
      obtain ⟨a, ha⟩ : ∃ a, g.head? = some a := ⟨_, List.head?_eq_some_head hgne⟩
      obtain ⟨b, hb⟩ : ∃ b, g.getLast? = some b := ⟨_, List.getLast?_eq_some_getLast hgne⟩
      refine ⟨(p, i), ?_, rfl⟩
      rw [List.mem_filter, hm]
      refine ⟨?_, by simp⟩
      refine (idxEntries_mem s 0 p i).2 ⟨i, _, by omega, (h3 i _).2 ⟨g, a, b, hg, ha, hb, rfl⟩, ?_⟩
      dsimp only
      rcases hh with hh | hh
      · left; rw [ha] at hh; injection hh with hh; exact hh.symm
      · right; rw [hb] at hh; injection hh with hh; exact hh.symm

end Tiles
