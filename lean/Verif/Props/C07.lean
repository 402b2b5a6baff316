import Verif.Props.C06
/-! C07 — closing and reopening the pack file. -/
namespace Tiles
namespace PackFile

/-- After an orderly close and reopen every record reads back the same bytes, for every content
(empty, ending in zeros, with stale bytes behind the end). -/
theorem C07_close_reopen (f : PackFile) (h : f.WF) (r : PackRecord) (b : Bytes)
    (hg : f.get r = .ok b) : f.close.reopen.get r = .ok b ∧ f.close.reopen.WF := by
  refine ⟨?_, trimmedLength_le _⟩
  have h1 := (get_eq_ok_iff ..).1 hg
  unfold close
  split
  · rename_i hc
    have e : (⟨overwrite (f.resize (f.size + 1)).data f.size [97], (f.resize (f.size + 1)).size⟩ : PackFile)
        = (f.insert f.size [97]).1 := by
      simp only [insert, List.length_cons, List.length_nil, Nat.zero_add]
      rw [Nat.max_eq_right (Nat.le_succ _)]
    rw [e]
    have h2 := insert_get_other f f.size [97] h r b hg (.inl h1.2.1)
    have h3 := insert_get_self f f.size [97] h (by simp)
    rw [get_eq_ok_iff] at h2 h3 ⊢
    have hl : f.size < trimmedLength (f.insert f.size [97]).1.data := by
      apply lt_trimmedLength _ _ 97 _ (by decide)
      have h4 := h3.2.2
      have h5 : (slice (f.insert f.size [97]).1.data f.size 1)[0]? = some 97 := by
        have : (f.insert f.size [97]).2 = ⟨f.size, 1⟩ := rfl
        rw [this] at h4
        simp only at h4
        rw [h4]; rfl
      rw [slice_getElem?] at h5
      simpa using h5
    refine ⟨?_, ?_, h2.2.2⟩
    · show r.offset < trimmedLength _; omega
    · show r.endOffset ≤ trimmedLength _; omega
  · rename_i hc
    rw [get_eq_ok_iff]
    have hne : f.size ≠ 0 := fun hh => hc (.inl hh)
    have hl : f.size - 1 < trimmedLength f.data := by
      obtain ⟨c, hcc⟩ : ∃ c, f.data[f.size - 1]? = some c :=
        ⟨_, List.getElem?_eq_getElem (by unfold WF at h; omega)⟩
      apply lt_trimmedLength _ _ c hcc
      rintro rfl
      exact hc (.inr hcc)
    refine ⟨?_, ?_, h1.2.2⟩
    · show r.offset < trimmedLength f.data; omega
    · show r.endOffset ≤ trimmedLength f.data; omega

/-- After a crash (no destructor) every record whose last byte is not zero still reads back. -/
theorem C07_crash_reopen (f : PackFile) (h : f.WF) (r : PackRecord) (b : Bytes) (c : UInt8)
    (hg : f.get r = .ok (b ++ [c])) (hc : c ≠ 0) : f.reopen.get r = .ok (b ++ [c]) := by
  have h1 := (get_eq_ok_iff ..).1 hg
  rw [get_eq_ok_iff]
  have hlen : (b ++ [c]).length = r.size := by
    rw [← h1.2.2]
    apply slice_length
    have := h1.2.1
    unfold WF at h
    unfold PackRecord.endOffset at this
    omega
  simp only [List.length_append, List.length_cons, List.length_nil] at hlen
  have hl : r.offset + b.length < trimmedLength f.data := by
    apply lt_trimmedLength _ _ c _ hc
    have h5 : (slice f.data r.offset r.size)[b.length]? = some c := by rw [h1.2.2]; simp
    rw [slice_getElem?] at h5
    have : b.length < r.size := by omega
    simpa [this] using h5
  refine ⟨?_, ?_, h1.2.2⟩
  · show r.offset < trimmedLength f.data; omega
  · show r.endOffset ≤ trimmedLength f.data; unfold PackRecord.endOffset; omega

/-- Without the destructor a record ending in zero bytes is lost (the reason for the destructor;
about one feature pack in 256 ends in a zero checksum byte). -/
theorem C07_crash_loses_trailing_zero :
    ∃ (f : PackFile) (r : PackRecord), f.WF ∧ f.get r = .ok [7, 0] ∧ f.reopen.get r = .throw_ :=
  ⟨(⟨[], 0⟩ : PackFile).append [7, 0] |>.1, ⟨0, 2⟩, by decide, by decide, by decide⟩

/-- Shrinking does not survive reopening: the cut-off bytes are still in the file. -/
theorem C07_shrink_not_durable :
    ∃ f : PackFile, f.WF ∧ (f.resize 1).size = 1 ∧ (f.resize 1).close.reopen.size = 3 :=
  ⟨⟨[1, 2, 3], 3⟩, by decide, by decide, by decide⟩

/-- nothing but zero bytes behind the end -/
def CleanTail (f : PackFile) : Prop := ∀ i c, f.size ≤ i → f.data[i]? = some c → c = 0

theorem trimmed_le_of {d : Bytes} {n : Nat} (h : ∀ i c, n ≤ i → d[i]? = some c → c = 0) : trimmedLength d ≤ n := by
  rw [← Nat.not_lt]
  intro hlt
  unfold trimmedLength at hlt
  cases hd : d.reverse.dropWhile (· == 0) with
  | nil => rw [hd] at hlt; simp at hlt
  | cons c l =>
    rw [hd] at hlt
    have h1 : c ≠ 0 := by
      have := List.head_dropWhile_not (fun b : UInt8 => b == 0) (l := d.reverse) (by rw [hd]; simp)
      simp only [hd, List.head_cons] at this
      simpa using this
    obtain ⟨t, ht⟩ : ∃ t, d.reverse = t ++ (c :: l) := by
      obtain ⟨t, ht⟩ := List.dropWhile_suffix (fun b : UInt8 => b == 0) (l := d.reverse)
      exact ⟨t, by rw [← hd]; exact ht.symm⟩
    have h2 : d = l.reverse ++ c :: t.reverse := by
      rw [← List.reverse_reverse d, ht]; simp
    refine h1 (h l.length c (by simp at hlt; omega) ?_)
    rw [h2, List.getElem?_append_right (by simp)]
    simp

theorem resize_tail (f : PackFile) (n : Nat) (h : f.WF) (hc : f.CleanTail) (i : Nat) (hi : f.size ≤ i) (c : UInt8) (hx : (f.resize n).data[i]? = some c) :
    c = 0 := by
  unfold WF at h
  unfold resize at hx
  split at hx
  · exact hc i c hi hx
  · simp only at hx
    rw [overwrite_getElem? _ _ _ (by simp; omega)] at hx
    rw [if_neg (by omega)] at hx
    split at hx
    · rw [zeros, List.getElem?_replicate] at hx
      split at hx
      · injection hx with hx; exact hx.symm
      · cases hx
    · rw [List.getElem?_append] at hx
      split at hx
      · exact hc i c hi hx
      · rw [zeros, List.getElem?_replicate] at hx
        split at hx
        · injection hx with hx; exact hx.symm
        · cases hx

/-- Writing keeps the bytes behind the end zero (an empty file has none), and a gap that it leaves reads as zeros. -/
theorem C07_zero_filled (f : PackFile) (h : f.WF) (hc : f.CleanTail) (off : Nat) (dat : Bytes) :
    (f.insert off dat).1.CleanTail ∧
    (f.size < off → (f.insert off dat).1.get ⟨f.size, off - f.size⟩ = .ok (List.replicate (off - f.size) 0)) := by
  have hlen := insert_data_off_le f off dat.length h
  have key : ∀ i, (f.insert off dat).1.data[i]? = if i < off then (f.resize (max f.size (off + dat.length))).data[i]? else
      if i < off + dat.length then dat[i - off]? else (f.resize (max f.size (off + dat.length))).data[i]? :=
    fun i => overwrite_getElem? _ off dat (by omega) i
  constructor
  · intro i c hi hx
    rw [insert_size] at hi
    rw [key, if_neg (by omega), if_neg (by omega)] at hx
    exact resize_tail f _ h hc i (by omega) c hx
  · intro ho
    rw [get_eq_ok_iff, insert_size]
    refine ⟨by show f.size < _; omega, by show f.size + (off - f.size) ≤ _; omega, ?_⟩
    apply List.ext_getElem?
    intro i
    rw [slice_getElem?, List.getElem?_replicate]
    dsimp only
    split
    · rename_i hi
      rw [key, if_pos (by omega)]
      have hl : f.size + i < (f.resize (max f.size (off + dat.length))).data.length := by omega
      rw [List.getElem?_eq_getElem hl]
      congr 1
      exact resize_tail f _ h hc (f.size + i) (by omega) _ (List.getElem?_eq_getElem hl)
    · rfl

/-- If the bytes behind the end are zero, a file that was closed opens with its size (one byte more if it was empty or ended with a zero). -/
theorem C07_size (f : PackFile) (h : f.WF) (hc : f.CleanTail) :
    f.close.reopen.size = if f.size = 0 ∨ f.data[f.size - 1]? = some 0 then f.size + 1 else f.size := by
  unfold close
  split
  · have e : (⟨overwrite (f.resize (f.size + 1)).data f.size [97], (f.resize (f.size + 1)).size⟩ : PackFile) = (f.insert f.size [97]).1 := by
      simp only [insert, List.length_cons, List.length_nil, Nat.zero_add]
      rw [Nat.max_eq_right (Nat.le_succ _)]
    rw [e]
    have h1 := (C07_zero_filled f h hc f.size [97]).1
    have hs : (f.insert f.size [97]).1.size = f.size + 1 := by rw [insert_size]; simp
    apply Nat.le_antisymm
    · rw [← hs]; exact trimmed_le_of h1
    · apply lt_trimmedLength _ _ 97 _ (by decide)
      have h3 := insert_get_self f f.size [97] h (by simp)
      rw [get_eq_ok_iff] at h3
      have h5 : (slice (f.insert f.size [97]).1.data f.size 1)[0]? = some 97 := by
        have h4 := h3.2.2
        rw [show (f.insert f.size [97]).2 = ⟨f.size, 1⟩ from rfl] at h4
        simp only at h4
        rw [h4]; rfl
      rw [slice_getElem?] at h5
      simpa using h5
  · rename_i hn
    have hne : f.size ≠ 0 := fun hh => hn (.inl hh)
    apply Nat.le_antisymm (trimmed_le_of hc)
    obtain ⟨c, hcc⟩ : ∃ c, f.data[f.size - 1]? = some c := ⟨_, List.getElem?_eq_getElem (by unfold WF at h; omega)⟩
    have := lt_trimmedLength _ _ c hcc (by rintro rfl; exact hn (.inr hcc))
    show f.size ≤ trimmedLength f.data
    omega

-- a file with a gap
example : (⟨[], 0⟩ : PackFile).CleanTail ∧ ((⟨[5], 1⟩ : PackFile).insert 3 [7, 0]).1 = ⟨[5, 0, 0, 7, 0], 5⟩ := ⟨by intro i c _ h; simp at h, by decide⟩
-- non-vacuity: empty file, file ending in zeros
example : ((⟨[], 0⟩ : PackFile).close.reopen) = ⟨[97], 1⟩ := by decide
example : ((⟨[1, 0, 0], 3⟩ : PackFile).get ⟨0, 3⟩) = .ok [1, 0, 0] ∧
    ((⟨[1, 0, 0], 3⟩ : PackFile).close.reopen.get ⟨0, 3⟩) = .ok [1, 0, 0] := by decide

end PackFile
end Tiles
