import Verif.Proof.PackFile
namespace Tiles

/-- the bytes `[off, off+n)` -/
def slice (d : Bytes) (off n : Nat) : Bytes := (d.drop off).take n

theorem slice_getElem? (d : Bytes) (off n i : Nat) :
    (slice d off n)[i]? = if i < n then d[off + i]? else none := by
  simp only [slice, List.getElem?_take, List.getElem?_drop]

theorem slice_length (d : Bytes) (off n : Nat) (h : off + n ≤ d.length) : (slice d off n).length = n := by
  simp [slice]; omega

theorem slice_congr {d d' : Bytes} {off n : Nat}
    (h : ∀ i, off ≤ i → i < off + n → d[i]? = d'[i]?) : slice d off n = slice d' off n := by
  apply List.ext_getElem?
  intro i
  simp only [slice_getElem?]
  split
  · exact h _ (by omega) (by omega)
  · rfl

theorem overwrite_getElem? (d : Bytes) (off : Nat) (b : Bytes) (h : off ≤ d.length) (i : Nat) :
    (overwrite d off b)[i]? =
      if i < off then d[i]? else if i < off + b.length then b[i - off]? else d[i]? := by
  unfold overwrite
  rw [List.append_assoc, List.getElem?_append]
  simp only [List.length_take, Nat.min_eq_left h]
  split
  · rename_i h1; simp [h1]
  · rename_i h1
    rw [List.getElem?_append]
    split
    · rename_i h2
      have h3 : i < off + b.length := by omega
      simp [h3]
    · rename_i h2
      have h3 : ¬ i < off + b.length := by omega
      simp only [h3, if_false, List.getElem?_drop]
      congr 1; omega

theorem overwrite_length (d : Bytes) (off : Nat) (b : Bytes) (h : off + b.length ≤ d.length) :
    (overwrite d off b).length = d.length := by
  simp [overwrite]; omega

theorem slice_overwrite_self (d : Bytes) (off : Nat) (b : Bytes) (h : off ≤ d.length) :
    slice (overwrite d off b) off b.length = b := by
  apply List.ext_getElem?
  intro i
  simp only [slice_getElem?, overwrite_getElem? d off b h]
  split
  · have h1 : ¬ off + i < off := by omega
    have h2 : off + i < off + b.length := by omega
    simp only [h1, h2, if_false, if_true, Nat.add_sub_cancel_left]
  · rename_i h1
    rw [List.getElem?_eq_none (by omega)]

theorem slice_overwrite_disjoint (d : Bytes) (off : Nat) (b : Bytes) (h : off ≤ d.length)
    (o n : Nat) (hd : o + n ≤ off ∨ off + b.length ≤ o) :
    slice (overwrite d off b) o n = slice d o n := by
  apply slice_congr
  intro i h1 h2
  rw [overwrite_getElem? d off b h]
  split
  · rfl
  · split
    · omega
    · rfl

namespace PackFile

theorem get_eq_ok_iff (f : PackFile) (r : PackRecord) (b : Bytes) :
    f.get r = .ok b ↔ r.offset < f.size ∧ r.endOffset ≤ f.size ∧ slice f.data r.offset r.size = b := by
  unfold get
  by_cases h1 : r.offset < f.size ∧ (r.offset + r.size) % 2 ^ 64 ≤ f.size
  · have : (decide (r.offset < f.size) && decide ((r.offset + r.size) % 2 ^ 64 ≤ f.size)) = true := by
      simp only [Bool.and_eq_true, decide_eq_true_eq]; exact h1
    rw [this, verify_true, Res.ok_bind]
    by_cases h2 : r.offset + r.size ≤ f.size
    · simp only [h2, if_true, Res.ok.injEq, PackRecord.endOffset, slice, h1.1, true_and]
    · simp [h2, PackRecord.endOffset]
  · have : (decide (r.offset < f.size) && decide ((r.offset + r.size) % 2 ^ 64 ≤ f.size)) = false := by
      rw [Bool.eq_false_iff]; intro hh; apply h1
      simp only [Bool.and_eq_true, decide_eq_true_eq] at hh; exact hh
    rw [this, verify_false, Res.throw_bind]
    constructor
    · intro h; cases h
    · rintro ⟨h2, h3, _⟩
      have := Nat.mod_le (r.offset + r.size) (2 ^ 64)
      exact absurd ⟨h2, Nat.le_trans this h3⟩ h1

theorem resize_size (f : PackFile) (n : Nat) : (f.resize n).size = n := by
  unfold resize; split <;> rfl

theorem resize_wf (f : PackFile) (n : Nat) (h : f.WF) : (f.resize n).WF := by
  unfold WF at *
  unfold resize
  split
  · simp only; omega
  · simp only
    rw [overwrite_length]
    · simp [zeros]; omega
    · simp [zeros]; omega

theorem resize_length (f : PackFile) (n : Nat) (h : f.WF) : f.data.length ≤ (f.resize n).data.length := by
  unfold WF at h
  unfold resize
  split
  · simp
  · simp only
    rw [overwrite_length]
    · simp [zeros]
    · simp [zeros]; omega

theorem resize_getElem? (f : PackFile) (n : Nat) (h : f.WF) (i : Nat) (hi : i < f.size) :
    (f.resize n).data[i]? = f.data[i]? := by
  unfold WF at h
  unfold resize
  split
  · rfl
  · simp only
    rw [overwrite_getElem? _ _ _ (by simp; omega)]
    simp only [hi, if_true]
    rw [List.getElem?_append_left (by omega)]

theorem resize_get (f : PackFile) (n : Nat) (h : f.WF) (r : PackRecord) (b : Bytes)
    (hg : f.get r = .ok b) (hn : r.offset < n) (hn' : r.endOffset ≤ n) : (f.resize n).get r = .ok b := by
  rw [get_eq_ok_iff] at hg ⊢
  obtain ⟨h1, h2, h3⟩ := hg
  rw [resize_size]
  refine ⟨hn, hn', ?_⟩
  rw [← h3]
  apply slice_congr
  intro i _ h5
  exact resize_getElem? f n h i (by unfold PackRecord.endOffset at h2; omega)

theorem insert_wf (f : PackFile) (off : Nat) (b : Bytes) (h : f.WF) : (f.insert off b).1.WF := by
  have h1 := resize_wf f (max f.size (off + b.length)) h
  have h2 := resize_size f (max f.size (off + b.length))
  unfold WF at *
  unfold insert
  simp only
  rw [overwrite_length]
  · exact h1
  · rw [h2] at h1
    have : off + b.length ≤ max f.size (off + b.length) := Nat.le_max_right ..
    omega

theorem insert_size (f : PackFile) (off : Nat) (b : Bytes) :
    (f.insert off b).1.size = max f.size (off + b.length) := by
  simp [insert, resize_size]

theorem insert_data_off_le (f : PackFile) (off n : Nat) (h : f.WF) :
    off + n ≤ (f.resize (max f.size (off + n))).data.length := by
  have h1 := resize_wf f (max f.size (off + n)) h
  unfold WF at h1
  rw [resize_size] at h1
  have : off + n ≤ max f.size (off + n) := Nat.le_max_right ..
  omega

theorem insert_get_self (f : PackFile) (off : Nat) (b : Bytes) (h : f.WF) (hb : b ≠ []) :
    (f.insert off b).1.get (f.insert off b).2 = .ok b := by
  have hlen : 0 < b.length := List.length_pos_iff.2 hb
  rw [get_eq_ok_iff, insert_size]
  have h2 := insert_data_off_le f off b.length h
  refine ⟨?_, ?_, ?_⟩
  · show off < _
    have : off + b.length ≤ max f.size (off + b.length) := Nat.le_max_right ..
    omega
  · exact Nat.le_max_right ..
  · exact slice_overwrite_self _ off b (by omega)

theorem insert_get_other (f : PackFile) (off : Nat) (b : Bytes) (h : f.WF) (r : PackRecord) (c : Bytes)
    (hg : f.get r = .ok c) (hd : r.endOffset ≤ off ∨ off + b.length ≤ r.offset) :
    (f.insert off b).1.get r = .ok c := by
  have h1 := (get_eq_ok_iff ..).1 hg
  have hm : f.size ≤ max f.size (off + b.length) := Nat.le_max_left ..
  have h2 := resize_get f (max f.size (off + b.length)) h r c hg (by omega) (by omega)
  rw [get_eq_ok_iff] at h2 ⊢
  rw [insert_size]
  refine ⟨by omega, by omega, ?_⟩
  rw [← h2.2.2]
  have h3 := insert_data_off_le f off b.length h
  exact slice_overwrite_disjoint _ off b (by omega) _ _ hd

theorem move_eq_insert (f : PackFile) (off : Nat) (r : PackRecord) (b : Bytes) (h : f.WF)
    (hg : f.get r = .ok b) : f.move off r = .ok (f.insert off b) := by
  have h1 := (get_eq_ok_iff ..).1 hg
  have hlen : b.length = r.size := by
    rw [← h1.2.2]
    apply slice_length
    have := h1.2.1
    unfold WF at h
    unfold PackRecord.endOffset at this
    omega
  have hm : f.size ≤ max f.size (off + r.size) := Nat.le_max_left ..
  have h2 := resize_get f (max f.size (off + r.size)) h r b hg (by omega) (by omega)
  rw [get_eq_ok_iff] at h2
  have h3 := resize_length f (max f.size (off + r.size)) h
  have h4 : r.offset + r.size ≤ (f.resize (max f.size (off + r.size))).data.length := by
    have := h1.2.1
    unfold WF at h
    unfold PackRecord.endOffset at this
    omega
  unfold move
  simp only [h4, if_true]
  have h5 : List.take r.size (List.drop r.offset (f.resize (max f.size (off + r.size))).data) = b := h2.2.2
  rw [h5]
  unfold insert
  rw [hlen]

theorem trimmedLength_le (d : Bytes) : trimmedLength d ≤ d.length := by
  unfold trimmedLength
  have := (List.dropWhile_sublist (fun b : UInt8 => b == 0) (l := d.reverse)).length_le
  simpa using this

theorem lt_trimmedLength (d : Bytes) (i : Nat) (b : UInt8) (h : d[i]? = some b) (hb : b ≠ 0) :
    i < trimmedLength d := by
  have hi : i < d.length := by
    by_contra hc
    rw [List.getElem?_eq_none (by omega)] at h; cases h
  unfold trimmedLength
  have key : ∀ (l : Bytes) (j : Nat), l[j]? = some b → l.length - j ≤ (l.dropWhile (· == 0)).length := by
    intro l
    induction l with
    | nil => intro j hj; simp at hj
    | cons c l ih =>
      intro j hj
      cases j with
      | zero =>
        simp at hj; subst hj
        simp [hb]
      | succ j =>
        simp only [List.getElem?_cons_succ] at hj
        have := ih j hj
        rw [List.dropWhile_cons]
        split
        · simp only [List.length_cons]; omega
        · simp only [List.length_cons] at this ⊢; omega
  have hr : d.reverse[d.length - 1 - i]? = some b := by
    rw [List.getElem?_reverse (by omega)]
    rw [show d.length - 1 - (d.length - 1 - i) = i by omega]; exact h
  have := key d.reverse _ hr
  simp only [List.length_reverse] at this
  omega

end PackFile
end Tiles
