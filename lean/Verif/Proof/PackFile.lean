import Verif.Model.PackFile
import Mathlib.Tactic.NormNum
namespace Tiles

@[simp] theorem recordBytes_length (r : PackRecord) : (recordBytes r).length = 16 := by
  simp [recordBytes]

@[simp] theorem packRecordsSerialize_length (rs : List PackRecord) :
    (packRecordsSerialize rs).length = 16 * rs.length := by
  induction rs with
  | nil => rfl
  | cons r rs ih =>
    simp only [packRecordsSerialize, List.flatMap_cons, List.length_append, recordBytes_length] at ih ⊢
    rw [ih]; simp; omega

theorem readNthRecord_zero (r : PackRecord) (hr : r.Fits) (rest : Bytes) :
    readNthRecord (recordBytes r ++ rest) 0 = r := by
  have h1 : ((recordBytes r ++ rest).drop (0 * 16)).take 8 = leBytes 8 r.offset := by
    simp [recordBytes]
  have h2 : ((recordBytes r ++ rest).drop (0 * 16 + 8)).take 8 = leBytes 8 r.size := by
    rw [recordBytes, List.append_assoc]
    rw [List.drop_append_of_le_length (by simp), List.drop_eq_nil_of_le (by simp)]
    simp
  rw [readNthRecord, h1, h2, leNat_leBytes_of_lt (by have := hr.1; norm_num at this ⊢; omega),
    leNat_leBytes_of_lt (by have := hr.2; norm_num at this ⊢; omega)]

theorem readNthRecord_succ (a : Bytes) (ha : a.length = 16) (rest : Bytes) (i : Nat) :
    readNthRecord (a ++ rest) (i + 1) = readNthRecord rest i := by
  have h : ∀ k, (a ++ rest).drop (16 + k) = rest.drop k := by
    intro k; rw [List.drop_append, List.drop_eq_nil_of_le (by omega), ha]; simp
  rw [readNthRecord, readNthRecord, show (i + 1) * 16 = 16 + i * 16 by omega,
    show 16 + i * 16 + 8 = 16 + (i * 16 + 8) by omega, h, h]

theorem map_readNth_serialize (rs : List PackRecord) (h : ∀ r ∈ rs, r.Fits) :
    (List.range rs.length).map (readNthRecord (packRecordsSerialize rs)) = rs := by
  induction rs with
  | nil => rfl
  | cons r rs ih =>
    rw [List.length_cons, List.range_succ_eq_map, List.map_cons, List.map_map]
    have e : packRecordsSerialize (r :: rs) = recordBytes r ++ packRecordsSerialize rs := rfl
    rw [e, readNthRecord_zero r (h r (by simp))]
    congr 1
    have ih := ih (fun r' h' => h r' (by simp [h']))
    refine Eq.trans ?_ ih
    apply List.map_congr_left
    intro i _
    exact readNthRecord_succ (recordBytes r) (by simp) (packRecordsSerialize rs) i

theorem bytes_of_read (a : Bytes) (ha : a.length = 16) (rest : Bytes) :
    recordBytes (readNthRecord (a ++ rest) 0) = a ∧ (readNthRecord (a ++ rest) 0).Fits := by
  have h1 : ((a ++ rest).drop (0 * 16)).take 8 = a.take 8 := by
    simp only [Nat.zero_mul, List.drop_zero]
    rw [List.take_append_of_le_length (by omega)]
  have h2 : ((a ++ rest).drop (0 * 16 + 8)).take 8 = a.drop 8 := by
    rw [List.drop_append_of_le_length (by omega), List.take_append_of_le_length (by simp; omega)]
    rw [List.take_of_length_le (by simp; omega)]
  have l1 : (a.take 8).length = 8 := by simp; omega
  have l2 : (a.drop 8).length = 8 := by simp; omega
  constructor
  · rw [recordBytes, readNthRecord, h1, h2]
    have e1 := leBytes_leNat (a.take 8)
    have e2 := leBytes_leNat (a.drop 8)
    rw [l1] at e1; rw [l2] at e2
    simp only
    rw [e1, e2, List.take_append_drop]
  · rw [readNthRecord, h1, h2]
    have b1 := leNat_lt (a.take 8)
    have b2 := leNat_lt (a.drop 8)
    rw [l1] at b1; rw [l2] at b2
    constructor
    · have : (256 : Nat) ^ 8 = 2 ^ 64 := by norm_num
      omega
    · have : (256 : Nat) ^ 8 = 2 ^ 64 := by norm_num
      omega

theorem serialize_map_readNth (n : Nat) (dat : Bytes) (h : dat.length = 16 * n) :
    packRecordsSerialize ((List.range n).map (readNthRecord dat)) = dat ∧
    ∀ r ∈ (List.range n).map (readNthRecord dat), r.Fits := by
  induction n generalizing dat with
  | zero =>
    have : dat = [] := List.length_eq_zero_iff.1 (by omega)
    subst this; simp [packRecordsSerialize]
  | succ n ih =>
    obtain ⟨a, rest, rfl, ha⟩ : ∃ a rest, dat = a ++ rest ∧ a.length = 16 :=
      ⟨dat.take 16, dat.drop 16, (List.take_append_drop ..).symm, by simp; omega⟩
    obtain ⟨i1, i2⟩ := ih rest (by simp at h; omega)
    obtain ⟨b1, b2⟩ := bytes_of_read a ha rest
    have hmap : (List.range n).map (readNthRecord (a ++ rest) ∘ Nat.succ)
        = (List.range n).map (readNthRecord rest) := by
      apply List.map_congr_left
      intro i _
      exact readNthRecord_succ a ha rest i
    rw [List.range_succ_eq_map, List.map_cons, List.map_map, hmap]
    constructor
    · have : packRecordsSerialize (readNthRecord (a ++ rest) 0 :: (List.range n).map (readNthRecord rest))
        = recordBytes (readNthRecord (a ++ rest) 0) ++ packRecordsSerialize ((List.range n).map (readNthRecord rest)) := rfl
      rw [this, b1, i1]
    · intro r hr
      rcases List.mem_cons.1 hr with rfl | hr
      · exact b2
      · exact i2 r hr

end Tiles
