import Verif.Proof.PackFile
/-! C05 — pack-record lists stored in the database. -/
namespace Tiles

/-- a stored list of records is read back unchanged, in order -/
theorem C05_records_round_trip (rs : List PackRecord) (h : ∀ r ∈ rs, r.Fits) :
    packRecordsDeserialize (packRecordsSerialize rs) = .ok rs := by
  simp only [packRecordsDeserialize, packRecordsSerialize_length]
  have h1 : (16 * rs.length % 16 == 0) = true := by simp
  have h2 : 16 * rs.length / 16 = rs.length := by omega
  rw [h1, h2, verify_true, Res.ok_bind, map_readNth_serialize rs h]
  rfl

/-- adding a record to a stored value appends exactly that record to the list -/
theorem C05_update_appends (rs : List PackRecord) (h : ∀ r ∈ rs, r.Fits) (r : PackRecord)
    (hr : r.Fits) :
    ∃ dat, packRecordsUpdate (packRecordsSerialize rs) r = .ok dat ∧
      packRecordsDeserialize dat = .ok (rs ++ [r]) := by
  have e : packRecordsSerialize (rs ++ [r]) = packRecordsSerialize rs ++ recordBytes r := by
    simp [packRecordsSerialize]
  refine ⟨packRecordsSerialize (rs ++ [r]), ?_, C05_records_round_trip _ ?_⟩
  · simp [packRecordsUpdate, e]
  · intro r' h'
    rcases List.mem_append.1 h' with h' | h'
    · exact h r' h'
    · simp at h'; subst h'; exact hr

/-- values of any other size are refused by all readers -/
theorem C05_bad_size_throws (dat : Bytes) (h : dat.length % 16 ≠ 0) (r : PackRecord) :
    packRecordsDeserialize dat = .throw_ ∧ packRecordsUpdate dat r = .throw_ := by
  have : (dat.length % 16 == 0) = false := by simpa using h
  simp [packRecordsDeserialize, packRecordsUpdate, this]

/-- what is accepted is never misread: it is the serialization of the list returned -/
theorem C05_accepted_is_serialization (dat : Bytes) (rs : List PackRecord)
    (h : packRecordsDeserialize dat = .ok rs) :
    packRecordsSerialize rs = dat ∧ ∀ r ∈ rs, r.Fits := by
  by_cases hm : dat.length % 16 = 0
  · simp only [packRecordsDeserialize, hm, beq_self_eq_true, verify_true, Res.ok_bind, Res.pure_eq,
      Res.ok.injEq] at h
    subst h
    exact serialize_map_readNth _ dat (by omega)
  · rw [(C05_bad_size_throws dat hm default).1] at h; cases h

-- non-vacuity
example : packRecordsDeserialize (packRecordsSerialize [⟨5, 300⟩, ⟨2 ^ 40, 7⟩]) = .ok [⟨5, 300⟩, ⟨2 ^ 40, 7⟩] ∧
    ∀ r ∈ ([⟨5, 300⟩, ⟨2 ^ 40, 7⟩] : List PackRecord), r.Fits := by decide
example : packRecordsDeserialize [1, 2, 3] = .throw_ := by decide

end Tiles
