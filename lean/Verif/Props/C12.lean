import Verif.Proof.FeaturePack
/-! C12 — checksums. -/
namespace Tiles

/-- everything `finish` produces is valid, in particular every plain pack -/
theorem C12_finished_valid (crc : Bytes → UInt32) (buf : Bytes) :
    featurePackValid crc (finishPack crc buf) = true := by
  have hl : ¬ (finishPack crc buf).length < 4 := by simp [finishPack]
  have h1 : (finishPack crc buf).length - 4 = buf.length := by simp [finishPack]
  rw [featurePackValid, if_neg hl, h1]
  have h2 : (finishPack crc buf).drop buf.length = leBytes 4 (crc buf).toNat := by
    simp [finishPack]
  have h3 : (finishPack crc buf).take buf.length = buf := by simp [finishPack]
  rw [h2, h3, leNat_leBytes_of_lt (by have := (crc buf).toNat_lt; simpa using this)]
  simp

theorem C12_pack_valid (crc : Bytes → UInt32) (fs : List Bytes) (p : Bytes)
    (h : packFeaturesPlain crc fs = .ok p) : featurePackValid crc p = true := by
  simp only [packFeaturesPlain, Res.bind_eq_ok, Res.pure_eq, Res.ok.injEq] at h
  obtain ⟨a, _, b, _, rfl⟩ := h
  exact C12_finished_valid crc _

/-- exact meaning of validity: at least four bytes, the last four being the little-endian checksum
of the others -/
theorem C12_valid_iff (crc : Bytes → UInt32) (s : Bytes) :
    featurePackValid crc s = true ↔ ∃ body, s = body ++ leBytes 4 (crc body).toNat := by
  constructor
  · intro h
    unfold featurePackValid at h
    split at h
    · cases h
    · rename_i hl
      refine ⟨s.take (s.length - 4), ?_⟩
      have h1 := beq_iff_eq.1 h
      rw [← h1]
      have h2 : (s.drop (s.length - 4)).length = 4 := by simp; omega
      have h3 := leBytes_leNat (s.drop (s.length - 4))
      rw [h2] at h3
      rw [h3, List.take_append_drop]
  · rintro ⟨body, rfl⟩
    exact C12_finished_valid crc body

/-- a pack whose body or checksum was damaged such that they no longer agree is rejected -/
theorem C12_damage_detected (crc : Bytes → UInt32) (body : Bytes) (c : UInt32) (h : c ≠ crc body) :
    featurePackValid crc (body ++ leBytes 4 c.toNat) = false := by
  rw [Bool.eq_false_iff]
  intro hv
  obtain ⟨b', hb⟩ := (C12_valid_iff crc _).1 hv
  have h1 : body = b' ∧ leBytes 4 c.toNat = leBytes 4 (crc b').toNat :=
    List.append_inj' hb (by simp)
  obtain ⟨rfl, h2⟩ := h1
  have h3 := congrArg leNat h2
  rw [leNat_leBytes_of_lt (by have := c.toNat_lt; simpa using this),
    leNat_leBytes_of_lt (by have := (crc body).toNat_lt; simpa using this), UInt32.toNat_inj] at h3
  exact h h3

theorem C12_short_rejected (crc : Bytes → UInt32) (s : Bytes) (h : s.length < 4) :
    featurePackValid crc s = false := by simp [featurePackValid, h]

-- non-vacuity
example : featurePackValid (fun _ => 7) [1, 2, 7, 0, 0, 0] = true ∧
    featurePackValid (fun _ => 7) [1, 2, 8, 0, 0, 0] = false := by decide

end Tiles
