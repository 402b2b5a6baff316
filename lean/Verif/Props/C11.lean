import Verif.Proof.FeaturePack
/-! C11 — feature packs round-trip. -/
namespace Tiles

/-- every list of features of at least 32 bytes is packed, and unpacking yields it unchanged -/
theorem C11_pack_round_trip (crc : Bytes → UInt32) (fs : List Bytes)
    (h : ∀ f ∈ fs, 32 ≤ f.length ∧ f.length < 2 ^ 64) (hn : fs.length < 2 ^ 32) :
    ∃ p, packFeaturesPlain crc fs = .ok p ∧ ∃ n, unpackFeatures p = .ok (fs, n) := by
  have h1 : finishHeader fs.length [] = .ok (leBytes 4 fs.length ++ leBytes 1 0) := by
    have : fs.length ≤ 4294967295 := by omega
    simp [finishHeader, this]
  refine ⟨finishPack crc (leBytes 4 fs.length ++ leBytes 1 0 ++ (featureBytes fs ++ spanEnd)), ?_, ?_⟩
  · simp only [packFeaturesPlain, h1, Res.ok_bind, appendFeatures,
      appendFeatureList_ok fs (fun f hf => (h f hf).1)]
    rfl
  · obtain ⟨tl, htl⟩ : ∃ tl, finishPack crc (leBytes 4 fs.length ++ leBytes 1 0 ++ (featureBytes fs ++ spanEnd))
        = leBytes 4 fs.length ++ (leBytes 1 0 ++ (featureBytes fs ++ tl)) :=
      ⟨spanEnd ++ leBytes 4 (crc (leBytes 4 fs.length ++ leBytes 1 0 ++ (featureBytes fs ++ spanEnd))).toNat,
        by simp [finishPack]⟩
    rw [htl]
    have e1 : (leBytes 4 fs.length ++ (leBytes 1 0 ++ (featureBytes fs ++ tl))).take 4 = leBytes 4 fs.length := by
      rw [List.take_append_of_le_length (by simp), List.take_of_length_le (by simp)]
    have e2 : (leBytes 4 fs.length ++ (leBytes 1 0 ++ (featureBytes fs ++ tl))).drop 4
        = leBytes 1 0 ++ (featureBytes fs ++ tl) := by
      rw [List.drop_append_of_le_length (by simp), List.drop_eq_nil_of_le (by simp)]; rfl
    have e3 : (leBytes 4 fs.length ++ (leBytes 1 0 ++ (featureBytes fs ++ tl))).drop 5
        = featureBytes fs ++ tl := by
      rw [show (5 : Nat) = 4 + 1 by rfl, ← List.drop_drop, e2,
        List.drop_append_of_le_length (by simp), List.drop_eq_nil_of_le (by simp)]; rfl
    have e4 : (leBytes 1 0 ++ (featureBytes fs ++ tl)).take 1 = leBytes 1 0 := by
      rw [List.take_append_of_le_length (by simp), List.take_of_length_le (by simp)]
    have e5 : leNat (leBytes 4 fs.length) = fs.length := leNat_leBytes_of_lt (by simpa using hn)
    have e6 : leNat (leBytes 1 0) = 0 := by decide
    have hl : 5 ≤ (leBytes 4 fs.length ++ (leBytes 1 0 ++ (featureBytes fs ++ tl))).length := by
      simp; omega
    simp only [unpackFeatures, e1, e2, e4, e5, e6, Nat.zero_add, Nat.one_mul, ge_iff_le, hl, decide_true,
      verify_true, Res.ok_bind, if_true, e3]
    rw [unpackLoop_featureBytes fs tl h]
    exact ⟨_, rfl⟩

/-- a feature shorter than 32 bytes is refused at packing time -/
theorem C11_mini_feature_refused (crc : Bytes → UInt32) (fs : List Bytes) (h : ∃ f ∈ fs, f.length < 32) :
    packFeaturesPlain crc fs = .throw_ := by
  unfold packFeaturesPlain finishHeader
  by_cases hn : fs.length ≤ 4294967295
  · simp [hn, appendFeatures, appendFeatureList_throw fs h]
  · simp [hn]

/-- more than 2^32 - 1 features are refused -/
theorem C11_too_many_refused (crc : Bytes → UInt32) (fs : List Bytes) (h : 2 ^ 32 ≤ fs.length) :
    packFeaturesPlain crc fs = .throw_ := by
  have : ¬ fs.length ≤ 4294967295 := by omega
  simp [packFeaturesPlain, finishHeader, this]

/-- a string too short for a header is refused -/
theorem C11_short_pack_refused (s : Bytes) (h : s.length < 5) : unpackFeatures s = .throw_ := by
  have : ¬ 5 ≤ s.length := by omega
  simp [unpackFeatures, this]

/-- The reader trusts the sizes in the pack: a damaged size makes it read outside of the string
(which is what the checksum of C12 is for). -/
theorem C11_corrupt_size_ub : unpackFeatures [1, 0, 0, 0, 0, 9, 1] = .ub := by decide +kernel

-- non-vacuity: two features, 32 and 200 bytes (two-byte size prefix)
example : ∃ p, packFeaturesPlain (fun _ => 7) [List.replicate 32 1, List.replicate 200 2] = .ok p ∧
    ∃ n, unpackFeatures p = .ok ([List.replicate 32 1, List.replicate 200 2], n) :=
  C11_pack_round_trip _ _ (by
    intro f hf
    rw [List.mem_cons, List.mem_singleton] at hf
    rcases hf with rfl | rfl <;> rw [List.length_replicate] <;> decide) (by decide)
example : packFeaturesPlain (fun _ => 7) [List.replicate 31 1] = .throw_ := by decide

end Tiles
