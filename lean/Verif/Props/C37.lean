import Verif.Props.C42
import Verif.Proof.MetaOrder
import Mathlib.Data.List.Nodup
/-
C37 — tags keep their meaning when exported as typed metadata.

`exported m key` is what a client reads for the last metadata entry with this key.
The full statement is `C37_full`; it is false of the code (`C37_full_refuted`): the boolean export is inverted and the integer
export produces a floating point value.  What holds is proved below.
-/
namespace Tiles
open Spec

/-- the typed value a client reads from the last entry added -/
def lastExported (m : List Meta) : Option Typed :=
  match m.getLast? with
  | some e => match mvtValue e.value with
    | .ok msg => clientValue msg
    | _ => none
  | none => none

/-- the English property: "true" is exported as true and anything else as false; a decimal integer as that integer. -/
def C37_full : Prop := ∀ (toDouble : Int → Nat) (tags : List (Bytes × Bytes)) (m : List Meta) (key v : Bytes), tagValue tags key = some v →
  lastExported (addTagAsBool tags m key) = some (.bool (v = "true".toUTF8.toList)) ∧
  ∀ n, fromCharsI64 v = some n → lastExported (addTagAsInteger toDouble tags m key) = some (.int n)

theorem kTrue_text : kTrue = "true".toUTF8.toList := by decide +kernel

theorem C37_full_refuted : ¬ C37_full := by
  intro h
  have h1 := (h (fun _ => 0) [([107], kTrue)] [] [107] kTrue rfl).1
  rw [← kTrue_text] at h1
  have h2 : lastExported (addTagAsBool [([107], kTrue)] [] [107]) = some (.bool false) := by decide +kernel
  rw [h2] at h1
  simp at h1

/-- What the boolean export does, for every value: it is true exactly when the tag is NOT "true". -/
theorem C37_finding_bool_inverted (tags : List (Bytes × Bytes)) (m : List Meta) (key v : Bytes) (h : tagValue tags key = some v) :
    lastExported (addTagAsBool tags m key) = some (.bool (v ≠ "true".toUTF8.toList)) := by
  rw [← kTrue_text]
  obtain ⟨msg, h1, h2⟩ := C42_round_trip.1 (decide (v ≠ kTrue))
  simp only [addTagAsBool, h, lastExported, List.getLast?_concat, h1, h2]

/-- What the integer export does: the number is exported as a floating point value. -/
theorem C37_finding_integer_as_double (toDouble : Int → UInt64) (tags : List (Bytes × Bytes)) (m : List Meta) (key v : Bytes) (n : Int)
    (h : tagValue tags key = some v) (hn : fromCharsI64 v = some n) :
    lastExported (addTagAsInteger (fun i => (toDouble i).toNat) tags m key) = some (.double (toDouble n).toNat) := by
  obtain ⟨msg, h1, h2⟩ := C42_round_trip.2.2.1 (toDouble n)
  simp only [addTagAsInteger, h, hn, lastExported, List.getLast?_concat, h1, h2]

/-- The string and number exports keep the value. -/
theorem C37_string_and_number_partial (stod : Bytes → Option UInt64) (tags : List (Bytes × Bytes)) (m : List Meta) (key v : Bytes)
    (h : tagValue tags key = some v) :
    (v.length < 2 ^ 32 → lastExported (addTagAsString tags m key) = some (.str v)) ∧
    ∀ d, stod v = some d → lastExported (addTagAsNumeric (fun s => (stod s).map UInt64.toNat) tags m key) = some (.double d.toNat) := by
  constructor
  · intro hv
    obtain ⟨msg, h1, h2⟩ := C42_round_trip.2.1 v hv
    simp only [addTagAsString, h, lastExported, List.getLast?_concat, h1, h2]
  · intro d hd
    obtain ⟨msg, h1, h2⟩ := C42_round_trip.2.2.1 d
    simp only [addTagAsNumeric, h, hd, Option.map_some, lastExported, List.getLast?_concat, h1, h2]

/-- A tag the object does not have adds nothing, whatever the type. -/
theorem C37_missing_tag_adds_nothing_partial (stod : Bytes → Option Nat) (toDouble : Int → Nat) (tags : List (Bytes × Bytes)) (m : List Meta) (key : Bytes)
    (h : ∀ t ∈ tags, t.1 ≠ key) :
    addTagAsBool tags m key = m ∧ addTagAsString tags m key = m ∧ addTagAsNumeric stod tags m key = m ∧ addTagAsInteger toDouble tags m key = m := by
  have : tagValue tags key = none := by
    simp only [tagValue, Option.map_eq_none_iff, List.find?_eq_none]
    intro t ht; simpa using h t ht
  simp [addTagAsBool, addTagAsString, addTagAsNumeric, addTagAsInteger, this]

/-! ### finishing -/

theorem uniqueKeys_head (l : List Meta) : (uniqueKeys l).head? = l.head? := by
  cases l with
  | nil => rfl
  | cons a l =>
    simp only [uniqueKeys]
    split
    · rfl
    · split <;> rfl

theorem uniqueKeys_sublist (l : List Meta) : (uniqueKeys l).Sublist l := by
  induction l with
  | nil => exact List.Sublist.refl _
  | cons a l ih =>
    simp only [uniqueKeys]
    split
    · simp
    · rename_i b r h
      rw [h] at ih
      split
      · exact ((List.sublist_cons_self b r).trans ih).cons₂ a
      · exact ih.cons₂ a

theorem uniqueKeys_keys (l : List Meta) (k : Bytes) : k ∈ (uniqueKeys l).map (·.key) ↔ k ∈ l.map (·.key) := by
  induction l with
  | nil => rfl
  | cons a l ih =>
    simp only [uniqueKeys, List.map_cons, List.mem_cons, ← ih]
    split
    · rename_i h; simp [h]
    · rename_i b r h
      rw [h]
      split
      · rename_i he
        simp only [List.map_cons, List.mem_cons, ← he]
        constructor
        · rintro (h | h) <;> simp [h]
        · rintro (h | h | h) <;> simp [h]
      · simp

theorem uniqueKeys_sorted {l : List Meta} (h : l.Pairwise (fun a b => metaLe a b = true)) :
    (uniqueKeys l).Pairwise (fun a b => bytesLe a.key b.key = true ∧ a.key ≠ b.key) ∧
      ∀ e ∈ uniqueKeys l, ∀ e' ∈ l, e'.key = e.key → bytesLe e.value e'.value = true := by
  have keyLe : ∀ {a b : Meta}, metaLe a b = true → bytesLe a.key b.key = true := by
    intro a b h
    unfold metaLe at h
    split at h
    · rename_i hk; rw [hk]; exact bytesLe_refl _
    · exact h
  induction l with
  | nil => simp [uniqueKeys]
  | cons a l ih =>
    rw [List.pairwise_cons] at h
    obtain ⟨ih1, ih2⟩ := ih h.2
    have hsub := uniqueKeys_sublist l
    have hhead := uniqueKeys_head l
    -- elements of `l` with the key of `a`
    have hval : ∀ e' ∈ a :: l, e'.key = a.key → bytesLe a.value e'.value = true := by
      intro e' he' hk
      rcases List.mem_cons.1 he' with rfl | he'
      · exact bytesLe_refl _
      · have := h.1 e' he'
        unfold metaLe at this
        rwa [if_pos hk.symm] at this
    have hother : ∀ e ∈ uniqueKeys l, e.key ≠ a.key → ∀ e' ∈ a :: l, e'.key = e.key → bytesLe e.value e'.value = true := by
      intro e he hne e' he' hk
      rcases List.mem_cons.1 he' with rfl | he'
      · exact absurd hk.symm hne
      · exact ih2 e he e' he' hk
    simp only [uniqueKeys]
    split
    · refine ⟨by simp, fun e he => ?_⟩
      simp only [List.mem_singleton] at he; subst he; exact hval
    · rename_i b r hb
      rw [hb] at ih1 hhead hsub
      have hle : ∀ x ∈ b :: r, bytesLe a.key x.key = true := fun x hx => keyLe (h.1 x (hsub.subset hx))
      rw [List.pairwise_cons] at ih1
      split
      · rename_i hab
        refine ⟨?_, ?_⟩
        · rw [List.pairwise_cons]
          refine ⟨fun x hx => ⟨hle x (by simp [hx]), ?_⟩, ih1.2⟩
          rw [hab]; exact (ih1.1 x hx).2
        · intro e he
          rcases List.mem_cons.1 he with rfl | he
          · exact hval
          · exact hother e (by rw [hb]; simp [he]) (by rw [hab]; exact (Ne.symm (ih1.1 e he).2))
      · rename_i hab
        have hne : ∀ x ∈ b :: r, a.key ≠ x.key := by
          intro x hx heq
          rcases List.mem_cons.1 hx with rfl | hx
          · exact hab heq
          · -- a ≤ b ≤ x = a in keys
            have h1 := hle b (by simp)
            have h2 := (ih1.1 x hx).1
            rw [← heq] at h2
            exact hab (bytesLe_antisymm h1 h2)
        refine ⟨?_, ?_⟩
        · rw [List.pairwise_cons]
          exact ⟨fun x hx => ⟨hle x hx, hne x hx⟩, List.pairwise_cons.2 ih1⟩
        · intro e he
          rcases List.mem_cons.1 he with rfl | he
          · exact hval
          · exact hother e (by rw [hb]; exact he) (Ne.symm (hne e he))

/-- `finish_metadata` keeps exactly one entry per key: the same keys, no key twice, each kept entry is one that was
added, and of several entries with a key the one with the smallest encoded value. -/
theorem C37_duplicates_keep_one_partial (m : List Meta) :
    ((finishMetadata m).map (·.key)).Nodup ∧
    (∀ k, k ∈ (finishMetadata m).map (·.key) ↔ k ∈ m.map (·.key)) ∧
    (∀ e ∈ finishMetadata m, e ∈ m ∧ ∀ e' ∈ m, e'.key = e.key → bytesLe e.value e'.value = true) := by
  have hperm := sortBy_perm metaLe m
  have hs := sortBy_sorted metaLe_trans metaLe_total m
  obtain ⟨h1, h2⟩ := uniqueKeys_sorted hs
  unfold finishMetadata
  refine ⟨?_, ?_, ?_⟩
  · rw [List.nodup_iff_pairwise_ne, List.pairwise_map]
    exact h1.imp (fun h => h.2)
  · intro k
    rw [uniqueKeys_keys]
    exact (hperm.map (·.key)).mem_iff
  · intro e he
    refine ⟨hperm.mem_iff.1 ((uniqueKeys_sublist _).subset he), fun e' he' hk => ?_⟩
    exact h2 e he e' (hperm.mem_iff.2 he') hk

example : finishMetadata [⟨[2], [9]⟩, ⟨[1], [5]⟩, ⟨[2], [3]⟩] = [⟨[1], [5]⟩, ⟨[2], [3]⟩] := by decide +kernel
example : lastExported (addTagAsString [([1], [65])] [] [1]) = some (.str [65]) := by decide +kernel

end Tiles
