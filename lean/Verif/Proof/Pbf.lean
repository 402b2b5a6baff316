import Verif.Model.Pbf
import Verif.Proof.Varint
/-
Helper lemmas: writing and reading protocol buffer messages.
-/
namespace Tiles

/-- a tag the reader accepts -/
def TagOk (t : Nat) : Prop := 1 ≤ t ∧ t < 19000

instance (t : Nat) : Decidable (TagOk t) := by unfold TagOk; infer_instance

def PbfField.Ok : PbfField → Prop
  | .varint t v => TagOk t ∧ v < 2 ^ 64
  | .fixed64 t v => TagOk t ∧ v < 2 ^ 64
  | .bytes t d => TagOk t ∧ d.length < 2 ^ 32
  | .fixed32 t v => TagOk t ∧ v < 2 ^ 32

theorem takeN_append (d r : Bytes) : takeN d.length (d ++ r) = .ok (d, r) := by
  unfold takeN
  rw [if_pos (by simp)]; simp

theorem takeN_append' {n : Nat} {d : Bytes} (r : Bytes) (h : d.length = n) : takeN n (d ++ r) = .ok (d, r) := by
  subst h; exact takeN_append d r

theorem decField_enc (f : PbfField) (rest : Bytes) (h : f.Ok) : decField (f.enc ++ rest) = .ok (f, rest) := by
  unfold decField
  cases f with
  | varint t v =>
    obtain ⟨⟨h1, h2⟩, h3⟩ := h
    simp only [PbfField.enc, List.append_assoc]
    rw [decVarint_enc _ _ (by omega)]
    simp only [Res.ok_bind]
    rw [Nat.mod_eq_of_lt (show 8 * t < 2 ^ 32 by omega), if_neg (by omega), if_pos (by omega), decVarint_enc _ _ h3]
    simp only [Res.ok_bind, Res.pure_eq, Res.ok.injEq, Prod.mk.injEq, PbfField.varint.injEq, and_true]
    omega
  | fixed64 t v =>
    obtain ⟨⟨h1, h2⟩, h3⟩ := h
    simp only [PbfField.enc, List.append_assoc]
    rw [decVarint_enc _ _ (by omega)]
    simp only [Res.ok_bind]
    rw [Nat.mod_eq_of_lt (show 8 * t + 1 < 2 ^ 32 by omega), if_neg (by omega), if_neg (by omega), if_pos (by omega),
      takeN_append' _ (leBytes_length 8 v)]
    simp only [Res.ok_bind, Res.pure_eq, Res.ok.injEq, Prod.mk.injEq, PbfField.fixed64.injEq, and_true]
    exact ⟨by omega, leNat_leBytes_of_lt h3⟩
  | bytes t d =>
    obtain ⟨⟨h1, h2⟩, h3⟩ := h
    simp only [PbfField.enc, List.append_assoc]
    rw [decVarint_enc _ _ (by omega)]
    simp only [Res.ok_bind]
    rw [Nat.mod_eq_of_lt (show 8 * t + 2 < 2 ^ 32 by omega), if_neg (by omega), if_neg (by omega), if_neg (by omega), if_pos (by omega),
      decVarint_enc _ _ (by omega)]
    simp only [Res.ok_bind]
    rw [Nat.mod_eq_of_lt h3, takeN_append]
    simp only [Res.ok_bind, Res.pure_eq, Res.ok.injEq, Prod.mk.injEq, PbfField.bytes.injEq, and_true]
    omega
  | fixed32 t v =>
    obtain ⟨⟨h1, h2⟩, h3⟩ := h
    simp only [PbfField.enc, List.append_assoc]
    rw [decVarint_enc _ _ (by omega)]
    simp only [Res.ok_bind]
    rw [Nat.mod_eq_of_lt (show 8 * t + 5 < 2 ^ 32 by omega), if_neg (by omega), if_neg (by omega), if_neg (by omega), if_neg (by omega),
      if_pos (by omega), takeN_append' _ (leBytes_length 4 v)]
    simp only [Res.ok_bind, Res.pure_eq, Res.ok.injEq, Prod.mk.injEq, PbfField.fixed32.injEq, and_true]
    exact ⟨by omega, leNat_leBytes_of_lt h3⟩

theorem PbfField.enc_length_pos (f : PbfField) : 0 < f.enc.length := by
  cases f <;> simp only [PbfField.enc, List.length_append] <;>
    exact Nat.lt_of_lt_of_le (encVarint_length_pos _) (Nat.le_add_right _ _)

theorem decMessageGo_enc (fs : List PbfField) (h : ∀ f ∈ fs, f.Ok) (fuel : Nat) (hf : (encMessage fs).length ≤ fuel) :
    decMessageGo fuel (encMessage fs) = .ok fs := by
  induction fs generalizing fuel with
  | nil => cases fuel <;> rfl
  | cons f fs ih =>
    have he : encMessage (f :: fs) = f.enc ++ encMessage fs := rfl
    have hp := f.enc_length_pos
    rw [he] at hf ⊢
    rw [List.length_append] at hf
    cases fuel with
    | zero => omega
    | succ fuel =>
      have : ∃ c r, f.enc ++ encMessage fs = c :: r := by
        cases hc : f.enc with
        | nil => rw [hc] at hp; simp at hp
        | cons c r => exact ⟨c, r ++ encMessage fs, rfl⟩
      obtain ⟨c, r, hcr⟩ := this
      have hd := decField_enc f (encMessage fs) (h f (by simp))
      rw [hcr] at hd ⊢
      simp only [decMessageGo, hd, Res.ok_bind]
      rw [ih (fun f hf => h f (by simp [hf])) fuel (by omega)]
      rfl

/-- a written message is read back field by field -/
theorem decMessage_enc (fs : List PbfField) (h : ∀ f ∈ fs, f.Ok) : decMessage (encMessage fs) = .ok fs :=
  decMessageGo_enc fs h _ (Nat.le_refl _)

theorem encMessage_append (a b : List PbfField) : encMessage (a ++ b) = encMessage a ++ encMessage b := by simp [encMessage]

theorem decPackedGo_enc (vs : List Nat) (h : ∀ v ∈ vs, v < 2 ^ 64) (fuel : Nat) (hf : (vs.flatMap encVarint).length ≤ fuel) :
    decPackedGo fuel (vs.flatMap encVarint) = .ok vs := by
  induction vs generalizing fuel with
  | nil => cases fuel <;> rfl
  | cons v vs ih =>
    have hp := encVarint_length_pos v
    rw [List.flatMap_cons] at hf ⊢
    rw [List.length_append] at hf
    cases fuel with
    | zero => omega
    | succ fuel =>
      have : ∃ c r, encVarint v ++ vs.flatMap encVarint = c :: r := by
        cases hc : encVarint v with
        | nil => rw [hc] at hp; simp at hp
        | cons c r => exact ⟨c, r ++ vs.flatMap encVarint, rfl⟩
      obtain ⟨c, r, hcr⟩ := this
      have hd := decVarint_enc v (vs.flatMap encVarint) (h v (by simp))
      rw [hcr] at hd ⊢
      simp only [decPackedGo, hd, Res.ok_bind]
      rw [ih (fun v hv => h v (by simp [hv])) fuel (by omega)]
      rfl

theorem decPacked_enc (vs : List Nat) (h : ∀ v ∈ vs, v < 2 ^ 64) : decPacked (vs.flatMap encVarint) = .ok vs :=
  decPackedGo_enc vs h _ (Nat.le_refl _)

end Tiles
