import Verif.Model.Metadata
import Verif.Proof.Pbf
import Verif.Spec.Value
/-
C42 — typed metadata values round-trip: what the tile builder writes for an encoded value is read by a client as the same
typed value (`Spec.clientValue` reads the bytes of the message).
-/
namespace Tiles
open Spec

theorem bitsI64_i64Bits {v : Int} (h : -(2 : Int) ^ 63 ≤ v) (h' : v < (2 : Int) ^ 63) : bitsI64 (i64Bits v) = v := by
  unfold bitsI64 i64Bits
  split <;> omega

theorem i64Bits_lt (v : Int) : i64Bits v < 2 ^ 64 := by unfold i64Bits; omega

theorem mvtValue_one {value : Bytes} {f : PbfField} (h : mvtValueFields value = .ok [f]) (hf : f.Ok) :
    ∃ msg, mvtValue value = .ok msg ∧ clientValue msg = clientField f := by
  refine ⟨encMessage [f], by simp [mvtValue, h], ?_⟩
  rw [clientValue, decMessage_enc [f] (by simpa using hf)]

/-- The boolean, string, number and integer encodings are exported as exactly the value encoded. -/
theorem C42_round_trip :
    (∀ b, ∃ msg, mvtValue (encodeBool b) = .ok msg ∧ clientValue msg = some (.bool b)) ∧
    (∀ s : Bytes, s.length < 2 ^ 32 → ∃ msg, mvtValue (encodeString s) = .ok msg ∧ clientValue msg = some (.str s)) ∧
    (∀ d : UInt64, ∃ msg, mvtValue (encodeNumeric d.toNat) = .ok msg ∧ clientValue msg = some (.double d.toNat)) ∧
    (∀ v : Int, -(2 : Int) ^ 63 ≤ v → v < (2 : Int) ^ 63 →
      ∃ msg, mvtValue (encodeInteger v) = .ok msg ∧ clientValue msg = some (.int v)) := by
  refine ⟨fun b => ?_, fun s hs => ?_, fun d => ?_, fun v h h' => ?_⟩
  · cases b
    · exact mvtValue_one (f := .varint 7 0) rfl ⟨by decide, by decide⟩
    · exact mvtValue_one (f := .varint 7 1) rfl ⟨by decide, by decide⟩
  · exact mvtValue_one (f := .bytes 1 s) rfl ⟨by decide, hs⟩
  · have hd := d.toNat_lt
    have hf : mvtValueFields (encodeNumeric d.toNat) = .ok [.fixed64 3 d.toNat] := by
      have ht : (leBytes 8 d.toNat).take 8 = leBytes 8 d.toNat := List.take_of_length_le (by simp)
      show (if (3 :: leBytes 8 d.toNat).length ≠ 1 + 8 then Res.throw_ else Res.ok [PbfField.fixed64 3 (leNat ((leBytes 8 d.toNat).take 8))]) = _
      rw [if_neg (by simp), ht, leNat_leBytes_of_lt (by simpa using hd)]
    exact mvtValue_one hf ⟨by decide, hd⟩
  · have hb := i64Bits_lt v
    have hf : mvtValueFields (encodeInteger v) = .ok [.varint 6 (zigzag v)] := by
      have ht : (leBytes 8 (i64Bits v)).take 8 = leBytes 8 (i64Bits v) := List.take_of_length_le (by simp)
      show (if (4 :: leBytes 8 (i64Bits v)).length ≠ 1 + 8 then Res.throw_
        else Res.ok [PbfField.varint 6 (zigzag (bitsI64 (leNat ((leBytes 8 (i64Bits v)).take 8))))]) = _
      rw [if_neg (by simp), ht, leNat_leBytes_of_lt (by simpa using hb), bitsI64_i64Bits h h']
    obtain ⟨msg, h1, h2⟩ := mvtValue_one hf ⟨by decide, zigzag_lt h h'⟩
    exact ⟨msg, h1, by rw [h2]; simp [clientField, unzigzag_zigzag]⟩

/-- Exactly the malformed values are refused: the empty value, an unknown type tag, a number or integer without its eight bytes;
refusing means an exception. -/
theorem C42_refuses_exactly_malformed (value : Bytes) :
    mvtValue value = .throw_ ↔
      (value = [] ∨ (∃ t rest, value = t :: rest ∧ (5 ≤ t.toNat ∨ ((t.toNat = 3 ∨ t.toNat = 4) ∧ rest.length ≠ 8)))) := by
  cases value with
  | nil => simp [mvtValue, mvtValueFields]
  | cons t rest =>
    have ht : ∀ n : Nat, n < 256 → (t = UInt8.ofNat n ↔ t.toNat = n) := by
      intro n hn
      rw [← UInt8.toNat_inj, toNat_ofNat_of_lt hn]
    have h0 := ht 0 (by omega); have h1 := ht 1 (by omega); have h2 := ht 2 (by omega); have h3 := ht 3 (by omega); have h4 := ht 4 (by omega)
    simp only [reduceCtorEq, false_or, List.cons.injEq, mvtValue, mvtValueFields, List.length_cons]
    constructor
    · intro h
      refine ⟨t, rest, ⟨rfl, rfl⟩, ?_⟩
      split at h
      · simp at h
      split at h
      · simp at h
      split at h
      · simp at h
      split at h
      · split at h
        · right; rename_i hx _ ; exact ⟨Or.inl (h3.1 hx), by omega⟩
        · simp at h
      split at h
      · split at h
        · right; rename_i hx _ ; exact ⟨Or.inr (h4.1 hx), by omega⟩
        · simp at h
      · left
        rename_i a b c d e
        have a' : t.toNat ≠ 0 := fun h => a (h0.2 h)
        have b' : t.toNat ≠ 1 := fun h => b (h1.2 h)
        have c' : t.toNat ≠ 2 := fun h => c (h2.2 h)
        have d' : t.toNat ≠ 3 := fun h => d (h3.2 h)
        have e' : t.toNat ≠ 4 := fun h => e (h4.2 h)
        omega
    · rintro ⟨t', rest', ⟨rfl, rfl⟩, h⟩
      rw [if_neg (by intro h'; have := h0.1 h'; omega), if_neg (by intro h'; have := h1.1 h'; omega),
        if_neg (by intro h'; have := h2.1 h'; omega)]
      split
      · rename_i hx; have := h3.1 hx
        rw [if_pos (by omega)]; rfl
      · rename_i hx
        have hx' : t.toNat ≠ 3 := fun h => hx (h3.2 h)
        split
        · rename_i hy; have := h4.1 hy
          rw [if_pos (by omega)]; rfl
        · rfl

example : mvtValue (encodeInteger (-5)) = .ok [48, 9] := by decide +kernel

end Tiles
