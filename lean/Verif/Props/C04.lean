import Verif.Proof.Varint
/-! C04 — varint and zigzag codecs. -/
namespace Tiles

/-- a 64-bit value written and read from the front of any buffer comes back, and the reader stops
exactly behind it -/
theorem C04_varint_round_trip (v : UInt64) (rest : Bytes) :
    decVarint (encVarint v.toNat ++ rest) = .ok (v.toNat, rest) :=
  decVarint_enc _ _ v.toNat_lt

/-- an int64 value through zigzag and varint -/
theorem C04_svarint_round_trip (v : Int) (h : -(2 : Int) ^ 63 ≤ v) (h' : v < (2 : Int) ^ 63)
    (rest : Bytes) :
    decVarint (encVarint (zigzag v) ++ rest) = .ok (zigzag v, rest) ∧ unzigzag (zigzag v) = v :=
  ⟨decVarint_enc _ _ (zigzag_lt h h'), unzigzag_zigzag v⟩

/-- a truncated varint throws -/
theorem C04_truncated_throws (v : Nat) (p q : Bytes) (h : encVarint v = p ++ q) (hq : q ≠ []) :
    decVarint p = .throw_ := decVarintGo_prefix 0 0 v p q h hq

/-- on arbitrary bytes the reader never leaves the buffer: it throws, or it consumes between one
and ten bytes from the front and yields a 64-bit value -/
theorem C04_reader_total (bs : Bytes) :
    decVarint bs = .throw_ ∨
    ∃ v pre rest, decVarint bs = .ok (v, rest) ∧ bs = pre ++ rest ∧
      1 ≤ pre.length ∧ pre.length ≤ 10 ∧ v < 2 ^ 64 := by
  cases h : decVarint bs with
  | throw_ => exact .inl rfl
  | ub => exact absurd h (decVarintGo_ne_ub 0 0 bs)
  | ok r =>
    obtain ⟨v, rest⟩ := r
    obtain ⟨pre, h1, h2, h3, h4⟩ := decVarintGo_ok (by omega) (by decide) h
    exact .inr ⟨v, pre, rest, rfl, h1, h2, by omega, h4⟩

/-- ten continuation bytes are refused -/
theorem C04_too_long_throws (bs : Bytes) (hlen : 10 ≤ bs.length)
    (h : ∀ b ∈ bs.take 10, 128 ≤ b.toNat) : decVarint bs = .throw_ :=
  decVarintGo_too_long 0 0 bs (by omega) (by omega) (by simpa using h)

/-- zigzag is a bijection between the integers and the naturals -/
theorem C04_zigzag_bijective (v : Int) (n : Nat) :
    unzigzag (zigzag v) = v ∧ zigzag (unzigzag n) = n := ⟨unzigzag_zigzag v, zigzag_unzigzag n⟩

-- non-vacuity
example : encVarint 300 = [0xAC, 0x02] := by simp [encVarint]
example : decVarint [0xAC, 0x02, 0x07] = .ok (300, [7]) := by decide
example : decVarint [0xAC] = .throw_ := by decide
example : decVarint [0xFF,0xFF,0xFF,0xFF,0xFF,0xFF,0xFF,0xFF,0xFF,0x01] = .ok (2 ^ 64 - 1, []) := by decide
example : decVarint (List.replicate 10 0xFF) = .throw_ := by decide

end Tiles
