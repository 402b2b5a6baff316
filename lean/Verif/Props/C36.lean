import Verif.Model.Url
import Verif.Spec.Url
/-
C36 — URL decoding inverts percent encoding.
-/
namespace Tiles
open Spec

theorem hexDigit_of_isHex {h : UInt8} {v : Nat} (hh : IsHex h v) : hexDigit h = some v := by
  unfold hexDigit
  rcases hh with ⟨h1, h2, rfl⟩ | ⟨h1, h2, rfl⟩ | ⟨h1, h2, rfl⟩ <;> simp only
  · rw [if_pos ⟨h1, h2⟩]
  · rw [if_neg (by omega), if_pos ⟨h1, h2⟩]
  · rw [if_neg (by omega), if_neg (by omega), if_pos ⟨h1, h2⟩]

theorem ne_of_toNat {c : UInt8} {n : Nat} (k : UInt8) (hk : k.toNat = n) (h : c.toNat ≠ n) : c ≠ k := by
  rintro rfl; exact h hk

theorem urlDecode_raw {c : UInt8} {r : Bytes} (h1 : c ≠ kPercent) (h2 : c ≠ kPlus) :
    urlDecode (c :: r) = (do let o ← urlDecode r; return c :: o) := by
  conv => lhs; unfold urlDecode
  rw [if_neg h1, if_neg h2]

theorem urlDecode_plus {r : Bytes} : urlDecode (43 :: r) = (do let o ← urlDecode r; return 32 :: o) := by
  conv => lhs; unfold urlDecode
  rw [if_neg (by decide), if_pos (by decide)]; rfl

theorem urlDecode_esc {a b v : UInt8} {r : Bytes} (h : hexStream a b = some v) :
    urlDecode (37 :: a :: b :: r) = (do let o ← urlDecode r; return v :: o) := by
  conv => lhs; unfold urlDecode
  rw [if_pos (by decide)]; simp only [h]

theorem urlDecode_bad {a b : UInt8} {r : Bytes} (h : hexStream a b = none) :
    urlDecode (37 :: a :: b :: r) = .throw_ := by
  unfold urlDecode
  rw [if_pos (by decide)]; simp only [h]

theorem hexStream_hex {h l c : UInt8} {x y : Nat} (hx : IsHex h x) (hy : IsHex l y) (hc : c.toNat = 16 * x + y) :
    hexStream h l = some c := by
  simp only [hexStream, hexDigit_of_isHex hx, hexDigit_of_isHex hy, ← hc]; simp

/-- Decoding any percent encoding of a byte string gives back the byte string. -/
theorem C36_decode_encoded (o e : Bytes) (h : PctEncodes o e) : urlDecode e = .ok o := by
  induction h with
  | nil => rfl
  | raw h1 h2 _ ih =>
    rw [urlDecode_raw (ne_of_toNat kPercent rfl h1) (ne_of_toNat kPlus rfl h2), ih]; rfl
  | plus _ ih => rw [urlDecode_plus, ih]; rfl
  | esc hx hy hc _ ih => rw [urlDecode_esc (hexStream_hex hx hy hc), ih]; rfl

/-- Every byte string has an encoding consisting of escapes only, so every byte string can be transported. -/
theorem C36_every_string_encodable (o : Bytes) : ∃ e, PctEncodes o e ∧ urlDecode e = .ok o := by
  have hex : ∀ v < 16, ∃ h : UInt8, IsHex h v := by
    intro v hv
    by_cases h : v < 10
    · refine ⟨UInt8.ofNat (48 + v), Or.inl ?_⟩
      rw [UInt8.toNat_ofNat']; omega
    · refine ⟨UInt8.ofNat (55 + v), Or.inr (Or.inl ?_)⟩
      rw [UInt8.toNat_ofNat']; omega
  have : ∃ e, PctEncodes o e := by
    induction o with
    | nil => exact ⟨[], .nil⟩
    | cons c o ih =>
      obtain ⟨e, he⟩ := ih
      have hc := c.toNat_lt
      obtain ⟨h, hh⟩ := hex (c.toNat / 16) (by omega)
      obtain ⟨l, hl⟩ := hex (c.toNat % 16) (by omega)
      exact ⟨_, .esc hh hl (by omega) he⟩
  obtain ⟨e, he⟩ := this
  exact ⟨e, he, C36_decode_encoded o e he⟩

/-- Strings without '%' and '+' are unchanged. -/
theorem C36_plain_unchanged (s : Bytes) (h : ∀ c ∈ s, c.toNat ≠ 37 ∧ c.toNat ≠ 43) : urlDecode s = .ok s := by
  apply C36_decode_encoded
  induction s with
  | nil => exact .nil
  | cons c s ih => exact .raw (h c (by simp)).1 (h c (by simp)).2 (ih (fun c hc => h c (by simp [hc])))

/-- An escape cut off by the end of the string is refused, whatever (correctly encoded) text precedes it. -/
theorem C36_truncated_escape_throws (o e : Bytes) (h : PctEncodes o e) (tail : Bytes) (ht : tail.length < 2) :
    urlDecode (e ++ 37 :: tail) = .throw_ := by
  induction h with
  | nil =>
    match tail, ht with
    | [], _ => rfl
    | [c], _ => rfl
  | raw h1 h2 _ ih =>
    rw [List.cons_append, urlDecode_raw (ne_of_toNat kPercent rfl h1) (ne_of_toNat kPlus rfl h2), ih]; rfl
  | plus _ ih => rw [List.cons_append, urlDecode_plus, ih]; rfl
  | esc hx hy hc _ ih => simp only [List.cons_append]; rw [urlDecode_esc (hexStream_hex hx hy hc), ih]; rfl

/-- The decoder never reads outside of the string, and its output is never longer than the input. -/
theorem C36_never_out_of_bounds (s : Bytes) : urlDecode s ≠ .ub ∧ ∀ o, urlDecode s = .ok o → o.length ≤ s.length := by
  induction s using urlDecode.induct with
  | case1 => exact ⟨by simp [urlDecode], by intro o h; simp only [urlDecode, Res.ok.injEq] at h; subst h; simp⟩
  | case2 a b rest v hv ih =>
    rw [show kPercent = 37 from rfl, urlDecode_esc hv]
    cases h : urlDecode rest with
    | ok o =>
      refine ⟨by simp, fun o' ho => ?_⟩
      simp only [Res.ok_bind, Res.pure_eq, Res.ok.injEq] at ho
      subst ho
      have := ih.2 o h
      simp only [List.length_cons]; omega
    | throw_ => simp
    | ub => exact absurd h ih.1
  | case3 a b rest hv => rw [show kPercent = 37 from rfl, urlDecode_bad hv]; simp
  | case4 rest hr =>
    have : urlDecode (kPercent :: rest) = .throw_ := by
      match rest, hr with
      | [], _ => rfl
      | [_], _ => rfl
      | a :: b :: r, hr => exact (hr a b r rfl).elim
    rw [this]; simp
  | case5 rest h ih =>
    rw [show kPlus = 43 from rfl, urlDecode_plus]
    cases h : urlDecode rest with
    | ok o =>
      refine ⟨by simp, fun o' ho => ?_⟩
      simp only [Res.ok_bind, Res.pure_eq, Res.ok.injEq] at ho
      subst ho
      have := ih.2 o h
      simp only [List.length_cons]; omega
    | throw_ => simp
    | ub => exact absurd h ih.1
  | case6 c rest h1 h2 ih =>
    rw [urlDecode_raw h1 h2]
    cases h : urlDecode rest with
    | ok o =>
      refine ⟨by simp, fun o' ho => ?_⟩
      simp only [Res.ok_bind, Res.pure_eq, Res.ok.injEq] at ho
      subst ho
      have := ih.2 o h
      simp only [List.length_cons]; omega
    | throw_ => simp
    | ub => exact absurd h ih.1

/-- Different byte strings never share an encoding. -/
theorem C36_encodings_disjoint (o o' e : Bytes) (h : PctEncodes o e) (h' : PctEncodes o' e) : o = o' := by
  have h1 := C36_decode_encoded o e h
  rw [C36_decode_encoded o' e h'] at h1
  exact (Res.ok.inj h1).symm

/-- Finding: the decoder also accepts text that is not a percent encoding of anything: "%4G" (a digit followed by
another character) decodes to the byte 4 and swallows the 'G'. -/
theorem C36_finding_malformed_accepted : urlDecode [37, 52, 71] = .ok [4] ∧ ¬ ∃ o, PctEncodes o [37, 52, 71] := by
  refine ⟨by decide, ?_⟩
  rintro ⟨o, h⟩
  cases h with
  | raw h1 => exact h1 rfl
  | esc hx hy => rcases hy with h | h | h <;> (have := h.1; have := h.2.1; simp at *)

theorem isHex_of_hexDigit {h : UInt8} {v : Nat} (hh : hexDigit h = some v) : IsHex h v := by
  unfold hexDigit at hh
  simp only at hh
  split at hh
  · injection hh with hh; exact .inl ⟨by omega, by omega, by omega⟩
  split at hh
  · injection hh with hh; exact .inr (.inl ⟨by omega, by omega, by omega⟩)
  split at hh
  · injection hh with hh; exact .inr (.inr ⟨by omega, by omega, by omega⟩)
  · cases hh

theorem isHex_lt {h : UInt8} {v : Nat} (hh : IsHex h v) : v < 16 := by
  rcases hh with ⟨_, _, rfl⟩ | ⟨_, _, rfl⟩ | ⟨_, _, rfl⟩ <;> omega

theorem hexDigit_none {h : UInt8} (hh : hexDigit h = none) (v : Nat) : ¬ IsHex h v := by
  intro h'; rw [hexDigit_of_isHex h'] at hh; cases hh

theorem hexDigit_none_of {h : UInt8} (hh : ∀ v, ¬ IsHex h v) : hexDigit h = none := by
  cases e : hexDigit h with
  | none => rfl
  | some v => exact absurd (isHex_of_hexDigit e) (hh v)

theorem ofNat_eq {c : UInt8} {n : Nat} (hn : n < 256) : UInt8.ofNat n = c ↔ c.toNat = n := by
  constructor
  · rintro rfl; rw [UInt8.toNat_ofNat']; omega
  · rintro rfl; simp

theorem isSpaceC_iff (a : UInt8) : (isSpaceC a || decide (a = 43)) = true ↔ a.toNat ∈ [9, 10, 11, 12, 13, 32, 43] := by
  have : a = 43 ↔ a.toNat = 43 := ⟨by rintro rfl; rfl, fun h => UInt8.toNat_inj.1 h⟩
  simp only [isSpaceC, this, Bool.or_eq_true, Bool.and_eq_true, decide_eq_true_eq, List.mem_cons, List.not_mem_nil, or_false]
  omega

/-- Exactly which escapes are accepted, and what they stand for. -/
theorem hexStream_iff (a b c : UInt8) : hexStream a b = some c ↔ LaxEscape a b c := by
  have e43 : ∀ k : UInt8, a = k ↔ a.toNat = k.toNat := fun k => UInt8.toNat_inj.symm
  have b43 : ∀ k : UInt8, b = k ↔ b.toNat = k.toNat := fun k => UInt8.toNat_inj.symm
  constructor
  · intro h
    unfold hexStream at h
    split at h
    · rename_i x hx
      have hx := isHex_of_hexDigit hx
      have lx := isHex_lt hx
      split at h
      · rename_i y hy
        have hy := isHex_of_hexDigit hy
        have ly := isHex_lt hy
        injection h with h
        exact .two hx hy ((ofNat_eq (by omega)).1 h)
      · rename_i hy
        split at h
        · cases h
        · rename_i hn
          injection h with h
          refine .one hx (hexDigit_none hy) ?_ ((ofNat_eq (by omega)).1 h)
          rintro ⟨h1, h2⟩
          refine hn ⟨?_, by rw [b43, b43]; exact h2⟩
          rcases hx with ⟨_, _, rfl⟩ | ⟨_, _, rfl⟩ | ⟨_, _, rfl⟩ <;> omega
    · rename_i hx
      split at h
      · rename_i hs
        cases hy : hexDigit b with
        | none => rw [hy] at h; cases h
        | some y =>
          rw [hy] at h
          injection h with h
          have hy := isHex_of_hexDigit hy
          have ly := isHex_lt hy
          exact .skip ((isSpaceC_iff a).1 hs) hy ((ofNat_eq (by omega)).1 h)
      · split at h
        · rename_i ha
          cases hy : hexDigit b with
          | none => rw [hy] at h; cases h
          | some y =>
            rw [hy] at h
            injection h with h
            have hy := isHex_of_hexDigit hy
            have ly := isHex_lt hy
            refine .minus (by rw [ha]; rfl) hy ?_
            rw [← h, UInt8.toNat_ofNat']
            omega
        · cases h
  · intro h
    cases h with
    | two hx hy hc => exact hexStream_hex hx hy hc
    | one hx hy hn hc =>
      have lx := isHex_lt hx
      unfold hexStream
      rw [hexDigit_of_isHex hx, hexDigit_none_of hy]
      simp only
      rw [if_neg, (ofNat_eq (by omega)).2 hc]
      rintro ⟨h1, h2⟩
      rw [b43, b43] at h2
      refine hn ⟨?_, h2⟩
      rcases hx with ⟨_, _, e⟩ | ⟨_, _, e⟩ | ⟨_, _, e⟩ <;> omega
    | skip ha hy hc =>
      have ly := isHex_lt hy
      have hx : hexDigit a = none := by
        apply hexDigit_none_of
        intro v hv
        simp only [List.mem_cons, List.not_mem_nil, or_false] at ha
        rcases hv with ⟨_, _, e⟩ | ⟨_, _, e⟩ | ⟨_, _, e⟩ <;> omega
      unfold hexStream
      rw [hx, hexDigit_of_isHex hy]
      simp only
      rw [if_pos ((isSpaceC_iff a).2 ha), Option.map_some, (ofNat_eq (by omega)).2 hc]
    | minus ha hy hc =>
      have ly := isHex_lt hy
      have hx : hexDigit a = none := by
        apply hexDigit_none_of
        intro v hv
        rcases hv with ⟨_, _, e⟩ | ⟨_, _, e⟩ | ⟨_, _, e⟩ <;> omega
      unfold hexStream
      rw [hx, hexDigit_of_isHex hy]
      simp only
      rw [if_neg, if_pos ((e43 45).2 ha), Option.map_some]
      · congr 1
        apply UInt8.toNat_inj.1
        rw [UInt8.toNat_ofNat']
        have := c.toNat_lt
        omega
      · rw [isSpaceC_iff]
        simp only [List.mem_cons, List.not_mem_nil, or_false]
        omega

/-- Every escape is either one of these and stands for its byte, or the request is refused. -/
theorem C36_escapes (a b : UInt8) (r : Bytes) :
    (∀ c, LaxEscape a b c → urlDecode (37 :: a :: b :: r) = (do let o ← urlDecode r; return c :: o)) ∧
    ((∀ c, ¬ LaxEscape a b c) → urlDecode (37 :: a :: b :: r) = .throw_) := by
  refine ⟨fun c h => urlDecode_esc ((hexStream_iff a b c).2 h), fun h => urlDecode_bad ?_⟩
  cases e : hexStream a b with
  | none => rfl
  | some c => exact absurd ((hexStream_iff a b c).1 e) (h c)

/-- "a%2Fb+c" is an encoding of "a/b c" -/
example : PctEncodes [97, 47, 98, 32, 99] [97, 37, 50, 70, 98, 43, 99] :=
  .raw (by decide) (by decide) (.esc (x := 2) (y := 15) (by unfold IsHex; decide) (by unfold IsHex; decide) (by decide)
    (.raw (by decide) (by decide) (.plus (.raw (by decide) (by decide) .nil))))

end Tiles
