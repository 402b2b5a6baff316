import Verif.Model.Basic
/-
Specification vocabulary for URLs.
-/
namespace Tiles.Spec

/-- `cs` is a string of decimal digits -/
def Digits (cs : Bytes) : Prop := ∀ c ∈ cs, 48 ≤ c.toNat ∧ c.toNat ≤ 57

instance (cs : Bytes) : Decidable (Digits cs) := by unfold Digits; infer_instance

/-- the number a string of decimal digits stands for -/
def decVal : Bytes → Nat
  | [] => 0
  | c :: cs => (c.toNat - 48) * 10 ^ cs.length + decVal cs

/-- '/' and ".mvt" -/
def slash : UInt8 := 47
def dotMvt : Bytes := [46, 109, 118, 116]

/-- `h` is a hexadecimal digit (either case) with value `v` -/
def IsHex (h : UInt8) (v : Nat) : Prop :=
  (48 ≤ h.toNat ∧ h.toNat ≤ 57 ∧ v = h.toNat - 48) ∨ (65 ≤ h.toNat ∧ h.toNat ≤ 70 ∧ v = h.toNat - 55) ∨
    (97 ≤ h.toNat ∧ h.toNat ≤ 102 ∧ v = h.toNat - 87)

/-- `e` is a percent encoding of the bytes `o`: each byte other than '%' and '+' may be written as it is, a space as
'+', and every byte as '%' with two hexadecimal digits. -/
inductive PctEncodes : Bytes → Bytes → Prop
  | nil : PctEncodes [] []
  | raw {c o e} : c.toNat ≠ 37 → c.toNat ≠ 43 → PctEncodes o e → PctEncodes (c :: o) (c :: e)
  | plus {o e} : PctEncodes o e → PctEncodes (32 :: o) (43 :: e)
  | esc {c h l o e} {x y : Nat} : IsHex h x → IsHex l y → c.toNat = 16 * x + y → PctEncodes o e →
      PctEncodes (c :: o) (37 :: h :: l :: e)

/-- the byte read from the two characters behind a '%' by a number input stream: two digits; one digit before another character (but not "0x");
white space or a plus sign before a digit; a minus sign before a digit (the byte of the negative number) -/
inductive LaxEscape : UInt8 → UInt8 → UInt8 → Prop
  | two {a b c : UInt8} {x y : Nat} : IsHex a x → IsHex b y → c.toNat = 16 * x + y → LaxEscape a b c
  | one {a b c : UInt8} {x : Nat} : IsHex a x → (∀ y, ¬ IsHex b y) → ¬ (a.toNat = 48 ∧ (b.toNat = 120 ∨ b.toNat = 88)) → c.toNat = x → LaxEscape a b c
  | skip {a b c : UInt8} {y : Nat} : a.toNat ∈ [9, 10, 11, 12, 13, 32, 43] → IsHex b y → c.toNat = y → LaxEscape a b c
  | minus {a b c : UInt8} {y : Nat} : a.toNat = 45 → IsHex b y → (c.toNat + y) % 256 = 0 → LaxEscape a b c

end Tiles.Spec
