import Verif.Spec.Url
import Verif.Spec.Area
import Mathlib.Data.Rat.Floor
import Mathlib.Order.Monotone.Defs
/-! Specification: how a reader understands a figure in a report. -/
namespace Tiles.Spec

/-- the digits 0 to 9 -/
def decDigit (c : UInt8) : Bool := decide (48 ≤ c.toNat ∧ c.toNat ≤ 57)

/-- Reading a figure: blanks, a decimal number with or without a fraction, and the name of a unit.  The result is the number, and the size of the unit. -/
def readFigure (units : List (Bytes × ℚ)) (t : Bytes) : Option (ℚ × ℚ) :=
  let s := t.dropWhile (· == 32)
  let whole := s.takeWhile decDigit
  let rest := s.dropWhile decDigit
  if whole = [] then none
  else match rest with
    | 46 :: r => (units.lookup (r.dropWhile decDigit)).map fun u => (decVal whole + (decVal (r.takeWhile decDigit) : ℚ) / 10 ^ (r.takeWhile decDigit).length, u)
    | r => (units.lookup r).map fun u => ((decVal whole : ℚ), u)

/-- the amount that a figure stands for -/
def amount (units : List (Bytes × ℚ)) (t : Bytes) : Option ℚ := (readFigure units t).map fun p => p.1 * p.2

/-- bytes, and the multiples with 1024 -/
def byteUnits : List (Bytes × ℚ) := [([66, 32], 1), ([75, 66], 1024), ([77, 66], 1024 ^ 2), ([71, 66], 1024 ^ 3)]

/-- nanoseconds, microseconds, milliseconds, seconds, in nanoseconds -/
def timeUnits : List (Bytes × ℚ) := [([110, 115], 1), ([194, 181, 115], 1000), ([109, 115], 1000 ^ 2), ([115, 32], 1000 ^ 3)]

/-- numbers: one, thousands, millions, billions -/
def countUnits : List (Bytes × ℚ) := [([32], 1), ([75], 1000), ([77], 1000 ^ 2), ([71], 1000 ^ 3)]

/-- The text `t` is a good figure for the amount `n`: it can be read, its error is at most half of the last of `d` digits in its unit (and what the
conversion to a `double` loses, one part in 2^53), the unit is not larger than the amount, and the number is below `base` unless the unit is the last. -/
def GoodFigure (units : List (Bytes × ℚ)) (base : ℚ) (d : Nat) (t : Bytes) (n : ℚ) : Prop :=
  ∃ v u, readFigure units t = some (v, u) ∧ |v * u - n| ≤ u / (2 * 10 ^ d) + n / 2 ^ 53 ∧ (u = 1 ∨ u * (1 - 1 / 2 ^ 52) ≤ n) ∧
    (n < base * u * (1 + 1 / 2 ^ 52) ∨ ∀ p ∈ units, p.2 ≤ u)

/-- `near` rounds to a nearest whole number -/
def Nearest (near : ℚ → Nat) : Prop := ∀ q, 0 ≤ q → |(near q : ℚ) - q| ≤ 1 / 2

/-- doubles: whole numbers up to 2^53 are exact, an operation has a relative error of at most 2^-53 and keeps the order, doubles stay as they are -/
structure Doubles (fl : ℚ → ℚ) : Prop where
  idem : ∀ q, fl (fl q) = fl q
  whole : ∀ k : Nat, k ≤ 2 ^ 53 → fl k = k
  accurate : Accurate fl
  mono : Monotone fl

/-- `short` writes a whole number below 1000 so that it can be read -/
def ShortText (short : ℚ → Bytes) : Prop := ∀ k : Nat, k < 1000 → ∀ b : Nat,
  readFigure countUnits (List.replicate b 32 ++ short k ++ [32]) = some ((k : ℚ), 1) ∧ (short k).length ≤ 6

/-- the bytes of a text -/
def chars (s : String) : Bytes := s.toUTF8.data.toList

/-- what the text `t` shows is at most what `t'` shows -/
def ShowsAtMost (units : List (Bytes × ℚ)) (t t' : Bytes) : Prop := ∃ a b, amount units t = some a ∧ amount units t' = some b ∧ a ≤ b

/-- A line of a report about the measured values `m`: the label in a column of width `w`, then figures for the number of values and for their sum; if there are
values, then (after `gap`) also for their mean, for a value that at least 94% of the values do not exceed, and for the largest value.  What is shown as mean, and as the value at
95%, does not exceed what is shown as the largest value, and that does not exceed what is shown as the sum. -/
def LineSays (units : List (Bytes × ℚ)) (base : ℚ) (d : Nat) (w : Nat) (gap label : Bytes) (m : List Nat) (line : Bytes) : Prop :=
  ∃ c s : Bytes, GoodFigure countUnits 1000 1 c m.length ∧ GoodFigure units base d s (m.sum : Nat) ∧
    ((m = [] ∧ line = label ++ List.replicate (w - label.length) 32 ++ chars " > cnt: " ++ c ++ chars " sum: " ++ s ++ [10]) ∨
     (m ≠ [] ∧ ∃ (a q b : Bytes) (μ : ℚ) (x y : Nat),
      line = label ++ List.replicate (w - label.length) 32 ++ chars " > cnt: " ++ c ++ chars " sum: " ++ s ++ gap ++ chars "mean: " ++ a ++ chars " q95: " ++ q ++
        chars " max: " ++ b ++ [10] ∧
      |μ - (m.sum : ℚ) / m.length| ≤ (m.sum : ℚ) / m.length / 2 ^ 53 ∧ (∀ lo : Nat, (∀ z ∈ m, lo ≤ z) → (lo : ℚ) ≤ μ) ∧ μ ≤ y ∧ GoodFigure units base d a μ ∧
      x ∈ m ∧ 94 * m.length < 100 * m.countP (· ≤ x) ∧ GoodFigure units base d q x ∧
      y ∈ m ∧ (∀ z ∈ m, z ≤ y) ∧ GoodFigure units base d b y ∧
      ShowsAtMost units a b ∧ ShowsAtMost units q b ∧ ShowsAtMost units b s))

end Tiles.Spec
