import Verif.Props.C37
import Mathlib.Data.Nat.Digits.Defs
/-! C37 — `add_tag_as_integer` reads decimal numbers. -/
namespace Tiles
open Spec

/-- the decimal digits of a natural number, as characters (none for 0) -/
def Spec.decimal (n : Nat) : Bytes := ((Nat.digits 10 n).map (fun d => UInt8.ofNat (48 + d))).reverse

theorem digitVal_append (a : Bytes) (c : UInt8) : digitVal (a ++ [c]) = digitVal a * 10 + (c.toNat - 48) := by
  simp [digitVal]

theorem digitVal_zeros (k : Nat) (ds : Bytes) : digitVal (List.replicate k 48 ++ ds) = digitVal ds := by
  have h : digitVal (List.replicate k 48) = 0 := by
    induction k with
    | zero => rfl
    | succ k ih => rw [List.replicate_succ', digitVal_append, ih]; rfl
  unfold digitVal at h ⊢
  rw [List.foldl_append, h]

theorem digitVal_decimal (n : Nat) : digitVal (decimal n) = n := by
  have h : ∀ l : List Nat, (∀ d ∈ l, d < 10) → digitVal ((l.map (fun d => UInt8.ofNat (48 + d))).reverse) = Nat.ofDigits 10 l := by
    intro l
    induction l with
    | nil => intro _; rfl
    | cons d l ih =>
      intro hl
      have hd := hl d (by simp)
      rw [List.map_cons, List.reverse_cons, digitVal_append, ih (fun x hx => hl x (by simp [hx])), Nat.ofDigits_cons]
      have : (UInt8.ofNat (48 + d)).toNat = 48 + d := by rw [UInt8.toNat_ofNat']; omega
      rw [this]
      push_cast
      omega
  rw [decimal, h _ (fun d hd => Nat.digits_lt_base (by decide) hd), Nat.ofDigits_digits]

theorem decimal_digits (n : Nat) : ∀ c ∈ decimal n, 48 ≤ c.toNat ∧ c.toNat ≤ 57 := by
  intro c hc
  rw [decimal, List.mem_reverse, List.mem_map] at hc
  obtain ⟨d, hd, rfl⟩ := hc
  have := Nat.digits_lt_base (by decide : 1 < 10) hd
  rw [UInt8.toNat_ofNat']
  omega

/-- A number is read as it is written: an optional minus sign, any leading zeros, the digits; what follows after the digits does not matter.
It is not taken if it does not fit into 64 bits. -/
theorem C37_reads_decimal (neg : Bool) (zeros n : Nat) (rest : Bytes) (hd : 0 < zeros ∨ n ≠ 0)
    (hrest : ∀ c, rest.head? = some c → c.toNat < 48 ∨ 57 < c.toNat) :
    fromCharsI64 ((if neg then [45] else []) ++ List.replicate zeros 48 ++ decimal n ++ rest) =
      let v : Int := if neg then -(n : Int) else n
      if -2 ^ 63 ≤ v ∧ v < 2 ^ 63 then some v else none := by
  have htake : ∀ ds : Bytes, (∀ c ∈ ds, 48 ≤ c.toNat ∧ c.toNat ≤ 57) →
      (ds ++ rest).takeWhile (fun c => 48 ≤ c.toNat && c.toNat ≤ 57) = ds := by
    intro ds hds
    rw [List.takeWhile_append_of_pos (by intro c hc; have := hds c hc; simp [this.1, this.2])]
    cases rest with
    | nil => simp
    | cons c r =>
      have := hrest c rfl
      rw [List.takeWhile_cons_of_neg, List.append_nil]
      simp
      omega
  obtain ⟨ds, hds⟩ : ∃ ds, ds = List.replicate zeros 48 ++ decimal n := ⟨_, rfl⟩
  have hall : ∀ c ∈ ds, 48 ≤ c.toNat ∧ c.toNat ≤ 57 := by
    intro c hc
    rw [hds, List.mem_append] at hc
    rcases hc with hc | hc
    · rw [(List.mem_replicate.1 hc).2]; decide
    · exact decimal_digits n c hc
  have hval : digitVal ds = n := by rw [hds, digitVal_zeros, digitVal_decimal]
  have hne : ds ≠ [] := by
    intro h
    rw [hds, List.append_eq_nil_iff] at h
    rcases hd with hd | hd
    · have := congrArg List.length h.1; simp at this; omega
    · apply hd; rw [← digitVal_decimal n, h.2]; rfl
  rw [List.append_assoc _ _ (decimal n), ← hds]
  unfold fromCharsI64
  cases neg with
  | true => simp [htake ds hall, hne, hval]
  | false =>
    have h45 : (ds ++ rest).head? ≠ some 45 := by
      cases ds with
      | nil => exact absurd rfl hne
      | cons c l =>
        intro h
        injection h with h
        have := hall c (by simp)
        rw [h] at this
        exact absurd this.1 (by decide)
    have h45' : ¬ (ds.head?.or rest.head? = some 45) := by rwa [List.head?_append] at h45
    simp [htake ds hall, hne, hval, h45']

/-- Without a digit (after an optional minus sign) there is no number. -/
theorem C37_no_number (v : Bytes) (h : ∀ c, v.head? = some c → c.toNat < 48 ∨ 57 < c.toNat)
    (h2 : ∀ r, v = 45 :: r → ∀ c, r.head? = some c → c.toNat < 48 ∨ 57 < c.toNat) : fromCharsI64 v = none := by
  have hn : ∀ w : Bytes, (∀ c, w.head? = some c → c.toNat < 48 ∨ 57 < c.toNat) → w.takeWhile (fun c => 48 ≤ c.toNat && c.toNat ≤ 57) = [] := by
    intro w hw
    cases w with
    | nil => rfl
    | cons c r =>
      have := hw c rfl
      rw [List.takeWhile_cons_of_neg]
      simp
      omega
  unfold fromCharsI64
  by_cases hv : v.head? = some 45
  · cases v with
    | nil => cases hv
    | cons c r =>
      injection hv with hv
      subst hv
      simp [hn r (h2 r rfl)]
  · simp [hv, hn v h]

example : decimal 120 = [49, 50, 48] ∧ fromCharsI64 [45, 48, 49, 50, 48, 107] = some (-120) := by decide +kernel

end Tiles
