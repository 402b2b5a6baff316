import Verif.Model.Varint
import Mathlib.Tactic.Ring
import Mathlib.Tactic.NormNum
namespace Tiles

theorem toNat_ofNat_of_lt {n : Nat} (h : n < 256) : (UInt8.ofNat n).toNat = n := by
  rw [UInt8.toNat_ofNat']; omega

theorem encVarint_ne_nil (v : Nat) : encVarint v ≠ [] := by
  rw [encVarint]; split <;> simp

theorem encVarint_length_pos (v : Nat) : 0 < (encVarint v).length :=
  List.length_pos_iff.2 (encVarint_ne_nil v)

theorem encVarint_zero : encVarint 0 = [0] := by rw [encVarint]; rfl

/-- reading at byte `i` when `v` fits into the remaining `64 - 7 i` bits -/
theorem decVarintGo_enc (i acc v : Nat) (rest : Bytes) (hi : i ≤ 9) (hv : v * 2 ^ (7 * i) < 2 ^ 64) :
    decVarintGo i acc (encVarint v ++ rest) = .ok (acc + v * 2 ^ (7 * i), rest) := by
  induction v using Nat.strongRecOn generalizing i acc with
  | ind v ih =>
    rw [encVarint]
    by_cases h : v < 128
    · simp only [h, if_true, List.cons_append, List.nil_append, decVarintGo,
        toNat_ofNat_of_lt (show v < 256 by omega)]
      by_cases h9 : i = 9
      · subst h9
        have : v < 2 := by
          norm_num at hv; omega
        simp only [if_true]
        rw [Nat.mod_eq_of_lt this]
      · simp [h9]
    · have hi9 : i ≠ 9 := by
        rintro rfl
        norm_num at hv; omega
      have hb : (UInt8.ofNat (v % 128 + 128)).toNat = v % 128 + 128 := toNat_ofNat_of_lt (by omega)
      have hnb : ¬ (v % 128 + 128 < 128) := by omega
      simp only [h, if_false, List.cons_append, decVarintGo, hb, hi9, hnb]
      have hpow : 2 ^ (7 * (i + 1)) = 128 * 2 ^ (7 * i) := by
        rw [show 7 * (i + 1) = 7 * i + 7 by ring, Nat.pow_add]; ring
      have hle : v / 128 * 2 ^ (7 * (i + 1)) ≤ v * 2 ^ (7 * i) := by
        rw [hpow, ← Nat.mul_assoc]
        exact Nat.mul_le_mul_right _ (Nat.div_mul_le_self v 128)
      rw [ih (v / 128) (by omega) (i + 1) _ (by omega) (by omega)]
      congr 2
      have hm : (v % 128 + 128) % 128 = v % 128 := by omega
      rw [hm, hpow, Nat.add_assoc]
      congr 1
      rw [← Nat.mul_assoc, ← Nat.add_mul]
      congr 1; omega

theorem decVarint_enc (v : Nat) (rest : Bytes) (hv : v < 2 ^ 64) :
    decVarint (encVarint v ++ rest) = .ok (v, rest) := by
  have := decVarintGo_enc 0 0 v rest (by omega) (by simpa using hv)
  simpa [decVarint] using this

theorem decVarintGo_prefix (i acc v : Nat) (p q : Bytes) (h : encVarint v = p ++ q) (hq : q ≠ []) :
    decVarintGo i acc p = .throw_ := by
  induction v using Nat.strongRecOn generalizing i acc p with
  | ind v ih =>
    rw [encVarint] at h
    cases p with
    | nil => rfl
    | cons b p =>
      by_cases hlt : v < 128
      · simp only [hlt, if_true, List.cons_append, List.cons.injEq] at h
        have := h.2.symm
        simp only [List.append_eq_nil_iff] at this
        exact absurd this.2 hq
      · simp only [hlt, if_false, List.cons_append, List.cons.injEq] at h
        obtain ⟨rfl, h⟩ := h
        have hb : (UInt8.ofNat (v % 128 + 128)).toNat = v % 128 + 128 := toNat_ofNat_of_lt (by omega)
        simp only [decVarintGo, hb]
        have hnb : ¬ (v % 128 + 128 < 128) := by omega
        simp only [hnb, if_false]
        split
        · rfl
        · exact ih (v / 128) (by omega) _ _ _ h

theorem decVarintGo_ok {i acc : Nat} {bs rest : Bytes} {v : Nat} (hi : i ≤ 9) (hacc : acc < 2 ^ (7 * i))
    (h : decVarintGo i acc bs = .ok (v, rest)) :
    ∃ pre, bs = pre ++ rest ∧ 1 ≤ pre.length ∧ pre.length + i ≤ 10 ∧ v < 2 ^ 64 := by
  induction bs generalizing i acc with
  | nil => simp [decVarintGo] at h
  | cons b bs ih =>
    have hb := b.toNat_lt
    simp only [decVarintGo] at h
    by_cases h9 : i = 9
    · subst h9
      simp only [if_true] at h
      split at h
      · simp only [Res.ok.injEq, Prod.mk.injEq] at h
        obtain ⟨rfl, rfl⟩ := h
        refine ⟨[b], rfl, by simp, by simp, ?_⟩
        have : b.toNat % 2 < 2 := Nat.mod_lt _ (by decide)
        norm_num at hacc ⊢
        omega
      · cases h
    · simp only [h9, if_false] at h
      have hpow : 2 ^ (7 * (i + 1)) = 128 * 2 ^ (7 * i) := by
        rw [show 7 * (i + 1) = 7 * i + 7 by ring, Nat.pow_add]; ring
      split at h
      · rename_i hlt
        simp only [Res.ok.injEq, Prod.mk.injEq] at h
        obtain ⟨rfl, rfl⟩ := h
        refine ⟨[b], rfl, by simp, by simp; omega, ?_⟩
        have h1 : acc + b.toNat * 2 ^ (7 * i) < 2 ^ (7 * (i + 1)) := by
          have : b.toNat * 2 ^ (7 * i) ≤ 127 * 2 ^ (7 * i) := Nat.mul_le_mul_right _ (by omega)
          omega
        have h2 : 2 ^ (7 * (i + 1)) ≤ 2 ^ 63 := Nat.pow_le_pow_right (by decide) (by omega)
        have : (2 : Nat) ^ 63 < 2 ^ 64 := by norm_num
        omega
      · have hlt' : acc + b.toNat % 128 * 2 ^ (7 * i) < 2 ^ (7 * (i + 1)) := by
          have : b.toNat % 128 * 2 ^ (7 * i) ≤ 127 * 2 ^ (7 * i) := Nat.mul_le_mul_right _ (by omega)
          omega
        obtain ⟨pre, h1, h2, h3, h4⟩ := ih (by omega) hlt' h
        exact ⟨b :: pre, by simp [h1], by simp, by simp; omega, h4⟩

theorem decVarintGo_ne_ub (i acc : Nat) (bs : Bytes) : decVarintGo i acc bs ≠ .ub := by
  induction bs generalizing i acc with
  | nil => simp [decVarintGo]
  | cons b bs ih =>
    simp only [decVarintGo]
    split
    · split <;> simp
    · split
      · simp
      · exact ih _ _

theorem decVarintGo_too_long (i acc : Nat) (bs : Bytes) (hi : i ≤ 9)
    (hlen : 10 ≤ bs.length + i) (h : ∀ b ∈ bs.take (10 - i), 128 ≤ b.toNat) :
    decVarintGo i acc bs = .throw_ := by
  induction bs generalizing i acc with
  | nil => rfl
  | cons b bs ih =>
    have h0 : 128 ≤ b.toNat := h b (by
      rw [show 10 - i = (9 - i) + 1 by omega]; simp)
    have hn : ¬ b.toNat < 128 := by omega
    simp only [decVarintGo, hn, if_false]
    split
    · rfl
    · rename_i h9
      refine ih (i + 1) _ (by omega) (by simp at hlen; omega) (fun c hc => h c ?_)
      rw [show 10 - i = (10 - (i + 1)) + 1 by omega, List.take_succ_cons]
      exact List.mem_cons_of_mem _ hc

theorem unzigzag_zigzag (v : Int) : unzigzag (zigzag v) = v := by
  unfold unzigzag zigzag
  split <;> split <;> omega

theorem zigzag_unzigzag (n : Nat) : zigzag (unzigzag n) = n := by
  unfold unzigzag zigzag
  split <;> split <;> omega

theorem zigzag_lt {v : Int} (h : -(2 : Int) ^ 63 ≤ v) (h' : v < (2 : Int) ^ 63) : zigzag v < 2 ^ 64 := by
  unfold zigzag
  norm_num at h h' ⊢
  split <;> omega

end Tiles
