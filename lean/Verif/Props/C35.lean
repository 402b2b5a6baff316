import Verif.Model.Url
import Verif.Spec.Url
import Mathlib.Data.List.TakeWhile
/-
C35 — tile URLs parse exactly.

`v : CstrRules` are the unknown details of the utl library for tokens without characters.
-/
namespace Tiles
open Spec

theorem splitTok_sep {t rest : Bytes} (h : ∀ c ∈ t, c ≠ kSlash) : splitTok (some (t ++ kSlash :: rest)) = (some t, some rest) := by
  have h1 : (t ++ kSlash :: rest).takeWhile (· ≠ kSlash) = t := by
    rw [List.takeWhile_append_of_pos (by simpa using h)]; simp
  have h2 : (t ++ kSlash :: rest).dropWhile (· ≠ kSlash) = kSlash :: rest := by
    rw [List.dropWhile_append_of_pos (by simpa using h)]; simp
  simp only [splitTok, h1, h2]

theorem splitTok_end {t : Bytes} (h : ∀ c ∈ t, c ≠ kSlash) : splitTok (some t) = (some t, none) := by
  have h1 : t.takeWhile (· ≠ kSlash) = t := by rw [List.takeWhile_eq_self_iff]; simpa using h
  have h2 : t.dropWhile (· ≠ kSlash) = [] := by rw [List.dropWhile_eq_nil_iff]; simpa using h
  simp only [splitTok, h1, h2]

theorem splitTok_some (s : Bytes) : ∃ t r, splitTok (some s) = (some t, r) ∧ (∀ c ∈ t, c ≠ kSlash) ∧
    ((r = none ∧ s = t) ∨ ∃ rest, r = some rest ∧ s = t ++ kSlash :: rest) := by
  have hd := List.takeWhile_append_dropWhile (p := (· ≠ kSlash)) (l := s)
  refine ⟨s.takeWhile (· ≠ kSlash), _, rfl, ?_, ?_⟩
  · intro c hc; simpa using List.mem_takeWhile_imp hc
  · cases h : s.dropWhile (· ≠ kSlash) with
    | nil => left; rw [h] at hd; simpa using hd.symm
    | cons a rest =>
      right
      have ha : a = kSlash := by
        have := List.head?_dropWhile_not (p := (· ≠ kSlash)) s
        rw [h] at this; simpa using this
      subst ha; rw [h] at hd
      exact ⟨rest, rfl, hd.symm⟩

theorem parseU32_eq {s : Bytes} : parseU32 s = decVal s % 2 ^ 32 := by
  have key : ∀ (s : Bytes) (a : Nat), s.foldl (fun a c => (a * 10 + (c.toNat - 48)) % 2 ^ 32) (a % 2 ^ 32) =
      (a * 10 ^ s.length + decVal s) % 2 ^ 32 := by
    intro s
    induction s with
    | nil => intro a; simp [decVal]
    | cons c s ih =>
      intro a
      rw [List.foldl_cons]
      have : (a % 2 ^ 32 * 10 + (c.toNat - 48)) % 2 ^ 32 = (a * 10 + (c.toNat - 48)) % 2 ^ 32 := by omega
      rw [this, ih]
      congr 1
      rw [decVal, List.length_cons, Nat.pow_succ, Nat.add_mul]
      have : a * 10 * 10 ^ s.length = a * (10 ^ s.length * 10) := by
        rw [Nat.mul_assoc, Nat.mul_comm 10]
      omega
  have := key s 0
  simpa [parseU32] using this

theorem digits_noslash {t : Bytes} (h : Digits t) : ∀ c ∈ t, c ≠ kSlash := by
  rintro c hc rfl
  have := h _ hc
  revert this; decide

theorem digits_nonul {t : Bytes} (h : Digits t) : ∀ c ∈ t, c ≠ 0 := by
  rintro c hc rfl
  have := h _ hc
  revert this; decide

theorem digits_rev {t : Bytes} (h : Digits t) : Digits t.reverse := fun c hc => h c (by simpa using hc)

theorem checkTok_digits (v : CstrRules) {t : Bytes} (h : Digits t) (hne : t ≠ []) : checkTok v (some t) = .ok t := by
  cases t with
  | nil => exact absurd rfl hne
  | cons a t =>
    have : (a :: t).all isDigit = true := by
      rw [List.all_eq_true]; intro c hc
      have := h c hc
      simp [isDigit, this]
    rw [checkTok, if_pos this]
    simp

theorem checkTok_ok {v : CstrRules} (hm : v.missingValid = false) {o : Option Bytes} {t : Bytes} (h : checkTok v o = .ok t) :
    o = some t ∧ Digits t ∧ (v.emptyValid = false → t ≠ []) := by
  unfold checkTok at h
  split at h
  · simp [hm] at h
  · split at h
    · rename_i hv
      simp only [Res.ok.injEq] at h; subst h
      exact ⟨rfl, by simp [Digits], by simp [hv]⟩
    · simp at h
  · rename_i t' hne
    split at h
    · rename_i hall
      simp only [Res.ok.injEq] at h; subst h
      refine ⟨rfl, ?_, fun _ => hne⟩
      intro c hc
      have := List.all_eq_true.1 hall c hc
      simpa [isDigit] using this
    · simp at h

/-- A path ending in `/z/x/y.mvt` with decimal numbers is parsed as that tile (numbers are 32 bit).  `lead` is
whatever precedes: nothing, or anything up to a '/'. -/
theorem C35_parses (v : CstrRules) (lead zs xs ys : Bytes) (hl : lead = [] ∨ ∃ pre, lead = pre ++ [slash])
    (hz : Digits zs) (hx : Digits xs) (hy : Digits ys) (hz0 : zs ≠ []) (hx0 : xs ≠ []) (hy0 : ys ≠ []) :
    parseTileUrl v (lead ++ zs ++ [slash] ++ xs ++ [slash] ++ ys ++ dotMvt) =
      .ok (some ⟨decVal xs % 2 ^ 32, decVal ys % 2 ^ 32, decVal zs % 2 ^ 32⟩) := by
  have hr : (lead ++ zs ++ [slash] ++ xs ++ [slash] ++ ys ++ dotMvt).reverse =
      kTvm ++ (ys.reverse ++ kSlash :: (xs.reverse ++ kSlash :: (zs.reverse ++ lead.reverse))) := by
    simp [slash, kSlash, dotMvt, kTvm]
  have htw : ∃ tl, (tl = none ∨ ∃ r, tl = some r) ∧
      splitTok (some ((zs.reverse ++ lead.reverse).takeWhile (· ≠ 0))) = (some zs.reverse, tl) := by
    rcases hl with rfl | ⟨pre, rfl⟩
    · refine ⟨none, Or.inl rfl, ?_⟩
      rw [List.reverse_nil, List.append_nil, List.takeWhile_eq_self_iff.2 (by simpa using digits_nonul hz)]
      exact splitTok_end (digits_noslash (digits_rev hz))
    · rw [List.reverse_append]
      refine ⟨some (pre.reverse.takeWhile (· ≠ 0)), Or.inr ⟨_, rfl⟩, ?_⟩
      rw [List.takeWhile_append_of_pos (by simpa using digits_nonul hz)]
      exact splitTok_sep (digits_noslash (digits_rev hz))
  obtain ⟨tl, _, hs2⟩ := htw
  have hdrop : ((kTvm ++ (ys.reverse ++ kSlash :: (xs.reverse ++ kSlash :: (zs.reverse ++ lead.reverse)))).drop 4).takeWhile (· ≠ 0) =
      ys.reverse ++ kSlash :: (xs.reverse ++ kSlash :: (zs.reverse ++ lead.reverse).takeWhile (· ≠ 0)) := by
    rw [List.drop_left' (by rfl), List.takeWhile_append_of_pos (by simpa using digits_nonul hy),
      List.takeWhile_cons_of_pos (by decide), List.takeWhile_append_of_pos (by simpa using digits_nonul hx),
      List.takeWhile_cons_of_pos (by decide)]
  unfold parseTileUrl
  simp only [hr]
  rw [if_neg (by rw [List.take_left' (by rfl)]; simp)]
  rw [hdrop, splitTok_sep (digits_noslash (digits_rev hy))]
  simp only
  rw [splitTok_sep (digits_noslash (digits_rev hx))]
  simp only
  rw [hs2]
  simp only
  rw [checkTok_digits v (digits_rev hy) (by simpa using hy0), checkTok_digits v (digits_rev hx) (by simpa using hx0),
    checkTok_digits v (digits_rev hz) (by simpa using hz0)]
  simp only [Res.ok_bind, Res.pure_eq, List.reverse_reverse, parseU32_eq]

/-- A path that does not end in `.mvt` is no tile. -/
theorem C35_not_mvt (v : CstrRules) (url : Bytes) : parseTileUrl v url = .ok none ↔ ¬ dotMvt <:+ url := by
  have hkt : kTvm = dotMvt.reverse := by decide
  have hsuf : url.reverse.take 4 = kTvm ↔ dotMvt <:+ url := by
    rw [← List.reverse_prefix, ← hkt, List.prefix_iff_eq_take]
    exact ⟨fun h => h.symm, fun h => h.symm⟩
  unfold parseTileUrl
  by_cases h : url.reverse.take 4 = kTvm
  · simp only [h, ne_eq, not_true_eq_false, if_false]
    constructor
    · intro h'
      simp only [Res.bind_eq_ok] at h'
      obtain ⟨_, _, _, _, _, _, h''⟩ := h'
      simp at h''
    · intro h'; exact absurd (hsuf.1 h) h'
  · simp only [ne_eq, h, not_false_eq_true, if_true, true_iff]
    exact fun h' => h (hsuf.2 h')

/-- No other tile is ever returned: a returned tile comes from digits in these positions.  (Digits strings are not empty when
the library regards empty tokens as invalid.) -/
theorem C35_only_these (v : CstrRules) (hm : v.missingValid = false) (url : Bytes) (t : Tile) (h : parseTileUrl v url = .ok (some t)) :
    ∃ lead zs xs ys, url = lead ++ zs ++ [slash] ++ xs ++ [slash] ++ ys ++ dotMvt ∧
      Digits zs ∧ Digits xs ∧ Digits ys ∧ (v.emptyValid = false → zs ≠ [] ∧ xs ≠ [] ∧ ys ≠ []) ∧
      (lead = [] ∨ ∃ pre, lead = pre ++ [slash] ∨ lead = pre ++ [0]) ∧
      t = ⟨decVal xs % 2 ^ 32, decVal ys % 2 ^ 32, decVal zs % 2 ^ 32⟩ := by
  unfold parseTileUrl at h
  simp only at h
  split at h
  · simp at h
  · rename_i hp
    simp only [ne_eq, not_not] at hp
    have hurl : url.reverse = kTvm ++ url.reverse.drop 4 := by rw [← hp, List.take_append_drop]
    generalize url.reverse.drop 4 = s at *
    have hnul : ∃ post, s = s.takeWhile (· ≠ 0) ++ post ∧ (post = [] ∨ ∃ r, post = 0 :: r) := by
      refine ⟨s.dropWhile (· ≠ 0), (List.takeWhile_append_dropWhile).symm, ?_⟩
      cases hd : s.dropWhile (· ≠ 0) with
      | nil => exact Or.inl rfl
      | cons a r =>
        have := List.head?_dropWhile_not (p := (· ≠ (0 : UInt8))) s
        rw [hd] at this
        simp at this
        exact Or.inr ⟨r, by rw [this]⟩
    obtain ⟨post, hs, hpost⟩ := hnul
    generalize s.takeWhile (· ≠ 0) = b at *
    obtain ⟨t0, r0, e0, n0, c0⟩ := splitTok_some b
    rw [e0] at h
    simp only at h
    obtain ⟨k0, hk0, h⟩ := Res.bind_eq_ok.1 h
    obtain ⟨k1, hk1, h⟩ := Res.bind_eq_ok.1 h
    obtain ⟨k2, hk2, h⟩ := Res.bind_eq_ok.1 h
    simp only [Res.pure_eq, Res.ok.injEq, Option.some.injEq] at h
    obtain ⟨hq0, d0, ne0⟩ := checkTok_ok hm hk0
    obtain ⟨hq1, d1, ne1⟩ := checkTok_ok hm hk1
    obtain ⟨hq2, d2, ne2⟩ := checkTok_ok hm hk2
    simp only [Option.some.injEq] at hq0
    subst hq0
    rcases c0 with ⟨rfl, _⟩ | ⟨s1, rfl, hb⟩
    · simp [splitTok] at hq1
    obtain ⟨t1, r1, e1, n1, c1⟩ := splitTok_some s1
    rw [e1] at hq1 hq2
    simp only [Option.some.injEq] at hq1 hq2
    subst hq1
    rcases c1 with ⟨rfl, _⟩ | ⟨s2, rfl, hb1⟩
    · simp [splitTok] at hq2
    obtain ⟨t2, r2, e2, n2, c2⟩ := splitTok_some s2
    rw [e2] at hq2
    simp only [Option.some.injEq] at hq2
    subst hq2
    have hfin : ∀ lead, s2 ++ post = t2 ++ lead →
        url = lead.reverse ++ t2.reverse ++ [slash] ++ t1.reverse ++ [slash] ++ t0.reverse ++ dotMvt := by
      intro lead hlead
      have : url.reverse.reverse = (kTvm ++ (t0 ++ kSlash :: (t1 ++ kSlash :: (t2 ++ lead)))).reverse := by
        rw [hurl, hs, hb, hb1, ← hlead]; simp
      rw [List.reverse_reverse] at this
      rw [this]; simp [slash, kSlash, dotMvt, kTvm]
    rcases c2 with ⟨_, hb2⟩ | ⟨s3, _, hb2⟩
    · refine ⟨post.reverse, t2.reverse, t1.reverse, t0.reverse, hfin post (by rw [hb2]), digits_rev d2, digits_rev d1, digits_rev d0,
        fun hv => by simpa using ⟨ne2 hv, ne1 hv, ne0 hv⟩, ?_, ?_⟩
      · rcases hpost with rfl | ⟨r, rfl⟩
        · exact Or.inl rfl
        · exact Or.inr ⟨r.reverse, Or.inr (by simp)⟩
      · rw [← h]; simp only [parseU32_eq]
    · refine ⟨(kSlash :: (s3 ++ post)).reverse, t2.reverse, t1.reverse, t0.reverse, hfin _ (by rw [hb2]; simp), digits_rev d2, digits_rev d1,
        digits_rev d0, fun hv => by simpa using ⟨ne2 hv, ne1 hv, ne0 hv⟩, ?_, ?_⟩
      · exact Or.inr ⟨(s3 ++ post).reverse, Or.inl (by simp [slash, kSlash])⟩
      · rw [← h]; simp only [parseU32_eq]

/-- The parser never has undefined behaviour: it returns a tile, nothing, or throws. -/
theorem C35_never_ub (v : CstrRules) (url : Bytes) : parseTileUrl v url ≠ .ub := by
  have hc : ∀ o, checkTok v o ≠ .ub := by
    intro o; unfold checkTok; repeat' split
    all_goals simp
  unfold parseTileUrl
  simp only
  split
  · simp
  · have hb : ∀ {α β : Type} (a : Res α) (f : α → Res β), a ≠ .ub → (∀ x, f x ≠ .ub) → (a >>= f) ≠ .ub := by
      intro α β a f ha hf
      cases a with
      | ok x => exact hf x
      | throw_ => simp
      | ub => exact absurd rfl ha
    exact hb _ _ (hc _) (fun _ => hb _ _ (hc _) (fun _ => hb _ _ (hc _) (fun _ => by simp)))

/-- "/tiles/14/8529/5975.mvt" -/
example : parseTileUrl ⟨false, false⟩ [47, 116, 47, 49, 52, 47, 56, 53, 50, 57, 47, 53, 57, 55, 53, 46, 109, 118, 116] =
    .ok (some ⟨8529, 5975, 14⟩) := by decide
/-- "/1/2x/3.mvt" throws -/
example : parseTileUrl ⟨false, false⟩ [47, 49, 47, 50, 120, 47, 51, 46, 109, 118, 116] = .throw_ := by decide

end Tiles
