import Verif.Model.Server
import Verif.Props.C35
import Verif.Props.C36
/-
C45 — HTTP requests get the documented status.

`handleRequest env req` is the whole request handler.  "Path of a tile" and "accepts deflate" are stated with the specification
vocabulary for URLs (`Spec.PctEncodes`, `Spec.Digits`) and list infixes.
-/
namespace Tiles
open Spec

theorem containsSub_iff (n : Bytes) (s : Bytes) : containsSub n s = true ↔ n <:+: s := by
  induction s with
  | nil => cases n <;> simp [containsSub]
  | cons c s ih =>
    rw [containsSub, Bool.or_eq_true, ih, List.isPrefixOf_iff_prefix, List.infix_cons_iff]

/-- the header value contains the word "deflate" -/
def AcceptsDeflate (req : Req) : Prop := [100, 101, 102, 108, 97, 116, 101] <:+: req.acceptEncoding

/-- the target is a percent encoding of a path ending in /z/x/y.mvt for 32-bit numbers, naming tile `t` -/
def TilePath (target : Bytes) (t : Tile) : Prop :=
  ∃ pre zs xs ys, PctEncodes (pre ++ [slash] ++ zs ++ [slash] ++ xs ++ [slash] ++ ys ++ dotMvt) target ∧
    Digits zs ∧ Digits xs ∧ Digits ys ∧ zs ≠ [] ∧ xs ≠ [] ∧ ys ≠ [] ∧
    t = ⟨decVal xs, decVal ys, decVal zs⟩ ∧ t.x < 2 ^ 32 ∧ t.y < 2 ^ 32 ∧ t.z < 2 ^ 32

theorem tilePath_parse (env : ServerEnv) {target : Bytes} {t : Tile} (h : TilePath target t) :
    ∃ path, urlDecode target = .ok path ∧ parseTileUrl env.rules path = .ok (some t) := by
  obtain ⟨pre, zs, xs, ys, he, hz, hx, hy, hz0, hx0, hy0, rfl, b1, b2, b3⟩ := h
  refine ⟨_, C36_decode_encoded _ _ he, ?_⟩
  have := C35_parses env.rules (pre ++ [slash]) zs xs ys (Or.inr ⟨pre, rfl⟩) hz hx hy hz0 hx0 hy0
  simp only at b1 b2 b3
  rw [Nat.mod_eq_of_lt b1, Nat.mod_eq_of_lt b2, Nat.mod_eq_of_lt b3] at this
  exact this

/-- OPTIONS is answered 204, methods other than GET and HEAD 405. -/
theorem C45_methods (env : ServerEnv) (req : Req) :
    (req.method = .options → handleRequest env req = .ok ⟨204, [], false⟩) ∧
    (req.method = .other → handleRequest env req = .ok ⟨405, [], false⟩) := by
  constructor <;> intro h <;> simp [handleRequest, serverCallback, h]

/-- GET and HEAD of a tile path: 501 without deflate support; otherwise 200 with exactly the tile, 204 if there is none,
500 when producing it fails. -/
theorem C45_tile (env : ServerEnv) (req : Req) (hm : req.method = .get ∨ req.method = .head) (t : Tile) (ht : TilePath req.target t) :
    (¬ AcceptsDeflate req → handleRequest env req = .ok ⟨501, [], false⟩) ∧
    (AcceptsDeflate req →
      (∀ body, env.getTile t = .ok (some body) → handleRequest env req = .ok ⟨200, body, true⟩) ∧
      (env.getTile t = .ok none → handleRequest env req = .ok ⟨204, [], false⟩) ∧
      (env.getTile t = .throw_ → handleRequest env req = .ok ⟨500, [], false⟩)) := by
  obtain ⟨path, h1, h2⟩ := tilePath_parse env ht
  have hcb : serverCallback env req = (do
      let r ← orElseHandler (maybeServeTile env req) (orElseHandler (maybeServeGlyphs env req) (maybeServeFile env req))
      return r.getD ⟨404, [], false⟩) := by
    unfold serverCallback; rcases hm with h | h <;> simp [h]
  have hdef : containsSub kDeflate req.acceptEncoding = true ↔ AcceptsDeflate req := containsSub_iff _ _
  unfold handleRequest
  rw [hcb]
  refine ⟨fun hn => ?_, fun hd => ⟨fun body hb => ?_, fun hb => ?_, fun hb => ?_⟩⟩
  · have : containsSub kDeflate req.acceptEncoding = false := by rw [← Bool.not_eq_true, hdef]; exact hn
    simp [orElseHandler, maybeServeTile, h1, h2, this]
  all_goals
    have := hdef.2 hd
    simp [orElseHandler, maybeServeTile, h1, h2, this, hb]

/-- Whatever the request: no exception escapes, and the answer has one of the documented codes. -/
theorem C45_total (env : ServerEnv) (hub : ∀ t, env.getTile t ≠ .ub) (req : Req) :
    ∃ resp, handleRequest env req = .ok resp ∧ resp.status ∈ [200, 204, 404, 405, 500, 501] := by
  have nub : ∀ {α β : Type} {a : Res α} {f : α → Res β}, a ≠ .ub → (∀ x, f x ≠ .ub) → (a >>= f) ≠ .ub := by
    intro α β a f ha hf
    cases a with
    | ok x => exact hf x
    | throw_ => simp
    | ub => exact absurd rfl ha
  have hdec : urlDecode req.target ≠ .ub := (C36_never_out_of_bounds req.target).1
  have h1 : maybeServeTile env req ≠ .ub := by
    apply nub hdec; intro u
    apply nub (C35_never_ub _ _); intro m
    cases m with
    | none => simp
    | some t =>
      simp only; split
      · simp
      · apply nub (hub _); intro r; cases r <;> simp
  have h2 : maybeServeGlyphs env req ≠ .ub := by
    apply nub hdec; intro u
    split
    · simp
    · split <;> simp
  have hres : ∀ n, serveResource env n ≠ .ub := by intro n; unfold serveResource; split <;> simp
  have h3 : maybeServeFile env req ≠ .ub := by
    apply nub hdec; intro u
    simp only
    split
    · simp
    · split
      · split
        · simp
        · simp
        · exact hres _
      · exact hres _
  have hor : ∀ {a b : Res (Option Resp)}, a ≠ .ub → b ≠ .ub → orElseHandler a b ≠ .ub := by
    intro a b ha hb
    apply nub ha; intro r; cases r
    · exact hb
    · simp
  -- codes
  have c1 : ∀ r, maybeServeTile env req = .ok (some r) → r.status ∈ [200, 204, 404, 405, 500, 501] := by
    intro r h
    unfold maybeServeTile at h
    obtain ⟨u, _, h⟩ := Res.bind_eq_ok.1 h
    obtain ⟨m, _, h⟩ := Res.bind_eq_ok.1 h
    cases m with
    | none => simp at h
    | some t =>
      simp only at h
      split at h
      · simp only [Res.pure_eq, Res.ok.injEq, Option.some.injEq] at h; subst h; simp
      · obtain ⟨x, _, h⟩ := Res.bind_eq_ok.1 h
        cases x <;> (simp only [Res.pure_eq, Res.ok.injEq, Option.some.injEq] at h; subst h; simp)
  have c2 : ∀ r, maybeServeGlyphs env req = .ok (some r) → r.status ∈ [200, 204, 404, 405, 500, 501] := by
    intro r h
    unfold maybeServeGlyphs at h
    obtain ⟨u, _, h⟩ := Res.bind_eq_ok.1 h
    split at h
    · simp at h
    · split at h <;> (simp only [Res.pure_eq, Res.ok.injEq, Option.some.injEq] at h; subst h; simp)
  have cres : ∀ n r, serveResource env n = .ok (some r) → r.status ∈ [200, 204, 404, 405, 500, 501] := by
    intro n r h
    unfold serveResource at h
    split at h <;> (simp only [Res.ok.injEq, Option.some.injEq] at h; subst h; simp)
  have c3 : ∀ r, maybeServeFile env req = .ok (some r) → r.status ∈ [200, 204, 404, 405, 500, 501] := by
    intro r h
    unfold maybeServeFile at h
    obtain ⟨u, _, h⟩ := Res.bind_eq_ok.1 h
    simp only at h
    split at h
    · simp at h
    · split at h
      · split at h
        · simp only [Res.pure_eq, Res.ok.injEq, Option.some.injEq] at h; subst h; simp
        · simp at h
        · exact cres _ r h
      · exact cres _ r h
  have cor : ∀ {a b : Res (Option Resp)}, (∀ r, a = .ok (some r) → r.status ∈ [200, 204, 404, 405, 500, 501]) →
      (∀ r, b = .ok (some r) → r.status ∈ [200, 204, 404, 405, 500, 501]) →
      ∀ r, orElseHandler a b = .ok (some r) → r.status ∈ [200, 204, 404, 405, 500, 501] := by
    intro a b ha hb r h
    obtain ⟨x, hx, h⟩ := Res.bind_eq_ok.1 h
    cases x with
    | none => exact hb r h
    | some y => simp only [Res.pure_eq, Res.ok.injEq, Option.some.injEq] at h; subst h; exact ha _ hx
  have hu := hor h1 (hor h2 h3)
  have hc := cor c1 (cor c2 c3)
  generalize hH : orElseHandler (maybeServeTile env req) (orElseHandler (maybeServeGlyphs env req) (maybeServeFile env req)) = H at hu hc
  have hget : ∃ resp, (match (do let r ← H; return r.getD ⟨404, [], false⟩ : Res Resp) with
      | .throw_ => (.ok ⟨500, [], false⟩ : Res Resp)
      | r => r) = .ok resp ∧ resp.status ∈ [200, 204, 404, 405, 500, 501] := by
    cases H with
    | ok x =>
      cases x with
      | none => exact ⟨_, rfl, by simp⟩
      | some r => exact ⟨r, rfl, hc r rfl⟩
    | throw_ => exact ⟨_, rfl, by simp⟩
    | ub => exact absurd rfl hu
  unfold handleRequest serverCallback
  cases req.method with
  | options => exact ⟨_, rfl, by simp⟩
  | other => exact ⟨_, rfl, by simp⟩
  | get => simp only [hH]; exact hget
  | head => simp only [hH]; exact hget

/-- A malformed target (an escape cut off by the end) is answered 500, not dropped. -/
theorem C45_bad_target (env : ServerEnv) (req : Req) (hm : req.method = .get ∨ req.method = .head) (o e tail : Bytes)
    (he : PctEncodes o e) (ht : tail.length < 2) (hr : req.target = e ++ 37 :: tail) :
    handleRequest env req = .ok ⟨500, [], false⟩ := by
  have hd : urlDecode req.target = .throw_ := by rw [hr]; exact C36_truncated_escape_throws o e he tail ht
  unfold handleRequest serverCallback
  rcases hm with h | h <;> simp [h, orElseHandler, maybeServeTile, hd]

/-- a concrete request: GET /1/0/1.mvt with a stored tile -/
def C45_env : ServerEnv :=
  ⟨⟨false, false⟩, fun t => if t = ⟨0, 1, 1⟩ then .ok (some [1, 2, 3]) else .ok none, [], fun _ => .missing, fun _ => none, fun _ => none⟩

example : TilePath [47, 49, 47, 48, 47, 49, 46, 109, 118, 116] ⟨0, 1, 1⟩ := by
  refine ⟨[], [49], [48], [49], ?_, by decide, by decide, by decide, by decide, by decide, by decide, by decide, by decide, by decide, by decide⟩
  refine .raw ?_ ?_ (.raw ?_ ?_ (.raw ?_ ?_ (.raw ?_ ?_ (.raw ?_ ?_ (.raw ?_ ?_ (.raw ?_ ?_ (.raw ?_ ?_ (.raw ?_ ?_ (.raw ?_ ?_ .nil))))))))) <;> decide

example : handleRequest C45_env ⟨.get, [47, 49, 47, 48, 47, 49, 46, 109, 118, 116], [103, 122, 105, 112, 44, 32, 100, 101, 102, 108, 97, 116, 101]⟩ =
    .ok ⟨200, [1, 2, 3], true⟩ := by decide

end Tiles
