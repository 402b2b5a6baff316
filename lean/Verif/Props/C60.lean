import Verif.Model.HttpFields
import Verif.Props.C47
import Mathlib.Data.Nat.Digits.Lemmas
/-! C60 — the header fields of every answer: allowed origins, length, encoding, type; and what is left of a response when an
exception leaves a handler. -/
namespace Tiles
open Spec

namespace Spec
/-- the values of a header field -/
def values (m : Msg) (f : HField) : List Bytes := (m.fields.filter (fun e => e.1 = f)).map (·.2)

/-- the type of a file by its name, `none` if it is not one of the three known -/
def typeOfName (name : Bytes) : Option Bytes :=
  if (".html".toUTF8.toList : Bytes) <:+ name then some "text/html".toUTF8.toList
  else if (".css".toUTF8.toList : Bytes) <:+ name then some "text/css".toUTF8.toList
  else if (".js".toUTF8.toList : Bytes) <:+ name then some "text/javascript".toUTF8.toList
  else none
end Spec

theorem kStar_eq : kStar = "*".toUTF8.toList := by decide +kernel
theorem kAllowHeaders_eq : kAllowHeaders = "X-Requested-With, Content-Type, Accept, Authorization".toUTF8.toList := by decide +kernel
theorem kAllowMethods_eq : kAllowMethods = "GET, POST, PUT, DELETE, OPTIONS, HEAD".toUTF8.toList := by decide +kernel
theorem kDeflate_eq : kDeflate = "deflate".toUTF8.toList := by decide +kernel

theorem values_set_self (m : Msg) (f : HField) (v : Bytes) : values (m.set f v) f = [v] := by
  simp [values, Msg.set]

theorem values_set_ne (m : Msg) {f g : HField} (h : g ≠ f) (v : Bytes) : values (m.set g v) f = values m f := by
  simp only [values, Msg.set, List.filter_append, List.filter_filter, List.filter_cons, List.filter_nil]
  rw [if_neg (by simpa using h), List.append_nil]
  congr 2
  funext e
  by_cases he : e.1 = f
  · simp [he, Ne.symm h]
  · simp [he]

theorem values_result (m : Msg) (f : HField) (n : Nat) : values (m.result n) f = values m f := rfl

theorem toDec_spec (n : Nat) : Digits (toDec n) ∧ decVal (toDec n) = n := by
  unfold toDec
  split
  · rename_i h; subst h; exact ⟨by decide, by decide⟩
  · have hlt : ∀ d ∈ Nat.digits 10 n, d < 10 := fun d hd => Nat.digits_lt_base (by omega) hd
    constructor
    · intro c hc
      simp only [List.mem_map, List.mem_reverse] at hc
      obtain ⟨d, hd, rfl⟩ := hc
      have := hlt d hd
      rw [UInt8.toNat_ofNat_of_lt' (by simp [UInt8.size]; omega)]
      omega
    · have key : ∀ l : List Nat, (∀ d ∈ l, d < 10) → ∀ tail : Bytes,
          decVal (l.reverse.map (fun d => UInt8.ofNat (48 + d)) ++ tail) = Nat.ofDigits 10 l * 10 ^ tail.length + decVal tail := by
        intro l
        induction l with
        | nil => intro _ tail; simp
        | cons d l ih =>
          intro hl tail
          have hd := hl d (by simp)
          rw [List.reverse_cons, List.map_append, List.append_assoc, ih (fun x hx => hl x (by simp [hx]))]
          simp only [List.map_cons, List.map_nil, List.cons_append, List.nil_append, decVal, List.length_cons, Nat.ofDigits_cons]
          rw [UInt8.toNat_ofNat_of_lt' (by simp [UInt8.size]; omega)]
          rw [show 48 + d - 48 = d by omega]
          simp only [Nat.pow_succ]
          push_cast
          ring
      have := key (Nat.digits 10 n) hlt []
      simpa [Nat.ofDigits_digits, decVal] using this

/-! ### the handlers -/

/-- a response before a handler touched it: only the fields that allow all origins -/
structure Fresh (m : Msg) : Prop where
  body : m.body = []
  enc : values m .contentEncoding = []
  typ : values m .contentType = []
  origin : values m .allowOrigin = ["*".toUTF8.toList]
  headers : values m .allowHeaders = ["X-Requested-With, Content-Type, Accept, Authorization".toUTF8.toList]
  methods : values m .allowMethods = ["GET, POST, PUT, DELETE, OPTIONS, HEAD".toUTF8.toList]

/-- the response carries this answer, the fields that allow all origins, and this type -/
structure Carries (v : Nat) (m : Msg) (r : Resp) (t : Option Bytes) : Prop where
  version : m.version = v
  keep : m.keepAlive = false
  status : m.status = r.status
  body : m.body = r.body
  enc : values m .contentEncoding = if r.deflate then ["deflate".toUTF8.toList] else []
  typ : values m .contentType = t.toList
  origin : values m .allowOrigin = ["*".toUTF8.toList]
  headers : values m .allowHeaders = ["X-Requested-With, Content-Type, Accept, Authorization".toUTF8.toList]
  methods : values m .allowMethods = ["GET, POST, PUT, DELETE, OPTIONS, HEAD".toUTF8.toList]

theorem carries_fresh {v : Nat} {m : Msg} (hv : m.version = v) (hk : m.keepAlive = false) (h : Fresh m) (n : Nat) :
    Carries v (m.result n) ⟨n, [], false⟩ none :=
  ⟨hv, hk, rfl, h.body, h.enc, h.typ, h.origin, h.headers, h.methods⟩

/-- what a handler makes of a fresh response, given what it answers -/
def HandlerSpec (v : Nat) (m : Msg) (ans : Res (Option Resp)) (t : Option Bytes) (out : Res Bool × Msg) : Prop :=
  match ans with
  | .throw_ => out = (.throw_, m)
  | .ub => out = (.ub, m)
  | .ok none => out.1 = .ok false ∧ Fresh out.2 ∧ out.2.version = v ∧ out.2.keepAlive = false
  | .ok (some r) => out.1 = .ok true ∧ Carries v out.2 r t

theorem serveTileM_spec (env : ServerEnv) (req : Req) {v : Nat} {m : Msg} (hv : m.version = v) (hk : m.keepAlive = false) (h : Fresh m) :
    HandlerSpec v m (maybeServeTile env req) none (serveTileM env req m) := by
  unfold maybeServeTile serveTileM
  cases urlDecode req.target with
  | throw_ => exact rfl
  | ub => exact rfl
  | ok url =>
    simp only [Res.ok_bind]
    cases parseTileUrl env.rules url with
    | throw_ => exact rfl
    | ub => exact rfl
    | ok o =>
      simp only [Res.ok_bind]
      cases o with
      | none => exact ⟨rfl, h, hv, hk⟩
      | some tile =>
        dsimp only
        by_cases hd : (!containsSub kDeflate req.acceptEncoding) = true
        · rw [if_pos hd, if_pos hd]
          exact ⟨rfl, carries_fresh hv hk h 501⟩
        · rw [if_neg hd, if_neg hd]
          cases env.getTile tile with
          | throw_ => exact rfl
          | ub => exact rfl
          | ok r =>
            simp only [Res.ok_bind]
            cases r with
            | none => exact ⟨rfl, carries_fresh hv hk h 204⟩
            | some body =>
              refine ⟨rfl, hv, hk, rfl, rfl, ?_, ?_, ?_, ?_, ?_⟩
              · rw [values_result, values_set_self, kDeflate_eq]; rfl
              · rw [values_result, values_set_ne _ (by decide)]; exact h.typ
              · rw [values_result, values_set_ne _ (by decide)]; exact h.origin
              · rw [values_result, values_set_ne _ (by decide)]; exact h.headers
              · rw [values_result, values_set_ne _ (by decide)]; exact h.methods

theorem serveGlyphsM_spec (env : ServerEnv) (req : Req) {v : Nat} {m : Msg} (hv : m.version = v) (hk : m.keepAlive = false) (h : Fresh m) :
    HandlerSpec v m (maybeServeGlyphs env req) none (serveGlyphsM env req m) := by
  unfold maybeServeGlyphs serveGlyphsM
  cases urlDecode req.target with
  | throw_ => exact rfl
  | ub => exact rfl
  | ok url =>
    simp only [Res.ok_bind]
    cases matchRest kGlyphs url with
    | none => exact ⟨rfl, h, hv, hk⟩
    | some name =>
      dsimp only
      cases env.glyphs name with
      | none => exact ⟨rfl, carries_fresh hv hk h 404⟩
      | some b => exact ⟨rfl, hv, hk, rfl, rfl, h.enc, h.typ, h.origin, h.headers, h.methods⟩

theorem serveFoundM_spec (name b : Bytes) {v : Nat} {m : Msg} (hv : m.version = v) (hk : m.keepAlive = false) (h : Fresh m) :
    Carries v (serveFoundM name { m with body := b }) ⟨200, b, false⟩ (typeOfName name) := by
  have e1 : (endsWith name kHtml = true) ↔ (".html".toUTF8.toList : Bytes) <:+ name := by
    rw [endsWith, List.isSuffixOf_iff_suffix, show kHtml = ".html".toUTF8.toList by decide +kernel]
  have e2 : (endsWith name kCss = true) ↔ (".css".toUTF8.toList : Bytes) <:+ name := by
    rw [endsWith, List.isSuffixOf_iff_suffix, show kCss = ".css".toUTF8.toList by decide +kernel]
  have e3 : (endsWith name kJs = true) ↔ (".js".toUTF8.toList : Bytes) <:+ name := by
    rw [endsWith, List.isSuffixOf_iff_suffix, show kJs = ".js".toUTF8.toList by decide +kernel]
  have set : ∀ t : Bytes, Carries v ((({ m with body := b } : Msg).result 200).set .contentType t) ⟨200, b, false⟩ (some t) := by
    intro t
    refine ⟨hv, hk, rfl, rfl, ?_, ?_, ?_, ?_, ?_⟩
    · rw [values_set_ne _ (by decide)]; exact h.enc
    · rw [values_set_self]; rfl
    · rw [values_set_ne _ (by decide)]; exact h.origin
    · rw [values_set_ne _ (by decide)]; exact h.headers
    · rw [values_set_ne _ (by decide)]; exact h.methods
  unfold serveFoundM typeOfName
  dsimp only
  by_cases h1 : endsWith name kHtml = true
  · rw [if_pos h1, if_pos (e1.1 h1), show "text/html".toUTF8.toList = kTextHtml by decide +kernel]; exact set _
  rw [if_neg h1, if_neg (fun h => h1 (e1.2 h))]
  by_cases h2 : endsWith name kCss = true
  · rw [if_pos h2, if_pos (e2.1 h2), show "text/css".toUTF8.toList = kTextCss by decide +kernel]; exact set _
  rw [if_neg h2, if_neg (fun h => h2 (e2.2 h))]
  by_cases h3 : endsWith name kJs = true
  · rw [if_pos h3, if_pos (e3.1 h3), show "text/javascript".toUTF8.toList = kTextJs by decide +kernel]; exact set _
  rw [if_neg h3, if_neg (fun h => h3 (e3.2 h))]
  exact ⟨hv, hk, rfl, rfl, h.enc, h.typ, h.origin, h.headers, h.methods⟩

namespace Spec
/-- the name of the static file a request asks for -/
def fileName (url : Bytes) : Bytes := (matchRest [kSlash] url).getD kIndexHtml
end Spec

/-- the type set by the static file handler -/
def fileType (env : ServerEnv) (req : Req) : Option Bytes :=
  match urlDecode req.target, maybeServeFile env req with
  | .ok url, .ok (some r) => if r.status = 200 then typeOfName (fileName url) else none
  | _, _ => none

theorem serveResourceM_spec (env : ServerEnv) (name : Bytes) {v : Nat} {m : Msg} (hv : m.version = v) (hk : m.keepAlive = false)
    (h : Fresh m) : ∃ r, serveResource env name = .ok (some r) ∧
      Carries v (serveResourceM env name m) r (if r.status = 200 then typeOfName name else none) := by
  unfold serveResource serveResourceM
  cases env.resources name with
  | none => exact ⟨_, rfl, carries_fresh hv hk h 404⟩
  | some b => exact ⟨_, rfl, serveFoundM_spec name b hv hk h⟩

theorem serveFileM_spec (env : ServerEnv) (req : Req) {v : Nat} {m : Msg} (hv : m.version = v) (hk : m.keepAlive = false) (h : Fresh m) :
    HandlerSpec v m (maybeServeFile env req) (fileType env req) (serveFileM env req m) := by
  cases hu : urlDecode req.target with
  | throw_ => simp only [maybeServeFile, serveFileM, hu]; exact rfl
  | ub => simp only [maybeServeFile, serveFileM, hu]; exact rfl
  | ok url =>
    have hft : fileType env req = match maybeServeFile env req with
        | .ok (some r) => if r.status = 200 then typeOfName (fileName url) else none
        | _ => none := by
      simp only [fileType, hu]
      cases maybeServeFile env req with
      | ok o => cases o <;> rfl
      | throw_ => rfl
      | ub => rfl
    rw [hft]
    by_cases hn : matchRest [kSlash] url = none ∧ req.target ≠ [kSlash]
    · have e1 : maybeServeFile env req = .ok none := by
        simp only [maybeServeFile, hu, Res.ok_bind]; rw [if_pos hn]; rfl
      have e2 : serveFileM env req m = (.ok false, m.result 404) := by
        simp only [serveFileM, hu]; rw [if_pos hn]
      rw [e1, e2]
      exact ⟨rfl, ⟨h.body, h.enc, h.typ, h.origin, h.headers, h.methods⟩, hv, hk⟩
    · have e1 : maybeServeFile env req = (if env.resDir ≠ [] then
          match env.fs (pathJoin env.resDir (fileName url)) with
          | .file b => .ok (some ⟨200, b, false⟩)
          | .unreadable => .throw_
          | .missing => serveResource env (fileName url)
        else serveResource env (fileName url)) := by
        simp only [maybeServeFile, hu, Res.ok_bind]; rw [if_neg hn]; rfl
      have e2 : serveFileM env req m = (if env.resDir ≠ [] then
          match env.fs (pathJoin env.resDir (fileName url)) with
          | .file b => (.ok true, serveFoundM (fileName url) { m with body := b })
          | .unreadable => (.throw_, m)
          | .missing => (.ok true, serveResourceM env (fileName url) m)
        else (.ok true, serveResourceM env (fileName url) m)) := by
        simp only [serveFileM, hu]; rw [if_neg hn]; rfl
      rw [e1, e2]
      obtain ⟨r, hr, hc⟩ := serveResourceM_spec env (fileName url) hv hk h
      by_cases hd : env.resDir ≠ []
      · rw [if_pos hd, if_pos hd]
        cases env.fs (pathJoin env.resDir (fileName url)) with
        | file b => exact ⟨rfl, serveFoundM_spec (fileName url) b hv hk h⟩
        | unreadable => exact rfl
        | missing => dsimp only; rw [hr]; exact ⟨rfl, hc⟩
      · rw [if_neg hd, if_neg hd, hr]; exact ⟨rfl, hc⟩

namespace Spec
/-- the answer was taken from a static file (or the compiled-in resource) -/
def fromFile (env : ServerEnv) (req : Req) : Prop :=
  (req.method = .get ∨ req.method = .head) ∧ maybeServeTile env req = .ok none ∧ maybeServeGlyphs env req = .ok none ∧
    ∃ r, maybeServeFile env req = .ok (some r) ∧ r.status = 200
end Spec

/-- all there is to know about the response object -/
theorem respond_spec (env : ServerEnv) (v : Nat) (req : Req) :
    (handleRequest env req = .ub ∧ respond env v req = .ub) ∨
    ∃ m r t, respond env v req = .ok (m.set .contentLength (toDec m.body.length)) ∧ handleRequest env req = .ok r ∧ Carries v m r t ∧
      (∀ ty, t = some ty → fromFile env req ∧ ∃ url, urlDecode req.target = .ok url ∧ typeOfName (fileName url) = some ty) ∧
      (fromFile env req → ∃ url, urlDecode req.target = .ok url ∧ t = typeOfName (fileName url)) := by
  let m0 : Msg := ⟨v, false, 200, [], []⟩
  let m1 := ((m0.set .allowOrigin kStar).set .allowHeaders kAllowHeaders).set .allowMethods kAllowMethods
  have hfresh : Fresh m1 := by
    refine ⟨rfl, rfl, rfl, ?_, ?_, ?_⟩
    · rw [← kStar_eq]; rfl
    · rw [← kAllowHeaders_eq]; rfl
    · rw [← kAllowMethods_eq]; rfl
  have hv : m1.version = v := rfl
  have hk : m1.keepAlive = false := rfl
  have get : (req.method = .get ∨ req.method = .head) → _ := fun hm => by
    have hcb : serverCallback env req = (do
        let r ← orElseHandler (maybeServeTile env req) (orElseHandler (maybeServeGlyphs env req) (maybeServeFile env req))
        return r.getD ⟨404, [], false⟩) := by
      unfold serverCallback; rcases hm with h | h <;> simp [h]
    have hcm : serverCallbackM env req m0 = orNotFound (Handler.or (serveTileM env req) (Handler.or (serveGlyphsM env req) (serveFileM env req)) m1) := by
      unfold serverCallbackM; rcases hm with h | h <;> simp only [h] <;> rfl
    have fin : ∀ (ans : Res (Option Resp)) (t : Option Bytes) (out : Res Bool × Msg),
        orElseHandler (maybeServeTile env req) (orElseHandler (maybeServeGlyphs env req) (maybeServeFile env req)) = ans →
        Handler.or (serveTileM env req) (Handler.or (serveGlyphsM env req) (serveFileM env req)) m1 = out →
        (∃ m', Fresh m' ∧ m'.version = v ∧ m'.keepAlive = false ∧ HandlerSpec v m' ans t out) →
        (ans = .ub → ¬ fromFile env req) →
        (∀ ty, t = some ty → (∃ r, ans = .ok (some r)) → fromFile env req ∧ ∃ url, urlDecode req.target = .ok url ∧ typeOfName (fileName url) = some ty) →
        (fromFile env req → (∃ r, ans = .ok (some r)) ∧ ∃ url, urlDecode req.target = .ok url ∧ t = typeOfName (fileName url)) →
        (handleRequest env req = .ub ∧ respond env v req = .ub) ∨
        ∃ m r t, respond env v req = .ok (m.set .contentLength (toDec m.body.length)) ∧ handleRequest env req = .ok r ∧ Carries v m r t ∧
          (∀ ty, t = some ty → fromFile env req ∧ ∃ url, urlDecode req.target = .ok url ∧ typeOfName (fileName url) = some ty) ∧
          (fromFile env req → ∃ url, urlDecode req.target = .ok url ∧ t = typeOfName (fileName url)) := by
      intro ans t out ha ho ⟨m', hf', hv', hk', hs⟩ hub h1 h2
      have hr0 : respond env v req = finishMsg (orNotFound out) := by
        rw [← ho, ← hcm]; rfl
      have hh0 : handleRequest env req = match (do let r ← ans; return r.getD ⟨404, [], false⟩ : Res Resp) with
        | .throw_ => .ok ⟨500, [], false⟩
        | r => r := by
        subst ha; rw [← hcb]; rfl
      cases ans with
      | ub =>
        left
        simp only [HandlerSpec] at hs
        rw [hr0, hh0, hs]; exact ⟨rfl, rfl⟩
      | throw_ =>
        right
        simp only [HandlerSpec] at hs
        refine ⟨m'.result 500, ⟨500, [], false⟩, none, ?_, by rw [hh0]; rfl, carries_fresh hv' hk' hf' 500, ?_, ?_⟩
        · rw [hr0, hs]; rfl
        · intro ty h; cases h
        · intro h; obtain ⟨⟨r, hr⟩, _⟩ := h2 h; cases hr
      | ok o =>
        right
        obtain ⟨out1, out2⟩ := out
        cases o with
        | none =>
          obtain ⟨e, hf, hv2, hk2⟩ := hs
          simp only at e hf hv2 hk2
          refine ⟨out2.result 404, ⟨404, [], false⟩, none, ?_, by rw [hh0]; rfl, carries_fresh hv2 hk2 hf 404, ?_, ?_⟩
          · rw [hr0, e]; rfl
          · intro ty h; cases h
          · intro h; obtain ⟨⟨r, hr⟩, _⟩ := h2 h; cases hr
        | some r =>
          obtain ⟨e, hc⟩ := hs
          simp only at e hc
          refine ⟨out2, r, t, ?_, by rw [hh0]; rfl, hc, fun ty ht => h1 ty ht ⟨r, rfl⟩, fun h => (h2 h).2⟩
          rw [hr0, e]; rfl
    have s1 := serveTileM_spec env req hv hk hfresh
    cases ht : maybeServeTile env req with
    | ub =>
      rw [ht] at s1; simp only [HandlerSpec] at s1
      refine fin .ub none _ (by rw [ht]; rfl) rfl ⟨m1, hfresh, hv, hk, ?_⟩ (fun _ h => by have := h.2.1; rw [ht] at this; cases this) (by intro ty h; cases h) (fun h => by have := h.2.1; rw [ht] at this; cases this)
      simp only [HandlerSpec, Handler.or, s1]
    | throw_ =>
      rw [ht] at s1; simp only [HandlerSpec] at s1
      refine fin .throw_ none _ (by rw [ht]; rfl) rfl ⟨m1, hfresh, hv, hk, ?_⟩ (fun h => by cases h) (by intro ty h; cases h) (fun h => by have := h.2.1; rw [ht] at this; cases this)
      simp only [HandlerSpec, Handler.or, s1]
    | ok o =>
      rw [ht] at s1
      obtain ⟨a1, a2, ha⟩ : ∃ a1 a2, serveTileM env req m1 = (a1, a2) := ⟨_, _, rfl⟩
      rw [ha] at s1
      cases o with
      | some r =>
        obtain ⟨e, hc⟩ := s1; simp only at e hc; subst e
        refine fin (.ok (some r)) none (.ok true, a2) (by rw [ht]; rfl) (by simp only [Handler.or, ha]) ⟨m1, hfresh, hv, hk, rfl, hc⟩ (fun h => by cases h) (by intro ty h; cases h) (fun h => by have := h.2.1; rw [ht] at this; cases this)
      | none =>
        obtain ⟨e, hf2, hv2, hk2⟩ := s1; simp only at e hf2 hv2 hk2; subst e
        have hor1 : ∀ b, Handler.or (serveTileM env req) b m1 = b a2 := fun b => by simp only [Handler.or, ha]
        have hoe1 : ∀ b, orElseHandler (maybeServeTile env req) b = b := fun b => by rw [ht]; rfl
        have s2 := serveGlyphsM_spec env req hv2 hk2 hf2
        cases hg : maybeServeGlyphs env req with
        | ub =>
          rw [hg] at s2; simp only [HandlerSpec] at s2
          refine fin .ub none (.ub, a2) (by rw [hoe1, hg]; rfl) (by rw [hor1]; simp only [Handler.or, s2]) ⟨a2, hf2, hv2, hk2, rfl⟩ (fun _ h => by have := h.2.2.1; rw [hg] at this; cases this) (by intro ty h; cases h) (fun h => by have := h.2.2.1; rw [hg] at this; cases this)
        | throw_ =>
          rw [hg] at s2; simp only [HandlerSpec] at s2
          refine fin .throw_ none (.throw_, a2) (by rw [hoe1, hg]; rfl) (by rw [hor1]; simp only [Handler.or, s2]) ⟨a2, hf2, hv2, hk2, rfl⟩ (fun h => by cases h) (by intro ty h; cases h) (fun h => by have := h.2.2.1; rw [hg] at this; cases this)
        | ok o =>
          rw [hg] at s2
          obtain ⟨b1, b2, hb⟩ : ∃ b1 b2, serveGlyphsM env req a2 = (b1, b2) := ⟨_, _, rfl⟩
          rw [hb] at s2
          cases o with
          | some r =>
            obtain ⟨e, hc⟩ := s2; simp only at e hc; subst e
            refine fin (.ok (some r)) none (.ok true, b2) (by rw [hoe1, hg]; rfl) (by rw [hor1]; simp only [Handler.or, hb]) ⟨a2, hf2, hv2, hk2, rfl, hc⟩ (fun h => by cases h) (by intro ty h; cases h) (fun h => by have := h.2.2.1; rw [hg] at this; cases this)
          | none =>
            obtain ⟨e, hf3, hv3, hk3⟩ := s2; simp only at e hf3 hv3 hk3; subst e
            have s3 := serveFileM_spec env req hv3 hk3 hf3
            refine fin (maybeServeFile env req) (fileType env req) (serveFileM env req b2) (by rw [hoe1, hg]; rfl)
              (by rw [hor1]; simp only [Handler.or, hb]) ⟨b2, hf3, hv3, hk3, s3⟩ ?_ ?_ ?_
            · intro hub h
              obtain ⟨_, _, _, r, hr, _⟩ := h
              rw [hub] at hr; cases hr
            · intro ty hty hex
              simp only [fileType] at hty
              split at hty
              · rename_i url r hurl hr
                split at hty
                · rename_i h200
                  exact ⟨⟨hm, ht, hg, r, hr, h200⟩, url, hurl, hty⟩
                · cases hty
              · cases hty
            · rintro ⟨_, _, _, r, hr, h200⟩
              refine ⟨⟨r, hr⟩, ?_⟩
              cases hurl : urlDecode req.target with
              | ok url => exact ⟨url, rfl, by simp only [fileType, hurl, hr, if_pos h200]⟩
              | throw_ => simp [maybeServeFile, hurl] at hr
              | ub => simp [maybeServeFile, hurl] at hr
  cases hm : req.method with
  | get => exact get (Or.inl hm)
  | head => exact get (Or.inr hm)
  | options =>
    right
    refine ⟨m1.result 204, ⟨204, [], false⟩, none, ?_, (C45_methods env req).1 hm, carries_fresh hv hk hfresh 204, ?_, ?_⟩
    · simp only [respond, serverCallbackM, hm]; rfl
    · intro ty h; cases h
    · rintro ⟨h | h, _⟩ <;> rw [hm] at h <;> cases h
  | other =>
    right
    refine ⟨m1.result 405, ⟨405, [], false⟩, none, ?_, (C45_methods env req).2 hm, carries_fresh hv hk hfresh 405, ?_, ?_⟩
    · simp only [respond, serverCallbackM, hm]; rfl
    · intro ty h; cases h
    · rintro ⟨h | h, _⟩ <;> rw [hm] at h <;> cases h

/-! ### the property -/

/-- The response object has the status and the body of the answer (C45), also when an exception left a handler half way. -/
theorem C60_same (env : ServerEnv) (v : Nat) (req : Req) :
    (∀ m, respond env v req = .ok m →
      handleRequest env req = .ok ⟨m.status, m.body, decide (values m .contentEncoding = ["deflate".toUTF8.toList])⟩) ∧
    (respond env v req = .ub ↔ handleRequest env req = .ub) ∧ respond env v req ≠ .throw_ := by
  rcases respond_spec env v req with ⟨h1, h2⟩ | ⟨m, r, t, h1, h2, hc, _, _⟩
  · rw [h1, h2]; exact ⟨fun m h => (by cases h), by simp, by simp⟩
  · rw [h1, h2]
    refine ⟨fun m' h => ?_, by simp, by simp⟩
    injection h with h; subst h
    have he : values (m.set .contentLength (toDec m.body.length)) .contentEncoding = if r.deflate then ["deflate".toUTF8.toList] else [] := by
      rw [values_set_ne _ (by decide)]; exact hc.enc
    rw [he]
    have e1 : (m.set .contentLength (toDec m.body.length)).status = r.status := hc.status
    have e2 : (m.set .contentLength (toDec m.body.length)).body = r.body := hc.body
    rw [e1, e2]
    obtain ⟨s, b, d⟩ := r
    cases d <;> simp

/-- Every answer, errors included: allows all origins, has exactly one length field, with the length of the body in decimal digits,
the version of the request, and announces that the connection will be closed. -/
theorem C60_fields (env : ServerEnv) (v : Nat) (req : Req) (m : Msg) (h : respond env v req = .ok m) :
    values m .allowOrigin = ["*".toUTF8.toList] ∧
    values m .allowHeaders = ["X-Requested-With, Content-Type, Accept, Authorization".toUTF8.toList] ∧
    values m .allowMethods = ["GET, POST, PUT, DELETE, OPTIONS, HEAD".toUTF8.toList] ∧
    (∃ d, values m .contentLength = [d] ∧ Digits d ∧ decVal d = m.body.length) ∧
    m.version = v ∧ m.keepAlive = false := by
  rcases respond_spec env v req with ⟨_, h2⟩ | ⟨m', r, t, h1, h2, hc, _, _⟩
  · rw [h2] at h; cases h
  · rw [h1] at h; injection h with h; subst h
    refine ⟨?_, ?_, ?_, ⟨toDec m'.body.length, values_set_self _ _ _, toDec_spec _⟩, hc.version, hc.keep⟩
    · rw [values_set_ne _ (by decide)]; exact hc.origin
    · rw [values_set_ne _ (by decide)]; exact hc.headers
    · rw [values_set_ne _ (by decide)]; exact hc.methods

theorem handleRequest_shape (env : ServerEnv) (req : Req) (r : Resp) (h : handleRequest env req = .ok r) :
    (r.status ≠ 200 → r.body = [] ∧ r.deflate = false) ∧ (r.deflate = true → AcceptsDeflate req ∧ maybeServeTile env req = .ok (some r)) := by
  have P : ∀ r', maybeServeTile env req = .ok (some r') →
      (r'.status ≠ 200 → r'.body = [] ∧ r'.deflate = false) ∧ (r'.deflate = true → AcceptsDeflate req) := by
    intro r' hr
    unfold maybeServeTile at hr
    obtain ⟨u, _, hr⟩ := Res.bind_eq_ok.1 hr
    obtain ⟨m, _, hr⟩ := Res.bind_eq_ok.1 hr
    cases m with
    | none => cases hr
    | some t =>
      dsimp only at hr
      split at hr
      · cases hr; exact ⟨fun _ => ⟨rfl, rfl⟩, fun h => by cases h⟩
      · rename_i hd
        have hacc : AcceptsDeflate req := (containsSub_iff _ _).1 (show containsSub kDeflate _ = true by simpa using hd)
        obtain ⟨x, _, hr⟩ := Res.bind_eq_ok.1 hr
        cases x <;> cases hr
        · exact ⟨fun _ => ⟨rfl, rfl⟩, fun h => by cases h⟩
        · exact ⟨fun h => absurd rfl h, fun _ => hacc⟩
  have Q : ∀ r', maybeServeGlyphs env req = .ok (some r') → (r'.status ≠ 200 → r'.body = []) ∧ r'.deflate = false := by
    intro r' hr
    unfold maybeServeGlyphs at hr
    obtain ⟨u, _, hr⟩ := Res.bind_eq_ok.1 hr
    split at hr
    · cases hr
    · split at hr <;> cases hr
      · exact ⟨fun h => absurd rfl h, rfl⟩
      · exact ⟨fun _ => rfl, rfl⟩
  have S : ∀ n r', serveResource env n = .ok (some r') → (r'.status ≠ 200 → r'.body = []) ∧ r'.deflate = false := by
    intro n r' hr
    unfold serveResource at hr
    split at hr <;> cases hr
    · exact ⟨fun h => absurd rfl h, rfl⟩
    · exact ⟨fun _ => rfl, rfl⟩
  have F : ∀ r', maybeServeFile env req = .ok (some r') → (r'.status ≠ 200 → r'.body = []) ∧ r'.deflate = false := by
    intro r' hr
    unfold maybeServeFile at hr
    obtain ⟨u, _, hr⟩ := Res.bind_eq_ok.1 hr
    dsimp only at hr
    split at hr
    · cases hr
    · split at hr
      · split at hr
        · cases hr; exact ⟨fun h => absurd rfl h, rfl⟩
        · cases hr
        · exact S _ _ hr
      · exact S _ _ hr
  have G : (req.method = .get ∨ req.method = .head) → (r.status ≠ 200 → r.body = [] ∧ r.deflate = false) ∧
      (r.deflate = true → AcceptsDeflate req ∧ maybeServeTile env req = .ok (some r)) := by
    intro hm
    have hcb : serverCallback env req = (do
        let r ← orElseHandler (maybeServeTile env req) (orElseHandler (maybeServeGlyphs env req) (maybeServeFile env req))
        return r.getD ⟨404, [], false⟩) := by
      unfold serverCallback; rcases hm with h | h <;> simp [h]
    unfold handleRequest at h
    rw [hcb] at h
    cases ht : maybeServeTile env req with
    | throw_ => rw [ht] at h; cases h; exact ⟨fun _ => ⟨rfl, rfl⟩, fun h => by cases h⟩
    | ub => rw [ht] at h; cases h
    | ok o =>
      rw [ht] at h
      cases o with
      | some x =>
        cases h
        obtain ⟨a, b⟩ := P _ ht
        exact ⟨a, fun hd => ⟨b hd, rfl⟩⟩
      | none =>
        have h : (match (do
            let r ← orElseHandler (maybeServeGlyphs env req) (maybeServeFile env req)
            return r.getD ⟨404, [], false⟩ : Res Resp) with
          | .throw_ => .ok ⟨500, [], false⟩
          | r => r : Res Resp) = .ok r := h
        cases hg : maybeServeGlyphs env req with
        | throw_ => rw [hg] at h; cases h; exact ⟨fun _ => ⟨rfl, rfl⟩, fun h => by cases h⟩
        | ub => rw [hg] at h; cases h
        | ok o =>
          rw [hg] at h
          cases o with
          | some x =>
            cases h
            obtain ⟨a, b⟩ := Q _ hg
            exact ⟨fun hs => ⟨a hs, b⟩, fun hd => absurd (b.symm.trans hd) (by simp)⟩
          | none =>
            have h : (match (do
                let r ← maybeServeFile env req
                return r.getD ⟨404, [], false⟩ : Res Resp) with
              | .throw_ => .ok ⟨500, [], false⟩
              | r => r : Res Resp) = .ok r := h
            cases hf : maybeServeFile env req with
            | throw_ => rw [hf] at h; cases h; exact ⟨fun _ => ⟨rfl, rfl⟩, fun h => by cases h⟩
            | ub => rw [hf] at h; cases h
            | ok o =>
              rw [hf] at h
              cases o with
              | some x =>
                cases h
                obtain ⟨a, b⟩ := F _ hf
                exact ⟨fun hs => ⟨a hs, b⟩, fun hd => absurd (b.symm.trans hd) (by simp)⟩
              | none => cases h; exact ⟨fun _ => ⟨rfl, rfl⟩, fun h => by cases h⟩
  cases hm : req.method with
  | get => exact G (Or.inl hm)
  | head => exact G (Or.inr hm)
  | options => rw [(C45_methods env req).1 hm] at h; cases h; exact ⟨fun _ => ⟨rfl, rfl⟩, fun h => by cases h⟩
  | other => rw [(C45_methods env req).2 hm] at h; cases h; exact ⟨fun _ => ⟨rfl, rfl⟩, fun h => by cases h⟩

/-- An answer that is not a success has an empty body and no encoding; the encoding `deflate` is only ever sent, once, to clients
that accept it. -/
theorem C60_encoding (env : ServerEnv) (v : Nat) (req : Req) (m : Msg) (h : respond env v req = .ok m) :
    (m.status ≠ 200 → m.body = [] ∧ values m .contentEncoding = []) ∧
    (values m .contentEncoding = [] ∨ (values m .contentEncoding = ["deflate".toUTF8.toList] ∧ AcceptsDeflate req)) := by
  rcases respond_spec env v req with ⟨_, h2⟩ | ⟨m', r, t, h1, h2, hc, _, _⟩
  · rw [h2] at h; cases h
  · rw [h1] at h; injection h with h; subst h
    have hs := handleRequest_shape env req r h2
    have he : values (m'.set .contentLength (toDec m'.body.length)) .contentEncoding = if r.deflate then ["deflate".toUTF8.toList] else [] := by
      rw [values_set_ne _ (by decide)]; exact hc.enc
    rw [he]
    constructor
    · intro hne
      have := hs.1 (by rw [← hc.status]; exact hne)
      exact ⟨hc.body.trans this.1, by rw [this.2]; rfl⟩
    · cases hd : r.deflate with
      | false => left; rfl
      | true => right; exact ⟨rfl, (hs.2 hd).1⟩

/-- Static files: a GET of a path that is neither a tile nor a glyph path and is answered 200 has the type its name asks for
(HTML, CSS, JavaScript; otherwise none). -/
theorem C60_file_type (env : ServerEnv) (v : Nat) (req : Req) (hm : req.method = .get ∨ req.method = .head) (name : Bytes)
    (hn : name ≠ []) (hnl : ∀ c ∈ name, c ≠ 10 ∧ c ≠ 13)
    (he : PctEncodes (slash :: name) req.target) (hmvt : ¬ dotMvt <:+ slash :: name)
    (hgl : ¬ [103, 108, 121, 112, 104, 115, 47] <+: name) (m : Msg) (h : respond env v req = .ok m) :
    values m .contentType = if m.status = 200 then (typeOfName name).toList else [] := by
  have hd := C36_decode_encoded _ _ he
  have hp := (C35_not_mvt env.rules (slash :: name)).2 hmvt
  have hml : matchRest [kSlash] (slash :: name) = some name := by
    simp only [matchRest, slash, kSlash, List.isPrefixOf, BEq.rfl, Bool.true_and, if_true, List.length_cons, List.length_nil, Nat.zero_add,
      List.drop_succ_cons, List.drop_zero]
    rw [if_pos]
    refine ⟨hn, ?_⟩
    rw [List.all_eq_true]; intro c hc; simpa using hnl c hc
  have hmg : matchRest kGlyphs (slash :: name) = none := by
    unfold matchRest
    rw [if_neg]
    rw [List.isPrefixOf_iff_prefix]
    rintro ⟨r, hr⟩
    apply hgl
    exact ⟨r, by
      have : (47 : UInt8) :: ([103, 108, 121, 112, 104, 115, 47] ++ r) = slash :: name := hr
      exact (List.cons.inj this).2⟩
  have hfn : fileName (slash :: name) = name := by simp [fileName, hml]
  rcases respond_spec env v req with ⟨_, h2⟩ | ⟨m', r, t, h1, h2, hc, hty, hff⟩
  · rw [h2] at h; cases h
  · rw [h1] at h; injection h with h; subst h
    have hv : values (m'.set .contentLength (toDec m'.body.length)) .contentType = t.toList := by
      rw [values_set_ne _ (by decide)]; exact hc.typ
    rw [hv]
    have hst : (m'.set .contentLength (toDec m'.body.length)).status = r.status := hc.status
    rw [hst]
    have htile : maybeServeTile env req = .ok none := by simp [maybeServeTile, hd, hp]
    have hglyph : maybeServeGlyphs env req = .ok none := by simp [maybeServeGlyphs, hd, hmg]
    have hcb : serverCallback env req = (do let r ← maybeServeFile env req; return r.getD ⟨404, [], false⟩) := by
      unfold serverCallback; rcases hm with h | h <;> simp [h, htile, hglyph, orElseHandler] <;>
        (cases maybeServeFile env req with | ok o => cases o <;> rfl | throw_ => rfl | ub => rfl)
    split
    · rename_i h200
      have hfile : maybeServeFile env req = .ok (some r) := by
        unfold handleRequest at h2
        rw [hcb] at h2
        cases hf : maybeServeFile env req with
        | throw_ => rw [hf] at h2; cases h2; cases h200
        | ub => rw [hf] at h2; cases h2
        | ok o =>
          rw [hf] at h2
          cases o with
          | none => cases h2; cases h200
          | some x => cases h2; rfl
      obtain ⟨url, hurl, ht⟩ := hff ⟨hm, htile, hglyph, r, hfile, h200⟩
      rw [hd] at hurl; injection hurl with hurl; subst hurl
      rw [ht, hfn]
    · rename_i h200
      cases ht : t with
      | none => rfl
      | some ty =>
        obtain ⟨⟨_, _, _, r', hf, hr'⟩, _⟩ := hty ty ht
        exfalso
        apply h200
        unfold handleRequest at h2
        rw [hcb, hf] at h2
        cases h2; exact hr'

/-- Finding: HEAD is answered exactly like GET, body included (HTTP asks for none), and answers with status 204 carry a length. -/
theorem C60_head (env : ServerEnv) (v : Nat) (target enc : Bytes) :
    respond env v ⟨.head, target, enc⟩ = respond env v ⟨.get, target, enc⟩ := rfl

/-! ### concrete answers -/

/-- a server with one file, x.css, on disk -/
def C60_env : ServerEnv :=
  { C45_env with resDir := [100], fs := fun p => if p = [100, 47, 120, 46, 99, 115, 115] then .file [1, 2, 3, 4, 5, 6, 7, 8, 9, 10, 11, 12] else .missing }

example : respond C60_env 11 ⟨.get, [47, 120, 46, 99, 115, 115], []⟩ = .ok ⟨11, false, 200,
    [(.allowOrigin, kStar), (.allowHeaders, kAllowHeaders), (.allowMethods, kAllowMethods), (.contentType, "text/css".toUTF8.toList),
      (.contentLength, "12".toUTF8.toList)], [1, 2, 3, 4, 5, 6, 7, 8, 9, 10, 11, 12]⟩ := by decide +kernel

/-- a malformed target: 500, empty, with the fields that allow all origins -/
example : respond C60_env 10 ⟨.get, [47, 37, 52], []⟩ = .ok ⟨10, false, 500,
    [(.allowOrigin, kStar), (.allowHeaders, kAllowHeaders), (.allowMethods, kAllowMethods), (.contentLength, "0".toUTF8.toList)], []⟩ := by
  decide +kernel

end Tiles
