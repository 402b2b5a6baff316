import Verif.Props.C45
/-
C47 — static files: which file is served, and when it stays inside the resource directory.
-/
namespace Tiles
open Spec

/-- the components of a path -/
def pathParts : Bytes → List Bytes
  | [] => [[]]
  | c :: s => if c = slash then [] :: pathParts s else match pathParts s with
    | [] => [[c]]
    | p :: ps => (c :: p) :: ps

/-- Following the components below a directory stays inside it: ".." never leads above the start. -/
def Confined : Nat → List Bytes → Prop
  | _, [] => True
  | d, p :: ps => if p = [46, 46] then ∃ d', d = d' + 1 ∧ Confined d' ps else if p = [] ∨ p = [46] then Confined d ps else Confined (d + 1) ps

/-- A GET of a path that is neither a tile nor a glyph path answers with the file at that path, taken relative
to the resource directory, when it is there; otherwise with the compiled-in resource; otherwise 404. -/
theorem C47_file_served (env : ServerEnv) (req : Req) (hm : req.method = .get ∨ req.method = .head) (name : Bytes)
    (hn : name ≠ []) (hrel : name.head? ≠ some slash) (hnl : ∀ c ∈ name, c ≠ 10 ∧ c ≠ 13)
    (he : PctEncodes (slash :: name) req.target) (hmvt : ¬ dotMvt <:+ slash :: name)
    (hgl : ¬ [103, 108, 121, 112, 104, 115, 47] <+: name) (hdir : env.resDir ≠ []) (hdl : env.resDir.getLast? ≠ some slash) :
    (∀ b, env.fs (env.resDir ++ [slash] ++ name) = .file b → handleRequest env req = .ok ⟨200, b, false⟩) ∧
    (env.fs (env.resDir ++ [slash] ++ name) = .missing →
      handleRequest env req = .ok (match env.resources name with | some b => ⟨200, b, false⟩ | none => ⟨404, [], false⟩)) := by
  have hd := C36_decode_encoded _ _ he
  have hp := (C35_not_mvt env.rules (slash :: name)).2 hmvt
  have hml : matchRest [kSlash] (slash :: name) = some name := by
    simp only [matchRest, slash, kSlash, List.isPrefixOf, BEq.rfl, Bool.true_and, if_true, List.length_cons, List.length_nil, Nat.zero_add,
      List.drop_succ_cons, List.drop_zero]
    rw [if_pos]
    refine ⟨hn, ?_⟩
    rw [List.all_eq_true]; intro c hc; simpa using hnl c hc
  have hmg : matchRest kGlyphs (slash :: name) = none := by
    unfold matchRest
    rw [if_neg]
    rw [List.isPrefixOf_iff_prefix]
    rintro ⟨r, hr⟩
    apply hgl
    exact ⟨r, by
      have : (47 : UInt8) :: ([103, 108, 121, 112, 104, 115, 47] ++ r) = slash :: name := hr
      exact (List.cons.inj this).2⟩
  have hj : pathJoin env.resDir name = env.resDir ++ [slash] ++ name := by
    unfold pathJoin
    rw [if_neg (show ¬ name.head? = some kSlash from hrel), if_neg (by rintro (h | h); exacts [hdir h, hdl h])]; rfl
  unfold handleRequest serverCallback
  constructor
  · intro b hb
    rcases hm with h | h <;>
    · simp only [h, orElseHandler, maybeServeTile, hd, Res.ok_bind, hp, Res.pure_eq, maybeServeGlyphs, hmg, maybeServeFile, hml,
        reduceCtorEq, false_and, if_false, Option.getD_some, ne_eq, hdir, not_false_eq_true, if_true, hj, hb]
  · intro hb
    rcases hm with h | h <;>
    · simp only [h, orElseHandler, maybeServeTile, hd, Res.ok_bind, hp, Res.pure_eq, maybeServeGlyphs, hmg, maybeServeFile, hml,
        reduceCtorEq, false_and, if_false, Option.getD_some, ne_eq, hdir, not_false_eq_true, if_true, hj, hb, serveResource]
      cases env.resources name <;> rfl

/-- GET / is answered with `index.html` of the resource directory, or the compiled-in one. -/
theorem C47_root (env : ServerEnv) (req : Req) (hm : req.method = .get ∨ req.method = .head) (ht : req.target = [slash]) :
    (env.resDir ≠ [] → env.resDir.getLast? ≠ some slash → ∀ b, env.fs (env.resDir ++ [slash] ++ "index.html".toUTF8.toList) = .file b →
      handleRequest env req = .ok ⟨200, b, false⟩) ∧
    (env.resDir = [] ∨ (env.resDir.getLast? ≠ some slash ∧ env.fs (env.resDir ++ [slash] ++ "index.html".toUTF8.toList) = .missing) →
      handleRequest env req = .ok (match env.resources "index.html".toUTF8.toList with | some b => ⟨200, b, false⟩ | none => ⟨404, [], false⟩)) := by
  rw [show "index.html".toUTF8.toList = kIndexHtml by decide +kernel]
  have hd : urlDecode req.target = .ok [slash] := by rw [ht]; rfl
  have hp := (C35_not_mvt env.rules [slash]).2 (by decide)
  have hml : matchRest [kSlash] [slash] = none := rfl
  have hmg : matchRest kGlyphs [slash] = none := rfl
  have htn : (req.target = [kSlash]) = True := by rw [ht]; simp [slash, kSlash]
  have hj : env.resDir ≠ [] → env.resDir.getLast? ≠ some slash → pathJoin env.resDir kIndexHtml = env.resDir ++ [slash] ++ kIndexHtml := by
    intro hdir hdl
    unfold pathJoin
    rw [if_neg (by decide), if_neg (by rintro (h | h); exacts [hdir h, hdl h])]; rfl
  unfold handleRequest serverCallback
  constructor
  · intro hdir hdl b hb
    rcases hm with h | h <;>
    · simp only [h, orElseHandler, maybeServeTile, hd, Res.ok_bind, hp, Res.pure_eq, maybeServeGlyphs, hmg, maybeServeFile, hml, htn,
        not_true_eq_false, and_false, if_false, Option.getD_none, Option.getD_some, ne_eq, hdir, not_false_eq_true, if_true, hj hdir hdl, hb]
  · intro hcase
    by_cases hdir : env.resDir = []
    · rcases hm with h | h <;>
      · simp only [h, orElseHandler, maybeServeTile, hd, Res.ok_bind, hp, Res.pure_eq, maybeServeGlyphs, hmg, maybeServeFile, hml, htn,
          not_true_eq_false, and_false, if_false, Option.getD_none, ne_eq, hdir, serveResource]
        cases env.resources kIndexHtml <;> rfl
    · obtain ⟨hdl, hb⟩ := hcase.resolve_left hdir
      rcases hm with h | h <;>
      · simp only [h, orElseHandler, maybeServeTile, hd, Res.ok_bind, hp, Res.pure_eq, maybeServeGlyphs, hmg, maybeServeFile, hml, htn,
          not_true_eq_false, and_false, if_false, Option.getD_none, ne_eq, hdir, not_false_eq_true, if_true, hj hdir hdl, hb, serveResource]
        cases env.resources kIndexHtml <;> rfl

/-- GET of "/glyphs/name" is answered with that compiled-in glyph file, or 404; the file system is not asked. -/
theorem C47_glyphs (env : ServerEnv) (req : Req) (hm : req.method = .get ∨ req.method = .head) (name : Bytes) (hn : name ≠ [])
    (hnl : ∀ c ∈ name, c ≠ 10 ∧ c ≠ 13) (he : PctEncodes ("/glyphs/".toUTF8.toList ++ name) req.target)
    (hmvt : ¬ dotMvt <:+ "/glyphs/".toUTF8.toList ++ name) :
    handleRequest env req = .ok (match env.glyphs name with | some b => ⟨200, b, false⟩ | none => ⟨404, [], false⟩) := by
  rw [show "/glyphs/".toUTF8.toList = kGlyphs by decide +kernel] at he hmvt
  have hd := C36_decode_encoded _ _ he
  have hp := (C35_not_mvt env.rules (kGlyphs ++ name)).2 hmvt
  have hmg : matchRest kGlyphs (kGlyphs ++ name) = some name := by
    unfold matchRest
    rw [if_pos (by rw [List.isPrefixOf_iff_prefix]; exact List.prefix_append _ _)]
    rw [List.drop_left]
    dsimp only
    rw [if_pos]
    refine ⟨hn, ?_⟩
    rw [List.all_eq_true]; intro c hc; simpa using hnl c hc
  unfold handleRequest serverCallback
  rcases hm with h | h <;>
  · simp only [h, orElseHandler, maybeServeTile, hd, Res.ok_bind, hp, Res.pure_eq, maybeServeGlyphs, hmg]
    cases env.glyphs name <;> rfl

/-- Finding (path traversal): the file is not confined to the resource directory.  With any resource directory, GET of
"/../rest" is answered with the file reached by leaving the directory, whatever `rest` is. -/
theorem C47_finding_not_confined (env : ServerEnv) (req : Req) (hm : req.method = .get) (rest : Bytes)
    (hnl : ∀ c ∈ rest, c ≠ 10 ∧ c ≠ 13) (he : PctEncodes (slash :: ([46, 46, slash] ++ rest)) req.target)
    (hmvt : ¬ dotMvt <:+ slash :: ([46, 46, slash] ++ rest)) (hdir : env.resDir ≠ []) (hdl : env.resDir.getLast? ≠ some slash)
    (b : Bytes) (hf : env.fs (env.resDir ++ [slash] ++ ([46, 46, slash] ++ rest)) = .file b) :
    ¬ Confined 0 (pathParts ([46, 46, slash] ++ rest)) ∧ handleRequest env req = .ok ⟨200, b, false⟩ := by
  refine ⟨?_, ?_⟩
  · have : pathParts ([46, 46, slash] ++ rest) = [46, 46] :: pathParts rest := by
      show pathParts (46 :: 46 :: 47 :: rest) = _
      simp [pathParts, slash]
    rw [this]; simp [Confined]
  · refine (C47_file_served env req (Or.inl hm) ([46, 46, slash] ++ rest) (by simp) (by simp [slash]) ?_ he hmvt ?_ hdir hdl).1 b hf
    · intro c hc
      simp only [List.cons_append, List.nil_append, List.mem_cons] at hc
      rcases hc with rfl | rfl | rfl | hc
      · decide
      · decide
      · decide
      · exact hnl c hc
    · rintro ⟨r, hr⟩
      simp at hr

/-- a concrete case: resource directory "r", a file "s" next to it, GET /../s -/
example : handleRequest
    ⟨⟨false, false⟩, fun _ => .ok none, [114], fun p => if p = [114, 47, 46, 46, 47, 115] then .file [1, 2, 3] else .missing, fun _ => none, fun _ => none⟩
    ⟨.get, [47, 46, 46, 47, 115], []⟩ = .ok ⟨200, [1, 2, 3], false⟩ := by rfl

end Tiles
