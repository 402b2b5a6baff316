import Verif.Model.Import
import Verif.Props.C52
import Verif.Props.C55
/-! C54 — what `tiles-import` does with its list of tasks. -/
namespace Tiles
open Spec ImportStage

/-- a task is asked for: by its name or by `all` -/
def Spec.Asked (tasks : List String) (t : String) : Prop := "all" ∈ tasks ∨ t ∈ tasks

theorem hasAnyTask_iff (tasks query : List String) : hasAnyTask tasks query = true ↔ ∃ q ∈ "all" :: query, q ∈ tasks := by
  unfold hasAnyTask
  simp

theorem hasAnyTask_one (tasks : List String) (t : String) : hasAnyTask tasks [t] = true ↔ Asked tasks t := by
  rw [hasAnyTask_iff]; simp [Asked]

theorem hasAnyTask_two (tasks : List String) (t u : String) : hasAnyTask tasks [t, u] = true ↔ Asked tasks t ∨ Asked tasks u := by
  rw [hasAnyTask_iff]; simp only [Asked, List.mem_cons, List.not_mem_nil, or_false, exists_eq_or_imp, exists_eq_left]; tauto

theorem hasAnyTask_congr {a b : List String} (h : ∀ t ∈ ["coastlines", "features", "stats", "pack", "tiles"], Asked a t ↔ Asked b t) :
    hasAnyTask a ["coastlines"] = hasAnyTask b ["coastlines"] ∧ hasAnyTask a ["features"] = hasAnyTask b ["features"] ∧
    hasAnyTask a ["stats"] = hasAnyTask b ["stats"] ∧ hasAnyTask a ["pack"] = hasAnyTask b ["pack"] ∧ hasAnyTask a ["tiles"] = hasAnyTask b ["tiles"] ∧
    hasAnyTask a ["coastlines", "features"] = hasAnyTask b ["coastlines", "features"] := by
  have h1 := h "coastlines" (by simp)
  have h2 := h "features" (by simp)
  refine ⟨?_, ?_, ?_, ?_, ?_, ?_⟩
  · rw [Bool.eq_iff_iff, hasAnyTask_one, hasAnyTask_one]; exact h1
  · rw [Bool.eq_iff_iff, hasAnyTask_one, hasAnyTask_one]; exact h2
  · rw [Bool.eq_iff_iff, hasAnyTask_one, hasAnyTask_one]; exact h _ (by simp)
  · rw [Bool.eq_iff_iff, hasAnyTask_one, hasAnyTask_one]; exact h _ (by simp)
  · rw [Bool.eq_iff_iff, hasAnyTask_one, hasAnyTask_one]; exact h _ (by simp)
  · rw [Bool.eq_iff_iff, hasAnyTask_two, hasAnyTask_two, h1, h2]

section
variable {ι : Type}

theorem seq_ok {s t : ImportStage ι} {a c : TileDb ι} : seq s t a true c ↔ ∃ b, s a true b ∧ t b true c := by
  unfold seq; simp

theorem guard_ok {g : Bool} {s : ImportStage ι} {a b : TileDb ι} {ok : Bool} : guard g s a ok b ↔ (g = true ∧ s a ok b) ∨ (g = false ∧ ok = true ∧ b = a) := by
  unfold ImportStage.guard skip
  cases g <;> simp

/-- Only the set of the known tasks that are asked for matters: not their order, not repetitions, not unknown names; and `all` is the same as
asking for the five. -/
theorem C54_tasks (p : ImportParts ι) (a b : List String) (h : ∀ t ∈ ["coastlines", "features", "stats", "pack", "tiles"], Asked a t ↔ Asked b t) :
    runImport p a = runImport p b := by
  obtain ⟨h1, h2, h3, h4, h5, h6⟩ := hasAnyTask_congr h
  funext x ok y
  simp only [runImport, h1, h2, h3, h4, h5, h6]

/-- An import that loads coastlines or features starts from nothing: whatever the database held before, and however the last import ended, its
possible results are the same. -/
theorem C54_fresh (p : ImportParts ι) (tasks : List String) (h : Asked tasks "coastlines" ∨ Asked tasks "features") (a a' b : TileDb ι) :
    runImport p tasks a true b ↔ runImport p tasks a' true b := by
  have key : ∀ a a', runImport p tasks a true b → runImport p tasks a' true b := by
    intro a a' h1
    rw [runImport, seq_ok] at h1 ⊢
    obtain ⟨d, d1, d2⟩ := h1
    rw [seq_ok] at d2
    obtain ⟨e, e1, e2⟩ := d2
    rw [guard_ok] at d1 e1
    have hg := (hasAnyTask_two tasks "coastlines" "features").2 h
    rw [hg] at e1
    obtain ⟨_, e1⟩ := e1.resolve_right (by simp)
    refine ⟨a', ?_, ?_⟩
    · rw [guard_ok]
      rcases d1 with ⟨d1, d3, _⟩ | ⟨d1, d3, _⟩
      · exact .inl ⟨d1, d3, rfl⟩
      · exact .inr ⟨d1, d3, rfl⟩
    · rw [seq_ok]
      refine ⟨e, ?_, e2⟩
      rw [guard_ok, hg]
      rcases e1 with ⟨e1, _⟩ | e1
      · cases e1
      · exact .inl ⟨rfl, .inr e1⟩
  exact ⟨key _ _, key _ _⟩

/-- A profile that cannot be loaded is noticed before anything is cleared: the exit code is 1 and the files are as they were. -/
theorem C54_bad_profile (p : ImportParts ι) (tasks : List String) (h : Asked tasks "features") (hbad : p.profileGood = false) (a b : TileDb ι) (ok : Bool)
    (hr : runImport p tasks a ok b) : importExit ok = 1 ∧ b = a := by
  rw [runImport, (hasAnyTask_one tasks "features").2 h] at hr
  rcases hr with ⟨rfl, hr⟩ | ⟨c, hr, _⟩
  · exact ⟨rfl, hr.2⟩
  · have := hr.1
    rw [hbad] at this
    cases this

/-- The exit code is 0 only if everything that was asked for has been done to its end. -/
theorem C54_exit (p : ImportParts ι) (tasks : List String) (a b : TileDb ι) (ok : Bool) (hr : runImport p tasks a ok b) (h0 : importExit ok = 0) :
    (Asked tasks "features" → p.profileGood = true) ∧
    (Asked tasks "coastlines" ∨ Asked tasks "features" → ∃ x y, p.load (hasAnyTask tasks ["coastlines"]) (hasAnyTask tasks ["features"]) x true y) ∧
    (Asked tasks "stats" → ∃ x y, p.stats x true y) ∧ (Asked tasks "pack" → ∃ x y, p.pack x true y) ∧ (Asked tasks "tiles" → ∃ x y, p.tiles x true y) := by
  have hok : ok = true := by
    cases ok with
    | true => rfl
    | false => exact absurd h0 (by decide)
  subst hok
  rw [runImport, seq_ok] at hr
  obtain ⟨c1, h1, hr⟩ := hr
  rw [seq_ok] at hr
  obtain ⟨c2, h2, hr⟩ := hr
  rw [seq_ok] at hr
  obtain ⟨c3, h3, c4, hr, _⟩ := hr
  rw [seq_ok] at hr
  obtain ⟨c5, h5, hr⟩ := hr
  rw [seq_ok] at hr
  obtain ⟨c6, h6, hr⟩ := hr
  rw [seq_ok] at hr
  obtain ⟨c7, h7, h8⟩ := hr
  rw [guard_ok] at h1 h5 h6 h7 h8
  have hc := hasAnyTask_one tasks "coastlines"
  have hf := hasAnyTask_one tasks "features"
  refine ⟨fun h => ?_, fun h => ?_, fun h => ?_, fun h => ?_, fun h => ?_⟩
  · rw [hf.2 h] at h1
    exact (h1.resolve_right (by simp)).2.1.symm
  · have hg : (hasAnyTask tasks ["coastlines"] || hasAnyTask tasks ["features"]) = true := by
      rw [Bool.or_eq_true, hc, hf]; exact h
    exact ⟨_, _, (h5.resolve_right (by rw [hg]; simp)).2⟩
  · exact ⟨_, _, (h6.resolve_right (by rw [(hasAnyTask_one _ _).2 h]; simp)).2⟩
  · exact ⟨_, _, (h7.resolve_right (by rw [(hasAnyTask_one _ _).2 h]; simp)).2⟩
  · exact ⟨_, _, (h8.resolve_right (by rw [(hasAnyTask_one _ _).2 h]; simp)).2⟩

/-- An import that loads never mixes old and new: when it is interrupted, the files are as they were, or the tables are empty (with the old pack file, which nothing refers to
any more, or with none), or it was loading into — or past loading into — an empty database. -/
theorem C54_interrupted (p : ImportParts ι) (tasks : List String) (h : Asked tasks "coastlines" ∨ Asked tasks "features") (a b : TileDb ι) (hr : runImport p tasks a false b) :
    b = a ∨ (b.features = (fun _ => none) ∧ b.tiles = (fun _ => none) ∧ b.maxPrepared = none ∧ b.info = p.noInfo ∧ (b.pf = a.pf ∨ b.pf = ⟨[], 0⟩)) ∨
    ∃ ok c, p.load (hasAnyTask tasks ["coastlines"]) (hasAnyTask tasks ["features"]) ⟨p.noInfo, none, fun _ => none, fun _ => none, ⟨[], 0⟩⟩ ok c := by
  have hg := (hasAnyTask_two tasks "coastlines" "features").2 h
  have hl : (hasAnyTask tasks ["coastlines"] || hasAnyTask tasks ["features"]) = true := by
    rw [Bool.or_eq_true, hasAnyTask_one, hasAnyTask_one]; exact h
  rw [runImport, hg, hl] at hr
  rcases hr with ⟨_, hr⟩ | ⟨c1, h1, hr⟩
  · rw [guard_ok] at hr
    rcases hr with ⟨_, _, hr⟩ | ⟨_, hr, _⟩
    · exact .inl hr
    · cases hr
  have e1 : c1 = a := by
    rw [guard_ok] at h1
    rcases h1 with ⟨_, _, h1⟩ | ⟨_, _, h1⟩ <;> exact h1
  subst e1
  rcases hr with ⟨_, hr⟩ | ⟨c2, h2, hr⟩
  · rcases hr with ⟨_, rfl | rfl⟩ | ⟨hr, _⟩
    · exact .inl rfl
    · exact .inr (.inl ⟨rfl, rfl, rfl, rfl, .inl rfl⟩)
    · cases hr
  rcases h2 with ⟨h2, _⟩ | ⟨_, rfl⟩
  · cases h2
  rcases hr with ⟨_, hr⟩ | ⟨c3, h3, hr⟩
  · rcases hr with ⟨_, rfl⟩ | ⟨hr, _⟩
    · exact .inr (.inl ⟨rfl, rfl, rfl, rfl, .inr rfl⟩)
    · cases hr
  rcases h3 with ⟨h3, _⟩ | ⟨_, rfl, _⟩
  · cases h3
  obtain ⟨c4, hr, _⟩ := hr
  rcases hr with ⟨_, hr⟩ | ⟨c5, h5, _⟩
  · exact .inr (.inr ⟨_, _, hr⟩)
  · exact .inr (.inr ⟨_, _, h5⟩)

/-- such runs exist: with a bad profile, and interrupted between clearing the tables and the pack file -/
example (a : TileDb Unit) : runImport (⟨false, (), fun _ _ => skip, skip, skip, skip⟩ : ImportParts Unit) ["features"] a false a ∧
    runImport (⟨true, (), fun _ _ => skip, skip, skip, skip⟩ : ImportParts Unit) ["coastlines", "pack"] a false
      { a with info := (), maxPrepared := none, features := fun _ => none, tiles := fun _ => none } :=
  ⟨.inl ⟨rfl, rfl, rfl⟩, .inr ⟨a, ⟨rfl, rfl⟩, .inl ⟨rfl, .inl ⟨rfl, .inr rfl⟩⟩⟩⟩

/-- several imports one after the other, all with exit code 0 -/
def Spec.Imports (p : ImportParts ι) : List (List String) → TileDb ι → TileDb ι → Prop
  | [], a, b => b = a
  | tasks :: runs, a, b => ∃ c, runImport p tasks a true c ∧ Imports p runs c b

/-- Finding: what earlier imports loaded is lost when a later one loads anything: importing `coastlines` and then `features` is not the same as
importing both at once, it is the same as importing the features only. -/
theorem C54_forgets (p : ImportParts ι) (runs rest : List (List String)) (tasks : List String) (h : Asked tasks "coastlines" ∨ Asked tasks "features")
    (a a' b : TileDb ι) (hr : Imports p (runs ++ tasks :: rest) a b) : Imports p (tasks :: rest) a' b := by
  induction runs generalizing a with
  | nil =>
    obtain ⟨c, h1, h2⟩ := hr
    exact ⟨c, (C54_fresh p tasks h a a' c).1 h1, h2⟩
  | cons r runs ih =>
    obtain ⟨c, _, h2⟩ := hr
    exact ih c h2

theorem seq_cases {s t : ImportStage ι} {a c : TileDb ι} {ok : Bool} (h : seq s t a ok c) : (ok = false ∧ s a false c) ∨ ∃ b, s a true b ∧ t b ok c := h

/-- An import without a loading task and without packing leaves the features alone, however it ends (normally, with an exception, or in a crash at
any point), if the statistics and the preparation do: the same table of features and the same meta information, and every record of the pack
file as readable as before. -/
theorem C54_kept (p : ImportParts ι) (tasks : List String) (h : ¬ Asked tasks "coastlines" ∧ ¬ Asked tasks "features" ∧ ¬ Asked tasks "pack")
    (hst : ∀ a ok b, p.stats a ok b → b = a) (hti : ∀ a ok b, p.tiles a ok b → b.features = a.features ∧ b.pf = a.pf ∧ b.info = a.info)
    (a b : TileDb ι) (ok : Bool) (hr : runImport p tasks a ok b) :
    b.features = a.features ∧ b.info = a.info ∧ Keeps a.pf.reopen b.pf.reopen := by
  have hre : ∀ f : PackFile, f.reopen.WF := fun f => PackFile.trimmedLength_le _
  have hid : ∀ f : PackFile, f.reopen.reopen = f.reopen := fun f => rfl
  have g1 : hasAnyTask tasks ["coastlines"] = false := by rw [← Bool.not_eq_true, hasAnyTask_one]; exact h.1
  have g2 : hasAnyTask tasks ["features"] = false := by rw [← Bool.not_eq_true, hasAnyTask_one]; exact h.2.1
  have g3 : hasAnyTask tasks ["coastlines", "features"] = false := by rw [← Bool.not_eq_true, hasAnyTask_two]; exact not_or.2 ⟨h.1, h.2.1⟩
  have g4 : hasAnyTask tasks ["pack"] = false := by rw [← Bool.not_eq_true, hasAnyTask_one]; exact h.2.2
  rw [runImport, g1, g2, g3, g4] at hr
  simp only [ImportStage.guard, Bool.false_eq_true, if_false, Bool.or_self] at hr
  have skipF : ∀ {x y : TileDb ι}, skip x false y → False := by rintro x y ⟨h, _⟩; cases h
  rcases hr with ⟨_, hr⟩ | ⟨a1, ⟨_, e1⟩, hr⟩
  · exact (skipF hr).elim
  rw [e1] at hr
  rcases hr with ⟨_, hr⟩ | ⟨a2, ⟨_, e2⟩, hr⟩
  · exact (skipF hr).elim
  rw [e2] at hr
  rcases hr with ⟨_, hr⟩ | ⟨a3, hop, hr⟩
  · rcases hr with ⟨_, rfl⟩ | ⟨hr, _⟩
    · exact ⟨rfl, rfl, keeps_refl (hre _)⟩
    · cases hr
  rcases hop with ⟨hop, _⟩ | ⟨_, e3, _⟩
  · cases hop
  obtain ⟨c, hc, hb⟩ := hr
  have hmid : c.features = a.features ∧ c.info = a.info ∧ c.pf = a.pf.reopen := by
    rw [e3] at hc
    rcases hc with ⟨_, hc⟩ | ⟨a4, ⟨_, e4⟩, hc⟩
    · exact (skipF hc).elim
    rw [e4] at hc
    rcases hc with ⟨_, hc⟩ | ⟨a5, hs, hc⟩
    · split at hc
      · rw [hst _ _ _ hc]; exact ⟨rfl, rfl, rfl⟩
      · exact (skipF hc).elim
    have h5 : a5 = { a with pf := a.pf.reopen } := by
      split at hs
      · exact hst _ _ _ hs
      · exact hs.2
    subst h5
    rcases hc with ⟨_, hc⟩ | ⟨a6, ⟨_, e6⟩, hc⟩
    · exact (skipF hc).elim
    rw [e6] at hc
    split at hc
    · obtain ⟨e1, e2, e3⟩ := hti _ _ _ hc
      exact ⟨e1, e3, e2⟩
    · rw [hc.2]; exact ⟨rfl, rfl, rfl⟩
  obtain ⟨m1, m2, m3⟩ := hmid
  rcases hb with ⟨_, rfl⟩ | rfl
  · refine ⟨m1, m2, ?_⟩
    rw [m3, hid]; exact keeps_refl (hre _)
  · refine ⟨m1, m2, hre _, fun r x hx => ?_⟩
    show c.pf.close.reopen.get r = _
    rw [m3]
    exact (PackFile.C07_close_reopen _ (hre _) _ _ hx).1

end

/-- Finding: a misspelt task is not reported: an import of unknown tasks only does nothing and exits with 0. -/
theorem C54_unknown {ι : Type} (p : ImportParts ι) (tasks : List String) (h : ∀ t ∈ ["coastlines", "features", "stats", "pack", "tiles"], ¬ Asked tasks t) (a : TileDb ι)
    (hs : a.pf.reopen.size < 2 ^ 64) : runImport p tasks a true { a with pf := a.pf.reopen.close } ∧ importExit true = 0 := by
  refine ⟨?_, rfl⟩
  have hno : ∀ t ∈ ["coastlines", "features", "stats", "pack", "tiles"], hasAnyTask tasks [t] = false := by
    intro t ht
    rw [← Bool.not_eq_true, hasAnyTask_one]; exact h t ht
  have g3 : hasAnyTask tasks ["coastlines", "features"] = false := by
    rw [← Bool.not_eq_true, hasAnyTask_two]; exact not_or.2 ⟨h _ (by simp), h _ (by simp)⟩
  rw [runImport, hno "coastlines" (by simp), hno "features" (by simp), hno "stats" (by simp), hno "pack" (by simp), hno "tiles" (by simp), g3]
  simp only [ImportStage.guard, Bool.false_eq_true, if_false, Bool.or_self]
  rw [seq_ok]
  refine ⟨a, ⟨rfl, rfl⟩, ?_⟩
  rw [seq_ok]
  refine ⟨a, ⟨rfl, rfl⟩, ?_⟩
  rw [seq_ok]
  refine ⟨_, .inr ⟨rfl, rfl, hs⟩, { a with pf := a.pf.reopen }, ?_, .inr rfl⟩
  rw [seq_ok]
  refine ⟨_, ⟨rfl, rfl⟩, ?_⟩
  rw [seq_ok]
  refine ⟨_, ⟨rfl, rfl⟩, ?_⟩
  rw [seq_ok]
  exact ⟨_, ⟨rfl, rfl⟩, rfl, rfl⟩

/-! ### the name of the pack file -/

theorem packFileName_mdb (n : Bytes) : packFileName (n ++ [46, 109, 100, 98]) = n ++ [46, 112, 99, 107] := by
  unfold packFileName
  simp

theorem packFileName_other (n : Bytes) (h : ¬ ∃ m, n = m ++ [46, 109, 100, 98]) : packFileName n = n ++ [46, 112, 99, 107] := by
  unfold packFileName
  split
  · rename_i hc
    refine absurd ⟨n.take (n.length - 4), ?_⟩ h
    rw [List.take_of_length_le (by simp; omega)] at hc
    rw [← hc.2, List.take_append_drop]
  · rfl

/-- The pack file never is the database file itself; its name ends in `.pck`. -/
theorem C54_pack_name (n : Bytes) : packFileName n ≠ n ∧ ∃ m, packFileName n = m ++ [46, 112, 99, 107] := by
  by_cases h : ∃ m, n = m ++ [46, 109, 100, 98]
  · obtain ⟨m, rfl⟩ := h
    rw [packFileName_mdb]
    exact ⟨fun h => by have := List.append_cancel_left h; revert this; decide, m, rfl⟩
  · rw [packFileName_other n h]
    refine ⟨fun h => ?_, n, rfl⟩
    have := congrArg List.length h
    simp at this

/-- Two databases share a pack file only if their names differ just by `.mdb`. -/
theorem C54_pack_name_shared (a b : Bytes) : packFileName a = packFileName b ↔ a = b ∨ a = b ++ [46, 109, 100, 98] ∧ (¬ ∃ m, b = m ++ [46, 109, 100, 98]) ∨
    b = a ++ [46, 109, 100, 98] ∧ (¬ ∃ m, a = m ++ [46, 109, 100, 98]) := by
  by_cases ha : ∃ m, a = m ++ [46, 109, 100, 98] <;> by_cases hb : ∃ m, b = m ++ [46, 109, 100, 98]
  · obtain ⟨m, rfl⟩ := ha
    obtain ⟨k, rfl⟩ := hb
    rw [packFileName_mdb, packFileName_mdb, List.append_left_inj]
    simp
  · obtain ⟨m, rfl⟩ := ha
    rw [packFileName_mdb, packFileName_other b hb, List.append_left_inj]
    constructor
    · rintro rfl; exact .inr (.inl ⟨rfl, hb⟩)
    · rintro (h | ⟨h, _⟩ | ⟨_, h⟩)
      · exact absurd ⟨m, h.symm⟩ hb
      · exact List.append_cancel_right h
      · exact absurd ⟨m, rfl⟩ h
  · obtain ⟨k, rfl⟩ := hb
    rw [packFileName_mdb, packFileName_other a ha, List.append_left_inj]
    constructor
    · rintro rfl; exact .inr (.inr ⟨rfl, ha⟩)
    · rintro (h | ⟨_, h⟩ | ⟨h, _⟩)
      · exact absurd ⟨k, h⟩ ha
      · exact absurd ⟨k, rfl⟩ h
      · exact (List.append_cancel_right h).symm
  · rw [packFileName_other a ha, packFileName_other b hb, List.append_left_inj]
    constructor
    · exact .inl
    · rintro (h | ⟨h, _⟩ | ⟨h, _⟩)
      · exact h
      · exact absurd ⟨_, h⟩ ha
      · exact absurd ⟨_, h⟩ hb

/-- Finding: `tiles.mdb` and `tiles` do: importing one empties the pack file of the other. -/
example : packFileName [116, 46, 109, 100, 98] = packFileName [116] := by decide

/-! ### the parts as they are modelled -/

theorem entriesOf_unique {table : UInt64 → Option Bytes} {a b : List (UInt64 × Bytes)} (ha : EntriesOf table a) (hb : EntriesOf table b) : a = b := by
  have hnd : ∀ {l : List (UInt64 × Bytes)}, DbSorted l → l.Nodup := by
    intro l hl
    exact hl.imp (fun h e => by rw [e] at h; exact absurd h (by simp))
  have hp : a.Perm b := (List.perm_ext_iff_of_nodup (hnd ha.sorted) (hnd hb.sorted)).2 (fun e => by rw [ha.same e.1 e.2, hb.same e.1 e.2])
  exact hp.eq_of_pairwise (fun x y _ _ h1 h2 => absurd (UInt64.lt_trans h1 h2) (by simp)) ha.sorted hb.sorted

theorem entriesOf_exists (table : UInt64 → Option Bytes) : ∃ entries, EntriesOf table entries := by
  obtain ⟨n, hn⟩ : ∃ n, n = UInt64.size := ⟨_, rfl⟩
  refine ⟨(List.range n).filterMap (fun i => (table (UInt64.ofNat i)).map (fun v => (UInt64.ofNat i, v))), ?_, ?_⟩
  · rw [DbSorted, List.pairwise_filterMap]
    refine (List.pairwise_lt_range (n := n)).imp_of_mem ?_
    intro a b ha hb hab x hx y hy
    simp only [Option.map_eq_some_iff] at hx hy
    obtain ⟨_, _, rfl⟩ := hx
    obtain ⟨_, _, rfl⟩ := hy
    rw [List.mem_range, hn] at ha hb
    show UInt64.ofNat a < UInt64.ofNat b
    rw [UInt64.lt_iff_toNat_lt, UInt64.toNat_ofNat', UInt64.toNat_ofNat', Nat.mod_eq_of_lt ha, Nat.mod_eq_of_lt hb]
    exact hab
  · intro k v
    simp only [List.mem_filterMap, List.mem_range, Option.map_eq_some_iff, Prod.mk.injEq]
    constructor
    · rintro ⟨i, _, w, h, rfl, rfl⟩; exact h
    · intro h
      exact ⟨k.toNat, by rw [hn]; exact k.toNat_lt_size, v, by rw [UInt64.ofNat_toNat]; exact h, by simp, rfl⟩

theorem keeps_trans {a b c : PackFile} (h1 : Keeps a b) (h2 : Keeps b c) : Keeps a c := ⟨h2.1, fun r x h => h2.2 r x (h1.2 r x h)⟩

theorem keeps_close {a : PackFile} (h : a.WF) : Keeps a a.close.reopen :=
  ⟨PackFile.trimmedLength_le _, fun r x hx => (PackFile.C07_close_reopen a h r x hx).1⟩

theorem scanRows_mem {db : List (UInt64 × Bytes)} {b : TileBounds} {y n : Nat} {es : List (Tile × Bytes)} (h : scanRows db b y n = .ok es) :
    ∀ e ∈ es, ∃ d ∈ db, e.2 = d.2 := by
  induction n generalizing y es with
  | zero => injection h with h; subst h; simp
  | succ n ih =>
    rw [scanRows, Res.bind_eq_ok] at h
    obtain ⟨kb, _, h⟩ := h
    rw [Res.bind_eq_ok] at h
    obtain ⟨ke, _, h⟩ := h
    rw [Res.bind_eq_ok] at h
    obtain ⟨rest, h1, h⟩ := h
    injection h with h
    subst h
    intro e he
    rcases List.mem_append.1 he with he | he
    · obtain ⟨d, hd, rfl⟩ := List.mem_map.1 he
      exact ⟨d, (List.dropWhile_sublist _).subset ((List.takeWhile_sublist _).subset hd), rfl⟩
    · exact ih h1 e he

theorem packsOf_congr {features : List (UInt64 × Bytes)} {a b : PackFile} (hk : Keeps a b)
    (h : ∀ e ∈ features, ∃ rs, packRecordsDeserialize e.2 = .ok rs ∧ ∀ r ∈ rs, ∃ x, a.get r = .ok x) (q : Tile) :
    packsOf features a q = packsOf features b q := by
  unfold packsOf
  cases hs : scanQuery features q with
  | ok es =>
    rw [Res.ok_bind, Res.ok_bind]
    have hm := scanRows_mem (b := q.boundsOnZ kTileDefaultIndexZoomLvl) hs
    clear hs
    induction es with
    | nil => rfl
    | cons e es ih =>
      obtain ⟨d, hd, he⟩ := hm e (by simp)
      obtain ⟨rs, h1, h2⟩ := h d hd
      rw [← he] at h1
      have hrec : ∀ rs : List PackRecord, (∀ r ∈ rs, ∃ x, a.get r = .ok x) → fetchRecords a e.1 rs = fetchRecords b e.1 rs := by
        intro rs
        induction rs with
        | nil => intro _; rfl
        | cons r rs ih =>
          intro h
          obtain ⟨x, hx⟩ := h r (by simp)
          rw [fetchRecords, fetchRecords, hx, hk.2 _ _ hx, ih fun r hr => h r (by simp [hr])]
      rw [fetchValues, fetchValues, h1, Res.ok_bind, Res.ok_bind, hrec rs h2, ih fun e he => hm e (by simp [he])]
  | throw_ => rfl
  | ub => rfl

/-- what the import depends on: the inputs, the libraries, the machine -/
structure Spec.ImportEnv (ι : Type) where
  profileGood : Bool
  noInfo : ι
  crc : Bytes → UInt32
  srt : List QFeature → List QFeature
  mkMask : Line → Bytes
  rd : Bytes → Nat → List Bool
  upper : Nat
  lower : Nat
  mem : Nat
  batch : Nat
  workers : Nat
  /-- the meta information that the packing and the rendering use -/
  decOf : ι → List Meta
  ctxOf : ι → GetCtx
  /-- loading coastlines and/or features: which features the threads hand to the inserter, and what the meta table then holds -/
  loads : (coast osm : Bool) → List (List Inserted) → ι → Prop

/-- import.cc:80-94: the inserter, whose threads insert these features in any order; files have less than 2^64 bytes -/
def Spec.loadStage {ι : Type} (e : ImportEnv ι) (coast osm : Bool) : ImportStage ι := fun a ok b =>
  ∃ fs i s, e.loads coast osm fs i ∧ InsRun e.crc cacheTiles e.upper e.lower a.features a.pf (fs.map (List.map (Inserted.call plainOf))) s ∧ s.1.pf.size < 2 ^ 64 ∧
    b.features = s.1.db ∧ b.pf = s.1.pf ∧ b.tiles = a.tiles ∧ b.maxPrepared = a.maxPrepared ∧ (ok = true → .finished ∈ s.2 ∧ b.info = i)

/-- import.cc:96-98: the statistics (C55) -/
def Spec.statsStage {ι : Type} (e : ImportEnv ι) : ImportStage ι := fun a ok b =>
  b = a ∧ ∃ entries tiles, EntriesOf a.features entries ∧ EntriesOf a.tiles tiles ∧
    (ok = true ↔ ∃ st, databaseStats e.crc entries a.pf a.maxPrepared tiles = .ok st)

/-- import.cc:100-103: the packing (C44); `fn` packs the features of one tile -/
def Spec.packStage {ι : Type} (e : ImportEnv ι) : ImportStage ι := fun a ok b =>
  ∃ entries, EntriesOf a.features entries ∧ ∃ fn : Tile → List Bytes → Bytes,
    (∀ t packs x, packIndexed e.crc e.srt e.mkMask e.rd (e.decOf a.info) t packs = .ok x → fn t packs = x) ∧ (∀ t packs, fn t packs ≠ []) ∧
    ∃ s, PackReach fn e.mem e.batch entries (packDbInit entries a.pf) s ∧ s.file.size < 2 ^ 64 ∧ b = { a with features := s.db, pf := s.file } ∧
      (ok = true → ∃ r, s.run = some r ∧ r.pc = .done)

/-- import.cc:105-108: the preparation of the levels 0 to 10 (C30); without features an exception -/
def Spec.tilesStage {ι : Type} (e : ImportEnv ι) : ImportStage ι := fun a ok b =>
  ∃ entries, EntriesOf a.features entries ∧
    ((ok = false ∧ b = a) ∨ ∃ s, PrepRun (prepRender entries a.pf (e.ctxOf a.info)) (entries.map (·.1)) 10 e.workers a.tiles a.maxPrepared s ∧
      b = { a with tiles := s.1.tiles, maxPrepared := s.1.maxPrepared } ∧ (ok = true → PrepPc.finished ∈ s.2))

def Spec.importParts {ι : Type} (e : ImportEnv ι) : ImportParts ι :=
  ⟨e.profileGood, e.noInfo, loadStage e, statsStage e, packStage e, tilesStage e⟩

/-- what the tasks make an import do -/
inductive Spec.ImportAct where
  | load (coast osm : Bool)
  | stats
  | pack
  | tiles
deriving DecidableEq

open Classical in
/-- the actions of an import, in this order whatever the order of the tasks -/
noncomputable def Spec.actsOf (tasks : List String) : List ImportAct :=
  (if Asked tasks "coastlines" ∨ Asked tasks "features" then [.load (decide (Asked tasks "coastlines")) (decide (Asked tasks "features"))] else []) ++
  (if Asked tasks "stats" then [.stats] else []) ++ (if Asked tasks "pack" then [.pack] else []) ++ (if Asked tasks "tiles" then [.tiles] else [])

/-- all actions but the statistics, which change nothing -/
noncomputable def Spec.changes (runs : List (List String)) : List ImportAct := (runs.flatMap actsOf).filter (· ≠ .stats)

section
variable {ι : Type} (e : ImportEnv ι) (coast osm : Bool)

/-- after loading -/
def Loaded (a : TileDb ι) : Prop := ∃ fs s, e.loads coast osm fs a.info ∧
  InsRun e.crc cacheTiles e.upper e.lower (fun _ => none) ⟨[], 0⟩ (fs.map (List.map (Inserted.call plainOf))) s ∧ s.1.pf.size < 2 ^ 64 ∧ .finished ∈ s.2 ∧
  a.features = s.1.db ∧ Keeps s.1.pf a.pf ∧ a.tiles = (fun _ => none) ∧ a.maxPrepared = none

/-- no pack is larger than 1 GiB -/
def Spec.SmallPacks (features : UInt64 → Option Bytes) : Prop :=
  ∀ k v rs, features k = some v → packRecordsDeserialize v = .ok rs → ∀ r ∈ rs, r.size ≤ 2 ^ 30

/-- after packing -/
def Packed (a : TileDb ι) : Prop := a.pf.WF ∧ ∃ fs entries pf, e.loads coast osm fs a.info ∧ EntriesOf a.features entries ∧
  (SmallPacks a.features → Imported e.crc e.srt e.mkMask e.rd (e.decOf a.info) e.upper e.lower plainOf fs entries pf) ∧ Keeps pf a.pf ∧
  a.tiles = (fun _ => none) ∧ a.maxPrepared = none

/-- after preparing -/
def Prepared (a : TileDb ι) : Prop := a.pf.WF ∧ ∃ fs entries pf s, e.loads coast osm fs a.info ∧ EntriesOf a.features entries ∧
  (SmallPacks a.features → Imported e.crc e.srt e.mkMask e.rd (e.decOf a.info) e.upper e.lower plainOf fs entries pf) ∧ Keeps pf a.pf ∧
  PrepRun (prepRender entries pf (e.ctxOf a.info)) (entries.map (·.1)) 10 e.workers (fun _ => none) none s ∧ PrepPc.finished ∈ s.2 ∧
  a.tiles = s.1.tiles ∧ a.maxPrepared = s.1.maxPrepared

/-- the state of the opened files when these changes are still to come -/
inductive Ready (a : TileDb ι) : List ImportAct → Prop
  | start : Ready a [.load coast osm, .pack, .tiles]
  | loaded (h : Loaded e coast osm a) : Ready a [.pack, .tiles]
  | packed (h : Packed e coast osm a) : Ready a [.tiles]
  | prepared (h : Prepared e coast osm a) : Ready a []

theorem imported_keeps {crc : Bytes → UInt32} {srt : List QFeature → List QFeature} {mk : Line → Bytes} {rd : Bytes → Nat → List Bool} {dec : List Meta}
    {upper lower : Nat} {ser : Feature → Bytes} {fs : List (List Inserted)} {features : List (UInt64 × Bytes)} {a b : PackFile}
    (h : Imported crc srt mk rd dec upper lower ser fs features a) (hk : Keeps a b) (hs : b.size < 2 ^ 64) : Imported crc srt mk rd dec upper lower ser fs features b := by
  cases h with
  | mk s h hpf hfin entries hdb fn hfn hne mem batch pf1 hk1 hpf1 s' h' r0 hrun hdone _ hdb' _ hk2 hpf2 hsmall =>
    exact .mk s h hpf hfin entries hdb fn hfn hne mem batch pf1 hk1 hpf1 s' h' r0 hrun hdone _ hdb' _ (keeps_trans hk2 hk) hs hsmall

theorem ready_keeps {a : TileDb ι} {l : List ImportAct} (h : Ready e coast osm a l) {pf : PackFile} (hk : Keeps a.pf pf) :
    Ready e coast osm { a with pf := pf } l := by
  cases h with
  | start => exact .start
  | loaded h =>
    obtain ⟨fs, s, h1, h2, h3, h4, h5, h6, h7⟩ := h
    exact .loaded ⟨fs, s, h1, h2, h3, h4, h5, keeps_trans h6 hk, h7⟩
  | packed h =>
    obtain ⟨h0, fs, entries, pf', h1, h2, h3, h4, h5⟩ := h
    exact .packed ⟨hk.1, fs, entries, pf', h1, h2, h3, keeps_trans h4 hk, h5⟩
  | prepared h =>
    obtain ⟨h0, fs, entries, pf', s, h1, h2, h3, h4, h5⟩ := h
    exact .prepared ⟨hk.1, fs, entries, pf', s, h1, h2, h3, keeps_trans h4 hk, h5⟩

theorem ready_load {a b : TileDb ι} {l : List ImportAct} (hf : a.features = fun _ => none) (ht : a.tiles = fun _ => none) (hm : a.maxPrepared = none)
    (hp : a.pf = ⟨[], 0⟩) {c o : Bool} (h : Ready e coast osm a (.load c o :: l)) (hs : loadStage e c o a true b) : Ready e coast osm b l := by
  cases h with
  | start =>
    obtain ⟨fs, i, s, a1, a2, a3, a4, a5, a6, a7, a8⟩ := hs
    obtain ⟨a8, a9⟩ := a8 rfl
    rw [hf, hp] at a2
    obtain ⟨⟨_, _, _, hl, _⟩, _⟩ := ins_laid a2 (laidOut_empty _ (by simp [PackFile.WF]))
    exact .loaded ⟨fs, s, by rw [a9]; exact a1, a2, a3, a8, a4, by rw [a5]; exact keeps_refl hl.wf, by rw [a6, ht], by rw [a7, hm]⟩

theorem ready_pack {a b : TileDb ι} {l : List ImportAct} (h : Ready e coast osm a (.pack :: l)) (hs : packStage e a true b) (hsz : a.pf.size < 2 ^ 64) :
    Ready e coast osm b l := by
  cases h with
  | loaded h =>
    obtain ⟨fs, s, h1, h2, h3, h4, h5, h6, h7, h8⟩ := h
    obtain ⟨entries, b1, fn, b2, b3, s', b4, b5, rfl, b6⟩ := hs
    obtain ⟨r, b6, b7⟩ := b6 rfl
    rw [h5] at b1
    obtain ⟨entries', c1⟩ := entriesOf_exists s'.db
    have hwf : s'.file.WF := by
      obtain ⟨es, hx, rfl⟩ := laidOut_index (ins_laid h2 (laidOut_empty _ (by simp [PackFile.WF]))).1 h3 b1.sorted b1.same
      replace hx := index_keeps hx h6 hsz
      obtain ⟨tasks, ht, hg⟩ := packTasks_index hx
      have hl : Layout a.pf (tasks.flatMap (·.records)) := by rw [hg.flat]; exact hx.layout
      have hp := (packDb_reach hx ht hg b3 b4).2
      rw [b6] at hp
      rw [PackDb.file, b6]
      exact (rinv_reach hl b3 hp.1).wf
    exact .packed ⟨hwf, fs, entries', s'.file, h1, c1, fun hsm => .mk s h2 h3 h4 entries b1 fn b2 b3 e.mem e.batch a.pf h6 hsz s' b4 r b6 b7 entries' c1
      s'.file (keeps_refl hwf) b5 hsm, keeps_refl hwf, h7, h8⟩

theorem ready_tiles {a b : TileDb ι} {l : List ImportAct} (h : Ready e coast osm a (.tiles :: l)) (hs : tilesStage e a true b) (hsz : a.pf.size < 2 ^ 64) :
    Ready e coast osm b l := by
  cases h with
  | packed h =>
    obtain ⟨h0, fs, entries, pf', h1, h2, h3, h4, h5, h6⟩ := h
    obtain ⟨entries', b1, ⟨b2, _⟩ | ⟨s, b2, rfl, b3⟩⟩ := hs
    · cases b2
    have := entriesOf_unique h2 b1
    subst this
    rw [h5, h6] at b2
    exact .prepared ⟨h0, fs, entries, a.pf, s, h1, b1, fun hsm => imported_keeps (h3 hsm) h4 hsz, keeps_refl h0, b2, b3 rfl, rfl, rfl⟩

theorem ready_close {a : TileDb ι} {l : List ImportAct} (h : Ready e coast osm a l) : Ready e coast osm { a with pf := a.pf.close.reopen } l := by
  by_cases hl : l = [.load coast osm, .pack, .tiles]
  · subst hl; exact .start
  refine ready_keeps e coast osm h (keeps_close ?_)
  cases h with
  | start => exact absurd rfl hl
  | loaded h => obtain ⟨_, _, _, _, _, _, _, h, _⟩ := h; exact h.1
  | packed h => exact h.1
  | prepared h => exact h.1

theorem asked_true {tasks : List String} {t : String} : hasAnyTask tasks [t] = true ↔ Asked tasks t := hasAnyTask_one tasks t
theorem asked_false {tasks : List String} {t : String} : hasAnyTask tasks [t] = false ↔ ¬ Asked tasks t := by rw [← hasAnyTask_one]; simp

/-- one import -/
theorem ready_run {tasks : List String} {rest : List ImportAct} {a b : TileDb ι}
    (h : Ready e coast osm { a with pf := a.pf.reopen } ((actsOf tasks).filter (· ≠ .stats) ++ rest)) (hr : runImport (importParts e) tasks a true b) :
    Ready e coast osm { b with pf := b.pf.reopen } rest := by
  classical
  rw [runImport, seq_ok] at hr
  obtain ⟨a1, h1, hr⟩ := hr
  have e1 : a1 = a := by rcases guard_ok.1 h1 with ⟨_, _, h⟩ | ⟨_, _, h⟩ <;> exact h
  subst e1
  rw [seq_ok] at hr
  obtain ⟨a2, h2, hr⟩ := hr
  rw [seq_ok] at hr
  obtain ⟨a3, h3, hr⟩ := hr
  rcases h3 with ⟨h3, _⟩ | ⟨_, e3, h3⟩
  · cases h3
  obtain ⟨c, hc, hb⟩ := hr
  rcases hb with ⟨hb, _⟩ | rfl
  · cases hb
  suffices hc : Ready e coast osm c rest from ready_close e coast osm hc
  rw [seq_ok] at hc
  obtain ⟨a4, h4, hc⟩ := hc
  rw [seq_ok] at hc
  obtain ⟨a5, h5, hc⟩ := hc
  rw [seq_ok] at hc
  obtain ⟨a6, h6, h7⟩ := hc
  -- after loading
  have k4 : Ready e coast osm a4 ((if Asked tasks "pack" then [ImportAct.pack] else []) ++ ((if Asked tasks "tiles" then [ImportAct.tiles] else []) ++ rest)) ∧
      a4.pf.size < 2 ^ 64 := by
    by_cases hl : Asked tasks "coastlines" ∨ Asked tasks "features"
    · have hg := (hasAnyTask_two tasks "coastlines" "features").2 hl
      rcases guard_ok.1 h2 with ⟨_, h2⟩ | ⟨h2, _⟩
      · rcases h2 with ⟨h2, _⟩ | ⟨_, e2⟩
        · cases h2
        rcases guard_ok.1 h4 with ⟨_, h4⟩ | ⟨h4, _⟩
        · have hacts : (actsOf tasks).filter (· ≠ .stats) ++ rest = .load (decide (Asked tasks "coastlines")) (decide (Asked tasks "features")) ::
              ((if Asked tasks "pack" then [ImportAct.pack] else []) ++ ((if Asked tasks "tiles" then [ImportAct.tiles] else []) ++ rest)) := by
            rw [actsOf, if_pos hl]
            by_cases p1 : Asked tasks "stats" <;> by_cases p2 : Asked tasks "pack" <;> by_cases p3 : Asked tasks "tiles" <;> simp [p1, p2, p3]
          rw [hacts] at h
          have hco : hasAnyTask tasks ["coastlines"] = decide (Asked tasks "coastlines") := by rw [Bool.eq_iff_iff, asked_true]; simp
          have hos : hasAnyTask tasks ["features"] = decide (Asked tasks "features") := by rw [Bool.eq_iff_iff, asked_true]; simp
          rw [hco, hos] at h4
          have hst : Ready e coast osm a3 (.load (decide (Asked tasks "coastlines")) (decide (Asked tasks "features")) ::
              ((if Asked tasks "pack" then [ImportAct.pack] else []) ++ ((if Asked tasks "tiles" then [ImportAct.tiles] else []) ++ rest))) := by
            generalize (if Asked tasks "pack" then [ImportAct.pack] else []) ++ ((if Asked tasks "tiles" then [ImportAct.tiles] else []) ++ rest) = l at h ⊢
            cases h with
            | start => exact .start
          have hsz : a4.pf.size < 2 ^ 64 := by
            obtain ⟨_, _, s, _, _, q1, _, q2, _⟩ := h4
            rw [q2]; exact q1
          exact ⟨ready_load e coast osm (by rw [e3, e2]) (by rw [e3, e2]) (by rw [e3, e2]) (by rw [e3, e2]; rfl) hst h4, hsz⟩
        · have : hasAnyTask tasks ["coastlines"] = true ∨ hasAnyTask tasks ["features"] = true := by rw [asked_true, asked_true]; exact hl
          rcases this with h | h <;> rw [h] at h4 <;> simp at h4
      · rw [hg] at h2; cases h2
    · have hg : hasAnyTask tasks ["coastlines", "features"] = false := by rw [← Bool.not_eq_true, hasAnyTask_two]; exact hl
      obtain ⟨n1, n2⟩ := not_or.1 hl
      rw [← asked_false] at n1 n2
      rw [hg] at h2
      rw [n1, n2] at h4
      rcases guard_ok.1 h2 with ⟨h2, _⟩ | ⟨_, _, e2⟩
      · cases h2
      rcases guard_ok.1 h4 with ⟨h4, _⟩ | ⟨_, _, e4⟩
      · cases h4
      have hacts : (actsOf tasks).filter (· ≠ .stats) ++ rest =
          ((if Asked tasks "pack" then [ImportAct.pack] else []) ++ ((if Asked tasks "tiles" then [ImportAct.tiles] else []) ++ rest)) := by
        rw [actsOf, if_neg hl]
        by_cases p1 : Asked tasks "stats" <;> by_cases p2 : Asked tasks "pack" <;> by_cases p3 : Asked tasks "tiles" <;> simp [p1, p2, p3]
      rw [hacts] at h
      rw [e4]
      refine ⟨?_, h3⟩
      rw [e3, e2]
      exact h
  have e5 : a5 = a4 := by
    rcases guard_ok.1 h5 with ⟨_, h5⟩ | ⟨_, _, h5⟩
    · exact h5.1
    · exact h5
  subst e5
  have k6 : Ready e coast osm a6 ((if Asked tasks "tiles" then [ImportAct.tiles] else []) ++ rest) ∧ a6.pf.size < 2 ^ 64 := by
    by_cases hp : Asked tasks "pack"
    · rw [if_pos hp] at k4
      rcases guard_ok.1 h6 with ⟨_, h6⟩ | ⟨h6, _⟩
      · refine ⟨ready_pack e coast osm k4.1 h6 k4.2, ?_⟩
        obtain ⟨_, _, _, _, _, s, _, q, rfl, _⟩ := h6
        exact q
      · rw [asked_false] at h6; exact absurd hp h6
    · rw [if_neg hp] at k4
      rcases guard_ok.1 h6 with ⟨h6, _⟩ | ⟨_, _, rfl⟩
      · rw [asked_true] at h6; exact absurd h6 hp
      · exact k4
  by_cases hp : Asked tasks "tiles"
  · rw [if_pos hp] at k6
    rcases guard_ok.1 h7 with ⟨_, h7⟩ | ⟨h7, _⟩
    · exact ready_tiles e coast osm k6.1 h7 k6.2
    · rw [asked_false] at h7; exact absurd hp h7
  · rw [if_neg hp] at k6
    rcases guard_ok.1 h7 with ⟨h7, _⟩ | ⟨_, _, rfl⟩
    · rw [asked_true] at h7; exact absurd h7 hp
    · exact k6.1

theorem ready_imports {runs : List (List String)} {rest : List ImportAct} {a b : TileDb ι}
    (h : Ready e coast osm { a with pf := a.pf.reopen } (changes runs ++ rest)) (hr : Imports (importParts e) runs a b) :
    Ready e coast osm { b with pf := b.pf.reopen } rest := by
  induction runs generalizing a with
  | nil => rw [show b = a from hr]; exact h
  | cons t runs ih =>
    obtain ⟨c, h1, h2⟩ := hr
    refine ih ?_ h2
    refine ready_run e coast osm ?_ h1
    have : changes (t :: runs) = (actsOf t).filter (· ≠ .stats) ++ changes runs := by simp [changes]
    rw [this, List.append_assoc] at h
    exact h

theorem renderTile_prepared (ctx : GetCtx) (m : Int) (t : Tile) (ps : List (Tile × Bytes)) : renderTile { ctx with maxPrepared := m } t ps = renderTile ctx t ps := by
  have hk : ∀ box z ss, readKept { ctx with maxPrepared := m } box z ss = readKept ctx box z ss := by
    intro box z ss
    induction ss with
    | nil => rfl
    | cons s ss ih => rw [readKept, readKept, ih]
  have hread : ∀ s ps, readPacked { ctx with maxPrepared := m } s ps = readPacked ctx s ps := by
    intro s ps
    induction ps with
    | nil => rfl
    | cons p ps ih => rw [readPacked, readPacked, ih]; simp only [hk]
  have hf : ∀ s bs, renderFeatures { ctx with maxPrepared := m } s bs ps = renderFeatures ctx s bs ps := by
    intro s bs
    rw [renderFeatures, renderFeatures, hread]
  simp only [renderTile, hf]
  rfl

theorem imported_readable {crc : Bytes → UInt32} {srt : List QFeature → List QFeature} {mk : Line → Bytes} {rd : Bytes → Nat → List Bool} {dec : List Meta}
    {upper lower : Nat} {fs : List (List Inserted)} {ser : Feature → Bytes} (hfs : ∀ f ∈ fs.flatten, Importable mk dec ser f) (hmany : fs.flatten.length < 2 ^ 32)
    {features : List (UInt64 × Bytes)} {pf : PackFile} (h : Imported crc srt mk rd dec upper lower ser fs features pf) :
    ∀ e ∈ features, ∃ rs, packRecordsDeserialize e.2 = .ok rs ∧ ∀ r ∈ rs, ∃ x, pf.get r = .ok x := by
  cases h with
  | mk s h hpf hfin entries hdb fn hfn hne mem batch pf1 hk1 hpf1 s' h' r0 hrun hdone _ hdb' _ hk2 hpf2 hsmall =>
  classical
  obtain ⟨es, hx, rfl, hpk, _, _⟩ := ins_packs crc mk dec upper lower fs ser (fun f hf => by
    obtain ⟨a, b, c⟩ := (hfs f hf).plain
    exact ⟨(hfs f hf).inMap, a, b, c⟩) hmany s h hpf hfin entries hdb
  replace hx := index_keeps hx hk1 hpf1
  obtain ⟨hd1, hd2, hd3⟩ := C44_done_partial hx hne h' hrun hdone
  intro e he
  have hedb := (hdb'.same e.1 e.2).1 he
  obtain ⟨k1, k2⟩ := hd2 _ _ hedb
  obtain ⟨k, r, packs, e1, e2, e3, e4⟩ := hd1 _ k2
  replace e4 := hk2.2 _ _ e4
  rw [k1] at e1; injection e1 with e1; subst e1
  rw [hedb] at e2; injection e2 with e2
  refine ⟨[r], ?_, by intro r' hr'; rw [List.mem_singleton] at hr'; subst hr'; exact ⟨_, e4⟩⟩
  rw [e2]
  refine C05_records_round_trip _ (fun r' hr' => ?_)
  rw [List.mem_singleton] at hr'; subst hr'
  have := (PackFile.get_eq_ok_iff ..).1 e4
  unfold PackRecord.endOffset at this
  exact ⟨by omega, by omega⟩

/-- `C54_served`; and outside of the area of the prepared tiles there is nothing to be shown but the sea -/
theorem served_all (hsrt : SortsByKey e.srt) (hm : ∀ l z, (e.rd (e.mkMask l) z).length = l.length) (hw : 0 < e.workers)
    (hin : ∀ fs i, e.loads coast osm fs i → (e.decOf i).length ≤ 2 ^ 64 ∧ (∀ x ∈ fs.flatten, Importable e.mkMask (e.decOf i) plainOf x) ∧ fs.flatten.length < 2 ^ 32)
    (runs : List (List String)) (hacts : changes runs = [.load coast osm, .pack, .tiles]) (a b : TileDb ι) (hr : Imports (importParts e) runs a b)
    (hsmall : SmallPacks b.features) (hsize : b.pf.reopen.size < 2 ^ 64) (features : List (UInt64 × Bytes)) (hdb : EntriesOf b.features features)
    -- the context of the server: as in the preparation, except that it knows the prepared levels
    (ctx : GetCtx) (hctx : ∃ m, e.ctxOf b.info = { ctx with maxPrepared := m }) (hrd : ctx.rd = e.rd) (hdec : ctx.dec = e.decOf b.info) (hc : Serving ctx 10) :
    b.maxPrepared = some 10 ∧ ∃ fs, e.loads coast osm fs b.info ∧
      (∀ sea, SeaTree sea ctx.seaside → ∀ q : Tile, q.Valid → q.z ≤ 10 → ¬ InArea (dbBounds (features.map (·.1))) q → (¬ ∃ t ∈ sea, AncOrSelf t q) →
        getTile b.tiles features b.pf.reopen ctx q = .ok none ∧
        ∀ x ∈ fs.flatten, Shows q x.feature → x.Found q →
          withoutSmallRings (simplified (fun l => e.rd (e.mkMask l) q.z) x.feature.geometry) = .null) ∧
      ((∀ x ∈ fs.flatten, x.feature.layer < ctx.layerNames.length) → 0 < ctx.layerNames.length → ∀ sea, SeaTree sea ctx.seaside →
        ∀ q : Tile, q.Valid → q.z ≤ 20 →
        10 < q.z ∨ InArea (dbBounds (features.map (·.1))) q ∨ (∃ t ∈ sea, AncOrSelf t q) ∨ (∀ t ∈ sea, ¬ AncOrSelf q t) →
        ∃ leafs gs, bqAllLeafs ctx.seaside q = .ok leafs ∧
          (∀ g ∈ gs, ∃ x ∈ fs.flatten, Shows q x.feature ∧ x.Found q ∧ StoredAs (fun l => e.rd (e.mkMask l) q.z) x.feature g) ∧
          (∀ x ∈ fs.flatten, Shows q x.feature → x.Found q →
            withoutSmallRings (simplified (fun l => e.rd (e.mkMask l) q.z) x.feature.geometry) ≠ .null → ∃ g ∈ gs, StoredAs (fun l => e.rd (e.mkMask l) q.z) x.feature g) ∧
          ((∀ i, LayerOk (drawing ctx 10 q).toRenderCtx (specOf q) (ofLayer (leafs.map seaSquare ++ gs) i)) →
            ∃ bytes, getTile b.tiles features b.pf.reopen ctx q = .ok (if bytes = [] then none else some (ctx.encode bytes)) ∧
              (bytes.length < 2 ^ 32 → clientTile bytes = some (tileContent (drawing ctx 10 q).toRenderCtx (specOf q) (leafs.map seaSquare ++ gs)) ∧
                (bytes = [] ↔ tileContent (drawing ctx 10 q).toRenderCtx (specOf q) (leafs.map seaSquare ++ gs) = [])))) := by
  have hready : Ready e coast osm { b with pf := b.pf.reopen } [] := by
    refine ready_imports e coast osm (rest := []) ?_ hr
    rw [hacts]; exact .start
  cases hready with
  | prepared h =>
  obtain ⟨h0, fs, entries, pf, s, h1, h2, h3, h4, h5, h6, h7, h8⟩ := h
  dsimp only at h0 h1 h2 h3 h4 h5 h7 h8
  have := entriesOf_unique h2 hdb
  subst this
  obtain ⟨i1, i2, i3⟩ := hin _ _ h1
  have himp := h3 hsmall
  obtain ⟨hsort, hk⟩ := imported_keys e.crc e.srt e.mkMask e.rd (e.decOf b.info) e.upper e.lower fs plainOf i2 i3 entries pf himp
  have hk' : ∀ k ∈ entries.map (·.1), (keyToTile k).Valid ∧ (keyToTile k).z = 10 := by
    intro k hk''
    obtain ⟨x, hx, rfl⟩ := List.mem_map.1 hk''
    exact hk x hx
  obtain ⟨_, _, hmax, _, hstored⟩ := C30_complete _ _ hk' 10 e.workers (by omega) hw _ _ s h5 h6
  refine ⟨by rw [h8, hmax], fs, h1, fun sea hsea q hv hz ha hcov => ?_, fun hlay hpos sea hsea q hv hz hwhere => ?_⟩
  · have hne : entries.map (·.1) ≠ [] := (prepInv_run hk' (by omega) h5).1
    refine ⟨?_, fun x hx hs hfo => ?_⟩
    · obtain ⟨k, hkq, _⟩ := keyOfTile_ok (keyFits_of_valid hv (show q.z ≤ 20 by omega))
      refine C29_nothing _ _ _ _ q hv (by omega) hc.use (by rw [hc.max]; omega) k hkq ?_ sea hsea hcov
      rw [h7]
      refine hstored k ?_
      intro t ht hat hkt v' hv'
      have hfit : KeyFits t := by
        obtain ⟨hx, hy⟩ := dbBounds_le hne
        exact (area_fits hne hk' (by omega) t ((mem_tilesFrom hx hy).2 ⟨ht, hat⟩)).2
      have : t = q := keyOfTile_inj hfit (keyFits_of_valid hv (by omega)) hkt hkq
      subst this
      exact ha hat
    · by_contra hnull
      obtain ⟨ps, gs, k1, k2, _, k4⟩ := read_found e.crc e.srt e.mkMask e.rd (e.decOf b.info) e.upper e.lower fs plainOf hsrt i1 hm i2 i3 entries b.pf.reopen
        (imported_keeps himp h4 hsize) ctx hrd hdec q hv (by omega)
      rw [packsOf_outside hsort hne hk _ hv (by omega) ha] at k1
      injection k1 with k1
      subst k1
      rw [readPacked] at k2
      injection k2 with k2
      subst k2
      obtain ⟨g, hg, _⟩ := k4 x hx hs hfo hnull
      cases hg
  have hrender : prepRender entries pf (e.ctxOf b.info) = prepRender entries b.pf.reopen ctx := by
    funext t
    obtain ⟨m, hctx⟩ := hctx
    rw [prepRender, prepRender, packsOf_congr h4 (imported_readable i2 i3 himp) t, hctx]
    congr 1
    funext ps
    exact renderTile_prepared { ctx with ignoreSeaside := true, aggLines := true, aggPolygons := true } m t ps
  rw [hrender] at h5
  rw [h7]
  exact served_found e.crc e.srt e.mkMask e.rd (e.decOf b.info) e.upper e.lower fs plainOf hsrt i1 hm i2 i3 entries b.pf.reopen (imported_keeps himp h4 hsize)
    ctx hrd hdec 10 (by omega) hc hlay hpos sea hsea e.workers hw none s h5 h6 q hv hz hwhere

/-- A complete import: whatever the database held before, and however the actions — load, pack, prepare, with the statistics at any place — are
spread over one or several imports that exit with 0 (`all`; or first the loading, then the packing, then the tiles; …), the server that opens the
files afterwards answers every tile as in C52: from the loaded features. -/
theorem C54_served (hsrt : SortsByKey e.srt) (hm : ∀ l z, (e.rd (e.mkMask l) z).length = l.length) (hw : 0 < e.workers)
    (hin : ∀ fs i, e.loads coast osm fs i → (e.decOf i).length ≤ 2 ^ 64 ∧ (∀ x ∈ fs.flatten, Importable e.mkMask (e.decOf i) plainOf x) ∧ fs.flatten.length < 2 ^ 32)
    (runs : List (List String)) (hacts : changes runs = [.load coast osm, .pack, .tiles]) (a b : TileDb ι) (hr : Imports (importParts e) runs a b)
    (hsmall : SmallPacks b.features) (hsize : b.pf.reopen.size < 2 ^ 64) (features : List (UInt64 × Bytes)) (hdb : EntriesOf b.features features)
    -- the context of the server: as in the preparation, except that it knows the prepared levels
    (ctx : GetCtx) (hctx : ∃ m, e.ctxOf b.info = { ctx with maxPrepared := m }) (hrd : ctx.rd = e.rd) (hdec : ctx.dec = e.decOf b.info) (hc : Serving ctx 10) :
    b.maxPrepared = some 10 ∧ ∃ fs, e.loads coast osm fs b.info ∧
      ((∀ x ∈ fs.flatten, x.feature.layer < ctx.layerNames.length) → 0 < ctx.layerNames.length → ∀ sea, SeaTree sea ctx.seaside →
        ∀ q : Tile, q.Valid → q.z ≤ 20 →
        10 < q.z ∨ InArea (dbBounds (features.map (·.1))) q ∨ (∃ t ∈ sea, AncOrSelf t q) ∨ (∀ t ∈ sea, ¬ AncOrSelf q t) →
        ∃ leafs gs, bqAllLeafs ctx.seaside q = .ok leafs ∧
          (∀ g ∈ gs, ∃ x ∈ fs.flatten, Shows q x.feature ∧ x.Indexed q ∧ StoredAs (fun l => e.rd (e.mkMask l) q.z) x.feature g) ∧
          (∀ x ∈ fs.flatten, x.feature.zmin ≤ q.z → q.z ≤ x.feature.zmax → boxMeets x.feature q → x.Reaches q →
            withoutSmallRings (simplified (fun l => e.rd (e.mkMask l) q.z) x.feature.geometry) ≠ .null → ∃ g ∈ gs, StoredAs (fun l => e.rd (e.mkMask l) q.z) x.feature g) ∧
          ((∀ i, LayerOk (drawing ctx 10 q).toRenderCtx (specOf q) (ofLayer (leafs.map seaSquare ++ gs) i)) →
            ∃ bytes, getTile b.tiles features b.pf.reopen ctx q = .ok (if bytes = [] then none else some (ctx.encode bytes)) ∧
              (bytes.length < 2 ^ 32 → clientTile bytes = some (tileContent (drawing ctx 10 q).toRenderCtx (specOf q) (leafs.map seaSquare ++ gs)) ∧
                (bytes = [] ↔ tileContent (drawing ctx 10 q).toRenderCtx (specOf q) (leafs.map seaSquare ++ gs) = [])))) := by
  obtain ⟨h1, fs, h2, _, h3⟩ := served_all e coast osm hsrt hm hw hin runs hacts a b hr hsmall hsize features hdb ctx hctx hrd hdec hc
  obtain ⟨_, himp, _⟩ := hin _ _ h2
  refine ⟨h1, fs, h2, fun hlay hpos sea hsea q hv hz hwhere => ?_⟩
  obtain ⟨leafs, gs, k1, k2, k3, k4⟩ := h3 hlay hpos sea hsea q hv hz hwhere
  refine ⟨leafs, gs, k1, fun g hg => ?_, fun x hx n1 n2 n3 n4 => k3 x hx (shows_found (himp x hx) hv hz n1 n2 n3 n4).1 (shows_found (himp x hx) hv hz n1 n2 n3 n4).2, k4⟩
  obtain ⟨x, m1, m2, m3, m4⟩ := k2 g hg
  exact ⟨x, m1, m2, found_indexed m3, m4⟩

end


/-! ### the hypotheses are met -/

example : changes [["all"]] = [.load true true, .pack, .tiles] := by simp [changes, actsOf, Asked]
example : changes [["tiles", "coastlines", "oops", "pack", "features"]] = [.load true true, .pack, .tiles] := by simp [changes, actsOf, Asked]
example : changes [["features"], ["stats"], ["pack"], ["stats", "tiles"]] = [.load false true, .pack, .tiles] := by simp [changes, actsOf, Asked]
/-- packing twice is not covered -/
example : changes [["all"], ["pack"]] ≠ [.load true true, .pack, .tiles] := by simp [changes, actsOf, Asked]

/-- The preparation can end, if rendering does not fail. -/
theorem prep_can_finish {render : Tile → Res (Option Bytes)} {keys : List UInt64} (hk : ∀ k ∈ keys, (keyToTile k).Valid ∧ (keyToTile k).z = 10)
    (hne : keys ≠ []) {maxZ workers : Nat} (hz : maxZ ≤ 20) (old : UInt64 → Option Bytes) (oldMax : Option Nat)
    (hr : ∀ t, t.z ≤ maxZ → InArea (dbBounds keys) t → ∃ r, render t = .ok r) :
    ∃ s, PrepRun render keys maxZ workers old oldMax s ∧ PrepPc.finished ∈ s.2 := by
  obtain ⟨h1, h2⟩ := C30_terminates render keys hk maxZ workers hz old oldMax
  by_contra hc
  have hstep : ∀ s : { s // PrepRun render keys maxZ workers old oldMax s }, ∃ t : { s // PrepRun render keys maxZ workers old oldMax s },
      ThreadStep (prepStep render) s.1 t.1 := by
    intro ⟨s, hs⟩
    by_contra hn
    refine hc ⟨s, hs, h2 hr s hs ?_⟩
    rintro ⟨t, ht⟩
    obtain ⟨m, hm, hreach⟩ := hs
    exact hn ⟨⟨t, m, hm, .step hreach ht⟩, ht⟩
  choose next hnext using hstep
  obtain ⟨m, hm⟩ : ∃ m, makePrepMgr keys maxZ = .ok m := by rw [C30_accepts, if_neg hne]; exact ⟨_, rfl⟩
  exact h1 ⟨fun n => (next^[n] ⟨_, m, hm, .refl⟩).1, ⟨m, hm, .refl⟩, fun n => by
    show ThreadStep _ (next^[n] _).1 (next^[n + 1] _).1
    rw [Function.iterate_succ_apply']; exact hnext _⟩

def C54_ctx : GetCtx := { C29_ctx with layerNames := [coastlineName, [97]], rd := C52_rd, dec := [], maxPrepared := 10 }

/-- one feature, one thread -/
def C54_env : ImportEnv Unit :=
  ⟨true, (), fun _ => 0, keySort, C52_mk, C52_rd, 1000, 500, 1000, 1, 2, fun _ => [], fun _ => C54_ctx, fun _ _ fs _ => fs = [[whole C14_ex]]⟩

def C54_entries : List (UInt64 × Bytes) := [(5764607523101343744, packRecordsSerialize [⟨0, 251⟩])]

/-- all tiles of the levels 0 to 10 can be rendered -/
def C54_renders (ctx : GetCtx) : Bool := match C52_end with
  | some s => (tilesFrom (dbBounds (C54_entries.map (·.1))) 0 10).all (fun t => match prepRender C54_entries s.file ctx t with | .ok _ => true | _ => false)
  | none => false

theorem C54_renders_ok : C54_renders C54_ctx = true := by decide +kernel

theorem entriesOf_none : EntriesOf (fun _ => none) [] := ⟨.nil, fun k v => by simp⟩

/-- `tiles-import` with the task `all`, on an empty database, can end with exit code 0, if the tiles can be rendered. -/
theorem runs_with (ctx : GetCtx) (hall : C54_renders ctx = true) : ∃ b, Imports (importParts { C54_env with ctxOf := fun _ => ctx }) [["all"]] ⟨(), none, fun _ => none, fun _ => none, ⟨[], 0⟩⟩ b ∧
    SmallPacks b.features ∧ b.pf.reopen.size < 2 ^ 64 ∧ EntriesOf b.features C54_entries := by
  obtain ⟨s, h1, h2, h3, h4⟩ := C52_inserted
  obtain ⟨s', r0, hs', hrun, hdone, hsize, hwf, hreach, hdb⟩ := C52_ex_packed
  have hk : ∀ k ∈ C54_entries.map (·.1), (keyToTile k).Valid ∧ (keyToTile k).z = 10 := by decide +kernel
  have hne : C54_entries.map (·.1) ≠ [] := by simp [C54_entries]
  obtain ⟨hx, hy⟩ := dbBounds_le hne
  obtain ⟨p, hp1, hp2⟩ := prep_can_finish (render := prepRender C54_entries s'.file ctx) hk hne (maxZ := 10) (workers := 2) (by omega) (fun _ => none) none (by
    intro t ht hin
    rw [C54_renders, hs'] at hall
    have := List.all_eq_true.1 hall t ((mem_tilesFrom hx hy).2 ⟨ht, hin⟩)
    cases hr : prepRender C54_entries s'.file ctx t with
    | ok r => exact ⟨r, rfl⟩
    | _ => rw [hr] at this; cases this)
  have hst : ∃ st, databaseStats (fun _ => 0) (stored C52_entries) ((PackFile.mk [] 0).append C52_pack).1 none [] = .ok st := by
    have : (match databaseStats (fun _ => 0) (stored C52_entries) ((PackFile.mk [] 0).append C52_pack).1 none [] with | .ok _ => true | _ => false) = true := by
      decide +kernel
    cases hr : databaseStats (fun _ => 0) (stored C52_entries) ((PackFile.mk [] 0).append C52_pack).1 none [] with
    | ok r => exact ⟨r, rfl⟩
    | _ => rw [hr] at this; cases this
  have hsz : s.1.pf.size < 2 ^ 64 := by rw [h4, append_size, C52_pack_len]; decide
  have hall : ∀ q, hasAnyTask ["all"] q = true := fun q => by rw [hasAnyTask_iff]; exact ⟨"all", by simp, by simp⟩
  refine ⟨⟨(), p.1.maxPrepared, s'.db, p.1.tiles, s'.file.close⟩, ⟨_, ?_, rfl⟩, C52_ex_small hdb, ?_, hdb⟩
  · rw [runImport]
    simp only [hall, ImportStage.guard, Bool.or_self, if_true]
    refine seq_ok.2 ⟨_, ⟨rfl, rfl⟩, seq_ok.2 ⟨_, .inr ⟨rfl, rfl⟩, seq_ok.2 ⟨⟨(), none, fun _ => none, fun _ => none, ⟨[], 0⟩⟩, .inr ⟨rfl, rfl, by decide⟩,
      ⟨(), p.1.maxPrepared, s'.db, p.1.tiles, s'.file⟩, ?_, .inr rfl⟩⟩⟩
    refine seq_ok.2 ⟨⟨(), none, s.1.db, fun _ => none, s.1.pf⟩, ⟨[[whole C14_ex]], (), s, rfl, h1, hsz, rfl, rfl, rfl, rfl, fun _ => ⟨h2, rfl⟩⟩, ?_⟩
    refine seq_ok.2 ⟨_, ⟨rfl, stored C52_entries, [], h3, entriesOf_none, fun _ => by rw [h4]; exact hst, fun _ => rfl⟩, ?_⟩
    refine seq_ok.2 ⟨⟨(), none, s'.db, fun _ => none, s'.file⟩, ⟨stored C52_entries, h3, C52_fn, C52_fn_ok, C52_fn_ne, s', by rw [h4]; exact hreach,
      by rw [hsize]; decide, rfl, fun _ => ⟨r0, hrun, hdone⟩⟩, ?_⟩
    exact ⟨C54_entries, hdb, .inr ⟨p, hp1, rfl, fun _ => hp2⟩⟩
  · have h : (match C52_end with | some s => decide (s.file.close.reopen.size < 2 ^ 64) | none => false) = true := by decide +kernel
    rw [hs'] at h
    exact of_decide_eq_true h

theorem C54_ex_run : ∃ b, Imports (importParts C54_env) [["all"]] ⟨(), none, fun _ => none, fun _ => none, ⟨[], 0⟩⟩ b ∧
    SmallPacks b.features ∧ b.pf.reopen.size < 2 ^ 64 ∧ EntriesOf b.features C54_entries := runs_with C54_ctx C54_renders_ok

/-- The hypotheses of C54_served are met by it. -/
example : ∃ b, Imports (importParts C54_env) [["all"]] ⟨(), none, fun _ => none, fun _ => none, ⟨[], 0⟩⟩ b ∧ b.maxPrepared = some 10 := by
  obtain ⟨b, h1, h2, h3, h4⟩ := C54_ex_run
  refine ⟨b, h1, (C54_served C54_env true true C13_sort_exists (fun l z => by simp [C54_env, C52_mk, C52_rd]) (by decide) ?_ [["all"]]
    (by simp [changes, actsOf, Asked]) _ b h1 h2 h3 C54_entries h4 C54_ctx ⟨10, rfl⟩ rfl rfl ⟨rfl, rfl, rfl, rfl⟩).1⟩
  intro fs i hfs
  have hfs : fs = [[whole C14_ex]] := hfs
  subst hfs
  refine ⟨by simp [C54_env], fun f hf => ?_, by decide⟩
  rw [show f = whole C14_ex by simpa using hf]
  exact C52_ex_ok

end Tiles
