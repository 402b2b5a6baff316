import Verif.Props.C66
/-! C66, continued: what of an object the profiles look at, the levels of elevators and steps, and examples. -/
namespace Tiles
open Spec

section
variable {L : Type} (ctx : ProfileCtx L) (numeral : Bytes → Option Int)

/-- the tags a condition looks at -/
def LuaCond.keys : LuaCond → List Bytes
  | .hasTag k _ => [k]
  | .hasAny k _ => [k]
  | .or a b => a.keys ++ b.keys

/-- the tags a call looks at -/
def callKeys : PfCall → List Bytes
  | .tagAsBool k => [k]
  | .tagAsString k => [k]
  | .tagAsNumeric k => [k]
  | .tagAsInteger k => [k]
  | _ => []

/-- the tags a program looks at -/
def LuaStmt.keys : LuaStmt → List Bytes
  | .skip => []
  | .seq a b => a.keys ++ b.keys
  | .call c => callKeys c
  | .ite c t e => c.keys ++ t.keys ++ e.keys
  | .levels => [b!"level"]

theorem eval_keys {tags tags' : List (Bytes × Bytes)} : ∀ (c : LuaCond), (∀ k ∈ c.keys, tagValue tags k = tagValue tags' k) → c.eval tags = c.eval tags'
  | .hasTag k x, h => by rw [LuaCond.eval, LuaCond.eval, h k (by simp [LuaCond.keys])]
  | .hasAny k [], h => by rw [LuaCond.eval, LuaCond.eval, h k (by simp [LuaCond.keys])]
  | .hasAny k (x :: xs), h => by rw [LuaCond.eval, LuaCond.eval, h k (by simp [LuaCond.keys])]
  | .or a b, h => by
    rw [LuaCond.eval, LuaCond.eval, eval_keys a (fun k hk => h k (by simp [LuaCond.keys, hk])), eval_keys b (fun k hk => h k (by simp [LuaCond.keys, hk]))]

theorem exec_keys {tags tags' : List (Bytes × Bytes)} : ∀ (s : LuaStmt), (∀ k ∈ s.keys, tagValue tags k = tagValue tags' k) → s.exec numeral tags = s.exec numeral tags'
  | .skip, _ => rfl
  | .seq a b, h => by
    rw [LuaStmt.exec, LuaStmt.exec, exec_keys a (fun k hk => h k (by simp [LuaStmt.keys, hk])), exec_keys b (fun k hk => h k (by simp [LuaStmt.keys, hk]))]
  | .call c, _ => rfl
  | .ite c t e, h => by
    rw [LuaStmt.exec, LuaStmt.exec, eval_keys c (fun k hk => h k (by simp [LuaStmt.keys, hk])), exec_keys t (fun k hk => h k (by simp [LuaStmt.keys, hk])),
      exec_keys e (fun k hk => h k (by simp [LuaStmt.keys, hk]))]
  | .levels, h => by
    rw [LuaStmt.exec, LuaStmt.exec, levelCalls, levelCalls, h _ (by simp [LuaStmt.keys])]

theorem exec_callKeys (tags : List (Bytes × Bytes)) : ∀ (s : LuaStmt), ∀ c ∈ (s.exec numeral tags).1, ∀ k ∈ callKeys c, k ∈ s.keys := by
  intro s
  induction s with
  | skip => intro c h; cases h
  | seq a b iha ihb =>
    intro c h k hk
    rw [LuaStmt.keys, List.mem_append]
    rw [LuaStmt.exec] at h
    split at h
    · rcases List.mem_append.1 h with h | h
      · exact .inl (iha c h k hk)
      · exact .inr (ihb c h k hk)
    · exact .inl (iha c h k hk)
  | call c => intro c' h k hk; rw [exec_call, List.mem_singleton] at h; subst h; exact hk
  | ite c t e iht ihe =>
    intro c' h k hk
    rw [LuaStmt.keys, List.mem_append, List.mem_append]
    rw [exec_ite] at h
    split at h
    · exact .inl (.inr (iht c' h k hk))
    · exact .inr (ihe c' h k hk)
  | levels =>
    intro c h k hk
    rw [exec_levels] at h
    unfold levelCalls at h
    have : ∀ (x y : Int), c ∈ [PfCall.addInteger b!"from_level" x, .addInteger b!"to_level" y] → callKeys c = [] := by
      intro x y h
      rcases List.mem_cons.1 h with rfl | h
      · rfl
      · rw [List.mem_singleton] at h; subst h; rfl
    split at h
    · cases h
    · split at h
      · cases h
      · split at h
        · cases h
        · split at h
          · rw [this _ 0 (by rw [List.mem_singleton] at h; rw [h]; exact .head _)] at hk; cases hk
          · rw [this _ _ h] at hk; cases hk

theorem runProfile_keys {o o' : OsmObj L} (hs : o.shape = o'.shape) : ∀ (cs : List PfCall) (q : Pending), (∀ c ∈ cs, ∀ k ∈ callKeys c, tagValue o.tags k = tagValue o'.tags k) →
    runProfile ctx o q cs = runProfile ctx o' q cs := by
  intro cs
  induction cs with
  | nil => intro q _; rfl
  | cons c cs ih =>
    intro q h
    have hc : applyCall ctx o q c = applyCall ctx o' q c := by
      have := h c (.head _)
      cases c with
      | approvedMinByArea args => simp only [applyCall, setApprovedMinByArea, readGeometry, hs]
      | tagAsBool k => simp only [applyCall, addTagAsBool, this k (by simp [callKeys])]
      | tagAsString k => simp only [applyCall, addTagAsString, this k (by simp [callKeys])]
      | tagAsNumeric k => simp only [applyCall, addTagAsNumeric, this k (by simp [callKeys])]
      | tagAsInteger k => simp only [applyCall, addTagAsInteger, this k (by simp [callKeys])]
      | _ => rfl
    rw [runProfile, runProfile, hc]
    cases applyCall ctx o' q c with
    | ok q => exact ih q (fun c hc => h c (.tail _ hc))
    | _ => rfl

/-- Only the tags that a profile mentions matter — for every profile written like the two —: two objects that differ in others only are stored alike. -/
theorem C66_keys (p : LuaProfile) (id : Int) (tags tags' : List (Bytes × Bytes)) (shape : OsmShape L) (h : ∀ k ∈ (p.body shape).keys, tagValue tags k = tagValue tags' k) :
    pendingFeature ctx (p.object numeral id tags shape) = pendingFeature ctx (p.object numeral id tags' shape) := by
  have he := exec_keys numeral (p.body shape) h
  have hr : ∀ q, runProfile ctx (p.object numeral id tags shape) q (p.object numeral id tags shape).calls =
      runProfile ctx (p.object numeral id tags' shape) q (p.object numeral id tags' shape).calls := by
    intro q
    rw [show (p.object numeral id tags' shape).calls = (p.object numeral id tags shape).calls from (congrArg Prod.fst he).symm]
    exact runProfile_keys ctx (o := p.object numeral id tags shape) (o' := p.object numeral id tags' shape) rfl _ q (fun c hc k hk => h k (exec_callKeys numeral tags _ c hc k hk))
  rw [pendingFeature, pendingFeature, hr]
  rfl

theorem tagValue_perm {tags tags' : List (Bytes × Bytes)} (hp : tags.Perm tags') (hd : (tags.map (·.1)).Nodup) (k : Bytes) : tagValue tags k = tagValue tags' k := by
  have key : ∀ l : List (Bytes × Bytes), (l.map (·.1)).Nodup → ∀ v, tagValue l k = some v ↔ (k, v) ∈ l := by
    intro l hl v
    unfold tagValue
    constructor
    · intro h
      obtain ⟨e, h1, h2⟩ := Option.map_eq_some_iff.1 h
      have h3 := List.find?_some h1
      simp only [decide_eq_true_eq] at h3
      rw [← h3, ← h2]
      exact List.mem_of_find?_eq_some h1
    · intro h
      cases hf : l.find? (fun t => decide (t.1 = k)) with
      | none => exact absurd (List.find?_eq_none.1 hf _ h) (by simp)
      | some e =>
        have h3 := List.find?_some hf
        simp only [decide_eq_true_eq] at h3
        have := List.inj_on_of_nodup_map hl (List.mem_of_find?_eq_some hf) h h3
        rw [this]; rfl
  have h1 := key tags hd
  have h2 := key tags' ((hp.map _).nodup_iff.1 hd)
  cases h : tagValue tags k with
  | none =>
    cases h' : tagValue tags' k with
    | none => rfl
    | some v => rw [(h1 v).2 (hp.symm.subset ((h2 v).1 h'))] at h; cases h
  | some v => exact ((h2 v).2 (hp.subset ((h1 v).1 h))).symm

/-- The order of the tags does not matter. -/
theorem C66_order (p : LuaProfile) (id : Int) (tags tags' : List (Bytes × Bytes)) (hp : tags.Perm tags') (hd : (tags.map (·.1)).Nodup) (shape : OsmShape L) :
    pendingFeature ctx (p.object numeral id tags shape) = pendingFeature ctx (p.object numeral id tags' shape) :=
  C66_keys ctx numeral p id tags tags' shape (fun k _ => tagValue_perm hp hd k)

/-- The tags that the two profiles look at. -/
theorem C66_looks_at {p : LuaProfile} {t : Tables} (hs : Shipped p t) (shape : OsmShape L) : ∀ k ∈ (p.body shape).keys,
    k ∈ [b!"place", b!"name", b!"population", b!"highway", b!"ref", b!"level", b!"railway", b!"usage", b!"service", b!"railway:preserved", b!"waterway", b!"building",
      b!"landuse", b!"leisure", b!"amenity", b!"natural", b!"public_transport", b!"indoor", b!"shop"] := by
  cases hs
  · have h : ∀ s ∈ [fullNode, fullWay, fullArea], ∀ k ∈ s.keys,
        k ∈ [b!"place", b!"name", b!"population", b!"highway", b!"ref", b!"level", b!"railway", b!"usage", b!"service", b!"railway:preserved", b!"waterway", b!"building",
          b!"landuse", b!"leisure", b!"amenity", b!"natural", b!"public_transport", b!"indoor", b!"shop"] := by decide +kernel
    cases shape
    · exact h _ (by simp [LuaProfile.body, fullProfile])
    · exact h _ (by simp [LuaProfile.body, fullProfile])
    · exact h _ (by simp [LuaProfile.body, fullProfile])
  · have h : ∀ s ∈ [backgroundNode, backgroundWay, backgroundArea], ∀ k ∈ s.keys,
        k ∈ [b!"place", b!"name", b!"population", b!"highway", b!"ref", b!"level", b!"railway", b!"usage", b!"service", b!"railway:preserved", b!"waterway", b!"building",
          b!"landuse", b!"leisure", b!"amenity", b!"natural", b!"public_transport", b!"indoor", b!"shop"] := by decide +kernel
    cases shape
    · exact h _ (by simp [LuaProfile.body, backgroundProfile])
    · exact h _ (by simp [LuaProfile.body, backgroundProfile])
    · exact h _ (by simp [LuaProfile.body, backgroundProfile])

end

/-! ### the levels of elevators and steps -/

/-- a numeral: a minus sign or none, and digits -/
structure Spec.IsNumeral (s : Bytes) : Prop where
  sign : ∃ ds, (s = ds ∨ s = 45 :: ds) ∧ ds ≠ [] ∧ ∀ c ∈ ds, 48 ≤ c.toNat ∧ c.toNat ≤ 57

theorem luaDigit_iff (c : UInt8) : luaDigit c = true ↔ 48 ≤ c.toNat ∧ c.toNat ≤ 57 := by
  simp [luaDigit]

theorem takeWhile_digits {ds r : Bytes} (h : ∀ c ∈ ds, luaDigit c = true) (hr : ∀ c, r.head? = some c → luaDigit c = false) :
    (ds ++ r).takeWhile luaDigit = ds ∧ (ds ++ r).dropWhile luaDigit = r := by
  induction ds with
  | nil =>
    cases r with
    | nil => exact ⟨rfl, rfl⟩
    | cons c r => simp [hr c rfl]
  | cons c ds ih =>
    have := ih (fun x hx => h x (.tail _ hx))
    simp [h c (.head _), this]

/-- the pattern matches a numeral as far as it goes -/
theorem numeralAt_of {n r : Bytes} (hn : IsNumeral n) (hr : ∀ c, r.head? = some c → luaDigit c = false) : numeralAt (n ++ r) = some (n, r) := by
  obtain ⟨ds, hs, hne, hd⟩ := hn.sign
  have hd' : ∀ c ∈ ds, luaDigit c = true := fun c hc => (luaDigit_iff c).2 (hd c hc)
  obtain ⟨h1, h2⟩ := takeWhile_digits hd' hr
  unfold numeralAt
  rcases hs with rfl | rfl
  · have h45 : (n ++ r).head? ≠ some 45 := by
      cases n with
      | nil => exact absurd rfl hne
      | cons c n =>
        have := hd c (.head _)
        intro h
        injection h with h
        subst h
        revert this; decide
    simp only [if_neg h45, List.length_nil, List.drop_zero, h1, h2, if_neg hne, List.nil_append]
  · simp only [List.cons_append, List.head?_cons, if_true, List.length_cons, List.length_nil, Nat.zero_add, List.drop_one, List.tail_cons, h1, h2, if_neg hne]
    rfl

theorem numeralAt_some {s n r : Bytes} (h : numeralAt s = some (n, r)) : IsNumeral n ∧ s = n ++ r ∧ ∀ c, r.head? = some c → luaDigit c = false := by
  have key : ∀ (sign t : Bytes), s = sign ++ t → (sign = [] ∨ sign = [45]) →
      (if t.takeWhile luaDigit = [] then none else some (sign ++ t.takeWhile luaDigit, t.dropWhile luaDigit)) = some (n, r) →
      IsNumeral n ∧ s = n ++ r ∧ ∀ c, r.head? = some c → luaDigit c = false := by
    intro sign t hst hsign h
    by_cases hne : t.takeWhile luaDigit = []
    · rw [if_pos hne] at h; cases h
    · rw [if_neg hne] at h
      injection h with h
      injection h with h1 h2
      refine ⟨⟨t.takeWhile luaDigit, ?_, hne, fun c hc => (luaDigit_iff c).1 (List.mem_takeWhile_imp hc)⟩, ?_, ?_⟩
      · rcases hsign with hsign | hsign <;> rw [hsign] at h1
        · exact .inl h1.symm
        · exact .inr h1.symm
      · rw [← h1, ← h2, List.append_assoc, List.takeWhile_append_dropWhile, hst]
      · intro c hc
        rw [← h2] at hc
        have := List.head?_dropWhile_not luaDigit t
        rw [hc] at this
        simpa using this
  unfold numeralAt at h
  by_cases h45 : s.head? = some 45
  · simp only [if_pos h45] at h
    cases s with
    | nil => cases h45
    | cons c s =>
      injection h45 with h45
      subst h45
      exact key [45] s rfl (.inr rfl) h
  · simp only [if_neg h45] at h
    exact key [] s rfl (.inl rfl) h

theorem numeralAt_digit {c : UInt8} {s : Bytes} (h : luaDigit c = true) : numeralAt (c :: s) ≠ none := by
  unfold numeralAt
  have hc : c ≠ 45 := by rintro rfl; revert h; decide
  simp [hc, h]

/-- `a;b` with anything behind: levels `a` and `b` — further levels are left out. -/
theorem C66_level_two (a b rest : Bytes) (ha : IsNumeral a) (hb : IsNumeral b) (hrest : ∀ c, rest.head? = some c → c.toNat < 48 ∨ 57 < c.toNat) :
    splitLevel (a ++ b!";" ++ b ++ rest) = some (a, b) := by
  have hr : ∀ c, rest.head? = some c → luaDigit c = false := by
    intro c hc
    have := hrest c hc
    rw [Bool.eq_false_iff, Ne, luaDigit_iff]
    omega
  have h1 : numeralAt (a ++ b!";" ++ b ++ rest) = some (a, b!";" ++ b ++ rest) := by
    rw [List.append_assoc, List.append_assoc, numeralAt_of ha (by intro c hc; injection hc with hc; subst hc; decide)]
    simp
  have h2 : pairAt (a ++ b!";" ++ b ++ rest) = some (a, b) := by
    unfold pairAt
    rw [h1]
    simp only [List.cons_append, List.nil_append]
    rw [numeralAt_of hb hr]
    rfl
  unfold splitLevel
  have h3 : matchTwo (a ++ b!";" ++ b ++ rest) = some (a, b) := by
    cases h : a ++ b!";" ++ b ++ rest with
    | nil => simp at h
    | cons c s => rw [matchTwo, ← h, h2]
  rw [h3]

theorem matchTwo_sound : ∀ {s a b : Bytes}, matchTwo s = some (a, b) → ∃ pre rest, s = pre ++ a ++ b!";" ++ b ++ rest ∧ IsNumeral a ∧ IsNumeral b
  | [], _, _, h => by cases h
  | c :: s, a, b, h => by
    rw [matchTwo] at h
    split at h
    · rename_i q hq
      injection h with h
      subst h
      unfold pairAt at hq
      split at hq
      · rename_i n r hn
        obtain ⟨m, h1, h2⟩ := Option.map_eq_some_iff.1 hq
        injection h2 with h2 h3
        subst h2 h3
        obtain ⟨i1, i2, _⟩ := numeralAt_some hn
        obtain ⟨i3, i4, _⟩ := numeralAt_some (r := m.2) h1
        refine ⟨[], m.2, ?_, i1, i3⟩
        rw [i2, i4]
        simp
      · cases hq
    · obtain ⟨pre, rest, h1, h2⟩ := matchTwo_sound h
      exact ⟨c :: pre, rest, by rw [h1]; rfl, h2⟩

theorem matchOne_sound : ∀ {s a : Bytes}, matchOne s = some a → ∃ pre rest, s = pre ++ a ++ rest ∧ IsNumeral a
  | [], _, h => by cases h
  | c :: s, a, h => by
    rw [matchOne] at h
    split at h
    · rename_i n r hn
      injection h with h
      subst h
      obtain ⟨i1, i2, _⟩ := numeralAt_some hn
      exact ⟨[], r, by rw [i2]; simp, i1⟩
    · obtain ⟨pre, rest, h1, h2⟩ := matchOne_sound h
      exact ⟨c :: pre, rest, by rw [h1]; rfl, h2⟩

theorem matchOne_none : ∀ {s : Bytes}, matchOne s = none ↔ ∀ c ∈ s, luaDigit c = false
  | [] => by simp [matchOne]
  | c :: s => by
    rw [matchOne]
    constructor
    · intro h
      split at h
      · cases h
      · rename_i hn
        have h1 := matchOne_none.1 h
        intro x hx
        rcases List.mem_cons.1 hx with rfl | hx
        · cases hd : luaDigit x with
          | false => rfl
          | true => exact absurd hn (numeralAt_digit hd)
        · exact h1 x hx
    · intro h
      split
      · rename_i n r hn
        obtain ⟨i1, i2, _⟩ := numeralAt_some hn
        obtain ⟨ds, h1, h2, h3⟩ := i1.sign
        exfalso
        cases ds with
        | nil => exact h2 rfl
        | cons x ds =>
          have := h x (by rw [i2]; rcases h1 with h1 | h1 <;> rw [h1] <;> simp)
          rw [(luaDigit_iff x).2 (h3 x (.head _))] at this
          cases this
      · exact matchOne_none.2 (fun x hx => h x (.tail _ hx))

/-- What the levels are in general: two numerals of the tag with a semicolon between them, or — if it has no such pair — one numeral, which is the first and the last level; none
if there is no digit. -/
theorem C66_level_any (s : Bytes) :
    (∀ a b, splitLevel s = some (a, b) → IsNumeral a ∧ IsNumeral b ∧
      ((∃ pre rest, s = pre ++ a ++ b!";" ++ b ++ rest) ∨ (a = b ∧ ∃ pre rest, s = pre ++ a ++ rest))) ∧
    (splitLevel s = none ↔ ∀ c ∈ s, c.toNat < 48 ∨ 57 < c.toNat) := by
  constructor
  · intro a b h
    unfold splitLevel at h
    split at h
    · rename_i q hq
      injection h with h
      subst h
      obtain ⟨pre, rest, h1, h2, h3⟩ := matchTwo_sound hq
      exact ⟨h2, h3, .inl ⟨pre, rest, h1⟩⟩
    · obtain ⟨n, h1, h2⟩ := Option.map_eq_some_iff.1 h
      injection h2 with h2 h3
      subst h2 h3
      obtain ⟨pre, rest, h1, h2⟩ := matchOne_sound h1
      exact ⟨h2, h2, .inr ⟨rfl, pre, rest, h1⟩⟩
  · have key : splitLevel s = none ↔ matchOne s = none := by
      unfold splitLevel
      constructor
      · intro h
        split at h
        · cases h
        · simpa using h
      · intro h
        have hnone : matchTwo s = none := by
          cases h2 : matchTwo s with
          | none => rfl
          | some q =>
            obtain ⟨a, b⟩ := q
            obtain ⟨pre, rest, h3, h4, _⟩ := matchTwo_sound h2
            obtain ⟨ds, h5, h6, h7⟩ := h4.sign
            exfalso
            cases ds with
            | nil => exact h6 rfl
            | cons x ds =>
              have := matchOne_none.1 h x (by rw [h3]; rcases h5 with h5 | h5 <;> rw [h5] <;> simp)
              rw [(luaDigit_iff x).2 (h7 x (.head _))] at this
              cases this
        rw [hnone, h]; rfl
    rw [key, matchOne_none]
    constructor
    · intro h c hc
      have := h c hc
      rw [Bool.eq_false_iff, Ne, luaDigit_iff] at this
      omega
    · intro h c hc
      rw [Bool.eq_false_iff, Ne, luaDigit_iff]
      have := h c hc
      omega

/-- a single level -/
theorem C66_level_one (a : Bytes) (ha : IsNumeral a) : splitLevel a = some (a, a) := by
  have hone : matchOne a = some a := by
    have h := numeralAt_of (r := []) ha (by simp)
    rw [List.append_nil] at h
    cases a with
    | nil => obtain ⟨ds, h1, h2, _⟩ := ha.sign; rcases h1 with h1 | h1 <;> first | exact absurd h1.symm h2 | cases h1
    | cons c s => rw [matchOne, h]
  have htwo : matchTwo a = none := by
    cases h2 : matchTwo a with
    | none => rfl
    | some q =>
      obtain ⟨x, y⟩ := q
      obtain ⟨pre, rest, h3, _⟩ := matchTwo_sound h2
      have hm : (59 : UInt8) ∈ a := by rw [h3]; simp
      obtain ⟨ds, h4, _, h5⟩ := ha.sign
      exfalso
      rcases h4 with h4 | h4
      · rw [h4] at hm; have := h5 _ hm; revert this; decide
      · rw [h4] at hm
        rcases List.mem_cons.1 hm with hm | hm
        · revert hm; decide
        · have := h5 _ hm; revert this; decide
  rw [splitLevel, htwo, hone]; rfl

/-- "0;1;2": the last level is lost.  "0-2" is one level, "-1;3" two, "G" none. -/
example : splitLevel b!"0;1;2" = some (b!"0", b!"1") ∧ splitLevel b!"0-2" = some (b!"0", b!"0") ∧ splitLevel b!"-1;3" = some (b!"-1", b!"3") ∧ splitLevel b!"G" = none := by
  decide +kernel

/-! ### examples -/

/-- a node, a way and an area, with the tags of real ones -/
def demoProfileCtx : ProfileCtx XY := ⟨id, fun _ => .ok 4000000, fun _ => none, fun n => n.toNat⟩
def demoCity : List (Bytes × Bytes) := [(b!"name", b!"Darmstadt"), (b!"place", b!"city"), (b!"population", b!"159207"), (b!"wikidata", b!"Q2973")]
def demoLake : List (Bytes × Bytes) := [(b!"natural", b!"water"), (b!"name", b!"Woog")]
def demoSteps : List (Bytes × Bytes) := [(b!"highway", b!"steps"), (b!"level", b!"0;1")]

example : Fine demoProfileCtx (fullProfile.object fromCharsI64 7 demoCity (.node (some ⟨1, 2⟩))) ∧
    pendingFeature demoProfileCtx (fullProfile.object fromCharsI64 7 demoCity (.node (some ⟨1, 2⟩))) =
      .ok (some (b!"cities", ⟨7, 0, 5, 21, [⟨b!"name", encodeString b!"Darmstadt"⟩, ⟨b!"place", encodeString b!"city"⟩, ⟨b!"population", encodeNumeric 159207⟩], .point [⟨1, 2⟩]⟩)) :=
  ⟨(C66_fine _ _ .full _ _ _ (by simp)).1, by decide +kernel⟩

example : Fine demoProfileCtx (backgroundProfile.object fromCharsI64 8 demoLake (.area [.outer [some ⟨0, 0⟩, some ⟨0, 2000⟩, some ⟨2000, 2000⟩, some ⟨0, 0⟩]])) ∧
    pendingFeature demoProfileCtx (backgroundProfile.object fromCharsI64 8 demoLake (.area [.outer [some ⟨0, 0⟩, some ⟨0, 2000⟩, some ⟨2000, 2000⟩, some ⟨0, 0⟩]])) =
      .ok (some (b!"water", ⟨8, 0, 0, 21, [], .polygon [⟨[⟨0, 0⟩, ⟨0, 2000⟩, ⟨2000, 2000⟩, ⟨0, 0⟩], []⟩]⟩)) :=
  ⟨⟨by decide +kernel, fun _ _ _ g _ => ⟨_, rfl⟩⟩, by decide +kernel⟩

/-- the level of steps: two of them in `full.lua`; `background.lua` has none -/
example : pendingFeature demoProfileCtx (fullProfile.object fromCharsI64 9 demoSteps (.way [some ⟨1, 2⟩, some ⟨3, 4⟩])) =
      .ok (some (b!"road", ⟨9, 0, 12, 21, [⟨b!"from_level", encodeInteger 0⟩, ⟨b!"highway", encodeString b!"steps"⟩, ⟨b!"to_level", encodeInteger 1⟩], .polyline [[⟨1, 2⟩, ⟨3, 4⟩]]⟩)) ∧
    pendingFeature demoProfileCtx (backgroundProfile.object fromCharsI64 9 demoSteps (.way [some ⟨1, 2⟩, some ⟨3, 4⟩])) =
      .ok (some (b!"road", ⟨9, 0, 14, 21, [⟨b!"highway", encodeString b!"steps"⟩], .polyline [[⟨1, 2⟩, ⟨3, 4⟩]]⟩)) := by
  decide +kernel

/-- a room whose outline cannot be read -/
example : readOsm demoProfileCtx.conv (.area [.inner [some ⟨0, 0⟩]]) = .throw_ ∧
    pendingFeature demoProfileCtx (fullProfile.object fromCharsI64 9 [(b!"indoor", b!"room")] (.area [.inner [some ⟨0, 0⟩]])) = .throw_ ∧
    pendingFeature demoProfileCtx (fullProfile.object fromCharsI64 9 [(b!"building", b!"yes")] (.area [.inner [some ⟨0, 0⟩]])) = .ok none := by
  decide +kernel

end Tiles
