import Verif.Spec.ProfileTable
import Verif.Spec.Profile
import Mathlib.Data.List.Forall2
/-! Helper lemmas for C66: programs of the profile language and tables of rules. -/
namespace Tiles
open Spec

/-- the approving calls -/
def approves : PfCall → Bool
  | .approvedMin _ => true
  | .approvedFull => true
  | .approvedMinByArea _ => true
  | _ => false

/-- the entries stored for attributes -/
def metasOf (toDouble : Int → Nat) (as : List (Bytes × Attr)) : List Meta := as.map (fun a => ⟨a.1, a.2.stored toDouble⟩)

/-- a call approves from the levels of a table on -/
inductive ZoomCall : PfCall → List (Nat × Option Int) → Prop
  | min (z : UInt32) : ZoomCall (.approvedMin z) [(z.toNat, none)]
  | area (args : List Int) (l : List (Nat × Option Int)) (heven : args.length % 2 = 0) (hlen : 2 ≤ l.length)
      (h : ∀ a, ((pairsOf args).find? (fun p => decide (p.2 = -1 ∨ a < p.2))).map (fun p => (p.1 % 2 ^ 32).toNat) = levelFor a l) :
      ZoomCall (.approvedMinByArea args) l

/-- some calls store an object as a rule says -/
structure Stores (numeral : Bytes → Option Int) (tags : List (Bytes × Bytes)) (cs : List PfCall) (r : RuleOut) : Prop where
  zoom : ∃ c, cs.filter approves = [c] ∧ ZoomCall c r.zoom
  layer : (cs.filterMap layerOf).getLast? = some r.layer
  attrs : ∀ {L : Type} (ctx : ProfileCtx L) (o : OsmObj L), o.tags = tags → ∀ m, m ∈ cs.flatMap (addedBy ctx o) ↔
    m ∈ metasOf ctx.toDouble (r.attributes numeral (tagValue tags))

/-- some calls do as a rule says -/
def Matches (numeral : Bytes → Option Int) (tags : List (Bytes × Bytes)) (cs : List PfCall) : Option RuleOut → Prop
  | none => cs.filter approves = []
  | some r => Stores numeral tags cs r

section
variable (numeral : Bytes → Option Int) (tags : List (Bytes × Bytes))

theorem exec_call_seq (c : PfCall) (b : LuaStmt) : (LuaStmt.exec numeral tags (.seq (.call c) b)) = (c :: (b.exec numeral tags).1, (b.exec numeral tags).2) := by
  simp [LuaStmt.exec]

theorem exec_call (c : PfCall) : (LuaStmt.exec numeral tags (.call c)) = ([c], true) := rfl

theorem exec_skip : (LuaStmt.exec numeral tags .skip) = ([], true) := rfl

theorem exec_levels : (LuaStmt.exec numeral tags .levels) = levelCalls numeral tags := rfl

theorem exec_ite (c : LuaCond) (t e : LuaStmt) : (LuaStmt.exec numeral tags (.ite c t e)) = if c.eval tags then t.exec numeral tags else e.exec numeral tags := rfl

theorem exec_seq_ite (c : LuaCond) (t e b : LuaStmt) : (LuaStmt.exec numeral tags (.seq (.ite c t e) b)) =
    if c.eval tags then LuaStmt.exec numeral tags (.seq t b) else LuaStmt.exec numeral tags (.seq e b) := by
  cases h : c.eval tags <;> simp [LuaStmt.exec, h]

theorem exec_seq_skip (b : LuaStmt) : (LuaStmt.exec numeral tags (.seq .skip b)) = b.exec numeral tags := by
  simp [LuaStmt.exec]

theorem exec_seq_seq (a b c : LuaStmt) : (LuaStmt.exec numeral tags (.seq (.seq a b) c)) = LuaStmt.exec numeral tags (.seq a (.seq b c)) := by
  by_cases ha : (a.exec numeral tags).2 = true <;> by_cases hb : (b.exec numeral tags).2 = true <;> simp [LuaStmt.exec, ha, hb]

theorem levelCalls_approves : (levelCalls numeral tags).1.filter approves = [] := by
  unfold levelCalls
  split
  · rfl
  · split
    · rfl
    · split
      · rfl
      · split <;> rfl

theorem levelCalls_layer : (levelCalls numeral tags).1.filterMap layerOf = [] := by
  unfold levelCalls
  split
  · rfl
  · split
    · rfl
    · split
      · rfl
      · split <;> rfl

variable {L : Type} (ctx : ProfileCtx L) (o : OsmObj L)

theorem addedBy_levels : (levelCalls numeral tags).1.flatMap (addedBy ctx o) = metasOf ctx.toDouble (AttrRule.attrs numeral (tagValue tags) .levels) := by
  unfold levelCalls AttrRule.attrs
  cases tagValue tags b!"level" with
  | none => rfl
  | some l =>
    dsimp only
    cases splitLevel l with
    | none => rfl
    | some p =>
      obtain ⟨a, b⟩ := p
      dsimp only
      cases numeral a with
      | none => rfl
      | some x => cases numeral b <;> rfl

theorem addedBy_copy (ho : o.tags = tags) (k : Bytes) : addedBy ctx o (.tagAsString k) = metasOf ctx.toDouble (AttrRule.attrs numeral (tagValue tags) (.copy k)) := by
  simp only [addedBy, AttrRule.attrs, addTagAsString, ho]
  cases tagValue tags k <;> rfl

theorem addedBy_number (ho : o.tags = tags) (k : Bytes) : addedBy ctx o (.tagAsInteger k) = metasOf ctx.toDouble (AttrRule.attrs numeral (tagValue tags) (.number k)) := by
  simp only [addedBy, AttrRule.attrs, addTagAsInteger, ho]
  cases tagValue tags k with
  | none => rfl
  | some x => dsimp only; cases fromCharsI64 x <;> rfl

theorem addedBy_const (k x : Bytes) : addedBy ctx o (.addString k x) = metasOf ctx.toDouble (AttrRule.attrs numeral (tagValue tags) (.const k x)) := rfl

theorem addedBy_other (n : Bytes) (z : UInt32) (args : List Int) : addedBy ctx o (.targetLayer n) = [] ∧ addedBy ctx o (.approvedMin z) = [] ∧
    addedBy ctx o (.approvedMinByArea args) = [] := ⟨rfl, rfl, rfl⟩

end

theorem metasOf_append (d : Int → Nat) (a b : List (Bytes × Attr)) : metasOf d (a ++ b) = metasOf d a ++ metasOf d b := List.map_append

/-! ### conditions -/

theorem eval_hasTag (tags : List (Bytes × Bytes)) (k x : Bytes) (hx : x ≠ []) : LuaCond.eval tags (.hasTag k x) = tagHolds (tagValue tags) (k, some [x]) := by
  unfold LuaCond.eval tagHolds
  cases tagValue tags k with
  | none => simpa using hx
  | some y => simp [eq_comm]

theorem eval_present (tags : List (Bytes × Bytes)) (k : Bytes) : LuaCond.eval tags (.hasAny k []) = tagHolds (tagValue tags) (k, none) := by
  unfold LuaCond.eval tagHolds
  cases tagValue tags k <;> rfl

theorem eval_hasAny (tags : List (Bytes × Bytes)) (k : Bytes) (x : Bytes) (xs : List Bytes) (hx : [] ∉ x :: xs) :
    LuaCond.eval tags (.hasAny k (x :: xs)) = tagHolds (tagValue tags) (k, some (x :: xs)) := by
  unfold LuaCond.eval tagHolds
  cases tagValue tags k with
  | none =>
    simp only [Option.getD_none, List.any_eq_false, decide_eq_true_eq]
    intro y hy h
    exact hx (h ▸ hy)
  | some y =>
    simp only [Option.getD_some]
    rw [Bool.eq_iff_iff, List.any_eq_true, List.contains_iff_mem]
    simp

theorem tagHolds_cons (v : Tags) (k x y : Bytes) (xs : List Bytes) :
    tagHolds v (k, some (x :: y :: xs)) = (tagHolds v (k, some [x]) || tagHolds v (k, some (y :: xs))) := by
  unfold tagHolds
  cases v k with
  | none => rfl
  | some z => simp [List.contains_cons]

theorem tagHolds_present (v : Tags) (k : Bytes) (xs : List Bytes) (h : tagHolds v (k, none) = false) : tagHolds v (k, some xs) = false := by
  unfold tagHolds at h ⊢
  cases hv : v k with
  | none => rfl
  | some z => rw [hv] at h; cases h

/-! ### programs that are chains of `elseif` -/

def luaChain : List (LuaCond × LuaStmt) → LuaStmt
  | [] => .skip
  | (c, s) :: l => .ite c s (luaChain l)

theorem chain_matches {numeral : Bytes → Option Int} {tags : List (Bytes × Bytes)} {l : List (LuaCond × LuaStmt)} {table : List Rule}
    (h : List.Forall₂ (fun p r => LuaCond.eval tags p.1 = r.fires (tagValue tags) ∧ Matches numeral tags (p.2.exec numeral tags).1 r.out) l table) :
    Matches numeral tags ((luaChain l).exec numeral tags).1 (decideBy table (tagValue tags)) := by
  induction h with
  | nil => rfl
  | cons h1 h2 ih =>
    rename_i p r l table
    obtain ⟨c, s⟩ := p
    unfold decideBy
    rw [luaChain, exec_ite, List.find?_cons, h1.1]
    cases hf : r.fires (tagValue tags) with
    | true => exact h1.2
    | false => exact ih

end Tiles
