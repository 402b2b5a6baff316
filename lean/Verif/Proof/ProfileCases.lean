import Verif.Proof.ProfileTable
import Mathlib.Tactic.Tauto
/-! Helper lemmas for C66: each function of the profiles does what its table says. -/
namespace Tiles
open Spec

set_option hygiene false in
/-- a leaf: the calls of one branch store the object as a rule says -/
macro "leaf" z:tacticSeq : tactic => `(tactic| (
  refine ⟨?_, ?_, ?_⟩
  · simp only [exec_seq_seq, exec_call_seq, exec_call, exec_levels, exec_seq_ite, exec_ite, exec_seq_skip, exec_skip, List.filter_cons, approves, levelCalls_approves, List.filter_nil, if_true, Bool.false_eq_true, if_false]
    exact ⟨_, rfl, by ($z)⟩
  · simp only [exec_seq_seq, exec_call_seq, exec_call, exec_levels, exec_seq_ite, exec_ite, exec_seq_skip, exec_skip, List.filterMap_cons, layerOf, levelCalls_layer, List.filterMap_nil]
    rfl
  · intro L ctx o ho m
    simp only [exec_seq_seq, exec_call_seq, exec_call, exec_levels, exec_seq_ite, exec_ite, exec_seq_skip, exec_skip, List.flatMap_cons, List.flatMap_nil, List.flatMap_append, addedBy_levels numeral tags ctx o, addedBy_copy numeral tags ctx o ho,
      addedBy_number numeral tags ctx o ho, addedBy_const numeral tags ctx o, (addedBy_other ctx o _ 0 []).1, (addedBy_other ctx o [] _ []).2.1, (addedBy_other ctx o [] 0 _).2.2, RuleOut.attributes, roadAttrs, placeAttrs, metasOf_append, List.append_nil,
      List.cons_append, List.nil_append, List.mem_append, List.not_mem_nil]
    try first | done | tauto))

theorem zoom_landuse (a b c : Int) (x y z : Nat) (ha : a = x) (hb : b = y) (hc : c = z) (hx : x < 2 ^ 32) (hy : y < 2 ^ 32) (hz : z < 2 ^ 32) :
    ZoomCall (.approvedMinByArea [a, 100000000, b, 10000000000, c, -1]) (byArea x y z) := by
  subst ha hb hc
  refine .area _ _ (by simp) (by simp) fun area => ?_
  simp only [pairsOf, List.find?_cons, List.find?_nil, levelFor]
  by_cases h1 : area < 10 ^ 8
  · rw [if_pos h1, decide_eq_true (by omega)]; simp; omega
  · rw [if_neg h1, decide_eq_false (by omega)]
    by_cases h2 : area < 10 ^ 10
    · rw [if_pos h2, decide_eq_true (by omega)]; simp; omega
    · rw [if_neg h2, decide_eq_false (by omega)]; simp; omega

theorem zoom_water : ZoomCall (.approvedMinByArea [12, 1000000, 10, 10000, 0, -1]) [(12, some (10 ^ 6)), (0, none)] := by
  refine .area _ _ (by simp) (by simp) fun area => ?_
  simp only [pairsOf, List.find?_cons, List.find?_nil, levelFor]
  by_cases h1 : area < 10 ^ 6
  · rw [if_pos h1, decide_eq_true (by omega)]; rfl
  · rw [if_neg h1, decide_eq_false (by omega), decide_eq_false (by omega)]; rfl

section
variable (numeral : Bytes → Option Int) (tags : List (Bytes × Bytes))

theorem eval_or (a b : LuaCond) : LuaCond.eval tags (.or a b) = (a.eval tags || b.eval tags) := rfl

theorem table_fullNode : Matches numeral tags (fullNode.exec numeral tags).1 (decideBy fullNodes (tagValue tags)) := by
  cases hv : tagValue tags b!"place" with
  | none =>
    cases hw : tagValue tags b!"highway" with
    | none => simp [fullNode, exec_ite, exec_seq_ite, LuaCond.eval, hv, hw, decideBy, fullNodes, Rule.fires, tagHolds, Matches, exec_skip]
    | some h =>
      by_cases h1 : h = b!"elevator"
      · subst h1
        simp [fullNode, exec_seq_seq, exec_call_seq, exec_call, exec_levels, exec_ite, exec_seq_ite, exec_seq_skip, LuaCond.eval, hv, hw, decideBy, fullNodes, Rule.fires, tagHolds, Matches]
        leaf exact .min 18
      simp [fullNode, exec_ite, exec_seq_ite, exec_seq_skip, exec_call_seq, exec_call, exec_skip, LuaCond.eval, hv, hw, h1, Ne.symm h1, decideBy, fullNodes, Rule.fires, tagHolds, Matches, approves]
  | some h =>
    by_cases h1 : h = b!"city"
    · subst h1
      simp [fullNode, exec_seq_seq, exec_call_seq, exec_call, exec_levels, exec_ite, exec_seq_ite, exec_seq_skip, LuaCond.eval, hv, decideBy, fullNodes, Rule.fires, tagHolds, Matches]
      leaf exact .min 5
    by_cases h2 : h = b!"town"
    · subst h2
      simp [fullNode, exec_seq_seq, exec_call_seq, exec_call, exec_levels, exec_ite, exec_seq_ite, exec_seq_skip, LuaCond.eval, hv, decideBy, fullNodes, Rule.fires, tagHolds, Matches]
      leaf exact .min 9
    by_cases h3 : h = b!"borough"
    · subst h3
      simp [fullNode, exec_seq_seq, exec_call_seq, exec_call, exec_levels, exec_ite, exec_seq_ite, exec_seq_skip, LuaCond.eval, hv, decideBy, fullNodes, Rule.fires, tagHolds, Matches]
      leaf exact .min 9
    by_cases h4 : h = b!"suburb"
    · subst h4
      simp [fullNode, exec_seq_seq, exec_call_seq, exec_call, exec_levels, exec_ite, exec_seq_ite, exec_seq_skip, LuaCond.eval, hv, decideBy, fullNodes, Rule.fires, tagHolds, Matches]
      leaf exact .min 11
    by_cases h5 : h = b!"village"
    · subst h5
      simp [fullNode, exec_seq_seq, exec_call_seq, exec_call, exec_levels, exec_ite, exec_seq_ite, exec_seq_skip, LuaCond.eval, hv, decideBy, fullNodes, Rule.fires, tagHolds, Matches]
      leaf exact .min 11
    simp [fullNode, exec_ite, exec_seq_ite, exec_seq_skip, exec_call_seq, exec_call, exec_skip, LuaCond.eval, hv, h1, h2, h3, h4, h5, Ne.symm h1, Ne.symm h2, Ne.symm h3, Ne.symm h4, Ne.symm h5, decideBy, fullNodes, Rule.fires, tagHolds, Matches, approves]

theorem table_backgroundNode : Matches numeral tags (backgroundNode.exec numeral tags).1 (decideBy backgroundNodes (tagValue tags)) := by
  cases hv : tagValue tags b!"place" with
  | none => simp [backgroundNode, exec_ite, exec_seq_ite, LuaCond.eval, hv, decideBy, backgroundNodes, Rule.fires, tagHolds, Matches, exec_skip]
  | some h =>
    by_cases h1 : h = b!"country"
    · subst h1
      simp [backgroundNode, exec_seq_seq, exec_call_seq, exec_call, exec_levels, exec_ite, exec_seq_ite, exec_seq_skip, LuaCond.eval, hv, decideBy, backgroundNodes, Rule.fires, tagHolds, Matches]
      leaf exact .min 3
    by_cases h2 : h = b!"state"
    · subst h2
      simp [backgroundNode, exec_seq_seq, exec_call_seq, exec_call, exec_levels, exec_ite, exec_seq_ite, exec_seq_skip, LuaCond.eval, hv, decideBy, backgroundNodes, Rule.fires, tagHolds, Matches]
      leaf exact .min 7
    by_cases h3 : h = b!"region"
    · subst h3
      simp [backgroundNode, exec_seq_seq, exec_call_seq, exec_call, exec_levels, exec_ite, exec_seq_ite, exec_seq_skip, LuaCond.eval, hv, decideBy, backgroundNodes, Rule.fires, tagHolds, Matches]
      leaf exact .min 7
    by_cases h4 : h = b!"province"
    · subst h4
      simp [backgroundNode, exec_seq_seq, exec_call_seq, exec_call, exec_levels, exec_ite, exec_seq_ite, exec_seq_skip, LuaCond.eval, hv, decideBy, backgroundNodes, Rule.fires, tagHolds, Matches]
      leaf exact .min 7
    by_cases h5 : h = b!"city"
    · subst h5
      simp [backgroundNode, exec_seq_seq, exec_call_seq, exec_call, exec_levels, exec_ite, exec_seq_ite, exec_seq_skip, LuaCond.eval, hv, decideBy, backgroundNodes, Rule.fires, tagHolds, Matches]
      leaf exact .min 6
    by_cases h6 : h = b!"town"
    · subst h6
      simp [backgroundNode, exec_seq_seq, exec_call_seq, exec_call, exec_levels, exec_ite, exec_seq_ite, exec_seq_skip, LuaCond.eval, hv, decideBy, backgroundNodes, Rule.fires, tagHolds, Matches]
      leaf exact .min 9
    by_cases h7 : h = b!"borough"
    · subst h7
      simp [backgroundNode, exec_seq_seq, exec_call_seq, exec_call, exec_levels, exec_ite, exec_seq_ite, exec_seq_skip, LuaCond.eval, hv, decideBy, backgroundNodes, Rule.fires, tagHolds, Matches]
      leaf exact .min 9
    by_cases h8 : h = b!"suburb"
    · subst h8
      simp [backgroundNode, exec_seq_seq, exec_call_seq, exec_call, exec_levels, exec_ite, exec_seq_ite, exec_seq_skip, LuaCond.eval, hv, decideBy, backgroundNodes, Rule.fires, tagHolds, Matches]
      leaf exact .min 11
    by_cases h9 : h = b!"village"
    · subst h9
      simp [backgroundNode, exec_seq_seq, exec_call_seq, exec_call, exec_levels, exec_ite, exec_seq_ite, exec_seq_skip, LuaCond.eval, hv, decideBy, backgroundNodes, Rule.fires, tagHolds, Matches]
      leaf exact .min 11
    simp [backgroundNode, exec_ite, exec_seq_ite, exec_seq_skip, exec_call_seq, exec_call, exec_skip, LuaCond.eval, hv, h1, h2, h3, h4, h5, h6, h7, h8, h9, Ne.symm h1, Ne.symm h2, Ne.symm h3, Ne.symm h4, Ne.symm h5, Ne.symm h6, Ne.symm h7, Ne.symm h8, Ne.symm h9, decideBy, backgroundNodes, Rule.fires, tagHolds, Matches, approves]

theorem table_waterway : Matches numeral tags (if tagHolds (tagValue tags) (b!"waterway", none) then luaWaterway.exec numeral tags else LuaStmt.exec numeral tags .skip).1
    (decideBy waterways (tagValue tags)) := by
  cases hv : tagValue tags b!"waterway" with
  | none => simp [decideBy, waterways, Rule.fires, tagHolds, hv, Matches, exec_skip]
  | some h =>
    by_cases h1 : h = b!"river"
    · subst h1
      simp [luaWaterway, exec_seq_seq, exec_call_seq, exec_call, exec_levels, exec_ite, exec_seq_ite, exec_seq_skip, LuaCond.eval, hv, decideBy, waterways, Rule.fires, tagHolds, Matches]
      leaf exact .min 8
    by_cases h2 : h = b!"canal"
    · subst h2
      simp [luaWaterway, exec_seq_seq, exec_call_seq, exec_call, exec_levels, exec_ite, exec_seq_ite, exec_seq_skip, LuaCond.eval, hv, decideBy, waterways, Rule.fires, tagHolds, Matches]
      leaf exact .min 8
    by_cases h3 : h = b!"stream"
    · subst h3
      simp [luaWaterway, exec_seq_seq, exec_call_seq, exec_call, exec_levels, exec_ite, exec_seq_ite, exec_seq_skip, LuaCond.eval, hv, decideBy, waterways, Rule.fires, tagHolds, Matches]
      leaf exact .min 13
    by_cases h4 : h = b!"ditch"
    · subst h4
      simp [luaWaterway, exec_seq_seq, exec_call_seq, exec_call, exec_levels, exec_ite, exec_seq_ite, exec_seq_skip, LuaCond.eval, hv, decideBy, waterways, Rule.fires, tagHolds, Matches]
      leaf exact .min 15
    by_cases h5 : h = b!"drain"
    · subst h5
      simp [luaWaterway, exec_seq_seq, exec_call_seq, exec_call, exec_levels, exec_ite, exec_seq_ite, exec_seq_skip, LuaCond.eval, hv, decideBy, waterways, Rule.fires, tagHolds, Matches]
      leaf exact .min 15
    simp [luaWaterway, exec_ite, exec_seq_ite, exec_seq_skip, exec_call_seq, exec_call, exec_skip, LuaCond.eval, hv, h1, h2, h3, h4, h5, Ne.symm h1, Ne.symm h2, Ne.symm h3, Ne.symm h4, Ne.symm h5, decideBy, waterways, Rule.fires, tagHolds, Matches, approves]

/-- the condition for sidings -/
theorem table_fullWay_minor (hr : ∀ r, tagValue tags b!"railway" = some r → r ≠ b!"miniature") :
    LuaCond.eval tags luaMinor =
    minorRail.any (tagHolds (tagValue tags)) := by
  have hm : tagHolds (tagValue tags) (b!"railway", some [b!"miniature"]) = false := by
    unfold tagHolds
    cases h : tagValue tags b!"railway" with
    | none => rfl
    | some r => simpa [List.contains_cons] using hr r h
  simp only [luaMinor, eval_or]
  repeat rw [eval_hasTag _ _ _ (by decide)]
  simp only [minorRail, List.any_cons, List.any_nil, tagHolds_cons, hm, Bool.or_false, Bool.false_or, Bool.or_assoc]

theorem table_fullWay : Matches numeral tags (fullWay.exec numeral tags).1 (decideBy fullWays (tagValue tags)) := by
  cases hv : tagValue tags b!"highway" with
  | some h =>
    by_cases h1 : h = b!"elevator"
    · subst h1
      simp [fullWay, fullRoad, exec_seq_seq, exec_call_seq, exec_call, exec_levels, exec_ite, exec_seq_ite, exec_seq_skip, LuaCond.eval, hv, decideBy, fullWays, largeRoads, mediumRoads, smallRoads, Rule.fires, tagHolds, Matches]
      leaf exact .min 18
    by_cases h2 : h = b!"motorway"
    · subst h2
      simp [fullWay, fullRoad, exec_seq_seq, exec_call_seq, exec_call, exec_levels, exec_ite, exec_seq_ite, exec_seq_skip, LuaCond.eval, hv, decideBy, fullWays, largeRoads, mediumRoads, smallRoads, Rule.fires, tagHolds, Matches]
      leaf exact .min 5
    by_cases h3 : h = b!"trunk"
    · subst h3
      simp [fullWay, fullRoad, exec_seq_seq, exec_call_seq, exec_call, exec_levels, exec_ite, exec_seq_ite, exec_seq_skip, LuaCond.eval, hv, decideBy, fullWays, largeRoads, mediumRoads, smallRoads, Rule.fires, tagHolds, Matches]
      leaf exact .min 5
    by_cases h4 : h = b!"motorway_link"
    · subst h4
      simp [fullWay, fullRoad, exec_seq_seq, exec_call_seq, exec_call, exec_levels, exec_ite, exec_seq_ite, exec_seq_skip, LuaCond.eval, hv, decideBy, fullWays, largeRoads, mediumRoads, smallRoads, Rule.fires, tagHolds, Matches]
      leaf exact .min 9
    by_cases h5 : h = b!"trunk_link"
    · subst h5
      simp [fullWay, fullRoad, exec_seq_seq, exec_call_seq, exec_call, exec_levels, exec_ite, exec_seq_ite, exec_seq_skip, LuaCond.eval, hv, decideBy, fullWays, largeRoads, mediumRoads, smallRoads, Rule.fires, tagHolds, Matches]
      leaf exact .min 9
    by_cases h6 : h = b!"primary"
    · subst h6
      simp [fullWay, fullRoad, exec_seq_seq, exec_call_seq, exec_call, exec_levels, exec_ite, exec_seq_ite, exec_seq_skip, LuaCond.eval, hv, decideBy, fullWays, largeRoads, mediumRoads, smallRoads, Rule.fires, tagHolds, Matches]
      leaf exact .min 9
    by_cases h7 : h = b!"secondary"
    · subst h7
      simp [fullWay, fullRoad, exec_seq_seq, exec_call_seq, exec_call, exec_levels, exec_ite, exec_seq_ite, exec_seq_skip, LuaCond.eval, hv, decideBy, fullWays, largeRoads, mediumRoads, smallRoads, Rule.fires, tagHolds, Matches]
      leaf exact .min 9
    by_cases h8 : h = b!"tertiary"
    · subst h8
      simp [fullWay, fullRoad, exec_seq_seq, exec_call_seq, exec_call, exec_levels, exec_ite, exec_seq_ite, exec_seq_skip, LuaCond.eval, hv, decideBy, fullWays, largeRoads, mediumRoads, smallRoads, Rule.fires, tagHolds, Matches]
      leaf exact .min 9
    by_cases h9 : h = b!"aeroway"
    · subst h9
      simp [fullWay, fullRoad, exec_seq_seq, exec_call_seq, exec_call, exec_levels, exec_ite, exec_seq_ite, exec_seq_skip, LuaCond.eval, hv, decideBy, fullWays, largeRoads, mediumRoads, smallRoads, Rule.fires, tagHolds, Matches]
      leaf exact .min 9
    by_cases h10 : h = b!"residential"
    · subst h10
      simp [fullWay, fullRoad, exec_seq_seq, exec_call_seq, exec_call, exec_levels, exec_ite, exec_seq_ite, exec_seq_skip, LuaCond.eval, hv, decideBy, fullWays, largeRoads, mediumRoads, smallRoads, Rule.fires, tagHolds, Matches]
      leaf exact .min 12
    by_cases h11 : h = b!"living_street"
    · subst h11
      simp [fullWay, fullRoad, exec_seq_seq, exec_call_seq, exec_call, exec_levels, exec_ite, exec_seq_ite, exec_seq_skip, LuaCond.eval, hv, decideBy, fullWays, largeRoads, mediumRoads, smallRoads, Rule.fires, tagHolds, Matches]
      leaf exact .min 12
    by_cases h12 : h = b!"primary_link"
    · subst h12
      simp [fullWay, fullRoad, exec_seq_seq, exec_call_seq, exec_call, exec_levels, exec_ite, exec_seq_ite, exec_seq_skip, LuaCond.eval, hv, decideBy, fullWays, largeRoads, mediumRoads, smallRoads, Rule.fires, tagHolds, Matches]
      leaf exact .min 12
    by_cases h13 : h = b!"secondary_link"
    · subst h13
      simp [fullWay, fullRoad, exec_seq_seq, exec_call_seq, exec_call, exec_levels, exec_ite, exec_seq_ite, exec_seq_skip, LuaCond.eval, hv, decideBy, fullWays, largeRoads, mediumRoads, smallRoads, Rule.fires, tagHolds, Matches]
      leaf exact .min 12
    by_cases h14 : h = b!"tertiary_link"
    · subst h14
      simp [fullWay, fullRoad, exec_seq_seq, exec_call_seq, exec_call, exec_levels, exec_ite, exec_seq_ite, exec_seq_skip, LuaCond.eval, hv, decideBy, fullWays, largeRoads, mediumRoads, smallRoads, Rule.fires, tagHolds, Matches]
      leaf exact .min 12
    by_cases h15 : h = b!"unclassified"
    · subst h15
      simp [fullWay, fullRoad, exec_seq_seq, exec_call_seq, exec_call, exec_levels, exec_ite, exec_seq_ite, exec_seq_skip, LuaCond.eval, hv, decideBy, fullWays, largeRoads, mediumRoads, smallRoads, Rule.fires, tagHolds, Matches]
      leaf exact .min 12
    by_cases h16 : h = b!"service"
    · subst h16
      simp [fullWay, fullRoad, exec_seq_seq, exec_call_seq, exec_call, exec_levels, exec_ite, exec_seq_ite, exec_seq_skip, LuaCond.eval, hv, decideBy, fullWays, largeRoads, mediumRoads, smallRoads, Rule.fires, tagHolds, Matches]
      leaf exact .min 12
    by_cases h17 : h = b!"track"
    · subst h17
      simp [fullWay, fullRoad, exec_seq_seq, exec_call_seq, exec_call, exec_levels, exec_ite, exec_seq_ite, exec_seq_skip, LuaCond.eval, hv, decideBy, fullWays, largeRoads, mediumRoads, smallRoads, Rule.fires, tagHolds, Matches]
      leaf exact .min 12
    by_cases h18 : h = b!"cycleway"
    · subst h18
      simp [fullWay, fullRoad, exec_seq_seq, exec_call_seq, exec_call, exec_levels, exec_ite, exec_seq_ite, exec_seq_skip, LuaCond.eval, hv, decideBy, fullWays, largeRoads, mediumRoads, smallRoads, Rule.fires, tagHolds, Matches]
      leaf exact .min 12
    by_cases h19 : h = b!"path"
    · subst h19
      simp [fullWay, fullRoad, exec_seq_seq, exec_call_seq, exec_call, exec_levels, exec_ite, exec_seq_ite, exec_seq_skip, LuaCond.eval, hv, decideBy, fullWays, largeRoads, mediumRoads, smallRoads, Rule.fires, tagHolds, Matches]
      leaf exact .min 12
    by_cases h20 : h = b!"steps"
    · subst h20
      simp [fullWay, fullRoad, exec_seq_seq, exec_call_seq, exec_call, exec_levels, exec_ite, exec_seq_ite, exec_seq_skip, LuaCond.eval, hv, decideBy, fullWays, largeRoads, mediumRoads, smallRoads, Rule.fires, tagHolds, Matches]
      leaf exact .min 12
    by_cases h21 : h = b!"footway"
    · subst h21
      simp [fullWay, fullRoad, exec_seq_seq, exec_call_seq, exec_call, exec_levels, exec_ite, exec_seq_ite, exec_seq_skip, LuaCond.eval, hv, decideBy, fullWays, largeRoads, mediumRoads, smallRoads, Rule.fires, tagHolds, Matches]
      leaf exact .min 12
    simp [fullWay, fullRoad, exec_ite, exec_seq_ite, exec_seq_skip, exec_call_seq, exec_call, exec_skip, LuaCond.eval, hv, h1, h2, h3, h4, h5, h6, h7, h8, h9, h10, h11, h12, h13, h14, h15, h16, h17, h18, h19, h20, h21, Ne.symm h1, Ne.symm h2, Ne.symm h3, Ne.symm h4, Ne.symm h5, Ne.symm h6, Ne.symm h7, Ne.symm h8, Ne.symm h9, Ne.symm h10, Ne.symm h11, Ne.symm h12, Ne.symm h13, Ne.symm h14, Ne.symm h15, Ne.symm h16, Ne.symm h17, Ne.symm h18, Ne.symm h19, Ne.symm h20, Ne.symm h21, decideBy, fullWays, largeRoads, mediumRoads, smallRoads, Rule.fires, tagHolds, Matches, approves]
  | none =>
    have water : ∀ (hr : ∀ r, tagValue tags b!"railway" = some r → r ∉ ([b!"rail", b!"subway", b!"tram"] : List Bytes)),
        Matches numeral tags (fullWay.exec numeral tags).1 (decideBy fullWays (tagValue tags)) := by
      intro hr
      have hr1 : ∀ xs : List Bytes, (∀ x ∈ xs, x ∈ ([b!"rail", b!"subway", b!"tram"] : List Bytes)) → tagHolds (tagValue tags) (b!"railway", some xs) = false := by
        intro xs hxs
        unfold tagHolds
        cases h : tagValue tags b!"railway" with
        | none => rfl
        | some r =>
          rw [Bool.eq_false_iff, ne_eq, List.contains_iff_mem]
          exact fun hc => hr r h (hxs r hc)
      have hh : LuaCond.eval tags (.hasAny b!"highway" []) = false := by simp [LuaCond.eval, hv]
      simp only [fullWay, exec_ite]
      rw [eval_hasAny _ b!"railway" _ _ (by decide), hr1 _ (by decide), hh, eval_present]
      have e : decideBy fullWays (tagValue tags) = decideBy waterways (tagValue tags) := by
        have hh : ∀ xs, tagHolds (tagValue tags) (b!"highway", xs) = false := by intro xs; simp [tagHolds, hv]
        simp only [decideBy, fullWays, List.cons_append, List.nil_append, List.find?_cons, Rule.fires, List.all_cons, List.all_nil, List.any_cons, List.any_nil, hh,
          hr1 [b!"rail", b!"subway", b!"tram"] (by decide), hr1 [b!"subway", b!"tram"] (by decide), hr1 [b!"rail"] (by decide), Bool.false_and, Bool.false_or, Bool.or_self]
      rw [e]
      simp only [Bool.false_eq_true, if_false]
      exact table_waterway numeral tags
    cases hw : tagValue tags b!"railway" with
    | none => exact water (by simp [hw])
    | some h =>
      by_cases h1 : h = b!"rail"
      · subst h1
        have hm := table_fullWay_minor tags (by simp [hw])
        cases hb : minorRail.any (tagHolds (tagValue tags)) with
        | true =>
          rw [hb] at hm
          simp [fullWay, fullRail, exec_ite, exec_seq_ite, exec_call_seq, LuaCond.eval, hv, hw, hm, hb, decideBy, fullWays, Rule.fires, tagHolds, Matches]
          leaf exact .min 14
        | false =>
          rw [hb] at hm
          simp [fullWay, fullRail, exec_ite, exec_seq_ite, exec_call_seq, LuaCond.eval, hv, hw, hm, hb, decideBy, fullWays, Rule.fires, tagHolds, Matches]
          leaf exact .min 5
      by_cases h2 : h = b!"subway"
      · subst h2
        have hm := table_fullWay_minor tags (by simp [hw])
        cases hb : minorRail.any (tagHolds (tagValue tags)) with
        | true =>
          rw [hb] at hm
          simp [fullWay, fullRail, exec_ite, exec_seq_ite, exec_call_seq, LuaCond.eval, hv, hw, hm, hb, decideBy, fullWays, Rule.fires, tagHolds, Matches]
          leaf exact .min 14
        | false =>
          rw [hb] at hm
          simp [fullWay, fullRail, exec_ite, exec_seq_ite, exec_call_seq, LuaCond.eval, hv, hw, hm, hb, decideBy, fullWays, Rule.fires, tagHolds, Matches]
          leaf exact .min 10
      by_cases h3 : h = b!"tram"
      · subst h3
        have hm := table_fullWay_minor tags (by simp [hw])
        cases hb : minorRail.any (tagHolds (tagValue tags)) with
        | true =>
          rw [hb] at hm
          simp [fullWay, fullRail, exec_ite, exec_seq_ite, exec_call_seq, LuaCond.eval, hv, hw, hm, hb, decideBy, fullWays, Rule.fires, tagHolds, Matches]
          leaf exact .min 14
        | false =>
          rw [hb] at hm
          simp [fullWay, fullRail, exec_ite, exec_seq_ite, exec_call_seq, LuaCond.eval, hv, hw, hm, hb, decideBy, fullWays, Rule.fires, tagHolds, Matches]
          leaf exact .min 10
      exact water (by rw [hw]; intro r hr; injection hr with hr; subst hr; simp [h1, h2, h3])

theorem table_backgroundWay : Matches numeral tags (backgroundWay.exec numeral tags).1 (decideBy backgroundWays (tagValue tags)) := by
  cases hv : tagValue tags b!"highway" with
  | some h =>
    by_cases h1 : h = b!"motorway"
    · subst h1
      simp [backgroundWay, backgroundRoad, exec_seq_seq, exec_call_seq, exec_call, exec_levels, exec_ite, exec_seq_ite, exec_seq_skip, LuaCond.eval, hv, decideBy, backgroundWays, largeRoads, mediumRoads, smallRoads, Rule.fires, tagHolds, Matches]
      leaf exact .min 5
    by_cases h2 : h = b!"trunk"
    · subst h2
      simp [backgroundWay, backgroundRoad, exec_seq_seq, exec_call_seq, exec_call, exec_levels, exec_ite, exec_seq_ite, exec_seq_skip, LuaCond.eval, hv, decideBy, backgroundWays, largeRoads, mediumRoads, smallRoads, Rule.fires, tagHolds, Matches]
      leaf exact .min 5
    by_cases h3 : h = b!"motorway_link"
    · subst h3
      simp [backgroundWay, backgroundRoad, exec_seq_seq, exec_call_seq, exec_call, exec_levels, exec_ite, exec_seq_ite, exec_seq_skip, LuaCond.eval, hv, decideBy, backgroundWays, largeRoads, mediumRoads, smallRoads, Rule.fires, tagHolds, Matches]
      leaf exact .min 9
    by_cases h4 : h = b!"trunk_link"
    · subst h4
      simp [backgroundWay, backgroundRoad, exec_seq_seq, exec_call_seq, exec_call, exec_levels, exec_ite, exec_seq_ite, exec_seq_skip, LuaCond.eval, hv, decideBy, backgroundWays, largeRoads, mediumRoads, smallRoads, Rule.fires, tagHolds, Matches]
      leaf exact .min 9
    by_cases h5 : h = b!"primary"
    · subst h5
      simp [backgroundWay, backgroundRoad, exec_seq_seq, exec_call_seq, exec_call, exec_levels, exec_ite, exec_seq_ite, exec_seq_skip, LuaCond.eval, hv, decideBy, backgroundWays, largeRoads, mediumRoads, smallRoads, Rule.fires, tagHolds, Matches]
      leaf exact .min 9
    by_cases h6 : h = b!"secondary"
    · subst h6
      simp [backgroundWay, backgroundRoad, exec_seq_seq, exec_call_seq, exec_call, exec_levels, exec_ite, exec_seq_ite, exec_seq_skip, LuaCond.eval, hv, decideBy, backgroundWays, largeRoads, mediumRoads, smallRoads, Rule.fires, tagHolds, Matches]
      leaf exact .min 9
    by_cases h7 : h = b!"tertiary"
    · subst h7
      simp [backgroundWay, backgroundRoad, exec_seq_seq, exec_call_seq, exec_call, exec_levels, exec_ite, exec_seq_ite, exec_seq_skip, LuaCond.eval, hv, decideBy, backgroundWays, largeRoads, mediumRoads, smallRoads, Rule.fires, tagHolds, Matches]
      leaf exact .min 9
    by_cases h8 : h = b!"aeroway"
    · subst h8
      simp [backgroundWay, backgroundRoad, exec_seq_seq, exec_call_seq, exec_call, exec_levels, exec_ite, exec_seq_ite, exec_seq_skip, LuaCond.eval, hv, decideBy, backgroundWays, largeRoads, mediumRoads, smallRoads, Rule.fires, tagHolds, Matches]
      leaf exact .min 9
    by_cases h9 : h = b!"residential"
    · subst h9
      simp [backgroundWay, backgroundRoad, exec_seq_seq, exec_call_seq, exec_call, exec_levels, exec_ite, exec_seq_ite, exec_seq_skip, LuaCond.eval, hv, decideBy, backgroundWays, largeRoads, mediumRoads, smallRoads, Rule.fires, tagHolds, Matches]
      leaf exact .min 12
    by_cases h10 : h = b!"living_street"
    · subst h10
      simp [backgroundWay, backgroundRoad, exec_seq_seq, exec_call_seq, exec_call, exec_levels, exec_ite, exec_seq_ite, exec_seq_skip, LuaCond.eval, hv, decideBy, backgroundWays, largeRoads, mediumRoads, smallRoads, Rule.fires, tagHolds, Matches]
      leaf exact .min 12
    by_cases h11 : h = b!"primary_link"
    · subst h11
      simp [backgroundWay, backgroundRoad, exec_seq_seq, exec_call_seq, exec_call, exec_levels, exec_ite, exec_seq_ite, exec_seq_skip, LuaCond.eval, hv, decideBy, backgroundWays, largeRoads, mediumRoads, smallRoads, Rule.fires, tagHolds, Matches]
      leaf exact .min 12
    by_cases h12 : h = b!"secondary_link"
    · subst h12
      simp [backgroundWay, backgroundRoad, exec_seq_seq, exec_call_seq, exec_call, exec_levels, exec_ite, exec_seq_ite, exec_seq_skip, LuaCond.eval, hv, decideBy, backgroundWays, largeRoads, mediumRoads, smallRoads, Rule.fires, tagHolds, Matches]
      leaf exact .min 12
    by_cases h13 : h = b!"tertiary_link"
    · subst h13
      simp [backgroundWay, backgroundRoad, exec_seq_seq, exec_call_seq, exec_call, exec_levels, exec_ite, exec_seq_ite, exec_seq_skip, LuaCond.eval, hv, decideBy, backgroundWays, largeRoads, mediumRoads, smallRoads, Rule.fires, tagHolds, Matches]
      leaf exact .min 12
    by_cases h14 : h = b!"unclassified"
    · subst h14
      simp [backgroundWay, backgroundRoad, exec_seq_seq, exec_call_seq, exec_call, exec_levels, exec_ite, exec_seq_ite, exec_seq_skip, LuaCond.eval, hv, decideBy, backgroundWays, largeRoads, mediumRoads, smallRoads, Rule.fires, tagHolds, Matches]
      leaf exact .min 12
    by_cases h15 : h = b!"service"
    · subst h15
      simp [backgroundWay, backgroundRoad, exec_seq_seq, exec_call_seq, exec_call, exec_levels, exec_ite, exec_seq_ite, exec_seq_skip, LuaCond.eval, hv, decideBy, backgroundWays, largeRoads, mediumRoads, smallRoads, Rule.fires, tagHolds, Matches]
      leaf exact .min 12
    by_cases h16 : h = b!"footway"
    · subst h16
      simp [backgroundWay, backgroundRoad, exec_seq_seq, exec_call_seq, exec_call, exec_levels, exec_ite, exec_seq_ite, exec_seq_skip, LuaCond.eval, hv, decideBy, backgroundWays, largeRoads, mediumRoads, smallRoads, Rule.fires, tagHolds, Matches]
      leaf exact .min 14
    by_cases h17 : h = b!"track"
    · subst h17
      simp [backgroundWay, backgroundRoad, exec_seq_seq, exec_call_seq, exec_call, exec_levels, exec_ite, exec_seq_ite, exec_seq_skip, LuaCond.eval, hv, decideBy, backgroundWays, largeRoads, mediumRoads, smallRoads, Rule.fires, tagHolds, Matches]
      leaf exact .min 14
    by_cases h18 : h = b!"steps"
    · subst h18
      simp [backgroundWay, backgroundRoad, exec_seq_seq, exec_call_seq, exec_call, exec_levels, exec_ite, exec_seq_ite, exec_seq_skip, LuaCond.eval, hv, decideBy, backgroundWays, largeRoads, mediumRoads, smallRoads, Rule.fires, tagHolds, Matches]
      leaf exact .min 14
    by_cases h19 : h = b!"cycleway"
    · subst h19
      simp [backgroundWay, backgroundRoad, exec_seq_seq, exec_call_seq, exec_call, exec_levels, exec_ite, exec_seq_ite, exec_seq_skip, LuaCond.eval, hv, decideBy, backgroundWays, largeRoads, mediumRoads, smallRoads, Rule.fires, tagHolds, Matches]
      leaf exact .min 14
    by_cases h20 : h = b!"path"
    · subst h20
      simp [backgroundWay, backgroundRoad, exec_seq_seq, exec_call_seq, exec_call, exec_levels, exec_ite, exec_seq_ite, exec_seq_skip, LuaCond.eval, hv, decideBy, backgroundWays, largeRoads, mediumRoads, smallRoads, Rule.fires, tagHolds, Matches]
      leaf exact .min 14
    simp [backgroundWay, backgroundRoad, exec_ite, exec_seq_ite, exec_seq_skip, exec_call_seq, exec_call, exec_skip, LuaCond.eval, hv, h1, h2, h3, h4, h5, h6, h7, h8, h9, h10, h11, h12, h13, h14, h15, h16, h17, h18, h19, h20, Ne.symm h1, Ne.symm h2, Ne.symm h3, Ne.symm h4, Ne.symm h5, Ne.symm h6, Ne.symm h7, Ne.symm h8, Ne.symm h9, Ne.symm h10, Ne.symm h11, Ne.symm h12, Ne.symm h13, Ne.symm h14, Ne.symm h15, Ne.symm h16, Ne.symm h17, Ne.symm h18, Ne.symm h19, Ne.symm h20, decideBy, backgroundWays, largeRoads, mediumRoads, smallRoads, Rule.fires, tagHolds, Matches, approves]
  | none =>
    have water : ∀ (hr : ∀ r, tagValue tags b!"railway" = some r → r ∉ ([b!"rail", b!"light_rail", b!"subway", b!"tram", b!"narrow_gauge"] : List Bytes)),
        Matches numeral tags (backgroundWay.exec numeral tags).1 (decideBy backgroundWays (tagValue tags)) := by
      intro hr
      have hr1 : ∀ xs : List Bytes, (∀ x ∈ xs, x ∈ ([b!"rail", b!"light_rail", b!"subway", b!"tram", b!"narrow_gauge"] : List Bytes)) → tagHolds (tagValue tags) (b!"railway", some xs) = false := by
        intro xs hxs
        unfold tagHolds
        cases h : tagValue tags b!"railway" with
        | none => rfl
        | some r =>
          rw [Bool.eq_false_iff, ne_eq, List.contains_iff_mem]
          exact fun hc => hr r h (hxs r hc)
      have hh : LuaCond.eval tags (.hasAny b!"highway" []) = false := by simp [LuaCond.eval, hv]
      simp only [backgroundWay, exec_ite]
      rw [eval_hasAny _ b!"railway" _ _ (by decide), hr1 _ (by decide), hh, eval_present]
      have e : decideBy backgroundWays (tagValue tags) = decideBy waterways (tagValue tags) := by
        have hh : ∀ xs, tagHolds (tagValue tags) (b!"highway", xs) = false := by intro xs; simp [tagHolds, hv]
        simp only [decideBy, backgroundWays, List.cons_append, List.nil_append, List.find?_cons, Rule.fires, List.all_cons, List.all_nil, List.any_cons, List.any_nil, hh,
          hr1 [b!"rail", b!"light_rail", b!"subway", b!"tram", b!"narrow_gauge"] (by decide), hr1 [b!"subway", b!"tram", b!"light_rail", b!"narrow_gauge"] (by decide), hr1 [b!"rail"] (by decide), Bool.false_and, Bool.false_or, Bool.or_self]
      rw [e]
      simp only [Bool.false_eq_true, if_false]
      exact table_waterway numeral tags
    cases hw : tagValue tags b!"railway" with
    | none => exact water (by simp [hw])
    | some h =>
      by_cases h1 : h = b!"rail"
      · subst h1
        have hm := table_fullWay_minor tags (by simp [hw])
        cases hb : minorRail.any (tagHolds (tagValue tags)) with
        | true =>
          rw [hb] at hm
          simp [backgroundWay, backgroundRail, exec_ite, exec_seq_ite, exec_call_seq, LuaCond.eval, hv, hw, hm, hb, decideBy, backgroundWays, Rule.fires, tagHolds, Matches]
          leaf exact .min 14
        | false =>
          rw [hb] at hm
          simp [backgroundWay, backgroundRail, exec_ite, exec_seq_ite, exec_call_seq, LuaCond.eval, hv, hw, hm, hb, decideBy, backgroundWays, Rule.fires, tagHolds, Matches]
          leaf exact .min 5
      by_cases h2 : h = b!"light_rail"
      · subst h2
        have hm := table_fullWay_minor tags (by simp [hw])
        cases hb : minorRail.any (tagHolds (tagValue tags)) with
        | true =>
          rw [hb] at hm
          simp [backgroundWay, backgroundRail, exec_ite, exec_seq_ite, exec_call_seq, LuaCond.eval, hv, hw, hm, hb, decideBy, backgroundWays, Rule.fires, tagHolds, Matches]
          leaf exact .min 14
        | false =>
          rw [hb] at hm
          simp [backgroundWay, backgroundRail, exec_ite, exec_seq_ite, exec_call_seq, LuaCond.eval, hv, hw, hm, hb, decideBy, backgroundWays, Rule.fires, tagHolds, Matches]
          leaf exact .min 10
      by_cases h3 : h = b!"subway"
      · subst h3
        have hm := table_fullWay_minor tags (by simp [hw])
        cases hb : minorRail.any (tagHolds (tagValue tags)) with
        | true =>
          rw [hb] at hm
          simp [backgroundWay, backgroundRail, exec_ite, exec_seq_ite, exec_call_seq, LuaCond.eval, hv, hw, hm, hb, decideBy, backgroundWays, Rule.fires, tagHolds, Matches]
          leaf exact .min 14
        | false =>
          rw [hb] at hm
          simp [backgroundWay, backgroundRail, exec_ite, exec_seq_ite, exec_call_seq, LuaCond.eval, hv, hw, hm, hb, decideBy, backgroundWays, Rule.fires, tagHolds, Matches]
          leaf exact .min 10
      by_cases h4 : h = b!"tram"
      · subst h4
        have hm := table_fullWay_minor tags (by simp [hw])
        cases hb : minorRail.any (tagHolds (tagValue tags)) with
        | true =>
          rw [hb] at hm
          simp [backgroundWay, backgroundRail, exec_ite, exec_seq_ite, exec_call_seq, LuaCond.eval, hv, hw, hm, hb, decideBy, backgroundWays, Rule.fires, tagHolds, Matches]
          leaf exact .min 14
        | false =>
          rw [hb] at hm
          simp [backgroundWay, backgroundRail, exec_ite, exec_seq_ite, exec_call_seq, LuaCond.eval, hv, hw, hm, hb, decideBy, backgroundWays, Rule.fires, tagHolds, Matches]
          leaf exact .min 10
      by_cases h5 : h = b!"narrow_gauge"
      · subst h5
        have hm := table_fullWay_minor tags (by simp [hw])
        cases hb : minorRail.any (tagHolds (tagValue tags)) with
        | true =>
          rw [hb] at hm
          simp [backgroundWay, backgroundRail, exec_ite, exec_seq_ite, exec_call_seq, LuaCond.eval, hv, hw, hm, hb, decideBy, backgroundWays, Rule.fires, tagHolds, Matches]
          leaf exact .min 14
        | false =>
          rw [hb] at hm
          simp [backgroundWay, backgroundRail, exec_ite, exec_seq_ite, exec_call_seq, LuaCond.eval, hv, hw, hm, hb, decideBy, backgroundWays, Rule.fires, tagHolds, Matches]
          leaf exact .min 10
      exact water (by rw [hw]; intro r hr; injection hr with hr; subst hr; simp [h1, h2, h3, h4, h5])

set_option hygiene false in
/-- the condition of a branch is the condition of a rule -/
macro "condition" : tactic => `(tactic| (
  simp only [eval_or, complexConds]
  first | rw [eval_present] | rw [eval_hasAny _ _ _ _ (by decide)] | (repeat rw [eval_hasTag _ _ _ (by decide)])
  simp only [Rule.fires, among, List.all_cons, List.all_nil, List.any_cons, List.any_nil, Bool.or_false, Bool.and_true, tagHolds_cons, Bool.or_assoc]
  try first | done | ac_rfl))

set_option hygiene false in
/-- one branch and one rule -/
macro "row" z:tacticSeq : tactic => `(tactic| (refine .cons ⟨by condition, by (leaf ($z))⟩ ?_))

theorem table_fullArea : Matches numeral tags (fullArea.exec numeral tags).1 (decideBy fullAreas (tagValue tags)) := by
  have e : fullArea = luaChain [(_, _), (_, _), (_, _), (_, _), (_, _), (_, _), (_, _), (_, _), (_, _), (_, _), (_, _), (_, _), (_, _), (_, _), (_, _)] := rfl
  rw [e]
  clear e
  refine chain_matches (table := fullAreas) ?_
  simp only [fullAreas, commonAreas, byAreaLanduse, List.cons_append, List.nil_append]
  row exact zoom_landuse _ _ _ 14 12 10 rfl rfl rfl (by decide) (by decide) (by decide)
  row exact zoom_landuse _ _ _ 14 10 8 rfl rfl rfl (by decide) (by decide) (by decide)
  row exact zoom_landuse _ _ _ 14 10 8 rfl rfl rfl (by decide) (by decide) (by decide)
  row exact zoom_landuse _ _ _ 14 10 8 rfl rfl rfl (by decide) (by decide) (by decide)
  row exact zoom_landuse _ _ _ 14 10 8 rfl rfl rfl (by decide) (by decide) (by decide)
  row exact zoom_landuse _ _ _ 14 10 8 rfl rfl rfl (by decide) (by decide) (by decide)
  row exact zoom_landuse _ _ _ 14 10 8 rfl rfl rfl (by decide) (by decide) (by decide)
  row exact zoom_landuse _ _ _ 14 10 8 rfl rfl rfl (by decide) (by decide) (by decide)
  row exact zoom_landuse _ _ _ 14 10 8 rfl rfl rfl (by decide) (by decide) (by decide)
  row exact zoom_water
  row exact zoom_landuse _ _ _ 14 10 8 rfl rfl rfl (by decide) (by decide) (by decide)
  row exact zoom_landuse _ _ _ 12 10 8 rfl rfl rfl (by decide) (by decide) (by decide)
  row exact zoom_landuse _ _ _ 14 12 8 rfl rfl rfl (by decide) (by decide) (by decide)
  row exact zoom_landuse _ _ _ 12 10 8 rfl rfl rfl (by decide) (by decide) (by decide)
  row exact .min 18
  exact .nil

theorem table_backgroundArea : Matches numeral tags (backgroundArea.exec numeral tags).1 (decideBy backgroundAreas (tagValue tags)) := by
  have e : backgroundArea = luaChain [(_, _), (_, _), (_, _), (_, _), (_, _), (_, _), (_, _), (_, _)] := rfl
  rw [e]
  clear e
  refine chain_matches (table := backgroundAreas) ?_
  simp only [backgroundAreas, commonAreas, byAreaLanduse, List.cons_append, List.nil_append]
  row exact zoom_landuse _ _ _ 14 12 10 rfl rfl rfl (by decide) (by decide) (by decide)
  row exact zoom_landuse _ _ _ 14 10 8 rfl rfl rfl (by decide) (by decide) (by decide)
  row exact zoom_landuse _ _ _ 14 10 8 rfl rfl rfl (by decide) (by decide) (by decide)
  row exact zoom_landuse _ _ _ 14 10 8 rfl rfl rfl (by decide) (by decide) (by decide)
  row exact zoom_water
  row exact zoom_landuse _ _ _ 14 10 8 rfl rfl rfl (by decide) (by decide) (by decide)
  row exact zoom_landuse _ _ _ 12 10 8 rfl rfl rfl (by decide) (by decide) (by decide)
  row exact zoom_landuse _ _ _ 14 12 8 rfl rfl rfl (by decide) (by decide) (by decide)
  exact .nil

end
end Tiles
