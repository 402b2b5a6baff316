import Verif.Model.QuadTree
import Verif.Spec.Order
import Verif.Proof.BqTree
import Mathlib.Data.List.Nodup
/-
Helper lemmas about the quad tree: level maps and the abstract tree.
-/
namespace Tiles
open Spec

/-! ### association lists -/

def mapLook {α : Type} (m : List (Tile × α)) (k : Tile) : Option α := (m.find? (fun e => e.1 = k)).map (·.2)

def mapNodup {α : Type} (m : List (Tile × α)) : Prop := (m.map (·.1)).Nodup

section
variable {α : Type}

@[simp] theorem mapLook_nil (k) : mapLook ([] : List (Tile × α)) k = none := rfl

theorem mapLook_cons (e : Tile × α) (m k) : mapLook (e :: m) k = if e.1 = k then some e.2 else mapLook m k := by
  simp only [mapLook, List.find?_cons]
  by_cases h : e.1 = k <;> simp [h]

theorem mapLook_eq_none {m : List (Tile × α)} {k} : mapLook m k = none ↔ ∀ e ∈ m, e.1 ≠ k := by
  simp [mapLook]

theorem mapLook_eq_some {m : List (Tile × α)} (h : mapNodup m) {k n} : mapLook m k = some n ↔ (k, n) ∈ m := by
  induction m with
  | nil => simp
  | cons e m ih =>
    simp only [mapNodup, List.map_cons, List.nodup_cons] at h
    rw [mapLook_cons]
    by_cases hk : e.1 = k
    · subst hk
      simp only [if_true, Option.some.injEq, List.mem_cons]
      constructor
      · rintro rfl; exact Or.inl rfl
      · rintro (h' | h')
        · rw [← h']
        · exact absurd (List.mem_map.2 ⟨_, h', rfl⟩) h.1
    · simp only [hk, if_false, ih h.2, List.mem_cons]
      constructor
      · exact Or.inr
      · rintro (h' | h')
        · exact absurd (congrArg Prod.fst h').symm hk
        · exact h'

theorem mapLook_update (m : List (Tile × α)) (t : Tile) (f : Option α → α) (k : Tile) :
    mapLook (mapUpdate m t f) k = if t = k then some (f (mapLook m k)) else mapLook m k := by
  induction m with
  | nil => simp only [mapUpdate, mapLook_cons, mapLook_nil]
  | cons e m ih =>
    simp only [mapUpdate]
    split
    · rename_i h
      rw [mapLook_cons, mapLook_cons, h]
      split <;> simp
    · rename_i h
      rw [mapLook_cons, mapLook_cons, ih]
      by_cases h1 : e.1 = k
      · subst h1; simp [Ne.symm h]
      · simp [h1]

theorem mapUpdate_keys (m : List (Tile × α)) (t : Tile) (f : Option α → α) :
    (mapUpdate m t f).map (·.1) = if t ∈ m.map (·.1) then m.map (·.1) else m.map (·.1) ++ [t] := by
  induction m with
  | nil => simp [mapUpdate]
  | cons e m ih =>
    simp only [mapUpdate]
    split
    · rename_i h; simp [← h]
    · rename_i h
      simp only [List.map_cons, ih, List.mem_cons, Ne.symm h, false_or]
      split <;> simp_all

theorem mapNodup_update {m : List (Tile × α)} (h : mapNodup m) (t : Tile) (f : Option α → α) : mapNodup (mapUpdate m t f) := by
  unfold mapNodup at *
  rw [mapUpdate_keys]
  split
  · exact h
  · rename_i h'
    rw [List.nodup_append]
    refine ⟨h, by simp, ?_⟩
    intro a ha b hb; simp at hb; subst hb; exact fun h'' => h' (h'' ▸ ha)
end

/-! ### folding attachments -/

theorem qFold_look (L m : List (Tile × Qt)) (k : Tile) :
    mapLook (L.foldl qAttach m) k =
      (L.filter (fun e => e.1.parent = k)).foldl (fun o e => some ((o.getD Qt.fresh).attach e.1.quadPos e.2)) (mapLook m k) := by
  induction L generalizing m with
  | nil => rfl
  | cons e L ih =>
    rw [List.foldl_cons, ih, List.filter_cons, qAttach, mapLook_update]
    by_cases h : e.1.parent = k <;> simp [h]

theorem qFold_nodup (L m : List (Tile × Qt)) (h : mapNodup m) : mapNodup (L.foldl qAttach m) := by
  induction L generalizing m with
  | nil => exact h
  | cons e L ih => exact ih _ (mapNodup_update h _ _)

/-- attaching a list of children to an existing node -/
theorem qAttach_many (F : List (Tile × Qt)) (o s t : Nat) (c0 c1 c2 c3 : Qt) (ht : t < 2 ^ 32)
    (hn : (F.map (fun e => e.1.quadPos)).Nodup) :
    ∃ d0 d1 d2 d3, F.foldl (fun o e => some ((o.getD Qt.fresh).attach e.1.quadPos e.2)) (some (.node o s t c0 c1 c2 c3)) =
      some (.node (F.foldl (fun a e => min a e.2.off) o) s ((t + (F.map (fun e => e.2.sub)).sum) % 2 ^ 32) d0 d1 d2 d3) ∧
      ∀ i < 4, (Qt.node 0 0 0 d0 d1 d2 d3).child i =
        ((F.find? (fun e => e.1.quadPos = i)).map (·.2)).getD ((Qt.node 0 0 0 c0 c1 c2 c3).child i) := by
  induction F generalizing o t c0 c1 c2 c3 with
  | nil => exact ⟨c0, c1, c2, c3, by simp [Nat.mod_eq_of_lt ht], by simp⟩
  | cons e F ih =>
    simp only [List.map_cons, List.nodup_cons] at hn
    have hq := Tile.quadPos_lt e.1
    obtain ⟨b0, b1, b2, b3, hb, hbc⟩ : ∃ b0 b1 b2 b3, (Qt.node o s t c0 c1 c2 c3).attach e.1.quadPos e.2 =
        .node (min o e.2.off) s ((t + e.2.sub) % 2 ^ 32) b0 b1 b2 b3 ∧
        ∀ i < 4, (Qt.node 0 0 0 b0 b1 b2 b3).child i = if i = e.1.quadPos then e.2 else (Qt.node 0 0 0 c0 c1 c2 c3).child i := by
      match e.1.quadPos, hq with
      | 0, _ => exact ⟨_, _, _, _, rfl, by rw [forall_lt_four]; simp [Qt.child]⟩
      | 1, _ => exact ⟨_, _, _, _, rfl, by rw [forall_lt_four]; simp [Qt.child]⟩
      | 2, _ => exact ⟨_, _, _, _, rfl, by rw [forall_lt_four]; simp [Qt.child]⟩
      | 3, _ => exact ⟨_, _, _, _, rfl, by rw [forall_lt_four]; simp [Qt.child]⟩
    obtain ⟨d0, d1, d2, d3, hd, hdc⟩ := ih (min o e.2.off) ((t + e.2.sub) % 2 ^ 32) b0 b1 b2 b3 (Nat.mod_lt _ (by omega)) hn.2
    refine ⟨d0, d1, d2, d3, ?_, fun i hi => ?_⟩
    · rw [List.foldl_cons, Option.getD_some, hb, hd]
      simp only [List.foldl_cons, List.map_cons, List.sum_cons, Nat.mod_add_mod, Nat.add_assoc]
    · rw [hdc i hi, hbc i hi, List.find?_cons]
      by_cases h : e.1.quadPos = i
      · subst h
        have : F.find? (fun x => x.1.quadPos = e.1.quadPos) = none := by
          rw [List.find?_eq_none]
          intro x hx; simp only [decide_eq_true_eq]
          intro h'; exact hn.1 (List.mem_map.2 ⟨x, hx, h'⟩)
        simp [this]
      · simp [h, Ne.symm h]

/-! ### the abstract tree -/

/-- offset/size of the entry at `k` itself -/
def entryAt (es : List QInput) (k : Tile) : Option QInput := es.find? (fun e => e.tile = k)

def Qt.mk (e : Option QInput) (c0 c1 c2 c3 : Qt) : Qt :=
  if e = Option.none ∧ c0 = .none ∧ c1 = .none ∧ c2 = .none ∧ c3 = .none then .none
  else .node (min (min (min (min ((e.map (·.offset)).getD (2 ^ 32 - 1)) c0.off) c1.off) c2.off) c3.off)
    ((e.map (·.size)).getD 0) ((((e.map (·.size)).getD 0) + (c0.sub + c1.sub + c2.sub + c3.sub)) % 2 ^ 32) c0 c1 c2 c3

def qtree (es : List QInput) : Nat → Tile → Qt
  | 0, k => .mk (entryAt es k) .none .none .none .none
  | d + 1, k => .mk (entryAt es k) (qtree es d (k.child 0)) (qtree es d (k.child 1)) (qtree es d (k.child 2)) (qtree es d (k.child 3))

theorem entryAt_some {es : List QInput} {k : Tile} {e : QInput} (h : entryAt es k = some e) : e ∈ es ∧ e.tile = k := by
  unfold entryAt at h
  exact ⟨List.mem_of_find?_eq_some h, by simpa using List.find?_some h⟩

theorem entryAt_mem {es : List QInput} (hn : (es.map (·.tile)).Nodup) {e : QInput} (h : e ∈ es) : entryAt es e.tile = some e := by
  induction es with
  | nil => simp at h
  | cons x es ih =>
    simp only [List.map_cons, List.nodup_cons] at hn
    rcases List.mem_cons.1 h with rfl | h
    · simp [entryAt]
    · have : x.tile ≠ e.tile := fun h' => hn.1 (h' ▸ List.mem_map.2 ⟨e, h, rfl⟩)
      simp only [entryAt, List.find?_cons, this, decide_false]
      exact ih hn.2 h

theorem entryAt_none {es : List QInput} {k : Tile} : entryAt es k = none ↔ ∀ e ∈ es, e.tile ≠ k := by
  simp [entryAt]

/-! the inputs of a level -/

theorem qInputs_aux (es : List QInput) (z : Nat) (m : List (Tile × Qt)) (hm : mapNodup m)
    (hn : (es.map (·.tile)).Nodup) (hdis : ∀ e ∈ es, mapLook m e.tile = none) :
    let r := es.foldl (fun m e =>
      if e.tile.z = z then mapUpdate m e.tile (fun _ => .node e.offset e.size e.size .none .none .none .none) else m) m
    mapNodup r ∧ ∀ k, mapLook r k = match mapLook m k with
      | some v => some v
      | none => if k.z = z then (entryAt es k).map (fun e => .node e.offset e.size e.size .none .none .none .none) else none := by
  induction es generalizing m with
  | nil =>
    refine ⟨hm, fun k => ?_⟩
    simp only [List.foldl_nil, entryAt, List.find?_nil, Option.map_none, ite_self]
    cases mapLook m k <;> rfl
  | cons e es ih =>
    simp only [List.map_cons, List.nodup_cons] at hn
    have hne : ∀ x ∈ es, x.tile ≠ e.tile := fun x hx h => hn.1 (h ▸ List.mem_map.2 ⟨x, hx, rfl⟩)
    simp only [List.foldl_cons]
    split
    · rename_i hz
      obtain ⟨h1, h2⟩ := ih _ (mapNodup_update hm e.tile _) hn.2 (by
        intro x hx
        rw [mapLook_update, if_neg (Ne.symm (hne x hx))]
        exact hdis x (by simp [hx]))
      refine ⟨h1, fun k => ?_⟩
      rw [h2 k, mapLook_update]
      by_cases hk : e.tile = k
      · subst hk
        rw [hdis e (by simp)]
        simp [hz, entryAt]
      · simp [hk, entryAt]
    · rename_i hz
      obtain ⟨h1, h2⟩ := ih m hm hn.2 (fun x hx => hdis x (by simp [hx]))
      refine ⟨h1, fun k => ?_⟩
      rw [h2 k]
      by_cases hk : e.tile = k
      · subst hk; simp [hz]
      · simp [hk, entryAt]

theorem qInputs_spec {es : List QInput} (hn : (es.map (·.tile)).Nodup) (z : Nat) :
    mapNodup (qInputs es z) ∧ ∀ k, mapLook (qInputs es z) k =
      if k.z = z then (entryAt es k).map (fun e => .node e.offset e.size e.size .none .none .none .none) else none := by
  obtain ⟨h1, h2⟩ := qInputs_aux es z [] (by simp [mapNodup]) hn (by simp)
  exact ⟨h1, fun k => by unfold qInputs; simpa using h2 k⟩

theorem Qt.mk_eq_none {e : Option QInput} {a b c d : Qt} :
    Qt.mk e a b c d = .none ↔ e = Option.none ∧ a = .none ∧ b = .none ∧ c = .none ∧ d = .none := by
  unfold Qt.mk; split <;> simp_all

theorem foldl_min_perm {F G : List (Tile × Qt)} (h : F.Perm G) (o : Nat) :
    F.foldl (fun a e => min a e.2.off) o = G.foldl (fun a e => min a e.2.off) o :=
  h.foldl_eq' (f := fun a e => min a e.2.off) (fun x _ y _ z => by omega) o

theorem Qt.off_le {es : List QInput} (hok : QOk es) (d : Nat) (k : Tile) : (qtree es d k).off ≤ 2 ^ 32 - 1 := by
  cases h : qtree es d k with
  | none => simp [Qt.off]
  | node o s t a b c e =>
    have key : ∀ (x : Option QInput) (a b c d : Qt), (∀ e, x = some e → e.offset < 2 ^ 32) → (Qt.mk x a b c d).off ≤ 2 ^ 32 - 1 := by
      intro x a b c d hx
      unfold Qt.mk
      split
      · simp [Qt.off]
      · simp only [Qt.off]
        have : (x.map (·.offset)).getD (2 ^ 32 - 1) ≤ 2 ^ 32 - 1 := by
          cases x with
          | none => simp
          | some e => have := hx e rfl; simp; omega
        omega
    rw [← h]
    cases d with
    | zero => exact key _ _ _ _ _ (fun e he => hok.off e (entryAt_some he).1)
    | succ d => exact key _ _ _ _ _ (fun e he => hok.off e (entryAt_some he).1)

theorem sum_sub_filter (l : List (Tile × Qt)) :
    ((l.filter (fun e => e.2 ≠ .none)).map (fun e => e.2.sub)).sum = (l.map (fun e => e.2.sub)).sum := by
  induction l with
  | nil => rfl
  | cons e l ih =>
    rw [List.filter_cons]
    by_cases h : e.2 = .none
    · simp only [h, ne_eq, not_true_eq_false, decide_false, Bool.false_eq_true, if_false, List.map_cons, List.sum_cons]
      rw [ih]; simp [Qt.sub]
    · simp only [h, ne_eq, not_false_eq_true, decide_true, if_true, List.map_cons, List.sum_cons]
      rw [ih]

/-- the level map is exactly the abstract tree -/
theorem qLevel_look {es : List QInput} (hok : QOk es) (maxz : Nat) (hb : maxz < 2 ^ 32)
    (d : Nat) (hd : d ≤ maxz) :
    mapNodup (qLevel es maxz d) ∧ ∀ k, mapLook (qLevel es maxz d) k =
      if k.z = maxz - d ∧ qtree es d k ≠ .none then some (qtree es d k) else none := by
  induction d with
  | zero =>
    obtain ⟨h1, h2⟩ := qInputs_spec hok.nodup maxz
    refine ⟨h1, fun k => ?_⟩
    simp only [qLevel, h2, qtree, Nat.sub_zero]
    by_cases hz : k.z = maxz
    · simp only [hz, true_and, if_true]
      cases he : entryAt es k with
      | none => simp [Qt.mk]
      | some e =>
        obtain ⟨hem, -⟩ := entryAt_some he
        have ho := hok.off e hem
        have hs := hok.size e hem
        simp only [Option.map_some, Qt.mk, reduceCtorEq, false_and, if_false, Option.getD_some, Qt.off, Qt.sub, ne_eq,
          not_false_eq_true, if_true, Option.some.injEq, Qt.node.injEq, true_and, and_true]
        omega
    · simp [hz]
  | succ d ih =>
    obtain ⟨ihn, ihl⟩ := ih (by omega)
    obtain ⟨hin, hil⟩ := qInputs_spec hok.nodup (maxz - (d + 1))
    refine ⟨qFold_nodup _ _ hin, fun k => ?_⟩
    simp only [qLevel]
    rw [qFold_look]
    have hmem : ∀ e ∈ qLevel es maxz d, e.1.z = maxz - d ∧ qtree es d e.1 ≠ .none ∧ e.2 = qtree es d e.1 := by
      intro e he
      have := (mapLook_eq_some ihn (k := e.1) (n := e.2)).2 he
      rw [ihl] at this
      split at this
      · rename_i h; exact ⟨h.1, h.2, (Option.some.inj this).symm⟩
      · simp at this
    have hz : ∀ e ∈ qLevel es maxz d, 0 < e.1.z ∧ e.1.z < 2 ^ 32 := by
      intro e he; have := hmem e he; omega
    by_cases hkz : k.z = maxz - (d + 1)
    · -- the attached children
      have hFmem : ∀ e, e ∈ (qLevel es maxz d).filter (fun e => e.1.parent = k) ↔
          ∃ i < 4, qtree es d (k.child i) ≠ .none ∧ e = (k.child i, qtree es d (k.child i)) := by
        intro e
        rw [List.mem_filter]
        constructor
        · rintro ⟨he, hp⟩
          simp only [decide_eq_true_eq] at hp
          obtain ⟨m1, m2, m3⟩ := hmem e he
          obtain ⟨z1, z2⟩ := hz e he
          have hc := Tile.child_parent e.1 z1 z2
          rw [hp] at hc
          refine ⟨e.1.quadPos, Tile.quadPos_lt _, by rw [hc]; exact m2, ?_⟩
          rw [hc, ← m3]
        · rintro ⟨i, hi, hne, rfl⟩
          refine ⟨?_, ?_⟩
          · rw [← mapLook_eq_some ihn, ihl, if_pos ⟨by simp only [Tile.child]; omega, hne⟩]
          · simp only [decide_eq_true_eq]; exact Tile.parent_child _ _ (by omega)
      let G : List (Tile × Qt) := ([0, 1, 2, 3].map (fun i => (k.child i, qtree es d (k.child i)))).filter (fun e => e.2 ≠ .none)
      have hGmem : ∀ e, e ∈ G ↔ ∃ i < 4, qtree es d (k.child i) ≠ .none ∧ e = (k.child i, qtree es d (k.child i)) := by
        intro e
        simp only [G, List.mem_filter, List.mem_map, decide_eq_true_eq]
        constructor
        · rintro ⟨⟨i, hi, rfl⟩, hne⟩
          refine ⟨i, ?_, hne, rfl⟩
          simp at hi; omega
        · rintro ⟨i, hi, hne, rfl⟩
          refine ⟨⟨i, ?_, rfl⟩, hne⟩
          simp; omega
      have hGn : G.Nodup := by
        apply List.Nodup.filter
        have hc : ∀ i j, i < 4 → j < 4 → i ≠ j → k.child i ≠ k.child j := fun i j hi hj h h' => h (Tile.child_inj hi hj h')
        simp only [List.map_cons, List.map_nil, List.nodup_cons, List.mem_cons, Prod.mk.injEq, List.not_mem_nil, or_false,
          not_or, not_and, not_false_eq_true, List.nodup_nil, and_true]
        refine ⟨⟨?_, ?_, ?_⟩, ⟨?_, ?_⟩, ?_⟩ <;> intro h <;> exact absurd h (hc _ _ (by omega) (by omega) (by omega))
      have hFn : ((qLevel es maxz d).filter (fun e => e.1.parent = k)).Nodup :=
        List.Nodup.filter _ (List.Nodup.of_map _ ihn)
      have hperm : ((qLevel es maxz d).filter (fun e => e.1.parent = k)).Perm G := by
        rw [List.perm_ext_iff_of_nodup hFn hGn]
        intro e; rw [hFmem, hGmem]
      generalize (qLevel es maxz d).filter (fun e => e.1.parent = k) = F at *
      have hFq : (F.map (fun e => e.1.quadPos)).Nodup := by
        rw [(hperm.map _).nodup_iff, List.nodup_map_iff_inj_on hGn]
        intro x hx y hy hxy
        obtain ⟨i, hi, _, rfl⟩ := (hGmem x).1 hx
        obtain ⟨j, hj, _, rfl⟩ := (hGmem y).1 hy
        simp only [Tile.quadPos_child _ hi, Tile.quadPos_child _ hj] at hxy
        subst hxy; rfl
      have hfind : ∀ i < 4, ((F.find? (fun e => e.1.quadPos = i)).map (·.2)).getD .none = qtree es d (k.child i) := by
        intro i hi
        cases hf : F.find? (fun e => e.1.quadPos = i) with
        | none =>
          simp only [Option.map_none, Option.getD_none]
          by_contra hne
          rw [List.find?_eq_none] at hf
          have := hf (k.child i, qtree es d (k.child i)) ((hFmem _).2 ⟨i, hi, Ne.symm hne, rfl⟩)
          simp [Tile.quadPos_child _ hi] at this
        | some e =>
          have h1 := List.mem_of_find?_eq_some hf
          have h2 := List.find?_some hf
          simp only [decide_eq_true_eq] at h2
          obtain ⟨j, hj, _, rfl⟩ := (hFmem e).1 h1
          simp only [Tile.quadPos_child _ hj] at h2
          subst h2; rfl
      have hsum : (F.map (fun e => e.2.sub)).sum =
          (qtree es d (k.child 0)).sub + (qtree es d (k.child 1)).sub + (qtree es d (k.child 2)).sub + (qtree es d (k.child 3)).sub := by
        rw [(hperm.map _).sum_nat]
        rw [sum_sub_filter]; simp; omega
      have hmin : ∀ o ≤ 2 ^ 32 - 1, F.foldl (fun a e => min a e.2.off) o =
          min (min (min (min o (qtree es d (k.child 0)).off) (qtree es d (k.child 1)).off) (qtree es d (k.child 2)).off) (qtree es d (k.child 3)).off := by
        intro o ho
        rw [foldl_min_perm hperm]
        have : ∀ (l : List (Tile × Qt)) (o : Nat), o ≤ 2 ^ 32 - 1 →
            (l.filter (fun e => e.2 ≠ .none)).foldl (fun a e => min a e.2.off) o = l.foldl (fun a e => min a e.2.off) o := by
          intro l
          induction l with
          | nil => intros; rfl
          | cons e l ih =>
            intro o ho
            rw [List.filter_cons]
            by_cases h : e.2 = .none
            · simp only [h, ne_eq, not_true_eq_false, decide_false, Bool.false_eq_true, if_false, List.foldl_cons]
              rw [ih o ho]; congr 1; simp only [Qt.off]; omega
            · simp only [h, ne_eq, not_false_eq_true, decide_true, if_true, List.foldl_cons]
              rw [ih _ (by omega)]
        rw [this _ _ ho]; simp
      simp only [hkz, true_and, hil, if_true]
      cases he : entryAt es k with
      | none =>
        cases F with
        | nil =>
          have : qtree es (d + 1) k = .none := by
            simp only [qtree, Qt.mk_eq_none, he, true_and]
            have h4 := hfind
            rw [forall_lt_four] at h4
            simpa [eq_comm] using h4
          simp [this]
        | cons e F =>
          have hF : (e :: F).foldl (fun o e => some ((o.getD Qt.fresh).attach e.1.quadPos e.2)) Option.none =
              (e :: F).foldl (fun o e => some ((o.getD Qt.fresh).attach e.1.quadPos e.2)) (some Qt.fresh) := rfl
          obtain ⟨d0, d1, d2, d3, hr, hc⟩ := qAttach_many (e :: F) (2 ^ 32 - 1) 0 0 .none .none .none .none (by omega) hFq
          simp only [Option.map_none]
          rw [hF]
          change _ = _ at hr
          rw [show (some Qt.fresh) = some (Qt.node (2 ^ 32 - 1) 0 0 .none .none .none .none) from rfl, hr]
          have hne : qtree es (d + 1) k ≠ .none := by
            obtain ⟨i, hi, hne, _⟩ := (hFmem e).1 (by simp)
            simp only [qtree, ne_eq, Qt.mk_eq_none, he, true_and]
            intro h
            have : ∀ i < 4, qtree es d (k.child i) = .none := by rw [forall_lt_four]; exact h
            exact hne (this i hi)
          rw [if_pos hne]
          have h4 : ∀ i < 4, (Qt.node 0 0 0 d0 d1 d2 d3).child i = qtree es d (k.child i) := by
            intro i hi
            rw [hc i hi, ← hfind i hi]
            congr 1
            match i, hi with
            | 0, _ => rfl
            | 1, _ => rfl
            | 2, _ => rfl
            | 3, _ => rfl
          rw [forall_lt_four] at h4
          simp only [Qt.child] at h4
          obtain ⟨e0, e1, e2, e3⟩ := h4
          rw [hmin _ (Nat.le_refl _), hsum]
          simp only [qtree, Qt.mk_eq_none, ne_eq] at hne ⊢
          rw [Qt.mk, if_neg hne, he, e0, e1, e2, e3]
          simp
      | some x =>
        obtain ⟨hxm, -⟩ := entryAt_some he
        have ho := hok.off x hxm
        have hs := hok.size x hxm
        obtain ⟨d0, d1, d2, d3, hr, hc⟩ := qAttach_many F x.offset x.size x.size .none .none .none .none hs hFq
        simp only [Option.map_some]
        rw [hr]
        have hne : qtree es (d + 1) k ≠ .none := by
          simp [qtree, Qt.mk_eq_none, he]
        rw [if_pos hne]
        have h4 : ∀ i < 4, (Qt.node 0 0 0 d0 d1 d2 d3).child i = qtree es d (k.child i) := by
          intro i hi
          rw [hc i hi, ← hfind i hi]
          congr 1
          match i, hi with
          | 0, _ => rfl
          | 1, _ => rfl
          | 2, _ => rfl
          | 3, _ => rfl
        rw [forall_lt_four] at h4
        simp only [Qt.child] at h4
        obtain ⟨e0, e1, e2, e3⟩ := h4
        rw [hmin _ (by omega), hsum]
        simp only [qtree, Qt.mk_eq_none, ne_eq] at hne ⊢
        rw [Qt.mk, if_neg hne, he, e0, e1, e2, e3]
        simp
    · simp only [hkz, false_and, if_false, hil]
      have : (qLevel es maxz d).filter (fun e => e.1.parent = k) = [] := by
        rw [List.filter_eq_nil_iff]
        intro e he
        simp only [decide_eq_true_eq]
        intro hp
        obtain ⟨h1, _, _⟩ := hmem e he
        have := congrArg Tile.z hp
        simp only [Tile.parent] at this
        omega
      rw [this]; rfl

end Tiles
