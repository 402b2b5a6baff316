import Verif.Proof.AggIndex
import Batteries.Data.List.Perm
/-! The loops that join lines keep every line and join everything that can be joined. -/
namespace Tiles
open Spec

section
variable (pts : List Line) (idx : List (XY × Nat))

/-- the handles hold chains, and every line is in exactly one of them -/
structure AInv (s : Slots) : Prop where
  len : s.length = pts.length
  good : ∀ a l, s.get a = some l → AGood pts idx l
  self : ∀ a l, s.get a = some l → a ∈ ids l.tree
  leaf : ∀ a l, s.get a = some l → ∀ i r, l.tree = .leaf i r → r = false
  uniq : ∀ a b l o i, s.get a = some l → s.get b = some o → i ∈ ids l.tree → i ∈ ids o.tree → a = b
  cover : ∀ i, i < pts.length → ∃ a l, s.get a = some l ∧ i ∈ ids l.tree
  range : ∀ a l, s.get a = some l → ∀ i ∈ ids l.tree, i < pts.length

/-- nothing more can be joined to the lines of `t` -/
def AFin (t : JTree) : Prop := ∀ p i j, p ≠ invalidXY → Junction pts p i j → i ∈ ids t → j ∈ ids t

/-- nothing more can be joined to `t` at the end `E` -/
def DoneAt (E : Option XY) (t : JTree) : Prop := ∀ p, p ≠ invalidXY → E = some p → ∀ i j, Junction pts p i j → i ∈ ids t ∧ j ∈ ids t

/-- handle `k` is being processed: those before are done, those after are untouched -/
structure ALoop (k : Nat) (s : Slots) : Prop extends AInv pts idx s where
  before : ∀ a l, a < k → s.get a = some l → AFin pts l.tree
  after : ∀ a l, k < a → s.get a = some l → ids l.tree = [a]

variable {pts idx}

theorem endsAt_lt {i : Nat} {p : XY} (h : EndsAt pts i p) : i < pts.length := by
  unfold EndsAt lineNo at h
  rw [List.getD_eq_getElem?_getD] at h
  by_contra hc
  rw [List.getElem?_eq_none (by omega)] at h
  simp at h

theorem done_invalid {E : Option XY} {t : JTree} (hi : AggIdx pts idx) (h : EndOk idx E invalidXY) : DoneAt pts E t := by
  intro p hp hE i j hj
  rcases h with h | h
  · rw [hE] at h; injection h with h; exact absurd h hp
  · exact absurd (junction_two hi hj) (h.2 p hE)

theorem fin_of_done (hi : AggIdx pts idx) {l : JLine} (hl : AGood pts idx l) (h1 : DoneAt pts (startOf pts (lv l.tree)) l.tree)
    (h2 : DoneAt pts (stopOf pts (lv l.tree)) l.tree) : AFin pts l.tree := by
  intro p i j hp hJ hm
  by_contra hc
  rcases end_or hi hl.chain hl.nodup hm hc (junction_two hi hJ) hJ.2.1 hJ.2.2.1 with h | h
  · exact hc (h1 p hp h i j hJ).2
  · exact hc (h2 p hp h i j hJ).2

/-! ### burning -/

theorem burn_get (pos : XY) (es : List Nat) : ∀ (s : Slots) (a : Nat), Slots.get (burn pos es s) a = Slots.get s a ∨
    ∃ l, Slots.get s a = some l ∧ Slots.get (burn pos es s) a = some (burnLine pos l) := by
  have hbb : ∀ l, burnLine pos (burnLine pos l) = burnLine pos l := by
    intro l
    unfold burnLine
    simp only [JLine.mk.injEq, and_true]
    constructor
    · split
      · split <;> rfl
      · rfl
    · split
      · split <;> rfl
      · rfl
  induction es with
  | nil => intro s a; exact .inl rfl
  | cons j es ih =>
    intro s a
    unfold burn
    cases hj : s.get j with
    | none => exact ih s a
    | some l =>
      dsimp only
      have hlt := Slots.get_lt hj
      rcases ih (s.set j (some (burnLine pos l))) a with h | ⟨o, h1, h2⟩
      · rw [h, Slots.get_set]
        by_cases ha : a = j
        · right; subst ha; rw [if_pos rfl, if_pos hlt]; exact ⟨l, hj, rfl⟩
        · left; rw [if_neg ha]
      · right
        rw [Slots.get_set] at h1
        by_cases ha : a = j
        · subst ha
          rw [if_pos rfl, if_pos hlt] at h1
          injection h1 with h1
          rw [← h1, hbb] at h2
          exact ⟨l, hj, h2⟩
        · rw [if_neg ha] at h1
          exact ⟨o, h1, h2⟩

theorem burn_length (pos : XY) (es : List Nat) : ∀ s : Slots, (burn pos es s).length = s.length := by
  induction es with
  | nil => intro s; rfl
  | cons j es ih =>
    intro s
    unfold burn
    cases s.get j with
    | none => exact ih s
    | some l => dsimp only; rw [ih, List.length_set]

theorem burn_loop (hi : AggIdx pts idx) {k : Nat} {s : Slots} (h : ALoop pts idx k s) {pos : XY} (h2 : (entriesAt idx pos).length ≠ 2) (es : List Nat) :
    ALoop pts idx k (burn pos es s) := by
  have back : ∀ a l, Slots.get (burn pos es s) a = some l → ∃ l', s.get a = some l' ∧ l.tree = l'.tree ∧ AGood pts idx l := by
    intro a l hl
    rcases burn_get pos es s a with e | ⟨o, e1, e2⟩
    · rw [e] at hl; exact ⟨l, hl, rfl, h.good a l hl⟩
    · rw [e2] at hl; injection hl with hl; subst hl
      exact ⟨o, e1, rfl, good_burn hi (h.good a o e1) h2⟩
  have forth : ∀ a l, s.get a = some l → ∃ l', Slots.get (burn pos es s) a = some l' ∧ l'.tree = l.tree := by
    intro a l hl
    rcases burn_get pos es s a with e | ⟨o, e1, e2⟩
    · exact ⟨l, by rw [e]; exact hl, rfl⟩
    · rw [hl] at e1; injection e1 with e1; subst e1
      exact ⟨_, e2, rfl⟩
  refine ⟨⟨?_, ?_, ?_, ?_, ?_, ?_, ?_⟩, ?_, ?_⟩
  · rw [burn_length]; exact h.len
  · intro a l hl; obtain ⟨_, _, _, e⟩ := back a l hl; exact e
  · intro a l hl; obtain ⟨o, e1, e2, _⟩ := back a l hl; rw [e2]; exact h.self a o e1
  · intro a l hl; obtain ⟨o, e1, e2, _⟩ := back a l hl; rw [e2]; exact h.leaf a o e1
  · intro a b l l' i hl hl' hil hil'
    obtain ⟨o, e1, e2, _⟩ := back a l hl
    obtain ⟨o', e1', e2', _⟩ := back b l' hl'
    exact h.uniq a b o o' i e1 e1' (e2 ▸ hil) (e2' ▸ hil')
  · intro i hlt
    obtain ⟨a, l, hl, hil⟩ := h.cover i hlt
    obtain ⟨l', e1, e2⟩ := forth a l hl
    exact ⟨a, l', e1, e2 ▸ hil⟩
  · intro a l hl; obtain ⟨o, e1, e2, _⟩ := back a l hl; rw [e2]; exact h.range a o e1
  · intro a l hak hl; obtain ⟨o, e1, e2, _⟩ := back a l hl; rw [e2]; exact h.before a o hak e1
  · intro a l hak hl; obtain ⟨o, e1, e2, _⟩ := back a l hl; rw [e2]; exact h.after a o hak e1

/-! ### finding the other line -/

/-- `E` is an end of `l` where `pos` is -/
structure AtEnd (l : JLine) (pos : XY) (E : Option XY) : Prop where
  ok : EndOk idx E pos
  mem : ∀ p, E = some p → ∃ x ∈ ids l.tree, EndsAt pts x p

theorem atEnd_from {l : JLine} (hl : AGood pts idx l) : AtEnd (pts := pts) (idx := idx) l l.from_ (startOf pts (lv l.tree)) := by
  refine ⟨hl.fromOk, ?_⟩
  intro p hp
  obtain ⟨x, c, h1, _, h3⟩ := start_mem hp
  exact ⟨x.1, by unfold ids; rw [h1]; simp, h3⟩

theorem atEnd_to {l : JLine} (hl : AGood pts idx l) : AtEnd (pts := pts) (idx := idx) l l.to_ (stopOf pts (lv l.tree)) := by
  refine ⟨hl.toOk, ?_⟩
  intro p hp
  obtain ⟨x, c, h1, _, h3⟩ := stop_mem hp
  exact ⟨x.1, by unfold ids; rw [h1]; simp, h3⟩

theorem find_none (hi : AggIdx pts idx) {k : Nat} {s s' : Slots} (h : ALoop pts idx k s) {l : JLine} (hl : s.get k = some l) {pos : XY} {E : Option XY}
    (hE : AtEnd (pts := pts) (idx := idx) l pos E) (hf : findIncident idx s k pos = (none, s')) :
    ALoop pts idx k s' ∧ ∃ l', s'.get k = some l' ∧ l'.tree = l.tree ∧ DoneAt pts E l.tree := by
  unfold findIncident at hf
  by_cases hp : pos = invalidXY
  · rw [if_pos hp] at hf
    injection hf with _ hf
    subst hf
    exact ⟨h, l, hl, rfl, done_invalid hi (hp ▸ hE.ok)⟩
  rw [if_neg hp] at hf
  by_cases h2 : (entriesAt idx pos).length = 2
  · rw [if_pos h2] at hf
    injection hf with hf1 hf2
    subst hf2
    refine ⟨h, l, hl, rfl, ?_⟩
    intro p hp' hEp
    have hpp : pos = p := hE.ok.eq hEp (by
      have := hE.ok.some_ hp; rw [hEp] at this; injection this with this; rw [this]; exact h2)
    subst hpp
    obtain ⟨x, hx1, hx2⟩ := hE.mem pos hEp
    have key : ∀ j, Junction pts pos x j → j ∈ ids l.tree := by
      intro j hJ
      by_contra hc
      obtain ⟨b, o, hb1, hb2⟩ := h.cover j (endsAt_lt hJ.2.2.1)
      have hbk : b ≠ k := by rintro rfl; rw [hl] at hb1; injection hb1 with hb1; exact hc (hb1 ▸ hb2)
      rcases Nat.lt_trichotomy b k with hlt | he | hgt
      · have := h.before b o hlt hb1 pos j x hp (Junction.symm hJ) hb2
        exact hbk (h.uniq b k o l x hb1 hl this hx1)
      · exact hbk he
      · have hpl := h.after b o hgt hb1
        rw [hpl, List.mem_singleton] at hb2
        subst hb2
        unfold lastOther at hf1
        rw [List.getLast?_eq_none_iff, List.filter_eq_nil_iff] at hf1
        have := hf1 j ((hi.mem pos j).2 hJ.2.2.1)
        apply this
        simp [hbk, hb1]
    intro i j hJ
    rcases hJ.2.2.2.1 x hx2 with e | e
    · subst e; exact ⟨hx1, key j hJ⟩
    · subst e; exact ⟨key i (Junction.symm hJ), hx1⟩
  · rw [if_neg h2] at hf
    injection hf with _ hf
    subst hf
    refine ⟨burn_loop hi h h2 _, ?_⟩
    have hd : DoneAt pts E l.tree := by
      intro p hp' hEp i j hJ
      have := hE.ok.some_ hp
      rw [hEp] at this; injection this with this
      exact absurd (junction_two hi hJ) (this ▸ h2)
    rcases burn_get pos (entriesAt idx pos) s k with e | ⟨o, e1, e2⟩
    · exact ⟨l, by rw [e]; exact hl, rfl, hd⟩
    · rw [hl] at e1; injection e1 with e1; subst e1
      exact ⟨_, e2, rfl, hd⟩

theorem find_some {k : Nat} {s s' : Slots} {pos : XY} {j : Nat} (hf : findIncident idx s k pos = (some j, s')) :
    s' = s ∧ pos ≠ invalidXY ∧ (entriesAt idx pos).length = 2 ∧ j ≠ k ∧ j ∈ entriesAt idx pos ∧ ∃ o, s.get j = some o := by
  unfold findIncident at hf
  by_cases hp : pos = invalidXY
  · rw [if_pos hp] at hf; cases hf
  rw [if_neg hp] at hf
  by_cases h2 : (entriesAt idx pos).length = 2
  · rw [if_pos h2] at hf
    injection hf with hf1 hf2
    unfold lastOther at hf1
    have := List.mem_of_getLast? hf1
    rw [List.mem_filter] at this
    simp only [ne_eq, Bool.and_eq_true, decide_eq_true_eq, Option.isSome_iff_exists] at this
    exact ⟨hf2.symm, hp, h2, this.2.1, this.1, this.2.2⟩
  · rw [if_neg h2] at hf; cases hf

/-- the other line is closed: nothing to join -/
theorem find_blossom (hi : AggIdx pts idx) {k : Nat} {s : Slots} (h : AInv pts idx s) {l o : JLine} (hl : s.get k = some l) {pos : XY} {E : Option XY}
    (hE : AtEnd (pts := pts) (idx := idx) l pos E) (hp : pos ≠ invalidXY) (h2 : (entriesAt idx pos).length = 2) {j : Nat} (hjk : j ≠ k)
    (hj : j ∈ entriesAt idx pos) (ho : s.get j = some o) (hb : o.from_ = o.to_) : DoneAt pts E l.tree := by
  have hEp := hE.ok.some_ hp
  obtain ⟨x, hx1, hx2⟩ := hE.mem pos hEp
  have hxo : x ∉ ids o.tree := fun hx => hjk (h.uniq j k o l x ho hl hx hx1)
  have hjo := h.self j o ho
  have hcl := closed_other hi (h.good j o ho) hjo hxo hp h2 ((hi.mem pos j).1 hj) hx2 hb
  intro p hp' hEp' a b hJ
  rw [hEp] at hEp'; injection hEp' with hpp; subst hpp
  rcases hJ.2.2.2.1 j ((hi.mem pos j).1 hj) with e | e
  · subst e; exact absurd hcl hJ.2.2.2.2.1
  · subst e; exact absurd hcl hJ.2.2.2.2.2

/-- the other line ends at `pos` -/
theorem find_ends (hi : AggIdx pts idx) {k : Nat} {s : Slots} (h : AInv pts idx s) {l o : JLine} (hl : s.get k = some l) {pos : XY} {E : Option XY}
    (hE : AtEnd (pts := pts) (idx := idx) l pos E) (hp : pos ≠ invalidXY) (h2 : (entriesAt idx pos).length = 2) {j : Nat} (hjk : j ≠ k)
    (hj : j ∈ entriesAt idx pos) (ho : s.get j = some o) : startOf pts (lv o.tree) = some pos ∨ stopOf pts (lv o.tree) = some pos := by
  obtain ⟨x, hx1, hx2⟩ := hE.mem pos (hE.ok.some_ hp)
  have hxo : x ∉ ids o.tree := fun hx => hjk (h.uniq j k o l x ho hl hx hx1)
  exact end_or hi (h.good j o ho).chain (h.good j o ho).nodup (h.self j o ho) hxo h2 ((hi.mem pos j).1 hj) hx2

/-! ### joining -/

theorem join_loop {k : Nat} {s : Slots} (h : ALoop pts idx k s) {l o : JLine} (hl : s.get k = some l) {j : Nat} (hjk : j ≠ k) (ho : s.get j = some o)
    {n : JLine} (hn : AGood pts idx n) (hleaf : ∀ i r, n.tree ≠ .leaf i r) (hids : ∀ i, i ∈ ids n.tree ↔ i ∈ ids o.tree ∨ i ∈ ids l.tree) :
    ALoop pts idx k ((s.set j none).set k (some n)) ∧ Slots.get ((s.set j none).set k (some n)) k = some n := by
  have hklt := Slots.get_lt hl
  have hget : ∀ a, Slots.get ((s.set j none).set k (some n)) a = if a = k then some n else if a = j then none else s.get a := by
    intro a
    rw [Slots.get_set, Slots.get_set, List.length_set, if_pos hklt]
    simp
  have old : ∀ a l', Slots.get ((s.set j none).set k (some n)) a = some l' → (a = k ∧ l' = n) ∨ (a ≠ k ∧ a ≠ j ∧ s.get a = some l') := by
    intro a l' hl'
    rw [hget] at hl'
    by_cases hak : a = k
    · rw [if_pos hak] at hl'; injection hl' with hl'; exact .inl ⟨hak, hl'.symm⟩
    · rw [if_neg hak] at hl'
      by_cases haj : a = j
      · rw [if_pos haj] at hl'; cases hl'
      · rw [if_neg haj] at hl'; exact .inr ⟨hak, haj, hl'⟩
  have un : ∀ a l' i, a ≠ k → a ≠ j → s.get a = some l' → i ∈ ids l'.tree → i ∈ ids n.tree → False := by
    intro a l' i hak haj hl' h1 h2
    rcases (hids i).1 h2 with h2 | h2
    · exact haj (h.uniq a j l' o i hl' ho h1 h2)
    · exact hak (h.uniq a k l' l i hl' hl h1 h2)
  refine ⟨⟨⟨?_, ?_, ?_, ?_, ?_, ?_, ?_⟩, ?_, ?_⟩, ?_⟩
  · rw [List.length_set, List.length_set]; exact h.len
  · intro a l' hl'
    rcases old a l' hl' with ⟨_, rfl⟩ | ⟨_, _, e⟩
    · exact hn
    · exact h.good a l' e
  · intro a l' hl'
    rcases old a l' hl' with ⟨rfl, rfl⟩ | ⟨_, _, e⟩
    · exact (hids _).2 (.inr (h.self _ l hl))
    · exact h.self a l' e
  · intro a l' hl'
    rcases old a l' hl' with ⟨rfl, rfl⟩ | ⟨_, _, e⟩
    · intro i r hir; exact absurd hir (hleaf i r)
    · exact h.leaf a l' e
  · intro a b l1 l2 i h1 h2 h3 h4
    rcases old a l1 h1 with ⟨rfl, rfl⟩ | ⟨ha1, ha2, e1⟩ <;> rcases old b l2 h2 with ⟨rfl, rfl⟩ | ⟨hb1, hb2, e2⟩
    · rfl
    · exact (un b l2 i hb1 hb2 e2 h4 h3).elim
    · exact (un a l1 i ha1 ha2 e1 h3 h4).elim
    · exact h.uniq a b l1 l2 i e1 e2 h3 h4
  · intro i hlt
    obtain ⟨a, l', h1, h2⟩ := h.cover i hlt
    by_cases hak : a = k
    · subst hak; rw [hl] at h1; injection h1 with h1; subst h1
      exact ⟨a, n, by rw [hget, if_pos rfl], (hids i).2 (.inr h2)⟩
    · by_cases haj : a = j
      · subst haj; rw [ho] at h1; injection h1 with h1; subst h1
        exact ⟨k, n, by rw [hget, if_pos rfl], (hids i).2 (.inl h2)⟩
      · exact ⟨a, l', by rw [hget, if_neg hak, if_neg haj]; exact h1, h2⟩
  · intro a l' hl' i hil
    rcases old a l' hl' with ⟨rfl, rfl⟩ | ⟨_, _, e⟩
    · rcases (hids i).1 hil with e | e
      · exact h.range j o ho i e
      · exact h.range _ l hl i e
    · exact h.range a l' e i hil
  · intro a l' hak hl'
    rcases old a l' hl' with ⟨rfl, rfl⟩ | ⟨_, _, e⟩
    · omega
    · exact h.before a l' hak e
  · intro a l' hak hl'
    rcases old a l' hl' with ⟨rfl, rfl⟩ | ⟨_, _, e⟩
    · omega
    · exact h.after a l' hak e
  · rw [hget, if_pos rfl]

theorem ids_node (a b : JTree) : ids (.node a b false) = ids a ++ ids b := by simp [ids, lv]

theorem ids_lt {s : Slots} (h : AInv pts idx s) {k : Nat} {l : JLine} (hl : s.get k = some l) : (ids l.tree).length ≤ pts.length := by
  have := List.subperm_of_subset (l₂ := List.range pts.length) (h.good k l hl).nodup (by
    intro i hi; exact List.mem_range.2 (h.range k l hl i hi))
  simpa using this.length_le

theorem ids_len (t : JTree) : (ids t).length = (lv t).length := by simp [ids]

theorem lv_pos (t : JTree) : 1 ≤ (lv t).length := by
  have := lv_ne t
  cases h : lv t with
  | nil => exact absurd h this
  | cons => simp

theorem joinFrom_ok (hi : AggIdx pts idx) (k : Nat) : ∀ fuel s l, ALoop pts idx k s → s.get k = some l → (l.from_ ≠ l.to_ ∨ 2 ≤ (lv l.tree).length) →
    pts.length < fuel + (ids l.tree).length → ∃ s' l', joinFrom idx k fuel s = .ok s' ∧ ALoop pts idx k s' ∧ s'.get k = some l' ∧
      DoneAt pts (startOf pts (lv l'.tree)) l'.tree ∧ (l'.from_ ≠ l'.to_ → l'.from_ ≠ l'.to_ ∨ 2 ≤ (lv l'.tree).length) := by
  intro fuel
  induction fuel with
  | zero => intro s l h hl _ hf; have := ids_lt h.toAInv hl; omega
  | succ fuel ih =>
    intro s l h hl hopen hf
    have hlg := h.good k l hl
    have hE := atEnd_from hlg
    unfold joinFrom
    rw [hl]
    dsimp only
    cases hfi : findIncident idx s k l.from_ with
    | mk r s' =>
      cases r with
      | none =>
        obtain ⟨h1, l', h2, h3, h4⟩ := find_none hi h hl hE hfi
        exact ⟨s', l', rfl, h1, h2, by rw [h3]; exact h4, fun e => .inl e⟩
      | some j =>
        obtain ⟨rfl, hp, h2, hjk, hje, o, ho⟩ := find_some hfi
        dsimp only
        rw [ho]
        dsimp only
        by_cases hb : o.from_ = o.to_
        · rw [if_pos hb]
          exact ⟨s', l, rfl, h, hl, find_blossom hi h.toAInv hl hE hp h2 hjk hje ho hb, fun e => .inl e⟩
        rw [if_neg hb]
        have hog := h.good j o ho
        have hls := hlg.fromOk.some_ hp
        have hdis : ∀ i ∈ ids o.tree, i ∉ ids l.tree := fun i h1 h2 => hjk (h.uniq j k o l i ho hl h1 h2)
        by_cases hto : l.from_ = o.to_
        · rw [if_pos hto]
          have hn := good_join hog hlg hdis (.inl hb) hopen h2 (hto ▸ hog.toOk.some_ (hto ▸ hp)) hls
          obtain ⟨h3, h4⟩ := join_loop h hl hjk ho hn (by simp) (by intro i; dsimp only; rw [ids_node, List.mem_append])
          refine ih _ _ h3 h4 (.inr ?_) ?_
          · have h5 := lv_pos o.tree; have h6 := lv_pos l.tree
            simp [lv]; omega
          · rw [ids_node, List.length_append]
            have := lv_pos o.tree; rw [← ids_len] at this; omega
        · rw [if_neg hto]
          have hst : startOf pts (lv o.tree) = some l.from_ := by
            rcases find_ends hi h.toAInv hl hE hp h2 hjk hje ho with e | e
            · exact e
            · exact absurd (hog.toOk.eq e h2).symm hto
          have hn := good_join hog.flip hlg (by
            intro i hio; exact hdis i ((ids_flip _).mem_iff.1 hio)) (.inl (Ne.symm hb)) hopen h2 (by
            dsimp only; rw [lv_flip, stopOf_rv]; exact hst) hls
          obtain ⟨h3, h4⟩ := join_loop h hl hjk ho hn (by simp) (by
            intro i; dsimp only; rw [ids_node, List.mem_append, (ids_flip _).mem_iff])
          refine ih _ _ h3 h4 (.inr ?_) ?_
          · have h5 := lv_pos o.tree.flip; have h6 := lv_pos l.tree
            simp [lv]; omega
          · rw [ids_node, List.length_append]
            have := lv_pos o.tree.flip; rw [← ids_len] at this; dsimp only; omega

theorem joinTo_ok (hi : AggIdx pts idx) (k : Nat) : ∀ fuel s l, ALoop pts idx k s → s.get k = some l → (l.from_ ≠ l.to_ ∨ 2 ≤ (lv l.tree).length) →
    DoneAt pts (startOf pts (lv l.tree)) l.tree →
    pts.length < fuel + (ids l.tree).length → ∃ s' l', joinTo idx k fuel s = .ok s' ∧ ALoop pts idx k s' ∧ s'.get k = some l' ∧
      DoneAt pts (startOf pts (lv l'.tree)) l'.tree ∧ DoneAt pts (stopOf pts (lv l'.tree)) l'.tree := by
  intro fuel
  induction fuel with
  | zero => intro s l h hl _ _ hf; have := ids_lt h.toAInv hl; omega
  | succ fuel ih =>
    intro s l h hl hopen hdone hf
    have hlg := h.good k l hl
    have hE := atEnd_to hlg
    unfold joinTo
    rw [hl]
    dsimp only
    cases hfi : findIncident idx s k l.to_ with
    | mk r s' =>
      cases r with
      | none =>
        obtain ⟨h1, l', h2, h3, h4⟩ := find_none hi h hl hE hfi
        exact ⟨s', l', rfl, h1, h2, by rw [h3]; exact hdone, by rw [h3]; exact h4⟩
      | some j =>
        obtain ⟨rfl, hp, h2, hjk, hje, o, ho⟩ := find_some hfi
        dsimp only
        rw [ho]
        dsimp only
        by_cases hb : o.from_ = o.to_
        · rw [if_pos hb]
          exact ⟨s', l, rfl, h, hl, hdone, find_blossom hi h.toAInv hl hE hp h2 hjk hje ho hb⟩
        rw [if_neg hb]
        have hog := h.good j o ho
        have hls := hlg.toOk.some_ hp
        have hdis : ∀ i ∈ ids l.tree, i ∉ ids o.tree := fun i h1 h2 => hjk (h.uniq j k o l i ho hl h2 h1)
        have mono : ∀ t : JTree, startOf pts (lv (.node l.tree t false)) = startOf pts (lv l.tree) := by
          intro t
          unfold startOf
          simp only [lv, Bool.false_eq_true, if_false]
          rw [List.head?_append_of_ne_nil _ (lv_ne _)]
        have hdone' : ∀ t : JTree, DoneAt pts (startOf pts (lv (.node l.tree t false))) (.node l.tree t false) := by
          intro t p hp hEp a b hJ
          rw [mono] at hEp
          have := hdone p hp hEp a b hJ
          rw [ids_node, List.mem_append, List.mem_append]
          exact ⟨.inl this.1, .inl this.2⟩
        by_cases hto : l.to_ = o.from_
        · rw [if_pos hto]
          have hn := good_join hlg hog hdis hopen (.inl hb) h2 hls (hto ▸ hog.fromOk.some_ (hto ▸ hp))
          obtain ⟨h3, h4⟩ := join_loop h hl hjk ho hn (by simp) (by intro i; dsimp only; rw [ids_node, List.mem_append, or_comm])
          refine ih _ _ h3 h4 (.inr ?_) (hdone' _) ?_
          · have h5 := lv_pos o.tree; have h6 := lv_pos l.tree
            simp [lv]; omega
          · rw [ids_node, List.length_append]
            have := lv_pos o.tree; rw [← ids_len] at this; omega
        · rw [if_neg hto]
          have hst : stopOf pts (lv o.tree) = some l.to_ := by
            rcases find_ends hi h.toAInv hl hE hp h2 hjk hje ho with e | e
            · exact absurd (hog.fromOk.eq e h2).symm hto
            · exact e
          have hn := good_join hlg hog.flip (by
            intro i hio hio'; exact hdis i hio ((ids_flip _).mem_iff.1 hio')) hopen (.inl (Ne.symm hb)) h2 hls (by
            dsimp only; rw [lv_flip, startOf_rv]; exact hst)
          obtain ⟨h3, h4⟩ := join_loop h hl hjk ho hn (by simp) (by
            intro i; dsimp only; rw [ids_node, List.mem_append, (ids_flip _).mem_iff, or_comm])
          refine ih _ _ h3 h4 (.inr ?_) (hdone' _) ?_
          · have h5 := lv_pos o.tree.flip; have h6 := lv_pos l.tree
            simp [lv]; omega
          · rw [ids_node, List.length_append]
            have := lv_pos o.tree.flip; rw [← ids_len] at this; dsimp only; omega

variable (pts idx) in
/-- between two handles -/
structure AOuter (k : Nat) (s : Slots) : Prop extends AInv pts idx s where
  before : ∀ a l, a < k → s.get a = some l → AFin pts l.tree
  after : ∀ a l, k ≤ a → s.get a = some l → ids l.tree = [a]

theorem ALoop.next {k : Nat} {s : Slots} (h : ALoop pts idx k s) (hk : ∀ l, s.get k = some l → AFin pts l.tree) : AOuter pts idx (k + 1) s := by
  refine ⟨h.toAInv, ?_, fun a l hak hl => h.after a l (by omega) hl⟩
  intro a l hak hl
  by_cases e : a = k
  · subst e; exact hk l hl
  · exact h.before a l (by omega) hl

theorem joinAt_ok (hi : AggIdx pts idx) {k : Nat} {s : Slots} (h : AOuter pts idx k s) : ∃ s', joinAt idx s k = .ok s' ∧ AOuter pts idx (k + 1) s' := by
  have hL : ALoop pts idx k s := ⟨h.toAInv, h.before, fun a l hak hl => h.after a l (by omega) hl⟩
  unfold joinAt
  cases hl : s.get k with
  | none => exact ⟨s, rfl, hL.next (by intro l e; rw [hl] at e; cases e)⟩
  | some l =>
    dsimp only
    have hlg := h.good k l hl
    by_cases hft : l.from_ = l.to_
    · rw [if_pos hft]
      refine ⟨s, rfl, hL.next ?_⟩
      intro l' hl'
      rw [hl] at hl'; injection hl' with hl'; subst hl'
      by_cases hinv : l.from_ = invalidXY
      · exact fin_of_done hi hlg (done_invalid hi (hinv ▸ hlg.fromOk)) (done_invalid hi (hinv ▸ hft ▸ hlg.toOk))
      · have h1 := hlg.fromOk.some_ hinv
        have h2 := hlg.toOk.some_ (hft ▸ hinv)
        have hids := h.after k l (Nat.le_refl _) hl
        have hlv : ∃ r, lv l.tree = [(k, r)] := by
          unfold ids at hids
          cases hc : lv l.tree with
          | nil => exact absurd hc (lv_ne _)
          | cons x c =>
            rw [hc] at hids
            cases c with
            | nil => simp at hids; exact ⟨x.2, by rw [← hids]⟩
            | cons => simp at hids
        obtain ⟨r, hr⟩ := hlv
        rw [hr] at h1 h2
        have hcl : Closed pts k := by
          rw [closed_iff pts (k, r)]
          show startOf pts [(k, r)] = stopOf pts [(k, r)]
          rw [h1, h2, hft]
        intro p i j hp hJ hm
        rw [hids, List.mem_singleton] at hm
        subst hm
        exact absurd hcl hJ.2.2.2.2.1
    · rw [if_neg hft]
      have hlen := hL.len
      have hpos : 1 ≤ (ids l.tree).length := by rw [ids_len]; exact lv_pos _
      obtain ⟨s1, l1, e1, h1, h2, h3, h4⟩ := joinFrom_ok hi k (s.length + 1) s l hL hl (.inl hft) (by omega)
      rw [e1, Res.ok_bind, h2]
      dsimp only
      have h1g := h1.good k l1 h2
      by_cases hft1 : l1.from_ = l1.to_
      · rw [if_pos hft1]
        refine ⟨s1, rfl, h1.next ?_⟩
        intro l' hl'
        rw [h2] at hl'; injection hl' with hl'; subst hl'
        refine fin_of_done hi h1g h3 ?_
        by_cases hinv : l1.from_ = invalidXY
        · exact done_invalid hi (hinv ▸ hft1 ▸ h1g.toOk)
        · have e := h1g.fromOk.some_ hinv
          have e' := h1g.toOk.some_ (hft1 ▸ hinv)
          rw [e', ← hft1, ← e]
          exact h3
      · rw [if_neg hft1]
        have hlen1 := h1.len
        have hpos1 : 1 ≤ (ids l1.tree).length := by rw [ids_len]; exact lv_pos _
        obtain ⟨s2, l2, e2, g1, g2, g3, g4⟩ := joinTo_ok hi k (s1.length + 1) s1 l1 h1 h2 (.inl hft1) h3 (by omega)
        refine ⟨s2, e2, g1.next ?_⟩
        intro l' hl'
        rw [g2] at hl'; injection hl' with hl'; subst hl'
        exact fin_of_done hi (g1.good k l2 g2) g3 g4

theorem joinAll_ok (hi : AggIdx pts idx) : ∀ n k s, AOuter pts idx k s → ∃ s', joinAll idx n k s = .ok s' ∧ AOuter pts idx (k + n) s' := by
  intro n
  induction n with
  | zero => intro k s h; exact ⟨s, rfl, h⟩
  | succ n ih =>
    intro k s h
    obtain ⟨s1, e1, h1⟩ := joinAt_ok hi h
    obtain ⟨s2, e2, h2⟩ := ih (k + 1) s1 h1
    refine ⟨s2, ?_, ?_⟩
    · unfold joinAll; rw [e1, Res.ok_bind]; exact e2
    · have : k + (n + 1) = k + 1 + n := by omega
      rw [this]; exact h2

end

end Tiles
