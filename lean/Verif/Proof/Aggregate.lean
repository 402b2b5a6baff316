import Verif.Model.Aggregate
import Verif.Spec.Aggregate
/-! Joining the lines of one group: the invariant of the loops. -/
namespace Tiles
open Spec

/-! ### handles -/

theorem Slots.get_set (s : Slots) (j : Nat) (v : Option JLine) (a : Nat) :
    Slots.get (s.set j v) a = if a = j then (if j < s.length then v else none) else Slots.get s a := by
  unfold Slots.get
  rw [List.getElem?_set]
  by_cases h : j = a
  · subst h
    rw [if_pos rfl, if_pos rfl]
    split <;> simp
  · rw [if_neg h, if_neg (fun e => h e.symm)]

theorem Slots.get_lt {s : Slots} {a : Nat} {l : JLine} (h : s.get a = some l) : a < s.length := by
  unfold Slots.get at h
  by_contra hc
  rw [List.getElem?_eq_none (by omega)] at h
  cases h

/-! ### leaves -/

/-- the lines of a tree in the order in which their points are written -/
def lv : JTree → List (Nat × Bool)
  | .leaf i r => [(i, r)]
  | .node a b r => if r then lv b ++ lv a else lv a ++ lv b

/-- backwards -/
def rv (c : List (Nat × Bool)) : List (Nat × Bool) := (c.map (fun e => (e.1, !e.2))).reverse

theorem rv_append (a b : List (Nat × Bool)) : rv (a ++ b) = rv b ++ rv a := by simp [rv]

theorem lv_flip (t : JTree) : lv t.flip = rv (lv t) := by
  induction t with
  | leaf i r => rfl
  | node a b r iha ihb =>
    cases r
    · simp [JTree.flip, lv, iha, ihb, rv_append]
    · simp [JTree.flip, lv, iha, ihb, rv_append]

theorem lv_ne (t : JTree) : lv t ≠ [] := by
  induction t with
  | leaf i r => simp [lv]
  | node a b r iha ihb => cases r <;> simp [lv, iha, ihb]

/-- the numbers of the lines -/
def ids (t : JTree) : List Nat := (lv t).map (·.1)

theorem ids_flip (t : JTree) : (ids t.flip).Perm (ids t) := by
  unfold ids
  rw [lv_flip, rv, List.map_reverse, List.map_map]
  exact List.reverse_perm _

section
variable (pts : List Line) (idx : List (XY × Nat))

def st (e : Nat × Bool) : Option XY := (orient pts e).head?
def sp (e : Nat × Bool) : Option XY := (orient pts e).getLast?

theorem st_not (e : Nat × Bool) : st pts (e.1, !e.2) = sp pts e := by
  obtain ⟨i, r⟩ := e
  cases r <;> simp [st, sp, orient, List.head?_reverse]

theorem sp_not (e : Nat × Bool) : sp pts (e.1, !e.2) = st pts e := by
  obtain ⟨i, r⟩ := e
  cases r <;> simp [st, sp, orient, List.getLast?_reverse]

theorem endsAt_iff (e : Nat × Bool) (p : XY) : EndsAt pts e.1 p ↔ st pts e = some p ∨ sp pts e = some p := by
  obtain ⟨i, r⟩ := e
  cases r
  · simp [st, sp, orient, EndsAt]
  · simp [st, sp, orient, EndsAt, List.head?_reverse, List.getLast?_reverse, or_comm]

theorem closed_iff (e : Nat × Bool) : Closed pts e.1 ↔ st pts e = sp pts e := by
  obtain ⟨i, r⟩ := e
  cases r
  · simp [st, sp, orient, Closed]
  · simp [st, sp, orient, Closed, List.head?_reverse, List.getLast?_reverse, eq_comm]

/-- the index is right -/
structure AggIdx : Prop where
  nodup : ∀ p, (entriesAt idx p).Nodup
  mem : ∀ p i, i ∈ entriesAt idx p ↔ EndsAt pts i p

/-- `startOf`, `stopOf` a chain -/
def startOf (c : List (Nat × Bool)) : Option XY := c.head?.bind (st pts)
def stopOf (c : List (Nat × Bool)) : Option XY := c.getLast?.bind (sp pts)

theorem startOf_rv (c : List (Nat × Bool)) : startOf pts (rv c) = stopOf pts c := by
  unfold startOf stopOf rv
  rw [List.head?_reverse, List.getLast?_map]
  cases c.getLast? with
  | none => rfl
  | some e => exact st_not pts e

theorem stopOf_rv (c : List (Nat × Bool)) : stopOf pts (rv c) = startOf pts c := by
  unfold startOf stopOf rv
  rw [List.getLast?_reverse, List.head?_map]
  cases c.head? with
  | none => rfl
  | some e => exact sp_not pts e

/-- two consecutive lines of a chain -/
def Link (a b : Nat × Bool) : Prop :=
  ∃ p, sp pts a = some p ∧ st pts b = some p ∧ (entriesAt idx p).length = 2 ∧ ¬ Closed pts a.1 ∧ ¬ Closed pts b.1

theorem link_rv {c : List (Nat × Bool)} (h : c.IsChain (Link pts idx)) : (rv c).IsChain (Link pts idx) := by
  unfold rv
  rw [List.isChain_reverse, List.isChain_map]
  refine h.imp ?_
  rintro a b ⟨p, h1, h2, h3, h4, h5⟩
  exact ⟨p, by rw [sp_not]; exact h2, by rw [st_not]; exact h1, h3, h5, h4⟩

/-- an end point of a line is the end of its chain, or was burned -/
def EndOk (o : Option XY) (x : XY) : Prop := o = some x ∨ (x = invalidXY ∧ ∀ p, o = some p → (entriesAt idx p).length ≠ 2)

structure AGood (l : JLine) : Prop where
  chain : (lv l.tree).IsChain (Link pts idx)
  nodup : (ids l.tree).Nodup
  fromOk : EndOk idx (startOf pts (lv l.tree)) l.from_
  toOk : EndOk idx (stopOf pts (lv l.tree)) l.to_

variable {pts idx}

theorem AGood.flip {l : JLine} (h : AGood pts idx l) : AGood pts idx ⟨l.to_, l.from_, l.tree.flip⟩ := by
  refine ⟨?_, (ids_flip _).nodup_iff.2 h.nodup, ?_, ?_⟩
  · rw [lv_flip]; exact link_rv pts idx h.chain
  · dsimp only; rw [lv_flip, startOf_rv]; exact h.toOk
  · dsimp only; rw [lv_flip, stopOf_rv]; exact h.fromOk

theorem EndOk.eq {o : Option XY} {x p : XY} (h : EndOk idx o x) (ho : o = some p) (h2 : (entriesAt idx p).length = 2) : x = p := by
  rcases h with h | h
  · rw [ho] at h; injection h with h; exact h.symm
  · exact absurd h2 (h.2 p ho)

theorem EndOk.some_ {o : Option XY} {x : XY} (h : EndOk idx o x) (hx : x ≠ invalidXY) : o = some x := by
  rcases h with h | h
  · exact h
  · exact absurd h.1 hx

theorem two_mem {l : List Nat} (hn : l.Nodup) (h : l.length = 2) {a b : Nat} (ha : a ∈ l) (hb : b ∈ l) (hab : a ≠ b) : ∀ c ∈ l, c = a ∨ c = b := by
  match l, h with
  | [x, y], _ =>
    simp only [List.mem_cons, List.not_mem_nil, or_false] at ha hb ⊢
    intro c hc
    rcases ha with rfl | rfl <;> rcases hb with rfl | rfl <;> rcases hc with rfl | rfl <;> simp_all

theorem junction_two (hi : AggIdx pts idx) {p : XY} {i j : Nat} (h : Junction pts p i j) : (entriesAt idx p).length = 2 := by
  obtain ⟨h1, h2, h3, h4, _⟩ := h
  have hp : (entriesAt idx p).Perm [i, j] := by
    rw [List.perm_ext_iff_of_nodup (hi.nodup p) (by simp [h1])]
    intro k
    rw [hi.mem]
    constructor
    · intro hk; rcases h4 k hk with rfl | rfl <;> simp
    · intro hk
      simp only [List.mem_cons, List.not_mem_nil, or_false] at hk
      rcases hk with rfl | rfl
      · exact h2
      · exact h3
  exact hp.length_eq

theorem junction_of (hi : AggIdx pts idx) {p : XY} {i j : Nat} (hij : i ≠ j) (h2 : (entriesAt idx p).length = 2) (h3 : EndsAt pts i p) (h4 : EndsAt pts j p)
    (h5 : ¬ Closed pts i) (h6 : ¬ Closed pts j) : Junction pts p i j :=
  ⟨hij, h3, h4, fun k hk => two_mem (hi.nodup p) h2 ((hi.mem p i).2 h3) ((hi.mem p j).2 h4) hij k ((hi.mem p k).2 hk), h5, h6⟩

theorem Junction.symm {p : XY} {i j : Nat} (h : Junction pts p i j) : Junction pts p j i :=
  ⟨h.1.symm, h.2.2.1, h.2.1, fun k hk => (h.2.2.2.1 k hk).symm, h.2.2.2.2.2, h.2.2.2.2.1⟩

/-- Where only the lines `e` and `j` end, and a chain has `j` but not `e`, this is an end of the chain. -/
theorem end_or (hi : AggIdx pts idx) {c : List (Nat × Bool)} (hc : c.IsChain (Link pts idx)) (hn : (c.map (·.1)).Nodup) {j e : Nat} (hj : j ∈ c.map (·.1))
    (he : e ∉ c.map (·.1)) {p : XY} (h2 : (entriesAt idx p).length = 2) (hjp : EndsAt pts j p) (hep : EndsAt pts e p) :
    startOf pts c = some p ∨ stopOf pts c = some p := by
  have hej : e ≠ j := fun h => he (h ▸ hj)
  have htwo := two_mem (hi.nodup p) h2 ((hi.mem p e).2 hep) ((hi.mem p j).2 hjp) hej
  obtain ⟨x, hx, hxj⟩ := List.mem_map.1 hj
  obtain ⟨a, b, rfl⟩ := List.append_of_mem hx
  have hn' := hn
  rw [List.map_append, List.map_cons, List.nodup_append, List.nodup_cons] at hn'
  subst hxj
  have hno : ∀ y ∈ a ++ b, EndsAt pts y.1 p → False := by
    intro y hy hyp
    rcases htwo y.1 ((hi.mem p y.1).2 hyp) with h | h
    · apply he
      rw [← h, List.mem_map]
      exact ⟨y, by rcases List.mem_append.1 hy with h | h <;> simp [h], rfl⟩
    · rcases List.mem_append.1 hy with hy | hy
      · exact hn'.2.2 y.1 (List.mem_map.2 ⟨y, hy, rfl⟩) x.1 (by simp) h
      · exact hn'.2.1.1 (h ▸ List.mem_map.2 ⟨y, hy, rfl⟩)
  rcases (endsAt_iff pts x p).1 hjp with hs | hs
  · left
    rcases List.eq_nil_or_concat a with rfl | ⟨a', y, rfl⟩
    · exact hs
    · exfalso
      rw [List.isChain_append] at hc
      obtain ⟨q, q1, q2, _⟩ := hc.2.2 y (by simp) x (by simp)
      rw [hs] at q2; injection q2 with q2; subst q2
      exact hno y (by simp) ((endsAt_iff pts y p).2 (.inr q1))
  · right
    cases b with
    | nil =>
      unfold stopOf
      rw [List.getLast?_concat]
      exact hs
    | cons y b =>
      exfalso
      rw [List.isChain_append, List.isChain_cons_cons] at hc
      obtain ⟨q, q1, q2, _⟩ := hc.2.1.1
      rw [hs] at q1; injection q1 with q1; subst q1
      exact hno y (by simp) ((endsAt_iff pts y p).2 (.inl q2))

theorem start_mem {c : List (Nat × Bool)} {p : XY} (h : startOf pts c = some p) : ∃ x c', c = x :: c' ∧ st pts x = some p ∧ EndsAt pts x.1 p := by
  cases c with
  | nil => cases h
  | cons x c => exact ⟨x, c, rfl, h, (endsAt_iff pts x p).2 (.inl h)⟩

theorem stop_mem {c : List (Nat × Bool)} {p : XY} (h : stopOf pts c = some p) : ∃ x c', c = c' ++ [x] ∧ sp pts x = some p ∧ EndsAt pts x.1 p := by
  unfold stopOf at h
  cases hc : c.getLast? with
  | none => rw [hc] at h; cases h
  | some x =>
    rw [hc] at h
    obtain ⟨c', rfl⟩ := List.getLast?_eq_some_iff.1 hc
    exact ⟨x, c', rfl, h, (endsAt_iff pts x p).2 (.inr h)⟩

/-- a line that starts where it ends, at a point where another line ends too, is closed -/
theorem closed_other (hi : AggIdx pts idx) {o : JLine} (ho : AGood pts idx o) {j e : Nat} (hj : j ∈ ids o.tree) (he : e ∉ ids o.tree) {p : XY}
    (hp : p ≠ invalidXY) (h2 : (entriesAt idx p).length = 2) (hjp : EndsAt pts j p) (hep : EndsAt pts e p) (hft : o.from_ = o.to_) : Closed pts j := by
  have h := end_or hi ho.chain ho.nodup hj he h2 hjp hep
  have hboth : startOf pts (lv o.tree) = some p ∧ stopOf pts (lv o.tree) = some p := by
    rcases h with h | h
    · have h1 := ho.fromOk.eq h h2
      have h3 := ho.toOk.some_ (by rw [← hft, h1]; exact hp)
      exact ⟨h, by rw [h3, ← hft, h1]⟩
    · have h1 := ho.toOk.eq h h2
      have h3 := ho.fromOk.some_ (by rw [hft, h1]; exact hp)
      exact ⟨by rw [h3, hft, h1], h⟩
  obtain ⟨x, c, hx, hx1, hx2⟩ := start_mem hboth.1
  obtain ⟨y, c', hy, hy1, hy2⟩ := stop_mem hboth.2
  have hnd := ho.nodup
  unfold ids at hj he hnd
  cases c with
  | nil =>
    rw [hx] at hy hj
    have : c' = [] := by
      have := congrArg List.length hy
      simp at this
      exact this
    subst this
    simp only [List.nil_append, List.cons.injEq, and_true] at hy
    subst hy
    simp only [List.map_cons, List.map_nil, List.mem_singleton] at hj
    rw [hj, closed_iff pts x, hx1, hy1]
  | cons z c =>
    exfalso
    have hxy : x.1 ≠ y.1 := by
      rw [hx] at hy hnd
      cases c' with
      | nil => simp at hy
      | cons w c' =>
        rw [List.cons_append] at hy
        injection hy with hy1 hy2
        rw [hy2, List.map_cons, List.nodup_cons] at hnd
        intro hc
        exact hnd.1 (hc ▸ List.mem_map.2 ⟨y, by simp, rfl⟩)
    have hxm : x ∈ lv o.tree := by rw [hx]; simp
    have hym : y ∈ lv o.tree := by rw [hy]; simp
    rcases two_mem (hi.nodup p) h2 ((hi.mem p _).2 hx2) ((hi.mem p _).2 hy2) hxy e ((hi.mem p e).2 hep) with h | h
    · exact he (h ▸ List.mem_map.2 ⟨x, hxm, rfl⟩)
    · exact he (h ▸ List.mem_map.2 ⟨y, hym, rfl⟩)

/-- the lines at the ends of a chain are open, if the chain is not a closed line -/
theorem open_start {l : JLine} (hl : AGood pts idx l) (ho : l.from_ ≠ l.to_ ∨ 2 ≤ (lv l.tree).length) {p : XY} (h2 : (entriesAt idx p).length = 2)
    (hs : startOf pts (lv l.tree) = some p) {x : Nat × Bool} {c : List (Nat × Bool)} (hx : lv l.tree = x :: c) : ¬ Closed pts x.1 := by
  cases c with
  | cons z c =>
    have := hl.chain
    rw [hx, List.isChain_cons_cons] at this
    obtain ⟨_, _, _, _, h, _⟩ := this.1
    exact h
  | nil =>
    rcases ho with ho | ho
    · intro hc
      apply ho
      rw [closed_iff pts x] at hc
      have hst : st pts x = some p := by rw [hx] at hs; exact hs
      have h3 := hl.fromOk.eq hs h2
      have h4 := hl.toOk.eq (p := p) (by rw [hx]; show sp pts x = _; rw [← hc]; exact hst) h2
      rw [h3, h4]
    · rw [hx] at ho; simp at ho

theorem open_stop {l : JLine} (hl : AGood pts idx l) (ho : l.from_ ≠ l.to_ ∨ 2 ≤ (lv l.tree).length) {p : XY} (h2 : (entriesAt idx p).length = 2)
    (hs : stopOf pts (lv l.tree) = some p) {x : Nat × Bool} {c : List (Nat × Bool)} (hx : lv l.tree = c ++ [x]) : ¬ Closed pts x.1 := by
  have := open_start (l := ⟨l.to_, l.from_, l.tree.flip⟩) (x := (x.1, !x.2)) (c := rv c) hl.flip (by
    rcases ho with ho | ho
    · exact .inl (Ne.symm ho)
    · right; rw [lv_flip]; simpa [rv] using ho) h2 (by rw [lv_flip, startOf_rv]; exact hs) (by rw [lv_flip, hx, rv_append]; rfl)
  exact this

/-- joining two lines -/
theorem good_join {a b : JLine} (ha : AGood pts idx a) (hb : AGood pts idx b) (hd : ∀ i ∈ ids a.tree, i ∉ ids b.tree)
    (hao : a.from_ ≠ a.to_ ∨ 2 ≤ (lv a.tree).length) (hbo : b.from_ ≠ b.to_ ∨ 2 ≤ (lv b.tree).length) {p : XY} (h2 : (entriesAt idx p).length = 2)
    (h3 : stopOf pts (lv a.tree) = some p) (h4 : startOf pts (lv b.tree) = some p) : AGood pts idx ⟨a.from_, b.to_, .node a.tree b.tree false⟩ := by
  obtain ⟨x, c, hx, hx1, _⟩ := stop_mem h3
  obtain ⟨y, c', hy, hy1, _⟩ := start_mem h4
  have hlv : lv (.node a.tree b.tree false) = lv a.tree ++ lv b.tree := by simp [lv]
  refine ⟨?_, ?_, ?_, ?_⟩
  · dsimp only
    rw [hlv, List.isChain_append]
    refine ⟨ha.chain, hb.chain, ?_⟩
    intro u hu v hv
    rw [hx, List.getLast?_concat, Option.mem_some_iff] at hu
    rw [hy, List.head?_cons, Option.mem_some_iff] at hv
    subst hu; subst hv
    exact ⟨p, hx1, hy1, h2, open_stop ha hao h2 h3 hx, open_start hb hbo h2 h4 hy⟩
  · unfold ids
    dsimp only
    rw [hlv, List.map_append, List.nodup_append]
    refine ⟨ha.nodup, hb.nodup, ?_⟩
    intro i hia j hjb hij
    exact hd i hia (hij ▸ hjb)
  · dsimp only
    rw [hlv]
    have : startOf pts (lv a.tree ++ lv b.tree) = startOf pts (lv a.tree) := by
      unfold startOf
      rw [List.head?_append_of_ne_nil _ (lv_ne _)]
    rw [this]
    exact ha.fromOk
  · dsimp only
    rw [hlv]
    have : stopOf pts (lv a.tree ++ lv b.tree) = stopOf pts (lv b.tree) := by
      unfold stopOf
      rw [List.getLast?_append_of_ne_nil _ (lv_ne _)]
    rw [this]
    exact hb.toOk

theorem good_burn (hi : AggIdx pts idx) {l : JLine} (hl : AGood pts idx l) {pos : XY} (h2 : (entriesAt idx pos).length ≠ 2) : AGood pts idx (burnLine pos l) := by
  have key : ∀ o x, EndOk idx o x → EndOk idx o (if x = pos then invalidXY else x) := by
    intro o x h
    by_cases hx : x = pos
    · rw [if_pos hx]
      right
      refine ⟨rfl, ?_⟩
      intro p hp
      rcases h with h | h
      · rw [hp] at h; injection h with h; rw [h, hx]; exact h2
      · exact h.2 p hp
    · rw [if_neg hx]; exact h
  exact ⟨hl.chain, hl.nodup, key _ _ hl.fromOk, key _ _ hl.toOk⟩

end

end Tiles
