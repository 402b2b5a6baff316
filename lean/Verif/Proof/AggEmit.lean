import Verif.Proof.AggJoin
/-! The points of the joined lines. -/
namespace Tiles
open Spec

/-- appending lines to what is there already -/
def emitOnto (acc : Line) (ls : List Line) : Line := if acc.isEmpty then glue ls else acc ++ (ls.map List.tail).flatten

theorem emitOnto_append (acc : Line) (a b : List Line) (ha : ∀ l ∈ a, l ≠ []) : emitOnto (emitOnto acc a) b = emitOnto acc (a ++ b) := by
  cases acc with
  | cons x acc => simp [emitOnto]
  | nil =>
    cases a with
    | nil => simp [emitOnto, glue]
    | cons l a =>
      have : l ≠ [] := ha l (by simp)
      simp [emitOnto, glue, this]

theorem emitTree_ok (pts : List Line) (hne : ∀ l ∈ pts, l ≠ []) (t : JTree) : ∀ acc, (∀ i ∈ ids t, i < pts.length) →
    emitTree pts t acc = .ok (emitOnto acc ((lv t).map (orient pts))) := by
  have horient : ∀ e : Nat × Bool, e.1 < pts.length → orient pts e ≠ [] := by
    intro e he
    have : lineNo pts e.1 ≠ [] := by
      unfold lineNo
      rw [List.getD_eq_getElem?_getD, List.getElem?_eq_getElem he]
      exact hne _ (List.getElem_mem _)
    unfold orient
    split
    · simpa using this
    · exact this
  induction t with
  | leaf i r =>
    intro acc hlt
    have hi : i < pts.length := hlt i (by simp [ids, lv])
    have hat : at_ pts i = .ok (lineNo pts i) := by
      have : pts[i]? = some (lineNo pts i) := by
        unfold lineNo; rw [List.getD_eq_getElem?_getD, List.getElem?_eq_getElem hi]; rfl
      exact at_of_getElem? this
    unfold emitTree
    rw [hat, Res.ok_bind]
    dsimp only
    cases acc with
    | nil => cases r <;> simp [emitOnto, glue, lv, orient, Res.pure_eq]
    | cons x acc =>
      cases r
      · simp [emitOnto, lv, orient, Res.pure_eq]
      · simp only [List.isEmpty_cons, Bool.false_eq_true, if_false, if_true, emitOnto, lv, orient, Res.pure_eq, List.map_cons, List.map_nil,
          List.flatten_cons, List.flatten_nil, List.append_nil]
        rw [← List.dropLast_eq_take, List.tail_reverse]
  | node a b r iha ihb =>
    intro acc hlt
    have ha : ∀ i ∈ ids a, i < pts.length := by
      intro i hi; apply hlt; unfold ids at hi ⊢; cases r <;> simp [lv] at hi ⊢ <;> tauto
    have hb : ∀ i ∈ ids b, i < pts.length := by
      intro i hi; apply hlt; unfold ids at hi ⊢; cases r <;> simp [lv] at hi ⊢ <;> tauto
    have hn : ∀ t, (∀ i ∈ ids t, i < pts.length) → ∀ l ∈ (lv t).map (orient pts), l ≠ [] := by
      intro t ht l hl
      obtain ⟨e, he, rfl⟩ := List.mem_map.1 hl
      exact horient e (ht _ (List.mem_map.2 ⟨e, he, rfl⟩))
    unfold emitTree
    cases r
    · rw [if_neg (by simp), iha acc ha, Res.ok_bind, ihb _ hb, emitOnto_append _ _ _ (hn a ha)]
      simp [lv]
    · rw [if_pos rfl, ihb acc hb, Res.ok_bind, iha _ ha, emitOnto_append _ _ _ (hn b hb)]
      simp [lv]

/-- the chains of the handles -/
def chainsOf (s : Slots) : List (List (Nat × Bool)) := s.filterMap (fun o => o.map (fun l => lv l.tree))

theorem aggregateGeometry_ok (pts : List Line) (hne : ∀ l ∈ pts, l ≠ []) (s : Slots)
    (h1 : ∀ l, some l ∈ s → ∀ i ∈ ids l.tree, i < pts.length) (h2 : ∀ l, some l ∈ s → ∀ i r, l.tree = .leaf i r → r = false) :
    aggregateGeometry pts s = .ok ((chainsOf s).map (fun c => glue (c.map (orient pts)))) := by
  induction s with
  | nil => rfl
  | cons o s ih =>
    have ih := ih (fun l hl => h1 l (by simp [hl])) (fun l hl => h2 l (by simp [hl]))
    cases o with
    | none => unfold aggregateGeometry; rw [ih]; rfl
    | some l =>
      unfold aggregateGeometry
      have hlt := h1 l (by simp)
      have hr := h2 l (by simp)
      have hg : emitLine pts l.tree = .ok (glue ((lv l.tree).map (orient pts))) := by
        cases ht : l.tree with
        | leaf i r =>
          have := hr i r ht
          subst this
          rw [ht] at hlt
          have hi : i < pts.length := hlt i (by simp [ids, lv])
          unfold emitLine
          dsimp only
          have : pts[i]? = some (lineNo pts i) := by
            unfold lineNo; rw [List.getD_eq_getElem?_getD, List.getElem?_eq_getElem hi]; rfl
          rw [at_of_getElem? this]
          simp [lv, orient, glue]
        | node a b r =>
          unfold emitLine
          dsimp only
          rw [ht] at hlt
          rw [emitTree_ok pts hne _ [] hlt]
          rfl
      rw [hg, Res.ok_bind, ih, Res.ok_bind]
      simp [chainsOf, Res.pure_eq]

theorem get_iff_mem (s : Slots) (l : JLine) : some l ∈ s ↔ ∃ a, s.get a = some l := by
  rw [List.mem_iff_getElem?]
  unfold Slots.get
  constructor
  · rintro ⟨a, ha⟩; exact ⟨a, by rw [ha]; rfl⟩
  · rintro ⟨a, ha⟩; exact ⟨a, by
      cases h : s[a]? with
      | none => rw [h] at ha; cases ha
      | some o => rw [h] at ha; cases o with
        | none => cases ha
        | some o => exact congrArg some ha⟩

theorem chains_perm {pts : List Line} {idx : List (XY × Nat)} {s : Slots} (h : AInv pts idx s) :
    ((chainsOf s).flatten.map (·.1)).Perm (List.range pts.length) := by
  rw [List.perm_ext_iff_of_nodup ?_ List.nodup_range]
  · intro i
    rw [List.mem_range, List.mem_map]
    constructor
    · rintro ⟨e, he, rfl⟩
      obtain ⟨c, hc, hec⟩ := List.mem_flatten.1 he
      obtain ⟨o, ho, hoc⟩ := List.mem_filterMap.1 hc
      cases o with
      | none => cases hoc
      | some l =>
        simp only [Option.map_some, Option.some.injEq] at hoc
        obtain ⟨a, ha⟩ := (get_iff_mem s l).1 ho
        exact h.range a l ha _ (List.mem_map.2 ⟨e, hoc ▸ hec, rfl⟩)
    · intro hi
      obtain ⟨a, l, h1, h2⟩ := h.cover i hi
      obtain ⟨e, he, hei⟩ := List.mem_map.1 h2
      exact ⟨e, List.mem_flatten.2 ⟨lv l.tree, List.mem_filterMap.2 ⟨some l, (get_iff_mem s l).2 ⟨a, h1⟩, rfl⟩, he⟩, hei⟩
  · rw [List.map_flatten]
    unfold List.Nodup
    rw [List.pairwise_flatten]
    constructor
    · intro c hc
      obtain ⟨c', hc', rfl⟩ := List.mem_map.1 hc
      obtain ⟨o, ho, hoc⟩ := List.mem_filterMap.1 hc'
      cases o with
      | none => cases hoc
      | some l =>
        simp only [Option.map_some, Option.some.injEq] at hoc
        obtain ⟨a, ha⟩ := (get_iff_mem s l).1 ho
        subst hoc
        exact (h.good a l ha).nodup
    · rw [List.pairwise_map]
      unfold chainsOf
      rw [List.pairwise_filterMap, List.pairwise_iff_getElem]
      intro a b ha hb hab c hc c' hc' x hx y hy hxy
      subst hxy
      have g : ∀ k (hk : k < s.length) c, (s[k].map fun l => lv l.tree) = some c → x ∈ c.map (·.1) → ∃ l, s.get k = some l ∧ x ∈ ids l.tree := by
        intro k hk c hc hx
        cases ho : s[k] with
        | none => rw [ho] at hc; cases hc
        | some l =>
          rw [ho] at hc
          simp only [Option.map_some, Option.some.injEq] at hc
          subst hc
          exact ⟨l, by unfold Slots.get; rw [List.getElem?_eq_getElem hk, ho]; rfl, hx⟩
      obtain ⟨l, e1, e2⟩ := g a ha c hc hx
      obtain ⟨o, e3, e4⟩ := g b hb c' hc' hy
      have := h.uniq a b l o x e1 e3 e2 e4
      omega

theorem joinGroup_joined (pts : List Line) (hne : ∀ l ∈ pts, l ≠ []) : ∃ out, joinGroup pts = .ok out ∧ Joined invalidXY pts out := by
  obtain ⟨s0, e0, hlen, hget⟩ := makeHandles_ok pts hne 0
  have hi := idx_ok pts hget
  have hO : AOuter pts (makeIdx s0) 0 s0 := by
    have hg : ∀ a l, s0.get a = some l → ∃ g x y, pts[a]? = some g ∧ g.head? = some x ∧ g.getLast? = some y ∧ l = ⟨x, y, .leaf a false⟩ := by
      intro a l hl
      obtain ⟨g, x, y, h1, h2, h3, h4⟩ := (hget a l).1 hl
      exact ⟨g, x, y, h1, h2, h3, by simpa using h4⟩
    refine ⟨⟨hlen, ?_, ?_, ?_, ?_, ?_, ?_⟩, ?_, ?_⟩
    · intro a l hl
      obtain ⟨g, x, y, h1, h2, h3, rfl⟩ := hg a l hl
      have hla : lineNo pts a = g := by unfold lineNo; rw [List.getD_eq_getElem?_getD, h1]; rfl
      refine ⟨by simp [lv], by simp [ids, lv], .inl ?_, .inl ?_⟩
      · show (orient pts (a, false)).head? = some x
        simp [orient, hla, h2]
      · show (orient pts (a, false)).getLast? = some y
        simp [orient, hla, h3]
    · intro a l hl; obtain ⟨g, x, y, _, _, _, rfl⟩ := hg a l hl; simp [ids, lv]
    · intro a l hl; obtain ⟨g, x, y, _, _, _, rfl⟩ := hg a l hl
      intro i r h; injection h with _ h; exact h.symm
    · intro a b l o i hl ho h1 h2
      obtain ⟨g, x, y, _, _, _, rfl⟩ := hg a l hl
      obtain ⟨g', x', y', _, _, _, rfl⟩ := hg b o ho
      simp only [ids, lv, List.map_cons, List.map_nil, List.mem_singleton] at h1 h2
      rw [← h1, ← h2]
    · intro i hlt
      have hg1 : pts[i]? = some pts[i] := List.getElem?_eq_getElem hlt
      have hgne := hne _ (List.getElem_mem hlt)
      refine ⟨i, ⟨_, _, .leaf (0 + i) false⟩, (hget i _).2 ⟨pts[i], _, _, hg1, List.head?_eq_some_head hgne, List.getLast?_eq_some_getLast hgne, rfl⟩, by simp [ids, lv]⟩
    · intro a l hl i him
      obtain ⟨g, x, y, h1, _, _, rfl⟩ := hg a l hl
      simp only [ids, lv, List.map_cons, List.map_nil, List.mem_singleton] at him
      subst him
      exact (List.getElem?_eq_some_iff.1 h1).1
    · intro a l h; omega
    · intro a l _ hl; obtain ⟨g, x, y, _, _, _, rfl⟩ := hg a l hl; simp [ids, lv]
  obtain ⟨s, e1, h⟩ := joinAll_ok hi s0.length 0 s0 hO
  have hA := h.toAInv
  refine ⟨_, ?_, chainsOf s, rfl, chains_perm hA, ?_, ?_⟩
  · unfold joinGroup joinLines
    rw [e0, Res.ok_bind, e1, Res.ok_bind]
    exact aggregateGeometry_ok pts hne s
      (fun l hl => by obtain ⟨a, ha⟩ := (get_iff_mem s l).1 hl; exact hA.range a l ha)
      (fun l hl => by obtain ⟨a, ha⟩ := (get_iff_mem s l).1 hl; exact hA.leaf a l ha)
  · intro c hc
    obtain ⟨o, ho, hoc⟩ := List.mem_filterMap.1 hc
    cases o with
    | none => cases hoc
    | some l =>
      simp only [Option.map_some, Option.some.injEq] at hoc
      obtain ⟨a, ha⟩ := (get_iff_mem s l).1 ho
      subst hoc
      refine ⟨lv_ne _, ?_⟩
      have hgd := hA.good a l ha
      have hnd := hgd.nodup
      unfold ids at hnd
      -- consecutive lines are different, so a link is a junction
      have key : ∀ c : List (Nat × Bool), c.IsChain (Link pts (makeIdx s0)) → (c.map (·.1)).Nodup → c.IsChain (Linked pts) := by
        intro c
        induction c with
        | nil => intro _ _; exact List.IsChain.nil
        | cons x c ih =>
          intro hc hn
          cases c with
          | nil => exact List.IsChain.singleton _
          | cons y c =>
            rw [List.isChain_cons_cons] at hc ⊢
            refine ⟨?_, ih hc.2 (List.nodup_cons.1 hn).2⟩
            obtain ⟨p, p1, p2, p3, p4, p5⟩ := hc.1
            refine ⟨p, p1, p2, junction_of hi ?_ p3 ((endsAt_iff pts x p).2 (.inr p1)) ((endsAt_iff pts y p).2 (.inl p2)) p4 p5⟩
            intro hxy
            exact (List.nodup_cons.1 hn).1 (by simp [hxy])
      exact key _ hgd.chain hnd
  · intro p i j hp hJ
    obtain ⟨a, l, h1, h2⟩ := hA.cover i (endsAt_lt hJ.2.1)
    have hlt := Slots.get_lt h1
    have := h.before a l (by rw [hA.len] at hlt; omega) h1 p i j hp hJ h2
    exact ⟨lv l.tree, List.mem_filterMap.2 ⟨some l, (get_iff_mem s l).2 ⟨a, h1⟩, rfl⟩, h2, this⟩

/-! ### segments -/

theorem segments_append (a b : Line) (p : XY) (ha : a.getLast? = some p) (hb : b.head? = some p) : segments (a ++ b.tail) = segments a ++ segments b := by
  cases b with
  | nil => cases hb
  | cons q b =>
    simp only [List.head?_cons, Option.some.injEq] at hb
    subst hb
    induction a with
    | nil => cases ha
    | cons x a ih =>
      cases a with
      | nil =>
        simp only [List.getLast?_singleton, Option.some.injEq] at ha
        subst ha
        simp [segments]
      | cons y a =>
        have := ih (by simpa using ha)
        simp only [List.cons_append, segments] at this ⊢
        rw [this]

theorem segments_concat (l : Line) (a b : XY) : segments (l ++ [a, b]) = segments (l ++ [a]) ++ segments [a, b] := by
  have := segments_append (l ++ [a]) [a, b] a (by simp) (by simp)
  simpa using this

theorem segments_reverse (l : Line) : (segments l.reverse).Perm (segments l) := by
  induction l with
  | nil => exact List.Perm.refl _
  | cons a l ih =>
    cases l with
    | nil => exact List.Perm.refl _
    | cons b l =>
      have : (a :: b :: l).reverse = l.reverse ++ [b, a] := by simp
      rw [this, segments_concat]
      have h2 : l.reverse ++ [b] = (b :: l).reverse := by simp
      rw [h2]
      have h3 : segments [b, a] = segments [a, b] := by
        simp only [segments, List.cons.injEq, and_true]
        by_cases h : a.x < b.x ∨ (a.x = b.x ∧ a.y ≤ b.y)
        · by_cases h' : b.x < a.x ∨ (b.x = a.x ∧ b.y ≤ a.y)
          · have : a = b := by
              cases a; cases b; simp only at h h'; rw [XY.mk.injEq]; omega
            subst this; rfl
          · rw [if_pos h, if_neg h']
        · rw [if_neg h, if_pos (by omega)]
      rw [h3]
      refine (List.perm_append_comm).trans ?_
      have h4 : segments (a :: b :: l) = segments [a, b] ++ segments (b :: l) := rfl
      rw [h4]
      exact ih.append_left _

theorem glue_last (l : Line) (ls : List Line) (h : (l :: ls).IsChain (fun a b => ∃ p, a.getLast? = some p ∧ b.head? = some p)) (m : Line) (hm : (l :: ls).getLast? = some m) :
    segments (glue (l :: ls)) = ((l :: ls).map segments).flatten ∧ (m ≠ [] → (glue (l :: ls)).getLast? = m.getLast?) := by
  induction ls using List.reverseRecOn generalizing m with
  | nil =>
    simp only [List.getLast?_singleton, Option.some.injEq] at hm
    subst hm
    simp [glue]
  | append_singleton ls b ih =>
    have hb : m = b := by
      rw [← List.cons_append, List.getLast?_concat] at hm
      injection hm with hm; exact hm.symm
    subst hb
    have hc := h
    rw [← List.cons_append, List.isChain_append] at hc
    obtain ⟨a, ha⟩ : ∃ a, (l :: ls).getLast? = some a := ⟨_, List.getLast?_eq_some_getLast (by simp)⟩
    obtain ⟨h1, h2⟩ := ih hc.1 a ha
    obtain ⟨p, p1, p2⟩ := hc.2.2 a ha m (by simp)
    have hane : a ≠ [] := by rintro rfl; cases p1
    have hg : glue (l :: (ls ++ [m])) = glue (l :: ls) ++ m.tail := by simp [glue]
    constructor
    · rw [hg, segments_append _ _ p (by rw [h2 hane]; exact p1) p2, h1]
      simp
    · intro _
      rw [hg]
      cases m with
      | nil => cases p2
      | cons q m =>
        simp only [List.head?_cons, Option.some.injEq] at p2
        subst p2
        cases m with
        | nil => simp [h2 hane, p1]
        | cons r m => rw [List.tail_cons, List.getLast?_append_of_ne_nil _ (by simp)]; simp

theorem joined_segments {nowhere : XY} {pts out : List Line} (h : Joined nowhere pts out) : ((out.map segments).flatten).Perm ((pts.map segments).flatten) := by
  obtain ⟨chains, rfl, h2, h3, h4⟩ := h
  clear h4
  have e1 : ((chains.map (fun c => glue (c.map (orient pts)))).map segments).flatten.Perm ((chains.flatten.map (·.1)).map (fun i => segments (lineNo pts i))).flatten := by
    clear h2
    induction chains with
    | nil => exact List.Perm.refl _
    | cons c cs ih =>
      have ih := ih (fun c hc => h3 c (by simp [hc]))
      obtain ⟨hc1, hc2⟩ := h3 c (by simp)
      simp only [List.map_cons, List.flatten_cons, List.map_append, List.flatten_append]
      refine List.Perm.append ?_ ih
      cases c with
      | nil => exact absurd rfl hc1
      | cons x c =>
        have hch : (orient pts x :: c.map (orient pts)).IsChain (fun a b => ∃ p, a.getLast? = some p ∧ b.head? = some p) := by
          rw [← List.map_cons, List.isChain_map]
          exact hc2.imp (fun a b ⟨p, p1, p2, _⟩ => ⟨p, p1, p2⟩)
        obtain ⟨m, hm⟩ : ∃ a, (orient pts x :: c.map (orient pts)).getLast? = some a := ⟨_, List.getLast?_eq_some_getLast (by simp)⟩
        rw [List.map_cons, (glue_last _ _ hch m hm).1, ← List.map_cons, List.map_map, List.map_map]
        have ho : ∀ e : Nat × Bool, (segments (orient pts e)).Perm (segments (lineNo pts e.1)) := by
          intro e
          unfold orient
          split
          · exact segments_reverse _
          · exact List.Perm.refl _
        clear hch hm hc1 hc2
        generalize x :: c = d
        induction d with
        | nil => exact List.Perm.refl _
        | cons y d ihd =>
          simp only [List.map_cons, List.flatten_cons, Function.comp]
          exact (ho y).append ihd
  refine e1.trans (((h2.map _).flatten).trans ?_)
  have : (List.range pts.length).map (fun i => segments (lineNo pts i)) = pts.map segments := by
    apply List.ext_getElem?
    intro i
    rw [List.getElem?_map, List.getElem?_map]
    by_cases hi : i < pts.length
    · rw [List.getElem?_range hi, List.getElem?_eq_getElem hi]
      simp [lineNo, List.getD_eq_getElem?_getD, hi]
    · rw [List.getElem?_eq_none (by simp; omega), List.getElem?_eq_none (by omega)]; rfl
  rw [this]

end Tiles
