import Verif.Proof.QuadWalk
/-
Helper lemmas: building a quad tree as a string and reading it back.
-/
namespace Tiles
open Spec

/-! ### which nodes exist -/

theorem qtree_none_iff {es : List QInput} (d : Nat) (k : Tile) :
    qtree es d k = .none ↔ ∀ e ∈ es, e.tile.z ≤ k.z + d → ¬ AncOrSelf k e.tile := by
  induction d generalizing k with
  | zero =>
    simp only [qtree, Qt.mk_eq_none, entryAt_none, and_true]
    constructor
    · intro h e he hz ha
      exact h e he (ancOrSelf_same_z ha (by have := ha.1; omega)).symm
    · intro h e he hk
      exact h e he (by rw [hk]; omega) (by rw [hk]; exact ancOrSelf_refl _)
  | succ d ih =>
    simp only [qtree, Qt.mk_eq_none, entryAt_none, ih]
    constructor
    · rintro ⟨h, h0, h1, h2, h3⟩ e he hz ha
      by_cases hk : k.z = e.tile.z
      · exact h e he (ancOrSelf_same_z ha hk).symm
      · obtain ⟨i, hi, hc⟩ := ancOrSelf_child_of_lt ha (by have := ha.1; omega)
        have hz' : ∀ i, e.tile.z ≤ (k.child i).z + d := by intro i; simp only [Tile.child]; omega
        match i, hi with
        | 0, _ => exact h0 e he (hz' 0) hc
        | 1, _ => exact h1 e he (hz' 1) hc
        | 2, _ => exact h2 e he (hz' 2) hc
        | 3, _ => exact h3 e he (hz' 3) hc
    · intro h
      refine ⟨fun e he hk => h e he (by rw [hk]; omega) (by rw [hk]; exact ancOrSelf_refl _), ?_, ?_, ?_, ?_⟩ <;>
      · intro e he hz ha
        simp only [Tile.child] at hz
        exact h e he (by omega) (ancOrSelf_trans (ancOrSelf_child _ _) ha)

theorem qMaxZ_spec (root : Tile) (es : List QInput) :
    root.z ≤ qMaxZ root es ∧ (∀ e ∈ es, e.tile.z ≤ qMaxZ root es) ∧
      ∀ m, root.z < m → (∀ e ∈ es, e.tile.z < m) → qMaxZ root es < m := by
  unfold qMaxZ
  generalize root.z = z
  induction es generalizing z with
  | nil => simp
  | cons e es ih =>
    obtain ⟨h1, h2, h3⟩ := ih (max z e.tile.z)
    simp only [List.foldl_cons, List.mem_cons, forall_eq_or_imp]
    refine ⟨by omega, ⟨by omega, h2⟩, ?_⟩
    intro m hm ⟨h4, h5⟩
    exact h3 m (by omega) h5

theorem makeTmp_ok {es : List QInput} {root : Tile} (hok : QOk es) (hne : es ≠ [])
    (hbelow : ∀ e ∈ es, AncOrSelf root e.tile) (hz : ∀ e ∈ es, e.tile.z < 2 ^ 32) :
    makeTmpQuadTree root es = .ok (qtree es (qMaxZ root es - root.z) root) := by
  obtain ⟨m1, m2, m3⟩ := qMaxZ_spec root es
  have hroot : root.z < 2 ^ 32 := by
    obtain ⟨e, he⟩ := List.exists_mem_of_ne_nil _ hne
    have := hz e he; have := (hbelow e he).1; omega
  have hmz := m3 _ hroot hz
  unfold makeTmpQuadTree
  have hany : ¬ (es.any (fun e => e.tile.z < root.z || (e.tile.z = root.z && e.tile ≠ root)) = true) := by
    rw [List.any_eq_true]
    rintro ⟨e, he, h⟩
    have hb := hbelow e he
    have hb1 := hb.1
    simp only [Bool.or_eq_true, decide_eq_true_eq, Bool.and_eq_true] at h
    rcases h with h | ⟨h, h'⟩
    · omega
    · exact h' (ancOrSelf_same_z hb h.symm).symm
  rw [if_neg hany]
  obtain ⟨hn, hlook⟩ := qLevel_look hok (qMaxZ root es) hmz (qMaxZ root es - root.z) (by omega)
  have hroot_node : qtree es (qMaxZ root es - root.z) root ≠ .none := by
    rw [Ne, qtree_none_iff]
    intro h
    obtain ⟨e, he⟩ := List.exists_mem_of_ne_nil _ hne
    exact h e he (by have := m2 e he; omega) (hbelow e he)
  have honly : ∀ k n, (k, n) ∈ qLevel es (qMaxZ root es) (qMaxZ root es - root.z) →
      k = root ∧ n = qtree es (qMaxZ root es - root.z) root := by
    intro k n h
    rw [← mapLook_eq_some hn, hlook] at h
    split at h
    · rename_i hk
      have hkz : k.z = root.z := by omega
      have hkr : k = root := by
        have := hk.2
        rw [Ne, qtree_none_iff] at this
        simp only [not_forall, not_not] at this
        obtain ⟨e, he, _, ha⟩ := this
        exact ancOrSelf_same_z (ancOrSelf_linear ha (hbelow e he) (by omega)) hkz
      subst hkr
      exact ⟨rfl, by simpa using h.symm⟩
    · simp at h
  have hmem : (root, qtree es (qMaxZ root es - root.z) root) ∈ qLevel es (qMaxZ root es) (qMaxZ root es - root.z) := by
    rw [← mapLook_eq_some hn, hlook, if_pos ⟨by omega, hroot_node⟩]
  generalize qLevel es (qMaxZ root es) (qMaxZ root es - root.z) = m at *
  match m with
  | [] => simp at hmem
  | [(k, n)] =>
    obtain ⟨rfl, rfl⟩ := honly k n (by simp)
    simp
  | (k, n) :: (k', n') :: rest =>
    obtain ⟨rfl, _⟩ := honly k n (by simp)
    obtain ⟨rfl, _⟩ := honly k' n' (by simp)
    simp [mapNodup] at hn

theorem makeTmp_foreign {es : List QInput} {root : Tile} (hok : QOk es)
    (hf : ∃ e ∈ es, ¬ AncOrSelf root e.tile) (hroot : root.z < 2 ^ 32) (hz : ∀ e ∈ es, e.tile.z < 2 ^ 32) :
    makeTmpQuadTree root es = .throw_ := by
  obtain ⟨m1, m2, m3⟩ := qMaxZ_spec root es
  have hmz := m3 _ hroot hz
  obtain ⟨e, he, hna⟩ := hf
  unfold makeTmpQuadTree
  by_cases hany : es.any (fun e => e.tile.z < root.z || (e.tile.z = root.z && e.tile ≠ root)) = true
  · rw [if_pos hany]
  · rw [if_neg hany]
    rw [List.any_eq_true, not_exists] at hany
    have hez : root.z ≤ e.tile.z := by
      apply Classical.byContradiction; intro h
      exact hany e ⟨he, by simp only [Bool.or_eq_true, decide_eq_true_eq]; left; omega⟩
    obtain ⟨hn, hlook⟩ := qLevel_look hok (qMaxZ root es) hmz (qMaxZ root es - root.z) (by omega)
    have hk : (ancAt e.tile root.z, qtree es (qMaxZ root es - root.z) (ancAt e.tile root.z)) ∈
        qLevel es (qMaxZ root es) (qMaxZ root es - root.z) := by
      rw [← mapLook_eq_some hn, hlook, if_pos]
      have hzz : (ancAt e.tile root.z).z = root.z := rfl
      refine ⟨by omega, ?_⟩
      rw [Ne, qtree_none_iff]
      intro h
      exact h e he (by have := m2 e he; omega) (ancAt_anc hez)
    have hkr : ancAt e.tile root.z ≠ root := by
      intro h; apply hna; rw [← h]; exact ancAt_anc hez
    generalize qLevel es (qMaxZ root es) (qMaxZ root es - root.z) = m at *
    match m with
    | [] => rfl
    | [(k, n)] =>
      simp only [List.mem_singleton, Prod.mk.injEq] at hk
      simp only
      rw [if_neg (by rw [← hk.1]; exact hkr)]
    | (k, n) :: (k', n') :: rest => rfl

/-! ### words fit into 32 bits -/

def Qt.Bounded : Qt → Prop
  | .none => True
  | .node o s t c0 c1 c2 c3 => o < 2 ^ 32 ∧ s < 2 ^ 32 ∧ t < 2 ^ 32 ∧ c0.Bounded ∧ c1.Bounded ∧ c2.Bounded ∧ c3.Bounded

theorem Qt.Bounded.child {n : Qt} (h : n.Bounded) (i : Nat) : (n.child i).Bounded := by
  cases n with
  | none => trivial
  | node o s t c0 c1 c2 c3 =>
    obtain ⟨_, _, _, h0, h1, h2, h3⟩ := h
    match i with
    | 0 => exact h0
    | 1 => exact h1
    | 2 => exact h2
    | _ + 3 => exact h3

theorem qtree_bounded {es : List QInput} (hok : QOk es) (d : Nat) (k : Tile) : (qtree es d k).Bounded := by
  have key : ∀ k (c0 c1 c2 c3 : Qt), c0.Bounded → c1.Bounded → c2.Bounded → c3.Bounded → (Qt.mk (entryAt es k) c0 c1 c2 c3).Bounded := by
    intro k c0 c1 c2 c3 h0 h1 h2 h3
    unfold Qt.mk
    split
    · trivial
    · have ho : ((entryAt es k).map (·.offset)).getD (2 ^ 32 - 1) < 2 ^ 32 ∧ ((entryAt es k).map (·.size)).getD 0 < 2 ^ 32 := by
        cases h : entryAt es k with
        | none => simp
        | some e =>
          have := entryAt_some h
          exact ⟨hok.off e this.1, hok.size e this.1⟩
      exact ⟨by omega, ho.2, Nat.mod_lt _ (by omega), h0, h1, h2, h3⟩
  induction d generalizing k with
  | zero => exact key k _ _ _ _ trivial trivial trivial trivial
  | succ d ih => exact key k _ _ _ _ (ih _) (ih _) (ih _) (ih _)

theorem mem_modify {l : List Nat} {i : Nat} {f : Nat → Nat} {w : Nat} (h : w ∈ l.modify i f) : w ∈ l ∨ ∃ v ∈ l, w = f v := by
  induction l generalizing i with
  | nil => simp at h
  | cons a l ih =>
    cases i with
    | zero =>
      simp only [List.modify_zero_cons, List.mem_cons] at h
      rcases h with rfl | h
      · exact Or.inr ⟨a, by simp, rfl⟩
      · exact Or.inl (by simp [h])
    | succ i =>
      simp only [List.modify_succ_cons, List.mem_cons] at h
      rcases h with rfl | h
      · exact Or.inl (by simp)
      · rcases ih h with h | ⟨v, hv, h⟩
        · exact Or.inl (by simp [h])
        · exact Or.inr ⟨v, by simp [hv], h⟩

theorem qSerChild_bounded {off : Nat} {node : Qt} (hn : node.Bounded) {s : List Nat × List (Nat × Qt)}
    (h1 : ∀ w ∈ s.1, w < 2 ^ 32) (h2 : ∀ e ∈ s.2, e.2.Bounded) {i : Nat} (hi : i < 4) :
    (∀ w ∈ (qSerChild off node s i).1, w < 2 ^ 32) ∧ ∀ e ∈ (qSerChild off node s i).2, e.2.Bounded := by
  have hc := hn.child i
  unfold qSerChild
  cases h : node.child i with
  | none => exact ⟨h1, h2⟩
  | node o se su c0 c1 c2 c3 =>
    rw [h] at hc
    simp only
    constructor
    · intro w hw
      rw [List.mem_append] at hw
      rcases hw with hw | hw
      · rcases mem_modify hw with hw | ⟨v, hv, rfl⟩
        · exact h1 w hw
        · apply Nat.or_lt_two_pow
          · have := h1 v hv
            split
            · exact Nat.mod_lt _ (by omega)
            · exact this
          · rw [Nat.one_shiftLeft]
            exact Nat.pow_lt_pow_right (by omega) (by unfold kQuadChildOffset; omega)
      · simp at hw; omega
    · intro e he
      rcases List.mem_cons.1 he with rfl | he
      · exact hc
      · exact h2 e he

theorem qSerLoop_bounded (fuel : Nat) (vec : List Nat) (stack : List (Nat × Qt)) (h1 : ∀ w ∈ vec, w < 2 ^ 32)
    (h2 : ∀ e ∈ stack, e.2.Bounded) {r : List Nat} (hr : qSerLoop fuel vec stack = .ok r) : ∀ w ∈ r, w < 2 ^ 32 := by
  induction fuel generalizing vec stack with
  | zero =>
    cases stack with
    | nil => simp only [qSerLoop, Res.ok.injEq] at hr; subst hr; exact h1
    | cons => simp [qSerLoop] at hr
  | succ fuel ih =>
    cases stack with
    | nil => simp only [qSerLoop, Res.ok.injEq] at hr; subst hr; exact h1
    | cons e stack =>
      obtain ⟨off, node⟩ := e
      have hb : node.Bounded := h2 (off, node) (by simp)
      have hd : ∀ w ∈ qSerData off node vec, w < 2 ^ 32 := by
        intro w hw
        unfold qSerData at hw
        cases node with
        | none => exact h1 w hw
        | node o se su c0 c1 c2 c3 =>
          obtain ⟨b1, b2, b3, _⟩ := hb
          rcases List.mem_or_eq_of_mem_set hw with hw | rfl
          · rcases List.mem_or_eq_of_mem_set hw with hw | rfl
            · rcases List.mem_or_eq_of_mem_set hw with hw | rfl
              · exact h1 w hw
              · exact b1
            · exact b2
          · exact b3
      have hs : ∀ e ∈ stack, e.2.Bounded := fun e he => h2 e (by simp [he])
      have s0 := qSerChild_bounded (off := off) hb (s := (qSerData off node vec, stack)) hd hs (i := 0) (by omega)
      have s1 := qSerChild_bounded (off := off) hb s0.1 s0.2 (i := 1) (by omega)
      have s2 := qSerChild_bounded (off := off) hb s1.1 s1.2 (i := 2) (by omega)
      have s3 := qSerChild_bounded (off := off) hb s2.1 s2.2 (i := 3) (by omega)
      simp only [qSerLoop, List.foldl_cons, List.foldl_nil] at hr
      exact ih _ _ s3.1 s3.2 hr

/-! ### bytes -/

theorem flatMap_leBytes_length (ws : List Nat) : (ws.flatMap (leBytes 4)).length = 4 * ws.length := by
  induction ws with
  | nil => rfl
  | cons w ws ih => rw [List.flatMap_cons, List.length_append, leBytes_length, ih, List.length_cons]; omega

theorem readNth_words (pre post : Bytes) (ws : List Nat) (hw : ∀ w ∈ ws, w < 2 ^ 32) {n w : Nat} (h : ws[n]? = some w) :
    readNth (pre ++ ws.flatMap (leBytes 4) ++ post) pre.length n = .ok w := by
  have hn : n < ws.length := by
    rcases Nat.lt_or_ge n ws.length with h' | h'
    · exact h'
    · rw [List.getElem?_eq_none h'] at h; simp at h
  have hl := flatMap_leBytes_length ws
  unfold readNth
  rw [if_pos (by simp only [List.length_append, hl]; omega), List.append_assoc, ← List.drop_drop, List.drop_left]
  congr 1
  clear hl
  induction ws generalizing n with
  | nil => simp at h
  | cons v ws ih =>
    cases n with
    | zero =>
      simp only [List.getElem?_cons_zero, Option.some.injEq] at h
      subst h
      rw [List.flatMap_cons, Nat.mul_zero, List.drop_zero, List.append_assoc]
      rw [List.take_left' (leBytes_length 4 v)]
      exact leNat_leBytes_of_lt (hw v (by simp))
    | succ n =>
      rw [List.flatMap_cons, List.append_assoc, show 4 * (n + 1) = (leBytes 4 v).length + 4 * n by simp; omega, List.drop_length_add_append]
      exact ih (fun w hw' => hw w (by simp [hw'])) (by simpa using h) (by simpa using hn)

/-! ### elements -/

theorem owners_length (es : List QInput) : (owners es).length = qSize es := by
  induction es with
  | nil => rfl
  | cons e es ih => simp only [owners, List.flatMap_cons, List.length_append, List.length_replicate] at *; rw [ih]; simp

theorem hit_eq (q : Tile) (es : List QInput) (a : Nat) :
    hit q a es = (List.range' a (owners es).length).filter (fun j => ∃ t, (owners es)[j - a]? = some t ∧ Meet t q) := by
  induction es generalizing a with
  | nil => rfl
  | cons e es ih =>
    have ho : owners (e :: es) = List.replicate e.size e.tile ++ owners es := rfl
    rw [hit, ih, ho, List.length_append, List.length_replicate, ← List.range'_append_1, List.filter_append]
    congr 1
    · by_cases hm : Meet e.tile q
      · rw [if_pos hm]; symm
        rw [List.filter_eq_self]
        intro j hj
        rw [List.mem_range'_1] at hj
        simp only [decide_eq_true_eq]
        refine ⟨e.tile, ?_, hm⟩
        rw [List.getElem?_append_left (by simp; omega), List.getElem?_replicate, if_pos (by omega)]
      · rw [if_neg hm]; symm
        rw [List.filter_eq_nil_iff]
        intro j hj
        rw [List.mem_range'_1] at hj
        simp only [decide_eq_true_eq]
        rintro ⟨t, ht, hm'⟩
        rw [List.getElem?_append_left (by simp; omega), List.getElem?_replicate, if_pos (by omega)] at ht
        simp only [Option.some.injEq] at ht
        subst ht; exact hm hm'
    · apply List.filter_congr
      intro j hj
      rw [List.mem_range'_1] at hj
      rw [List.getElem?_append_right (by simp; omega), List.length_replicate, show j - (a + e.size) = j - a - e.size by omega]

theorem hit_wanted (q : Tile) (es : List QInput) : hit q 0 es = wanted q es := by
  rw [hit_eq, wanted, List.range_eq_range']; rfl

/-! ### size of the tree -/

def qCost (k : Tile) (l : List QInput) : Nat := (l.map (fun e => e.tile.z - k.z + 1)).sum

theorem qCost_append (k : Tile) (l m : List QInput) : qCost k (l ++ m) = qCost k l + qCost k m := by simp [qCost]

theorem qCost_child (k : Tile) (i : Nat) (l : List QInput) (h : ∀ e ∈ l, AncOrSelf (k.child i) e.tile) :
    qCost k l = qCost (k.child i) l + l.length := by
  induction l with
  | nil => rfl
  | cons e l ih =>
    have := ih (fun e he => h e (by simp [he]))
    have h1 := (h e (by simp)).1
    simp only [qCost, List.map_cons, List.sum_cons, List.length_cons, Tile.child] at *
    omega

theorem qtree_count {es : List QInput} (hok : QOk es) (hs : es.Pairwise (fun a b => PreOrd a.tile b.tile)) (d : Nat) (k : Tile) :
    (qtree es d k).count ≤ qCost k (blk es k) := by
  induction d generalizing k with
  | zero =>
    unfold qtree Qt.mk
    split
    · simp [Qt.count]
    · rename_i h
      simp only [and_true] at h
      cases he : entryAt es k with
      | none => exact absurd he h
      | some e =>
        have hm := entryAt_some he
        have : e ∈ blk es k := by
          rw [blk, List.mem_filter]; exact ⟨hm.1, by rw [hm.2]; simpa using ancOrSelf_refl k⟩
        have h2 : ∀ (l : List QInput), e ∈ l → 1 ≤ qCost k l := by
          intro l hl
          induction l with
          | nil => simp at hl
          | cons x l ih => simp only [qCost, List.map_cons, List.sum_cons]; omega
        have := h2 _ this
        simpa [Qt.count] using this
  | succ d ih =>
    have hc : ∀ i, qCost k (blk es (k.child i)) = qCost (k.child i) (blk es (k.child i)) + (blk es (k.child i)).length := by
      intro i; apply qCost_child
      intro e he; have := (List.mem_filter.1 he).2; simpa using this
    have hsp := congrArg (qCost k) (blk_split hs k)
    simp only [qCost_append, hc] at hsp
    have i0 := ih (k.child 0)
    have i1 := ih (k.child 1)
    have i2 := ih (k.child 2)
    have i3 := ih (k.child 3)
    have hself : qCost k (selfBlk es k) = (selfBlk es k).length := by
      have : ∀ l : List QInput, (∀ e ∈ l, e.tile = k) → qCost k l = l.length := by
        intro l hl
        induction l with
        | nil => rfl
        | cons e l ih =>
          have := ih (fun e he => hl e (by simp [he]))
          have h1 := hl e (by simp)
          simp only [qCost, List.map_cons, List.sum_cons, List.length_cons, h1] at *
          omega
      exact this _ (fun e he => by have := (List.mem_filter.1 he).2; simpa using this)
    have hnone : ∀ i, blk es (k.child i) = [] → qtree es d (k.child i) = .none := by
      intro i h
      rw [qtree_none_iff]
      intro e he _ ha
      have : e ∈ blk es (k.child i) := by rw [blk, List.mem_filter]; exact ⟨he, by simpa using ha⟩
      rw [h] at this; simp at this
    unfold qtree Qt.mk
    split
    · simp [Qt.count]
    · rename_i h
      simp only [Qt.count]
      have hpos : 1 ≤ (selfBlk es k).length + (blk es (k.child 0)).length + (blk es (k.child 1)).length +
          (blk es (k.child 2)).length + (blk es (k.child 3)).length := by
        by_contra hlt
        apply h
        refine ⟨?_, hnone 0 ?_, hnone 1 ?_, hnone 2 ?_, hnone 3 ?_⟩
        · have : selfBlk es k = [] := List.length_eq_zero_iff.1 (by omega)
          rw [selfBlk_eq hok.nodup] at this
          cases he : entryAt es k with
          | none => rfl
          | some e => rw [he] at this; simp at this
        all_goals exact List.length_eq_zero_iff.1 (by omega)
      omega

end Tiles
