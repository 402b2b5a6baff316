import Verif.Proof.BqSer
/-
Helper lemmas: queries on the serialized seaside tree.
-/
namespace Tiles
open Spec

/-- the ancestor of `q` at zoom `z` -/
def ancAt (q : Tile) (z : Nat) : Tile := ⟨q.x / 2 ^ (q.z - z), q.y / 2 ^ (q.z - z), z⟩

theorem ancAt_anc {q : Tile} {z : Nat} (h : z ≤ q.z) : AncOrSelf (ancAt q z) q := ⟨h, rfl, rfl⟩

theorem anc_eq_ancAt {k q : Tile} (h : AncOrSelf k q) : k = ancAt q k.z := by
  cases k; obtain ⟨_, h2, h3⟩ := h; simp only [ancAt] at *; simp [← h2, ← h3]

theorem ancAt_self (q : Tile) : ancAt q q.z = q := by simp [ancAt]

theorem ancAt_parent {q : Tile} {z : Nat} (h : z + 1 ≤ q.z) (hz : q.z < 2 ^ 32) :
    (ancAt q (z + 1)).parent = ancAt q z := by
  have e : 2 ^ (q.z - z) = 2 ^ (q.z - (z + 1)) * 2 := by rw [← Nat.pow_succ]; congr 1; omega
  simp only [ancAt, Tile.parent, e, Nat.div_div_eq_div_mul, Tile.mk.injEq, true_and]
  omega

theorem ancAt_child {k q : Tile} (h : AncOrSelf k q) (hz : k.z < q.z) :
    ancAt q (k.z + 1) = k.child (ancAt q (k.z + 1)).quadPos := by
  obtain ⟨i, hi, ha⟩ := ancOrSelf_child_of_lt h hz
  have := anc_eq_ancAt ha
  rw [show (k.child i).z = k.z + 1 from rfl] at this
  rw [← this, Tile.quadPos_child _ hi]

theorem Bq.innerCount_child_le (n : Bq) (i : Nat) : (n.child i).innerCount ≤ n.innerCount := by
  cases n with
  | inner a b c d =>
    simp only [Bq.child, Bq.innerCount]
    split <;> omega
  | _ => simp [Bq.child, Bq.innerCount]

theorem bqChildOffset_eq {nodes : List Nat} {w : Nat} {c0 c1 c2 c3 : Bq}
    (hb : ∀ i < 4, w.testBit (i + kBqFalseOffset) = decide ((Bq.inner c0 c1 c2 c3).child i = .empty) ∧
        w.testBit (i + kBqTrueOffset) = decide ((Bq.inner c0 c1 c2 c3).child i = .leaf)) {pos : Nat} (hp : pos ≤ 4) :
    bqChildOffset w pos = w % 2 ^ 24 + (Bq.inner c0 c1 c2 c3).rank pos := by
  induction pos with
  | zero => simp only [bqChildOffset, List.range_zero, List.foldl_nil, and_mask, Bq.rank_zero]; rfl
  | succ p ih =>
    have := ih (by omega)
    simp only [bqChildOffset, List.range_succ, List.foldl_append, List.foldl_cons, List.foldl_nil] at *
    rw [this, Bq.rank_succ, (hb p (by omega)).1, (hb p (by omega)).2]
    cases h : (Bq.inner c0 c1 c2 c3).child p <;> simp [Bq.isInner]
    omega

/-- what `find_parent_leaf` answers for `q` -/
inductive BqAns (tiles : List Tile) (nodes : List Nat) (q : Tile) (bound : Nat) : Res (Option Bool × Nat) → Prop
  | covered (h : ∃ t ∈ tiles, AncOrSelf t q) : BqAns tiles nodes q bound (.ok (some true, 0))
  | free (h : ∀ t ∈ tiles, ¬ AncOrSelf t q) (h' : ∀ t ∈ tiles, ¬ AncOrSelf q t) : BqAns tiles nodes q bound (.ok (some false, 0))
  | mixed (w off d : Nat) (h : ∀ t ∈ tiles, ¬ AncOrSelf t q) (hw : nodes[off]? = some w)
      (hr : BqRepr nodes off (specTree tiles d q)) (hi : (specTree tiles d q).isInner)
      (hd : ∀ t ∈ tiles, t.z ≤ q.z + d) (hc : (specTree tiles d q).innerCount ≤ bound) :
      BqAns tiles nodes q bound (.ok (none, w))

theorem bqDescend_spec {tiles : List Tile} {nodes : List Nat} {q : Tile} {bound : Nat} (n : Nat) (d : Nat) (k : Tile)
    (off w : Nat) (hz : q.z = k.z + n) (ha : AncOrSelf k q) (hun : ∀ t ∈ tiles, ¬ AncOrSelf t k)
    (hr : BqRepr nodes off (specTree tiles d k)) (hi : (specTree tiles d k).isInner) (hw : nodes[off]? = some w)
    (hd : ∀ t ∈ tiles, t.z ≤ k.z + d) (hc : (specTree tiles d k).innerCount ≤ bound) :
    BqAns tiles nodes q bound (bqDescend nodes w ((List.range n).map (fun i => ancAt q (k.z + 1 + i)))) := by
  induction n generalizing d k off w with
  | zero =>
    have : k = q := ancOrSelf_same_z ha (by omega)
    subst this
    exact .mixed w off d hun hw hr hi hd hc
  | succ n ih =>
    rw [List.range_succ_eq_map, List.map_cons, List.map_map]
    simp only [bqDescend, Nat.add_zero]
    cases hk : specTree tiles d k with
    | empty => rw [hk] at hi; simp [Bq.isInner] at hi
    | leaf => rw [hk] at hi; simp [Bq.isInner] at hi
    | inner c0 c1 c2 c3 =>
      obtain ⟨d', hd', hkt, hch⟩ := specTree_child hk
      have hcq := ancAt_child ha (by omega)
      have hlt := Tile.quadPos_lt (ancAt q (k.z + 1))
      generalize hi0 : (ancAt q (k.z + 1)).quadPos = i at *
      have hanc : AncOrSelf (k.child i) q := by rw [← hcq]; exact ancAt_anc (by omega)
      rw [hk] at hr
      obtain ⟨w', hw', hbits, hwlt, hrc⟩ := hr
      rw [hw] at hw'
      obtain rfl := Option.some.inj hw'
      have hrc' : ∀ i < 4, BqRepr nodes (w % 2 ^ 24 + (Bq.inner c0 c1 c2 c3).rank i) ((Bq.inner c0 c1 c2 c3).child i) := by
        rw [forall_lt_four]; exact hrc
      obtain ⟨b1, b2⟩ := hbits i hlt
      have hdc : ∀ t ∈ tiles, t.z ≤ (k.child i).z + d' := by
        intro t ht; have := hd t ht; simp only [Tile.child]; omega
      -- a tile over `q` is below the child
      have hbelow : ∀ t ∈ tiles, AncOrSelf t q → AncOrSelf (k.child i) t := by
        intro t ht h
        refine ancOrSelf_linear hanc h ?_
        simp only [Tile.child]
        apply Classical.byContradiction
        intro hlt
        exact hun t ht (ancOrSelf_linear h ha (by omega))
      rw [b1, b2, hch i hlt]
      by_cases he : specTree tiles d' (k.child i) = .empty
      · simp only [he, decide_true, if_true]
        have := (specTree_empty hdc).1 he
        refine .free (fun t ht h => this t ht (hbelow t ht h)) ?_
        intro t ht h
        exact this t ht (ancOrSelf_trans hanc h)
      · by_cases hl : specTree tiles d' (k.child i) = .leaf
        · simp only [hl, decide_true, if_true, reduceCtorEq, decide_false]
          refine .covered ⟨k.child i, specTree_leaf.1 hl, hanc⟩
        · simp only [he, hl, decide_false]
          have hin : (specTree tiles d' (k.child i)).isInner := by
            cases h : specTree tiles d' (k.child i) <;> simp_all [Bq.isInner]
          have hrep := hrc' i hlt
          rw [hch i hlt] at hrep
          rw [bqChildOffset_eq (nodes := nodes) hbits (by omega)]
          have hw2 : ∃ w2, nodes[w % 2 ^ 24 + (Bq.inner c0 c1 c2 c3).rank i]? = some w2 := by
            cases h : specTree tiles d' (k.child i) with
            | empty => exact absurd h he
            | leaf => exact absurd h hl
            | inner a b c d => rw [h] at hrep; obtain ⟨w2, hw2, _⟩ := hrep; exact ⟨w2, hw2⟩
          obtain ⟨w2, hw2⟩ := hw2
          rw [at_of_getElem? hw2]
          have := ih d' (k.child i) _ w2 (by simp only [Tile.child]; omega) hanc (by
            intro t ht h
            by_cases htz : t.z ≤ k.z
            · exact hun t ht (ancOrSelf_linear h (ancOrSelf_child k i) htz)
            · have : t = k.child i := ancOrSelf_same_z h (by have := h.1; simp only [Tile.child] at *; omega)
              subst this; exact hl (specTree_leaf.2 ht)) hrep hin hw2 hdc (by
            rw [← hch i hlt]
            exact Nat.le_trans (Bq.innerCount_child_le _ _) (hk ▸ hc))
          simp only [Bool.false_eq_true, if_false, Res.ok_bind]
          have e : (fun i_1 => ancAt q (k.z + 1 + i_1)) ∘ Nat.succ = fun j => ancAt q ((k.child i).z + 1 + j) := by
            funext j; simp only [Function.comp, Tile.child]; congr 1; omega
          rw [e]; exact this

theorem bqTrace_spec {q : Tile} (hv : q.Valid) (hz : q.z < 2 ^ 32) (m z : Nat) (hm : q.z = z + m) (hz1 : 1 ≤ z)
    (fuel : Nat) (tr : List Tile)
    (htr : tr = (List.range m).map (fun i => ancAt q (z + 1 + i))) :
    bqTrace fuel (ancAt q z :: tr) =
      if z ≤ fuel + 1 then .ok ((List.range q.z).map (fun i => ancAt q (1 + i))) else .throw_ := by
  induction z generalizing m fuel tr with
  | zero => omega
  | succ z ih =>
    unfold bqTrace
    have hp := ancAt_parent (q := q) (z := z) (by omega) hz
    have htr' : ancAt q (z + 1) :: tr = (List.range (m + 1)).map (fun i => ancAt q (z + 1 + i)) := by
      rw [htr, List.range_succ_eq_map, List.map_cons, List.map_map]
      simp only [Nat.add_zero, List.cons.injEq, true_and]
      apply List.map_congr_left
      intro i _; simp only [Function.comp]; congr 1; omega
    have hroot : ancAt q z = Tile.root ↔ z = 0 := by
      constructor
      · intro h; exact congrArg Tile.z h
      · rintro rfl
        have := anc_eq_ancAt (root_ancOrSelf hv)
        exact this.symm
    rw [hp]
    by_cases h0 : z = 0
    · subst h0
      rw [if_pos (hroot.2 rfl), if_pos (by omega), htr', show m + 1 = q.z by omega]
    · rw [if_neg (fun h => h0 (hroot.1 h))]
      cases fuel with
      | zero => simp only; rw [if_neg (by omega)]
      | succ fuel =>
        simp only
        rw [ih (m + 1) (by omega) (by omega) fuel _ htr']
        congr 1
        simp only [eq_iff_iff]; omega

/-- the outcome of `make_bq_tree`, before looking at node counts -/
theorem makeBqTree_cases {tiles : List Tile} (hv : ∀ t ∈ tiles, t.Valid) (hb : ∀ t ∈ tiles, t.z < 2 ^ 32)
    (hne : tiles ≠ []) :
    (Tile.root ∈ tiles ∧ makeBqTree tiles = .ok [kFullRoot]) ∨
    (Tile.root ∉ tiles ∧ (specTree tiles (bqMaxZ tiles) Tile.root).isInner ∧
      ∃ vec, makeBqTree tiles = .ok vec ∧ vec.length = (specTree tiles (bqMaxZ tiles) Tile.root).innerCount ∧
        (vec.length ≤ 2 ^ 24 → BqRepr vec 0 (specTree tiles (bqMaxZ tiles) Tile.root))) := by
  have hl := bqLevel_root hv hb hne
  unfold makeBqTree
  have hie : tiles.isEmpty = false := by cases tiles <;> simp_all
  simp only [hie, Bool.false_eq_true, if_false, hl]
  cases h : specTree tiles (bqMaxZ tiles) Tile.root with
  | empty =>
    exfalso
    have hd0 : ∀ t ∈ tiles, t.z ≤ Tile.root.z + bqMaxZ tiles := by
      intro t ht; have := le_bqMaxZ ht; omega
    rw [specTree_empty hd0] at h
    obtain ⟨t, ht⟩ := List.exists_mem_of_ne_nil _ hne
    exact h t ht (root_ancOrSelf (hv t ht))
  | leaf => left; exact ⟨specTree_leaf.1 h, by simp⟩
  | inner a b c d =>
    right
    refine ⟨fun h' => ?_, rfl, ?_⟩
    · have := (specTree_leaf (tiles := tiles) (d := bqMaxZ tiles)).2 h'; rw [h] at this; simp at this
    · obtain ⟨vec, h1, h2, h3⟩ := bqSerialize_spec (a := a) (b := b) (c := c) (d := d)
      exact ⟨vec, by simp [h1], h2, h3⟩

theorem repr_zero_word {nodes : List Nat} (h0 : nodes[0]? = some 0) (n : Bq) (hn : n.isInner) : ¬ BqRepr nodes 0 n := by
  induction n with
  | empty => simp [Bq.isInner] at hn
  | leaf => simp [Bq.isInner] at hn
  | inner a b c d iha =>
    rintro ⟨w, hw, hb, _, hra, _⟩
    rw [h0] at hw
    obtain rfl := Option.some.inj hw
    obtain ⟨h1, h2⟩ := hb 0 (by omega)
    simp only [Nat.zero_testBit, Bq.child] at h1 h2
    refine iha ?_ hra
    have h1 := of_decide_eq_false h1.symm
    have h2 := of_decide_eq_false h2.symm
    cases a
    · exact absurd rfl h1
    · exact absurd rfl h2
    · rfl

theorem repr_root_word {nodes : List Nat} {n : Bq} (h : BqRepr nodes 0 n) (hn : n.isInner) :
    ∃ w, nodes[0]? = some w ∧ w ≠ kFullRoot ∧ w ≠ kEmptyRoot := by
  cases n with
  | empty => simp [Bq.isInner] at hn
  | leaf => simp [Bq.isInner] at hn
  | inner a b c d =>
    have h' := h
    obtain ⟨w, hw, hb, _⟩ := h'
    refine ⟨w, hw, ?_, ?_⟩
    · rintro rfl
      obtain ⟨h1, h2⟩ := hb 0 (by omega)
      have e1 : kFullRoot.testBit (0 + kBqFalseOffset) = true := by decide
      have e2 : kFullRoot.testBit (0 + kBqTrueOffset) = true := by decide
      rw [e1] at h1; rw [e2] at h2
      have h1 := of_decide_eq_true h1.symm
      have h2 := of_decide_eq_true h2.symm
      rw [h1] at h2; simp at h2
    · rintro rfl; exact repr_zero_word hw _ hn h

/-- `find_parent_leaf` answers correctly for every tile up to zoom 23 -/
theorem bqFind_spec {tiles : List Tile} {nodes : List Nat} (hv : ∀ t ∈ tiles, t.Valid) (hb : ∀ t ∈ tiles, t.z < 2 ^ 32)
    (hm : makeBqTree tiles = .ok nodes) (hl : nodes.length ≤ 2 ^ 24) {q : Tile} (hq : q.Valid) (hqz : q.z ≤ 23) :
    BqAns tiles nodes q nodes.length (bqFindParentLeaf nodes q) := by
  by_cases hne : tiles = []
  · subst hne
    simp only [makeBqTree, List.isEmpty_nil, if_true, Res.ok.injEq] at hm
    subst hm
    simp only [bqFindParentLeaf, at_]
    exact .free (by simp) (by simp)
  · rcases makeBqTree_cases hv hb hne with ⟨hroot, hr⟩ | ⟨hroot, hin, vec, hr, hlen, hrep⟩
    · rw [hr] at hm
      obtain rfl := Res.ok.inj hm
      simp only [bqFindParentLeaf, at_]
      exact .covered ⟨_, hroot, root_ancOrSelf hq⟩
    · rw [hr] at hm
      obtain rfl := Res.ok.inj hm
      have hrep := hrep hl
      obtain ⟨w, hw, hw1, hw2⟩ := repr_root_word hrep hin
      simp only [bqFindParentLeaf, at_of_getElem? hw, Res.ok_bind, hw1, hw2, if_false]
      have hd0 : ∀ t ∈ tiles, t.z ≤ Tile.root.z + bqMaxZ tiles := by
        intro t ht; have := le_bqMaxZ ht; omega
      have hun : ∀ t ∈ tiles, ¬ AncOrSelf t Tile.root := by
        intro t ht h
        have : t = Tile.root := ancOrSelf_same_z h (by have := h.1; simp [Tile.root] at *; omega)
        subst this; exact hroot ht
      by_cases hqr : q = Tile.root
      · rw [if_pos hqr]; subst hqr
        exact .mixed w 0 _ hun hw hrep hin hd0 (by omega)
      · rw [if_neg hqr]
        have hz1 : 1 ≤ q.z := by
          apply Classical.byContradiction; intro h
          exact hqr (ancOrSelf_same_z (root_ancOrSelf hq) (by simp [Tile.root]; omega)).symm
        have ht := bqTrace_spec hq (by omega) 0 q.z (by omega) hz1 22 [] rfl
        rw [ancAt_self, if_pos (by omega)] at ht
        simp only [ht, Res.ok_bind]
        have := bqDescend_spec (nodes := vec) (q := q) (bound := vec.length) q.z (bqMaxZ tiles) Tile.root 0 w
          (by simp [Tile.root]) (root_ancOrSelf hq) hun hrep hin hw hd0 (by omega)
        simpa [Tile.root] using this

theorem bqFind_deep {tiles : List Tile} {nodes : List Nat} (hv : ∀ t ∈ tiles, t.Valid) (hb : ∀ t ∈ tiles, t.z < 2 ^ 32)
    (hne : tiles ≠ []) (hroot : Tile.root ∉ tiles)
    (hm : makeBqTree tiles = .ok nodes) (hl : nodes.length ≤ 2 ^ 24) {q : Tile} (hq : q.Valid) (hqz : 23 < q.z)
    (hqz' : q.z < 2 ^ 32) : bqFindParentLeaf nodes q = .throw_ := by
  rcases makeBqTree_cases hv hb hne with ⟨hroot', hr⟩ | ⟨hroot, hin, vec, hr, hlen, hrep⟩
  · exact absurd hroot' hroot
  · rw [hr] at hm
    obtain rfl := Res.ok.inj hm
    obtain ⟨w, hw, hw1, hw2⟩ := repr_root_word (hrep hl) hin
    have ht := bqTrace_spec hq hqz' 0 q.z (by omega) (by omega) 22 [] rfl
    rw [ancAt_self, if_neg (by omega)] at ht
    have hqr : q ≠ Tile.root := by rintro rfl; simp [Tile.root] at hqz
    simp only [bqFindParentLeaf, at_of_getElem? hw, Res.ok_bind, hw1, hw2, if_false, hqr, ht, Res.throw_bind]

/-! ### size -/

/-- levels between `k` and a tile in it -/
def bqCost (k t : Tile) : Nat := if AncOrSelf k t then t.z - k.z else 0

theorem bqCost_children (k t : Tile) :
    bqCost (k.child 0) t + bqCost (k.child 1) t + bqCost (k.child 2) t + bqCost (k.child 3) t +
      (if AncOrSelf k t ∧ k ≠ t then 1 else 0) ≤ bqCost k t := by
  by_cases h : AncOrSelf k t
  · by_cases hk : k = t
    · subst hk
      have : ∀ i, ¬ AncOrSelf (k.child i) k := by
        intro i h'; have := h'.1; simp only [Tile.child] at this; omega
      simp [bqCost, this]
    · have hz : k.z < t.z := by
        have := h.1
        apply Classical.byContradiction; intro h'
        exact hk (ancOrSelf_same_z h (by omega))
      obtain ⟨i, hi, ha⟩ := ancOrSelf_child_of_lt h hz
      have hother : ∀ j < 4, j ≠ i → bqCost (k.child j) t = 0 := by
        intro j hj hne
        simp only [bqCost, if_neg (fun h' => hne (ancOrSelf_child_unique hj hi h' ha))]
      have hthis : bqCost (k.child i) t = t.z - k.z - 1 := by
        rw [bqCost, if_pos ha]; simp only [Tile.child]; omega
      have hk' : bqCost k t = t.z - k.z := by simp [bqCost, h]
      rw [hk', if_pos ⟨h, hk⟩]
      have hcase : i = 0 ∨ i = 1 ∨ i = 2 ∨ i = 3 := by omega
      rcases hcase with rfl | rfl | rfl | rfl
      · rw [hthis, hother 1 (by omega) (by omega), hother 2 (by omega) (by omega), hother 3 (by omega) (by omega)]; omega
      · rw [hthis, hother 0 (by omega) (by omega), hother 2 (by omega) (by omega), hother 3 (by omega) (by omega)]; omega
      · rw [hthis, hother 0 (by omega) (by omega), hother 1 (by omega) (by omega), hother 3 (by omega) (by omega)]; omega
      · rw [hthis, hother 0 (by omega) (by omega), hother 1 (by omega) (by omega), hother 2 (by omega) (by omega)]; omega
  · have : ∀ i, ¬ AncOrSelf (k.child i) t := fun i h' => h (ancOrSelf_trans (ancOrSelf_child k i) h')
    simp [bqCost, this, h]

theorem bqCost_sum (k : Tile) (l : List Tile) :
    (l.map (bqCost (k.child 0))).sum + (l.map (bqCost (k.child 1))).sum + (l.map (bqCost (k.child 2))).sum +
      (l.map (bqCost (k.child 3))).sum + (l.filter (fun t => AncOrSelf k t ∧ k ≠ t)).length ≤ (l.map (bqCost k)).sum := by
  induction l with
  | nil => simp
  | cons t l ih =>
    have := bqCost_children k t
    simp only [List.map_cons, List.sum_cons, List.filter_cons]
    split
    · rename_i h
      rw [if_pos (by simpa using h)] at this
      simp only [List.length_cons]; omega
    · rename_i h
      rw [if_neg (by simpa using h)] at this
      omega

theorem innerCount_le_cost (tiles : List Tile) (d : Nat) (k : Tile) (hd : ∀ t ∈ tiles, t.z ≤ k.z + d) :
    (specTree tiles d k).innerCount ≤ (tiles.map (bqCost k)).sum := by
  induction d generalizing k with
  | zero => simp only [specTree]; split <;> simp [Bq.innerCount]
  | succ d ih =>
    cases h : specTree tiles (d + 1) k with
    | empty => simp [Bq.innerCount]
    | leaf => simp [Bq.innerCount]
    | inner a b c e =>
      obtain ⟨d', hd', hk, hc⟩ := specTree_child h
      obtain rfl : d = d' := by omega
      rw [forall_lt_four] at hc
      simp only [Bq.child] at hc
      obtain ⟨h0, h1, h2, h3⟩ := hc
      have hdc : ∀ i, ∀ t ∈ tiles, t.z ≤ (k.child i).z + d := by
        intro i t ht; have := hd t ht; simp only [Tile.child]; omega
      have i0 := ih (k.child 0) (hdc 0)
      have i1 := ih (k.child 1) (hdc 1)
      have i2 := ih (k.child 2) (hdc 2)
      have i3 := ih (k.child 3) (hdc 3)
      rw [← h0] at i0; rw [← h1] at i1; rw [← h2] at i2; rw [← h3] at i3
      have hs := bqCost_sum k tiles
      have hne : ¬ ∀ t ∈ tiles, ¬ AncOrSelf k t := by
        rw [← specTree_empty hd, h]; simp
      simp only [Classical.not_forall, Classical.not_not] at hne
      obtain ⟨t, ht, ha⟩ := hne
      have : t ∈ tiles.filter (fun t => AncOrSelf k t ∧ k ≠ t) := by
        rw [List.mem_filter]
        refine ⟨ht, ?_⟩
        simp only [decide_eq_true_eq]
        exact ⟨ha, by rintro rfl; exact hk ht⟩
      have := List.length_pos_of_mem this
      simp only [Bq.innerCount]; omega

theorem cost_root_le (tiles : List Tile) : (tiles.map (bqCost Tile.root)).sum ≤ (tiles.map (·.z)).sum := by
  induction tiles with
  | nil => simp
  | cons t l ih =>
    simp only [List.map_cons, List.sum_cons, bqCost, Tile.root] at *
    split <;> omega

/-! ### enumeration -/

/-- the leaf tiles of the tree rooted at tile `k` -/
def bqTiles : Bq → Tile → List Tile
  | .empty, _ => []
  | .leaf, k => [k]
  | .inner c0 c1 c2 c3, k => bqTiles c0 (k.child 0) ++ bqTiles c1 (k.child 1) ++ bqTiles c2 (k.child 2) ++ bqTiles c3 (k.child 3)

theorem bqTiles_anc {n : Bq} {k t : Tile} (h : t ∈ bqTiles n k) : AncOrSelf k t := by
  induction n generalizing k with
  | empty => simp [bqTiles] at h
  | leaf => simp [bqTiles] at h; subst h; exact ancOrSelf_refl _
  | inner a b c d iha ihb ihc ihd =>
    simp only [bqTiles, List.mem_append] at h
    rcases h with ((h | h) | h) | h
    · exact ancOrSelf_trans (ancOrSelf_child _ _) (iha h)
    · exact ancOrSelf_trans (ancOrSelf_child _ _) (ihb h)
    · exact ancOrSelf_trans (ancOrSelf_child _ _) (ihc h)
    · exact ancOrSelf_trans (ancOrSelf_child _ _) (ihd h)

theorem bqTiles_nodup (n : Bq) (k : Tile) : (bqTiles n k).Nodup := by
  induction n generalizing k with
  | empty => simp [bqTiles]
  | leaf => simp [bqTiles]
  | inner a b c d iha ihb ihc ihd =>
    simp only [bqTiles, List.nodup_append, List.mem_append]
    have key : ∀ (m n : Bq) (i j : Nat), i < 4 → j < 4 → i ≠ j → ∀ x ∈ bqTiles m (k.child i), ∀ y ∈ bqTiles n (k.child j), x ≠ y := by
      intro m n i j hi hj hne x hx y hy hxy
      subst hxy
      exact hne (ancOrSelf_child_unique hi hj (bqTiles_anc hx) (bqTiles_anc hy))
    refine ⟨⟨⟨iha _, ihb _, ?_⟩, ihc _, ?_⟩, ihd _, ?_⟩
    · exact key _ _ 0 1 (by omega) (by omega) (by omega)
    · rintro x (hx | hx) y hy
      · exact key _ _ 0 2 (by omega) (by omega) (by omega) x hx y hy
      · exact key _ _ 1 2 (by omega) (by omega) (by omega) x hx y hy
    · rintro x ((hx | hx) | hx) y hy
      · exact key _ _ 0 3 (by omega) (by omega) (by omega) x hx y hy
      · exact key _ _ 1 3 (by omega) (by omega) (by omega) x hx y hy
      · exact key _ _ 2 3 (by omega) (by omega) (by omega) x hx y hy

/-- the leaves are the input tiles in `k` without an input tile between -/
theorem mem_bqTiles_spec {tiles : List Tile} {d : Nat} {k t : Tile} (hd : ∀ t ∈ tiles, t.z ≤ k.z + d) :
    t ∈ bqTiles (specTree tiles d k) k ↔
      t ∈ tiles ∧ AncOrSelf k t ∧ ∀ s ∈ tiles, AncOrSelf k s → AncOrSelf s t → s = t := by
  induction d generalizing k with
  | zero =>
    simp only [specTree]
    split
    · rename_i hk
      simp only [bqTiles, List.mem_singleton]
      constructor
      · rintro rfl; exact ⟨hk, ancOrSelf_refl _, fun s hs h1 h2 => ancOrSelf_same_z h2 (by have := h1.1; have := h2.1; omega)⟩
      · rintro ⟨ht, ha, _⟩; exact (ancOrSelf_same_z ha (by have := hd t ht; have := ha.1; omega)).symm
    · rename_i hk
      simp only [bqTiles, List.not_mem_nil, false_iff]
      rintro ⟨ht, ha, _⟩
      have : k = t := ancOrSelf_same_z ha (by have := hd t ht; have := ha.1; omega)
      subst this; exact hk ht
  | succ d ih =>
    by_cases hk : k ∈ tiles
    · rw [specTree_leaf.2 hk]
      simp only [bqTiles, List.mem_singleton]
      constructor
      · rintro rfl; exact ⟨hk, ancOrSelf_refl _, fun s hs h1 h2 => ancOrSelf_same_z h2 (by have := h1.1; have := h2.1; omega)⟩
      · rintro ⟨ht, ha, hm⟩; exact (hm k hk (ancOrSelf_refl _) ha).symm
    · have hdc : ∀ i, ∀ t ∈ tiles, t.z ≤ (k.child i).z + d := by
        intro i t ht; have := hd t ht; simp only [Tile.child]; omega
      have hu : t ∈ bqTiles (specTree tiles (d + 1) k) k ↔ ∃ i < 4, t ∈ bqTiles (specTree tiles d (k.child i)) (k.child i) := by
        simp only [specTree, if_neg hk]
        unfold Bq.mk
        split
        · rename_i he
          simp only [bqTiles, List.not_mem_nil, false_iff]
          rintro ⟨i, hi, h⟩
          have : ∀ i < 4, specTree tiles d (k.child i) = .empty := by rw [forall_lt_four]; exact he
          rw [this i hi] at h; simp [bqTiles] at h
        · simp only [bqTiles, List.mem_append]
          constructor
          · rintro (((h | h) | h) | h)
            · exact ⟨0, by omega, h⟩
            · exact ⟨1, by omega, h⟩
            · exact ⟨2, by omega, h⟩
            · exact ⟨3, by omega, h⟩
          · rintro ⟨i, hi, h⟩
            match i, hi with
            | 0, _ => exact Or.inl (Or.inl (Or.inl h))
            | 1, _ => exact Or.inl (Or.inl (Or.inr h))
            | 2, _ => exact Or.inl (Or.inr h)
            | 3, _ => exact Or.inr h
      rw [hu]
      constructor
      · rintro ⟨i, hi, h⟩
        rw [ih (hdc i)] at h
        obtain ⟨h1, h2, h3⟩ := h
        refine ⟨h1, ancOrSelf_trans (ancOrSelf_child _ _) h2, fun s hs hks hst => h3 s hs ?_ hst⟩
        refine ancOrSelf_linear h2 hst ?_
        have hne : k ≠ s := by rintro rfl; exact hk hs
        have := hks.1
        simp only [Tile.child]
        apply Classical.byContradiction; intro h'
        exact hne (ancOrSelf_same_z hks (by omega))
      · rintro ⟨h1, h2, h3⟩
        have hz : k.z < t.z := by
          have := h2.1
          apply Classical.byContradiction; intro h'
          have : k = t := ancOrSelf_same_z h2 (by omega)
          subst this; exact hk h1
        obtain ⟨i, hi, ha⟩ := ancOrSelf_child_of_lt h2 hz
        refine ⟨i, hi, ?_⟩
        rw [ih (hdc i)]
        exact ⟨h1, ha, fun s hs hks hst => h3 s hs (ancOrSelf_trans (ancOrSelf_child _ _) hks) hst⟩

/-- stack entries that stand for trees -/
def BqGood (nodes : List Nat) (e : Tile × Nat × Bq) : Prop :=
  e.2.2.isInner ∧ ∃ off, nodes[off]? = some e.2.1 ∧ BqRepr nodes off e.2.2

def bqFlat (E : List (Tile × Nat × Bq)) : List Tile := E.flatMap (fun e => bqTiles e.2.2 e.1)
def bqPend (E : List (Tile × Nat × Bq)) : Nat := (E.map (fun e => e.2.2.innerCount)).sum

theorem bqLeafsChild_spec {nodes : List Nat} {k : Tile} {w : Nat} {c0 c1 c2 c3 : Bq}
    (hb : ∀ i < 4, w.testBit (i + kBqFalseOffset) = decide ((Bq.inner c0 c1 c2 c3).child i = .empty) ∧
        w.testBit (i + kBqTrueOffset) = decide ((Bq.inner c0 c1 c2 c3).child i = .leaf))
    (hrc : ∀ i < 4, BqRepr nodes (w % 2 ^ 24 + (Bq.inner c0 c1 c2 c3).rank i) ((Bq.inner c0 c1 c2 c3).child i))
    (i : Nat) (hi : i < 4) (res : List Tile) (E : List (Tile × Nat × Bq)) (hE : ∀ e ∈ E, BqGood nodes e) :
    ∃ res' E', bqLeafsChild nodes k w (res, E.map (fun e => (e.1, e.2.1)), (Bq.inner c0 c1 c2 c3).rank i) i =
      .ok (res', E'.map (fun e => (e.1, e.2.1)), (Bq.inner c0 c1 c2 c3).rank (i + 1)) ∧ (∀ e ∈ E', BqGood nodes e) ∧
      (res' ++ bqFlat E').Perm (res ++ bqFlat E ++ bqTiles ((Bq.inner c0 c1 c2 c3).child i) (k.child i)) ∧
      bqPend E' = bqPend E + ((Bq.inner c0 c1 c2 c3).child i).innerCount := by
  simp only [bqLeafsChild, Tile.quadPos_child k hi, (hb i hi).1, (hb i hi).2, Bq.rank_succ]
  have hr := hrc i hi
  cases h : (Bq.inner c0 c1 c2 c3).child i with
  | empty =>
    refine ⟨res, E, by simp [Bq.isInner], hE, by simp [bqTiles], by simp [Bq.innerCount]⟩
  | leaf =>
    refine ⟨res ++ [k.child i], E, by simp [Bq.isInner], hE, ?_, by simp [Bq.innerCount]⟩
    simp only [bqTiles, List.append_assoc]
    exact List.Perm.append_left _ List.perm_append_comm
  | inner a b c d =>
    rw [h] at hr
    have hr' := hr
    obtain ⟨w', hw', _⟩ := hr'
    refine ⟨res, (k.child i, w', .inner a b c d) :: E, ?_, ?_, ?_, ?_⟩
    · simp only [reduceCtorEq, decide_false, Bool.false_eq_true, if_false, and_mask, at_of_getElem? hw', Res.ok_bind, Res.pure_eq,
        Bq.isInner, if_true, List.map_cons]
    · intro e he
      rcases List.mem_cons.1 he with rfl | he
      · exact ⟨rfl, _, hw', hr⟩
      · exact hE e he
    · simp only [bqFlat, List.flatMap_cons, List.append_assoc]
      exact List.Perm.append_left _ List.perm_append_comm
    · simp only [bqPend, List.map_cons, List.sum_cons]; omega

theorem bqLeafsLoop_spec {nodes : List Nat} (fuel : Nat) (res : List Tile) (E : List (Tile × Nat × Bq))
    (hE : ∀ e ∈ E, BqGood nodes e) (hf : bqPend E ≤ fuel) :
    ∃ res', bqLeafsLoop nodes fuel res (E.map (fun e => (e.1, e.2.1))) = .ok res' ∧ res'.Perm (res ++ bqFlat E) := by
  induction fuel generalizing res E with
  | zero =>
    cases E with
    | nil => exact ⟨res, rfl, by simp [bqFlat]⟩
    | cons e E =>
      exfalso
      have := (hE e (by simp)).1
      cases he : e.2.2 <;> simp [he, Bq.isInner] at this
      simp [bqPend, he, Bq.innerCount] at hf
  | succ fuel ih =>
    cases E with
    | nil => exact ⟨res, rfl, by simp [bqFlat]⟩
    | cons e E =>
      obtain ⟨k, w, n⟩ := e
      obtain ⟨hin, off, hw, hr⟩ := hE (k, w, n) (by simp)
      simp only at hin hw hr
      cases n with
      | empty => simp [Bq.isInner] at hin
      | leaf => simp [Bq.isInner] at hin
      | inner c0 c1 c2 c3 =>
        obtain ⟨w', hw', hb, _, hrc⟩ := hr
        rw [hw] at hw'
        obtain rfl := Option.some.inj hw'
        have hrc' : ∀ i < 4, BqRepr nodes (w % 2 ^ 24 + (Bq.inner c0 c1 c2 c3).rank i) ((Bq.inner c0 c1 c2 c3).child i) := by
          rw [forall_lt_four]; exact hrc
        have hE0 : ∀ e ∈ E, BqGood nodes e := fun e he => hE e (by simp [he])
        obtain ⟨r1, E1, e1, g1, p1, n1⟩ := bqLeafsChild_spec (k := k) hb hrc' 0 (by omega) res E hE0
        obtain ⟨r2, E2, e2, g2, p2, n2⟩ := bqLeafsChild_spec (k := k) hb hrc' 1 (by omega) r1 E1 g1
        obtain ⟨r3, E3, e3, g3, p3, n3⟩ := bqLeafsChild_spec (k := k) hb hrc' 2 (by omega) r2 E2 g2
        obtain ⟨r4, E4, e4, g4, p4, n4⟩ := bqLeafsChild_spec (k := k) hb hrc' 3 (by omega) r3 E3 g3
        have hsum : bqPend E4 + 1 = bqPend ((k, w, Bq.inner c0 c1 c2 c3) :: E) := by
          simp only [bqPend, List.map_cons, List.sum_cons, Bq.innerCount, Bq.child] at *; omega
        obtain ⟨res', hres, hp⟩ := ih r4 E4 g4 (by omega)
        refine ⟨res', ?_, ?_⟩
        · simp only [List.map_cons, bqLeafsLoop]
          rw [Bq.rank_zero] at e1
          simp only [e1, e2, e3, e4, Res.ok_bind]
          exact hres
        · refine hp.trans ?_
          have q2 := p2.trans (p1.append_right _)
          have q3 := p3.trans (q2.append_right _)
          have q4 := p4.trans (q3.append_right _)
          refine q4.trans ?_
          simp only [bqFlat, List.flatMap_cons, bqTiles, Bq.child, List.append_assoc]
          apply List.Perm.append_left
          refine List.perm_append_comm.trans ?_
          simp [List.append_assoc]

/-! ### string view -/

theorem bqFromString_view (nodes : List Nat) (h : ∀ w ∈ nodes, w < 2 ^ 32) :
    bqFromString (bqStringView nodes) = .ok nodes := by
  have hlen : ∀ l : List Nat, (bqStringView l).length = 4 * l.length := by
    intro l
    induction l with
    | nil => rfl
    | cons w l ih =>
      have : bqStringView (w :: l) = leBytes 4 w ++ bqStringView l := rfl
      rw [this, List.length_append, leBytes_length, ih, List.length_cons]; omega
  simp only [bqFromString, hlen, Nat.mul_mod_right, beq_self_eq_true, verify_true, Res.ok_bind, Res.pure_eq, Res.ok.injEq]
  rw [Nat.mul_div_cancel_left _ (by omega)]
  induction nodes with
  | nil => rfl
  | cons w l ih =>
    rw [List.length_cons, List.range_succ_eq_map, List.map_cons, List.map_map]
    have e : bqStringView (w :: l) = leBytes 4 w ++ bqStringView l := rfl
    rw [e]
    congr 1
    · simp only [Nat.mul_zero, List.drop_zero]
      rw [List.take_append_of_le_length (by simp), List.take_of_length_le (by simp)]
      exact leNat_leBytes_of_lt (h w (by simp))
    · refine Eq.trans ?_ (ih (fun w hw => h w (by simp [hw])))
      apply List.map_congr_left
      intro i _
      simp only [Function.comp]
      rw [show 4 * (i + 1) = (leBytes 4 w).length + 4 * i by simp; omega, List.drop_length_add_append]

theorem bqSerChild_lt (off : Nat) (node : Bq) (s : List Nat × List (Nat × Bq)) (i : Nat) (hi : i < 4)
    (h : ∀ w ∈ s.1, w < 2 ^ 32) : ∀ w ∈ (bqSerChild off node s i).1, w < 2 ^ 32 := by
  have hmod : ∀ (f : Nat → Nat), (∀ w < 2 ^ 32, f w < 2 ^ 32) → ∀ w ∈ s.1.modify off f, w < 2 ^ 32 := by
    intro f hf w hw
    obtain ⟨j, hj⟩ := List.mem_iff_getElem?.1 hw
    rw [List.getElem?_modify] at hj
    cases hs : s.1[j]? with
    | none => rw [hs] at hj; simp at hj
    | some v =>
      rw [hs] at hj
      have hv := h v (List.mem_of_getElem? hs)
      simp only [Option.map_eq_map, Option.map_some, Option.some.injEq] at hj
      split at hj
      · rw [← hj]; exact hf v hv
      · rw [← hj]; exact hv
  unfold bqSerChild
  split
  · exact hmod _ (fun w hw => or_shift_lt hw (by simp only [kBqFalseOffset]; omega))
  · exact hmod _ (fun w hw => or_shift_lt hw (by simp only [kBqTrueOffset]; omega))
  · intro w hw
    rcases List.mem_append.1 hw with hw | hw
    · refine hmod _ ?_ w hw
      intro v hv
      split
      · exact Nat.mod_lt _ (by omega)
      · exact hv
    · simp at hw; subst hw; omega

theorem bqSerLoop_lt (fuel : Nat) (vec : List Nat) (stack : List (Nat × Bq)) (r : List Nat)
    (h : ∀ w ∈ vec, w < 2 ^ 32) (hr : bqSerLoop fuel vec stack = .ok r) : ∀ w ∈ r, w < 2 ^ 32 := by
  induction fuel generalizing vec stack with
  | zero =>
    cases stack with
    | nil => simp only [bqSerLoop, Res.ok.injEq] at hr; rw [← hr]; exact h
    | cons e st => simp [bqSerLoop] at hr
  | succ fuel ih =>
    cases stack with
    | nil => simp only [bqSerLoop, Res.ok.injEq] at hr; rw [← hr]; exact h
    | cons e st =>
      simp only [bqSerLoop] at hr
      refine ih _ _ ?_ hr
      simp only [List.foldl_cons, List.foldl_nil]
      exact bqSerChild_lt _ _ _ _ (by omega) (bqSerChild_lt _ _ _ _ (by omega)
        (bqSerChild_lt _ _ _ _ (by omega) (bqSerChild_lt _ _ _ _ (by omega) h)))

theorem makeBqTree_lt {tiles : List Tile} {nodes : List Nat} (h : makeBqTree tiles = .ok nodes) :
    ∀ w ∈ nodes, w < 2 ^ 32 := by
  unfold makeBqTree at h
  split at h
  · obtain rfl := Res.ok.inj h; decide
  · split at h
    · split at h
      · obtain rfl := Res.ok.inj h; decide
      · exact bqSerLoop_lt _ _ _ _ (by simp) h
    · simp at h

end Tiles
