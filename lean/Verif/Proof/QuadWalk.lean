import Verif.Proof.QuadSer
import Verif.Proof.BqQuery
import Verif.Spec.Order
/-
Helper lemmas: walking a quad tree.
-/
namespace Tiles
open Spec

/-- total size of entries -/
def qSize (l : List QInput) : Nat := (l.map (·.size)).sum

@[simp] theorem qSize_nil : qSize [] = 0 := rfl
@[simp] theorem qSize_cons (e l) : qSize (e :: l) = e.size + qSize l := by simp [qSize]
@[simp] theorem qSize_append (l m) : qSize (l ++ m) = qSize l + qSize m := by simp [qSize]

theorem laid_append {p a l m} : Laid p a (l ++ m) ↔ Laid p a l ∧ Laid p (a + qSize l) m := by
  induction l generalizing a with
  | nil => simp [Laid]
  | cons e l ih => simp [Laid, ih, Nat.add_assoc, and_assoc]

/-- element numbers of the entries that share area with `q` -/
def hit (q : Tile) : Nat → List QInput → List Nat
  | _, [] => []
  | a, e :: l => (if Meet e.tile q then List.range' a e.size else []) ++ hit q (a + e.size) l

theorem hit_append {q a l m} : hit q a (l ++ m) = hit q a l ++ hit q (a + qSize l) m := by
  induction l generalizing a with
  | nil => simp [hit]
  | cons e l ih => simp [hit, ih, Nat.add_assoc]

theorem hit_none {q a l} (h : ∀ e ∈ l, ¬ Meet e.tile q) : hit q a l = [] := by
  induction l generalizing a with
  | nil => rfl
  | cons e l ih => simp [hit, h e (by simp), ih (fun e he => h e (by simp [he]))]

theorem hit_all {q a l} (h : ∀ e ∈ l, Meet e.tile q) : hit q a l = List.range' a (qSize l) := by
  induction l generalizing a with
  | nil => rfl
  | cons e l ih =>
    simp [hit, h e (by simp), ih (fun e he => h e (by simp [he]))]

/-! ### decomposition of a block -/

/-- entries in `k` -/
def blk (es : List QInput) (k : Tile) : List QInput := es.filter (fun e => AncOrSelf k e.tile)

def selfBlk (es : List QInput) (k : Tile) : List QInput := es.filter (fun e => e.tile = k)

def cls (k t : Tile) : Nat := if t = k then 0 else 1 + (ancAt t (k.z + 1)).quadPos

theorem cls_le (k t : Tile) : cls k t ≤ 4 := by
  unfold cls; split
  · omega
  · have := Tile.quadPos_lt (ancAt t (k.z + 1)); omega

theorem cls_child {k t : Tile} {i : Nat} (hi : i < 4) (h : AncOrSelf (k.child i) t) : cls k t = 1 + i := by
  have hne : t ≠ k := by rintro rfl; have := h.1; simp only [Tile.child] at this; omega
  have := anc_eq_ancAt h
  rw [show (k.child i).z = k.z + 1 from rfl] at this
  rw [cls, if_neg hne, ← this, Tile.quadPos_child _ hi]

theorem cls_cases {k t : Tile} (h : AncOrSelf k t) : (t = k ∧ cls k t = 0) ∨ ∃ i < 4, AncOrSelf (k.child i) t ∧ cls k t = 1 + i := by
  by_cases ht : t = k
  · left; exact ⟨ht, by simp [cls, ht]⟩
  · right
    have hz : k.z < t.z := by
      have := h.1
      apply Classical.byContradiction; intro h'
      exact ht (ancOrSelf_same_z h (by omega)).symm
    obtain ⟨i, hi, ha⟩ := ancOrSelf_child_of_lt h hz
    exact ⟨i, hi, ha, cls_child hi ha⟩

theorem cls_mono {k a b : Tile} (ha : AncOrSelf k a) (hb : AncOrSelf k b) (h : PreOrd a b) : cls k a ≤ cls k b := by
  rcases cls_cases ha with ⟨_, h0⟩ | ⟨i, hi, hai, hci⟩
  · omega
  · rw [hci]
    rcases h with h | ⟨c, x, y, hxy, hy, hxa, hyb⟩
    · rw [cls_child hi (ancOrSelf_trans hai h)]; omega
    · -- c against k
      by_cases hcz : c.z < k.z
      · exfalso
        have h1 : AncOrSelf (c.child x) k := ancOrSelf_linear hxa ha (by simp only [Tile.child]; omega)
        have h2 : AncOrSelf (c.child y) k := ancOrSelf_linear hyb hb (by simp only [Tile.child]; omega)
        have := ancOrSelf_child_unique (by omega) hy h1 h2
        omega
      · have hca : AncOrSelf c a := ancOrSelf_trans (ancOrSelf_child _ _) hxa
        have hcb : AncOrSelf c b := ancOrSelf_trans (ancOrSelf_child _ _) hyb
        by_cases hck : c.z = k.z
        · have : k = c := ancOrSelf_same_z (ancOrSelf_linear ha hca (by omega)) hck.symm
          subst this
          have := ancOrSelf_child_unique hi (by omega) hai hxa
          rw [cls_child hy hyb]; omega
        · have h1 : AncOrSelf (k.child i) c := ancOrSelf_linear hai hca (by simp only [Tile.child]; omega)
          rw [cls_child hi (ancOrSelf_trans h1 hcb)]; omega

theorem sorted_partition {α : Type} (f : α → Nat) (n : Nat) (l : List α) (h : l.Pairwise (fun a b => f a ≤ f b)) :
    l.filter (fun a => f a < n) ++ l.filter (fun a => ¬ f a < n) = l := by
  induction l with
  | nil => rfl
  | cons a l ih =>
    rw [List.pairwise_cons] at h
    by_cases ha : f a < n
    · simp only [List.filter_cons, ha, decide_true, if_true, not_true_eq_false, decide_false, Bool.false_eq_true, if_false, List.cons_append]
      rw [ih h.2]
    · have h1 : l.filter (fun a => f a < n) = [] := by
        rw [List.filter_eq_nil_iff]; intro b hb
        have := h.1 b hb
        simp only [decide_eq_true_eq]; omega
      have h2 : l.filter (fun a => ¬ f a < n) = l := by
        rw [List.filter_eq_self]; intro b hb
        have := h.1 b hb
        simp only [decide_eq_true_eq]; omega
      simp only [List.filter_cons, ha, decide_false, Bool.false_eq_true, if_false, not_false_eq_true, decide_true, if_true]
      rw [h1, h2]; rfl

theorem sorted_split {α : Type} (f : α → Nat) (n : Nat) (l : List α) (h : l.Pairwise (fun a b => f a ≤ f b)) :
    l.filter (fun a => f a < n) = (List.range n).flatMap (fun c => l.filter (fun a => f a = c)) := by
  induction n with
  | zero => simp
  | succ n ih =>
    rw [List.range_succ, List.flatMap_append, ← ih]
    have hp : (l.filter (fun a => f a < n + 1)).Pairwise (fun a b => f a ≤ f b) := h.filter _
    rw [← sorted_partition f n _ hp, List.filter_filter, List.filter_filter]
    congr 1
    · apply List.filter_congr
      intro a _
      by_cases h1 : f a < n <;> by_cases h3 : f a < n + 1 <;> simp [h1, h3] <;> omega
    · rw [List.flatMap_singleton]
      apply List.filter_congr
      intro a _
      by_cases h1 : f a < n <;> by_cases h2 : f a = n <;> by_cases h3 : f a < n + 1 <;> simp [h1, h2, h3] <;> omega

/-- the block of a tile is its own entries followed by the blocks of its children -/
theorem blk_split {es : List QInput} (hs : es.Pairwise (fun a b => PreOrd a.tile b.tile)) (k : Tile) :
    blk es k = selfBlk es k ++ blk es (k.child 0) ++ blk es (k.child 1) ++ blk es (k.child 2) ++ blk es (k.child 3) := by
  have hp : (blk es k).Pairwise (fun a b => cls k a.tile ≤ cls k b.tile) := by
    refine List.Pairwise.imp_of_mem ?_ (hs.filter (fun e => decide (AncOrSelf k e.tile)))
    intro a b ha hb h
    simp only [blk, List.mem_filter, decide_eq_true_eq] at ha hb
    exact cls_mono ha.2 hb.2 h
  have h5 := sorted_split (fun e : QInput => cls k e.tile) 5 (blk es k) hp
  have hall : (blk es k).filter (fun e => cls k e.tile < 5) = blk es k := by
    rw [List.filter_eq_self]; intro e _
    have := cls_le k e.tile
    simp only [decide_eq_true_eq]; omega
  rw [hall] at h5
  rw [h5]
  simp only [show List.range 5 = [0, 1, 2, 3, 4] from rfl, List.flatMap_cons, List.flatMap_nil, List.append_nil, List.append_assoc]
  have e0 : (blk es k).filter (fun e => cls k e.tile = 0) = selfBlk es k := by
    simp only [blk, selfBlk, List.filter_filter]
    apply List.filter_congr
    intro e _
    simp only [← Bool.decide_and, decide_eq_decide]
    constructor
    · rintro ⟨h1, h2⟩
      rcases cls_cases h2 with ⟨h, _⟩ | ⟨i, hi, _, h⟩
      · exact h
      · omega
    · intro h; rw [h]; exact ⟨by simp [cls], ancOrSelf_refl _⟩
  have ei : ∀ i < 4, (blk es k).filter (fun e => cls k e.tile = i + 1) = blk es (k.child i) := by
    intro i hi
    simp only [blk, List.filter_filter]
    apply List.filter_congr
    intro e _
    simp only [← Bool.decide_and, decide_eq_decide]
    constructor
    · rintro ⟨h1, h2⟩
      rcases cls_cases h2 with ⟨_, h⟩ | ⟨j, hj, h, h'⟩
      · omega
      · have : j = i := by omega
        subst this; exact h
    · intro h; exact ⟨by rw [cls_child hi h]; omega, ancOrSelf_trans (ancOrSelf_child _ _) h⟩
  rw [e0, ei 0 (by omega), ei 1 (by omega), ei 2 (by omega), ei 3 (by omega)]

/-! ### offset and size of a subtree -/

def boff (p : Nat → Nat) (a : Nat) (l : List QInput) : Nat := if l = [] then 2 ^ 32 - 1 else p a

theorem boff_append {p : Nat → Nat} (hp : ∀ i j, i ≤ j → p i ≤ p j) {a : Nat} {l m : List QInput}
    (hl : Laid p a (l ++ m)) (hlo : ∀ e ∈ l ++ m, e.offset < 2 ^ 32) :
    min (boff p a l) (boff p (a + qSize l) m) = boff p a (l ++ m) := by
  cases l with
  | nil =>
    simp only [boff, if_true, qSize_nil, Nat.add_zero, List.nil_append]
    cases m with
    | nil => simp
    | cons e m =>
      have h1 : e.offset = p a := hl.1
      have h2 := hlo e (by simp)
      simp only [reduceCtorEq, if_false]; omega
  | cons e l =>
    have h1 : e.offset = p a := hl.1
    have h2 := hlo e (by simp)
    have h3 := hp a (a + qSize (e :: l)) (by omega)
    simp only [boff, List.cons_append, reduceCtorEq, if_false]
    split <;> omega

theorem selfBlk_eq {es : List QInput} (hn : (es.map (·.tile)).Nodup) (k : Tile) : selfBlk es k = (entryAt es k).toList := by
  induction es with
  | nil => rfl
  | cons e es ih =>
    simp only [List.map_cons, List.nodup_cons] at hn
    simp only [selfBlk, entryAt, List.filter_cons, List.find?_cons] at *
    by_cases h : e.tile = k
    · simp only [h, decide_true, if_true, Option.toList_some, List.cons.injEq, true_and]
      rw [List.filter_eq_nil_iff]
      intro x hx; simp only [decide_eq_true_eq]
      intro h'; exact hn.1 (h.trans h'.symm ▸ List.mem_map.2 ⟨x, hx, rfl⟩)
    · simp only [h, decide_false, Bool.false_eq_true, if_false]
      exact ih hn.2

theorem qSize_filter_le (l : List QInput) (f : QInput → Bool) : qSize (l.filter f) ≤ qSize l := by
  induction l with
  | nil => simp
  | cons e l ih =>
    rw [List.filter_cons]
    split
    · simp; exact ih
    · simp; omega

/-- the data of the node for `k`, given its block -/
structure QData (p : Nat → Nat) (a : Nat) (b : List QInput) (n : Qt) : Prop where
  off : n.off = boff p a b
  sub : n.sub = qSize b
  some : n.isNode = true ↔ b ≠ []

theorem mk_data {es : List QInput} (hok : QOk es) (hs : es.Pairwise (fun a b => PreOrd a.tile b.tile))
    {p : Nat → Nat} (hp : ∀ i j, i ≤ j → p i ≤ p j) (htot : qSize es < 2 ^ 32) {k : Tile} {a : Nat}
    (hl : Laid p a (blk es k)) {c0 c1 c2 c3 : Qt}
    (h0 : ∀ a, Laid p a (blk es (k.child 0)) → QData p a (blk es (k.child 0)) c0)
    (h1 : ∀ a, Laid p a (blk es (k.child 1)) → QData p a (blk es (k.child 1)) c1)
    (h2 : ∀ a, Laid p a (blk es (k.child 2)) → QData p a (blk es (k.child 2)) c2)
    (h3 : ∀ a, Laid p a (blk es (k.child 3)) → QData p a (blk es (k.child 3)) c3) :
    QData p a (blk es k) (Qt.mk (entryAt es k) c0 c1 c2 c3) := by
  have hsp := blk_split hs k
  have hmem : ∀ e ∈ blk es k, e.offset < 2 ^ 32 := fun e he => hok.off e (List.mem_filter.1 he).1
  have hsz : qSize (blk es k) < 2 ^ 32 := Nat.lt_of_le_of_lt (qSize_filter_le _ _) htot
  have hself := selfBlk_eq hok.nodup k
  rw [hsp] at hl hmem hsz ⊢
  generalize blk es (k.child 0) = b0 at *
  generalize blk es (k.child 1) = b1 at *
  generalize blk es (k.child 2) = b2 at *
  generalize blk es (k.child 3) = b3 at *
  generalize selfBlk es k = bs at *
  have hl' := hl
  rw [laid_append, laid_append, laid_append, laid_append] at hl'
  obtain ⟨⟨⟨⟨l0, l1⟩, l2⟩, l3⟩, l4⟩ := hl'
  have d0 := h0 _ l1
  have d1 := h1 _ l2
  have d2 := h2 _ l3
  have d3 := h3 _ l4
  have m4 := boff_append hp hl hmem
  have hl3 := (laid_append.1 hl).1
  have hm3 : ∀ e ∈ bs ++ b0 ++ b1 ++ b2, e.offset < 2 ^ 32 := fun e he => hmem e (List.mem_append_left _ he)
  have m3 := boff_append hp hl3 hm3
  have hl2 := (laid_append.1 hl3).1
  have hm2 : ∀ e ∈ bs ++ b0 ++ b1, e.offset < 2 ^ 32 := fun e he => hm3 e (List.mem_append_left _ he)
  have m2 := boff_append hp hl2 hm2
  have hl1 := (laid_append.1 hl2).1
  have hm1 : ∀ e ∈ bs ++ b0, e.offset < 2 ^ 32 := fun e he => hm2 e (List.mem_append_left _ he)
  have m1 := boff_append hp hl1 hm1
  have hso : ((entryAt es k).map (·.offset)).getD (2 ^ 32 - 1) = boff p a bs := by
    cases h : entryAt es k with
    | none => rw [h] at hself; simp at hself; simp [boff, hself]
    | some e => rw [h] at hself; simp at hself; subst hself; simpa [boff] using l0.1
  have hss : ((entryAt es k).map (·.size)).getD 0 = qSize bs := by
    cases h : entryAt es k with
    | none => rw [h] at hself; simp at hself; simp [hself]
    | some e => rw [h] at hself; simp at hself; subst hself; simp
  have hsn : entryAt es k = none ↔ bs = [] := by
    rw [hself]; cases entryAt es k <;> simp
  have isn : ∀ (c : Qt) (b : List QInput), (c.isNode = true ↔ b ≠ []) → (c = .none ↔ b = []) := by
    intro c b h; cases c <;> simp_all [Qt.isNode]
  have i0 := isn _ _ d0.some
  have i1 := isn _ _ d1.some
  have i2 := isn _ _ d2.some
  have i3 := isn _ _ d3.some
  unfold Qt.mk
  have hcond : (entryAt es k = none ∧ c0 = .none ∧ c1 = .none ∧ c2 = .none ∧ c3 = .none) ↔
      (bs = [] ∧ b0 = [] ∧ b1 = [] ∧ b2 = [] ∧ b3 = []) := by rw [hsn, i0, i1, i2, i3]
  by_cases hall : bs = [] ∧ b0 = [] ∧ b1 = [] ∧ b2 = [] ∧ b3 = []
  · rw [if_pos (hcond.2 hall)]
    obtain ⟨rfl, rfl, rfl, rfl, rfl⟩ := hall
    exact ⟨by simp [Qt.off, boff], by simp [Qt.sub], by simp [Qt.isNode]⟩
  · rw [if_neg (fun h => hall (hcond.1 h))]
    refine ⟨?_, ?_, ?_⟩
    · show min (min (min (min _ c0.off) c1.off) c2.off) c3.off = _
      rw [hso, d0.off, d1.off, d2.off, d3.off]
      simp only [qSize_append, ← Nat.add_assoc] at m1 m2 m3 m4 ⊢
      rw [m1, m2, m3, m4]
    · show (_ + (c0.sub + c1.sub + c2.sub + c3.sub)) % 2 ^ 32 = _
      rw [hss, d0.sub, d1.sub, d2.sub, d3.sub]
      simp only [qSize_append] at hsz ⊢
      rw [Nat.mod_eq_of_lt (by omega)]; omega
    · simp only [Qt.isNode, true_iff]
      intro h
      simp only [List.append_eq_nil_iff, and_assoc] at h
      exact hall h

theorem qtree_data {es : List QInput} (hok : QOk es) (hs : es.Pairwise (fun a b => PreOrd a.tile b.tile))
    {p : Nat → Nat} (hp : ∀ i j, i ≤ j → p i ≤ p j) (htot : qSize es < 2 ^ 32) (d : Nat) (k : Tile) (a : Nat)
    (hd : ∀ e ∈ es, e.tile.z ≤ k.z + d) (hl : Laid p a (blk es k)) : QData p a (blk es k) (qtree es d k) := by
  induction d generalizing k a with
  | zero =>
    have hem : ∀ i, blk es (k.child i) = [] := by
      intro i
      rw [blk, List.filter_eq_nil_iff]
      intro e he h
      simp only [decide_eq_true_eq] at h
      have := h.1; have := hd e he
      simp only [Tile.child] at *; omega
    have hnone : ∀ i a, Laid p a (blk es (k.child i)) → QData p a (blk es (k.child i)) .none := by
      intro i a _; rw [hem]; exact ⟨rfl, rfl, by simp [Qt.isNode]⟩
    exact mk_data hok hs hp htot hl (hnone 0) (hnone 1) (hnone 2) (hnone 3)
  | succ d ih =>
    have hdc : ∀ i, ∀ e ∈ es, e.tile.z ≤ (k.child i).z + d := by
      intro i e he; have := hd e he; simp only [Tile.child]; omega
    exact mk_data hok hs hp htot hl (fun a h => ih _ a (hdc 0) h) (fun a h => ih _ a (hdc 1) h)
      (fun a h => ih _ a (hdc 2) h) (fun a h => ih _ a (hdc 3) h)

/-- shape of a node of the abstract tree -/
theorem qtree_node {es : List QInput} (hok : QOk es) {d : Nat} {k : Tile} (hd : ∀ e ∈ es, e.tile.z ≤ k.z + d)
    {o s t : Nat} {c0 c1 c2 c3 : Qt}
    (h : qtree es d k = .node o s t c0 c1 c2 c3) :
    s = qSize (selfBlk es k) ∧ ∀ i < 4, (∃ d', (Qt.node o s t c0 c1 c2 c3).child i = qtree es d' (k.child i) ∧
      ∀ e ∈ es, e.tile.z ≤ (k.child i).z + d') ∨
      ((Qt.node o s t c0 c1 c2 c3).child i = .none ∧ blk es (k.child i) = []) := by
  have hself := selfBlk_eq hok.nodup k
  have key : ∀ (c0' c1' c2' c3' : Qt), Qt.mk (entryAt es k) c0' c1' c2' c3' = .node o s t c0 c1 c2 c3 →
      s = qSize (selfBlk es k) ∧ c0 = c0' ∧ c1 = c1' ∧ c2 = c2' ∧ c3 = c3' := by
    intro c0' c1' c2' c3' hm
    unfold Qt.mk at hm
    split at hm
    · simp at hm
    · simp only [Qt.node.injEq] at hm
      obtain ⟨_, hsz, _, e0, e1, e2, e3⟩ := hm
      refine ⟨?_, e0.symm, e1.symm, e2.symm, e3.symm⟩
      rw [← hsz, hself]
      cases entryAt es k <;> simp
  cases d with
  | zero =>
    obtain ⟨h1, rfl, rfl, rfl, rfl⟩ := key _ _ _ _ h
    refine ⟨h1, fun i hi => Or.inr ⟨?_, ?_⟩⟩
    · match i, hi with
      | 0, _ => rfl
      | 1, _ => rfl
      | 2, _ => rfl
      | 3, _ => rfl
    · rw [blk, List.filter_eq_nil_iff]
      intro e he h
      simp only [decide_eq_true_eq] at h
      have := h.1; have := hd e he
      simp only [Tile.child] at *; omega
  | succ d =>
    obtain ⟨h1, rfl, rfl, rfl, rfl⟩ := key _ _ _ _ h
    refine ⟨h1, fun i hi => Or.inl ⟨d, ?_, ?_⟩⟩
    · match i, hi with
      | 0, _ => rfl
      | 1, _ => rfl
      | 2, _ => rfl
      | 3, _ => rfl
    · intro e he; have := hd e he; simp only [Tile.child]; omega

/-! ### the walk -/

theorem qChildOffset_eq {w : Nat} {n : Qt}
    (hb : ∀ i < 4, w.testBit (kQuadChildOffset + i) = (n.child i).isNode) {pos : Nat} (hp : pos ≤ 4) :
    qChildOffset w pos = w % 2 ^ 28 + 4 * n.rank pos := by
  induction pos with
  | zero =>
    simp only [qChildOffset, List.range_zero, List.foldl_nil, Qt.rank_zero]
    unfold kQuadOffsetMask
    rw [Nat.and_two_pow_sub_one_eq_mod]; rfl
  | succ q ih =>
    have := ih (by omega)
    simp only [qChildOffset, List.range_succ, List.foldl_append, List.foldl_cons, List.foldl_nil] at *
    rw [this, Qt.rank_succ, hb q (by omega)]
    split <;> omega

theorem laid_split {p a} {bs b0 b1 b2 b3 : List QInput} (h : Laid p a (bs ++ b0 ++ b1 ++ b2 ++ b3)) :
    Laid p a bs ∧ Laid p (a + qSize bs) b0 ∧ Laid p (a + qSize bs + qSize b0) b1 ∧
      Laid p (a + qSize bs + qSize b0 + qSize b1) b2 ∧ Laid p (a + qSize bs + qSize b0 + qSize b1 + qSize b2) b3 := by
  simp only [laid_append, qSize_append] at h
  obtain ⟨⟨⟨⟨l0, l1⟩, l2⟩, l3⟩, l4⟩ := h
  refine ⟨l0, l1, ?_, ?_, ?_⟩
  · simpa [Nat.add_assoc] using l2
  · simpa [Nat.add_assoc] using l3
  · simpa [Nat.add_assoc] using l4

theorem not_meet_other_child {k q t : Tile} {i j : Nat} (hi : i < 4) (hj : j < 4) (hij : i ≠ j)
    (hq : AncOrSelf (k.child i) q) (ht : AncOrSelf (k.child j) t) : ¬ Meet t q := by
  rintro (h | h)
  · exact hij (ancOrSelf_child_unique hi hj hq (ancOrSelf_trans ht h))
  · exact hij (ancOrSelf_child_unique hi hj (ancOrSelf_trans hq h) ht)

/-- hits in the block of `k` for a query below child `i` -/
theorem hit_blk {es : List QInput} (hs : es.Pairwise (fun a b => PreOrd a.tile b.tile)) {k q : Tile} {p : Nat → Nat} {a : Nat}
    (hl : Laid p a (blk es k)) {i : Nat} (hi : i < 4) (hq : AncOrSelf (k.child i) q) :
    ∃ b, Laid p b (blk es (k.child i)) ∧ hit q a (blk es k) = List.range' a (qSize (selfBlk es k)) ++ hit q b (blk es (k.child i)) := by
  have hsp := blk_split hs k
  have hno : ∀ j < 4, j ≠ i → ∀ a, hit q a (blk es (k.child j)) = [] := by
    intro j hj hne a
    apply hit_none
    intro e he
    have := (List.mem_filter.1 he).2
    simp only [decide_eq_true_eq] at this
    exact not_meet_other_child hi hj (Ne.symm hne) hq this
  have hself : ∀ a, hit q a (selfBlk es k) = List.range' a (qSize (selfBlk es k)) := by
    intro a
    apply hit_all
    intro e he
    have := (List.mem_filter.1 he).2
    simp only [decide_eq_true_eq] at this
    rw [this]; exact Or.inl (ancOrSelf_trans (ancOrSelf_child _ _) hq)
  rw [hsp] at hl ⊢
  obtain ⟨_, l1, l2, l3, l4⟩ := laid_split hl
  simp only [hit_append, hself]
  match i, hi with
  | 0, _ => exact ⟨_, l1, by rw [hno 1, hno 2, hno 3] <;> simp⟩
  | 1, _ => exact ⟨_, l2, by rw [hno 0, hno 2, hno 3] <;> simp [Nat.add_assoc]⟩
  | 2, _ => exact ⟨_, l3, by rw [hno 0, hno 1, hno 3] <;> simp [Nat.add_assoc]⟩
  | 3, _ => exact ⟨_, l4, by rw [hno 0, hno 1, hno 2] <;> simp [Nat.add_assoc]⟩

theorem qWalkLoop_spec {es : List QInput} (hok : QOk es) (hs : es.Pairwise (fun a b => PreOrd a.tile b.tile))
    {p : Nat → Nat} (hp : ∀ i j, i ≤ j → p i ≤ p j) (htot : qSize es < 2 ^ 32) {rd : Nat → Res Nat} {q : Tile}
    (n : Nat) (d : Nat) (k : Tile) (a off : Nat) (hz : q.z = k.z + n) (ha : AncOrSelf k q)
    (hd : ∀ e ∈ es, e.tile.z ≤ k.z + d) (hl : Laid p a (blk es k)) (hne : blk es k ≠ [])
    (hr : QRepr rd off (qtree es d k)) :
    ∃ r, qWalkLoop rd q off (k :: (List.range n).map (fun i => ancAt q (k.z + 1 + i))) = .ok r ∧
      Spans p r (hit q a (blk es k)) := by
  induction n generalizing d k a off with
  | zero =>
    have hkq : k = q := ancOrSelf_same_z ha (by omega)
    subst hkq
    have hdata := qtree_data hok hs hp htot d k a hd hl
    cases hn : qtree es d k with
    | none => rw [hn] at hdata; exact absurd (hdata.some.2 hne) (by simp [Qt.isNode])
    | node o s t c0 c1 c2 c3 =>
      rw [hn] at hr hdata
      obtain ⟨w, r0, r1, r2, r3, _⟩ := hr
      refine ⟨[(o, t)], by simp [qWalkLoop, r1, r3], [(a, t)], ?_, ?_⟩
      · have := hdata.off
        simp only [Qt.off, boff, if_neg hne] at this
        simp [this]
      · have h2 := hdata.sub
        simp only [Qt.sub] at h2
        rw [hit_all]
        · simp [h2]
        · intro e he
          have := (List.mem_filter.1 he).2
          simp only [decide_eq_true_eq] at this
          exact Or.inr this
  | succ n ih =>
    have hkq : k ≠ q := by rintro rfl; omega
    have hdata := qtree_data hok hs hp htot d k a hd hl
    cases hn : qtree es d k with
    | none => rw [hn] at hdata; exact absurd (hdata.some.2 hne) (by simp [Qt.isNode])
    | node o s t c0 c1 c2 c3 =>
      rw [hn] at hr hdata
      obtain ⟨hsz, hch⟩ := qtree_node hok hd hn
      obtain ⟨w, r0, r1, r2, r3, hb, hrc⟩ := hr
      have ho := hdata.off
      simp only [Qt.off, boff, if_neg hne] at ho
      have hcq := ancAt_child ha (by omega)
      have hlt := Tile.quadPos_lt (ancAt q (k.z + 1))
      rw [List.range_succ_eq_map, List.map_cons, List.map_map, Nat.add_zero]
      have e : (fun i => ancAt q (k.z + 1 + i)) ∘ Nat.succ = fun j => ancAt q ((ancAt q (k.z + 1)).z + 1 + j) := by
        funext j; simp only [Function.comp]; congr 1; simp only [ancAt]; omega
      rw [e]
      generalize hi0 : (ancAt q (k.z + 1)).quadPos = i at *
      have hanc : AncOrSelf (k.child i) q := by rw [← hcq]; exact ancAt_anc (by omega)
      obtain ⟨b, hlb, hhit⟩ := hit_blk hs hl hlt hanc
      have hrc' : ∀ i < 4, QRepr rd (w % 2 ^ 28 + 4 * (Qt.node o s t c0 c1 c2 c3).rank i) ((Qt.node o s t c0 c1 c2 c3).child i) := by
        rw [forall_lt_four]; exact hrc
      -- the span of the node itself
      have hhere : qSelfSpan rd off s = .ok (if s ≠ 0 then [(o, s)] else []) := by
        unfold qSelfSpan
        by_cases h0 : s = 0 <;> simp [h0, r1]
      have hspan : Spans p (if s ≠ 0 then [(o, s)] else []) (List.range' a (qSize (selfBlk es k))) := by
        rw [← hsz]
        by_cases h0 : s = 0
        · exact ⟨[], by simp [h0], by simp [h0]⟩
        · exact ⟨[(a, s)], by simp [h0, ho], by simp⟩
      -- is the child there?
      by_cases hcn : ((Qt.node o s t c0 c1 c2 c3).child i).isNode
      · have hw0 : w ≠ 0 := by
          rintro rfl
          have := hb i hlt
          rw [Nat.zero_testBit, hcn] at this; simp at this
        rcases hch i hlt with ⟨d', hc1, hc2⟩ | ⟨hc1, hc2⟩
        · have hne' : blk es (k.child i) ≠ [] := by
            have := qtree_data hok hs hp htot d' (k.child i) b hc2 hlb
            rw [hc1] at hcn; exact this.some.1 hcn
          have hrep := hrc' i hlt
          rw [hc1] at hrep
          obtain ⟨r, hr1, l2, hl2, hl3⟩ := ih d' (k.child i) b _ (by simp only [Tile.child]; omega) hanc hc2 hlb hne' hrep
          obtain ⟨l1, hl1, hl1'⟩ := hspan
          refine ⟨(if s ≠ 0 then [(o, s)] else []) ++ r, ?_, l1 ++ l2, ?_, ?_⟩
          · rw [← hcq] at hr1
            rw [qWalkLoop]
            simp only [if_neg hkq, r2, Res.ok_bind, hhere, r0, hw0, if_false, hi0, hb i hlt, hcn, Bool.not_true,
              Bool.false_eq_true]
            rw [qChildOffset_eq hb (by omega), hr1]
            rfl
          · rw [hl1, hl2, List.map_append]
          · rw [List.flatMap_append, hl1', hl3, hhit]
        · rw [hc1] at hcn; simp [Qt.isNode] at hcn
      · have hbe : blk es (k.child i) = [] := by
          rcases hch i hlt with ⟨d', hc1, hc2⟩ | ⟨hc1, hc2⟩
          · have := qtree_data hok hs hp htot d' (k.child i) b hc2 hlb
            rw [hc1] at hcn
            by_contra h; exact hcn (this.some.2 h)
          · exact hc2
        refine ⟨if s ≠ 0 then [(o, s)] else [], ?_, ?_⟩
        · rw [qWalkLoop]
          simp only [if_neg hkq, r2, Res.ok_bind, hhere, r0]
          by_cases hw0 : w = 0
          · rw [if_pos hw0]; rfl
          · have hbf : w.testBit (kQuadChildOffset + i) = false := by rw [hb i hlt]; simpa using hcn
            rw [if_neg hw0, hi0, hbf]; rfl
        · rw [hhit, hbe]
          simpa [hit] using hspan

/-! ### the search for the query -/

theorem qAbove_spec {q root : Tile} (hq : q.z < 2 ^ 32) (hroot : root.z < 2 ^ 32) (fuel : Nat) (k : Tile) (hf : k.z ≤ fuel) (hk : k.z < 2 ^ 32) :
    qAbove q fuel k = true ↔ AncOrSelf q k := by
  induction fuel generalizing k with
  | zero =>
    simp only [qAbove, decide_eq_true_eq]
    constructor
    · rintro rfl; exact ancOrSelf_refl _
    · intro h; exact (ancOrSelf_same_z h (by have := h.1; omega)).symm
  | succ fuel ih =>
    unfold qAbove
    by_cases h : k = q
    · subst h; simp [ancOrSelf_refl]
    · rw [if_neg h]
      by_cases h0 : k.z = 0
      · rw [if_pos h0]
        simp only [Bool.false_eq_true, false_iff]
        intro h'; exact h (ancOrSelf_same_z h' (by have := h'.1; omega)).symm
      · rw [if_neg h0]
        have hpz : k.parent.z = k.z - 1 := by simp only [Tile.parent]; omega
        rw [ih k.parent (by omega) (by omega)]
        have hpk : AncOrSelf k.parent k := by
          have := ancOrSelf_child k.parent k.quadPos
          rwa [Tile.child_parent k (by omega) hk] at this
        constructor
        · intro h'; exact ancOrSelf_trans h' hpk
        · intro h'
          refine ancOrSelf_linear h' hpk ?_
          have := h'.1
          by_contra hc
          exact h (ancOrSelf_same_z h' (by omega)).symm

theorem qTrace_below {root q : Tile} (ha : AncOrSelf root q) (hz : q.z < 2 ^ 32) (m z : Nat) (hm : q.z = z + m) (hz1 : root.z < z)
    (fuel : Nat) (hf : z ≤ fuel) (tr : List Tile) (htr : tr = (List.range m).map (fun i => ancAt q (z + 1 + i))) :
    qTrace root fuel (ancAt q z :: tr) = some (root :: (List.range (q.z - root.z)).map (fun i => ancAt q (root.z + 1 + i))) := by
  induction z generalizing m fuel tr with
  | zero => omega
  | succ z ih =>
    unfold qTrace
    have hp := ancAt_parent (q := q) (z := z) (by omega) hz
    have htr' : ancAt q (z + 1) :: tr = (List.range (m + 1)).map (fun i => ancAt q (z + 1 + i)) := by
      rw [htr, List.range_succ_eq_map, List.map_cons, List.map_map]
      simp only [Nat.add_zero, List.cons.injEq, true_and]
      apply List.map_congr_left
      intro i _; simp only [Function.comp]; congr 1; omega
    rw [hp]
    by_cases h0 : z = root.z
    · subst h0
      rw [if_pos (anc_eq_ancAt ha).symm, htr']
      congr 3
      congr 1; omega
    · have hne : ancAt q z ≠ root := by intro h; exact h0 (congrArg Tile.z h)
      rw [if_neg hne, if_neg (by simp only [ancAt]; omega)]
      cases fuel with
      | zero => omega
      | succ fuel =>
        simp only
        exact ih (m + 1) (by omega) (by omega) fuel (by omega) _ htr'

theorem qTrace_unrelated {root : Tile} (hroot : root.z < 2 ^ 32 - 1) (fuel : Nat) (k : Tile) (tr : List Tile) (hk : k.z < 2 ^ 32)
    (ha : ¬ AncOrSelf root k) : qTrace root fuel (k :: tr) = none := by
  induction fuel generalizing k tr with
  | zero =>
    unfold qTrace
    have hne : k.parent ≠ root := by
      intro h
      by_cases h0 : k.z = 0
      · have := congrArg Tile.z h
        simp only [Tile.parent, h0] at this; omega
      · apply ha
        have := ancOrSelf_child k.parent k.quadPos
        rwa [Tile.child_parent k (by omega) hk, h] at this
    rw [if_neg hne]
    split <;> rfl
  | succ fuel ih =>
    unfold qTrace
    have hne : k.parent ≠ root := by
      intro h
      by_cases h0 : k.z = 0
      · have := congrArg Tile.z h
        simp only [Tile.parent, h0] at this; omega
      · apply ha
        have := ancOrSelf_child k.parent k.quadPos
        rwa [Tile.child_parent k (by omega) hk, h] at this
    rw [if_neg hne]
    split
    · rfl
    · rename_i h
      simp only [not_or] at h
      simp only
      apply ih
      · simp only [Tile.parent]; omega
      · intro h'
        apply ha
        have := ancOrSelf_child k.parent k.quadPos
        rw [Tile.child_parent k (by omega) hk] at this
        exact ancOrSelf_trans h' this

/-- the whole walk over a represented tree -/
theorem walk_spec {es : List QInput} (hok : QOk es) (hs : es.Pairwise (fun a b => PreOrd a.tile b.tile))
    {p : Nat → Nat} (hp : ∀ i j, i ≤ j → p i ≤ p j) (htot : qSize es < 2 ^ 32) {rd : Nat → Res Nat} {root q : Tile}
    (hroot : root.z < 2 ^ 32 - 1) (hq : q.z < 2 ^ 32) (d : Nat) (hbelow : ∀ e ∈ es, AncOrSelf root e.tile)
    (hd : ∀ e ∈ es, e.tile.z ≤ root.z + d) (hl : Laid p 0 es) (hne : es ≠ [])
    (hr : QRepr rd 0 (qtree es d root)) :
    ∃ r, walkQuadTree rd root q = .ok r ∧ Spans p r (hit q 0 es) := by
  have hb : blk es root = es := by
    rw [blk, List.filter_eq_self]; intro e he; simpa using hbelow e he
  have hl' : Laid p 0 (blk es root) := by rw [hb]; exact hl
  have hdata := qtree_data hok hs hp htot d root 0 hd hl'
  have hr' := hr
  cases hn : qtree es d root with
  | none => rw [hn, hb] at hdata; exact absurd (hdata.some.2 hne) (by simp [Qt.isNode])
  | node o s t c0 c1 c2 c3 =>
    rw [hn] at hr hdata
    obtain ⟨w, r0, r1, r2, r3, _⟩ := hr
    have ho := hdata.off
    have hsub := hdata.sub
    rw [hb] at ho hsub
    simp only [Qt.off, boff, if_neg hne] at ho
    simp only [Qt.sub] at hsub
    simp only [Nat.zero_add] at r1 r3
    simp only [walkQuadTree, r3, Res.ok_bind]
    by_cases ht : t = 0
    · rw [if_pos ht]
      refine ⟨[], rfl, [], rfl, ?_⟩
      have : ∀ (l : List QInput) a, qSize l = 0 → hit q a l = [] := by
        intro l
        induction l with
        | nil => intros; rfl
        | cons e l ih =>
          intro a h
          simp only [qSize_cons, Nat.add_eq_zero_iff] at h
          simp [hit, h.1, ih _ h.2]
      rw [this es 0 (by omega)]; rfl
    · rw [if_neg ht]
      by_cases hab : AncOrSelf q root
      · rw [if_pos ((qAbove_spec (root := root) hq (by omega) root.z root (Nat.le_refl _) (by omega)).2 hab)]
        refine ⟨[(o, t)], by simp [r1], [(0, t)], by simp [ho], ?_⟩
        rw [hit_all]
        · simp [hsub]
        · intro e he; exact Or.inr (ancOrSelf_trans hab (hbelow e he))
      · have hnab : ¬ (qAbove q root.z root = true) := by
          rw [qAbove_spec (root := root) hq (by omega) root.z root (Nat.le_refl _) (by omega)]; exact hab
        rw [if_neg hnab]
        by_cases hqb : AncOrSelf root q
        · have hlt : root.z < q.z := by
            have := hqb.1
            by_contra h
            exact hab (by rw [ancOrSelf_same_z hqb (by omega)]; exact ancOrSelf_refl _)
          have htr := qTrace_below hqb hq 0 q.z (by omega) hlt q.z (Nat.le_refl _) [] rfl
          rw [ancAt_self] at htr
          rw [htr]
          simp only
          have := qWalkLoop_spec hok hs hp htot (rd := rd) (q := q) (q.z - root.z) d root 0 0 (by omega) hqb hd hl' (by rw [hb]; exact hne) hr'
          rw [hb] at this; exact this
        · rw [qTrace_unrelated hroot q.z q [] hq hqb]
          refine ⟨[], rfl, [], rfl, ?_⟩
          rw [hit_none]
          · rfl
          · intro e he hm
            rcases hm with h | h
            · exact hqb (ancOrSelf_trans (hbelow e he) h)
            · by_cases hz : q.z ≤ root.z
              · exact hab (ancOrSelf_linear h (hbelow e he) hz)
              · exact hqb (ancOrSelf_linear (hbelow e he) h (by omega))

end Tiles
