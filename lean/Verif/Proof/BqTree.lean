import Verif.Model.BqTree
import Verif.Spec.Tile
/-
Helper lemmas about the seaside tree: the abstract tree `specTree` and the level maps.
-/
namespace Tiles
open Spec

/-! ### tiles -/

theorem Tile.parent_child (t : Tile) (i : Nat) (hz : t.z + 1 < 2 ^ 32) : (t.child i).parent = t := by
  have h : i % 2 < 2 := Nat.mod_lt _ (by omega)
  have h' : i / 2 % 2 < 2 := Nat.mod_lt _ (by omega)
  cases t with
  | mk x y z => simp only [Tile.child, Tile.parent, Tile.mk.injEq] at *; omega

theorem Tile.quadPos_child (t : Tile) {i : Nat} (hi : i < 4) : (t.child i).quadPos = i := by
  simp only [Tile.child, Tile.quadPos]; omega

theorem Tile.quadPos_lt (t : Tile) : t.quadPos < 4 := by simp only [Tile.quadPos]; omega

theorem Tile.child_parent (t : Tile) (hz : 0 < t.z) (hz' : t.z < 2 ^ 32) : t.parent.child t.quadPos = t := by
  cases t with
  | mk x y z => simp only [Tile.child, Tile.parent, Tile.quadPos, Tile.mk.injEq] at *; omega

theorem Tile.eq_child_iff {t k : Tile} {i : Nat} (hi : i < 4) (hz : 0 < t.z) (hz' : t.z < 2 ^ 32)
    (hk : k.z + 1 < 2 ^ 32) : t = k.child i ↔ t.parent = k ∧ t.quadPos = i := by
  constructor
  · rintro rfl; exact ⟨Tile.parent_child _ _ hk, Tile.quadPos_child _ hi⟩
  · rintro ⟨rfl, rfl⟩; exact (Tile.child_parent t hz hz').symm

theorem Tile.child_inj {k : Tile} {i j : Nat} (hi : i < 4) (hj : j < 4) (h : k.child i = k.child j) : i = j := by
  have := congrArg Tile.quadPos h
  rwa [Tile.quadPos_child _ hi, Tile.quadPos_child _ hj] at this

theorem ancOrSelf_refl (a : Tile) : AncOrSelf a a := by simp [AncOrSelf]

theorem ancOrSelf_trans {a b c : Tile} (h : AncOrSelf a b) (h' : AncOrSelf b c) : AncOrSelf a c := by
  obtain ⟨h1, h2, h3⟩ := h
  obtain ⟨h4, h5, h6⟩ := h'
  refine ⟨by omega, ?_, ?_⟩
  · rw [h2, h5, Nat.div_div_eq_div_mul, ← Nat.pow_add]; congr 2; omega
  · rw [h3, h6, Nat.div_div_eq_div_mul, ← Nat.pow_add]; congr 2; omega

theorem ancOrSelf_same_z {a b : Tile} (h : AncOrSelf a b) (hz : a.z = b.z) : a = b := by
  obtain ⟨h1, h2, h3⟩ := h
  cases a; cases b
  simp only at hz; subst hz
  simp at h2 h3; subst h2; subst h3; rfl

theorem ancOrSelf_child (k : Tile) (i : Nat) : AncOrSelf k (k.child i) := by
  refine ⟨by simp [Tile.child], ?_, ?_⟩ <;> simp only [Tile.child, Nat.add_sub_cancel_left] <;> omega

/-- a tile strictly below `k` is below exactly one child -/
theorem ancOrSelf_child_of_lt {k t : Tile} (h : AncOrSelf k t) (hz : k.z < t.z) :
    ∃ i < 4, AncOrSelf (k.child i) t := by
  obtain ⟨h1, h2, h3⟩ := h
  have e : 2 ^ (t.z - k.z) = 2 ^ (t.z - (k.z + 1)) * 2 := by
    rw [← Nat.pow_succ]; congr 1; omega
  rw [e, ← Nat.div_div_eq_div_mul] at h2 h3
  refine ⟨t.y / 2 ^ (t.z - (k.z + 1)) % 2 * 2 + t.x / 2 ^ (t.z - (k.z + 1)) % 2, by omega, ?_, ?_, ?_⟩
  · simp only [Tile.child]; omega
  · simp only [Tile.child]; omega
  · simp only [Tile.child]; omega

theorem ancOrSelf_child_unique {k t : Tile} {i j : Nat} (hi : i < 4) (hj : j < 4)
    (h : AncOrSelf (k.child i) t) (h' : AncOrSelf (k.child j) t) : i = j := by
  obtain ⟨h1, h2, h3⟩ := h
  obtain ⟨h4, h5, h6⟩ := h'
  simp only [Tile.child] at *
  omega

/-- two ancestors of one tile are related -/
theorem ancOrSelf_linear {a b c : Tile} (h : AncOrSelf a c) (h' : AncOrSelf b c) (hz : a.z ≤ b.z) :
    AncOrSelf a b := by
  obtain ⟨h1, h2, h3⟩ := h
  obtain ⟨h4, h5, h6⟩ := h'
  refine ⟨hz, ?_, ?_⟩
  · rw [h2, h5, Nat.div_div_eq_div_mul, ← Nat.pow_add]; congr 2; omega
  · rw [h3, h6, Nat.div_div_eq_div_mul, ← Nat.pow_add]; congr 2; omega

theorem root_ancOrSelf {t : Tile} (h : t.Valid) : AncOrSelf Tile.root t := by
  refine ⟨by simp [Tile.root], ?_, ?_⟩
  · simp only [Tile.root, Nat.sub_zero]; exact (Nat.div_eq_of_lt h.1).symm
  · simp only [Tile.root, Nat.sub_zero]; exact (Nat.div_eq_of_lt h.2).symm

theorem valid_of_root {t : Tile} (h : AncOrSelf Tile.root t) : t.Valid := by
  obtain ⟨_, h2, h3⟩ := h
  simp only [Tile.root, Nat.sub_zero] at h2 h3
  exact ⟨(Nat.div_eq_zero_iff_lt (Nat.two_pow_pos _)).1 h2.symm,
    (Nat.div_eq_zero_iff_lt (Nat.two_pow_pos _)).1 h3.symm⟩

theorem valid_anc {k t : Tile} (h : AncOrSelf k t) (hv : t.Valid) : k.Valid := by
  apply valid_of_root
  exact ancOrSelf_linear (root_ancOrSelf hv) h (by simp [Tile.root])

/-! ### the abstract tree -/

/-- an inner node, or nothing when there is nothing below -/
def Bq.mk (c0 c1 c2 c3 : Bq) : Bq :=
  if c0 = .empty ∧ c1 = .empty ∧ c2 = .empty ∧ c3 = .empty then .empty else .inner c0 c1 c2 c3

/-- the tree of the area of `tiles` inside `k`, `d` levels deep -/
def specTree (tiles : List Tile) : Nat → Tile → Bq
  | 0, k => if k ∈ tiles then .leaf else .empty
  | d + 1, k => if k ∈ tiles then .leaf else
    .mk (specTree tiles d (k.child 0)) (specTree tiles d (k.child 1))
      (specTree tiles d (k.child 2)) (specTree tiles d (k.child 3))

theorem Bq.mk_ne_leaf (a b c d : Bq) : Bq.mk a b c d ≠ .leaf := by
  unfold Bq.mk; split <;> simp

theorem Bq.mk_eq_empty {a b c d : Bq} :
    Bq.mk a b c d = .empty ↔ a = .empty ∧ b = .empty ∧ c = .empty ∧ d = .empty := by
  unfold Bq.mk; split <;> simp_all

theorem Bq.mk_eq_inner {a b c d a' b' c' d' : Bq} :
    Bq.mk a b c d = .inner a' b' c' d' ↔
      (¬ (a = .empty ∧ b = .empty ∧ c = .empty ∧ d = .empty)) ∧ a = a' ∧ b = b' ∧ c = c' ∧ d = d' := by
  unfold Bq.mk; split <;> simp_all

theorem specTree_leaf {tiles d k} : specTree tiles d k = .leaf ↔ k ∈ tiles := by
  cases d with
  | zero => simp only [specTree]; split <;> simp_all
  | succ d => simp only [specTree]; split <;> simp_all [Bq.mk_ne_leaf]

theorem forall_lt_four {P : Nat → Prop} : (∀ i < 4, P i) ↔ P 0 ∧ P 1 ∧ P 2 ∧ P 3 := by
  constructor
  · intro h; exact ⟨h 0 (by omega), h 1 (by omega), h 2 (by omega), h 3 (by omega)⟩
  · rintro ⟨h0, h1, h2, h3⟩ i hi
    match i, hi with
    | 0, _ => exact h0
    | 1, _ => exact h1
    | 2, _ => exact h2
    | 3, _ => exact h3

/-- no input tile in `k` ⇔ empty, when the depth suffices -/
theorem specTree_empty {tiles : List Tile} {d : Nat} {k : Tile} (hd : ∀ t ∈ tiles, t.z ≤ k.z + d) :
    specTree tiles d k = .empty ↔ ∀ t ∈ tiles, ¬ AncOrSelf k t := by
  induction d generalizing k with
  | zero =>
    simp only [specTree]
    split
    · rename_i h; simp only [reduceCtorEq, false_iff]; intro h'; exact h' k h (ancOrSelf_refl k)
    · rename_i h; simp only [true_iff]; intro t ht ha
      have : k = t := ancOrSelf_same_z ha (by have := hd t ht; have := ha.1; omega)
      subst this; exact h ht
  | succ d ih =>
    simp only [specTree]
    split
    · rename_i h; simp only [reduceCtorEq, false_iff]; intro h'; exact h' k h (ancOrSelf_refl k)
    · rename_i h
      have hc : ∀ i, (∀ t ∈ tiles, t.z ≤ (k.child i).z + d) := by
        intro i t ht; have := hd t ht; simp only [Tile.child]; omega
      rw [Bq.mk_eq_empty, ih (hc 0), ih (hc 1), ih (hc 2), ih (hc 3),
        ← forall_lt_four (P := fun i => ∀ t ∈ tiles, ¬ AncOrSelf (k.child i) t)]
      constructor
      · intro h' t ht ha
        by_cases hz : k.z = t.z
        · have := ancOrSelf_same_z ha hz; subst this; exact h ht
        · obtain ⟨i, hi, hi'⟩ := ancOrSelf_child_of_lt ha (by have := ha.1; omega)
          exact h' i hi t ht hi'
      · intro h' i hi t ht ha
        exact h' t ht (ancOrSelf_trans (ancOrSelf_child k i) ha)

theorem specTree_child {tiles : List Tile} {d : Nat} {k : Tile} {c0 c1 c2 c3 : Bq}
    (h : specTree tiles d k = .inner c0 c1 c2 c3) :
    ∃ d', d = d' + 1 ∧ k ∉ tiles ∧ ∀ i < 4, (Bq.inner c0 c1 c2 c3).child i = specTree tiles d' (k.child i) := by
  cases d with
  | zero => simp only [specTree] at h; split at h <;> simp at h
  | succ d =>
    simp only [specTree] at h
    split at h
    · simp at h
    · rename_i hk
      rw [Bq.mk_eq_inner] at h
      obtain ⟨_, h0, h1, h2, h3⟩ := h
      refine ⟨d, rfl, hk, ?_⟩
      rw [forall_lt_four]
      simp [Bq.child, h0, h1, h2, h3]

/-! ### level maps -/

/-- map lookup -/
def bqLook (m : List (Tile × Bq)) (k : Tile) : Option Bq := (m.find? (fun e => e.1 = k)).map (·.2)

def bqNodup (m : List (Tile × Bq)) : Prop := (m.map (·.1)).Nodup

theorem bqLook_nil (k) : bqLook [] k = none := rfl

theorem bqLook_cons (e : Tile × Bq) (m k) : bqLook (e :: m) k = if e.1 = k then some e.2 else bqLook m k := by
  simp only [bqLook, List.find?_cons]
  by_cases h : e.1 = k <;> simp [h]

theorem bqLook_eq_none {m : List (Tile × Bq)} {k} : bqLook m k = none ↔ ∀ e ∈ m, e.1 ≠ k := by
  simp [bqLook]

theorem bqLook_eq_some {m : List (Tile × Bq)} (h : bqNodup m) {k n} : bqLook m k = some n ↔ (k, n) ∈ m := by
  induction m with
  | nil => simp [bqLook_nil]
  | cons e m ih =>
    simp only [bqNodup, List.map_cons, List.nodup_cons] at h
    rw [bqLook_cons]
    by_cases hk : e.1 = k
    · subst hk
      simp only [if_true, Option.some.injEq, List.mem_cons]
      constructor
      · rintro rfl; exact Or.inl rfl
      · rintro (h' | h')
        · rw [← h']
        · exact absurd (List.mem_map.2 ⟨_, h', rfl⟩) h.1
    · simp only [hk, if_false, ih h.2, List.mem_cons]
      constructor
      · exact Or.inr
      · rintro (h' | h')
        · exact absurd (congrArg Prod.fst h').symm hk
        · exact h'

theorem bqLook_attach (m : List (Tile × Bq)) (t : Tile) (s : Bq) (k : Tile) :
    bqLook (bqAttach m t s) k = if t.parent = k then
      some (((bqLook m k).getD (.inner .empty .empty .empty .empty)).setChild t.quadPos s) else bqLook m k := by
  induction m with
  | nil =>
    simp only [bqAttach, bqLook_cons, bqLook_nil, Option.getD_none]
  | cons e m ih =>
    simp only [bqAttach]
    split
    · rename_i h
      rw [bqLook_cons, bqLook_cons, h]
      split <;> simp
    · rename_i h
      rw [bqLook_cons, bqLook_cons, ih]
      by_cases h1 : e.1 = k
      · subst h1; simp [Ne.symm h]
      · simp [h1]

theorem bqAttach_keys (m : List (Tile × Bq)) (t : Tile) (s : Bq) :
    (bqAttach m t s).map (·.1) = if t.parent ∈ m.map (·.1) then m.map (·.1) else m.map (·.1) ++ [t.parent] := by
  induction m with
  | nil => simp [bqAttach]
  | cons e m ih =>
    simp only [bqAttach]
    split
    · rename_i h; simp [← h]
    · rename_i h
      simp only [List.map_cons, ih, List.mem_cons, Ne.symm h, false_or]
      split <;> simp_all

theorem bqNodup_attach {m : List (Tile × Bq)} (h : bqNodup m) (t : Tile) (s : Bq) : bqNodup (bqAttach m t s) := by
  unfold bqNodup at *
  rw [bqAttach_keys]
  split
  · exact h
  · rename_i h'
    rw [List.nodup_append]
    refine ⟨h, by simp, ?_⟩
    intro a ha b hb; simp at hb; subst hb; exact fun h'' => h' (h'' ▸ ha)

theorem bqNodup_foldl (L m : List (Tile × Bq)) (h : bqNodup m) :
    bqNodup (L.foldl (fun m e => bqAttach m e.1 e.2) m) := by
  induction L generalizing m with
  | nil => exact h
  | cons e L ih => exact ih _ (bqNodup_attach h _ _)

theorem Bq.setChild_leaf (i s) : Bq.setChild .leaf i s = .leaf := rfl

theorem Bq.setChild_inner {a b c d : Bq} {i : Nat} (hi : i < 4) (s : Bq) :
    ∃ a' b' c' d', (Bq.inner a b c d).setChild i s = .inner a' b' c' d' ∧
      ∀ j < 4, (Bq.inner a' b' c' d').child j = if j = i then s else (Bq.inner a b c d).child j := by
  match i, hi with
  | 0, _ => exact ⟨_, _, _, _, rfl, by rw [forall_lt_four]; simp [Bq.child]⟩
  | 1, _ => exact ⟨_, _, _, _, rfl, by rw [forall_lt_four]; simp [Bq.child]⟩
  | 2, _ => exact ⟨_, _, _, _, rfl, by rw [forall_lt_four]; simp [Bq.child]⟩
  | 3, _ => exact ⟨_, _, _, _, rfl, by rw [forall_lt_four]; simp [Bq.child]⟩

/-- attaching to a leaf changes nothing -/
theorem bqFold_leaf (L : List (Tile × Bq)) (m : List (Tile × Bq)) (k : Tile) (h : bqLook m k = some .leaf) :
    bqLook (L.foldl (fun m e => bqAttach m e.1 e.2) m) k = some .leaf := by
  induction L generalizing m with
  | nil => exact h
  | cons e L ih =>
    apply ih; rw [bqLook_attach]; split
    · simp [h, Bq.setChild_leaf]
    · exact h

theorem bqFold_none (L : List (Tile × Bq)) (m : List (Tile × Bq)) (k : Tile) (h : bqLook m k = none)
    (hL : ∀ e ∈ L, e.1.parent ≠ k) :
    bqLook (L.foldl (fun m e => bqAttach m e.1 e.2) m) k = none := by
  induction L generalizing m with
  | nil => exact h
  | cons e L ih =>
    apply ih
    · rw [bqLook_attach, if_neg (hL e (by simp))]; exact h
    · exact fun e he => hL e (by simp [he])

/-- attaching to an inner node sets exactly the children present -/
theorem bqFold_inner (L : List (Tile × Bq)) (m : List (Tile × Bq)) (k : Tile) (hk : k.z + 1 < 2 ^ 32)
    (hz : ∀ e ∈ L, 0 < e.1.z ∧ e.1.z < 2 ^ 32) (hn : bqNodup L)
    {a b c d : Bq} (h : bqLook m k = some (.inner a b c d)) :
    ∃ a' b' c' d', bqLook (L.foldl (fun m e => bqAttach m e.1 e.2) m) k = some (.inner a' b' c' d') ∧
      ∀ j < 4, (Bq.inner a' b' c' d').child j = (bqLook L (k.child j)).getD ((Bq.inner a b c d).child j) := by
  induction L generalizing m a b c d with
  | nil => exact ⟨a, b, c, d, h, by simp [bqLook_nil]⟩
  | cons e L ih =>
    simp only [bqNodup, List.map_cons, List.nodup_cons] at hn
    have hz' : ∀ e ∈ L, 0 < e.1.z ∧ e.1.z < 2 ^ 32 := fun e he => hz e (by simp [he])
    obtain ⟨he1, he2⟩ := hz e (by simp)
    by_cases hp : e.1.parent = k
    · obtain ⟨a1, b1, c1, d1, hs, hc⟩ := Bq.setChild_inner (a := a) (b := b) (c := c) (d := d)
        (Tile.quadPos_lt e.1) e.2
      have hl : bqLook (bqAttach m e.1 e.2) k = some (.inner a1 b1 c1 d1) := by
        rw [bqLook_attach, if_pos hp, h]; simp [hs]
      obtain ⟨a', b', c', d', hr, hc'⟩ := ih _ hz' hn.2 hl
      refine ⟨a', b', c', d', hr, fun j hj => ?_⟩
      rw [hc' j hj, hc j hj, bqLook_cons]
      have := Tile.eq_child_iff (t := e.1) (k := k) hj he1 he2 hk
      by_cases hj' : j = e.1.quadPos
      · have hej : e.1 = k.child j := this.2 ⟨hp, hj'.symm⟩
        rw [if_pos hj', if_pos hej]
        have : bqLook L (k.child j) = none := by
          rw [bqLook_eq_none]; intro x hx hxe
          apply hn.1; rw [hej, ← hxe]; exact List.mem_map.2 ⟨x, hx, rfl⟩
        simp [this]
      · rw [if_neg hj', if_neg (fun h => hj' (this.1 h).2.symm)]
    · have hl : bqLook (bqAttach m e.1 e.2) k = some (.inner a b c d) := by
        rw [bqLook_attach, if_neg hp, h]
      obtain ⟨a', b', c', d', hr, hc'⟩ := ih _ hz' hn.2 hl
      refine ⟨a', b', c', d', hr, fun j hj => ?_⟩
      rw [hc' j hj, bqLook_cons]
      have := Tile.eq_child_iff (t := e.1) (k := k) hj he1 he2 hk
      rw [if_neg (fun h => hp (this.1 h).1)]

/-- as `bqFold_inner`, starting without a node at `k` but with some child -/
theorem bqFold_new (L : List (Tile × Bq)) (m : List (Tile × Bq)) (k : Tile) (hk : k.z + 1 < 2 ^ 32)
    (hz : ∀ e ∈ L, 0 < e.1.z ∧ e.1.z < 2 ^ 32) (hn : bqNodup L) (h : bqLook m k = none)
    (hL : ∃ e ∈ L, e.1.parent = k) :
    ∃ a' b' c' d', bqLook (L.foldl (fun m e => bqAttach m e.1 e.2) m) k = some (.inner a' b' c' d') ∧
      ∀ j < 4, (Bq.inner a' b' c' d').child j = (bqLook L (k.child j)).getD .empty := by
  induction L generalizing m with
  | nil => simp at hL
  | cons e L ih =>
    have hn' := hn
    simp only [bqNodup, List.map_cons, List.nodup_cons] at hn'
    have hz' : ∀ e ∈ L, 0 < e.1.z ∧ e.1.z < 2 ^ 32 := fun e he => hz e (by simp [he])
    obtain ⟨he1, he2⟩ := hz e (by simp)
    by_cases hp : e.1.parent = k
    · have key : bqLook ((e :: L).foldl (fun m e => bqAttach m e.1 e.2) m) k =
          bqLook ((e :: L).foldl (fun m e => bqAttach m e.1 e.2) ((k, .inner .empty .empty .empty .empty) :: m)) k := by
        simp only [List.foldl_cons]
        have : ∀ (L m m' : List (Tile × Bq)), bqLook m k = bqLook m' k →
            bqLook (L.foldl (fun m e => bqAttach m e.1 e.2) m) k =
            bqLook (L.foldl (fun m e => bqAttach m e.1 e.2) m') k := by
          intro L
          induction L with
          | nil => intro m m' h; exact h
          | cons e L ih => intro m m' h; apply ih; rw [bqLook_attach, bqLook_attach, h]
        apply this
        rw [bqLook_attach, bqLook_attach, if_pos hp, if_pos hp, h, bqLook_cons]; simp
      rw [key]
      obtain ⟨a', b', c', d', hr, hc⟩ := bqFold_inner (e :: L) ((k, .inner .empty .empty .empty .empty) :: m) k hk hz hn
        (a := .empty) (b := .empty) (c := .empty) (d := .empty) (by rw [bqLook_cons]; simp)
      refine ⟨a', b', c', d', hr, fun j hj => ?_⟩
      rw [hc j hj]
      congr 1
      match j with
      | 0 => rfl
      | 1 => rfl
      | 2 => rfl
      | _ + 3 => rfl
    · have hl : bqLook (bqAttach m e.1 e.2) k = none := by
        rw [bqLook_attach, if_neg hp, h]
      obtain ⟨a', b', c', d', hr, hc'⟩ := ih _ hz' hn'.2 hl (by
        obtain ⟨x, hx, hxp⟩ := hL
        rcases List.mem_cons.1 hx with rfl | hx
        · exact absurd hxp hp
        · exact ⟨x, hx, hxp⟩)
      refine ⟨a', b', c', d', hr, fun j hj => ?_⟩
      rw [hc' j hj, bqLook_cons]
      have := Tile.eq_child_iff (t := e.1) (k := k) hj he1 he2 hk
      rw [if_neg (fun h => hp (this.1 h).1)]

/-! the leaves of a level -/

theorem bqLeaves_aux (tiles : List Tile) (z : Nat) (m : List (Tile × Bq)) (hn : bqNodup m)
    (hm : ∀ e ∈ m, e.2 = .leaf) :
    let r := tiles.foldl (fun m t =>
      if t.z = z then (if m.any (fun e => e.1 = t) then m else m ++ [(t, Bq.leaf)]) else m) m
    bqNodup r ∧ (∀ e ∈ r, e.2 = .leaf) ∧
      ∀ k, k ∈ r.map (·.1) ↔ k ∈ m.map (·.1) ∨ (k ∈ tiles ∧ k.z = z) := by
  induction tiles generalizing m with
  | nil => simp [hn]; exact fun _ b h => hm _ h
  | cons t tiles ih =>
    simp only [List.foldl_cons]
    split
    · rename_i hz
      split
      · rename_i ha
        obtain ⟨h1, h2, h3⟩ := ih m hn hm
        refine ⟨h1, h2, fun k => ?_⟩
        rw [h3 k]
        simp only [List.any_eq_true, decide_eq_true_eq] at ha
        obtain ⟨e, he, het⟩ := ha
        constructor
        · rintro (h | h)
          · exact Or.inl h
          · exact Or.inr ⟨by simp [h.1], h.2⟩
        · rintro (h | ⟨h, h'⟩)
          · exact Or.inl h
          · rcases List.mem_cons.1 h with rfl | h
            · exact Or.inl (List.mem_map.2 ⟨e, he, het⟩)
            · exact Or.inr ⟨h, h'⟩
      · rename_i ha
        have ha' : t ∉ m.map (·.1) := by
          simp only [List.any_eq_true, decide_eq_true_eq] at ha
          rintro h; obtain ⟨e, he, het⟩ := List.mem_map.1 h
          exact ha ⟨e, he, het⟩
        obtain ⟨h1, h2, h3⟩ := ih (m ++ [(t, .leaf)]) (by
            unfold bqNodup at *
            rw [List.map_append, List.nodup_append]
            refine ⟨hn, by simp, ?_⟩
            intro a h b hb; simp at hb; subst hb; exact fun h'' => ha' (h'' ▸ h)) (by
            intro e he
            rcases List.mem_append.1 he with h | h
            · exact hm e h
            · simp at h; rw [h])
        refine ⟨h1, h2, fun k => ?_⟩
        rw [h3 k]
        simp only [List.map_append, List.map_cons, List.map_nil, List.mem_append, List.mem_cons,
          List.not_mem_nil, or_false]
        constructor
        · rintro ((h | rfl) | h)
          · exact Or.inl h
          · exact Or.inr ⟨Or.inl rfl, hz⟩
          · exact Or.inr ⟨Or.inr h.1, h.2⟩
        · rintro (h | ⟨h | h, h'⟩)
          · exact Or.inl (Or.inl h)
          · exact Or.inl (Or.inr h)
          · exact Or.inr ⟨h, h'⟩
    · rename_i hz
      obtain ⟨h1, h2, h3⟩ := ih m hn hm
      refine ⟨h1, h2, fun k => ?_⟩
      rw [h3 k]
      constructor
      · rintro (h | h)
        · exact Or.inl h
        · exact Or.inr ⟨by simp [h.1], h.2⟩
      · rintro (h | ⟨h, h'⟩)
        · exact Or.inl h
        · rcases List.mem_cons.1 h with rfl | h
          · exact absurd h' hz
          · exact Or.inr ⟨h, h'⟩

theorem bqLeaves_nodup (tiles z) : bqNodup (bqLeaves tiles z) :=
  (bqLeaves_aux tiles z [] (by simp [bqNodup]) (by simp)).1

theorem bqLeaves_look (tiles : List Tile) (z : Nat) (k : Tile) :
    bqLook (bqLeaves tiles z) k = if k ∈ tiles ∧ k.z = z then some .leaf else none := by
  obtain ⟨h1, h2, h3⟩ := bqLeaves_aux tiles z [] (by simp [bqNodup]) (by simp)
  split
  · rename_i h
    have := (h3 k).2 (Or.inr h)
    obtain ⟨⟨k', n⟩, he, rfl⟩ := List.mem_map.1 this
    apply (bqLook_eq_some h1).2
    have := h2 _ he
    simp only at this; subst this; exact he
  · rename_i h
    rw [bqLook_eq_none]; intro e he hk
    rcases (h3 k).1 (List.mem_map.2 ⟨e, he, hk⟩) with h' | h'
    · simp at h'
    · exact h h'

/-- the level map at zoom `maxz - d` is exactly the abstract tree -/
theorem bqLevel_look (tiles : List Tile) (maxz : Nat) (hb : maxz < 2 ^ 32)
    (d : Nat) (hd : d ≤ maxz) :
    bqNodup (bqLevel tiles maxz d) ∧ ∀ k, bqLook (bqLevel tiles maxz d) k =
      if k.z = maxz - d ∧ specTree tiles d k ≠ .empty then some (specTree tiles d k) else none := by
  induction d with
  | zero =>
    refine ⟨bqLeaves_nodup _ _, fun k => ?_⟩
    simp only [bqLevel, bqLeaves_look, specTree, Nat.sub_zero]
    by_cases h1 : k ∈ tiles <;> by_cases h2 : k.z = maxz <;> simp [h1, h2]
  | succ d ih =>
    obtain ⟨ihn, ihl⟩ := ih (by omega)
    have hmem : ∀ e ∈ bqLevel tiles maxz d, e.1.z = maxz - d ∧ specTree tiles d e.1 ≠ .empty ∧ e.2 = specTree tiles d e.1 := by
      intro e he
      have := (bqLook_eq_some ihn (k := e.1) (n := e.2)).2 he
      rw [ihl] at this
      split at this
      · rename_i h; exact ⟨h.1, h.2, (Option.some.inj this).symm⟩
      · simp at this
    refine ⟨bqNodup_foldl _ _ (bqLeaves_nodup _ _), fun k => ?_⟩
    simp only [bqLevel]
    have hz : ∀ e ∈ bqLevel tiles maxz d, 0 < e.1.z ∧ e.1.z < 2 ^ 32 := by
      intro e he; have := hmem e he; omega
    have hchild : ∀ i, k.z = maxz - (d + 1) → (bqLook (bqLevel tiles maxz d) (k.child i)).getD .empty = specTree tiles d (k.child i) := by
      intro i hkz
      rw [ihl]
      split
      · rfl
      · rename_i h
        have : (k.child i).z = maxz - d := by simp only [Tile.child]; omega
        simp only [this, true_and, ne_eq, Decidable.not_not] at h
        simp [h]
    by_cases hkz : k.z = maxz - (d + 1)
    · simp only [hkz, true_and]
      by_cases hk : k ∈ tiles
      · have hl : specTree tiles (d + 1) k = .leaf := specTree_leaf.2 hk
        rw [bqFold_leaf _ _ _ (by rw [bqLeaves_look, if_pos ⟨hk, hkz⟩])]
        simp [hl]
      · have hnone : bqLook (bqLeaves tiles (maxz - (d + 1))) k = none := by
          rw [bqLeaves_look, if_neg (fun h => hk h.1)]
        by_cases he : ∃ e ∈ bqLevel tiles maxz d, e.1.parent = k
        · obtain ⟨a, b, c, d', hr, hc⟩ := bqFold_new _ _ k (by omega) hz ihn hnone he
          rw [hr]
          rw [forall_lt_four] at hc
          simp only [hchild _ hkz] at hc
          simp only [Bq.child] at hc
          obtain ⟨h0, h1, h2, h3⟩ := hc
          have hne : ¬ (a = .empty ∧ b = .empty ∧ c = .empty ∧ d' = .empty) := by
            rintro ⟨rfl, rfl, rfl, rfl⟩
            obtain ⟨e, he, hp⟩ := he
            obtain ⟨_, hm2, _⟩ := hmem e he
            obtain ⟨hz1, hz2⟩ := hz e he
            have := Tile.child_parent e.1 hz1 hz2
            rw [hp] at this
            rw [← this] at hm2
            have hq := Tile.quadPos_lt e.1
            have hcase : e.1.quadPos = 0 ∨ e.1.quadPos = 1 ∨ e.1.quadPos = 2 ∨ e.1.quadPos = 3 := by omega
            rcases hcase with h | h | h | h <;> rw [h] at hm2
            · exact hm2 h0.symm
            · exact hm2 h1.symm
            · exact hm2 h2.symm
            · exact hm2 h3.symm
          have : specTree tiles (d + 1) k = .inner a b c d' := by
            simp only [specTree, if_neg hk, ← h0, ← h1, ← h2, ← h3]
            rw [Bq.mk_eq_inner]; exact ⟨hne, rfl, rfl, rfl, rfl⟩
          simp [this]
        · have : ∀ e ∈ bqLevel tiles maxz d, e.1.parent ≠ k := fun e h h' => he ⟨e, h, h'⟩
          rw [bqFold_none _ _ _ hnone this]
          have hem : ∀ i < 4, specTree tiles d (k.child i) = .empty := by
            intro i hi
            rw [← hchild i hkz]
            cases h : bqLook (bqLevel tiles maxz d) (k.child i) with
            | none => rfl
            | some n =>
              exfalso
              have := (bqLook_eq_some ihn).1 h
              exact he ⟨_, this, Tile.parent_child _ _ (by omega)⟩
          rw [forall_lt_four] at hem
          have : specTree tiles (d + 1) k = .empty := by
            simp only [specTree, if_neg hk]
            rw [Bq.mk_eq_empty]; exact hem
          simp [this]
    · simp only [hkz, false_and, if_false]
      apply bqFold_none
      · rw [bqLeaves_look, if_neg (fun h => hkz h.2)]
      · intro e he hp
        obtain ⟨h1, _, _⟩ := hmem e he
        have := congrArg Tile.z hp
        simp only [Tile.parent] at this
        omega

theorem foldl_max_le (l : List Tile) (a : Nat) :
    a ≤ l.foldl (fun a t => max a t.z) a ∧ ∀ t ∈ l, t.z ≤ l.foldl (fun a t => max a t.z) a := by
  induction l generalizing a with
  | nil => simp
  | cons t l ih =>
    obtain ⟨h1, h2⟩ := ih (max a t.z)
    simp only [List.foldl_cons]
    refine ⟨by omega, ?_⟩
    intro s hs
    rcases List.mem_cons.1 hs with rfl | hs
    · omega
    · exact h2 s hs

theorem foldl_max_mem (l : List Tile) (a : Nat) :
    l.foldl (fun a t => max a t.z) a = a ∨ ∃ t ∈ l, t.z = l.foldl (fun a t => max a t.z) a := by
  induction l generalizing a with
  | nil => simp
  | cons t l ih =>
    simp only [List.foldl_cons]
    rcases ih (max a t.z) with h | ⟨s, hs, h⟩
    · rw [h]
      by_cases h' : a ≤ t.z
      · right; exact ⟨t, by simp, by omega⟩
      · left; omega
    · right; exact ⟨s, by simp [hs], h⟩

theorem le_bqMaxZ {tiles : List Tile} {t : Tile} (h : t ∈ tiles) : t.z ≤ bqMaxZ tiles :=
  (foldl_max_le tiles 0).2 t h

/-- the root level -/
theorem bqLevel_root {tiles : List Tile} (hv : ∀ t ∈ tiles, t.Valid) (hb : ∀ t ∈ tiles, t.z < 2 ^ 32) (hne : tiles ≠ []) :
    bqLevel tiles (bqMaxZ tiles) (bqMaxZ tiles) = [(Tile.root, specTree tiles (bqMaxZ tiles) Tile.root)] := by
  have hmaxb : bqMaxZ tiles < 2 ^ 32 := by
    rcases foldl_max_mem tiles 0 with h | ⟨t, ht, h⟩
    · unfold bqMaxZ; omega
    · unfold bqMaxZ; rw [← h]; exact hb t ht
  obtain ⟨hn, hl⟩ := bqLevel_look tiles (bqMaxZ tiles) hmaxb (bqMaxZ tiles) (Nat.le_refl _)
  simp only [Nat.sub_self] at hl
  have hd0 : ∀ t ∈ tiles, t.z ≤ Tile.root.z + bqMaxZ tiles := by
    intro t ht; have := le_bqMaxZ ht; omega
  have hroot : specTree tiles (bqMaxZ tiles) Tile.root ≠ .empty := by
    rw [Ne, specTree_empty hd0]
    intro h
    obtain ⟨t, ht⟩ := List.exists_mem_of_ne_nil _ hne
    exact h t ht (root_ancOrSelf (hv t ht))
  have hr := hl Tile.root
  rw [if_pos ⟨rfl, hroot⟩, bqLook_eq_some hn] at hr
  have hall : ∀ e ∈ bqLevel tiles (bqMaxZ tiles) (bqMaxZ tiles), e = (Tile.root, specTree tiles (bqMaxZ tiles) Tile.root) := by
    intro e he
    have h := (bqLook_eq_some hn (k := e.1) (n := e.2)).2 he
    rw [hl] at h
    split at h
    · rename_i h'
      have hk : e.1 = Tile.root := by
        have : ¬ ∀ t ∈ tiles, ¬ AncOrSelf e.1 t := by
          rw [← specTree_empty (d := bqMaxZ tiles)]; exact h'.2
          intro t ht; have := le_bqMaxZ ht; omega
        simp only [Classical.not_forall, Classical.not_not] at this
        obtain ⟨t, ht, ha⟩ := this
        have := ancOrSelf_linear (root_ancOrSelf (hv t ht)) ha (by simp [Tile.root])
        exact (ancOrSelf_same_z this (by simp [Tile.root, h'.1])).symm
      have h2 := Option.some.inj h
      cases e; simp only at hk h2; subst hk; rw [← h2]
    · simp at h
  match hL : bqLevel tiles (bqMaxZ tiles) (bqMaxZ tiles) with
  | [] => rw [hL] at hr; simp at hr
  | [e] => rw [hL] at hall; rw [hall e (by simp)]
  | e :: e' :: l =>
    rw [hL] at hall hn
    have h1 := hall e (by simp)
    have h2 := hall e' (by simp)
    simp [bqNodup, h1, h2] at hn

end Tiles
