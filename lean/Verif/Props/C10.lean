import Verif.Proof.QuadTop
/-
C10 — the quad tree index returns exactly the spans relevant for a query tile.

`makeQuadTree root es` builds the string for the entries `es` (tile, address of the first
element, number of elements), `walkQuadTree` walks it with a query tile and returns the calls of the
callback.  What is wanted is stated by `Spec.wanted`: the numbers of the elements whose tile contains, is
or lies below the query; `Spec.Spans` says that the reported spans are exactly these elements, in order,
each once.  The addresses are any monotone function `p` of the element number (byte offsets in a
feature pack).
-/
namespace Tiles
open Spec

/-- Building succeeds whenever all tiles lie below the root, and the string has at most one 16 byte
node per tile and level. -/
theorem C10_build_total (root : Tile) (es : List QInput) (hok : QOk es) (hs : es.Pairwise (fun a b => PreOrd a.tile b.tile))
    (hbelow : ∀ e ∈ es, AncOrSelf root e.tile) (hz : ∀ e ∈ es, e.tile.z < 2 ^ 32) :
    ∃ str, makeQuadTree root es = .ok str ∧ str.length ≤ max 16 (16 * (es.map (fun e => e.tile.z - root.z + 1)).sum) := by
  by_cases hne : es = []
  · subst hne; exact ⟨_, rfl, Nat.le_max_left _ _⟩
  · have htmp := makeTmp_ok hok hne hbelow hz
    have hmz := (qMaxZ_spec root es).2.1
    have hnode : (qtree es (qMaxZ root es - root.z) root).isNode = true := by
      cases hn : qtree es (qMaxZ root es - root.z) root with
      | node => rfl
      | none =>
        rw [qtree_none_iff] at hn
        obtain ⟨e, he⟩ := List.exists_mem_of_ne_nil _ hne
        exact absurd (hbelow e he) (hn e he (by have := hmz e he; omega))
    obtain ⟨vec, h1, h2, _⟩ := qSerialize_spec hnode
    refine ⟨vec.flatMap (leBytes 4), ?_, ?_⟩
    · simp only [makeQuadTree, makeQuadTreeWords, List.isEmpty_iff, hne, if_false, htmp, Res.ok_bind, h1, Res.pure_eq]
    · rw [flatMap_leBytes_length, h2]
      have := qtree_count hok hs (qMaxZ root es - root.z) root
      have hb : blk es root = es := by
        rw [blk, List.filter_eq_self]; intro e he; simpa using hbelow e he
      rw [hb, qCost] at this
      omega

/-- A tile outside the root is refused. -/
theorem C10_foreign_tile_throws (root : Tile) (es : List QInput) (hok : QOk es) (hroot : root.z < 2 ^ 32)
    (hz : ∀ e ∈ es, e.tile.z < 2 ^ 32) (hf : ∃ e ∈ es, ¬ AncOrSelf root e.tile) : makeQuadTree root es = .throw_ := by
  have hne : es ≠ [] := by rintro rfl; simp at hf
  have htmp := makeTmp_foreign hok hf hroot hz
  simp only [makeQuadTree, makeQuadTreeWords, List.isEmpty_iff, hne, if_false, htmp, Res.throw_bind]

/-- Walking the string, wherever it is embedded, reports exactly the wanted elements. -/
theorem C10_walk_exact (root : Tile) (es : List QInput) (hok : QOk es) (hs : es.Pairwise (fun a b => PreOrd a.tile b.tile))
    (hroot : root.z < 2 ^ 32 - 1)
    (hbelow : ∀ e ∈ es, AncOrSelf root e.tile) (hz : ∀ e ∈ es, e.tile.z < 2 ^ 32)
    (p : Nat → Nat) (hp : ∀ i j, i ≤ j → p i ≤ p j) (hl : Laid p 0 es) (htot : (owners es).length < 2 ^ 32)
    (str pre post : Bytes) (hm : makeQuadTree root es = .ok str) (hlen : str.length ≤ 2 ^ 30)
    (q : Tile) (hq : q.z < 2 ^ 32) :
    ∃ r, walkQuadTree (readNth (pre ++ str ++ post) pre.length) root q = .ok r ∧ Spans p r (wanted q es) := by
  by_cases hne : es = []
  · subst hne
    have hstr : str = [0, 0, 0, 0].flatMap (leBytes 4) := (Res.ok.inj hm).symm
    have h3 : readNth (pre ++ str ++ post) pre.length 3 = .ok 0 := by
      rw [hstr]; exact readNth_words pre post [0, 0, 0, 0] (by simp) rfl
    refine ⟨[], ?_, [], rfl, rfl⟩
    rw [walkQuadTree, h3]; rfl
  · have htmp := makeTmp_ok hok hne hbelow hz
    have hmz := (qMaxZ_spec root es).2.1
    have hnode : (qtree es (qMaxZ root es - root.z) root).isNode = true := by
      cases hn : qtree es (qMaxZ root es - root.z) root with
      | node => rfl
      | none =>
        rw [qtree_none_iff] at hn
        obtain ⟨e, he⟩ := List.exists_mem_of_ne_nil _ hne
        exact absurd (hbelow e he) (hn e he (by have := hmz e he; omega))
    obtain ⟨vec, h1, h2, h3⟩ := qSerialize_spec hnode
    simp only [makeQuadTree, makeQuadTreeWords, List.isEmpty_iff, hne, if_false, htmp, Res.ok_bind, h1, Res.pure_eq,
      Res.ok.injEq] at hm
    subst hm
    rw [flatMap_leBytes_length] at hlen
    have hw : ∀ w ∈ vec, w < 2 ^ 32 := qSerLoop_bounded _ _ _ (by simp) (by simpa using qtree_bounded hok _ _) h1
    have hr := (h3 (by omega)).mono (rd' := readNth (pre ++ vec.flatMap (leBytes 4) ++ post) pre.length) (by
      intro n w h
      exact readNth_words pre post vec hw (rdVec_ok.1 h))
    rw [owners_length] at htot
    rw [← hit_wanted]
    exact walk_spec hok hs hp htot hroot hq _ hbelow (by intro e he; have := hmz e he; omega) hl hne hr

/-! ### a concrete case -/

def C10_ex : List QInput :=
  [⟨⟨0, 0, 0⟩, 100, 2⟩, ⟨⟨1, 0, 1⟩, 102, 1⟩, ⟨⟨3, 1, 2⟩, 103, 3⟩, ⟨⟨1, 1, 1⟩, 106, 1⟩]

example : wanted ⟨2, 1, 2⟩ C10_ex = [0, 1, 2] := by decide +kernel
example : wanted ⟨1, 0, 1⟩ C10_ex = [0, 1, 2, 3, 4, 5] := by decide +kernel

example : ∃ str, makeQuadTree ⟨0, 0, 0⟩ C10_ex = .ok str ∧
    walkQuadTree (readNth ([7] ++ str ++ [9, 9]) 1) ⟨0, 0, 0⟩ ⟨1, 0, 1⟩ = .ok [(100, 2), (102, 4)] :=
  ⟨_, rfl, rfl⟩

/-- the hypotheses of `C10_walk_exact` hold for it -/
example : QOk C10_ex ∧ C10_ex.Pairwise (fun a b => PreOrd a.tile b.tile) ∧
    (∀ e ∈ C10_ex, AncOrSelf ⟨0, 0, 0⟩ e.tile) ∧ Laid (fun j => 100 + j) 0 C10_ex ∧ (owners C10_ex).length < 2 ^ 32 := by
  have anc : ∀ {a b : Tile}, AncOrSelf a b → PreOrd a b := fun h => Or.inl h
  have br : ∀ {a b : Tile} (c : Tile) (i j : Nat), i < j ∧ j < 4 ∧ AncOrSelf (c.child i) a ∧ AncOrSelf (c.child j) b → PreOrd a b :=
    fun c i j h => Or.inr ⟨c, i, j, h⟩
  refine ⟨⟨by decide, by decide, by decide⟩, ?_, by decide, by simp [C10_ex, Laid], by decide⟩
  simp only [C10_ex, List.pairwise_cons, List.mem_cons, List.not_mem_nil, or_false, forall_eq_or_imp, forall_eq]
  refine ⟨⟨anc (by decide), anc (by decide), anc (by decide)⟩, ⟨anc (by decide), br ⟨0, 0, 0⟩ 1 3 (by decide)⟩,
    br ⟨0, 0, 0⟩ 1 3 (by decide), by simp, List.Pairwise.nil⟩

end Tiles
