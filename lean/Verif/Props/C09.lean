import Verif.Proof.BqQuery
/-
C09 — the seaside tree enumerates the covered area below a tile.
-/
namespace Tiles
open Spec

/-- `t` is an input tile that no other input tile contains. -/
def Spec.MaximalIn (tiles : List Tile) (t : Tile) : Prop :=
  t ∈ tiles ∧ ∀ s ∈ tiles, AncOrSelf s t → s = t

/-- A covered tile is returned alone. -/
theorem C09_covered (tiles : List Tile) (hv : ∀ t ∈ tiles, t.Valid) (hz : ∀ t ∈ tiles, t.z < 2 ^ 32)
    (nodes : List Nat) (hm : makeBqTree tiles = .ok nodes) (hl : nodes.length ≤ 2 ^ 24)
    (q : Tile) (hq : q.Valid) (hqz : q.z ≤ 23) (hc : ∃ t ∈ tiles, AncOrSelf t q) :
    bqAllLeafs nodes q = .ok [q] := by
  have h := bqFind_spec hv hz hm hl hq hqz
  unfold bqAllLeafs
  generalize bqFindParentLeaf nodes q = r at h
  obtain ⟨t, ht, ha⟩ := hc
  cases h with
  | covered h => rfl
  | free h h' => exact absurd ha (h t ht)
  | mixed w off d h _ _ _ _ _ => exact absurd ha (h t ht)

/-- For a tile that is not covered: exactly the maximal input tiles below it, each once. -/
theorem C09_uncovered (tiles : List Tile) (hv : ∀ t ∈ tiles, t.Valid) (hz : ∀ t ∈ tiles, t.z < 2 ^ 32)
    (nodes : List Nat) (hm : makeBqTree tiles = .ok nodes) (hl : nodes.length ≤ 2 ^ 24)
    (q : Tile) (hq : q.Valid) (hqz : q.z ≤ 23) (hc : ¬ ∃ t ∈ tiles, AncOrSelf t q) :
    ∃ leafs, bqAllLeafs nodes q = .ok leafs ∧ leafs.Nodup ∧
      ∀ t, t ∈ leafs ↔ Spec.MaximalIn tiles t ∧ AncOrSelf q t ∧ t ≠ q := by
  have h := bqFind_spec hv hz hm hl hq hqz
  unfold bqAllLeafs
  generalize bqFindParentLeaf nodes q = r at h
  cases h with
  | covered h => exact absurd h hc
  | free h h' =>
    refine ⟨[], rfl, by simp, fun t => ?_⟩
    simp only [List.not_mem_nil, false_iff]
    rintro ⟨⟨ht, _⟩, ha, _⟩
    exact h' t ht ha
  | mixed w off d h hw hr hi hd hcnt =>
    obtain ⟨res, hres, hp⟩ := bqLeafsLoop_spec (nodes := nodes) nodes.length [] [(q, w, specTree tiles d q)]
      (by intro e he; simp at he; subst he; exact ⟨hi, off, hw, hr⟩) (by simpa [bqPend] using hcnt)
    refine ⟨res, hres, ?_, fun t => ?_⟩
    · rw [hp.nodup_iff]; simpa [bqFlat] using bqTiles_nodup _ _
    · rw [hp.mem_iff]
      simp only [bqFlat, List.flatMap_cons, List.flatMap_nil, List.append_nil, List.nil_append, mem_bqTiles_spec hd]
      constructor
      · rintro ⟨h1, h2, h3⟩
        refine ⟨⟨h1, fun s hs hst => ?_⟩, h2, ?_⟩
        · refine h3 s hs ?_ hst
          by_cases hsz : s.z ≤ q.z
          · exact absurd (ancOrSelf_linear hst h2 hsz) (h s hs)
          · exact ancOrSelf_linear h2 hst (by omega)
        · rintro rfl; exact h t h1 (ancOrSelf_refl _)
      · rintro ⟨⟨h1, h2⟩, h3, _⟩
        exact ⟨h1, h3, fun s hs _ hst => h2 s hs hst⟩

/-- every tile covered by the input is below a maximal input tile -/
theorem exists_maximal {tiles : List Tile} {p : Tile} (h : ∃ t ∈ tiles, AncOrSelf t p) :
    ∃ t, Spec.MaximalIn tiles t ∧ AncOrSelf t p := by
  obtain ⟨t, ht, ha⟩ := h
  generalize hn : t.z = n
  induction n using Nat.strongRecOn generalizing t with
  | ind n ih =>
    by_cases hmax : ∀ s ∈ tiles, AncOrSelf s t → s = t
    · exact ⟨t, ⟨ht, hmax⟩, ha⟩
    · simp only [Classical.not_forall] at hmax
      obtain ⟨s, hs, hst, hne⟩ := hmax
      have : s.z < t.z := by
        have := hst.1
        apply Classical.byContradiction; intro h'
        exact hne (ancOrSelf_same_z hst (by omega))
      exact ih s.z (by omega) s hs (ancOrSelf_trans hst ha) rfl

/-- In every case the returned tiles are disjoint, and their union is the covered part of `q`:
a tile `p` inside `q` is covered by the input exactly when it is inside a returned tile. -/
theorem C09_exact_area (tiles : List Tile) (hv : ∀ t ∈ tiles, t.Valid) (hz : ∀ t ∈ tiles, t.z < 2 ^ 32)
    (nodes : List Nat) (hm : makeBqTree tiles = .ok nodes) (hl : nodes.length ≤ 2 ^ 24)
    (q : Tile) (hq : q.Valid) (hqz : q.z ≤ 23) :
    ∃ leafs, bqAllLeafs nodes q = .ok leafs ∧
      (leafs.Pairwise (fun a b => ¬ Meet a b)) ∧ (∀ t ∈ leafs, AncOrSelf q t) ∧
      ∀ p, AncOrSelf q p →
        ((∃ t ∈ tiles, AncOrSelf t p) ↔ ∃ t ∈ leafs, AncOrSelf t p) := by
  by_cases hc : ∃ t ∈ tiles, AncOrSelf t q
  · refine ⟨[q], C09_covered tiles hv hz nodes hm hl q hq hqz hc, by simp, ?_, ?_⟩
    · intro t ht; simp at ht; subst ht; exact ancOrSelf_refl _
    · intro p hp
      obtain ⟨t, ht, ha⟩ := hc
      exact ⟨fun _ => ⟨q, by simp, hp⟩, fun _ => ⟨t, ht, ancOrSelf_trans ha hp⟩⟩
  · obtain ⟨leafs, h1, h2, h3⟩ := C09_uncovered tiles hv hz nodes hm hl q hq hqz hc
    refine ⟨leafs, h1, ?_, fun t ht => ((h3 t).1 ht).2.1, ?_⟩
    · refine List.Pairwise.imp_of_mem ?_ h2
      intro a b ha hb hne hmeet
      obtain ⟨⟨ha1, ha2⟩, _⟩ := (h3 a).1 ha
      obtain ⟨⟨hb1, hb2⟩, _⟩ := (h3 b).1 hb
      rcases hmeet with h | h
      · exact hne (hb2 a ha1 h)
      · exact hne (ha2 b hb1 h).symm
    · intro p hp
      constructor
      · intro h
        obtain ⟨t, ht, ha⟩ := exists_maximal h
        refine ⟨t, (h3 t).2 ⟨ht, ?_, ?_⟩, ha⟩
        · by_cases htz : q.z ≤ t.z
          · exact ancOrSelf_linear hp ha htz
          · exact absurd ⟨t, ht.1, ancOrSelf_linear ha hp (by omega)⟩ hc
        · rintro rfl; exact hc ⟨t, ht.1, ancOrSelf_refl _⟩
      · rintro ⟨t, ht, ha⟩
        exact ⟨t, ((h3 t).1 ht).1.1, ha⟩

-- non-vacuity: one query on a mixed tree for each case (input as in C08, with a nested tile)
example : (makeBqTree [⟨0, 0, 1⟩, ⟨5, 1, 3⟩, ⟨4, 1, 3⟩, ⟨1, 3, 2⟩, ⟨2, 2, 4⟩] >>= fun n => bqAllLeafs n Tile.root) =
    .ok [⟨0, 0, 1⟩, ⟨1, 3, 2⟩, ⟨4, 1, 3⟩, ⟨5, 1, 3⟩] := by decide +kernel
example : (makeBqTree [⟨0, 0, 1⟩, ⟨5, 1, 3⟩] >>= fun n => bqAllLeafs n ⟨1, 1, 2⟩) = .ok [⟨1, 1, 2⟩] := by decide +kernel
example : ¬ ∃ t ∈ [(⟨0, 0, 1⟩ : Tile), ⟨5, 1, 3⟩], AncOrSelf t ⟨2, 0, 2⟩ := by decide
example : Spec.MaximalIn [⟨0, 0, 1⟩, ⟨5, 1, 3⟩] ⟨5, 1, 3⟩ ∧ AncOrSelf ⟨2, 0, 2⟩ ⟨5, 1, 3⟩ := by
  unfold Spec.MaximalIn; decide

end Tiles
