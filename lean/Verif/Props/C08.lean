import Verif.Proof.BqQuery
/-
C08 — the seaside tree answers coverage exactly.

`makeBqTree tiles` builds the node array, `bqContains nodes q` is the query.  "Covered" is stated
with `Spec.AncOrSelf` only.  All input tiles are tiles of the pyramid (`Valid`) with a 32-bit zoom.
The node array has a 24-bit offset field; the exact precondition is that at most 2^24 nodes are needed
(`C08_size`: this holds whenever the zoom levels of the input sum up to less than 2^24).
-/
namespace Tiles
open Spec

/-- Building succeeds for every set of tiles of the pyramid, with at most one node per
level and tile. -/
theorem C08_build_total (tiles : List Tile) (hv : ∀ t ∈ tiles, t.Valid) (hz : ∀ t ∈ tiles, t.z < 2 ^ 32) :
    ∃ nodes, makeBqTree tiles = .ok nodes ∧ nodes.length ≤ 1 + (tiles.map (·.z)).sum := by
  by_cases hne : tiles = []
  · subst hne; exact ⟨[kEmptyRoot], rfl, by simp⟩
  · rcases makeBqTree_cases hv hz hne with ⟨_, hr⟩ | ⟨_, _, vec, hr, hl, _⟩
    · exact ⟨_, hr, by simp⟩
    · refine ⟨vec, hr, ?_⟩
      rw [hl]
      have h1 := innerCount_le_cost tiles (bqMaxZ tiles) Tile.root (by
        intro t ht; have := le_bqMaxZ ht; omega)
      have h2 := cost_root_le tiles
      omega

/-- `contains(q)` is true exactly when `q` or one of its ancestors is in the input. -/
theorem C08_contains_exact (tiles : List Tile) (hv : ∀ t ∈ tiles, t.Valid) (hz : ∀ t ∈ tiles, t.z < 2 ^ 32)
    (nodes : List Nat) (hm : makeBqTree tiles = .ok nodes) (hl : nodes.length ≤ 2 ^ 24)
    (q : Tile) (hq : q.Valid) (hqz : q.z ≤ 23) :
    bqContains nodes q = .ok (decide (∃ t ∈ tiles, AncOrSelf t q)) := by
  have h := bqFind_spec hv hz hm hl hq hqz
  unfold bqContains
  generalize bqFindParentLeaf nodes q = r at h
  cases h with
  | covered h => simp only [Res.ok_bind, Option.getD_some, Res.pure_eq, h, decide_true]
  | free h h' =>
    have : ¬ ∃ t ∈ tiles, AncOrSelf t q := fun ⟨t, ht, ha⟩ => h t ht ha
    simp only [Res.ok_bind, Option.getD_some, Res.pure_eq, this, decide_false]
  | mixed w off d h _ _ _ _ _ =>
    have : ¬ ∃ t ∈ tiles, AncOrSelf t q := fun ⟨t, ht, ha⟩ => h t ht ha
    simp only [Res.ok_bind, Option.getD_none, Res.pure_eq, this, decide_false]

/-- The same from the input alone: whenever the zoom levels sum to less than 2^24. -/
theorem C08_build_and_contains (tiles : List Tile) (hv : ∀ t ∈ tiles, t.Valid) (hs : (tiles.map (·.z)).sum < 2 ^ 24)
    (q : Tile) (hq : q.Valid) (hqz : q.z ≤ 23) :
    (makeBqTree tiles >>= fun nodes => bqContains nodes q) = .ok (decide (∃ t ∈ tiles, AncOrSelf t q)) := by
  have hz : ∀ t ∈ tiles, t.z < 2 ^ 32 := by
    intro t ht
    have : t.z ≤ (tiles.map (·.z)).sum := by
      clear hs hv
      induction tiles with
      | nil => simp at ht
      | cons s l ih =>
        rcases List.mem_cons.1 ht with rfl | ht
        · simp
        · have := ih ht; simp; omega
    omega
  obtain ⟨nodes, hm, hl⟩ := C08_build_total tiles hv hz
  rw [hm, Res.ok_bind]
  exact C08_contains_exact tiles hv hz nodes hm (by omega) q hq hqz

/-- Queries below zoom level 23 are refused (unless the tree is empty or full): never a wrong answer. -/
theorem C08_deep_query_throws (tiles : List Tile) (hv : ∀ t ∈ tiles, t.Valid) (hz : ∀ t ∈ tiles, t.z < 2 ^ 32)
    (hne : tiles ≠ []) (hroot : Tile.root ∉ tiles)
    (nodes : List Nat) (hm : makeBqTree tiles = .ok nodes) (hl : nodes.length ≤ 2 ^ 24)
    (q : Tile) (hq : q.Valid) (hqz : 23 < q.z) (hqz' : q.z < 2 ^ 32) : bqContains nodes q = .throw_ := by
  unfold bqContains
  rw [bqFind_deep hv hz hne hroot hm hl hq hqz hqz', Res.throw_bind]

/-- Storing the tree as a string and loading it gives the same node array, hence the same answers. -/
theorem C08_store_load (tiles : List Tile) (nodes : List Nat) (hm : makeBqTree tiles = .ok nodes) :
    bqFromString (bqStringView nodes) = .ok nodes :=
  bqFromString_view nodes (makeBqTree_lt hm)

/-- A string whose size is not a multiple of four is refused. -/
theorem C08_bad_string_throws (s : Bytes) (h : s.length % 4 ≠ 0) : bqFromString s = .throw_ := by
  have : (s.length % 4 == 0) = false := by simpa using h
  simp only [bqFromString, this, verify_false, Res.throw_bind]

-- non-vacuity: a tree with leaves on three levels
def exampleTiles : List Tile := [⟨0, 0, 1⟩, ⟨5, 1, 3⟩, ⟨4, 1, 3⟩, ⟨1, 3, 2⟩, ⟨2, 2, 4⟩]
example : (∀ t ∈ exampleTiles, t.Valid) ∧ (∀ t ∈ exampleTiles, t.z < 2 ^ 32) ∧ exampleTiles ≠ [] ∧ Tile.root ∉ exampleTiles := by
  decide
example : (exampleTiles.map (·.z)).sum < 2 ^ 24 := by decide

example : ∃ nodes, makeBqTree exampleTiles = .ok nodes ∧ nodes.length ≤ 2 ^ 24 ∧
    bqContains nodes ⟨5, 1, 3⟩ = .ok true ∧ bqContains nodes ⟨2, 0, 2⟩ = .ok false ∧ bqContains nodes ⟨2, 2, 4⟩ = .ok true :=
  ⟨[402653185, 234881027, 2264924160, 3271557120], by decide +kernel⟩
-- four covered children do not make their parent covered (bq_tree.cc:210 announces an aggregation that is not there)
example : (makeBqTree [⟨0, 0, 1⟩, ⟨1, 0, 1⟩, ⟨0, 1, 1⟩, ⟨1, 1, 1⟩] >>= fun n => bqContains n Tile.root) = .ok false := by
  decide +kernel

/-- What is not a set of tiles of the pyramid: building throws exactly when two tiles do not have the same ancestor at level 0 (one of them is outside of the
pyramid then); else it succeeds, there is no undefined behaviour.  In particular tiles that are all outside, below the same ancestor, are accepted. -/
theorem C08_invalid (tiles : List Tile) (hz : ∀ t ∈ tiles, t.z < 2 ^ 32) :
    (makeBqTree tiles = .throw_ ↔ ∃ t ∈ tiles, ∃ t' ∈ tiles, (t.x / 2 ^ t.z, t.y / 2 ^ t.z) ≠ (t'.x / 2 ^ t'.z, t'.y / 2 ^ t'.z)) ∧ makeBqTree tiles ≠ .ub := by
  by_cases hne : tiles = []
  · subst hne; simp [makeBqTree]
  have hmaxb : bqMaxZ tiles < 2 ^ 32 := by
    rcases foldl_max_mem tiles 0 with h | ⟨t, ht, h⟩
    · unfold bqMaxZ; omega
    · unfold bqMaxZ; rw [← h]; exact hz t ht
  obtain ⟨hn, hl⟩ := bqLevel_look tiles (bqMaxZ tiles) hmaxb (bqMaxZ tiles) (Nat.le_refl _)
  simp only [Nat.sub_self] at hl
  have hanc : ∀ (k t : Tile), k.z = 0 → (AncOrSelf k t ↔ k = ⟨t.x / 2 ^ t.z, t.y / 2 ^ t.z, 0⟩) := by
    intro k t hk
    obtain ⟨kx, ky, kz⟩ := k
    simp only at hk
    subst hk
    simp [AncOrSelf]
  have hkey : ∀ k, (∃ n, (k, n) ∈ bqLevel tiles (bqMaxZ tiles) (bqMaxZ tiles)) ↔ ∃ t ∈ tiles, k = ⟨t.x / 2 ^ t.z, t.y / 2 ^ t.z, 0⟩ := by
    intro k
    constructor
    · rintro ⟨n, h⟩
      have h := (bqLook_eq_some hn).2 h
      rw [hl] at h
      split at h
      · rename_i h'
        have : ¬ ∀ t ∈ tiles, ¬ AncOrSelf k t := by
          rw [← specTree_empty (d := bqMaxZ tiles)]; exact h'.2
          intro t ht; have := le_bqMaxZ ht; omega
        simp only [Classical.not_forall, Classical.not_not] at this
        obtain ⟨t, ht, ha⟩ := this
        exact ⟨t, ht, (hanc k t h'.1).1 ha⟩
      · cases h
    · rintro ⟨t, ht, rfl⟩
      refine ⟨specTree tiles (bqMaxZ tiles) ⟨t.x / 2 ^ t.z, t.y / 2 ^ t.z, 0⟩, (bqLook_eq_some hn).1 ?_⟩
      rw [hl, if_pos]
      refine ⟨rfl, ?_⟩
      rw [Ne, specTree_empty (by intro t ht; have := le_bqMaxZ ht; omega)]
      intro h
      exact h t ht ((hanc _ t rfl).2 rfl)
  rw [makeBqTree, if_neg (by simpa using hne)]
  match hL : bqLevel tiles (bqMaxZ tiles) (bqMaxZ tiles) with
  | [] =>
    exfalso
    obtain ⟨t, ht⟩ := List.exists_mem_of_ne_nil _ hne
    obtain ⟨n, h⟩ := (hkey _).2 ⟨t, ht, rfl⟩
    rw [hL] at h; cases h
  | [(k, root)] =>
    have hsame : ∀ t ∈ tiles, k = ⟨t.x / 2 ^ t.z, t.y / 2 ^ t.z, 0⟩ := by
      intro t ht
      obtain ⟨n, h⟩ := (hkey _).2 ⟨t, ht, rfl⟩
      rw [hL, List.mem_singleton] at h
      injection h with h _; exact h.symm
    have hno : ¬ ∃ t ∈ tiles, ∃ t' ∈ tiles, (t.x / 2 ^ t.z, t.y / 2 ^ t.z) ≠ (t'.x / 2 ^ t'.z, t'.y / 2 ^ t'.z) := by
      rintro ⟨t, ht, t', ht', h⟩
      have := (hsame t ht).symm.trans (hsame t' ht')
      injection this with h1 h2
      exact h (by rw [h1, h2])
    have hroot : root ≠ .empty := by
      have := (bqLook_eq_some hn (k := k) (n := root)).2 (by rw [hL]; simp)
      rw [hl] at this
      split at this
      · rename_i h'; injection this with h; rw [← h]; exact h'.2
      · cases this
    simp only [hno, iff_false]
    cases root with
    | empty => exact absurd rfl hroot
    | leaf => simp
    | inner a b c d =>
      obtain ⟨vec, h, _⟩ := bqSerialize_spec (a := a) (b := b) (c := c) (d := d)
      simp [h]
  | (k, r) :: (k', r') :: rest =>
    refine ⟨⟨fun _ => ?_, fun _ => rfl⟩, by simp⟩
    obtain ⟨t, h1, h2⟩ := (hkey k).1 ⟨r, by rw [hL]; simp⟩
    obtain ⟨t', h3, h4⟩ := (hkey k').1 ⟨r', by rw [hL]; simp⟩
    refine ⟨t, h1, t', h3, fun h => ?_⟩
    have hkk : k ≠ k' := by
      rw [hL] at hn
      simp [bqNodup] at hn
      exact hn.1.1
    apply hkk
    rw [h2, h4]
    injection h with e1 e2
    rw [e1, e2]

example : makeBqTree [⟨0, 0, 1⟩, ⟨2, 0, 1⟩] = .throw_ := ((C08_invalid _ (by simp)).1).2 ⟨⟨0, 0, 1⟩, by simp, ⟨2, 0, 1⟩, by simp, by decide⟩
/-- a tile that does not exist gets a tree -/
example : makeBqTree [⟨2, 0, 1⟩] ≠ .throw_ := fun h => by
  obtain ⟨t, ht, t', ht', hc⟩ := ((C08_invalid _ (by simp)).1).1 h
  simp only [List.mem_singleton] at ht ht'
  subst ht; subst ht'
  exact hc rfl

end Tiles
