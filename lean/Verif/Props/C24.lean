import Verif.Model.SharedMetadata
import Verif.Proof.MetaOrder
import Verif.Proof.Pbf
import Mathlib.Data.List.Nodup
/-! C24 — the shared metadata table. -/
namespace Tiles

/-! ### counting -/

/-- how often `m` is counted in a list of counts -/
def tot (l : List (Meta × Nat)) (m : Meta) : Nat := ((l.filter (fun p => decide (p.1 = m))).map (·.2)).sum

theorem tot_nil (m : Meta) : tot [] m = 0 := rfl

theorem tot_cons (a : Meta × Nat) (l : List (Meta × Nat)) (m : Meta) :
    tot (a :: l) m = (if a.1 = m then a.2 else 0) + tot l m := by
  by_cases h : a.1 = m <;> simp [tot, h]

theorem tot_append (a b : List (Meta × Nat)) (m : Meta) : tot (a ++ b) m = tot a m + tot b m := by
  induction a with
  | nil => simp [tot_nil]
  | cons x a ih => simp only [List.cons_append, tot_cons, ih]; omega

theorem tot_perm {a b : List (Meta × Nat)} (h : a.Perm b) (m : Meta) : tot a m = tot b m :=
  (((h.filter _).map _).sum_nat)

/-- strictly increasing keys, positive counts -/
def CountsOk (l : List (Meta × Nat)) : Prop :=
  l.Pairwise (fun a b => metaLe a.1 b.1 = true ∧ a.1 ≠ b.1) ∧ ∀ p ∈ l, p.2 ≠ 0

theorem tot_of_mem {l : List (Meta × Nat)} (h : l.Pairwise (fun a b => metaLe a.1 b.1 = true ∧ a.1 ≠ b.1)) {p : Meta × Nat} (hp : p ∈ l) :
    tot l p.1 = p.2 := by
  induction l with
  | nil => cases hp
  | cons a l ih =>
    rw [List.pairwise_cons] at h
    rw [tot_cons]
    rcases List.mem_cons.1 hp with rfl | hp
    · have : tot l p.1 = 0 := by
        have : l.filter (fun q => decide (q.1 = p.1)) = [] := by
          rw [List.filter_eq_nil_iff]
          intro q hq; simpa using fun e => (h.1 q hq).2 e.symm
        simp [tot, this]
      simp [this]
    · rw [if_neg (h.1 p hp).2, ih h.2 hp]; omega

theorem tot_pos_mem {l : List (Meta × Nat)} {m : Meta} (h : tot l m ≠ 0) : ∃ p ∈ l, p.1 = m := by
  induction l with
  | nil => exact absurd rfl h
  | cons a l ih =>
    rw [tot_cons] at h
    by_cases hm : a.1 = m
    · exact ⟨a, by simp, hm⟩
    · rw [if_neg hm, Nat.zero_add] at h
      obtain ⟨p, hp, e⟩ := ih h
      exact ⟨p, by simp [hp], e⟩

theorem metaEq_iff (a b : Meta) : metaEq a b = true ↔ a = b := by simp [metaEq]

theorem countRuns_eq (buf : List Meta) : CountsOk (countRuns buf) ∧ ∀ m, tot (countRuns buf) m = buf.count m := by
  have hs := sortBy_sorted metaLe_trans metaLe_total buf
  have hp := sortBy_perm metaLe buf
  have hfl := equalRanges_flatten metaEq (sortBy metaLe buf)
  have hne := equalRanges_ne metaEq (sortBy metaLe buf)
  obtain ⟨h1, h2⟩ := equalRanges_sorted (k := id) (le := fun a b => metaLe a b = true) (eq := metaEq)
    metaEq_iff (fun _ _ => metaLe_antisymm) (sortBy metaLe buf) hs
  unfold countRuns
  suffices H : ∀ gs : List (List Meta), (∀ g ∈ gs, g ≠ []) → (∀ g ∈ gs, ∀ a ∈ g, ∀ b ∈ g, a = b) →
      gs.Pairwise (fun g h => ∀ a ∈ g, ∀ b ∈ h, metaLe a b = true ∧ a ≠ b) →
      CountsOk (gs.filterMap (fun g => g.head?.map (fun m => (m, g.length)))) ∧
      ∀ m, tot (gs.filterMap (fun g => g.head?.map (fun m => (m, g.length)))) m = gs.flatten.count m by
    obtain ⟨r1, r2⟩ := H _ hne h1 h2
    refine ⟨r1, fun m => ?_⟩
    rw [r2, hfl, hp.count_eq]
  intro gs
  induction gs with
  | nil => intro _ _ _; exact ⟨⟨List.Pairwise.nil, by simp⟩, fun m => rfl⟩
  | cons g gs ih =>
    intro hne h1 h2
    rw [List.pairwise_cons] at h2
    obtain ⟨r1, r2⟩ := ih (fun x hx => hne x (by simp [hx])) (fun x hx => h1 x (by simp [hx])) h2.2
    cases g with
    | nil => exact absurd rfl (hne [] (by simp))
    | cons a g =>
      have hall : ∀ b ∈ a :: g, b = a := fun b hb => h1 (a :: g) (by simp) b hb a (by simp)
      simp only [List.filterMap_cons, List.head?_cons, Option.map_some]
      refine ⟨⟨?_, ?_⟩, fun m => ?_⟩
      · rw [List.pairwise_cons]
        refine ⟨fun p hp => ?_, r1.1⟩
        obtain ⟨h, hh, e⟩ := List.mem_filterMap.1 hp
        cases h with
        | nil => simp at e
        | cons b h =>
          simp at e; subst e
          exact h2.1 (b :: h) hh a (by simp) b (by simp)
      · intro p hp
        rcases List.mem_cons.1 hp with rfl | hp
        · simp
        · exact r1.2 p hp
      · rw [tot_cons, r2, List.flatten_cons, List.count_append]
        congr 1
        by_cases hm : a = m
        · subst hm
          rw [if_pos rfl]
          exact (List.count_eq_length.2 (fun b hb => (hall b hb).symm)).symm
        · rw [if_neg hm]
          exact (List.count_eq_zero.2 (fun hmem => hm (hall m hmem).symm)).symm

/-- the runs of the merged list are combined without loss -/
theorem combineRuns_spec (gs : List (List (Meta × Nat)))
    (hlen : ∀ g ∈ gs, g.length = 1 ∨ g.length = 2)
    (h1 : ∀ g ∈ gs, ∀ a ∈ g, ∀ b ∈ g, a.1 = b.1) (hpos : ∀ g ∈ gs, ∀ a ∈ g, a.2 ≠ 0)
    (h2 : gs.Pairwise (fun g h => ∀ a ∈ g, ∀ b ∈ h, metaLe a.1 b.1 = true ∧ a.1 ≠ b.1)) :
    ∃ c, combineRuns gs = .ok c ∧ CountsOk (c.filter (fun p => p.2 ≠ 0)) ∧
      (∀ m, tot (c.filter (fun p => p.2 ≠ 0)) m = tot gs.flatten m) ∧
      ∀ p ∈ c, ∃ g ∈ gs, ∃ a ∈ g, a.1 = p.1 := by
  induction gs with
  | nil => exact ⟨[], rfl, ⟨List.Pairwise.nil, by simp⟩, fun m => rfl, by simp⟩
  | cons g gs ih =>
    rw [List.pairwise_cons] at h2
    obtain ⟨c, e, ⟨ok1, ok2⟩, ht, hk⟩ := ih (fun x hx => hlen x (by simp [hx])) (fun x hx => h1 x (by simp [hx]))
      (fun x hx => hpos x (by simp [hx])) h2.2
    have hlt : ∀ a ∈ g, ∀ p ∈ c.filter (fun p => decide (p.2 ≠ 0)), metaLe a.1 p.1 = true ∧ a.1 ≠ p.1 := by
      intro a ha p hp
      obtain ⟨g', hg', b, hb, hbe⟩ := hk p (List.mem_filter.1 hp).1
      rw [← hbe]; exact h2.1 g' hg' a ha b hb
    rcases hlen g (by simp) with hl | hl
    · obtain ⟨a, rfl⟩ := List.length_eq_one_iff.1 hl
      have ha := hpos [a] (by simp) a (by simp)
      refine ⟨a :: c, ?_, ?_, ?_, ?_⟩
      · simp [combineRuns, combineRun, e]
      · simp only [List.filter_cons, ha, ne_eq, not_false_eq_true, decide_true, if_true]
        refine ⟨?_, ?_⟩
        · rw [List.pairwise_cons]; exact ⟨fun p hp => hlt a (by simp) p hp, ok1⟩
        · intro p hp
          rcases List.mem_cons.1 hp with rfl | hp
          · exact ha
          · exact ok2 p hp
      · intro m
        simp only [List.filter_cons, ha, ne_eq, not_false_eq_true, decide_true, if_true, List.flatten_cons,
          List.singleton_append, tot_cons]
        rw [← ht]
      · intro p hp
        rcases List.mem_cons.1 hp with rfl | hp
        · exact ⟨[p], by simp, p, by simp, rfl⟩
        · obtain ⟨g', hg', r⟩ := hk p hp
          exact ⟨g', by simp [hg'], r⟩
    · obtain ⟨a, b, rfl⟩ := List.length_eq_two.1 hl
      have ha := hpos [a, b] (by simp) a (by simp)
      have hab : a.1 = b.1 := h1 [a, b] (by simp) a (by simp) b (by simp)
      have hs : a.2 + b.2 ≠ 0 := by omega
      refine ⟨(a.1, a.2 + b.2) :: (b.1, 0) :: c, ?_, ?_, ?_, ?_⟩
      · simp [combineRuns, combineRun, e]
      · simp only [List.filter_cons, hs, ne_eq, not_false_eq_true, not_true_eq_false, decide_true, decide_false, if_true, Bool.false_eq_true, if_false]
        refine ⟨?_, ?_⟩
        · rw [List.pairwise_cons]; exact ⟨fun p hp => hlt a (by simp) p hp, ok1⟩
        · intro p hp
          rcases List.mem_cons.1 hp with rfl | hp
          · exact hs
          · exact ok2 p hp
      · intro m
        have hb0 : ¬ (((b.1, 0) : Meta × Nat).2 ≠ 0) := by simp
        have hf : ((a.1, a.2 + b.2) :: (b.1, 0) :: c).filter (fun p => decide (p.2 ≠ 0)) =
            (a.1, a.2 + b.2) :: c.filter (fun p => decide (p.2 ≠ 0)) := by
          rw [List.filter_cons_of_pos (by exact decide_eq_true hs), List.filter_cons_of_neg (by simp)]
        rw [hf, tot_cons, ht]
        simp only [List.flatten_cons, List.cons_append, List.nil_append, tot_cons, ← hab]
        split <;> omega
      · intro p hp
        simp only [List.mem_cons] at hp
        rcases hp with rfl | rfl | hp
        · exact ⟨[a, b], by simp, a, by simp, rfl⟩
        · exact ⟨[a, b], by simp, b, by simp, rfl⟩
        · obtain ⟨g', hg', r⟩ := hk p hp
          exact ⟨g', by simp [hg'], r⟩

theorem countP_le_one_of_countsOk {l : List (Meta × Nat)} (h : CountsOk l) (m : Meta) :
    (l.filter (fun p => decide (p.1 = m))).length ≤ 1 := by
  replace h := h.1
  induction l with
  | nil => simp
  | cons a l ih =>
    rw [List.pairwise_cons] at h
    by_cases hm : a.1 = m
    · have : l.filter (fun p => decide (p.1 = m)) = [] := by
        rw [List.filter_eq_nil_iff]
        intro q hq; simpa using fun e => (h.1 q hq).2 (hm.trans e.symm)
      simp [hm, this]
    · rw [List.filter_cons_of_neg (by simpa using hm)]; exact ih h.2

/-- adding a batch never throws and counts exactly -/
theorem addCounts_spec (counts : List (Meta × Nat)) (buf : List Meta) (h : CountsOk counts) :
    ∃ c, addCounts counts buf = .ok c ∧ CountsOk c ∧ ∀ m, tot c m = tot counts m + buf.count m := by
  obtain ⟨hb, hbt⟩ := countRuns_eq buf
  have hperm : (mergeCounts counts (countRuns buf)).Perm (counts ++ countRuns buf) :=
    sortBy_perm (fun a b : Meta × Nat => metaLe a.1 b.1) (counts ++ countRuns buf)
  have hs := sortBy_sorted (le := fun a b : Meta × Nat => metaLe a.1 b.1) (fun _ _ _ => metaLe_trans _ _ _)
    (fun _ _ => metaLe_total _ _) (counts ++ countRuns buf)
  have hfl := equalRanges_flatten (fun a b : Meta × Nat => metaEq a.1 b.1) (mergeCounts counts (countRuns buf))
  have hne := equalRanges_ne (fun a b : Meta × Nat => metaEq a.1 b.1) (mergeCounts counts (countRuns buf))
  obtain ⟨g1, g2⟩ := equalRanges_sorted (k := Prod.fst) (le := fun a b => metaLe a b = true)
    (eq := fun a b : Meta × Nat => metaEq a.1 b.1)
    (fun a b => metaEq_iff a.1 b.1) (fun _ _ => metaLe_antisymm) (mergeCounts counts (countRuns buf)) hs
  obtain ⟨c, e, ok, ht, _⟩ := combineRuns_spec (equalRanges (fun a b : Meta × Nat => metaEq a.1 b.1) (mergeCounts counts (countRuns buf)))
    (by
      intro g hg
      obtain ⟨a, hga⟩ := List.exists_mem_of_ne_nil g (hne g hg)
      have hsub : g.Sublist (mergeCounts counts (countRuns buf)) := by
        rw [← hfl]; exact List.sublist_flatten_of_mem hg
      have hgf : g.filter (fun p => decide (p.1 = a.1)) = g := by
        rw [List.filter_eq_self]
        intro b hb'; simpa using g1 g hg b hb' a hga
      have h1 : g.length ≤ ((mergeCounts counts (countRuns buf)).filter (fun p => decide (p.1 = a.1))).length := by
        rw [← hgf]; exact (hsub.filter _).length_le
      rw [(hperm.filter _).length_eq, List.filter_append, List.length_append] at h1
      have h2 := countP_le_one_of_countsOk h a.1
      have h3 := countP_le_one_of_countsOk hb a.1
      have h4 := List.length_pos_iff.2 (hne g hg)
      omega)
    g1
    (by
      intro g hg a ha
      have : a ∈ counts ++ countRuns buf := by
        refine hperm.mem_iff.1 ?_
        show a ∈ mergeCounts counts (countRuns buf)
        rw [← hfl]
        exact List.mem_flatten.2 ⟨g, hg, ha⟩
      rcases List.mem_append.1 this with h' | h'
      · exact h.2 a h'
      · exact hb.2 a h')
    g2
  refine ⟨c.filter (fun p => p.2 ≠ 0), ?_, ok, ?_⟩
  · simp only [addCounts, e]; rfl
  · intro m
    rw [ht, hfl, ← hbt, ← tot_append]
    exact tot_perm hperm m

/-- invariant of the builder: nothing is lost between the queue and the counts -/
theorem metaReach_inv {s : MetaBuilder} {all : List Meta} (h : MetaReach s all) :
    CountsOk s.counts ∧ ∀ m, tot s.counts m + s.queue.count m = all.count m := by
  induction h with
  | start => exact ⟨⟨List.Pairwise.nil, by simp⟩, fun m => rfl⟩
  | step hr hst ih =>
    obtain ⟨ih1, ih2⟩ := ih
    cases hst with
    | update data =>
      refine ⟨ih1, fun m => ?_⟩
      simp only [List.count_append]
      have := ih2 m; omega
    | flush buf rest counts hq hb hc =>
      obtain ⟨c, e, ok, ht⟩ := addCounts_spec _ buf ih1
      rw [hc] at e; injection e with e; subst e
      refine ⟨ok, fun m => ?_⟩
      have h1 := ih2 m
      have h2 := hq.count_eq m
      rw [List.count_append] at h2
      simp only [List.append_nil, ht]; omega

/-- a flush can always be carried out: it never throws, whatever was counted before -/
theorem C24_flush_never_throws {s : MetaBuilder} {all : List Meta} (h : MetaReach s all) (buf : List Meta) :
    ∃ c, addCounts s.counts buf = .ok c := by
  obtain ⟨c, e, _⟩ := addCounts_spec s.counts buf (metaReach_inv h).1
  exact ⟨c, e⟩

/-- Whatever the history of updates and flushes, once the queue is drained the stored table holds exactly the pairs passed
to `update` at least twice, each once with its exact count, the more frequent ones first. -/
theorem C24_table_exact {s : MetaBuilder} {all : List Meta} (h : MetaReach s all) (hq : s.queue = []) :
    (∀ m n, (m, n) ∈ metaTable s.counts ↔ n = all.count m ∧ 2 ≤ n) ∧
    ((metaTable s.counts).map (·.1)).Nodup ∧
    ((metaTable s.counts).map (·.2)).Pairwise (· ≥ ·) := by
  obtain ⟨⟨h1, h2⟩, ht⟩ := metaReach_inv h
  rw [hq] at ht
  simp only [List.count_nil, Nat.add_zero] at ht
  have hp := sortBy_perm (fun a b : Meta × Nat => decide (b.2 ≤ a.2)) (s.counts.filter (fun p => decide (p.2 ≠ 1)))
  refine ⟨fun m n => ?_, ?_, ?_⟩
  · rw [metaTable, hp.mem_iff, List.mem_filter]
    constructor
    · rintro ⟨hm, hn⟩
      have e := tot_of_mem h1 hm
      have := h2 _ hm
      rw [ht] at e
      simp at hn this e
      exact ⟨e.symm, by omega⟩
    · rintro ⟨rfl, hn⟩
      have hpos : tot s.counts m ≠ 0 := by rw [ht]; omega
      obtain ⟨p, hpm, e⟩ := tot_pos_mem hpos
      have := tot_of_mem h1 hpm
      rw [e, ht] at this
      refine ⟨?_, by simp; omega⟩
      rw [this, ← e]; exact hpm
  · have : (s.counts.map (·.1)).Nodup := by
      rw [List.Nodup, List.pairwise_map]
      exact h1.imp (fun h => h.2)
    rw [metaTable, (hp.map _).nodup_iff]
    exact this.sublist (List.filter_sublist.map _)
  · rw [List.pairwise_map]
    refine (sortBy_sorted (le := fun a b : Meta × Nat => decide (b.2 ≤ a.2)) ?_ ?_ _).imp (fun h => by simpa using h)
    · intro a b c h h'; simp at h h' ⊢; omega
    · intro a b; simp; omega

/-! ### store and load -/

theorem readMetaPairs_enc (tbl : List Meta) :
    readMetaPairs (tbl.flatMap (fun m => [.bytes 1 m.key, .bytes 1 m.value])) = .ok tbl := by
  induction tbl with
  | nil => rfl
  | cons m tbl ih => simp [readMetaPairs, ih]

/-- the table read back from the database is the stored one, in the same order -/
theorem C24_reload (tbl : List Meta) (h : ∀ m ∈ tbl, m.key.length < 2 ^ 32 ∧ m.value.length < 2 ^ 32) :
    loadSharedMetadata (some (metaTableBytes tbl)) = .ok tbl := by
  have : decMessage (metaTableBytes tbl) = .ok (tbl.flatMap (fun m => [.bytes 1 m.key, .bytes 1 m.value])) := by
    apply decMessage_enc
    intro f hf
    obtain ⟨m, hm, hf⟩ := List.mem_flatMap.1 hf
    have := h m hm
    simp only [List.mem_cons, List.not_mem_nil, or_false] at hf
    rcases hf with rfl | rfl
    · exact ⟨by decide, this.1⟩
    · exact ⟨by decide, this.2⟩
  simp [loadSharedMetadata, this, readMetaPairs_enc]

/-- without a stored table nothing is shared -/
theorem C24_nothing_stored : loadSharedMetadata none = .ok [] := rfl

/-! ### encode and decode -/

theorem metaIdxLe_total (a b : Meta × Nat) : metaIdxLe a b = true ∨ metaIdxLe b a = true := by
  unfold metaIdxLe
  by_cases h : a.1 = b.1
  · simp [h]; omega
  · rw [if_neg h, if_neg (fun e => h e.symm)]; exact metaLe_total _ _

theorem metaIdxLe_fst {a b : Meta × Nat} (h : metaIdxLe a b = true) : metaLe a.1 b.1 = true := by
  unfold metaIdxLe at h
  by_cases e : a.1 = b.1
  · rw [e]; exact metaLe_refl _
  · rwa [if_neg e] at h

theorem metaIdxLe_trans (a b c : Meta × Nat) (h : metaIdxLe a b = true) (h' : metaIdxLe b c = true) :
    metaIdxLe a c = true := by
  have h1 := metaLe_trans _ _ _ (metaIdxLe_fst h) (metaIdxLe_fst h')
  by_cases e : a.1 = c.1
  · have e1 : a.1 = b.1 := metaLe_antisymm (metaIdxLe_fst h) (by rw [e]; exact metaIdxLe_fst h')
    have e2 : b.1 = c.1 := e1.symm.trans e
    unfold metaIdxLe at *
    rw [if_pos e1] at h; rw [if_pos e2] at h'; rw [if_pos e]
    simp at *; omega
  · unfold metaIdxLe; rw [if_neg e]; exact h1

theorem encData_mem (dec : List Meta) (m : Meta) (i : Nat) : (m, i) ∈ metaEncData dec ↔ dec[i]? = some m := by
  rw [metaEncData, (sortBy_perm _ _).mem_iff, List.mem_zipIdx_iff_getElem?]

/-- a pair is encoded exactly when it is in the table -/
theorem C24_encoded_iff (dec : List Meta) (q : Meta) : (metaEncode dec q).isSome ↔ q ∈ dec := by
  have hs := sortBy_sorted metaIdxLe_trans metaIdxLe_total dec.zipIdx
  constructor
  · intro h
    unfold metaEncode at h
    split at h
    · simp at h
    · rename_i a ha
      split at h
      · simp at h
      · rename_i hq
        have hq : a.1 = q := by simpa using hq
        have : a ∈ metaEncData dec := by
          have := List.mem_of_mem_head? ha
          exact (List.dropWhile_sublist _).subset this
        have := (encData_mem dec a.1 a.2).1 this
        rw [← hq]; exact List.mem_of_getElem? this
  · intro h
    obtain ⟨i, hi⟩ := List.mem_iff_getElem?.1 h
    have hmem := (encData_mem dec q i).2 hi
    -- the dropWhile suffix starts with an element equal to q
    suffices H : ∀ l : List (Meta × Nat), l.Pairwise (fun a b => metaIdxLe a b = true) → (∃ i, (q, i) ∈ l) →
        ∃ a rest, l.dropWhile (fun a => !metaLe q a.1) = a :: rest ∧ a.1 = q by
      obtain ⟨a, rest, e, ha⟩ := H _ hs ⟨i, hmem⟩
      unfold metaEncode metaEncData
      rw [e]; simp [ha]
    intro l
    induction l with
    | nil => rintro _ ⟨i, hi⟩; cases hi
    | cons a l ih =>
      rintro hpw ⟨i, hi⟩
      rw [List.pairwise_cons] at hpw
      by_cases ha : a.1 = q
      · refine ⟨a, l, ?_, ha⟩
        rw [List.dropWhile_cons, ha, metaLe_refl]; simp
      · have hi : (q, i) ∈ l := by
          rcases List.mem_cons.1 hi with e | hi
          · exact absurd (by rw [← e]) ha
          · exact hi
        have h1 := metaIdxLe_fst (hpw.1 _ hi)
        have h2 : metaLe q a.1 = false := by
          cases hc : metaLe q a.1
          · rfl
          · exact absurd (metaLe_antisymm h1 hc) ha
        rw [List.dropWhile_cons, h2]
        simpa using ih hpw.2 ⟨i, hi⟩

/-- every index the coder hands out decodes to the encoded pair -/
theorem C24_encode_decode (dec : List Meta) (q : Meta) (i : Nat) (h : metaEncode dec q = some i) :
    metaDecode dec i = .ok q := by
  unfold metaEncode at h
  split at h
  · cases h
  · rename_i a ha
    split at h
    · cases h
    · rename_i hq
      have hq : a.1 = q := by simpa using hq
      injection h with h
      have : a ∈ metaEncData dec := (List.dropWhile_sublist _).subset (List.mem_of_mem_head? ha)
      have := (encData_mem dec a.1 a.2).1 this
      rw [h, hq] at this
      simp [metaDecode, at_, this]

/-- indices outside the table are refused -/
theorem C24_unknown_index_throws (dec : List Meta) (i : Nat) (h : dec.length ≤ i) : metaDecode dec i = .throw_ := by
  simp [metaDecode, at_, List.getElem?_eq_none h]

/-- hypotheses met: three updates of two entries each, one flush in between, one at the end -/
example : ∃ s all, MetaReach s all ∧ s.queue = [] ∧ metaTable s.counts = [(⟨[1], [1]⟩, 3), (⟨[2], [1]⟩, 2)] ∧ all.length = 6 := by
  refine ⟨⟨[], [(⟨[1], [1]⟩, 3), (⟨[1], [2]⟩, 1), (⟨[2], [1]⟩, 2)]⟩,
    (([] ++ [⟨[2], [1]⟩, ⟨[1], [1]⟩, ⟨[1], [1]⟩]) ++ []) ++ [⟨[1], [2]⟩, ⟨[1], [1]⟩, ⟨[2], [1]⟩] ++ [], ?_, rfl, by decide, rfl⟩
  refine .step (s := ⟨[⟨[1], [2]⟩, ⟨[1], [1]⟩, ⟨[2], [1]⟩], [(⟨[1], [1]⟩, 2), (⟨[2], [1]⟩, 1)]⟩) ?_
    (.flush _ [⟨[1], [2]⟩, ⟨[1], [1]⟩, ⟨[2], [1]⟩] [] _ (by simp) (by simp) (by decide))
  refine .step (s := ⟨[], [(⟨[1], [1]⟩, 2), (⟨[2], [1]⟩, 1)]⟩) ?_ (.update _ _)
  refine .step (s := ⟨[⟨[2], [1]⟩, ⟨[1], [1]⟩, ⟨[1], [1]⟩], []⟩) ?_
    (.flush _ [⟨[2], [1]⟩, ⟨[1], [1]⟩, ⟨[1], [1]⟩] [] _ (by simp) (by simp) (by decide))
  exact .step .start (.update _ _)

end Tiles
