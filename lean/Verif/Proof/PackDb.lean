import Verif.Model.PackDb
import Verif.Props.C15
import Verif.Props.C05
import Verif.Props.C30
import Verif.Props.C07
/-! The index while the pack file is rewritten. -/
namespace Tiles

namespace Spec

/-- the entries of the table as they are stored -/
def stored (es : List (UInt64 × List PackRecord)) : List (UInt64 × Bytes) := es.map (fun e => (e.1, packRecordsSerialize e.2))

/-- an index into the pack file: entries in key order, each with some records; the records do not overlap -/
structure Index (pf : PackFile) (es : List (UInt64 × List PackRecord)) : Prop where
  sorted : DbSorted es
  some : ∀ e ∈ es, e.2 ≠ []
  layout : Layout pf (es.flatMap (·.2))
  small : pf.size < 2 ^ 64

/-- the records of a tile: those of all its entries -/
def recordsOf (es : List (UInt64 × List PackRecord)) (tile : Tile) : List PackRecord :=
  (es.filter (fun e => decide (keyToTile e.1 = tile))).flatMap (·.2)

/-- the packs of a tile, highest offset first -/
def PacksOf (pf : PackFile) (es : List (UInt64 × List PackRecord)) (tile : Tile) (packs : List Bytes) : Prop :=
  ∃ rs : List PackRecord, rs.Perm (recordsOf es tile) ∧ rs ≠ [] ∧ rs.Pairwise (fun a b => b.offset ≤ a.offset) ∧
    List.Forall₂ (fun r b => pf.get r = .ok b) rs packs

end Spec
open Spec

/-! ### the tasks -/

theorem keyToTile_between {a b c : UInt64} (h1 : a ≤ b) (h2 : b ≤ c) (h : keyToTile a = keyToTile c) : keyToTile b = keyToTile c := by
  rw [UInt64.le_iff_toNat_le] at h1 h2
  have := c.toNat_lt
  rw [keyToTile_nat, keyToTile_nat] at h ⊢
  simp only [Tile.mk.injEq] at h ⊢
  omega

theorem keyToTile_fits (k : UInt64) : KeyFits (keyToTile k) := by
  have := k.toNat_lt
  rw [keyToTile_nat]
  unfold KeyFits
  dsimp only
  omega

theorem recordsOf_append (es es' : List (UInt64 × List PackRecord)) (tile : Tile) : recordsOf (es ++ es') tile = recordsOf es tile ++ recordsOf es' tile := by
  unfold recordsOf
  rw [List.filter_append, List.flatMap_append]

theorem recordsOf_single (e : UInt64 × List PackRecord) (tile : Tile) : recordsOf [e] tile = if keyToTile e.1 = tile then e.2 else [] := by
  unfold recordsOf
  by_cases h : keyToTile e.1 = tile
  · simp [h]
  · simp [h]

/-- the tasks after some entries -/
structure Grouped (seen : List (UInt64 × List PackRecord)) (acc : List TileRecord) : Prop where
  flat : acc.flatMap (·.records) = seen.flatMap (·.2)
  nodup : (acc.map (·.tile)).Nodup
  recs : ∀ t ∈ acc, t.records = recordsOf seen t.tile ∧ t.records ≠ []
  tiles : ∀ tile, tile ∈ acc.map (·.tile) ↔ ∃ e ∈ seen, keyToTile e.1 = tile
  last : acc.getLast?.map (·.tile) = seen.getLast?.map (fun e => keyToTile e.1)

theorem grouped_new {seen : List (UInt64 × List PackRecord)} {acc : List TileRecord} (h : Grouped seen acc) {e : UInt64 × List PackRecord} (hne : e.2 ≠ [])
    (hnew : keyToTile e.1 ∉ acc.map (·.tile)) : Grouped (seen ++ [e]) (acc ++ [⟨keyToTile e.1, e.2⟩]) := by
  refine ⟨?_, ?_, ?_, ?_, ?_⟩
  · rw [List.flatMap_append, List.flatMap_append, h.flat, List.flatMap_singleton, List.flatMap_singleton]
  · rw [List.map_append, List.nodup_append]
    refine ⟨h.nodup, by simp, ?_⟩
    intro a ha b hb hab
    rw [List.map_singleton, List.mem_singleton] at hb
    dsimp only at hb
    rw [hab, hb] at ha
    exact hnew ha
  · intro t ht
    rcases List.mem_append.1 ht with ht | ht
    · obtain ⟨h1, h2⟩ := h.recs t ht
      refine ⟨?_, h2⟩
      rw [recordsOf_append, recordsOf_single, if_neg, List.append_nil, ← h1]
      intro hc
      exact hnew (hc ▸ List.mem_map.2 ⟨t, ht, rfl⟩)
    · rw [List.mem_singleton] at ht
      subst ht
      refine ⟨?_, hne⟩
      dsimp only
      rw [recordsOf_append, recordsOf_single, if_pos rfl]
      suffices recordsOf seen (keyToTile e.1) = [] by rw [this, List.nil_append]
      unfold recordsOf
      rw [List.filter_eq_nil_iff.2, List.flatMap_nil]
      intro e' he' hc
      exact hnew ((h.tiles _).2 ⟨e', he', by simpa using hc⟩)
  · intro tile
    rw [List.map_append, List.mem_append, h.tiles]
    constructor
    · rintro (⟨e', h1, h2⟩ | h1)
      · exact ⟨e', List.mem_append.2 (.inl h1), h2⟩
      · exact ⟨e, by simp, by simp at h1; exact h1.symm⟩
    · rintro ⟨e', h1, h2⟩
      rcases List.mem_append.1 h1 with h1 | h1
      · exact .inl ⟨e', h1, h2⟩
      · rw [List.mem_singleton] at h1; subst h1; right; simp [h2]
  · rw [List.getLast?_concat, List.getLast?_concat]; rfl

theorem grouped_more {seen : List (UInt64 × List PackRecord)} {ts : List TileRecord} {t : TileRecord} (h : Grouped seen (ts ++ [t])) {e : UInt64 × List PackRecord}
    (ht : t.tile = keyToTile e.1) : Grouped (seen ++ [e]) (ts ++ [{ t with records := t.records ++ e.2 }]) := by
  have hm : (ts ++ [({ t with records := t.records ++ e.2 } : TileRecord)]).map (·.tile) = (ts ++ [t]).map (·.tile) := by simp
  have hnt : ∀ u ∈ ts, u.tile ≠ t.tile := by
    intro u hu hc
    have := h.nodup
    rw [List.map_append, List.nodup_append] at this
    exact this.2.2 u.tile (List.mem_map.2 ⟨u, hu, rfl⟩) t.tile (by simp) hc
  refine ⟨?_, hm ▸ h.nodup, ?_, ?_, ?_⟩
  · have := h.flat
    rw [List.flatMap_append, List.flatMap_singleton] at this ⊢
    rw [List.flatMap_append, ← this, List.flatMap_singleton, List.append_assoc]
  · intro u hu
    rcases List.mem_append.1 hu with hu | hu
    · obtain ⟨h1, h2⟩ := h.recs u (List.mem_append.2 (.inl hu))
      refine ⟨?_, h2⟩
      rw [recordsOf_append, recordsOf_single, if_neg, List.append_nil, ← h1]
      intro hc
      exact hnt u hu (by rw [ht, hc])
    · rw [List.mem_singleton] at hu
      subst hu
      obtain ⟨h1, h2⟩ := h.recs t (by simp)
      dsimp only
      refine ⟨?_, by simp [h2]⟩
      rw [recordsOf_append, recordsOf_single, if_pos ht.symm, ← h1]
  · intro tile
    rw [hm, h.tiles]
    constructor
    · rintro ⟨e', h1, h2⟩
      exact ⟨e', List.mem_append.2 (.inl h1), h2⟩
    · rintro ⟨e', h1, h2⟩
      rcases List.mem_append.1 h1 with h1 | h1
      · exact ⟨e', h1, h2⟩
      · rw [List.mem_singleton] at h1; subst h1
        exact (h.tiles tile).1 (by rw [← h2, ← ht]; simp)
  · rw [List.getLast?_concat, List.getLast?_concat]; simp [ht]

theorem packTasks_groups {es : List (UInt64 × List PackRecord)} : ∀ {seen : List (UInt64 × List PackRecord)} {acc : List TileRecord}, Grouped seen acc →
    DbSorted (seen ++ es) → (∀ e ∈ es, e.2 ≠ [] ∧ ∀ r ∈ e.2, r.Fits) → ∃ tasks, packTasks (stored es) acc = .ok tasks ∧ Grouped (seen ++ es) tasks := by
  induction es with
  | nil => intro seen acc h _ _; exact ⟨acc, rfl, by simpa using h⟩
  | cons e es ih =>
    intro seen acc h hs he
    obtain ⟨h1, h2⟩ := he e (by simp)
    have hs' : DbSorted ((seen ++ [e]) ++ es) := by simpa using hs
    have he' : ∀ e ∈ es, e.2 ≠ [] ∧ ∀ r ∈ e.2, r.Fits := fun x hx => he x (by simp [hx])
    have e1 : seen ++ e :: es = (seen ++ [e]) ++ es := by simp
    rw [stored, List.map_cons, packTasks, C05_records_round_trip _ h2, Res.ok_bind]
    rw [show (!e.2.isEmpty) = true by cases hx : e.2 with | nil => exact absurd hx h1 | cons => rfl, verify_true, Res.ok_bind]
    rw [e1]
    cases hl : acc.getLast? with
    | none =>
      dsimp only
      refine ih (grouped_new h h1 ?_) hs' he'
      rw [List.getLast?_eq_none_iff.1 hl]; simp
    | some t =>
      dsimp only
      obtain ⟨ts, rfl⟩ := List.getLast?_eq_some_iff.1 hl
      by_cases ht : t.tile = keyToTile e.1
      · rw [if_pos ht, List.dropLast_concat]
        exact ih (grouped_more h ht) hs' he'
      · rw [if_neg ht]
        refine ih (grouped_new h h1 ?_) hs' he'
        intro hc
        obtain ⟨e', b1, b2⟩ := (h.tiles _).1 hc
        have hlast := h.last
        rw [List.getLast?_concat] at hlast
        cases hsl : seen.getLast? with
        | none => rw [hsl] at hlast; cases hlast
        | some l =>
          rw [hsl] at hlast
          obtain ⟨ss, rfl⟩ := List.getLast?_eq_some_iff.1 hsl
          simp only [Option.map_some, Option.some.injEq] at hlast
          apply ht
          rw [hlast]
          have hs2 : DbSorted (ss ++ [l] ++ [e]) := by
            unfold DbSorted at hs' ⊢
            rw [List.pairwise_append] at hs'
            exact hs'.1
          unfold DbSorted at hs2
          rw [List.pairwise_append, List.pairwise_append] at hs2
          have k1 : e'.1 ≤ l.1 := by
            rcases List.mem_append.1 b1 with b1 | b1
            · exact UInt64.le_of_lt (hs2.1.2.2 e' b1 l (by simp))
            · rw [List.mem_singleton] at b1; rw [b1]; exact UInt64.le_refl _
          have k2 : l.1 ≤ e.1 := UInt64.le_of_lt (hs2.2.2 l (by simp) e (by simp))
          exact keyToTile_between k1 k2 b2

theorem index_fits {pf : PackFile} {es : List (UInt64 × List PackRecord)} (h : Index pf es) : ∀ e ∈ es, e.2 ≠ [] ∧ ∀ r ∈ e.2, r.Fits := by
  intro e he
  refine ⟨h.some e he, ?_⟩
  intro r hr
  have := h.layout.inside r (List.mem_flatMap.2 ⟨e, he, hr⟩)
  have hs := h.small
  unfold PackRecord.endOffset at this
  exact ⟨by omega, by omega⟩

/-- reading the index gives one task for each tile, with all its records -/
theorem packTasks_index {pf : PackFile} {es : List (UInt64 × List PackRecord)} (h : Index pf es) :
    ∃ tasks, packTasks (stored es) [] = .ok tasks ∧ Grouped es tasks := by
  have := packTasks_groups (es := es) (seen := []) (acc := []) ⟨rfl, by simp, by simp, by simp, rfl⟩ (by simpa using h.sorted) (index_fits h)
  simpa using this

theorem grouped_tilesOf {es : List (UInt64 × List PackRecord)} {tasks : List TileRecord} (h : Grouped es tasks) : tilesOf tasks = tasks.map (·.tile) := by
  unfold tilesOf
  congr 1
  rw [List.filter_eq_self]
  intro t ht
  have := (h.recs t ht).2
  cases hx : t.records with
  | nil => exact absurd hx this
  | cons => rfl

theorem grouped_input {pf : PackFile} {es : List (UInt64 × List PackRecord)} {tasks : List TileRecord} (h : Grouped es tasks) {tile : Tile} {packs : List Bytes}
    (hi : TaskInput pf tasks tile packs) : PacksOf pf es tile packs := by
  obtain ⟨t, h1, h2, rs, h3, h4, h5, h6⟩ := hi
  rw [(h.recs t h1).1, h2] at h3
  exact ⟨rs, h3, h4, h5, h6⟩

/-! ### the table -/

/-- the table holds exactly these records -/
def DbIs (db : UInt64 → Option Bytes) (table : List (Tile × PackRecord)) : Prop :=
  ∀ k v, db k = some v ↔ ∃ o ∈ table, keyOfTile o.1 = .ok k ∧ v = packRecordsSerialize [o.2]

theorem putRecords_ok {us : List (Tile × PackRecord)} : ∀ {db : UInt64 → Option Bytes} {table : List (Tile × PackRecord)}, DbIs db table →
    ((table ++ us).map (·.1)).Nodup → (∀ o ∈ table ++ us, KeyFits o.1) → ∃ db', putRecords db us = .ok db' ∧ DbIs db' (table ++ us) := by
  induction us with
  | nil => intro db table h _ _; exact ⟨db, rfl, by simpa using h⟩
  | cons o us ih =>
    intro db table h hn hk
    obtain ⟨tile, r⟩ := o
    have e1 : table ++ (tile, r) :: us = (table ++ [(tile, r)]) ++ us := by simp
    obtain ⟨k, hk1, _⟩ := keyOfTile_ok (hk (tile, r) (by simp))
    rw [putRecords, hk1, Res.ok_bind]
    rw [e1] at hn hk ⊢
    refine ih ?_ hn hk
    intro k' v
    have hnew : ∀ o ∈ table, o.1 ≠ tile := by
      intro o ho hc
      have h2 := hn
      rw [List.map_append, List.nodup_append, List.map_append, List.nodup_append] at h2
      exact h2.1.2.2 o.1 (List.mem_map.2 ⟨o, ho, rfl⟩) tile (by simp) hc
    by_cases hkk : k' = k
    · subst hkk
      dsimp only
      rw [if_pos rfl]
      constructor
      · intro hv
        injection hv with hv
        exact ⟨(tile, r), by simp, hk1, hv.symm⟩
      · rintro ⟨o, ho, h1, h2⟩
        have : o.1 = tile := keyOfTile_inj (hk o (List.mem_append.2 (.inl ho))) (hk (tile, r) (by simp)) h1 hk1
        rcases List.mem_append.1 ho with ho | ho
        · exact absurd this (hnew o ho)
        · rw [List.mem_singleton] at ho; rw [h2, ho]
    · dsimp only
      rw [if_neg hkk, h k' v]
      constructor
      · rintro ⟨o, ho, h1, h2⟩
        exact ⟨o, List.mem_append.2 (.inl ho), h1, h2⟩
      · rintro ⟨o, ho, h1, h2⟩
        rcases List.mem_append.1 ho with ho | ho
        · exact ⟨o, ho, h1, h2⟩
        · rw [List.mem_singleton] at ho
          rw [ho, hk1] at h1
          injection h1 with h1
          exact absurd h1.symm hkk

/-- the callback is called here -/
def Repack.flushing (r : Repack) : Prop := r.pc = .flush ∨ r.pc = .flushStash ∨ r.pc = .flushLast

theorem insertResult_table {s s' : Repack} {tile : Tile} {buf : Bytes} (h : s.insertResult tile buf = .ok s') : s'.table = s.table := by
  rw [Repack.insertResult] at h
  split at h
  · injection h with h; subst h; rfl
  · split at h
    · cases h
    · rw [Res.bind_eq_ok] at h
      obtain ⟨_, _, h⟩ := h
      split at h
      · injection h with h; subst h; rfl
      · injection h with h; subst h; rfl

theorem dequeue_table {f : Tile → List Bytes → Bytes} {s s' : Repack} {i : Nat} (h : s.dequeue f i = some (.ok s')) : s'.table = s.table := by
  rw [Repack.dequeue] at h
  split at h
  · cases h
  · injection h with h; have := insertResult_table h; exact this

theorem enqueue_table {s s1 : Repack} {n : Nat} (h : s.enqueue = .ok (s1, n)) : s1.table = s.table := by
  rw [Repack.enqueue, Res.bind_eq_ok] at h
  obtain ⟨_, _, h⟩ := h
  cases hl : s.tasks.getLast? with
  | none => rw [hl] at h; cases h
  | some t =>
    rw [hl] at h
    dsimp only at h
    rw [Res.bind_eq_ok] at h
    obtain ⟨packs, _, h⟩ := h
    injection h with h
    injection h with h1 h2
    subst h1
    rfl

theorem repackStep_table {f : Tile → List Bytes → Bytes} {mem batch : Nat} {c : RepackChoice} {s s' : Repack} (hs : repackStep f mem batch c s = some (.ok s')) :
    (s.flushing ∧ s'.table = s.table ++ s.updates) ∨ (¬ s.flushing ∧ s'.table = s.table) := by
  unfold Repack.flushing
  rw [repackStep.eq_def] at hs
  split at hs
  · rename_i n hpc
    right
    refine ⟨by rw [hpc]; simp, ?_⟩
    split at hs
    · injection hs with hs
      rw [Res.bind_eq_ok] at hs
      obtain ⟨⟨s1, k⟩, h1, hs⟩ := hs
      injection hs with hs
      subst hs
      have := enqueue_table h1
      exact this
    · injection hs with hs; injection hs with hs; subst hs; rfl
  · rename_i fuel hpc
    right
    refine ⟨by rw [hpc]; simp, ?_⟩
    split at hs
    · cases hs
    · injection hs with hs
      rw [Res.bind_eq_ok] at hs
      obtain ⟨⟨pf', tasks'⟩, _, hs⟩ := hs
      injection hs with hs
      subst hs
      rfl
  · rename_i hpc
    right
    refine ⟨by rw [hpc]; simp, ?_⟩
    split at hs <;> (injection hs with hs; injection hs with hs; subst hs; rfl)
  · rename_i n hpc
    right
    refine ⟨by rw [hpc]; simp, ?_⟩
    split at hs
    · injection hs with hs; injection hs with hs; subst hs; rfl
    · cases hs
  · rename_i n hpc
    right
    refine ⟨by rw [hpc]; simp, ?_⟩
    injection hs with hs; injection hs with hs; subst hs; rfl
  · rename_i n hpc
    right
    refine ⟨by rw [hpc]; simp, ?_⟩
    split at hs
    · cases hs
    · injection hs with hs; injection hs with hs; subst hs; rfl
  · rename_i n i hpc
    right
    refine ⟨by rw [hpc]; simp, ?_⟩
    split at hs
    · cases hs
    · split at hs
      · cases hs
      · rename_i r hd
        injection hs with hs
        rw [Res.bind_eq_ok] at hs
        obtain ⟨s1, rfl, hs⟩ := hs
        injection hs with hs
        subst hs
        have := dequeue_table hd
        exact this
  · rename_i hpc
    left
    injection hs with hs; injection hs with hs; subst hs
    exact ⟨.inl hpc, rfl⟩
  · rename_i n hpc
    right
    refine ⟨by rw [hpc]; simp, ?_⟩
    split at hs
    · injection hs with hs
      rw [Res.bind_eq_ok] at hs
      obtain ⟨⟨s1, k⟩, h1, hs⟩ := hs
      injection hs with hs
      subst hs
      have := enqueue_table h1
      exact this
    · injection hs with hs; injection hs with hs; subst hs; rfl
  · rename_i hpc
    right
    refine ⟨by rw [hpc]; simp, ?_⟩
    split at hs
    · injection hs with hs
      rw [Res.bind_eq_ok] at hs
      obtain ⟨_, _, hs⟩ := hs
      injection hs with hs
      subst hs
      rfl
    · injection hs with hs
      rw [Res.bind_eq_ok] at hs
      obtain ⟨_, _, hs⟩ := hs
      rw [Res.bind_eq_ok] at hs
      obtain ⟨_, _, hs⟩ := hs
      injection hs with hs
      subst hs
      rfl
  · rename_i hpc
    right
    refine ⟨by rw [hpc]; simp, ?_⟩
    injection hs with hs; injection hs with hs; subst hs; rfl
  · rename_i hpc
    left
    injection hs with hs; injection hs with hs; subst hs
    exact ⟨.inr (.inl hpc), rfl⟩
  · rename_i hpc
    right
    refine ⟨by rw [hpc]; simp, ?_⟩
    injection hs with hs; injection hs with hs; subst hs; rfl
  · rename_i hpc
    right
    refine ⟨by rw [hpc]; simp, ?_⟩
    injection hs with hs; injection hs with hs; subst hs; rfl
  · rename_i i hpc
    right
    refine ⟨by rw [hpc]; simp, ?_⟩
    split at hs
    · cases hs
    · rename_i r hd
      injection hs with hs
      subst hs
      exact dequeue_table hd
  · rename_i hpc
    left
    injection hs with hs; injection hs with hs; subst hs
    exact ⟨.inr (.inr hpc), rfl⟩
  · rename_i hpc
    right
    refine ⟨by rw [hpc]; simp, ?_⟩
    injection hs with hs
    rw [Res.bind_eq_ok] at hs
    obtain ⟨_, _, hs⟩ := hs
    rw [Res.bind_eq_ok] at hs
    obtain ⟨_, _, hs⟩ := hs
    injection hs with hs
    subst hs
    rfl
  · cases hs

/-! ### the invariant -/

section
variable {f : Tile → List Bytes → Bytes} {mem batch : Nat} {pf : PackFile} {es : List (UInt64 × List PackRecord)} {tasks : List TileRecord}

/-- where a run can be, with the tasks that were read -/
def PInv (f : Tile → List Bytes → Bytes) (mem batch : Nat) (pf : PackFile) (es : List (UInt64 × List PackRecord)) (tasks : List TileRecord) (s : PackDb) : Prop :=
  s.pf = pf ∧ match s.run with
    | none => s.db = tableOf (stored es)
    | some r => RepackReach f mem batch (repackInit pf tasks) r ∧ DbIs s.db r.table

theorem tiles_nodup (hx : Index pf es) (hg : Grouped es tasks) (hf : ∀ tile packs, f tile packs ≠ []) {r : Repack}
    (h : RepackReach f mem batch (repackInit pf tasks) r) : ((r.table ++ r.updates).map (·.1)).Nodup ∧ ∀ o ∈ r.table ++ r.updates, KeyFits o.1 := by
  have hl : Layout pf (tasks.flatMap (·.records)) := by rw [hg.flat]; exact hx.layout
  obtain ⟨_, _, _, hp⟩ := C15_safe hl hf h
  have hn : (tilesOf tasks).Nodup := by rw [grouped_tilesOf hg]; exact hg.nodup
  have hn' := hp.nodup_iff.2 hn
  constructor
  · rw [List.nodup_append] at hn'
    have := hn'.2.1
    rw [List.map_append, List.nodup_append] at this
    exact this.1
  · intro o ho
    have hm : o.1 ∈ tilesOf tasks := hp.mem_iff.1 (List.mem_append.2 (.inr (List.mem_map.2 ⟨o, List.mem_append.2 (.inl ho), rfl⟩)))
    rw [grouped_tilesOf hg, hg.tiles] at hm
    obtain ⟨e, _, he⟩ := hm
    rw [← he]
    exact keyToTile_fits _

theorem packDb_step (hx : Index pf es) (ht : packTasks (stored es) [] = .ok tasks) (hg : Grouped es tasks) (hf : ∀ tile packs, f tile packs ≠ [])
    {s : PackDb} (h : PInv f mem batch pf es tasks s) {c : RepackChoice} {r : Res PackDb} (hr : packDbStep f mem batch (stored es) c s = some r) :
    (∃ s', r = .ok s' ∧ PInv f mem batch pf es tasks s') ∨
    (r = .throw_ ∧ ∃ r0, s.run = some r0 ∧ ((r0.pc = .defrag ∧ ¬ Roomy pf r0.pending) ∨ (r0.pc = .check ∧ r0.inflight ≠ []))) := by
  have hl : Layout pf (tasks.flatMap (·.records)) := by rw [hg.flat]; exact hx.layout
  obtain ⟨hpf, h⟩ := h
  rw [packDbStep] at hr
  cases hrun : s.run with
  | none =>
    rw [hrun] at hr h
    dsimp only at hr h
    rw [ht, Res.ok_bind] at hr
    injection hr with hr
    left
    refine ⟨_, hr.symm, hpf, ?_⟩
    dsimp only
    rw [hpf]
    refine ⟨.init, ?_⟩
    intro k v
    constructor
    · intro h; cases h
    · rintro ⟨o, ho, _⟩; cases ho
  | some r0 =>
    rw [hrun] at hr h
    dsimp only at hr h
    obtain ⟨hreach, hdb⟩ := h
    split at hr
    · cases hr
    · rename_i r' hstep
      injection hr with hr
      rcases C15_steps hl hf hreach hstep with ⟨r1, h1⟩ | ⟨h1, h2⟩
      · subst h1
        left
        have hreach' := RepackReach.step c hreach hstep
        rcases repackStep_table hstep with ⟨hfl, htab⟩ | ⟨hfl, htab⟩ <;> unfold Repack.flushing at hfl
        · obtain ⟨hn, hk⟩ := tiles_nodup hx hg hf hreach
          obtain ⟨db', hput, hdb'⟩ := putRecords_ok hdb hn hk
          rw [if_pos hfl, hput, Res.ok_bind, Res.ok_bind] at hr
          refine ⟨_, hr.symm, hpf, hreach', ?_⟩
          dsimp only
          rw [htab]
          exact hdb'
        · rw [if_neg hfl, Res.ok_bind, Res.ok_bind] at hr
          refine ⟨_, hr.symm, hpf, hreach', ?_⟩
          dsimp only
          rw [htab]
          exact hdb
      · right
        subst h1
        have hnf : ¬ (r0.pc = .flush ∨ r0.pc = .flushStash ∨ r0.pc = .flushLast) := by
          rcases h2 with ⟨h2, _⟩ | ⟨h2, _⟩ <;> rw [h2] <;> simp
        rw [if_neg hnf, Res.ok_bind, Res.throw_bind] at hr
        exact ⟨hr.symm, r0, rfl, h2⟩

theorem packDb_reach (hx : Index pf es) (ht : packTasks (stored es) [] = .ok tasks) (hg : Grouped es tasks) (hf : ∀ tile packs, f tile packs ≠ [])
    {s : PackDb} (h : PackReach f mem batch (stored es) (packDbInit (stored es) pf) s) : PInv f mem batch pf es tasks s := by
  induction h with
  | init => exact ⟨rfl, rfl⟩
  | step c _ hs ih =>
    rcases packDb_step hx ht hg hf ih hs with ⟨s', h1, h2⟩ | ⟨h1, _⟩
    · injection h1 with h1; rw [h1]; exact h2
    · cases h1

end

end Tiles
