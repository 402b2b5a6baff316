import Verif.Proof.PackDb
import Mathlib.Data.List.Pairwise
/-!
C44: the index while the packs are rewritten, and after a crash.

The full statement is false: the index is emptied, and that is committed, before the rewriting starts, and a tile comes back only with the
batch its result belongs to.  If the defragmentation throws, nothing comes back at all.  Proved is what is left: the index never shows
anything wrong, what it shows stays, and a run that ends well restores every tile.
-/
namespace Tiles

namespace Spec

/-- the tile can be found in the index, and the packs it refers to can be read -/
def Found (db : UInt64 → Option Bytes) (pf : PackFile) (tile : Tile) : Prop :=
  ∃ k v rs, keyToTile k = tile ∧ db k = some v ∧ packRecordsDeserialize v = .ok rs ∧ rs ≠ [] ∧ ∀ r ∈ rs, ∃ b, pf.get r = .ok b

end Spec
open Spec

/-- the English statement: at every point of the run, each tile that had features is found -/
def C44_full : Prop := ∀ (f : Tile → List Bytes → Bytes) (mem batch : Nat) (pf : PackFile) (es : List (UInt64 × List PackRecord)), Index pf es →
  (∀ tile packs, f tile packs ≠ []) → ∀ s, PackReach f mem batch (stored es) (packDbInit (stored es) pf) s →
  ∀ tile, recordsOf es tile ≠ [] → Found s.db s.file tile

/-! ### what holds -/

theorem sublist_flatMap {α β : Type} {l l' : List α} (h : l.Sublist l') (g : α → List β) : (l.flatMap g).Sublist (l'.flatMap g) := by
  induction h with
  | slnil => exact .slnil
  | cons a _ ih => rw [List.flatMap_cons]; exact ih.trans (List.sublist_append_right _ _)
  | cons_cons a _ ih => rw [List.flatMap_cons, List.flatMap_cons]; exact (List.Sublist.refl _).append ih

theorem packsOf_unique {pf : PackFile} {es : List (UInt64 × List PackRecord)} (hx : Index pf es) {tile : Tile} {p q : List Bytes} (hp : PacksOf pf es tile p)
    (hq : PacksOf pf es tile q) : p = q := by
  obtain ⟨rs, a1, a2, a3, a4⟩ := hp
  obtain ⟨rs', b1, b2, b3, b4⟩ := hq
  have hsub : (recordsOf es tile).Sublist (es.flatMap (·.2)) := by
    unfold recordsOf
    exact sublist_flatMap (List.filter_sublist) _
  have hap := hx.layout.apart.sublist hsub
  have hin : ∀ r ∈ recordsOf es tile, 0 < r.size := fun r hr => (hx.layout.inside r (hsub.subset hr)).1
  have hd : ∀ a ∈ recordsOf es tile, ∀ b ∈ recordsOf es tile, a.offset = b.offset → a = b := by
    intro a ha b hb hab
    by_contra hne
    have : Std.Symm (fun a b : PackRecord => a.endOffset ≤ b.offset ∨ b.endOffset ≤ a.offset) := ⟨fun _ _ h => Or.symm h⟩
    have := hap.forall ha hb hne
    have h1 := hin a ha
    have h2 := hin b hb
    unfold PackRecord.endOffset at this
    omega
  have : rs = rs' := by
    refine List.Perm.eq_of_pairwise (le := fun a b => b.offset ≤ a.offset) ?_ a3 b3 (a1.trans b1.symm)
    intro a b ha hb h1 h2
    exact hd a (a1.mem_iff.1 ha) b (b1.mem_iff.1 hb) (by omega)
  subst this
  have := List.forall₂_iff_get.1 a4
  have h2 := List.forall₂_iff_get.1 b4
  refine List.ext_getElem (by rw [← this.1, ← h2.1]) ?_
  intro i h3 h4
  have e1 := this.2 i (by omega) h3
  have e2 := h2.2 i (by omega) h4
  simp only [List.get_eq_getElem] at e1 e2
  rw [e1] at e2
  injection e2

section
variable {f : Tile → List Bytes → Bytes} {mem batch : Nat} {pf : PackFile} {es : List (UInt64 × List PackRecord)}

theorem tableOf_some {entries : List (UInt64 × Bytes)} (hs : DbSorted entries) (k : UInt64) (v : Bytes) :
    tableOf entries k = some v ↔ (k, v) ∈ entries := by
  rw [tableOf, Option.map_eq_some_iff]
  constructor
  · rintro ⟨⟨k', v'⟩, h1, rfl⟩
    have := List.find?_some h1
    rw [beq_iff_eq] at this
    dsimp only at this
    subst this
    exact List.mem_of_find?_eq_some h1
  · intro h
    induction entries with
    | nil => cases h
    | cons e es ih =>
      rw [DbSorted, List.pairwise_cons] at hs
      rcases List.mem_cons.1 h with rfl | h
      · exact ⟨_, List.find?_cons_of_pos (by simp), rfl⟩
      · obtain ⟨a, h1, h2⟩ := ih hs.2 h
        refine ⟨a, ?_, h2⟩
        rw [List.find?_cons_of_neg]
        · exact h1
        · have := hs.1 _ h
          rw [beq_iff_eq]
          intro e
          rw [e] at this
          exact absurd this (by simp)

/-- Until the first transaction is committed nothing has changed. -/
theorem C44_before_partial (hx : Index pf es) (hf : ∀ tile packs, f tile packs ≠ []) {s : PackDb}
    (h : PackReach f mem batch (stored es) (packDbInit (stored es) pf) s) (hn : s.run = none) : (∀ k v, s.db k = some v ↔ (k, v) ∈ stored es) ∧ s.file = pf := by
  obtain ⟨tasks, ht, hg⟩ := packTasks_index hx
  obtain ⟨h1, h2⟩ := packDb_reach hx ht hg hf h
  rw [hn] at h2
  dsimp only at h2
  refine ⟨fun k v => ?_, by rw [PackDb.file, hn]; exact h1⟩
  rw [h2]
  exact tableOf_some (by have := hx.sorted; rw [DbSorted] at this ⊢; rw [stored]; exact List.pairwise_map.2 this) k v

/-- After that, at every point: each entry of the index is the only one of its tile, has one record, and that record can be read and is the
result for all packs the tile had.  This is also so after a crash, if the result does not end with a zero byte. -/
theorem C44_never_wrong_partial (hx : Index pf es) (hf : ∀ tile packs, f tile packs ≠ []) {s : PackDb}
    (h : PackReach f mem batch (stored es) (packDbInit (stored es) pf) s) (hn : s.run ≠ none) {k : UInt64} {v : Bytes} (hv : s.db k = some v) :
    ∃ tile r packs, keyOfTile tile = .ok k ∧ v = packRecordsSerialize [r] ∧ (s.file.size < 2 ^ 64 → packRecordsDeserialize v = .ok [r]) ∧
      PacksOf pf es tile packs ∧ s.file.get r = .ok (f tile packs) ∧
      (∀ b c, f tile packs = b ++ [c] → c ≠ 0 → s.file.reopen.get r = .ok (f tile packs)) := by
  obtain ⟨tasks, ht, hg⟩ := packTasks_index hx
  obtain ⟨h1, h2⟩ := packDb_reach hx ht hg hf h
  have hl : Layout pf (tasks.flatMap (·.records)) := by rw [hg.flat]; exact hx.layout
  cases hrun : s.run with
  | none => exact absurd hrun hn
  | some r0 =>
    rw [hrun] at h2
    obtain ⟨h2, h3⟩ := h2
    obtain ⟨o, ho, hk, hv⟩ := (h3 k v).1 hv
    obtain ⟨_, _, h5, _⟩ := C15_safe hl hf h2
    obtain ⟨packs, hp, hget⟩ := h5 o (by simp [ho])
    have hfile : s.file = r0.pf := by rw [PackDb.file, hrun]
    refine ⟨o.1, o.2, packs, hk, hv, ?_, grouped_input hg hp, hfile ▸ hget, ?_⟩
    · intro hsz
      rw [hv]
      refine C05_records_round_trip _ ?_
      intro r hr
      rw [List.mem_singleton] at hr
      subst hr
      rw [hfile] at hsz
      have := (PackFile.get_eq_ok_iff ..).1 hget
      unfold PackRecord.endOffset at this
      exact ⟨by omega, by omega⟩
    · intro b c hb hc
      rw [hfile, hb]
      exact PackFile.C07_crash_reopen _ (rinv_reach hl hf h2).wf _ _ _ (hb ▸ hget) hc

/-- What is in the index stays there, with the same bytes. -/
theorem C44_kept_partial (hx : Index pf es) (hf : ∀ tile packs, f tile packs ≠ []) {s s' : PackDb}
    (h : PackReach f mem batch (stored es) (packDbInit (stored es) pf) s) (hn : s.run ≠ none) (h' : PackReach f mem batch (stored es) s s')
    {k : UInt64} {v : Bytes} (hv : s.db k = some v) :
    s'.db k = some v ∧ ∃ r b, v = packRecordsSerialize [r] ∧ s.file.get r = .ok b ∧ s'.file.get r = .ok b := by
  obtain ⟨tasks, ht, hg⟩ := packTasks_index hx
  have hl : Layout pf (tasks.flatMap (·.records)) := by rw [hg.flat]; exact hx.layout
  obtain ⟨_, h2⟩ := packDb_reach hx ht hg hf h
  cases hrun : s.run with
  | none => exact absurd hrun hn
  | some r0 =>
    rw [hrun] at h2
    dsimp only at h2
    obtain ⟨o, ho, hk, hv'⟩ := (h2.2 k v).1 hv
    have key : PackReach f mem batch (stored es) (packDbInit (stored es) pf) s' ∧ ∃ r1, s'.run = some r1 ∧ ∃ l, r1.table = r0.table ++ l := by
      clear hv hv' ho hk
      induction h' with
      | init => exact ⟨h, r0, hrun, [], by simp⟩
      | step c h1 hs ih =>
        obtain ⟨i1, r1, i2, l, i3⟩ := ih
        refine ⟨.step c i1 hs, ?_⟩
        rw [packDbStep, i2] at hs
        dsimp only at hs
        split at hs
        · cases hs
        · rename_i r' hstep
          injection hs with hs
          obtain ⟨db, hs⟩ : ∃ db, (do
              let r' ← r'
              return ({ pf := _, db := db, run := some r' } : PackDb)) = Res.ok _ := by
            split at hs
            · rw [Res.bind_eq_ok] at hs
              obtain ⟨db, _, hs⟩ := hs
              exact ⟨db, hs⟩
            · rw [Res.ok_bind] at hs
              exact ⟨_, hs⟩
          rw [Res.bind_eq_ok] at hs
          obtain ⟨r2, hr2, hs2⟩ := hs
          subst hr2
          injection hs2 with hs2
          subst hs2
          refine ⟨r2, rfl, ?_⟩
          rcases repackStep_table hstep with ⟨_, h3⟩ | ⟨_, h3⟩
          · exact ⟨l ++ r1.updates, by rw [h3, i3, List.append_assoc]⟩
          · exact ⟨l, by rw [h3, i3]⟩
    obtain ⟨k1, r1, k2, l, k3⟩ := key
    obtain ⟨_, h4⟩ := packDb_reach hx ht hg hf k1
    rw [k2] at h4
    dsimp only at h4
    have ho' : o ∈ r1.table := by rw [k3]; exact List.mem_append.2 (.inl ho)
    refine ⟨(h4.2 k v).2 ⟨o, ho', hk, hv'⟩, ?_⟩
    obtain ⟨_, _, a1, _⟩ := C15_safe hl hf h2.1
    obtain ⟨_, _, a2, _⟩ := C15_safe hl hf h4.1
    obtain ⟨p1, b1, b2⟩ := a1 o (by simp [ho])
    obtain ⟨p2, c1, c2⟩ := a2 o (by simp [ho'])
    have := packsOf_unique hx (grouped_input hg b1) (grouped_input hg c1)
    subst this
    exact ⟨o.2, f o.1 p1, hv', by rw [PackDb.file, hrun]; exact b2, by rw [PackDb.file, k2]; exact c2⟩

/-- At the end of the run each tile that had packs has exactly one entry, and there are no others. -/
theorem C44_done_partial (hx : Index pf es) (hf : ∀ tile packs, f tile packs ≠ []) {s : PackDb}
    (h : PackReach f mem batch (stored es) (packDbInit (stored es) pf) s) {r0 : Repack} (hr : s.run = some r0) (hd : r0.pc = .done) :
    (∀ tile, recordsOf es tile ≠ [] → ∃ k r packs, keyOfTile tile = .ok k ∧ s.db k = some (packRecordsSerialize [r]) ∧
      PacksOf pf es tile packs ∧ s.file.get r = .ok (f tile packs)) ∧
    (∀ k v, s.db k = some v → keyOfTile (keyToTile k) = .ok k ∧ recordsOf es (keyToTile k) ≠ []) ∧
    (∃ rs, Contig 0 rs s.file.size ∧ ∀ k v, s.db k = some v → ∃ r ∈ rs, v = packRecordsSerialize [r]) := by
  obtain ⟨tasks, ht, hg⟩ := packTasks_index hx
  have hl : Layout pf (tasks.flatMap (·.records)) := by rw [hg.flat]; exact hx.layout
  obtain ⟨_, h2⟩ := packDb_reach hx ht hg hf h
  rw [hr] at h2
  dsimp only at h2
  obtain ⟨h2, h3⟩ := h2
  obtain ⟨a1, a2, a3⟩ := C15_final hl hf h2 hd
  rw [grouped_tilesOf hg] at a1
  have hfile : s.file = r0.pf := by rw [PackDb.file, hr]
  refine ⟨?_, ?_, r0.table.map (·.2), hfile ▸ a2, ?_⟩
  · intro tile hne
    have hm : tile ∈ tasks.map (·.tile) := by
      rw [hg.tiles]
      unfold recordsOf at hne
      have : es.filter (fun e => decide (keyToTile e.1 = tile)) ≠ [] := fun h0 => hne (by rw [h0]; rfl)
      obtain ⟨e, he⟩ := List.exists_mem_of_ne_nil _ this
      rw [List.mem_filter] at he
      exact ⟨e, he.1, by simpa using he.2⟩
    obtain ⟨o, ho, ho1⟩ := List.mem_map.1 (a1.mem_iff.2 hm)
    obtain ⟨packs, hp, hget⟩ := a3 o ho
    subst ho1
    have hk := (tiles_nodup hx hg hf h2).2 o (List.mem_append.2 (.inl ho))
    obtain ⟨k, hk, _⟩ := keyOfTile_ok hk
    exact ⟨k, o.2, packs, hk, (h3 k _).2 ⟨o, ho, hk, rfl⟩, grouped_input hg hp, hfile ▸ hget⟩
  · intro k v hv
    obtain ⟨o, ho, hk, _⟩ := (h3 k v).1 hv
    have hfit := (tiles_nodup hx hg hf h2).2 o (List.mem_append.2 (.inl ho))
    have hkt : keyToTile k = o.1 := by
      obtain ⟨k', e1, e2⟩ := keyOfTile_ok hfit
      rw [hk] at e1; injection e1 with e1; subst e1
      obtain ⟨a, b, c⟩ := hfit
      rw [keyToTile_nat, e2]
      generalize o.1 = t at a b c ⊢
      obtain ⟨x, y, z⟩ := t
      simp only [keyNat, Tile.mk.injEq] at *
      omega
    rw [hkt]
    refine ⟨hk, ?_⟩
    obtain ⟨t, ht1, ht2⟩ := List.mem_map.1 (a1.mem_iff.1 (List.mem_map.2 ⟨o, ho, rfl⟩))
    have := hg.recs t ht1
    rw [← ht2, ← this.1]
    exact this.2
  · intro k v hv
    obtain ⟨o, ho, _, hv⟩ := (h3 k v).1 hv
    exact ⟨o.2, List.mem_map.2 ⟨o, ho, rfl⟩, hv⟩

/-- No step is undefined behaviour; the only exceptions are those of the defragmentation and of the last check. -/
theorem C44_steps (hx : Index pf es) (hf : ∀ tile packs, f tile packs ≠ []) {s : PackDb}
    (h : PackReach f mem batch (stored es) (packDbInit (stored es) pf) s) {c : RepackChoice} {r : Res PackDb}
    (hr : packDbStep f mem batch (stored es) c s = some r) :
    (∃ s', r = .ok s') ∨ (r = .throw_ ∧ ∃ r0, s.run = some r0 ∧ ((r0.pc = .defrag ∧ ¬ Roomy pf r0.pending) ∨ (r0.pc = .check ∧ r0.inflight ≠ []))) := by
  obtain ⟨tasks, ht, hg⟩ := packTasks_index hx
  rcases packDb_step hx ht hg hf (packDb_reach hx ht hg hf h) hr with ⟨s', h1, _⟩ | h1
  · exact .inl ⟨s', h1⟩
  · exact .inr h1

/-! ### what does not hold -/

/-- If the defragmentation throws, the index is empty: all tiles are lost. -/
theorem C44_throw_loses_all (hx : Index pf es) (hf : ∀ tile packs, f tile packs ≠ []) {s : PackDb}
    (h : PackReach f mem batch (stored es) (packDbInit (stored es) pf) s) {r0 : Repack} (hr : s.run = some r0) (hd : r0.pc = .defrag) (k : UInt64) :
    s.db k = none := by
  obtain ⟨tasks, ht, hg⟩ := packTasks_index hx
  have hl : Layout pf (tasks.flatMap (·.records)) := by rw [hg.flat]; exact hx.layout
  obtain ⟨_, h2⟩ := packDb_reach hx ht hg hf h
  rw [hr] at h2
  dsimp only at h2
  obtain ⟨h2, h3⟩ := h2
  have hgeo := (rinv_reach hl hf h2).geo
  rw [RGeo, hd] at hgeo
  dsimp only at hgeo
  cases hdb : s.db k with
  | none => rfl
  | some v =>
    obtain ⟨o, ho, _⟩ := (h3 k v).1 hdb
    have : r0.table = [] := by
      first
        | exact hgeo.1
        | exact hgeo.2.1
        | exact hgeo.2.2.1
        | exact hgeo.2.2.2.1
    rw [this] at ho
    cases ho

/-! ### runs that end -/

/-- the two places after the last loop are entered from there only -/
theorem repackStep_late {c : RepackChoice} {s s' : Repack} (hs : repackStep f mem batch c s = some (.ok s')) (hl : s'.pc = .flushLast ∨ s'.pc = .check) :
    (s.pc = .drain ∧ c = .quit ∨ s.pc = .flushLast) ∧ s'.inflight = s.inflight := by
  rw [repackStep.eq_def] at hs
  split at hs
  · split at hs
    · injection hs with hs
      rw [Res.bind_eq_ok] at hs
      obtain ⟨_, _, hs⟩ := hs
      injection hs with hs; subst hs; simp [Repack.goto] at hl
    · injection hs with hs; injection hs with hs; subst hs; simp [Repack.goto] at hl
  · split at hs
    · cases hs
    · injection hs with hs
      rw [Res.bind_eq_ok] at hs
      obtain ⟨_, _, hs⟩ := hs
      injection hs with hs; subst hs; simp at hl
  · split at hs <;> (injection hs with hs; injection hs with hs; subst hs; simp [Repack.goto] at hl)
  · split at hs
    · injection hs with hs; injection hs with hs; subst hs; simp [Repack.goto] at hl
    · cases hs
  · injection hs with hs; injection hs with hs; subst hs; simp [Repack.goto] at hl
  · split at hs
    · cases hs
    · injection hs with hs; injection hs with hs; subst hs; simp [Repack.goto] at hl
  · split at hs
    · cases hs
    · split at hs
      · cases hs
      · injection hs with hs
        rw [Res.bind_eq_ok] at hs
        obtain ⟨_, _, hs⟩ := hs
        injection hs with hs; subst hs; simp [Repack.goto] at hl
  · injection hs with hs; injection hs with hs; subst hs; simp [Repack.goto] at hl
  · split at hs
    · injection hs with hs
      rw [Res.bind_eq_ok] at hs
      obtain ⟨_, _, hs⟩ := hs
      injection hs with hs; subst hs; simp [Repack.goto] at hl
    · injection hs with hs; injection hs with hs; subst hs; simp [Repack.goto] at hl
  · rename_i hpc
    split at hs
    · injection hs with hs
      rw [Res.bind_eq_ok] at hs
      obtain ⟨_, _, hs⟩ := hs
      injection hs with hs; subst hs; simp [Repack.goto] at hl
    · injection hs with hs
      rw [Res.bind_eq_ok] at hs
      obtain ⟨_, _, hs⟩ := hs
      rw [Res.bind_eq_ok] at hs
      obtain ⟨_, _, hs⟩ := hs
      injection hs with hs; subst hs; rw [hpc] at hl; simp at hl
  · injection hs with hs; injection hs with hs; subst hs; simp at hl
  · injection hs with hs; injection hs with hs; subst hs; simp [Repack.goto] at hl
  · rename_i hpc
    injection hs with hs; injection hs with hs; subst hs
    exact ⟨.inl ⟨hpc, rfl⟩, rfl⟩
  · rename_i hpc
    injection hs with hs; injection hs with hs; subst hs; rw [hpc] at hl; simp at hl
  · rename_i hpc
    split at hs
    · cases hs
    · rename_i hd
      injection hs with hs; subst hs
      rw [(dequeue_shape hd).1, hpc] at hl; simp at hl
  · rename_i hpc
    injection hs with hs; injection hs with hs; subst hs
    exact ⟨.inr hpc, rfl⟩
  · injection hs with hs
    rw [Res.bind_eq_ok] at hs
    obtain ⟨_, _, hs⟩ := hs
    rw [Res.bind_eq_ok] at hs
    obtain ⟨_, _, hs⟩ := hs
    injection hs with hs; subst hs; simp [Repack.goto] at hl
  · cases hs

theorem packReach_trans {entries : List (UInt64 × Bytes)} {a b c : PackDb} (h1 : PackReach f mem batch entries a b) (h2 : PackReach f mem batch entries b c) :
    PackReach f mem batch entries a c := by
  induction h2 with
  | init => exact h1
  | step c _ hs ih => exact .step c ih hs

/-- If all packs together and the largest one once more are at most twice the memory bound, then from every point of a run at which the last
loop was not left too early the run can go on to its end; each step except for waiting in the last loop brings it closer (`C15_progress`).
Then all tiles are there (`C44_done_partial`). -/
theorem C44_ends (hx : Index pf es) (hf : ∀ tile packs, f tile packs ≠ []) (hb : 0 < batch) (hne : 0 < pf.size)
    (hsmall : ∀ r ∈ es.flatMap (·.2), usedBytes (es.flatMap (·.2)) + r.size ≤ 2 * mem) {s : PackDb}
    (h : PackReach f mem batch (stored es) (packDbInit (stored es) pf) s)
    (hq : ∀ r0, s.run = some r0 → r0.pc = .flushLast ∨ r0.pc = .check → r0.inflight = []) :
    ∃ s' r0, PackReach f mem batch (stored es) s s' ∧ s'.run = some r0 ∧ r0.pc = .done := by
  obtain ⟨tasks, ht, hg⟩ := packTasks_index hx
  have hl : Layout pf (tasks.flatMap (·.records)) := by rw [hg.flat]; exact hx.layout
  have hsmall' : ∀ r ∈ tasks.flatMap (·.records), usedBytes (tasks.flatMap (·.records)) + r.size ≤ 2 * mem := by rw [hg.flat]; exact hsmall
  -- once the rewriting has begun
  have main : ∀ n (s : PackDb) (r : Repack), PackReach f mem batch (stored es) (packDbInit (stored es) pf) s → s.run = some r → r.weight batch < n →
      (r.pc = .flushLast ∨ r.pc = .check → r.inflight = []) →
      ∃ s' r0, PackReach f mem batch (stored es) s s' ∧ s'.run = some r0 ∧ r0.pc = .done := by
    intro n
    induction n with
    | zero => intro s r _ _ h; cases h
    | succ n ih =>
      intro s r hs hr hw hq
      by_cases hd : r.pc = .done
      · exact ⟨s, r, .init, hr, hd⟩
      have hp := packDb_reach hx ht hg hf hs
      have hrr : RepackReach f mem batch (repackInit pf tasks) r := by
        have := hp.2; rw [hr] at this; exact this.1
      obtain ⟨p1, p2⟩ := C15_progress hb hl hf hrr
      obtain ⟨c, r', c1, c2, c3⟩ := p1 hd
      obtain ⟨r1, hr1⟩ : ∃ r1, r' = .ok r1 := by
        rcases C15_small hb hl hf hne hsmall' hrr c3 with h | ⟨_, h1, h2⟩
        · exact h
        · exact absurd (hq (.inr h1)) h2
      subst hr1
      have hstep : ∃ d, packDbStep f mem batch (stored es) c s = some d := by rw [packDbStep, hr]; dsimp only; rw [c3]; exact ⟨_, rfl⟩
      obtain ⟨d, hstep⟩ := hstep
      rcases packDb_step hx ht hg hf hp hstep with ⟨s1, h1, _⟩ | ⟨_, r0, h1, h2⟩
      · subst h1
        have hrun : s1.run = some r1 := by
          rw [packDbStep, hr] at hstep
          dsimp only at hstep
          rw [c3] at hstep
          injection hstep with hstep
          split at hstep <;>
          · rw [Res.bind_eq_ok] at hstep
            obtain ⟨_, _, hstep⟩ := hstep
            rw [Res.ok_bind] at hstep
            injection hstep with hstep
            rw [← hstep]
        have hless : r1.weight batch < r.weight batch := by
          rcases p2 c r1 c3 with ⟨h1, h2⟩ | h1
          · exfalso
            rw [repackStep.eq_def, h2] at c3
            cases c with
            | go => cases c3
            | timeout => exact c1 rfl
            | quit => injection c3 with c3; injection c3 with c3; rw [h1] at c3; have := congrArg Repack.pc c3; rw [h2] at this; cases this
            | steps => cases c3
            | result i =>
              dsimp only at c3
              cases hdq : r.dequeue f i with
              | none => rw [hdq] at c3; cases c3
              | some o =>
                rw [hdq] at c3
                injection c3 with c3
                subst c3
                have := (dequeue_shape hdq).2.2.1
                rw [h1] at this
                omega
          · exact h1
        have hq1 : r1.pc = .flushLast ∨ r1.pc = .check → r1.inflight = [] := by
          intro h1
          obtain ⟨h2, h3⟩ := repackStep_late c3 h1
          rw [h3]
          rcases h2 with ⟨h2, h4⟩ | h2
          · by_contra hc
            exact c2 hc h2 h4
          · exact hq (.inl h2)
        obtain ⟨s', r0, e1, e2, e3⟩ := ih s1 r1 (.step c hs hstep) hrun (by omega) hq1
        exact ⟨s', r0, packReach_trans (.step c .init hstep) e1, e2, e3⟩
      · exfalso
        rw [hr] at h1; injection h1 with h1; subst h1
        rcases C15_small hb hl hf hne hsmall' hrr c3 with h | ⟨h3, _⟩
        · rename_i h4
          rcases packDb_step hx ht hg hf hp hstep with ⟨s1, h5, _⟩ | ⟨h5, _⟩
          · rw [h4] at h5; cases h5
          · rw [packDbStep, hr] at hstep
            dsimp only at hstep
            rw [c3] at hstep
            injection hstep with hstep
            have hnf : ¬ (r.pc = .flush ∨ r.pc = .flushStash ∨ r.pc = .flushLast) := by
              rcases h2 with ⟨h2, _⟩ | ⟨h2, _⟩ <;> rw [h2] <;> simp
            rw [if_neg hnf, Res.ok_bind, Res.ok_bind, h5] at hstep
            cases hstep
        · cases h3
  cases hrun : s.run with
  | some r => exact main _ s r h hrun (Nat.lt_succ_self _) (hq r hrun)
  | none =>
    have hstep : packDbStep f mem batch (stored es) .go s = some (.ok { s with db := fun _ => none, run := some (repackInit s.pf tasks) }) := by
      rw [packDbStep, hrun]; dsimp only; rw [ht, Res.ok_bind]; rfl
    obtain ⟨s', r0, e1, e2, e3⟩ := main _ _ _ (.step .go h hstep) rfl (Nat.lt_succ_self _) (by
      intro h; rcases h with h | h <;> simp [repackInit] at h)
    exact ⟨s', r0, packReach_trans (.step .go .init hstep) e1, e2, e3⟩

end

/-- a run with given choices -/
def packChoices (f : Tile → List Bytes → Bytes) (mem batch : Nat) (entries : List (UInt64 × Bytes)) : List RepackChoice → PackDb → Option PackDb
  | [], s => some s
  | c :: cs, s => match packDbStep f mem batch entries c s with
    | some (.ok s') => packChoices f mem batch entries cs s'
    | _ => none

theorem packChoices_reach {f : Tile → List Bytes → Bytes} {mem batch : Nat} {entries : List (UInt64 × Bytes)} {s0 : PackDb} : ∀ (cs : List RepackChoice)
    {s s' : PackDb}, PackReach f mem batch entries s0 s → packChoices f mem batch entries cs s = some s' → PackReach f mem batch entries s0 s' := by
  intro cs
  induction cs with
  | nil => intro s s' h h'; injection h' with h'; exact h' ▸ h
  | cons c cs ih =>
    intro s s' h h'
    rw [packChoices] at h'
    split at h'
    · rename_i h1; exact ih (.step c h h1) h'
    · cases h'

/-- two tiles of zoom level 10, one pack of `n` bytes each -/
def C44_entries (n : Nat) : List (UInt64 × List PackRecord) := [(5764607523034234880, [⟨0, n⟩]), (5764607523034365952, [⟨n, n⟩])]

theorem C44_index {n : Nat} (hn : 0 < n) (h : n < 2 ^ 62) : Index (zeroFile (2 * n)) (C44_entries n) := by
  refine ⟨?_, ?_, ⟨?_, ?_, ?_⟩, ?_⟩
  · simp [DbSorted, C44_entries]
  · simp [C44_entries]
  · simp [PackFile.WF, zeroFile, zeros]
  · simp [C44_entries, zeroFile, PackRecord.endOffset]; omega
  · simp [C44_entries, PackRecord.endOffset]
  · simp only [zeroFile]; omega

theorem C44_full_refuted : ¬ C44_full := by
  intro h
  have := h C15_fn 3 1 _ _ (C44_index (n := 1) (by decide) (by decide)) (by simp [C15_fn])
    ⟨fun _ => none, zeroFile 2, some (repackInit (zeroFile 2) [⟨⟨0, 0, 10⟩, [⟨0, 1⟩]⟩, ⟨⟨1, 0, 10⟩, [⟨1, 1⟩]⟩])⟩
    (.step .go .init (by rw [packDbStep]; rfl)) ⟨0, 0, 10⟩ (by decide)
  obtain ⟨k, v, rs, _, h2, _⟩ := this
  cases h2

/-- Whatever the memory bound is (1 GiB in the code), two tiles with one pack of that size each are lost: the index is emptied and the
defragmentation throws. -/
theorem C44_two_large_packs_lost (f : Tile → List Bytes → Bytes) (mem batch : Nat) (hm : 0 < mem) (hlt : mem < 2 ^ 62) :
    Index (zeroFile (2 * mem)) (C44_entries mem) ∧ ∃ s, PackReach f mem batch (stored (C44_entries mem)) (packDbInit (stored (C44_entries mem)) (zeroFile (2 * mem))) s ∧
      (∀ k, s.db k = none) ∧ ∀ fuel, packDbStep f mem batch (stored (C44_entries mem)) (.steps fuel) s = some .throw_ := by
  refine ⟨C44_index hm hlt, ?_⟩
  have hx := C44_index hm hlt
  have ht : packTasks (stored (C44_entries mem)) [] = .ok [⟨⟨0, 0, 10⟩, [⟨0, mem⟩]⟩, ⟨⟨1, 0, 10⟩, [⟨mem, mem⟩]⟩] := by
    have h1 := C05_records_round_trip [⟨0, mem⟩] (by simp [PackRecord.Fits]; omega)
    have h2 := C05_records_round_trip [⟨mem, mem⟩] (by simp [PackRecord.Fits]; omega)
    simp only [stored, C44_entries, List.map_cons, List.map_nil, packTasks, h1, h2, Res.ok_bind]
    rfl
  have hr : repackTasks [⟨⟨0, 0, 10⟩, [⟨0, mem⟩]⟩, ⟨⟨1, 0, 10⟩, [⟨mem, mem⟩]⟩] =
      [⟨⟨1, 0, 10⟩, [⟨mem, mem⟩]⟩, ⟨⟨0, 0, 10⟩, [⟨0, mem⟩]⟩] := by
    simp only [repackTasks]
    simp [sortBy, sortInsert, TileRecord.backOffset]
    omega
  have hget : (zeroFile (2 * mem)).get ⟨0, mem⟩ = .ok (bytesOf (zeroFile (2 * mem)) ⟨0, mem⟩) :=
    layout_get hx.layout (by simp [C44_entries])
  refine ⟨⟨fun _ => none, zeroFile (2 * mem), some ⟨zeroFile (2 * mem), [⟨⟨1, 0, 10⟩, [⟨mem, mem⟩]⟩], [(⟨0, 0, 10⟩, [bytesOf (zeroFile (2 * mem)) ⟨0, mem⟩])], [], 0, [], [], .defrag⟩⟩,
    ?_, fun _ => rfl, ?_⟩
  · have s1 : PackReach f mem batch (stored (C44_entries mem)) (packDbInit (stored (C44_entries mem)) (zeroFile (2 * mem)))
        ⟨fun _ => none, zeroFile (2 * mem), some ⟨zeroFile (2 * mem), [⟨⟨1, 0, 10⟩, [⟨mem, mem⟩]⟩, ⟨⟨0, 0, 10⟩, [⟨0, mem⟩]⟩], [], [], 0, [], [], .fill 0⟩⟩ := by
      refine .step .go .init ?_
      rw [packDbStep]
      simp only [packDbInit, ht, Res.ok_bind, repackInit, hr]
      rfl
    have s2 := PackReach.step (s' := ⟨fun _ => none, zeroFile (2 * mem), some ⟨zeroFile (2 * mem), [⟨⟨1, 0, 10⟩, [⟨mem, mem⟩]⟩],
        [(⟨0, 0, 10⟩, [bytesOf (zeroFile (2 * mem)) ⟨0, mem⟩])], [], 0, [], [], .fill mem⟩⟩) .go s1 (by
      simp only [packDbStep, repackStep]
      rw [if_pos ⟨by simp, hm⟩]
      simp [Repack.enqueue, readTask, hget, verify, Repack.goto])
    exact PackReach.step .go s2 (by
      simp only [packDbStep, repackStep]
      rw [if_neg (by simp)]
      simp [Repack.goto])
  · intro fuel
    have : defragmentPackFile fuel (zeroFile (2 * mem)) [⟨⟨1, 0, 10⟩, [⟨mem, mem⟩]⟩] = some .throw_ := by
      have : defragInit (zeroFile (2 * mem)) [⟨⟨1, 0, 10⟩, [⟨mem, mem⟩]⟩] = .throw_ := by
        simp only [defragInit, List.flatMap_cons, List.flatMap_nil, List.append_nil, List.map_cons, List.map_nil, List.sum_cons, List.sum_nil, Nat.add_zero,
          List.foldl_cons, List.foldl_nil, zeroFile]
        rw [show decide (mem ≤ 2 * mem) = true by simp; omega, verify_true, Res.ok_bind]
        rw [show decide (max 0 mem < 2 * mem - mem) = false by simp; omega, verify_false, Res.throw_bind]
      rw [defragmentPackFile, this]
    simp only [packDbStep, repackStep, this]
    rfl

/-! ### a run -/

/-- the packs of Props/C15 as an index: the first tile has two entries -/
def C44_es : List (UInt64 × List PackRecord) :=
  [(5764607523034234880, [⟨6, 3⟩]), (5764607523034234885, [⟨0, 1⟩]), (5764607523034365952, [⟨10, 1⟩]), (5764607797912141824, [⟨12, 1⟩, ⟨2, 2⟩])]

example : Index C15_file C44_es := by
  refine ⟨?_, ?_, layoutB_ok (by decide +kernel), by decide⟩
  · simp only [DbSorted, C44_es, List.pairwise_cons]; decide
  · simp [C44_es]

example : (match packChoices C15_fn 3 1 (stored C44_es) (.go :: C15_choices) (packDbInit (stored C44_es) C15_file) with
    | some s => (s.run.map (·.pc)) == some .done && s.db (5764607523034234880) == some (packRecordsSerialize [⟨0, 12⟩]) &&
        s.db (5764607523034234885) == none && s.db (5764607523034365952) == some (packRecordsSerialize [⟨12, 9⟩]) &&
        s.file.get ⟨0, 12⟩ == .ok [3, 3, 3, 1, 7, 7, 7, 7, 7, 7, 7, 7]
    | none => false) = true := by decide +kernel

/-- the hypotheses of `C44_ends` are met -/
example : ∃ s' r0, PackReach C15_fn 2 1 (stored (C44_entries 1)) (packDbInit (stored (C44_entries 1)) (zeroFile 2)) s' ∧ s'.run = some r0 ∧ r0.pc = .done :=
  C44_ends (C44_index (n := 1) (by decide) (by decide)) (by simp [C15_fn]) (by decide) (by decide) (by
    intro r hr
    simp only [C44_entries, List.flatMap_cons, List.flatMap_nil, List.append_nil, List.cons_append, List.nil_append, List.mem_cons, List.not_mem_nil, or_false] at hr
    rcases hr with rfl | rfl <;> decide) .init (by intro r0 h; cases h)

end Tiles
