import Verif.Proof.Repack
/-!
C15: while the pack file is rewritten, no pending pack and no result is overwritten, whatever the results are and in whatever order they
arrive; at the end the file holds the results without gaps.

The machine is `repackStep`: the main thread of `repack_features`, with the arrival of the results decided by the environment.
-/
namespace Tiles

namespace Spec

/-- the packs of the tile, read from the file at the start, highest offset first -/
def TaskInput (pf : PackFile) (tasks : List TileRecord) (tile : Tile) (packs : List Bytes) : Prop :=
  ∃ t ∈ tasks, t.tile = tile ∧ ∃ rs : List PackRecord, rs.Perm t.records ∧ rs ≠ [] ∧ rs.Pairwise (fun a b => b.offset ≤ a.offset) ∧
    List.Forall₂ (fun r b => pf.get r = .ok b) rs packs

/-- the tiles that have packs -/
def tilesOf (tasks : List TileRecord) : List Tile := (tasks.filter (fun t => !t.records.isEmpty)).map (·.tile)

end Spec

open Spec

/-! ### the start -/

theorem repackTasks_mem {tasks : List TileRecord} {t0 : TileRecord} (h : t0 ∈ repackTasks tasks) : ∃ t ∈ tasks, t.tile = t0.tile ∧
    t0.records.Perm t.records ∧ t0.records ≠ [] ∧ t0.records.Pairwise (fun a b => b.offset ≤ a.offset) := by
  rw [repackTasks] at h
  have h := (sortBy_perm _ _).mem_iff.1 h
  obtain ⟨t, ht, rfl⟩ := List.mem_map.1 h
  rw [List.mem_filter] at ht
  have hp := sortBy_perm (fun a b : PackRecord => decide (b.offset ≤ a.offset)) t.records
  refine ⟨t, ht.1, rfl, hp, ?_, ?_⟩
  · intro hc
    have := hp.length_eq
    rw [show sortBy (fun a b : PackRecord => decide (b.offset ≤ a.offset)) t.records = [] from hc] at this
    have h2 := ht.2
    cases hr : t.records with
    | nil => rw [hr] at h2; cases h2
    | cons => rw [hr] at this; simp at this
  · have := sortBy_sorted (le := fun a b : PackRecord => decide (b.offset ≤ a.offset)) (by
      intro a b c h1 h2; simp only [decide_eq_true_eq] at *; omega) (by
      intro a b; simp only [decide_eq_true_eq]; omega) t.records
    exact this.imp (fun h => by simpa using h)

theorem flatMap_perm_map {α : Type} (g : α → α) (rec : α → List PackRecord) (h : ∀ a, (rec (g a)).Perm (rec a)) : ∀ l : List α,
    ((l.map g).flatMap rec).Perm (l.flatMap rec) := by
  intro l
  induction l with
  | nil => exact .nil
  | cons a l ih =>
    rw [List.map_cons, List.flatMap_cons, List.flatMap_cons]
    exact (h a).append ih

theorem repackTasks_perm (tasks : List TileRecord) : ((repackTasks tasks).flatMap (·.records)).Perm (tasks.flatMap (·.records)) := by
  rw [repackTasks]
  refine ((sortBy_perm _ _).flatMap_right _).trans ?_
  refine (flatMap_perm_map (fun t : TileRecord => { t with records := sortBy (fun a b => decide (b.offset ≤ a.offset)) t.records }) (·.records)
    (fun t => sortBy_perm _ _) _).trans ?_
  induction tasks with
  | nil => exact .nil
  | cons t ts ih =>
    rw [List.filter_cons]
    cases hr : t.records with
    | nil => simpa [hr] using ih
    | cons a l =>
      rw [if_pos (by simp), List.flatMap_cons, List.flatMap_cons]
      exact ih.append_left _

theorem Layout.perm {pf : PackFile} {rs rs' : List PackRecord} (h : Layout pf rs) (hp : rs'.Perm rs) : Layout pf rs' :=
  ⟨h.wf, fun r hr => h.inside r (hp.mem_iff.1 hr), (hp.pairwise_iff (fun {_ _} h => h.symm)).2 h.apart⟩

theorem repackTasks_tiles (tasks : List TileRecord) : ((repackTasks tasks).map (·.tile)).Perm (tilesOf tasks) := by
  rw [repackTasks, tilesOf]
  refine ((sortBy_perm _ _).map _).trans ?_
  rw [List.map_map]
  exact .refl _

theorem rinv_init (f : Tile → List Bytes → Bytes) {pf : PackFile} {tasks : List TileRecord} (hl : Layout pf (tasks.flatMap (·.records))) :
    RInv f pf (repackTasks tasks) (repackInit pf tasks) := by
  have hl' := Layout.perm hl (repackTasks_perm tasks)
  refine ⟨hl.wf, ?_, ⟨[], [], ?_, .nil, .nil⟩, ⟨rfl, rfl, rfl, rfl, rfl, ?_⟩⟩
  · show SameTasks pf pf ((repackTasks tasks).take (repackTasks tasks).length) (repackTasks tasks)
    rw [List.take_length]
    have : ∀ ts : List TileRecord, (∀ r ∈ ts.flatMap (·.records), pf.get r = .ok (bytesOf pf r)) → SameTasks pf pf ts ts := by
      intro ts
      induction ts with
      | nil => intro _; exact .nil
      | cons t ts ih =>
        intro h
        rw [List.flatMap_cons] at h
        refine .cons ⟨rfl, ?_⟩ (ih (fun r hr => h r (List.mem_append.2 (.inr hr))))
        rw [List.forall₂_same]
        intro r hr
        have := h r (List.mem_append.2 (.inl hr))
        exact ⟨_, this, this, rfl⟩
    exact this _ (fun r hr => layout_get hl' hr)
  · show ([] ++ ([] ++ [])).Perm (((repackTasks tasks).drop (repackTasks tasks).length).map (origOf pf))
    rw [List.drop_length]; exact .nil
  · show repackTasks tasks = (repackTasks tasks).take (repackTasks tasks).length
    rw [List.take_length]

theorem rinv_reach {f : Tile → List Bytes → Bytes} {mem batch : Nat} {pf : PackFile} {tasks : List TileRecord} (hl : Layout pf (tasks.flatMap (·.records)))
    (hf : ∀ tile packs, f tile packs ≠ []) {s : Repack} (h : RepackReach f mem batch (repackInit pf tasks) s) : RInv f pf (repackTasks tasks) s := by
  induction h with
  | init => exact rinv_init f hl
  | step c _ hs ih =>
    rcases ih.step (Layout.perm hl (repackTasks_perm tasks)) (fun t ht => (repackTasks_mem ht).choose_spec.2.2.2.1) hf hs with ⟨s', h1, h2⟩ | ⟨h1, _⟩
    · injection h1 with h1; rw [h1]; exact h2
    · cases h1

theorem input_of {pf : PackFile} {tasks : List TileRecord} (hl : Layout pf (tasks.flatMap (·.records))) {t0 : TileRecord} (h : t0 ∈ repackTasks tasks) :
    TaskInput pf tasks t0.tile (t0.records.map (bytesOf pf)) := by
  obtain ⟨t, h1, h2, h3, h4, h5⟩ := repackTasks_mem h
  refine ⟨t, h1, h2, t0.records, h3, h4, h5, ?_⟩
  rw [List.forall₂_map_right_iff, List.forall₂_same]
  intro r hr
  exact layout_get (Layout.perm hl (repackTasks_perm tasks)) (List.mem_flatMap.2 ⟨t0, h, hr⟩)

/-! ### the theorems -/

section
variable {f : Tile → List Bytes → Bytes} {mem batch : Nat} {pf : PackFile} {tasks : List TileRecord}

/-- At every point: the packs of the pending tasks are unchanged, the work under way is on the packs as they were at the start, and each
result written so far is where its record says; every tile is in exactly one of these places. -/
theorem C15_safe (hl : Layout pf (tasks.flatMap (·.records))) (hf : ∀ tile packs, f tile packs ≠ []) {s : Repack}
    (h : RepackReach f mem batch (repackInit pf tasks) s) :
    (∀ t ∈ s.tasks, ∃ packs, TaskInput pf tasks t.tile packs ∧ List.Forall₂ (fun r b => s.pf.get r = .ok b) t.records packs) ∧
    (∀ d ∈ s.inflight, TaskInput pf tasks d.1 d.2) ∧
    (∀ o ∈ s.table ++ s.updates ++ s.stash, ∃ packs, TaskInput pf tasks o.1 packs ∧ s.pf.get o.2 = .ok (f o.1 packs)) ∧
    (s.tasks.map (·.tile) ++ s.inflight.map (·.1) ++ (s.table ++ s.updates ++ s.stash).map (·.1)).Perm (tilesOf tasks) := by
  have hi := rinv_reach hl hf h
  obtain ⟨doneU, doneS, a1, a2, a3⟩ := hi.done
  have hin : ∀ d, d ∈ s.inflight ∨ d ∈ doneU ∨ d ∈ doneS → TaskInput pf tasks d.1 d.2 := by
    intro d hd
    have : d ∈ ((repackTasks tasks).drop s.tasks.length).map (origOf pf) := by
      rw [← a1.mem_iff, List.mem_append, List.mem_append]; exact hd
    obtain ⟨t0, ht0, rfl⟩ := List.mem_map.1 this
    exact input_of hl (List.mem_of_mem_drop ht0)
  have hw : List.Forall₂ (Written f s.pf) (doneU ++ doneS) (s.table ++ s.updates ++ s.stash) := List.rel_append a2 a3
  refine ⟨?_, fun d hd => hin d (.inl hd), ?_, ?_⟩
  · intro t ht
    have hp := List.forall₂_iff_get.1 hi.pend
    obtain ⟨k, hk, rfl⟩ := List.mem_iff_getElem.1 ht
    have hk' : k < ((repackTasks tasks).take s.tasks.length).length := by rw [hp.1]; exact hk
    have h1 := hp.2 k hk' hk
    have ht0 := List.mem_of_mem_take (List.getElem_mem hk')
    refine ⟨(((repackTasks tasks).take s.tasks.length)[k]).records.map (bytesOf pf), ?_, ?_⟩
    · have := input_of hl ht0
      rw [show s.tasks[k].tile = _ from h1.1]
      exact this
    · have h2 := h1.2
      simp only [List.get_eq_getElem] at h2
      rw [List.forall₂_map_right_iff]
      refine h2.flip.imp ?_
      rintro r' r ⟨bs, b1, b2, _⟩
      rw [b2, bytesOf, ((PackFile.get_eq_ok_iff ..).1 b1).2.2]
  · intro o ho
    obtain ⟨k, hk, rfl⟩ := List.mem_iff_getElem.1 ho
    have hfa := List.forall₂_iff_get.1 hw
    have hk' : k < (doneU ++ doneS).length := by rw [hfa.1]; exact hk
    have h1 := hfa.2 k hk' hk
    simp only [List.get_eq_getElem] at h1
    refine ⟨(doneU ++ doneS)[k].2, ?_, ?_⟩
    · rw [h1.tile]
      refine hin _ (.inr (List.mem_append.1 (List.getElem_mem hk')))
    · rw [h1.tile]; exact h1.bytes
  · have ht : s.tasks.map (·.tile) = ((repackTasks tasks).take s.tasks.length).map (·.tile) := by
      have hp := hi.pend
      generalize (repackTasks tasks).take s.tasks.length = T at hp
      generalize s.tasks = ts at hp
      induction hp with
      | nil => rfl
      | cons a _ ih => rw [List.map_cons, List.map_cons, ih, a.1]
    have ho : (s.table ++ s.updates ++ s.stash).map (·.1) = (doneU ++ doneS).map (·.1) := by
      generalize s.table ++ s.updates ++ s.stash = os at hw
      generalize doneU ++ doneS = ds at hw
      induction hw with
      | nil => rfl
      | cons a _ ih => rw [List.map_cons, List.map_cons, ih, a.tile]
    have h2 := a1.map (·.1)
    rw [List.map_append, List.map_map] at h2
    refine List.Perm.trans ?_ (repackTasks_tiles tasks)
    rw [ht, ho, List.append_assoc]
    refine (h2.append_left _).trans ?_
    rw [show ((fun d : Tile × List Bytes => d.1) ∘ origOf pf) = (·.tile) from rfl, ← List.map_append, List.take_append_drop]

/-- No step is undefined behaviour.  Only the defragmentation can throw, when there is not enough space, and the last check, when the loop
at line 335 stopped with results left. -/
theorem C15_steps (hl : Layout pf (tasks.flatMap (·.records))) (hf : ∀ tile packs, f tile packs ≠ []) {s : Repack}
    (h : RepackReach f mem batch (repackInit pf tasks) s) {c : RepackChoice} {r : Res Repack} (hr : repackStep f mem batch c s = some r) :
    (∃ s', r = .ok s') ∨ (r = .throw_ ∧ ((s.pc = .defrag ∧ ¬ Roomy pf s.pending) ∨ (s.pc = .check ∧ s.inflight ≠ []))) := by
  have hi := rinv_reach hl hf h
  rcases hi.step (Layout.perm hl (repackTasks_perm tasks)) (fun t ht => (repackTasks_mem ht).choose_spec.2.2.2.1) hf hr with ⟨s', h1, _⟩ | h1
  · exact .inl ⟨s', h1⟩
  · exact .inr h1

/-- At the end the callback has received exactly one record for each tile; the records fill the file from the start to its end without gaps
or overlaps, and each holds the result of its tile. -/
theorem C15_final (hl : Layout pf (tasks.flatMap (·.records))) (hf : ∀ tile packs, f tile packs ≠ []) {s : Repack}
    (h : RepackReach f mem batch (repackInit pf tasks) s) (hd : s.pc = .done) :
    (s.table.map (·.1)).Perm (tilesOf tasks) ∧ Contig 0 (s.table.map (·.2)) s.pf.size ∧
    (∀ o ∈ s.table, ∃ packs, TaskInput pf tasks o.1 packs ∧ s.pf.get o.2 = .ok (f o.1 packs)) := by
  have hi := (rinv_reach hl hf h).geo
  obtain ⟨_, _, h3, h4⟩ := C15_safe hl hf h
  rw [RGeo, hd] at hi
  dsimp only at hi
  obtain ⟨g1, g2, g3, g4, g5⟩ := hi
  rw [Repack.front, g3, List.append_nil] at g5
  rw [g1, g2, g3, g4] at h4
  rw [g2, g3] at h3
  refine ⟨by simpa using h4, g5, ?_⟩
  intro o ho
  exact h3 o (by simpa using ho)

end

/-! ### enough space -/

theorem layout_used {pf : PackFile} {rs : List PackRecord} (h : Layout pf rs) : usedBytes rs ≤ pf.size := by
  have hp := sortBy_perm PackRecord.le rs
  have hs := sortBy_sorted (le := PackRecord.le) PackRecord.le_trans' PackRecord.le_total' rs
  have h' := Layout.perm h hp
  have hu : usedBytes rs = usedBytes (sortBy PackRecord.le rs) := by
    unfold usedBytes; exact ((hp.map _).sum_nat).symm
  rw [hu]
  generalize sortBy PackRecord.le rs = l at h' hs
  have : ∀ (l : List PackRecord) (a : Nat), (∀ r ∈ l, a ≤ r.offset ∧ 0 < r.size ∧ r.endOffset ≤ pf.size) → a ≤ pf.size →
      l.Pairwise (fun a b => PackRecord.le a b = true) → l.Pairwise (fun a b => a.endOffset ≤ b.offset ∨ b.endOffset ≤ a.offset) → a + usedBytes l ≤ pf.size := by
    intro l
    induction l with
    | nil => intro a _ ha _ _; simpa [usedBytes] using ha
    | cons r l ih =>
      intro a h1 _ h2 h3
      rw [List.pairwise_cons] at h2 h3
      have hr := h1 r (by simp)
      have := ih r.endOffset (by
        intro r' hr'
        have h4 := h1 r' (by simp [hr'])
        refine ⟨?_, h4.2⟩
        rcases h3.1 r' hr' with h5 | h5
        · exact h5
        · exfalso
          have h6 := h2.1 r' hr'
          simp only [PackRecord.le, Bool.or_eq_true, decide_eq_true_eq, Bool.and_eq_true, beq_iff_eq] at h6
          unfold PackRecord.endOffset at h5
          omega) hr.2.2 h2.2 h3.2
      unfold PackRecord.endOffset at this
      unfold usedBytes at *
      rw [List.map_cons, List.sum_cons]
      omega
  have h0 := this l 0 (fun r hr => ⟨Nat.zero_le _, h'.inside r hr⟩) (Nat.zero_le _) hs h'.apart
  omega

/-- the bytes taken before the defragmentation -/
def FillInv (mem : Nat) (T0 : List TileRecord) (s : Repack) : Prop :=
  match s.pc with
  | .fill n => n + usedBytes s.pending = usedBytes (T0.flatMap (·.records))
  | .defrag => s.tasks = [] ∨ mem + usedBytes s.pending ≤ usedBytes (T0.flatMap (·.records))
  | _ => True

theorem enqueue_bytes {s s1 : Repack} {n : Nat} (h : s.enqueue = .ok (s1, n)) : n + usedBytes s1.pending = usedBytes s.pending := by
  rw [Repack.enqueue, Res.bind_eq_ok] at h
  obtain ⟨_, _, h⟩ := h
  cases hl : s.tasks.getLast? with
  | none => rw [hl] at h; cases h
  | some t =>
    rw [hl] at h
    dsimp only at h
    rw [Res.bind_eq_ok] at h
    obtain ⟨packs, _, h⟩ := h
    injection h with h
    injection h with h1 h2
    subst h1
    subst h2
    obtain ⟨ts, hts⟩ := List.getLast?_eq_some_iff.1 hl
    unfold Repack.pending usedBytes
    dsimp only
    rw [hts, List.dropLast_concat, List.flatMap_append, List.flatMap_singleton, List.map_append, List.sum_append]
    omega

/-- decreases with every step except for waiting -/
def Repack.weight (batch : Nat) (s : Repack) : Nat :=
  (batch + 20) * s.tasks.length + 2 * s.inflight.length + s.stash.length +
  match s.pc with
  | .fill _ => 15 + batch
  | .defrag => 14 + batch
  | .head => if s.tasks = [] then 7 else 12 + batch
  | .results n => 11 + n
  | .flush => 10
  | .take n => if s.tasks = [] then 8 else if n = batch then 9 else 13 + batch
  | .stash => 6
  | .resize => 5
  | .flushStash => 4
  | .drain => 3
  | .flushLast => 2
  | .check => 1
  | .done => 0

theorem insertResult_shape {s s' : Repack} {tile : Tile} {buf : Bytes} (h : s.insertResult tile buf = .ok s') :
    s'.pc = s.pc ∧ s'.tasks = s.tasks ∧ s'.inflight = s.inflight ∧ s'.stash.length ≤ s.stash.length + 1 := by
  rw [Repack.insertResult] at h
  split at h
  · injection h with h; subst h; exact ⟨rfl, rfl, rfl, by simp⟩
  · split at h
    · cases h
    · rw [Res.bind_eq_ok] at h
      obtain ⟨_, _, h⟩ := h
      split at h
      · injection h with h; subst h; exact ⟨rfl, rfl, rfl, by simp⟩
      · injection h with h; subst h; exact ⟨rfl, rfl, rfl, by simp⟩

theorem dequeue_shape {f : Tile → List Bytes → Bytes} {s s' : Repack} {i : Nat} (h : s.dequeue f i = some (.ok s')) :
    s'.pc = s.pc ∧ s'.tasks = s.tasks ∧ s'.inflight.length + 1 = s.inflight.length ∧ s'.stash.length ≤ s.stash.length + 1 := by
  rw [Repack.dequeue] at h
  split at h
  · cases h
  · rename_i tile packs hi
    injection h with h
    obtain ⟨h1, h2, h3, h4⟩ := insertResult_shape h
    refine ⟨h1, h2, ?_, h4⟩
    rw [h3]
    have hlt : i < s.inflight.length := (List.getElem?_eq_some_iff.1 hi).1
    show (s.inflight.eraseIdx i).length + 1 = _
    rw [List.length_eraseIdx_of_lt hlt]
    omega

theorem enqueue_shape {s s1 : Repack} {n : Nat} (h : s.enqueue = .ok (s1, n)) :
    s1.pc = s.pc ∧ s1.tasks.length + 1 = s.tasks.length ∧ s1.inflight.length = s.inflight.length + 1 ∧ s1.stash = s.stash := by
  rw [Repack.enqueue, Res.bind_eq_ok] at h
  obtain ⟨_, _, h⟩ := h
  cases hl : s.tasks.getLast? with
  | none => rw [hl] at h; cases h
  | some t =>
    rw [hl] at h
    dsimp only at h
    rw [Res.bind_eq_ok] at h
    obtain ⟨packs, _, h⟩ := h
    injection h with h
    injection h with h1 h2
    subst h1
    obtain ⟨ts, hts⟩ := List.getLast?_eq_some_iff.1 hl
    refine ⟨rfl, ?_, ?_, rfl⟩
    · show s.tasks.dropLast.length + 1 = _
      rw [hts, List.dropLast_concat]; simp
    · simp

theorem withRecords_length : ∀ (ts : List TileRecord) (rs : List PackRecord), (withRecords ts rs).length = ts.length := by
  intro ts
  induction ts with
  | nil => intro _; rfl
  | cons t ts ih => intro rs; rw [withRecords, List.length_cons, ih, List.length_cons]

theorem defrag_length {fuel : Nat} {pf pf' : PackFile} {tasks tasks' : List TileRecord} (h : defragmentPackFile fuel pf tasks = some (.ok (pf', tasks'))) :
    tasks'.length = tasks.length := by
  rw [defragmentPackFile] at h
  split at h
  · split at h
    · injection h with h; injection h with h; injection h with _ h; rw [← h, withRecords_length]
    all_goals cases h
  all_goals cases h

/-- Every step but waiting for a result reduces the weight. -/
theorem weight_step {f : Tile → List Bytes → Bytes} {mem batch : Nat} (hb : 0 < batch) {T0 : List TileRecord} {s s' : Repack} {c : RepackChoice}
    (hs : repackStep f mem batch c s = some (.ok s')) :
    (s' = s ∧ s.pc = .drain ∨ s'.weight batch < s.weight batch) ∧ (FillInv mem T0 s → FillInv mem T0 s') := by
  rw [repackStep.eq_def] at hs
  split at hs
  · rename_i n hpc
    unfold FillInv Repack.weight
    rw [hpc]
    dsimp only
    split at hs
    · injection hs with hs
      rw [Res.bind_eq_ok] at hs
      obtain ⟨⟨s1, k⟩, h1, hs⟩ := hs
      injection hs with hs
      subst hs
      have := enqueue_bytes h1
      obtain ⟨e1, e2, e3, e4⟩ := enqueue_shape h1
      constructor
      · right
        show (batch + 20) * s1.tasks.length + 2 * s1.inflight.length + s1.stash.length + (15 + batch) < _
        rw [e3, e4, ← e2, show (batch + 20) * (s1.tasks.length + 1) = (batch + 20) * s1.tasks.length + (batch + 20) from Nat.mul_succ ..]
        omega
      · intro ih
        show n + k + usedBytes s1.pending = _
        omega
    · rename_i hc
      injection hs with hs
      injection hs with hs
      subst hs
      constructor
      · right
        show (batch + 20) * s.tasks.length + 2 * s.inflight.length + s.stash.length + (14 + batch) < _
        omega
      · intro ih
        show s.tasks = [] ∨ mem + usedBytes s.pending ≤ _
        by_cases ht : s.tasks = []
        · exact .inl ht
        · right
          have : ¬ n < mem := fun hn => hc ⟨ht, hn⟩
          omega
  · rename_i fuel hpc
    split at hs
    · cases hs
    · rename_i r hd
      injection hs with hs
      rw [Res.bind_eq_ok] at hs
      obtain ⟨⟨pf', tasks'⟩, rfl, hs⟩ := hs
      injection hs with hs
      subst hs
      have hl := defrag_length hd
      refine ⟨.inr ?_, fun _ => trivial⟩
      unfold Repack.weight
      rw [hpc]
      dsimp only
      rw [hl]
      split <;> omega
  · rename_i hpc
    split at hs
    all_goals
      rename_i hc
      injection hs with hs
      injection hs with hs
      subst hs
      refine ⟨.inr ?_, fun _ => trivial⟩
      unfold Repack.weight Repack.goto
      rw [hpc]
      dsimp only
    · rw [if_neg hc]; omega
    · rw [if_pos (by simpa using hc)]; omega
  · rename_i n hpc
    split at hs
    · injection hs with hs
      injection hs with hs
      subst hs
      refine ⟨.inr ?_, fun _ => trivial⟩
      unfold Repack.weight Repack.goto
      rw [hpc]
      dsimp only
      omega
    · cases hs
  · rename_i n hpc
    injection hs with hs
    injection hs with hs
    subst hs
    refine ⟨.inr ?_, fun _ => trivial⟩
    unfold Repack.weight Repack.goto
    rw [hpc]
    dsimp only
    omega
  · rename_i n hpc
    split at hs
    · cases hs
    · injection hs with hs
      injection hs with hs
      subst hs
      refine ⟨.inr ?_, fun _ => trivial⟩
      unfold Repack.weight Repack.goto
      rw [hpc]
      dsimp only
      omega
  · rename_i n i hpc
    split at hs
    · cases hs
    · split at hs
      · cases hs
      · rename_i r hd
        injection hs with hs
        rw [Res.bind_eq_ok] at hs
        obtain ⟨s1, rfl, hs⟩ := hs
        injection hs with hs
        subst hs
        obtain ⟨e1, e2, e3, e4⟩ := dequeue_shape hd
        refine ⟨.inr ?_, fun _ => trivial⟩
        unfold Repack.weight Repack.goto
        rw [hpc]
        dsimp only
        rw [e2]
        omega
  · rename_i hpc
    injection hs with hs
    injection hs with hs
    subst hs
    refine ⟨.inr ?_, fun _ => trivial⟩
    unfold Repack.weight Repack.goto Repack.flushed
    rw [hpc]
    dsimp only
    rw [if_pos rfl]
    split <;> omega
  · rename_i n hpc
    split at hs
    · rename_i hc
      injection hs with hs
      rw [Res.bind_eq_ok] at hs
      obtain ⟨⟨s1, k⟩, h1, hs⟩ := hs
      injection hs with hs
      subst hs
      obtain ⟨e1, e2, e3, e4⟩ := enqueue_shape h1
      refine ⟨.inr ?_, fun _ => trivial⟩
      unfold Repack.weight Repack.goto
      rw [hpc]
      dsimp only
      rw [e3, e4, ← e2, show (batch + 20) * (s1.tasks.length + 1) = (batch + 20) * s1.tasks.length + (batch + 20) from Nat.mul_succ .., if_neg hc.1]
      split <;> split <;> (try split) <;> omega
    · rename_i hc
      injection hs with hs
      injection hs with hs
      subst hs
      refine ⟨.inr ?_, fun _ => trivial⟩
      unfold Repack.weight Repack.goto
      rw [hpc]
      dsimp only
      by_cases ht : s.tasks = []
      · rw [if_pos ht, if_pos ht]; omega
      · have : n = 0 := by
          by_contra hn
          exact hc ⟨ht, by omega⟩
        rw [if_neg ht, if_neg ht, if_neg (by omega)]
        omega
  · rename_i hpc
    split at hs
    · injection hs with hs
      rw [Res.bind_eq_ok] at hs
      obtain ⟨_, _, hs⟩ := hs
      injection hs with hs
      subst hs
      refine ⟨.inr ?_, fun _ => trivial⟩
      unfold Repack.weight Repack.goto
      rw [hpc]
      dsimp only
      omega
    · rename_i tile r rest hst
      injection hs with hs
      rw [Res.bind_eq_ok] at hs
      obtain ⟨_, _, hs⟩ := hs
      rw [Res.bind_eq_ok] at hs
      obtain ⟨⟨pf', r'⟩, _, hs⟩ := hs
      injection hs with hs
      subst hs
      refine ⟨.inr ?_, fun _ => ?_⟩
      · unfold Repack.weight
        rw [hpc, hst]
        dsimp only
        rw [List.length_cons]
        omega
      · unfold FillInv
        rw [hpc]
        trivial
  · rename_i hpc
    injection hs with hs
    injection hs with hs
    subst hs
    refine ⟨.inr ?_, fun _ => trivial⟩
    unfold Repack.weight
    rw [hpc]
    dsimp only
    omega
  · rename_i hpc
    injection hs with hs
    injection hs with hs
    subst hs
    refine ⟨.inr ?_, fun _ => trivial⟩
    unfold Repack.weight Repack.goto Repack.flushed
    rw [hpc]
    dsimp only
    omega
  · rename_i hpc
    injection hs with hs
    injection hs with hs
    subst hs
    refine ⟨.inr ?_, fun _ => trivial⟩
    unfold Repack.weight Repack.goto
    rw [hpc]
    dsimp only
    omega
  · rename_i hpc
    injection hs with hs
    injection hs with hs
    subst hs
    exact ⟨.inl ⟨rfl, hpc⟩, id⟩
  · rename_i i hpc
    split at hs
    · cases hs
    · rename_i r hd
      injection hs with hs
      subst hs
      obtain ⟨e1, e2, e3, e4⟩ := dequeue_shape hd
      refine ⟨.inr ?_, fun _ => ?_⟩
      · unfold Repack.weight
        rw [e1, hpc, e2]
        dsimp only
        omega
      · unfold FillInv
        rw [e1, hpc]
        trivial
  · rename_i hpc
    injection hs with hs
    injection hs with hs
    subst hs
    refine ⟨.inr ?_, fun _ => trivial⟩
    unfold Repack.weight Repack.goto Repack.flushed
    rw [hpc]
    dsimp only
    omega
  · rename_i hpc
    injection hs with hs
    rw [Res.bind_eq_ok] at hs
    obtain ⟨_, _, hs⟩ := hs
    rw [Res.bind_eq_ok] at hs
    obtain ⟨_, _, hs⟩ := hs
    injection hs with hs
    subst hs
    refine ⟨.inr ?_, fun _ => trivial⟩
    unfold Repack.weight Repack.goto
    rw [hpc]
    dsimp only
    omega
  · cases hs

section
variable {f : Tile → List Bytes → Bytes} {mem batch : Nat} {pf : PackFile} {tasks : List TileRecord}

theorem fill_reach (hb : 0 < batch) {s : Repack} (h : RepackReach f mem batch (repackInit pf tasks) s) : FillInv mem (repackTasks tasks) s := by
  induction h with
  | init => exact Nat.zero_add _
  | step c _ hs ih => exact (weight_step hb hs).2 ih

/-- Up to about twice the memory bound (2 GiB of packs) there is always enough space: a run does not throw, except in the last check. -/
theorem C15_small (hb : 0 < batch) (hl : Layout pf (tasks.flatMap (·.records))) (hf : ∀ tile packs, f tile packs ≠ [])
    (hne : 0 < pf.size) (hsmall : ∀ r ∈ tasks.flatMap (·.records), usedBytes (tasks.flatMap (·.records)) + r.size ≤ 2 * mem) {s : Repack}
    (h : RepackReach f mem batch (repackInit pf tasks) s) {c : RepackChoice} {r : Res Repack} (hr : repackStep f mem batch c s = some r) :
    (∃ s', r = .ok s') ∨ (r = .throw_ ∧ s.pc = .check ∧ s.inflight ≠ []) := by
  rcases C15_steps hl hf h hr with h1 | ⟨h1, ⟨h2, h3⟩ | h2⟩
  · exact .inl h1
  · exfalso
    apply h3
    have hfi := fill_reach hb h
    rw [FillInv, h2] at hfi
    dsimp only at hfi
    have hg := (rinv_reach hl hf h).geo
    rw [RGeo, h2] at hg
    dsimp only at hg
    have hsub : s.pending.Sublist ((repackTasks tasks).flatMap (·.records)) := by
      conv_rhs => rw [← List.take_append_drop s.tasks.length (repackTasks tasks)]
      rw [List.flatMap_append, ← hg.2.2.2.2.2]
      exact List.sublist_append_left _ _
    have hp := repackTasks_perm tasks
    have hu : usedBytes ((repackTasks tasks).flatMap (·.records)) = usedBytes (tasks.flatMap (·.records)) := by
      unfold usedBytes; exact (hp.map _).sum_nat
    have hle := layout_used hl
    refine ⟨hne, ?_⟩
    intro r hr
    have hrm := hp.mem_iff.1 (hsub.subset hr)
    have := hsmall r hrm
    rcases hfi with h0 | h0
    · rw [Repack.pending, h0] at hr; cases hr
    · rw [hu] at h0
      omega
  · exact .inr ⟨h1, h2⟩

/-- The main thread can always go on, until it is done; and every step except for waiting in the last loop decreases a measure, so that
the run ends if the results arrive. -/
theorem C15_progress (hb : 0 < batch) (hl : Layout pf (tasks.flatMap (·.records))) (hf : ∀ tile packs, f tile packs ≠ []) {s : Repack}
    (h : RepackReach f mem batch (repackInit pf tasks) s) :
    (s.pc ≠ .done → ∃ c r, c ≠ .timeout ∧ (s.inflight ≠ [] → s.pc = .drain → c ≠ .quit) ∧ repackStep f mem batch c s = some r) ∧
    (∀ c s', repackStep f mem batch c s = some (.ok s') → s' = s ∧ s.pc = .drain ∨ s'.weight batch < s.weight batch) := by
  constructor
  · intro hd
    have hi := rinv_reach hl hf h
    cases hpc : s.pc with
    | fill n =>
      by_cases hc : s.tasks ≠ [] ∧ n < mem
      · exact ⟨.go, _, by simp, (fun _ h => by cases h), by rw [repackStep.eq_def, hpc]; dsimp only; rw [if_pos hc]⟩
      · exact ⟨.go, _, by simp, (fun _ h => by cases h), by rw [repackStep.eq_def, hpc]; dsimp only; rw [if_neg hc]⟩
    | defrag =>
      have hg := hi.geo
      rw [RGeo, hpc] at hg
      dsimp only at hg
      have hlay : Layout s.pf (s.tasks.flatMap (·.records)) := by
        have hl' := Layout.perm hl (repackTasks_perm tasks)
        have hsub : (s.tasks.flatMap (·.records)).Sublist ((repackTasks tasks).flatMap (·.records)) := by
          conv_rhs => rw [← List.take_append_drop s.tasks.length (repackTasks tasks)]
          rw [List.flatMap_append, ← hg.2.2.2.2.2]
          exact List.sublist_append_left _ _
        rw [hg.2.2.2.2.1]
        exact ⟨hl'.wf, fun r hr => hl'.inside r (hsub.subset hr), hl'.apart.sublist hsub⟩
      obtain ⟨fuel, hr⟩ := C16_result s.pf s.tasks hlay
      rcases hr with hr | ⟨pf', ts', hr, _⟩
      · exact ⟨.steps fuel, _, by simp, (fun _ h => by cases h), by rw [repackStep.eq_def, hpc]; dsimp only; rw [hr]⟩
      · exact ⟨.steps fuel, _, by simp, (fun _ h => by cases h), by rw [repackStep.eq_def, hpc]; dsimp only; rw [hr]⟩
    | head =>
      by_cases hc : s.tasks ≠ []
      · exact ⟨.go, _, by simp, (fun _ h => by cases h), by rw [repackStep.eq_def, hpc]; dsimp only; rw [if_pos hc]⟩
      · exact ⟨.go, _, by simp, (fun _ h => by cases h), by rw [repackStep.eq_def, hpc]; dsimp only; rw [if_neg hc]⟩
    | results n => exact ⟨.quit, _, by simp, (fun _ h => by cases h), by rw [repackStep.eq_def, hpc]⟩
    | flush => exact ⟨.go, _, by simp, (fun _ h => by cases h), by rw [repackStep.eq_def, hpc]⟩
    | take n =>
      by_cases hc : s.tasks ≠ [] ∧ 0 < n
      · exact ⟨.go, _, by simp, (fun _ h => by cases h), by rw [repackStep.eq_def, hpc]; dsimp only; rw [if_pos hc]⟩
      · exact ⟨.go, _, by simp, (fun _ h => by cases h), by rw [repackStep.eq_def, hpc]; dsimp only; rw [if_neg hc]⟩
    | stash =>
      cases hst : s.stash with
      | nil => exact ⟨.go, _, by simp, (fun _ h => by cases h), by rw [repackStep.eq_def, hpc]; dsimp only; rw [hst]⟩
      | cons o rest => exact ⟨.go, _, by simp, (fun _ h => by cases h), by rw [repackStep.eq_def, hpc]; dsimp only; rw [hst]⟩
    | resize => exact ⟨.go, _, by simp, (fun _ h => by cases h), by rw [repackStep.eq_def, hpc]⟩
    | flushStash => exact ⟨.go, _, by simp, (fun _ h => by cases h), by rw [repackStep.eq_def, hpc]⟩
    | drain =>
      cases hin : s.inflight with
      | nil => exact ⟨.quit, _, by simp, (fun h => absurd rfl h), by rw [repackStep.eq_def, hpc]⟩
      | cons d rest => exact ⟨.result 0, _, by simp, (by simp), by rw [repackStep.eq_def, hpc]; dsimp only; rw [Repack.dequeue, hin]; rfl⟩
    | flushLast => exact ⟨.go, _, by simp, (fun _ h => by cases h), by rw [repackStep.eq_def, hpc]⟩
    | check => exact ⟨.go, _, by simp, (fun _ h => by cases h), by rw [repackStep.eq_def, hpc]⟩
    | done => exact absurd hpc hd
  · intro c s' hs
    exact (weight_step (T0 := []) hb hs).1

end

/-! ### a run -/

/-- a run with given choices -/
def runChoices (f : Tile → List Bytes → Bytes) (mem batch : Nat) : List RepackChoice → Repack → Option Repack
  | [], s => some s
  | c :: cs, s => match repackStep f mem batch c s with
    | some (.ok s') => runChoices f mem batch cs s'
    | _ => none

theorem runChoices_reach {f : Tile → List Bytes → Bytes} {mem batch : Nat} {s0 : Repack} : ∀ (cs : List RepackChoice) {s s' : Repack},
    RepackReach f mem batch s0 s → runChoices f mem batch cs s = some s' → RepackReach f mem batch s0 s' := by
  intro cs
  induction cs with
  | nil => intro s s' h h'; injection h' with h'; exact h' ▸ h
  | cons c cs ih =>
    intro s s' h h'
    rw [runChoices] at h'
    split at h'
    · rename_i h1; exact ih (.step c h h1) h'
    · cases h'

/-- three tiles with five packs in a file of 14 bytes -/
def C15_file : PackFile := ⟨[1, 0, 2, 2, 0, 0, 3, 3, 3, 0, 4, 0, 5, 0], 14⟩
def C15_tasks : List TileRecord := [⟨⟨1, 0, 1⟩, [⟨6, 3⟩, ⟨0, 1⟩]⟩, ⟨⟨0, 0, 1⟩, [⟨10, 1⟩]⟩, ⟨⟨0, 1, 1⟩, [⟨12, 1⟩, ⟨2, 2⟩]⟩]
/-- packs are concatenated; the mark at the end makes the results larger -/
def C15_fn : Tile → List Bytes → Bytes := fun _ packs => packs.flatten ++ [7, 7, 7, 7, 7, 7, 7, 7]

open RepackChoice in
/-- the first result does not fit and goes to the stash; the other two arrive in the wrong order -/
def C15_choices : List RepackChoice := [go, go, steps 50, go, result 0, go, go, go, go, go, timeout, go, go, go, go, go, go, go, go, go,
  result 1, timeout, result 0, quit, go, go]

example : Layout C15_file (C15_tasks.flatMap (·.records)) := layoutB_ok (by decide +kernel)

example : (match runChoices C15_fn 3 1 C15_choices (repackInit C15_file C15_tasks) with
    | some s => s.pc == .done && s.table == [(⟨1, 0, 1⟩, ⟨0, 12⟩), (⟨0, 0, 1⟩, ⟨12, 9⟩), (⟨0, 1, 1⟩, ⟨21, 11⟩)] && s.pf.size == 32 &&
        s.pf.data.take 32 == [3, 3, 3, 1, 7, 7, 7, 7, 7, 7, 7, 7, 4, 7, 7, 7, 7, 7, 7, 7, 7, 5, 2, 2, 7, 7, 7, 7, 7, 7, 7, 7]
    | none => false) = true := by decide +kernel

end Tiles
