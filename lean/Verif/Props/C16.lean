import Verif.Spec.Repack
import Verif.Proof.DefragRun
import Mathlib.Data.List.Forall2
/-!
C16: the defragmentation of the pack file ends on every layout; either it throws, or all records are stacked at the end of the file in the
order of the tasks, and hold their bytes.  It does not throw if the file has space for all records once more plus the largest one.

Finding: the guard in the code (the free space is larger than the largest record) does not suffice, nor does any small multiple of the
largest record (`C16_guard_is_not_enough`, `C16_five_times_is_not_enough`); the condition above is nearly tight
(`C16_almost_enough_is_not`).  An empty pack file without tasks is refused as well (`C16_empty_file`).
-/
namespace Tiles

/-! ### the start -/

theorem foldl_max_lt {l : List Nat} {a x : Nat} : l.foldl max a < x ↔ a < x ∧ ∀ b ∈ l, b < x := by
  induction l generalizing a with
  | nil => simp
  | cons b l ih =>
    rw [List.foldl_cons, ih]
    simp only [List.mem_cons, forall_eq_or_imp, Nat.max_lt]
    exact ⟨fun h => ⟨h.1.1, h.1.2, h.2⟩, fun h => ⟨⟨h.1, h.2.1⟩, h.2.2⟩⟩

theorem PackRecord.le_trans' (a b c : PackRecord) (h1 : PackRecord.le a b = true) (h2 : PackRecord.le b c = true) : PackRecord.le a c = true := by
  simp only [PackRecord.le, Bool.or_eq_true, decide_eq_true_eq, Bool.and_eq_true, beq_iff_eq] at *
  omega

theorem PackRecord.le_total' (a b : PackRecord) : PackRecord.le a b = true ∨ PackRecord.le b a = true := by
  simp only [PackRecord.le, Bool.or_eq_true, decide_eq_true_eq, Bool.and_eq_true, beq_iff_eq]
  omega

theorem sumTo_list (l : List PackRecord) : sumTo (fun k => (l.getD k default).size) l.length = Spec.usedBytes l := by
  have h : ∀ m, m ≤ l.length → sumTo (fun k => (l.getD k default).size) m = Spec.usedBytes (l.take m) := by
    intro m
    induction m with
    | zero => intro _; simp [sumTo, Spec.usedBytes]
    | succ m ih =>
      intro hm
      rw [sumTo, ih (by omega), List.take_succ_eq_append_getElem (by omega), Spec.usedBytes, Spec.usedBytes, List.map_append, List.sum_append]
      simp [List.getD_eq_getElem?_getD, List.getElem?_eq_getElem (show m < l.length by omega)]
  rw [h _ (Nat.le_refl _), List.take_length]

/-- the bytes of a record -/
def bytesOf (pf : PackFile) (r : PackRecord) : Bytes := slice pf.data r.offset r.size

theorem layout_get {pf : PackFile} {rs : List PackRecord} (h : Spec.Layout pf rs) {r : PackRecord} (hr : r ∈ rs) : pf.get r = .ok (bytesOf pf r) := by
  obtain ⟨h1, h2⟩ := h.inside r hr
  refine (PackFile.get_eq_ok_iff ..).2 ⟨?_, h2, rfl⟩
  unfold PackRecord.endOffset at h2
  omega

theorem defragInit_eq (pf : PackFile) (tasks : List TileRecord) :
    (defragInit pf tasks = .throw_ ∧ ¬ ((∀ r ∈ tasks.flatMap (·.records), r.size < pf.size - Spec.usedBytes (tasks.flatMap (·.records))) ∧
      Spec.usedBytes (tasks.flatMap (·.records)) < pf.size)) ∨
    (Spec.usedBytes (tasks.flatMap (·.records)) < pf.size ∧ ∃ s, defragInit pf tasks = .ok s ∧ s.pf = pf ∧ s.recs = tasks.flatMap (·.records) ∧ s.endOff = pf.size ∧ s.cur = 0 ∧
      s.q = ⟨sortBy (fun a b => PackRecord.le ((tasks.flatMap (·.records)).getD a default) ((tasks.flatMap (·.records)).getD b default))
        (List.range (tasks.flatMap (·.records)).length), 0, [], none⟩) := by
  rw [defragInit]
  generalize tasks.flatMap (·.records) = recs
  change ((verify (decide (Spec.usedBytes recs ≤ pf.size))).bind fun _ => _) = _ ∧ _ ∨ _ ∧ ∃ s, ((verify (decide (Spec.usedBytes recs ≤ pf.size))).bind fun _ => _) = _ ∧ _
  by_cases h1 : Spec.usedBytes recs ≤ pf.size
  swap
  · left
    rw [decide_eq_false h1, verify_false]
    exact ⟨rfl, fun h => h1 (by omega)⟩
  rw [decide_eq_true h1, verify_true]
  change ((verify (decide ((recs.map (·.size)).foldl max 0 < pf.size - Spec.usedBytes recs))).bind fun _ => _) = _ ∧ _ ∨
    _ ∧ ∃ s, ((verify (decide ((recs.map (·.size)).foldl max 0 < pf.size - Spec.usedBytes recs))).bind fun _ => _) = _ ∧ _
  by_cases h2 : (recs.map (·.size)).foldl max 0 < pf.size - Spec.usedBytes recs
  · right
    refine ⟨by omega, ?_⟩
    rw [decide_eq_true h2, verify_true]
    exact ⟨_, rfl, rfl, rfl, rfl, rfl, rfl⟩
  · left
    rw [decide_eq_false h2, verify_false]
    refine ⟨rfl, fun h => h2 ?_⟩
    rw [foldl_max_lt]
    refine ⟨by omega, ?_⟩
    intro b hb
    obtain ⟨r, hr, rfl⟩ := List.mem_map.1 hb
    exact h.1 r hr

theorem dinv_init {pf : PackFile} {recs : List PackRecord} (hl : Spec.Layout pf recs) (hu : Spec.usedBytes recs < pf.size) {s : Defrag}
    (h1 : s.pf = pf) (h2 : s.recs = recs) (h3 : s.endOff = pf.size) (h4 : s.cur = 0)
    (h5 : s.q = ⟨sortBy (fun a b => PackRecord.le (recs.getD a default) (recs.getD b default)) (List.range recs.length), 0, [], none⟩) :
    DInv pf.size recs.length (fun k => (recs.getD k default).size) (fun k => bytesOf pf (recs.getD k default)) s := by
  have hmem : ∀ k, k < recs.length → recs.getD k default ∈ recs := by
    intro k hk
    rw [List.getD_eq_getElem?_getD, List.getElem?_eq_getElem hk]
    exact List.getElem_mem hk
  have hR : ∀ k, s.R k = recs.getD k default := by intro k; rw [Defrag.R, h2]
  have hperm := sortBy_perm (fun a b => PackRecord.le (recs.getD a default) (recs.getD b default)) (List.range recs.length)
  have hsort := sortBy_sorted (le := fun a b => PackRecord.le (recs.getD a default) (recs.getD b default))
    (fun a b c => PackRecord.le_trans' _ _ _) (fun a b => PackRecord.le_total' _ _) (List.range recs.length)
  have hlive : s.q.live s.cur = sortBy (fun a b => PackRecord.le (recs.getD a default) (recs.getD b default)) (List.range recs.length) := by
    rw [h5, h4, FragQ.live, FragQ.liveD, FragQ.liveF]
    simp
  have hin : ∀ k, k ∈ sortBy (fun a b => PackRecord.le (recs.getD a default) (recs.getD b default)) (List.range recs.length) ↔ k < recs.length := by
    intro k; rw [hperm.mem_iff, List.mem_range]
  refine ⟨by rw [h2], by rw [h1]; exact hl.wf, by rw [h1], ?_, ?_, ?_, ?_, by omega, ?_, ?_, ?_, ?_, ?_, ?_, ?_, ?_⟩
  · intro k hk; exact (hl.inside _ (hmem k hk)).1
  · intro k hk; rw [hR]
  · intro k hk; rw [hR, h1]; exact layout_get hl (hmem k hk)
  · rw [sumTo_list]; exact hu
  · rw [h3, h4]; rfl
  · intro k hk; omega
  · intro k hk; rw [h5] at hk; exact (hin k).1 hk
  · intro k hk; rw [h5] at hk; cases hk
  · intro k; rw [hlive, hin, h4]; omega
  · rw [hlive]
    have hnd : (sortBy (fun a b => PackRecord.le (recs.getD a default) (recs.getD b default)) (List.range recs.length)).Nodup :=
      hperm.nodup_iff.2 List.nodup_range
    refine (hsort.and hnd).imp_of_mem ?_
    rintro a b ha hb ⟨hle, hne⟩
    have ha := (hin a).1 ha
    have hb := (hin b).1 hb
    rw [hR, hR]
    have hap : (recs.getD a default).endOffset ≤ (recs.getD b default).offset ∨ (recs.getD b default).endOffset ≤ (recs.getD a default).offset := by
      have hp := List.pairwise_iff_getElem.1 hl.apart
      rw [List.getD_eq_getElem?_getD, List.getD_eq_getElem?_getD, List.getElem?_eq_getElem ha, List.getElem?_eq_getElem hb]
      rcases Nat.lt_trichotomy a b with h | h | h
      · exact hp a b ha hb h
      · exact absurd h hne
      · exact (hp b a hb ha h).symm
    rcases hap with h | h
    · exact h
    · exfalso
      simp only [PackRecord.le, Bool.or_eq_true, decide_eq_true_eq, Bool.and_eq_true, beq_iff_eq] at hle
      have := (hl.inside _ (hmem b hb)).1
      unfold PackRecord.endOffset at h
      omega
  · intro k hk
    rw [hlive, hin] at hk
    rw [hR, h3]
    exact (hl.inside _ (hmem k hk)).2
  · rw [h5]
    show 0 + _ ≤ _
    rw [FragQ.left, Nat.sub_zero, hperm.length_eq, List.length_range]
    omega

/-! ### the end -/

theorem withRecords_flat : ∀ (ts : List TileRecord) (rs : List PackRecord), rs.length = (ts.flatMap (·.records)).length →
    (withRecords ts rs).flatMap (·.records) = rs := by
  intro ts
  induction ts with
  | nil => intro rs h; simp at h; simp [withRecords, h]
  | cons t ts ih =>
    intro rs h
    rw [List.flatMap_cons, List.length_append] at h
    rw [withRecords, List.flatMap_cons, ih _ (by rw [List.length_drop]; omega)]
    exact List.take_append_drop _ _

theorem withRecords_same {pf pf' : PackFile} : ∀ (ts : List TileRecord) (rs : List PackRecord),
    List.Forall₂ (Spec.SameBytes pf pf') (ts.flatMap (·.records)) rs → Spec.SameTasks pf pf' ts (withRecords ts rs) := by
  intro ts
  induction ts with
  | nil => intro rs _; exact .nil
  | cons t ts ih =>
    intro rs h
    rw [List.flatMap_cons] at h
    rw [withRecords]
    refine .cons ⟨rfl, ?_⟩ (ih _ ?_)
    · have := List.forall₂_take t.records.length h
      rwa [List.take_left'] at this
      rfl
    · have := List.forall₂_drop t.records.length h
      rwa [List.drop_left'] at this
      rfl

theorem stacked_of {sz : Nat → Nat} {S : Nat} : ∀ (l : List PackRecord) (c : Nat),
    (∀ k, k < l.length → (l.getD k default).size = sz (c + k) ∧ (l.getD k default).offset + sumTo sz (c + k + 1) = S) →
    ∀ top, top + sumTo sz c = S → Spec.Stacked top l := by
  intro l
  induction l with
  | nil => intro _ _ _ _; trivial
  | cons r l ih =>
    intro c h top ht
    have h0 := h 0 (by simp)
    simp only [List.getD_cons_zero, Nat.add_zero, sumTo] at h0
    refine ⟨by rw [PackRecord.endOffset, h0.1]; omega, ih (c + 1) ?_ _ h0.2⟩
    intro k hk
    have := h (k + 1) (by simp; omega)
    rw [List.getD_cons_succ] at this
    rw [show c + 1 + k = c + (k + 1) by omega]
    exact this

theorem dinv_end {pf : PackFile} {recs : List PackRecord} {s : Defrag} (hl : Spec.Layout pf recs)
    (h : DInv pf.size recs.length (fun k => (recs.getD k default).size) (fun k => bytesOf pf (recs.getD k default)) s) (hc : s.cur = recs.length) :
    s.pf.WF ∧ s.pf.size = pf.size ∧ List.Forall₂ (Spec.SameBytes pf s.pf) recs s.recs ∧ Spec.Stacked pf.size s.recs := by
  refine ⟨h.wf, h.size, ?_, ?_⟩
  · rw [List.forall₂_iff_get]
    refine ⟨h.len.symm, ?_⟩
    intro k h1 h2
    have hb := h.bytes k h1
    have hs := h.sizes k h1
    simp only [Defrag.R, List.getD_eq_getElem?_getD, List.getElem?_eq_getElem h1, List.getElem?_eq_getElem h2, Option.getD_some] at hb hs
    exact ⟨_, layout_get hl (List.get_mem recs ⟨k, h1⟩), hb, hs⟩
  · refine stacked_of (sz := fun k => (recs.getD k default).size) (S := pf.size) s.recs 0 ?_ _ ?_
    · intro k hk
      rw [h.len] at hk
      rw [Nat.zero_add]
      exact ⟨h.sizes k hk, h.done k (by omega)⟩
    · rfl

theorem queue_ne {recs : List PackRecord} (h : 0 < recs.length) :
    sortBy (fun a b => PackRecord.le (recs.getD a default) (recs.getD b default)) (List.range recs.length) ≠ [] := by
  intro hc
  have := (sortBy_perm (fun a b => PackRecord.le (recs.getD a default) (recs.getD b default)) (List.range recs.length)).length_eq
  rw [hc, List.length_range] at this
  simp at this
  omega

/-! ### the theorems -/

/-- On every layout the defragmentation ends; it throws, or the records of all tasks are stacked from the end of the file downwards in
the order of the tasks, have kept their sizes and bytes, and the size of the file is the same. -/
theorem C16_result (pf : PackFile) (tasks : List TileRecord) (hl : Spec.Layout pf (tasks.flatMap (·.records))) :
    ∃ fuel, defragmentPackFile fuel pf tasks = some .throw_ ∨
      ∃ pf' tasks', defragmentPackFile fuel pf tasks = some (.ok (pf', tasks')) ∧ pf'.WF ∧ pf'.size = pf.size ∧
        Spec.SameTasks pf pf' tasks tasks' ∧ Spec.Stacked pf'.size (tasks'.flatMap (·.records)) := by
  rcases defragInit_eq pf tasks with ⟨h, _⟩ | ⟨hu, s, h, h1, h2, h3, h4, h5⟩
  · exact ⟨0, .inl (by rw [defragmentPackFile, h])⟩
  · have hi := dinv_init hl hu h1 h2 h3 h4 h5
    obtain ⟨fuel, hr⟩ := DInv.run (fun _ _ => True) (fun _ _ _ _ _ _ _ _ _ _ _ _ _ _ _ => trivial) _ s .record (Nat.lt_succ_self _) hi trivial
      (fun h => absurd rfl h) (by
        intro _ hc
        rw [h5]
        exact queue_ne (by omega))
    refine ⟨fuel, ?_⟩
    rcases hr with ⟨s', r1, r2, r3⟩ | ⟨r1, _⟩
    · right
      obtain ⟨e1, e2, e3, e4⟩ := dinv_end hl r2 r3
      refine ⟨s'.pf, withRecords tasks s'.recs, by rw [defragmentPackFile, h]; dsimp only; rw [r1], e1, e2, withRecords_same _ _ e3, ?_⟩
      rw [withRecords_flat _ _ e3.length_eq.symm, e2]
      exact e4
    · left
      rw [defragmentPackFile, h]; dsimp only; rw [r1]

/-- It does not throw if there is enough space. -/
theorem C16_succeeds (pf : PackFile) (tasks : List TileRecord) (hl : Spec.Layout pf (tasks.flatMap (·.records)))
    (hroom : Spec.Roomy pf (tasks.flatMap (·.records))) :
    ∃ fuel pf' tasks', defragmentPackFile fuel pf tasks = some (.ok (pf', tasks')) := by
  have hle : 2 * Spec.usedBytes (tasks.flatMap (·.records)) ≤ pf.size := by
    cases hr : tasks.flatMap (·.records) with
    | nil => simp [Spec.usedBytes]
    | cons r rs =>
      have := hroom.2 r (by rw [hr]; simp)
      rw [← hr]; omega
  have hsize : ∀ r ∈ tasks.flatMap (·.records), r.size ≤ Spec.usedBytes (tasks.flatMap (·.records)) := by
    intro r hr
    exact List.single_le_sum (l := (tasks.flatMap (·.records)).map (·.size)) (fun _ _ => Nat.zero_le _) _ (List.mem_map_of_mem hr)
  have hpos : Spec.usedBytes (tasks.flatMap (·.records)) < pf.size := by have := hroom.1; omega
  rcases defragInit_eq pf tasks with ⟨_, h⟩ | ⟨hu, s, h, h1, h2, h3, h4, h5⟩
  · exfalso
    apply h
    refine ⟨?_, hpos⟩
    intro r hr
    have := hroom.2 r hr
    have := hsize r hr
    have := (hl.inside r hr).1
    omega
  · have hi := dinv_init hl hu h1 h2 h3 h4 h5
    have hsum := sumTo_list (tasks.flatMap (·.records))
    have h0 : DRoom (tasks.flatMap (·.records)).length (fun k => ((tasks.flatMap TileRecord.records).getD k default).size) s .record := by
      refine ⟨?_, ?_, ?_, ?_, (fun h => by cases h), (fun h => by cases h)⟩
      · intro d hd; rw [h5] at hd; cases hd
      · intro hc; rw [h5] at hc; exact absurd rfl hc
      · intro c hc; rw [h5] at hc; cases hc
      · intro _ hc; rw [h5] at hc; cases hc
    obtain ⟨fuel, hr⟩ := DInv.run (fun s pc => DRoom (tasks.flatMap (·.records)).length (fun k => ((tasks.flatMap TileRecord.records).getD k default).size) s pc) (fun s pc q e b s' pc' a1 a2 a3 a4 a5 a6 a7 a8 =>
        DRoom.step (L := pf.size - 2 * Spec.usedBytes (tasks.flatMap (·.records))) (by rw [hsum]; omega) (by
          intro k hk
          have hm : (tasks.flatMap (·.records)).getD k default ∈ tasks.flatMap (·.records) := by
            rw [List.getD_eq_getElem?_getD, List.getElem?_eq_getElem hk]
            exact List.getElem_mem hk
          have := hroom.2 _ hm
          exact Nat.le_sub_of_add_le (by rw [Nat.add_comm]; exact this)) a3 a1 a2 a4 a5 a6 a7 a8) _ s .record (Nat.lt_succ_self _) hi h0
      (fun h => absurd rfl h) (by
        intro _ hc
        rw [h5]
        exact queue_ne (by omega))
    rcases hr with ⟨s', r1, r2, r3⟩ | ⟨_, s', pc', _, b2, _, b4, b5⟩
    · exact ⟨fuel, s'.pf, withRecords tasks s'.recs, by rw [defragmentPackFile, h]; dsimp only; rw [r1]⟩
    · exact absurd ⟨b4, b5⟩ b2.no_stall

theorem defragRun_mono : ∀ (f : Nat) (s : Defrag) (pc : DefragPc) (r : Res Defrag), defragRun f s pc = some r → ∀ g, f ≤ g → defragRun g s pc = some r := by
  intro f
  induction f with
  | zero => intro s pc r h; cases h
  | succ f ih =>
    intro s pc r h g hg
    obtain ⟨g, rfl⟩ : ∃ g', g = g' + 1 := ⟨g - 1, by omega⟩
    rw [defragRun] at h ⊢
    split at h
    · exact h
    · exact ih _ _ _ h g (by omega)
    · exact h
    · exact h

/-- the number of steps granted does not influence the result -/
theorem defrag_unique {pf : PackFile} {tasks : List TileRecord} {f g : Nat} {r r' : Res (PackFile × List TileRecord)}
    (h : defragmentPackFile f pf tasks = some r) (h' : defragmentPackFile g pf tasks = some r') : r = r' := by
  rw [defragmentPackFile] at h h'
  cases hi : defragInit pf tasks with
  | throw_ => rw [hi] at h h'; injection h with h; injection h' with h'; rw [← h, ← h']
  | ub => rw [hi] at h h'; injection h with h; injection h' with h'; rw [← h, ← h']
  | ok s =>
    rw [hi] at h h'
    dsimp only at h h'
    cases h1 : defragRun f s .record with
    | none => rw [h1] at h; cases h
    | some x =>
      cases h2 : defragRun g s .record with
      | none => rw [h2] at h'; cases h'
      | some y =>
        have a := defragRun_mono f s _ _ h1 (max f g) (by omega)
        have b := defragRun_mono g s _ _ h2 (max f g) (by omega)
        rw [a] at b
        injection b with b
        subst b
        rw [h1] at h
        rw [h2] at h'
        rw [h] at h'
        injection h'

/-- Whatever the defragmentation returns: it is never undefined behaviour, and if it does not throw then all records are stacked at the
end of the file and hold their bytes; with enough space it does not throw. -/
theorem C16_every_run (pf : PackFile) (tasks : List TileRecord) (hl : Spec.Layout pf (tasks.flatMap (·.records))) (fuel : Nat)
    (r : Res (PackFile × List TileRecord)) (h : defragmentPackFile fuel pf tasks = some r) :
    (r = .throw_ ∧ ¬ Spec.Roomy pf (tasks.flatMap (·.records))) ∨
    ∃ pf' tasks', r = .ok (pf', tasks') ∧ pf'.WF ∧ pf'.size = pf.size ∧ Spec.SameTasks pf pf' tasks tasks' ∧
      Spec.Stacked pf'.size (tasks'.flatMap (·.records)) := by
  obtain ⟨g, hg⟩ := C16_result pf tasks hl
  rcases hg with hg | ⟨pf', tasks', hg, h1⟩
  · have := defrag_unique h hg
    subst this
    refine .inl ⟨rfl, fun hr => ?_⟩
    obtain ⟨g', pf', tasks', hg'⟩ := C16_succeeds pf tasks hl hr
    have := defrag_unique hg hg'
    cases this
  · have := defrag_unique h hg
    exact .inr ⟨pf', tasks', this, h1⟩

/-! ### findings; the tasks are in the order of the constructor -/

/-- the tasks with these records; the tiles do not matter -/
def tasksOf (rs : List (List (Nat × Nat))) : List TileRecord :=
  rs.map (fun l => ⟨⟨0, 0, 0⟩, l.map (fun p => ⟨p.1, p.2⟩)⟩)

/-- a file of zeros -/
def zeroFile (n : Nat) : PackFile := ⟨zeros n, n⟩

def defragThrows (fuel n : Nat) (rs : List (List (Nat × Nat))) : Bool := match defragmentPackFile fuel (zeroFile n) (tasksOf rs) with
  | some .throw_ => true
  | _ => false

/-- layouts are decidable -/
def layoutB (pf : PackFile) (rs : List PackRecord) : Bool :=
  decide (pf.size ≤ pf.data.length) && rs.all (fun r => decide (0 < r.size) && decide (r.endOffset ≤ pf.size)) &&
    decide (rs.Pairwise (fun a b => a.endOffset ≤ b.offset ∨ b.endOffset ≤ a.offset))

theorem layoutB_ok {pf : PackFile} {rs : List PackRecord} (h : layoutB pf rs = true) : Spec.Layout pf rs := by
  simp only [layoutB, Bool.and_eq_true, decide_eq_true_eq, List.all_eq_true] at h
  exact ⟨h.1.1, h.1.2, h.2⟩

/-- the guard of the code: more free space than the largest record -/
def Guard (pf : PackFile) (rs : List PackRecord) (m : Nat) : Prop := Spec.usedBytes rs ≤ pf.size ∧ ∀ r ∈ rs, m * r.size < pf.size - Spec.usedBytes rs

theorem C16_guard_is_not_enough : ∃ (pf : PackFile) (tasks : List TileRecord), Spec.Layout pf (tasks.flatMap (·.records)) ∧
    Guard pf (tasks.flatMap (·.records)) 1 ∧ ∃ fuel, defragmentPackFile fuel pf (repackTasks tasks) = some .throw_ := by
  refine ⟨zeroFile 29, tasksOf [[(0, 1), (15, 9)], [(6, 9)]], layoutB_ok (by decide +kernel), ?_, 60, ?_⟩
  · exact ⟨by decide +kernel, by decide +kernel⟩
  · decide +kernel

theorem C16_five_times_is_not_enough : ∃ (pf : PackFile) (tasks : List TileRecord), Spec.Layout pf (tasks.flatMap (·.records)) ∧
    Guard pf (tasks.flatMap (·.records)) 4 ∧ (∀ r ∈ tasks.flatMap (·.records), 5 * r.size ≤ pf.size - Spec.usedBytes (tasks.flatMap (·.records))) ∧
    ∃ fuel, defragmentPackFile fuel pf (repackTasks tasks) = some .throw_ := by
  refine ⟨zeroFile 15, tasksOf [[(0, 1), (12, 1)], [(5, 1), (7, 1)], [(1, 1), (8, 1)], [(3, 1), (13, 1)], [(4, 1), (14, 1)]],
    layoutB_ok (by decide +kernel), ⟨by decide +kernel, by decide +kernel⟩, by decide +kernel, 200, by decide +kernel⟩

/-- used 32, largest 30, free 57 -/
theorem C16_almost_enough_is_not : ∃ (pf : PackFile) (tasks : List TileRecord), Spec.Layout pf (tasks.flatMap (·.records)) ∧
    Spec.usedBytes (tasks.flatMap (·.records)) = 32 ∧ pf.size = 32 + 57 ∧ (∀ r ∈ tasks.flatMap (·.records), r.size ≤ 30) ∧
    ∃ fuel, defragmentPackFile fuel pf (repackTasks tasks) = some .throw_ := by
  refine ⟨zeroFile 89, tasksOf [[(31, 30)], [(28, 1), (61, 1)]],
    layoutB_ok (by decide +kernel), by decide +kernel, rfl, by decide +kernel, 200, by decide +kernel⟩

theorem C16_empty_file (fuel : Nat) : defragmentPackFile fuel (zeroFile 0) [] = some .throw_ := by rfl

/-! ### a run -/

/-- five records of three tiles, scattered; afterwards stacked from the end of the file -/
example : (match defragmentPackFile 100 ⟨[1, 0, 2, 2, 0, 0, 3, 3, 3, 0, 4, 0, 5, 0, 0, 0, 0, 0, 0, 0], 20⟩ (tasksOf [[(6, 3), (0, 1)], [(10, 1)], [(12, 1), (2, 2)]]) with
    | some (.ok (pf, ts)) => pf.data.drop 12 == [2, 2, 5, 4, 1, 3, 3, 3] && ts == tasksOf [[(17, 3), (16, 1)], [(15, 1)], [(14, 1), (12, 2)]]
    | _ => false) = true := by decide +kernel

example : Spec.Layout ⟨[1, 0, 2, 2, 0, 0, 3, 3, 3, 0, 4, 0, 5, 0, 0, 0, 0, 0, 0, 0], 20⟩ ((tasksOf [[(6, 3), (0, 1)], [(10, 1)], [(12, 1), (2, 2)]]).flatMap (·.records)) :=
  layoutB_ok (by decide +kernel)

example : Spec.Roomy (zeroFile 19) ((tasksOf [[(6, 3), (0, 1)], [(10, 1)], [(12, 1), (2, 2)]]).flatMap (·.records)) :=
  ⟨by decide +kernel, by decide +kernel⟩

end Tiles
