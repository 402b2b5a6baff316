import Verif.Proof.PackFileOps
/-! C06 — pack file reads return what was written; writes do not disturb other records. -/
namespace Tiles
namespace PackFile

/-- the writing operations of the pack file API -/
inductive Op where
  | append (b : Bytes)
  | insert (off : Nat) (b : Bytes)
  | move (off : Nat) (r : PackRecord)
  | resize (n : Nat)
  deriving Repr

/-- effect of one operation -/
def step (f : PackFile) : Op → Res PackFile
  | .append b => .ok (f.append b).1
  | .insert off b => .ok (f.insert off b).1
  | .move off r => do return (← f.move off r).1
  | .resize n => .ok (f.resize n)

/-- effect of a history -/
def run (f : PackFile) : List Op → Res PackFile
  | [] => .ok f
  | op :: ops => do run (← step f op) ops

/-- the range `[off, off+n)` does not touch the record -/
def Apart (off n : Nat) (r : PackRecord) : Prop := r.endOffset ≤ off ∨ off + n ≤ r.offset

/-- the operation does not write into the record and does not cut it off: appending always
spares what is in the file -/
def Op.Spares (r : PackRecord) : Op → Prop
  | .append _ => True
  | .insert off b => Apart off b.length r
  | .move off r' => Apart off r'.size r
  | .resize n => r.endOffset ≤ n ∧ r.offset < n

theorem step_ok_wf {f f' : PackFile} {op : Op} (h : f.WF) (hs : f.step op = .ok f') : f'.WF := by
  cases op with
  | append b => cases hs; exact insert_wf f _ b h
  | insert off b => cases hs; exact insert_wf f _ b h
  | resize n => cases hs; exact resize_wf f n h
  | move off r =>
    simp only [step, Res.bind_eq_ok, Res.pure_eq, Res.ok.injEq] at hs
    obtain ⟨p, hp, rfl⟩ := hs
    unfold move at hp
    simp only at hp
    split at hp
    · cases hp
      have h1 := resize_wf f (max f.size (off + r.size)) h
      have h2 := insert_data_off_le f off r.size h
      unfold WF at *
      simp only
      rw [overwrite_length]
      · exact h1
      · simp; omega
    · cases hp

theorem step_spares {f f' : PackFile} {op : Op} {r : PackRecord} {b : Bytes} (h : f.WF)
    (hs : f.step op = .ok f') (hg : f.get r = .ok b) (hsp : op.Spares r) : f'.get r = .ok b := by
  cases op with
  | append c =>
    cases hs
    exact insert_get_other f _ c h r b hg (.inl ((get_eq_ok_iff ..).1 hg).2.1)
  | insert off c => cases hs; exact insert_get_other f _ c h r b hg hsp
  | resize n => cases hs; exact resize_get f n h r b hg hsp.2 hsp.1
  | move off r' =>
    simp only [step, Res.bind_eq_ok, Res.pure_eq, Res.ok.injEq] at hs
    obtain ⟨p, hp, rfl⟩ := hs
    unfold move at hp
    simp only at hp
    split at hp
    · cases hp
      have h1 := (get_eq_ok_iff ..).1 hg
      have hm : f.size ≤ max f.size (off + r'.size) := Nat.le_max_left ..
      have h2 := resize_get f (max f.size (off + r'.size)) h r b hg (by omega) (by omega)
      have h3 := insert_data_off_le f off r'.size h
      rw [get_eq_ok_iff] at h2 ⊢
      refine ⟨h2.1, h2.2.1, ?_⟩
      rw [← h2.2.2]
      apply slice_overwrite_disjoint
      · omega
      · have : (List.take r'.size (List.drop r'.offset (f.resize (max f.size (off + r'.size))).data)).length ≤ r'.size := by
          simp
        unfold Op.Spares Apart PackRecord.endOffset at hsp
        omega
    · cases hp

/-- Any readable record keeps its bytes over every history whose operations spare it. -/
theorem C06_record_stable (f f' : PackFile) (ops : List Op) (r : PackRecord) (b : Bytes) (h : f.WF)
    (hg : f.get r = .ok b) (hops : ∀ op ∈ ops, op.Spares r) (hr : f.run ops = .ok f') :
    f'.get r = .ok b := by
  induction ops generalizing f with
  | nil => cases hr; exact hg
  | cons op ops ih =>
    simp only [run, Res.bind_eq_ok] at hr
    obtain ⟨g, h1, h2⟩ := hr
    exact ih g (step_ok_wf h h1) (step_spares h h1 hg (hops op (by simp)))
      (fun o ho => hops o (by simp [ho])) h2

/-- What was appended, inserted or moved reads back exactly, after any later history that spares it. -/
theorem C06_written_reads_back (f f' : PackFile) (ops : List Op) (h : f.WF) (b : Bytes) (hb : b ≠ []) :
    (∀ op ∈ ops, op.Spares (f.append b).2) → (f.append b).1.run ops = .ok f' →
    f'.get (f.append b).2 = .ok b := by
  intro h1 h2
  exact C06_record_stable _ f' ops _ b (insert_wf f _ b h) (insert_get_self f _ b h hb) h1 h2

theorem C06_inserted_reads_back (f f' : PackFile) (ops : List Op) (h : f.WF) (off : Nat) (b : Bytes)
    (hb : b ≠ []) :
    (∀ op ∈ ops, op.Spares (f.insert off b).2) → (f.insert off b).1.run ops = .ok f' →
    f'.get (f.insert off b).2 = .ok b := by
  intro h1 h2
  exact C06_record_stable _ f' ops _ b (insert_wf f _ b h) (insert_get_self f _ b h hb) h1 h2

/-- Moving a readable record (source and target may overlap) puts its bytes at the target. -/
theorem C06_moved_reads_back (f : PackFile) (h : f.WF) (off : Nat) (r : PackRecord) (b : Bytes)
    (hb : b ≠ []) (hg : f.get r = .ok b) :
    ∃ f' r', f.move off r = .ok (f', r') ∧ r' = ⟨off, r.size⟩ ∧ f'.get r' = .ok b := by
  refine ⟨_, _, move_eq_insert f off r b h hg, ?_, insert_get_self f off b h hb⟩
  have h1 := (get_eq_ok_iff ..).1 hg
  have : b.length = r.size := by
    rw [← h1.2.2]
    apply slice_length
    have := h1.2.1
    unfold WF at h
    unfold PackRecord.endOffset at this
    omega
  simp [this]

/-- Appended records never overlap what is already readable. -/
theorem C06_append_apart (f : PackFile) (b c : Bytes) (r : PackRecord) (hg : f.get r = .ok c) :
    Apart (f.append b).2.offset (f.append b).2.size r :=
  .inl ((get_eq_ok_iff ..).1 hg).2.1

/-- `get` on records that do not wrap around in 64 bits: the exact bytes when the record lies inside
the file and starts before its end, an exception otherwise; never undefined behaviour. -/
theorem C06_get_total (f : PackFile) (r : PackRecord) (hr : r.endOffset < 2 ^ 64) :
    (r.offset < f.size ∧ r.endOffset ≤ f.size ∧
      f.get r = .ok ((f.data.drop r.offset).take r.size)) ∨
    (¬ (r.offset < f.size ∧ r.endOffset ≤ f.size) ∧ f.get r = .throw_) := by
  by_cases h : r.offset < f.size ∧ r.endOffset ≤ f.size
  · exact .inl ⟨h.1, h.2, (get_eq_ok_iff ..).2 ⟨h.1, h.2, rfl⟩⟩
  · refine .inr ⟨h, ?_⟩
    unfold get
    unfold PackRecord.endOffset at *
    rw [Nat.mod_eq_of_lt hr]
    have : (decide (r.offset < f.size) && decide (r.offset + r.size ≤ f.size)) = false := by
      rw [Bool.eq_false_iff]; intro hh; apply h
      simpa only [Bool.and_eq_true, decide_eq_true_eq] using hh
    rw [this]; rfl

/-- The bounds check can be defeated by a record whose end wraps around in 64 bits
(only possible with a corrupt database value). -/
theorem C06_get_wraps : (⟨[1, 2], 2⟩ : PackFile).get ⟨1, 2 ^ 64 - 1⟩ = .ub := by decide

-- non-vacuity: a history with all four operations
example : ∃ f', (⟨[], 0⟩ : PackFile).run
      [.append [1, 2, 3], .insert 5 [9], .move 3 ⟨5, 1⟩, .resize 4] = .ok f' ∧
    f'.get ⟨0, 3⟩ = .ok [1, 2, 3] ∧ f'.get ⟨3, 1⟩ = .ok [9] ∧ f'.get ⟨5, 1⟩ = .throw_ :=
  ⟨_, rfl, by decide, by decide, by decide⟩
example : (⟨[], 0⟩ : PackFile).WF := by decide

end PackFile
end Tiles
