import Verif.Model.Repack
import Verif.Props.C16
/-! Proofs about rewriting the pack file. -/
namespace Tiles
open Spec

/-! ### layouts -/

theorem Stacked.le_top : ∀ {l : List PackRecord} {top : Nat}, Stacked top l → ∀ r ∈ l, r.endOffset ≤ top := by
  intro l
  induction l with
  | nil => intro top _ r hr; cases hr
  | cons a l ih =>
    intro top h r hr
    rcases List.mem_cons.1 hr with rfl | hr
    · exact Nat.le_of_eq h.1
    · have := ih h.2 r hr
      have := h.1
      unfold PackRecord.endOffset at *
      omega

theorem Stacked.prefix : ∀ {l m : List PackRecord} {top : Nat}, Stacked top (l ++ m) → Stacked top l := by
  intro l
  induction l with
  | nil => intro _ _ _; trivial
  | cons a l ih => intro m top h; exact ⟨h.1, ih h.2⟩

theorem Stacked.last : ∀ {l : List PackRecord} {low : PackRecord} {top : Nat}, Stacked top (l ++ [low]) → ∀ r ∈ l ++ [low], low.offset ≤ r.offset := by
  intro l
  induction l with
  | nil => intro low top _ r hr; rw [show r = low by simpa using hr]
  | cons a l ih =>
    intro low top h r hr
    rcases List.mem_cons.1 hr with rfl | hr
    · have := Stacked.le_top h.2 low (by simp)
      unfold PackRecord.endOffset at *
      omega
    · exact ih h.2 r hr

theorem Contig.mem : ∀ {l : List PackRecord} {a b : Nat}, Contig a l b → a ≤ b ∧ ∀ r ∈ l, a ≤ r.offset ∧ r.endOffset ≤ b := by
  intro l
  induction l with
  | nil => intro a b h; exact ⟨Nat.le_of_eq h, fun r hr => by cases hr⟩
  | cons c l ih =>
    intro a b h
    obtain ⟨h1, h2⟩ := ih h.2
    have h0 := h.1
    unfold PackRecord.endOffset at *
    refine ⟨by omega, ?_⟩
    intro r hr
    rcases List.mem_cons.1 hr with rfl | hr
    · exact ⟨by omega, h1⟩
    · have := h2 r hr
      exact ⟨by omega, this.2⟩

theorem Contig.append : ∀ {l m : List PackRecord} {a b c : Nat}, Contig a l b → Contig b m c → Contig a (l ++ m) c := by
  intro l
  induction l with
  | nil => intro m a b c h h2; rw [show a = b from h]; exact h2
  | cons r l ih => intro m a b c h h2; exact ⟨h.1, ih h.2 h2⟩

theorem Contig.snoc {l : List PackRecord} {a b n : Nat} (h : Contig a l b) : Contig a (l ++ [⟨b, n⟩]) (b + n) :=
  Contig.append h ⟨rfl, rfl⟩

/-! ### the invariant -/

/-- a task with its packs -/
def origOf (pf : PackFile) (t : TileRecord) : Tile × List Bytes := (t.tile, t.records.map (bytesOf pf))

/-- the result of a task is stored in a record -/
structure Written (f : Tile → List Bytes → Bytes) (pf : PackFile) (d : Tile × List Bytes) (o : Tile × PackRecord) : Prop where
  tile : o.1 = d.1
  bytes : pf.get o.2 = .ok (f d.1 d.2)
  size : o.2.size = (f d.1 d.2).length

/-- all pending records -/
def Repack.pending (s : Repack) : List PackRecord := s.tasks.flatMap (·.records)

/-- the records of the results, in the order of the file, except for the stash -/
def Repack.front (s : Repack) : List PackRecord := (s.table ++ s.updates).map (·.2)

/-- between the defragmentation and the end of the stash -/
structure RMid (s : Repack) : Prop where
  geo : ∃ S, Contig 0 s.front s.insOff ∧ Stacked S s.pending ∧ Contig S (s.stash.map (·.2)) s.pf.size ∧ s.insOff ≤ S
  low : ∀ r ∈ s.pending, s.insOff ≤ r.offset

/-- the layout at each point of the program -/
def RGeo (pf0 : PackFile) (T0 : List TileRecord) (s : Repack) : Prop :=
  match s.pc with
  | .fill _ => s.table = [] ∧ s.updates = [] ∧ s.stash = [] ∧ s.insOff = 0 ∧ s.pf = pf0 ∧ s.tasks = T0.take s.tasks.length
  | .defrag => s.table = [] ∧ s.updates = [] ∧ s.stash = [] ∧ s.insOff = 0 ∧ s.pf = pf0 ∧ s.tasks = T0.take s.tasks.length
  | .results _ => RMid s ∧ s.tasks ≠ []
  | .head => RMid s
  | .flush => RMid s
  | .take _ => RMid s
  | .stash => RMid s ∧ s.tasks = []
  | .resize => s.tasks = [] ∧ s.stash = [] ∧ Contig 0 s.front s.insOff ∧ s.insOff ≤ s.pf.size
  | .flushStash => s.tasks = [] ∧ s.stash = [] ∧ Contig 0 s.front s.pf.size
  | .drain => s.tasks = [] ∧ s.stash = [] ∧ Contig 0 s.front s.pf.size
  | .flushLast => s.tasks = [] ∧ s.stash = [] ∧ Contig 0 s.front s.pf.size
  | .check => s.tasks = [] ∧ s.stash = [] ∧ s.updates = [] ∧ Contig 0 s.front s.pf.size
  | .done => s.tasks = [] ∧ s.stash = [] ∧ s.updates = [] ∧ s.inflight = [] ∧ Contig 0 s.front s.pf.size

/-- `T0` are the tasks at the start, `pf0` is the file at the start -/
structure RInv (f : Tile → List Bytes → Bytes) (pf0 : PackFile) (T0 : List TileRecord) (s : Repack) : Prop where
  wf : s.pf.WF
  pend : SameTasks pf0 s.pf (T0.take s.tasks.length) s.tasks
  done : ∃ doneU doneS, (s.inflight ++ (doneU ++ doneS)).Perm ((T0.drop s.tasks.length).map (origOf pf0)) ∧
    List.Forall₂ (Written f s.pf) doneU (s.table ++ s.updates) ∧ List.Forall₂ (Written f s.pf) doneS s.stash
  geo : RGeo pf0 T0 s

/-! ### writing -/

theorem forall₂_mono_mem {α β : Type} {P Q : α → β → Prop} : ∀ {l : List α} {m : List β}, List.Forall₂ P l m → (∀ a b, b ∈ m → P a b → Q a b) → List.Forall₂ Q l m := by
  intro l m h
  induction h with
  | nil => intro _; exact .nil
  | cons h1 _ ih => intro hq; exact .cons (hq _ _ (by simp) h1) (ih (fun a b hb => hq a b (by simp [hb])))

/-- a write that keeps the bytes of all pending records -/
theorem SameTasks.keep {pf0 pf pf' : PackFile} {T ts : List TileRecord} (h : SameTasks pf0 pf T ts)
    (hk : ∀ r ∈ ts.flatMap (·.records), ∀ b, pf.get r = .ok b → pf'.get r = .ok b) : SameTasks pf0 pf' T ts := by
  refine forall₂_mono_mem h ?_
  intro t t' ht' ⟨h1, h2⟩
  refine ⟨h1, forall₂_mono_mem h2 ?_⟩
  rintro r r' hr' ⟨bs, b1, b2, b3⟩
  exact ⟨bs, b1, hk r' (List.mem_flatMap.2 ⟨t', ht', hr'⟩) _ b2, b3⟩

theorem Written.keep {f : Tile → List Bytes → Bytes} {pf pf' : PackFile} {ds : List (Tile × List Bytes)} {os : List (Tile × PackRecord)}
    (h : List.Forall₂ (Written f pf) ds os) (hk : ∀ r ∈ os.map (·.2), ∀ b, pf.get r = .ok b → pf'.get r = .ok b) : List.Forall₂ (Written f pf') ds os := by
  refine forall₂_mono_mem h ?_
  intro d o ho ⟨h1, h2, h3⟩
  exact ⟨h1, hk _ (List.mem_map_of_mem ho) _ h2, h3⟩

theorem forall₂_snoc {α β : Type} {P : α → β → Prop} {l : List α} {m : List β} {a : α} {b : β} (h : List.Forall₂ P l m) (hab : P a b) :
    List.Forall₂ P (l ++ [a]) (m ++ [b]) := List.rel_append h (.cons hab .nil)

theorem readTask_ok {pf0 pf : PackFile} : ∀ {rs rs' : List PackRecord}, List.Forall₂ (SameBytes pf0 pf) rs rs' → readTask pf rs' = .ok (rs.map (bytesOf pf0)) := by
  intro rs rs' h
  induction h with
  | nil => rfl
  | cons h _ ih =>
    obtain ⟨bs, b1, b2, _⟩ := h
    rw [readTask, b2, Res.ok_bind, ih, Res.ok_bind, List.map_cons, bytesOf, ((PackFile.get_eq_ok_iff ..).1 b1).2.2]
    rfl

namespace RInv
variable {f : Tile → List Bytes → Bytes} {pf0 : PackFile} {T0 : List TileRecord} {s : Repack}

/-- taking a task -/
theorem enqueue (h : RInv f pf0 T0 s) (hne : s.tasks ≠ []) :
    ∃ s1 n, s.enqueue = .ok (s1, n) ∧ s1.pf = s.pf ∧ s1.stash = s.stash ∧ s1.insOff = s.insOff ∧ s1.updates = s.updates ∧ s1.table = s.table ∧
      s1.tasks = s.tasks.dropLast ∧ ∀ pc, RGeo pf0 T0 (s1.goto pc) → RInv f pf0 T0 (s1.goto pc) := by
  obtain ⟨ts, t, hts⟩ : ∃ ts t, s.tasks = ts ++ [t] := ⟨s.tasks.dropLast, s.tasks.getLast hne, (List.dropLast_append_getLast hne).symm⟩
  have hp := h.pend
  have hlen := hp.length_eq
  rw [hts, List.length_append, List.length_singleton, List.length_take] at hlen
  have hlt : ts.length < T0.length := by omega
  rw [hts, List.length_append, List.length_singleton, List.take_succ_eq_append_getElem hlt] at hp
  have hsplit : List.Forall₂ (fun t t' => t'.tile = t.tile ∧ List.Forall₂ (SameBytes pf0 s.pf) t.records t'.records) (T0.take ts.length) ts ∧
      (t.tile = T0[ts.length].tile ∧ List.Forall₂ (SameBytes pf0 s.pf) T0[ts.length].records t.records) := by
    have h1 := List.forall₂_take ts.length hp
    have h2 := List.forall₂_drop ts.length hp
    rw [List.take_left' rfl, List.take_left' (by rw [List.length_take]; omega)] at h1
    rw [List.drop_left' rfl, List.drop_left' (by rw [List.length_take]; omega)] at h2
    cases h2 with
    | cons a _ => exact ⟨h1, a⟩
  have hread := readTask_ok hsplit.2.2
  refine ⟨{ s with tasks := s.tasks.dropLast, inflight := s.inflight ++ [(t.tile, T0[ts.length].records.map (bytesOf pf0))] }, (t.records.map (·.size)).sum,
    ?_, rfl, rfl, rfl, rfl, rfl, rfl, ?_⟩
  · rw [Repack.enqueue, show verify (!s.tasks.isEmpty) = .ok () by rw [hts]; simp [verify], Res.ok_bind, hts, List.getLast?_concat]
    dsimp only
    rw [hread, Res.ok_bind]
    rfl
  · intro pc hg
    have hdl : s.tasks.dropLast = ts := by rw [hts, List.dropLast_concat]
    refine ⟨h.wf, ?_, ?_, hg⟩
    · show SameTasks pf0 s.pf (T0.take s.tasks.dropLast.length) s.tasks.dropLast
      rw [hdl]; exact hsplit.1
    · obtain ⟨doneU, doneS, a1, a2, a3⟩ := h.done
      refine ⟨doneU, doneS, ?_, a2, a3⟩
      show (s.inflight ++ [(t.tile, T0[ts.length].records.map (bytesOf pf0))] ++ (doneU ++ doneS)).Perm ((T0.drop s.tasks.dropLast.length).map (origOf pf0))
      rw [hdl, List.drop_eq_getElem_cons hlt, List.map_cons, origOf, ← hsplit.2.1]
      rw [hts, List.length_append, List.length_singleton] at a1
      rw [List.append_assoc]
      refine List.perm_middle.trans (List.Perm.cons _ a1)

/-- a result arrives while tasks are pending, or after the stash is finished -/
theorem insert (h : RInv f pf0 T0 s) (hT : ∀ t ∈ T0, t.records ≠ []) (hf : ∀ tile packs, f tile packs ≠ []) {i : Nat} {r : Res Repack}
    (hr : s.dequeue f i = some r) :
    (RMid s → s.tasks ≠ [] → ∃ s1, r = .ok s1 ∧ s1.tasks = s.tasks ∧ RMid s1 ∧ ∀ pc, RGeo pf0 T0 (s1.goto pc) → RInv f pf0 T0 (s1.goto pc)) ∧
    (s.tasks = [] → s.stash = [] → Contig 0 s.front s.pf.size → ∃ s1, r = .ok s1 ∧ s1.pc = s.pc ∧ s1.tasks = [] ∧ s1.stash = [] ∧ Contig 0 s1.front s1.pf.size ∧
      ∀ pc, RGeo pf0 T0 (s1.goto pc) → RInv f pf0 T0 (s1.goto pc)) := by
  rw [Repack.dequeue] at hr
  cases hi : s.inflight[i]? with
  | none => rw [hi] at hr; cases hr
  | some d =>
    obtain ⟨tile, packs⟩ := d
    rw [hi] at hr
    dsimp only at hr
    injection hr with hr
    obtain ⟨doneU, doneS, a1, a2, a3⟩ := h.done
    have hlt : i < s.inflight.length := (List.getElem?_eq_some_iff.1 hi).1
    have hperm : (s.inflight.eraseIdx i ++ ((doneU ++ [(tile, packs)]) ++ doneS)).Perm ((T0.drop s.tasks.length).map (origOf pf0)) := by
      refine List.Perm.trans ?_ a1
      have h1 : s.inflight.Perm ((tile, packs) :: s.inflight.eraseIdx i) := by
        have := List.getElem_cons_eraseIdx_perm hlt
        rw [show s.inflight[i] = (tile, packs) from (List.getElem?_eq_some_iff.1 hi).2] at this
        exact this.symm
      refine List.Perm.trans ?_ (h1.symm.append_right _)
      rw [List.append_assoc, List.singleton_append, ← List.append_assoc, List.cons_append, ← List.append_assoc]
      exact List.perm_middle
    have hperm2 : (s.inflight.eraseIdx i ++ (doneU ++ (doneS ++ [(tile, packs)]))).Perm ((T0.drop s.tasks.length).map (origOf pf0)) := by
      refine List.Perm.trans ?_ hperm
      refine List.Perm.append_left _ ?_
      rw [List.append_assoc]
      exact List.Perm.append_left _ List.perm_append_comm
    have hlen : 0 < (f tile packs).length := List.length_pos_iff.2 (hf tile packs)
    have hself := fun off => PackFile.insert_get_self s.pf off (f tile packs) h.wf (hf tile packs)
    have hother := fun off r c hg hd => PackFile.insert_get_other s.pf off (f tile packs) h.wf r c hg hd
    constructor
    · rintro ⟨⟨S, g1, g2, g3, g4⟩, g5⟩ hne
      obtain ⟨ts, t, hts⟩ : ∃ ts t, s.tasks = ts ++ [t] := ⟨s.tasks.dropLast, s.tasks.getLast hne, (List.dropLast_append_getLast hne).symm⟩
      have htr : t.records ≠ [] := by
        intro hc
        obtain ⟨t0, ht0, ht⟩ : ∃ t0 ∈ T0.take s.tasks.length, List.Forall₂ (SameBytes pf0 s.pf) t0.records t.records := by
          have hp := h.pend
          have hm : t ∈ s.tasks := by rw [hts]; simp
          obtain ⟨k, hk, rfl⟩ := List.mem_iff_getElem.1 hm
          have := (List.forall₂_iff_get.1 hp)
          have hk' : k < (T0.take s.tasks.length).length := by rw [this.1]; exact hk
          exact ⟨_, List.getElem_mem hk', (this.2 k hk' hk).2⟩
        rw [hc] at ht
        cases ht' : t0.records with
        | nil => exact hT t0 (List.mem_of_mem_take ht0) ht'
        | cons a b => rw [ht'] at ht; cases ht
      obtain ⟨rs, low, hrs⟩ : ∃ rs low, t.records = rs ++ [low] := ⟨t.records.dropLast, t.records.getLast htr, (List.dropLast_append_getLast htr).symm⟩
      have hpl : s.pending = (ts.flatMap (·.records) ++ rs) ++ [low] := by
        rw [Repack.pending, hts, List.flatMap_append, List.flatMap_singleton, hrs, List.append_assoc]
      have hlow : ∀ r ∈ s.pending, low.offset ≤ r.offset := by rw [hpl] at g2 ⊢; exact Stacked.last g2
      have htop : ∀ r ∈ s.pending, r.endOffset ≤ S := Stacked.le_top g2
      have hlowm : low ∈ s.pending := by rw [hpl]; simp
      have hil := g5 low hlowm
      have hlS := htop low hlowm
      obtain ⟨c1, c2⟩ := Contig.mem g1
      obtain ⟨c3, c4⟩ := Contig.mem g3
      rw [Repack.insertResult] at hr
      dsimp only at hr
      rw [hts, List.getLast?_concat] at hr
      dsimp only at hr
      rw [hrs, List.getLast?_concat] at hr
      dsimp only at hr
      rw [decide_eq_true hil, verify_true, Res.ok_bind] at hr
      by_cases hsp : low.offset - s.insOff < (f tile packs).length
      · rw [if_pos hsp] at hr
        refine ⟨_, hr.symm, hts.symm, ?_, ?_⟩
        · refine ⟨⟨S, g1, ?_, ?_, g4⟩, ?_⟩
          · show Stacked S ((ts ++ [t]).flatMap (·.records)); rw [← hts]; exact g2
          · show Contig S ((s.stash ++ [(tile, (s.pf.append (f tile packs)).2)]).map (·.2)) _
            rw [List.map_append]
            have : (s.pf.append (f tile packs)).1.size = s.pf.size + (f tile packs).length := by
              rw [PackFile.append, PackFile.insert_size]; omega
            rw [this]
            exact Contig.snoc g3
          · show ∀ r ∈ (ts ++ [t]).flatMap (·.records), _; rw [← hts]; exact g5
        · intro pc hg
          have hk : ∀ r : PackRecord, r.endOffset ≤ s.pf.size → ∀ b, s.pf.get r = .ok b → (s.pf.append (f tile packs)).1.get r = .ok b :=
            fun r hr b hb => hother _ r b hb (.inl hr)
          refine ⟨PackFile.insert_wf _ _ _ h.wf, ?_, ⟨doneU, doneS ++ [(tile, packs)], ?_, ?_, ?_⟩, hg⟩
          · show SameTasks pf0 _ (T0.take (ts ++ [t]).length) (ts ++ [t])
            rw [← hts]
            refine SameTasks.keep h.pend (fun r hr => hk r ?_)
            have := htop r hr; omega
          · show List.Perm _ ((T0.drop (ts ++ [t]).length).map _)
            rw [← hts]
            exact hperm2
          · refine Written.keep a2 (fun r hr => hk r ?_)
            have := (c2 r hr).2; omega
          · refine forall₂_snoc (Written.keep a3 (fun r hr => hk r ?_)) ⟨rfl, hself _, rfl⟩
            exact (c4 r hr).2
      · rw [if_neg hsp] at hr
        have hsz : (s.pf.insert s.insOff (f tile packs)).1.size = s.pf.size := by
          rw [PackFile.insert_size]
          unfold PackRecord.endOffset at hlS
          omega
        refine ⟨_, hr.symm, hts.symm, ?_, ?_⟩
        · refine ⟨⟨S, ?_, ?_, ?_, ?_⟩, ?_⟩
          · show Contig 0 ((s.table ++ (s.updates ++ [(tile, (s.pf.insert s.insOff (f tile packs)).2)])).map (·.2)) _
            rw [← List.append_assoc, List.map_append]
            exact Contig.snoc g1
          · show Stacked S ((ts ++ [t]).flatMap (·.records)); rw [← hts]; exact g2
          · show Contig S (s.stash.map (·.2)) _
            rw [hsz]; exact g3
          · show s.insOff + (f tile packs).length ≤ S
            unfold PackRecord.endOffset at hlS
            omega
          · show ∀ r ∈ (ts ++ [t]).flatMap (·.records), s.insOff + (f tile packs).length ≤ r.offset
            rw [← hts]
            intro r hr
            have := hlow r hr
            omega
        · intro pc hg
          refine ⟨PackFile.insert_wf _ _ _ h.wf, ?_, ⟨doneU ++ [(tile, packs)], doneS, ?_, ?_, ?_⟩, hg⟩
          · show SameTasks pf0 _ (T0.take (ts ++ [t]).length) (ts ++ [t])
            rw [← hts]
            refine SameTasks.keep h.pend (fun r hr b hb => hother _ r b hb (.inr ?_))
            have := hlow r hr; omega
          · show List.Perm _ ((T0.drop (ts ++ [t]).length).map _)
            rw [← hts]
            exact hperm
          · show List.Forall₂ _ _ (s.table ++ (s.updates ++ [(tile, (s.pf.insert s.insOff (f tile packs)).2)]))
            rw [← List.append_assoc]
            exact forall₂_snoc (Written.keep a2 (fun r hr b hb => hother _ r b hb (.inl (c2 r hr).2))) ⟨rfl, hself _, rfl⟩
          · refine Written.keep a3 (fun r hr b hb => hother _ r b hb (.inr ?_))
            have := (c4 r hr).1
            unfold PackRecord.endOffset at hlS
            omega
    · intro ht hs hc
      rw [Repack.insertResult] at hr
      dsimp only at hr
      rw [ht] at hr
      dsimp only [List.getLast?_nil] at hr
      obtain ⟨c1, c2⟩ := Contig.mem hc
      have hk : ∀ r : PackRecord, r.endOffset ≤ s.pf.size → ∀ b, s.pf.get r = .ok b → (s.pf.append (f tile packs)).1.get r = .ok b :=
        fun r hr b hb => hother _ r b hb (.inl hr)
      refine ⟨_, hr.symm, rfl, rfl, hs, ?_, ?_⟩
      · show Contig 0 ((s.table ++ (s.updates ++ [(tile, (s.pf.append (f tile packs)).2)])).map (·.2)) _
        rw [← List.append_assoc, List.map_append]
        have : (s.pf.append (f tile packs)).1.size = s.pf.size + (f tile packs).length := by
          rw [PackFile.append, PackFile.insert_size]; omega
        rw [this]
        exact Contig.snoc hc
      · intro pc hg
        refine ⟨PackFile.insert_wf _ _ _ h.wf, ?_, ⟨doneU ++ [(tile, packs)], doneS, ?_, ?_, ?_⟩, hg⟩
        · exact .nil
        · show List.Perm _ ((T0.drop ([] : List TileRecord).length).map _)
          rw [← ht]
          exact hperm
        · show List.Forall₂ _ _ (s.table ++ (s.updates ++ [(tile, (s.pf.append (f tile packs)).2)]))
          rw [← List.append_assoc]
          exact forall₂_snoc (Written.keep a2 (fun r hr => hk r (c2 r hr).2)) ⟨rfl, hself _, rfl⟩
        · show List.Forall₂ _ _ s.stash
          rw [hs] at a3 ⊢
          cases a3
          exact .nil

theorem goto (h : RInv f pf0 T0 s) (pc : RepackPc) (hg : RGeo pf0 T0 (s.goto pc)) : RInv f pf0 T0 (s.goto pc) := ⟨h.wf, h.pend, h.done, hg⟩

theorem flushed (h : RInv f pf0 T0 s) (pc : RepackPc) (hg : RGeo pf0 T0 (s.flushed.goto pc)) : RInv f pf0 T0 (s.flushed.goto pc) := by
  obtain ⟨doneU, doneS, a1, a2, a3⟩ := h.done
  refine ⟨h.wf, h.pend, ⟨doneU, doneS, a1, ?_, a3⟩, hg⟩
  show List.Forall₂ _ _ ((s.table ++ s.updates) ++ [])
  rw [List.append_nil]
  exact a2

theorem front_flushed (s : Repack) : s.flushed.front = s.front := by
  unfold Repack.front Repack.flushed
  dsimp only
  rw [List.append_nil]

theorem mid_dropLast (h : RMid s) (hne : s.tasks ≠ []) {s1 : Repack} (h1 : s1.pf = s.pf) (h2 : s1.stash = s.stash) (h3 : s1.insOff = s.insOff)
    (h4 : s1.updates = s.updates) (h5 : s1.table = s.table) (h6 : s1.tasks = s.tasks.dropLast) : RMid s1 := by
  obtain ⟨⟨S, g1, g2, g3, g4⟩, g5⟩ := h
  have hp : s.pending = s1.pending ++ (s.tasks.getLast hne).records := by
    have h1 := List.dropLast_append_getLast hne
    rw [Repack.pending, Repack.pending, h6]
    conv_lhs => rw [← h1]
    rw [List.flatMap_append, List.flatMap_singleton]
  refine ⟨⟨S, ?_, ?_, ?_, ?_⟩, ?_⟩
  · rw [Repack.front, h4, h5, h3]; exact g1
  · rw [hp] at g2; exact Stacked.prefix g2
  · rw [h1, h2]; exact g3
  · rw [h3]; exact g4
  · intro r hr; rw [h3]; exact g5 r (by rw [hp]; exact List.mem_append.2 (.inl hr))

/-- Each step keeps the invariant; only the defragmentation and the last check throw. -/
theorem step (h : RInv f pf0 T0 s) (hl : Layout pf0 (T0.flatMap (·.records))) (hT : ∀ t ∈ T0, t.records ≠ []) (hf : ∀ tile packs, f tile packs ≠ [])
    {mem batch : Nat} {c : RepackChoice} {r : Res Repack} (hr : repackStep f mem batch c s = some r) :
    (∃ s', r = .ok s' ∧ RInv f pf0 T0 s') ∨ (r = .throw_ ∧ ((s.pc = .defrag ∧ ¬ Roomy pf0 s.pending) ∨ (s.pc = .check ∧ s.inflight ≠ []))) := by
  have hgeo := h.geo
  rw [repackStep.eq_def] at hr
  split at hr
  · -- fill
    rename_i n hpc
    rw [RGeo, hpc] at hgeo
    dsimp only at hgeo
    obtain ⟨g1, g2, g3, g4, g5, g6⟩ := hgeo
    split at hr
    · rename_i hc
      injection hr with hr
      obtain ⟨s1, k, e1, e2, e3, e4, e5, e6, e7, e8⟩ := h.enqueue hc.1
      rw [e1, Res.ok_bind] at hr
      refine .inl ⟨_, hr.symm, e8 _ ?_⟩
      refine ⟨e6.trans g1, e5.trans g2, e3.trans g3, e4.trans g4, e2.trans g5, ?_⟩
      show s1.tasks = T0.take s1.tasks.length
      rw [e7, List.length_dropLast]
      conv_lhs => rw [g6]
      rw [List.dropLast_eq_take, List.take_take, List.length_take]
      congr 1
      have := h.pend.length_eq
      rw [List.length_take] at this
      omega
    · injection hr with hr
      exact .inl ⟨_, hr.symm, h.goto _ ⟨g1, g2, g3, g4, g5, g6⟩⟩
  · -- defrag
    rename_i fuel hpc
    rw [RGeo, hpc] at hgeo
    dsimp only at hgeo
    obtain ⟨g1, g2, g3, g4, g5, g6⟩ := hgeo
    split at hr
    · cases hr
    · rename_i r' hd
      injection hr with hr
      have hlay : Layout s.pf (s.tasks.flatMap (·.records)) := by
        have hsub : (s.tasks.flatMap (·.records)).Sublist (T0.flatMap (·.records)) := by
          conv_rhs => rw [← List.take_append_drop s.tasks.length T0]
          rw [List.flatMap_append, ← g6]
          exact List.sublist_append_left _ _
        rw [g5]
        exact ⟨hl.wf, fun r hr => hl.inside r (hsub.subset hr), hl.apart.sublist hsub⟩
      rcases C16_every_run s.pf s.tasks hlay fuel r' hd with ⟨rfl, hn⟩ | ⟨pf', tasks', rfl, b1, b2, b3, b4⟩
      · right
        refine ⟨hr.symm, .inl ⟨hpc, ?_⟩⟩
        rw [← g5]; exact hn
      · left
        rw [Res.ok_bind] at hr
        refine ⟨_, hr.symm, ?_⟩
        obtain ⟨doneU, doneS, a1, a2, a3⟩ := h.done
        have hlen : tasks'.length = s.tasks.length := b3.length_eq.symm
        rw [g1, g2] at a2
        cases a2
        rw [g3] at a3
        cases a3
        refine ⟨b1, ?_, ⟨[], [], ?_, ?_, ?_⟩, ?_⟩
        · show SameTasks pf0 pf' (T0.take tasks'.length) tasks'
          rw [hlen]
          rw [← g6, ← g5]
          exact b3
        · show List.Perm _ ((T0.drop tasks'.length).map _)
          rw [hlen]; exact a1
        · show List.Forall₂ _ _ (s.table ++ s.updates)
          rw [g1, g2]; exact .nil
        · show List.Forall₂ _ _ s.stash
          rw [g3]; exact .nil
        · refine ⟨⟨pf'.size, ?_, b4, ?_, ?_⟩, ?_⟩
          · show Contig 0 ((s.table ++ s.updates).map (·.2)) s.insOff
            rw [g1, g2, g4]; rfl
          · show Contig pf'.size (s.stash.map (·.2)) pf'.size
            rw [g3]; rfl
          · show s.insOff ≤ _
            rw [g4]; exact Nat.zero_le _
          · intro r _
            show s.insOff ≤ _
            rw [g4]; exact Nat.zero_le _
  · -- head
    rename_i hpc
    rw [RGeo, hpc] at hgeo
    dsimp only at hgeo
    split at hr
    · rename_i hc
      injection hr with hr
      exact .inl ⟨_, hr.symm, h.goto _ ⟨⟨hgeo.1, hgeo.2⟩, hc⟩⟩
    · rename_i hc
      injection hr with hr
      exact .inl ⟨_, hr.symm, h.goto _ ⟨⟨hgeo.1, hgeo.2⟩, show s.tasks = [] by simpa using hc⟩⟩
  · -- results
    rename_i n hpc
    rw [RGeo, hpc] at hgeo
    dsimp only at hgeo
    split at hr
    · injection hr with hr
      exact .inl ⟨_, hr.symm, h.goto _ ⟨hgeo.1.1, hgeo.1.2⟩⟩
    · cases hr
  · rename_i n hpc
    rw [RGeo, hpc] at hgeo
    dsimp only at hgeo
    injection hr with hr
    exact .inl ⟨_, hr.symm, h.goto _ ⟨hgeo.1.1, hgeo.1.2⟩⟩
  · rename_i n hpc
    rw [RGeo, hpc] at hgeo
    dsimp only at hgeo
    split at hr
    · cases hr
    · injection hr with hr
      exact .inl ⟨_, hr.symm, h.goto _ ⟨⟨hgeo.1.1, hgeo.1.2⟩, hgeo.2⟩⟩
  · rename_i n i hpc
    rw [RGeo, hpc] at hgeo
    dsimp only at hgeo
    split at hr
    · cases hr
    · split at hr
      · cases hr
      · rename_i r' hd
        injection hr with hr
        obtain ⟨s1, rfl, e1, e2, e3⟩ := (h.insert hT hf hd).1 hgeo.1 hgeo.2
        rw [Res.ok_bind] at hr
        exact .inl ⟨_, hr.symm, e3 _ ⟨⟨e2.1, e2.2⟩, show s1.tasks ≠ [] by rw [e1]; exact hgeo.2⟩⟩
  · -- flush
    rename_i hpc
    rw [RGeo, hpc] at hgeo
    dsimp only at hgeo
    injection hr with hr
    refine .inl ⟨_, hr.symm, h.flushed _ ?_⟩
    obtain ⟨⟨S, g1, g2, g3, g4⟩, g5⟩ := hgeo
    exact ⟨⟨S, show Contig 0 s.flushed.front _ by rw [front_flushed]; exact g1, g2, g3, g4⟩, g5⟩
  · -- take
    rename_i n hpc
    rw [RGeo, hpc] at hgeo
    dsimp only at hgeo
    split at hr
    · rename_i hc
      injection hr with hr
      obtain ⟨s1, k, e1, e2, e3, e4, e5, e6, e7, e8⟩ := h.enqueue hc.1
      rw [e1, Res.ok_bind] at hr
      have := mid_dropLast hgeo hc.1 e2 e3 e4 e5 e6 e7
      exact .inl ⟨_, hr.symm, e8 _ ⟨this.1, this.2⟩⟩
    · injection hr with hr
      exact .inl ⟨_, hr.symm, h.goto _ ⟨hgeo.1, hgeo.2⟩⟩
  · -- stash
    rename_i hpc
    rw [RGeo, hpc] at hgeo
    dsimp only at hgeo
    obtain ⟨⟨⟨S, g1, g2, g3, g4⟩, g5⟩, g6⟩ := hgeo
    have hv : verify s.tasks.isEmpty = .ok () := by rw [g6]; rfl
    split at hr
    · rename_i hs
      injection hr with hr
      rw [hv, Res.ok_bind] at hr
      refine .inl ⟨_, hr.symm, h.goto _ ⟨g6, hs, g1, ?_⟩⟩
      rw [hs] at g3
      have : S = s.pf.size := g3
      show s.insOff ≤ s.pf.size
      omega
    · rename_i tile r' rest hs
      injection hr with hr
      rw [hv, Res.ok_bind] at hr
      obtain ⟨doneU, doneS, a1, a2, a3⟩ := h.done
      rw [hs] at a3 g3
      cases a3 with
      | @cons d _ doneS _ w a3 =>
      obtain ⟨k1, k2⟩ := g3
      dsimp only at k1 k2
      obtain ⟨c1, c2⟩ := Contig.mem g1
      obtain ⟨c3, c4⟩ := Contig.mem k2
      have wb := w.bytes
      have wsz := w.size
      dsimp only at wb wsz
      rw [PackFile.move_eq_insert _ _ _ _ h.wf wb, Res.ok_bind] at hr
      have hother := fun r c hg hd => PackFile.insert_get_other s.pf s.insOff (f d.1 d.2) h.wf r c hg hd
      have hsz : (s.pf.insert s.insOff (f d.1 d.2)).1.size = s.pf.size := by
        rw [PackFile.insert_size]
        unfold PackRecord.endOffset at c3
        omega
      refine .inl ⟨_, hr.symm, ?_⟩
      refine ⟨PackFile.insert_wf _ _ _ h.wf, ?_, ⟨doneU ++ [d], doneS, ?_, ?_, ?_⟩, ?_⟩
      · show SameTasks pf0 _ (T0.take s.tasks.length) s.tasks
        rw [g6]; exact .nil
      · show (s.inflight ++ (doneU ++ [d] ++ doneS)).Perm ((T0.drop s.tasks.length).map (origOf pf0))
        rw [List.append_assoc, List.singleton_append]; exact a1
      · show List.Forall₂ _ _ (s.table ++ (s.updates ++ [(tile, (s.pf.insert s.insOff (f d.1 d.2)).2)]))
        rw [← List.append_assoc]
        exact forall₂_snoc (Written.keep a2 (fun r hr b hb => hother r b hb (.inl (c2 r hr).2)))
          ⟨w.tile, PackFile.insert_get_self _ _ _ h.wf (hf _ _), rfl⟩
      · show List.Forall₂ (Written f _) doneS rest
        refine Written.keep a3 (fun r hr b hb => hother r b hb (.inr ?_))
        have := (c4 r hr).1
        unfold PackRecord.endOffset at this
        omega
      · rw [RGeo]
        show match s.pc with | _ => _
        rw [hpc]
        refine ⟨⟨⟨r'.endOffset, ?_, ?_, ?_, ?_⟩, ?_⟩, g6⟩
        · show Contig 0 ((s.table ++ (s.updates ++ [(tile, (s.pf.insert s.insOff (f d.1 d.2)).2)])).map (·.2)) (s.insOff + r'.size)
          rw [← List.append_assoc, List.map_append, wsz]
          exact Contig.snoc g1
        · show Stacked _ (s.tasks.flatMap (·.records))
          rw [g6]; trivial
        · show Contig _ (rest.map (·.2)) (s.pf.insert s.insOff (f d.1 d.2)).1.size
          rw [hsz]; exact k2
        · show s.insOff + r'.size ≤ r'.endOffset
          unfold PackRecord.endOffset
          omega
        · show ∀ r ∈ s.tasks.flatMap (·.records), _
          rw [g6]; intro r hr; cases hr
  · -- resize
    rename_i hpc
    rw [RGeo, hpc] at hgeo
    dsimp only at hgeo
    obtain ⟨g1, g2, g3, g4⟩ := hgeo
    injection hr with hr
    obtain ⟨doneU, doneS, a1, a2, a3⟩ := h.done
    obtain ⟨c1, c2⟩ := Contig.mem g3
    refine .inl ⟨_, hr.symm, PackFile.resize_wf _ _ h.wf, ?_, ⟨doneU, doneS, a1, ?_, ?_⟩, ?_⟩
    · show SameTasks pf0 _ (T0.take s.tasks.length) s.tasks
      rw [g1]; exact .nil
    · show List.Forall₂ _ _ (s.table ++ s.updates)
      have hpos : ∀ r ∈ (s.table ++ s.updates).map (·.2), 0 < r.size := by
        intro r hr
        obtain ⟨o, ho, rfl⟩ := List.mem_map.1 hr
        obtain ⟨k, hk, rfl⟩ := List.mem_iff_getElem.1 ho
        have hfa := List.forall₂_iff_get.1 a2
        have hw := (hfa.2 k (by rw [hfa.1]; exact hk) hk).size
        simp only [List.get_eq_getElem] at hw
        rw [hw]
        exact List.length_pos_iff.2 (hf _ _)
      refine Written.keep a2 (fun r hr b hb => PackFile.resize_get _ _ h.wf _ _ hb ?_ (c2 r hr).2)
      have h1 := (c2 r hr).2
      have h2 := hpos r hr
      unfold PackRecord.endOffset at h1
      omega
    · show List.Forall₂ _ _ s.stash
      rw [g2] at a3 ⊢
      cases a3
      exact .nil
    · refine ⟨g1, g2, ?_⟩
      show Contig 0 s.front (s.pf.resize s.insOff).size
      rw [PackFile.resize_size]
      exact g3
  · -- flushStash
    rename_i hpc
    rw [RGeo, hpc] at hgeo
    dsimp only at hgeo
    injection hr with hr
    refine .inl ⟨_, hr.symm, h.flushed _ ⟨hgeo.1, hgeo.2.1, ?_⟩⟩
    show Contig 0 s.flushed.front _
    rw [front_flushed]; exact hgeo.2.2
  · rename_i hpc
    rw [RGeo, hpc] at hgeo
    dsimp only at hgeo
    injection hr with hr
    exact .inl ⟨_, hr.symm, h.goto _ hgeo⟩
  · injection hr with hr
    exact .inl ⟨_, hr.symm, h⟩
  · rename_i i hpc
    rw [RGeo, hpc] at hgeo
    dsimp only at hgeo
    split at hr
    · cases hr
    · rename_i r' hd
      injection hr with hr
      obtain ⟨s1, rfl, e0, e1, e2, e3, e4⟩ := (h.insert hT hf hd).2 hgeo.1 hgeo.2.1 hgeo.2.2
      refine .inl ⟨s1, hr.symm, ?_⟩
      have := e4 .drain ⟨e1, e2, e3⟩
      have hs : s1.goto .drain = s1 := by rw [← hpc, ← e0]; rfl
      rwa [hs] at this
  · rename_i hpc
    rw [RGeo, hpc] at hgeo
    dsimp only at hgeo
    injection hr with hr
    refine .inl ⟨_, hr.symm, h.flushed _ ⟨hgeo.1, hgeo.2.1, rfl, ?_⟩⟩
    show Contig 0 s.flushed.front _
    rw [front_flushed]; exact hgeo.2.2
  · rename_i hpc
    rw [RGeo, hpc] at hgeo
    dsimp only at hgeo
    obtain ⟨g1, g2, g3, g4⟩ := hgeo
    injection hr with hr
    rw [show verify s.tasks.isEmpty = .ok () by rw [g1]; rfl, Res.ok_bind] at hr
    by_cases hi : s.inflight = []
    · rw [show verify s.inflight.isEmpty = .ok () by rw [hi]; rfl, Res.ok_bind] at hr
      exact .inl ⟨_, hr.symm, h.goto _ ⟨g1, g2, g3, hi, g4⟩⟩
    · right
      have : verify s.inflight.isEmpty = .throw_ := by
        cases hq : s.inflight with
        | nil => exact absurd hq hi
        | cons => rfl
      rw [this, Res.throw_bind] at hr
      exact ⟨hr.symm, .inr ⟨hpc, hi⟩⟩
  · cases hr

end RInv

end Tiles
