import Verif.Proof.PackDb
import Verif.Props.C17
/-! The table the inserter writes is an index into the pack file. -/
namespace Tiles
open Spec

/-- the table holds lists of records, none empty; the records of the whole table lie inside of the pack file, are not empty and do not overlap -/
def Spec.LaidOut (pf : PackFile) (view : UInt64 → Option Bytes) : Prop :=
  ∃ es : List (UInt64 × List PackRecord), (es.map (·.1)).Nodup ∧ (∀ e ∈ es, e.2 ≠ []) ∧ Layout pf (es.flatMap (·.2)) ∧
    ∀ k v, view k = some v ↔ ∃ rs, (k, rs) ∈ es ∧ v = packRecordsSerialize rs

theorem laidOut_empty (pf : PackFile) (h : pf.WF) : LaidOut pf (fun _ => none) :=
  ⟨[], by simp, by simp, ⟨h, by simp, by simp⟩, by simp⟩

theorem layout_append {pf : PackFile} {rs : List PackRecord} (h : Layout pf rs) (p : Bytes) : Layout (pf.append p).1 rs := by
  refine ⟨PackFile.insert_wf _ _ _ h.wf, fun r hr => ?_, h.apart⟩
  have := h.inside r hr
  rw [append_size]; omega

theorem laidOut_append {pf : PackFile} {view : UInt64 → Option Bytes} (h : LaidOut pf view) (p : Bytes) : LaidOut (pf.append p).1 view := by
  obtain ⟨es, h1, h2, h3, h4⟩ := h
  exact ⟨es, h1, h2, layout_append h3 p, h4⟩

theorem layout_perm {pf : PackFile} {rs rs' : List PackRecord} (h : Layout pf rs) (hp : rs.Perm rs') : Layout pf rs' :=
  ⟨h.wf, fun r hr => h.inside r (hp.mem_iff.2 hr), (hp.pairwise_iff (fun h => h.symm)).1 h.apart⟩

/-- the new record -/
theorem layout_new {pf : PackFile} {rs rs' : List PackRecord} (h : Layout pf rs) {p : Bytes} (hp : p ≠ []) (hr : rs'.Perm ((pf.append p).2 :: rs)) :
    Layout (pf.append p).1 rs' := by
  refine layout_perm ⟨PackFile.insert_wf _ _ _ h.wf, ?_, ?_⟩ hr.symm
  · intro r hr
    rcases List.mem_cons.1 hr with rfl | hr
    · rw [append_size]
      have : 0 < p.length := List.length_pos_iff.2 hp
      exact ⟨this, by show pf.size + p.length ≤ _; omega⟩
    · have := h.inside r hr
      rw [append_size]; omega
  · refine List.pairwise_cons.2 ⟨fun r hr => .inr ?_, h.apart⟩
    exact (h.inside r hr).2

theorem laidOut_put {pf : PackFile} {view : UInt64 → Option Bytes} (h : LaidOut pf view) {p : Bytes} (hp : p ≠ []) {k : UInt64} {v : Bytes}
    (hv : (match view k with | some dat => packRecordsUpdate dat (pf.append p).2 | none => .ok (packRecordsSerialize [(pf.append p).2])) = .ok v) :
    LaidOut (pf.append p).1 (fun k' => if k' = k then some v else view k') := by
  obtain ⟨es, h1, h2, h3, h4⟩ := h
  cases hk : view k with
  | none =>
    rw [hk] at hv
    injection hv with hv
    subst hv
    refine ⟨(k, [(pf.append p).2]) :: es, ?_, ?_, ?_, ?_⟩
    · refine List.nodup_cons.2 ⟨fun hc => ?_, h1⟩
      obtain ⟨e, he, rfl⟩ := List.mem_map.1 hc
      have := (h4 e.1 _).2 ⟨e.2, he, rfl⟩
      rw [hk] at this; cases this
    · intro e he
      rcases List.mem_cons.1 he with rfl | he
      · simp
      · exact h2 e he
    · exact layout_new h3 hp (by rw [List.flatMap_cons]; exact .refl _)
    · intro k' v'
      by_cases hc : k' = k
      · subst hc
        simp only [if_true, List.mem_cons, Option.some.injEq, Prod.mk.injEq, true_and]
        constructor
        · rintro rfl; exact ⟨_, .inl rfl, rfl⟩
        · rintro ⟨rs, rfl | hr, rfl⟩
          · rfl
          · have := (h4 k' _).2 ⟨rs, hr, rfl⟩
            rw [hk] at this; cases this
      · simp only [hc, if_false, List.mem_cons, Prod.mk.injEq, false_and, false_or]
        exact h4 k' v'
  | some dat =>
    rw [hk] at hv
    obtain ⟨rs, hm, rfl⟩ := (h4 k dat).1 hk
    obtain ⟨a, b, rfl⟩ := List.append_of_mem hm
    have hv' : v = packRecordsSerialize (rs ++ [(pf.append p).2]) := by
      dsimp only at hv
      rw [packRecordsUpdate, Res.bind_eq_ok] at hv
      obtain ⟨_, _, hv⟩ := hv
      injection hv with hv
      rw [← hv]; simp [packRecordsSerialize]
    subst hv'
    have hk1 : ∀ e ∈ a ++ b, e.1 ≠ k := by
      intro e he hc
      rw [List.map_append, List.map_cons, List.nodup_middle, List.nodup_cons, ← List.map_append] at h1
      exact h1.1 (List.mem_map.2 ⟨e, he, hc⟩)
    refine ⟨a ++ (k, rs ++ [(pf.append p).2]) :: b, by simpa using h1, ?_, ?_, ?_⟩
    · intro e he
      rcases List.mem_append.1 he with he | he
      · exact h2 e (by simp [he])
      · rcases List.mem_cons.1 he with rfl | he
        · simp
        · exact h2 e (by simp [he])
    · refine layout_new h3 hp ?_
      simp only [List.flatMap_append, List.flatMap_cons, List.append_assoc]
      rw [← List.append_assoc, ← List.append_assoc (bs := rs), List.append_assoc]
      have : ∀ (x y : List PackRecord) (r : PackRecord), (x ++ ([r] ++ y)).Perm (r :: (x ++ y)) := fun x y r => List.perm_middle
      simpa [List.append_assoc] using this (a.flatMap (·.2) ++ rs) (b.flatMap (·.2)) (pf.append p).2
    · intro k' v'
      by_cases hc : k' = k
      · subst hc
        have hno : ∀ r, (k', r) ∉ a ++ b := fun r hr => hk1 _ hr rfl
        simp only [List.mem_append, not_or] at hno
        simp only [if_true, Option.some.injEq, List.mem_append, List.mem_cons, Prod.mk.injEq, true_and]
        constructor
        · rintro rfl; exact ⟨_, .inr (.inl rfl), rfl⟩
        · rintro ⟨r, hr | rfl | hr, rfl⟩
          · exact absurd hr (hno r).1
          · rfl
          · exact absurd hr (hno r).2
      · simp only [hc, if_false]
        rw [h4 k' v']
        simp [hc]

theorem packPlain_ne {crc : Bytes → UInt32} {fs : List Bytes} {p : Bytes} (h : packFeaturesPlain crc fs = .ok p) : p ≠ [] := by
  rw [packFeaturesPlain, Res.bind_eq_ok] at h
  obtain ⟨hd, _, h⟩ := h
  rw [Res.bind_eq_ok] at h
  obtain ⟨b, _, h⟩ := h
  injection h with h
  rw [← h, finishPack]
  intro hc
  have := congrArg List.length hc
  simp [leBytes] at this

theorem laidOut_write {crc : Bytes → UInt32} {view view' : UInt64 → Option Bytes} {pf pf' : PackFile} {t : Tile} {fs : List Bytes}
    (h : writeBucket crc view pf t fs = .ok (view', pf')) (hl : LaidOut pf view) : LaidOut pf' view' ∧ ∃ p, pf' = (pf.append p).1 := by
  rw [writeBucket, Res.bind_eq_ok] at h
  obtain ⟨k, hk, h⟩ := h
  rw [Res.bind_eq_ok] at h
  obtain ⟨p, hp, h⟩ := h
  dsimp only at h
  have hne := packPlain_ne hp
  cases hvk : view k with
  | none =>
    rw [hvk] at h
    dsimp only at h
    rw [Res.ok_bind, Res.pure_eq] at h
    injection h with h; injection h with e1 e2
    subst e1; subst e2
    exact ⟨laidOut_put hl hne (by rw [hvk]), p, rfl⟩
  | some dat =>
    rw [hvk] at h
    dsimp only at h
    rw [Res.bind_eq_ok] at h
    obtain ⟨v, hv, h⟩ := h
    rw [Res.pure_eq] at h
    injection h with h; injection h with e1 e2
    subst e1; subst e2
    exact ⟨laidOut_put hl hne (by rw [hvk]; exact hv), p, rfl⟩

/-- at every time of a run -/
theorem ins_laid {crc : Bytes → UInt32} {cache : List Tile} {upper lower : Nat} {db : UInt64 → Option Bytes} {pf : PackFile} {calls : List (List InsCall)}
    {s : InsShared × List InsPc} (h : InsRun crc cache upper lower db pf calls s) (hl : LaidOut pf db) :
    LaidOut s.1.pf s.1.db ∧ ∀ view, s.1.txn = some view → LaidOut s.1.pf view := by
  induction h with
  | refl => exact ⟨hl, by intro v hv; cases hv⟩
  | step _ st ih =>
    obtain ⟨s, s', a, b, p, p', hst⟩ := st
    have hst := insTr_of_step hst
    dsimp only at ih ⊢
    cases hst with
    | begin q k ht => exact ⟨ih.1, by intro v hv; injection hv with hv; subst hv; exact ih.1⟩
    | write t fs q k view view' pf' ht hw =>
      obtain ⟨h1, p, rfl⟩ := laidOut_write hw (ih.2 _ ht)
      exact ⟨laidOut_append ih.1 p, by intro v hv; injection hv with hv; subst hv; exact h1⟩
    | fail => exact ⟨ih.1, by intro v hv; cases hv⟩
    | commit k view ht => exact ⟨ih.2 _ ht, by intro v hv; cases hv⟩
    | _ => exact ih

/-- The entries of such a table, in key order, are an index. -/
theorem laidOut_index {pf : PackFile} {view : UInt64 → Option Bytes} (h : LaidOut pf view) (hsz : pf.size < 2 ^ 64) {entries : List (UInt64 × Bytes)}
    (hs : DbSorted entries) (he : ∀ k v, (k, v) ∈ entries ↔ view k = some v) : ∃ es, Index pf es ∧ entries = stored es := by
  obtain ⟨es, h1, h2, h3, h4⟩ := h
  let g : UInt64 × List PackRecord → UInt64 × Bytes := fun e => (e.1, packRecordsSerialize e.2)
  let d : UInt64 × Bytes → UInt64 × List PackRecord := fun e => (e.1, match packRecordsDeserialize e.2 with | .ok rs => rs | _ => [])
  have hfit : ∀ e ∈ es, d (g e) = e := by
    intro e he
    have : packRecordsDeserialize (packRecordsSerialize e.2) = .ok e.2 := C05_records_round_trip _ (by
      intro r hr
      have := h3.inside r (List.mem_flatMap.2 ⟨e, he, hr⟩)
      unfold PackRecord.endOffset at this
      exact ⟨by omega, by omega⟩)
    show (e.1, _) = e
    dsimp only [g]
    rw [this]
  have hperm : entries.Perm (es.map g) := by
    rw [List.perm_ext_iff_of_nodup]
    · rintro ⟨k, v⟩
      rw [he, h4, List.mem_map]
      constructor
      · rintro ⟨rs, hr, rfl⟩; exact ⟨_, hr, rfl⟩
      · rintro ⟨e, hr, h⟩
        injection h with e1 e2
        exact ⟨e.2, by rw [← e1]; exact hr, e2.symm⟩
    · exact hs.imp (by rintro a b h rfl; exact absurd h (UInt64.lt_irrefl _))
    · refine List.Nodup.of_map (·.1) ?_
      rw [List.map_map]
      exact h1
  have hd : (entries.map d).Perm es := by
    refine (hperm.map d).trans ?_
    rw [List.map_map]
    have : es.map (d ∘ g) = es := by
      conv_rhs => rw [← List.map_id es]
      exact List.map_congr_left (fun e he => hfit e he)
    rw [this]
  have hst : entries = stored (entries.map d) := by
    unfold stored
    rw [List.map_map]
    conv_lhs => rw [← List.map_id entries]
    refine List.map_congr_left (fun e he => ?_)
    obtain ⟨e', he', rfl⟩ := List.mem_map.1 (hperm.mem_iff.1 he)
    show g e' = g (d (g e'))
    rw [hfit e' he']
  refine ⟨entries.map d, ⟨?_, ?_, ?_, hsz⟩, hst⟩
  · unfold DbSorted
    rw [List.pairwise_map]
    exact hs
  · intro e he
    exact h2 e (hd.mem_iff.1 he)
  · exact layout_perm h3 (hd.symm.flatMap_right _)

end Tiles
