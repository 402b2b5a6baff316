import Verif.Props.C07
import Verif.Props.C17
/-! C18 — committed records never dangle. -/
namespace Tiles
open Spec

/-- At every time (so at every crash, of the process or by an exception in a flush): what the committed table says about an index tile
can be read from the pack file as it is at that time; it is what was stored before the run, followed by packs with values of the calls,
none more often than it was put into the bucket. -/
theorem C18_readable (crc : Bytes → UInt32) (cache : List Tile) (hfit : ∀ t ∈ cache, KeyFits t) (upper lower : Nat)
    (db : UInt64 → Option Bytes) (pf : PackFile) (hwf : pf.WF) (old : Tile → List (List Bytes))
    (hold : ∀ t ∈ cache, ∀ k, keyOfTile t = .ok k → Content pf (db k) (old t)) (calls : List (List InsCall))
    (hlen : ∀ t ∈ cache, ∀ v ∈ allPlaced cache calls t, v.length < 2 ^ 64)
    (s : InsShared × List InsPc) (h : InsRun crc cache upper lower db pf calls s) (hpf : s.1.pf.size < 2 ^ 64) :
    ∀ t ∈ cache, ∀ k, keyOfTile t = .ok k →
      ∃ new, Content s.1.pf (s.1.db k) (old t ++ new) ∧ ∀ v, new.flatten.count v ≤ (allPlaced cache calls t).count v := by
  obtain ⟨hsh, new, cnew, hst⟩ := ins_run (packs_unpacks crc) hfit hwf hold hlen h hpf
  intro t ht k hk
  refine ⟨cnew t, hst.table t ht k hk, fun v => ?_⟩
  have h1 := hst.most t ht v
  have h2 : (cnew t).flatten.count v ≤ (new t).flatten.count v := by
    obtain ⟨m, hm⟩ := hst.pre t
    rw [← hm, List.flatten_append, List.count_append]
    omega
  omega

/-- No committed record dangles: each lies inside of what has been appended to the pack file, and reads back. -/
theorem C18_no_dangling (crc : Bytes → UInt32) (cache : List Tile) (hfit : ∀ t ∈ cache, KeyFits t) (upper lower : Nat)
    (db : UInt64 → Option Bytes) (pf : PackFile) (hwf : pf.WF) (old : Tile → List (List Bytes))
    (hold : ∀ t ∈ cache, ∀ k, keyOfTile t = .ok k → Content pf (db k) (old t)) (calls : List (List InsCall))
    (hlen : ∀ t ∈ cache, ∀ v ∈ allPlaced cache calls t, v.length < 2 ^ 64)
    (s : InsShared × List InsPc) (h : InsRun crc cache upper lower db pf calls s) (hpf : s.1.pf.size < 2 ^ 64) :
    ∀ t ∈ cache, ∀ k, keyOfTile t = .ok k → ∀ dat, s.1.db k = some dat →
      ∃ recs, packRecordsDeserialize dat = .ok recs ∧ ∀ r ∈ recs, r.endOffset ≤ s.1.pf.size ∧ ∃ p, s.1.pf.get r = .ok p := by
  intro t ht k hk dat hd
  obtain ⟨new, h1, _⟩ := C18_readable crc cache hfit upper lower db pf hwf old hold calls hlen s h hpf t ht k hk
  rw [hd] at h1
  obtain ⟨recs, h2, h3⟩ := h1
  refine ⟨recs, h2, fun r hr => ?_⟩
  have : ∃ fs, ∃ p, s.1.pf.get r = .ok p ∧ Unpacks p fs := by
    clear h2
    generalize old t ++ new = l at h3
    induction h3 with
    | nil => cases hr
    | cons h1 _ ih =>
      rcases List.mem_cons.1 hr with rfl | hr
      · exact ⟨_, h1⟩
      · exact ih hr
  obtain ⟨_, p, hp, _⟩ := this
  exact ⟨((PackFile.get_eq_ok_iff ..).1 hp).2.1, p, hp⟩

/-- What was readable before stays readable with the same bytes during the whole run. -/
theorem C18_old_records_kept (crc : Bytes → UInt32) (cache : List Tile) (upper lower : Nat)
    (db : UInt64 → Option Bytes) (pf : PackFile) (hwf : pf.WF) (calls : List (List InsCall))
    (s : InsShared × List InsPc) (h : InsRun crc cache upper lower db pf calls s) (r : PackRecord) (b : Bytes) (hr : pf.get r = .ok b) :
    s.1.pf.get r = .ok b := by
  have : s.1.pf.WF ∧ s.1.pf.get r = .ok b := by
    induction h with
    | refl => exact ⟨hwf, hr⟩
    | step _ st ih =>
      obtain ⟨s, s', a, b', p, p', hst⟩ := st
      have hst := insTr_of_step hst
      dsimp only at ih ⊢
      cases hst with
      | write t fs q k view view' pf' h1 hw =>
        rw [writeBucket, Res.bind_eq_ok] at hw
        obtain ⟨k, _, h⟩ := hw
        rw [Res.bind_eq_ok] at h
        obtain ⟨p, _, h⟩ := h
        dsimp only at h
        have fin : (s.pf.append p).1 = pf' → pf'.WF ∧ pf'.get r = .ok b := by
          intro h; rw [← h]; exact ⟨PackFile.insert_wf _ _ _ ih.1, append_get ih.1 p ih.2⟩
        cases hv : view k with
        | none =>
          rw [hv] at h
          dsimp only at h
          rw [Res.ok_bind, Res.pure_eq] at h
          injection h with h; injection h with _ e2
          exact fin e2
        | some dat =>
          rw [hv] at h
          dsimp only at h
          rw [Res.bind_eq_ok] at h
          obtain ⟨_, _, h⟩ := h
          rw [Res.pure_eq] at h
          injection h with h; injection h with _ e2
          exact fin e2
      | _ => exact ih
  exact this.2

/-- After a crash the pack file is opened again without having been closed: the table still leads to the same packs, provided that no pack
ends with a zero byte. -/
theorem C18_after_crash (pf : PackFile) (hwf : pf.WF) (val : Option Bytes) (packs : List (List Bytes)) (hc : Content pf val packs)
    (hz : ∀ dat recs r p, val = some dat → packRecordsDeserialize dat = .ok recs → r ∈ recs → pf.get r = .ok p → p.getLast? ≠ some 0) :
    Content pf.reopen val packs := by
  cases val with
  | none => exact hc
  | some dat =>
    obtain ⟨recs, h1, h2⟩ := hc
    refine ⟨recs, h1, ?_⟩
    have hz' := fun r p hr hp => hz dat recs r p rfl h1 hr hp
    clear hz h1
    induction h2 with
    | nil => exact .nil
    | cons h1 _ ih =>
      rename_i r fs rs l _
      refine .cons ?_ (ih (fun r p hr hp => hz' r p (List.mem_cons_of_mem _ hr) hp))
      obtain ⟨p, h3, n, h4⟩ := h1
      refine ⟨p, ?_, n, h4⟩
      have hl := hz' r p (by simp) h3
      rcases List.eq_nil_or_concat p with rfl | ⟨b, c, rfl⟩
      · rw [C11_short_pack_refused [] (by decide)] at h4; cases h4
      · rw [List.concat_eq_append] at hl h3 ⊢
        refine PackFile.C07_crash_reopen pf hwf r b c h3 ?_
        rintro rfl
        simp at hl

/-- Without the proviso it is false: a pack ends with its checksum, and when the last byte of that is zero and the process is killed after
the commit, the record is refused after opening the pack file again. -/
theorem C18_zero_tail_lost : ∃ (crc : Bytes → UInt32) (s : InsShared × List InsPc) (dat : Bytes) (r : PackRecord),
    InsRun crc [⟨0, 0, 10⟩] 10 10 (fun _ => none) ⟨[], 0⟩ [[.value ⟨0, 0, 10⟩ (List.replicate 32 1)]] s ∧
    s.1.db 5764607523034234880 = some dat ∧ packRecordsDeserialize dat = .ok [r] ∧ (∃ p, s.1.pf.get r = .ok p) ∧ s.1.pf.reopen.get r = .throw_ := by
  have hrun : ∃ s, runSched (insStep (fun _ => 7) [⟨0, 0, 10⟩] 10 10) (insInit (fun _ => none) ⟨[], 0⟩ [[.value ⟨0, 0, 10⟩ (List.replicate 32 1)]])
      [1, 1, 1, 1, 1, 1, 1, 1, 1, 1, 1, 1, 1, 1] = some s ∧ s.1.db 5764607523034234880 = some (packRecordsSerialize [⟨0, s.1.pf.size⟩]) ∧
      (match s.1.pf.get ⟨0, s.1.pf.size⟩ with | .ok _ => true | _ => false) = true ∧ s.1.pf.reopen.get ⟨0, s.1.pf.size⟩ = .throw_ ∧ s.1.pf.size < 2 ^ 64 := by
    have h : (match runSched (insStep (fun _ => 7) [⟨0, 0, 10⟩] 10 10) (insInit (fun _ => none) ⟨[], 0⟩ [[.value ⟨0, 0, 10⟩ (List.replicate 32 1)]])
      [1, 1, 1, 1, 1, 1, 1, 1, 1, 1, 1, 1, 1, 1] with
      | some s => decide (s.1.db 5764607523034234880 = some (packRecordsSerialize [⟨0, s.1.pf.size⟩])) &&
        (match s.1.pf.get ⟨0, s.1.pf.size⟩ with | .ok _ => true | _ => false) && decide (s.1.pf.reopen.get ⟨0, s.1.pf.size⟩ = .throw_) &&
        decide (s.1.pf.size < 2 ^ 64)
      | none => false) = true := by decide +kernel
    revert h
    generalize runSched _ _ _ = o
    intro h
    cases o with
    | none => exact absurd h Bool.false_ne_true
    | some s =>
      simp only [Bool.and_eq_true, decide_eq_true_eq] at h
      exact ⟨s, rfl, h.1.1.1, h.1.1.2, h.1.2, h.2⟩
  obtain ⟨s, h1, h2, h3, h4, h5⟩ := hrun
  refine ⟨fun _ => 7, s, _, ⟨0, s.1.pf.size⟩, runSched_reach .refl h1, h2, ?_, ?_, h4⟩
  · exact C05_records_round_trip _ (by intro r hr; rw [List.mem_singleton] at hr; subst hr; exact ⟨by dsimp only; omega, h5⟩)
  · split at h3
    · exact ⟨_, by assumption⟩
    · cases h3

end Tiles
