import Verif.Model.SharedFile
import Verif.Props.C54
/-!
C61 — a server that keeps running while the data is imported anew by another process.
-/
namespace Tiles
open Spec

/-- What the other process can read is read by this one with the same bytes if it lies inside of the size this process knows; otherwise an
exception is thrown.  -/
theorem shared_get {b : PackFile} (hwf : b.WF) (hsz : b.size < 2 ^ 64) {r : PackRecord} {x : Bytes} (h : b.get r = .ok x) (n : Nat) :
    (seenBy b.data n).get r = if r.offset < n ∧ r.endOffset ≤ n then .ok x else .throw_ := by
  obtain ⟨h1, h2, h3⟩ := (PackFile.get_eq_ok_iff ..).1 h
  split
  · rename_i hc
    exact (PackFile.get_eq_ok_iff ..).2 ⟨hc.1, hc.2, h3⟩
  · rename_i hc
    unfold PackRecord.endOffset at h2 hc
    unfold PackFile.get seenBy
    dsimp only
    rw [Nat.mod_eq_of_lt (by omega), show (decide (r.offset < n) && decide (r.offset + r.size ≤ n)) = false by
      rw [Bool.eq_false_iff]; intro h; rw [Bool.and_eq_true, decide_eq_true_eq, decide_eq_true_eq] at h; exact hc h, verify_false, Res.throw_bind]

/-- Reading is then never behind the end of the file. -/
theorem shared_read {b : PackFile} (hwf : b.WF) (hsz : b.size < 2 ^ 64) {r : PackRecord} {x : Bytes} (h : b.get r = .ok x) (n : Nat) :
    readShared b.data n r = if r.offset < n ∧ r.endOffset ≤ n then .ok x else .throw_ := by
  rw [readShared, shared_get hwf hsz h]
  have h2 := ((PackFile.get_eq_ok_iff ..).1 h).2.1
  unfold PackRecord.endOffset at h2
  unfold PackFile.WF at hwf
  split
  · rw [Res.ok_bind, if_pos (by omega)]; rfl
  · rfl

/-- the values of the table can be read from both files, with the same bytes -/
def BothRead (features : List (UInt64 × Bytes)) (a b : PackFile) : Prop :=
  ∀ e ∈ features, ∃ rs, packRecordsDeserialize e.2 = .ok rs ∧ ∀ r ∈ rs, ∃ x, a.get r = .ok x ∧ b.get r = .ok x

/-- all records of the table lie inside of the first `n` bytes -/
def Spec.Within (features : List (UInt64 × Bytes)) (n : Nat) : Prop :=
  ∀ e ∈ features, ∀ rs, packRecordsDeserialize e.2 = .ok rs → ∀ r ∈ rs, r.offset < n ∧ r.endOffset ≤ n

theorem packsOf_shared {features : List (UInt64 × Bytes)} {a b : PackFile} (hwf : b.WF) (hsz : b.size < 2 ^ 64) (h : BothRead features a b) (n : Nat)
    (q : Tile) : (packsOf features (seenBy b.data n) q = packsOf features a q ∨ packsOf features (seenBy b.data n) q = .throw_) ∧
      (Within features n → packsOf features (seenBy b.data n) q = packsOf features a q) := by
  unfold packsOf
  cases hs : scanQuery features q with
  | ok es =>
    rw [Res.ok_bind, Res.ok_bind]
    have hm := scanRows_mem (b := q.boundsOnZ kTileDefaultIndexZoomLvl) hs
    clear hs
    induction es with
    | nil => exact ⟨.inl rfl, fun _ => rfl⟩
    | cons e es ih =>
      obtain ⟨d, hd, he⟩ := hm e (by simp)
      obtain ⟨rs, h1, h2⟩ := h d hd
      have hrec : ∀ rs : List PackRecord, (∀ r ∈ rs, ∃ x, a.get r = .ok x ∧ b.get r = .ok x) → ∃ ps, fetchRecords a e.1 rs = .ok ps ∧
          (fetchRecords (seenBy b.data n) e.1 rs = .ok ps ∨ fetchRecords (seenBy b.data n) e.1 rs = .throw_) ∧
          ((∀ r ∈ rs, r.offset < n ∧ r.endOffset ≤ n) → fetchRecords (seenBy b.data n) e.1 rs = .ok ps) := by
        intro rs
        induction rs with
        | nil => intro _; exact ⟨[], rfl, .inl rfl, fun _ => rfl⟩
        | cons r rs ih =>
          intro h
          obtain ⟨x, hx, hx'⟩ := h r (by simp)
          obtain ⟨ps, i1, i2, i3⟩ := ih fun r hr => h r (by simp [hr])
          refine ⟨(e.1, x) :: ps, by rw [fetchRecords, hx, Res.ok_bind, i1]; rfl, ?_, ?_⟩
          · rw [fetchRecords, shared_get hwf hsz hx']
            split
            · rw [Res.ok_bind]
              rcases i2 with i2 | i2 <;> rw [i2]
              · exact .inl rfl
              · exact .inr rfl
            · exact .inr rfl
          · intro hw
            rw [fetchRecords, shared_get hwf hsz hx', if_pos (hw r (by simp)), Res.ok_bind, i3 fun r hr => hw r (by simp [hr])]
            rfl
      obtain ⟨ps, i1, i2, i3⟩ := hrec rs h2
      obtain ⟨j1, j2⟩ := ih fun e he => hm e (by simp [he])
      have h1' := h1
      rw [← he] at h1'
      rw [fetchValues, fetchValues, h1', Res.ok_bind, Res.ok_bind, i1, Res.ok_bind]
      refine ⟨?_, fun hw => ?_⟩
      · rcases i2 with i2 | i2 <;> rw [i2]
        · rw [Res.ok_bind]
          rcases j1 with j1 | j1 <;> rw [j1]
          · exact .inl rfl
          · exact .inr rfl
        · exact .inr rfl
      · rw [i3 (hw d hd rs h1), Res.ok_bind, j2 hw]
  | throw_ => exact ⟨.inl rfl, fun _ => rfl⟩
  | ub => exact ⟨.inl rfl, fun _ => rfl⟩

theorem getTile_shared {features : List (UInt64 × Bytes)} {a b : PackFile} (hwf : b.WF) (hsz : b.size < 2 ^ 64) (h : BothRead features a b) (n : Nat)
    (tiles : UInt64 → Option Bytes) (ctx : GetCtx) (q : Tile) :
    (getTile tiles features (seenBy b.data n) ctx q = getTile tiles features a ctx q ∨ getTile tiles features (seenBy b.data n) ctx q = .throw_) ∧
      (Within features n → getTile tiles features (seenBy b.data n) ctx q = getTile tiles features a ctx q) := by
  obtain ⟨h1, h2⟩ := packsOf_shared hwf hsz h n q
  unfold getTile
  cases hv : verify (decide (q.z ≤ kMaxZoomLevel)) with
  | ok u =>
    rw [Res.ok_bind, Res.ok_bind]
    split
    · exact ⟨.inl rfl, fun _ => rfl⟩
    · refine ⟨?_, fun hw => by rw [h2 hw]⟩
      rcases h1 with h1 | h1 <;> rw [h1]
      · exact .inl rfl
      · exact .inr rfl
  | throw_ => exact ⟨.inl rfl, fun _ => rfl⟩
  | ub => exact ⟨.inl rfl, fun _ => rfl⟩

theorem shared_all {features : List (UInt64 × Bytes)} {a b : PackFile} (hwf : b.WF) (hsz : b.size < 2 ^ 64) (h : BothRead features a b) (n : Nat)
    (tiles : UInt64 → Option Bytes) (ctx : GetCtx) (q : Tile) :
    (getTile tiles features (seenBy b.data n) ctx q = getTile tiles features a ctx q ∨ getTile tiles features (seenBy b.data n) ctx q = .throw_) ∧
    (Within features n → getTile tiles features (seenBy b.data n) ctx q = getTile tiles features a ctx q) ∧
    (∀ e ∈ features, ∃ rs, packRecordsDeserialize e.2 = .ok rs ∧ ∀ r ∈ rs, readShared b.data n r ≠ .ub) := by
  obtain ⟨h1, h2⟩ := getTile_shared hwf hsz h n tiles ctx q
  refine ⟨h1, h2, fun e hm => ?_⟩
  obtain ⟨rs, i1, i2⟩ := h e hm
  refine ⟨rs, i1, fun r hr' => ?_⟩
  obtain ⟨x, _, hx⟩ := i2 r hr'
  rw [shared_read hwf hsz hx]
  split <;> simp

/-! ### requests while features are inserted -/

/-- the states that follow on a state of a run of the inserter -/
abbrev Spec.InsLater (crc : Bytes → UInt32) (cache : List Tile) (upper lower : Nat) (s s' : InsShared × List InsPc) : Prop :=
  Reach (ThreadStep (insStep crc cache upper lower)) s s'

/-- Inserting only appends. -/
theorem insLater_keeps {crc : Bytes → UInt32} {cache : List Tile} {upper lower : Nat} {s s' : InsShared × List InsPc}
    (h : InsLater crc cache upper lower s s') (hwf : s.1.pf.WF) :
    Keeps s.1.pf s'.1.pf ∧ s.1.pf.size ≤ s'.1.pf.size ∧ (s.1.pf.CleanTail → s'.1.pf.CleanTail) := by
  induction h with
  | refl => exact ⟨keeps_refl hwf, Nat.le_refl _, id⟩
  | step _ st ih =>
    obtain ⟨s1, s', a, b', p, p', hst⟩ := st
    have hst := insTr_of_step hst
    dsimp only at ih ⊢
    cases hst with
    | write t fs q k view view' pf' h1 hw =>
      rw [writeBucket, Res.bind_eq_ok] at hw
      obtain ⟨k, _, h⟩ := hw
      rw [Res.bind_eq_ok] at h
      obtain ⟨p, _, h⟩ := h
      dsimp only at h
      have fin : (s1.pf.append p).1 = pf' → Keeps s.1.pf pf' ∧ s.1.pf.size ≤ pf'.size ∧ (s.1.pf.CleanTail → pf'.CleanTail) := by
        intro h
        rw [← h]
        refine ⟨⟨PackFile.insert_wf _ _ _ ih.1.1, fun r x hr => append_get ih.1.1 p (ih.1.2 r x hr)⟩, ?_,
          fun hc => (PackFile.C07_zero_filled _ ih.1.1 (ih.2.2 hc) _ _).1⟩
        rw [append_size]; omega
      cases hv : view k with
      | none =>
        rw [hv] at h
        dsimp only at h
        rw [Res.ok_bind, Res.pure_eq] at h
        injection h with h; injection h with _ e2
        exact fin e2
      | some dat =>
        rw [hv] at h
        dsimp only at h
        rw [Res.bind_eq_ok] at h
        obtain ⟨_, _, h⟩ := h
        rw [Res.pure_eq] at h
        injection h with h; injection h with _ e2
        exact fin e2
    | _ => exact ih

theorem laidOut_readable {pf : PackFile} {view : UInt64 → Option Bytes} (h : LaidOut pf view) (hsz : pf.size < 2 ^ 64) {features : List (UInt64 × Bytes)}
    (he : EntriesOf view features) {pf' : PackFile} (hk : Keeps pf pf') : BothRead features pf pf' := by
  obtain ⟨es, h1, h2, h3, h4⟩ := h
  intro e hm
  obtain ⟨rs, hr, hv⟩ := (h4 e.1 e.2).1 ((he.same e.1 e.2).1 hm)
  have hin : ∀ r ∈ rs, 0 < r.size ∧ r.endOffset ≤ pf.size := fun r hr' => h3.inside r (List.mem_flatMap.2 ⟨_, hr, hr'⟩)
  refine ⟨rs, ?_, fun r hr' => ?_⟩
  · rw [hv]
    refine C05_records_round_trip _ (fun r hr' => ?_)
    have := hin r hr'
    unfold PackRecord.endOffset at this
    exact ⟨by omega, by omega⟩
  · have := hin r hr'
    have hg := (PackFile.get_eq_ok_iff pf r _).2 ⟨by unfold PackRecord.endOffset at this; omega, this.2, rfl⟩
    exact ⟨_, hg, hk.2 _ _ hg⟩

/-- While another process inserts features (after it has emptied database and pack file): a request whose view of the database was taken in
the state `s`, and that reads the pack file in the state `s'`, is answered by a server with any pack file size `n` exactly as by a process
that sees all of the file of `s`, or it fails with an exception; and it does not fail if the records of the view lie inside of these `n` bytes.
No read is behind the end of the file. -/
theorem C61_loading (crc : Bytes → UInt32) (cache : List Tile) (upper lower : Nat) (calls : List (List InsCall)) (s s' : InsShared × List InsPc)
    (h : InsRun crc cache upper lower (fun _ => none) ⟨[], 0⟩ calls s) (h' : InsLater crc cache upper lower s s') (hsz : s'.1.pf.size < 2 ^ 64)
    (features : List (UInt64 × Bytes)) (he : EntriesOf s.1.db features) (n : Nat) (tiles : UInt64 → Option Bytes) (ctx : GetCtx) (q : Tile) :
    (getTile tiles features (seenBy s'.1.pf.data n) ctx q = getTile tiles features s.1.pf ctx q ∨
      getTile tiles features (seenBy s'.1.pf.data n) ctx q = .throw_) ∧
    (Within features n → getTile tiles features (seenBy s'.1.pf.data n) ctx q = getTile tiles features s.1.pf ctx q) ∧
    (∀ e ∈ features, ∃ rs, packRecordsDeserialize e.2 = .ok rs ∧ ∀ r ∈ rs, readShared s'.1.pf.data n r ≠ .ub) := by
  have hwf : s.1.pf.WF := (insLater_keeps h (show (PackFile.mk [] 0).WF by decide)).1.1
  obtain ⟨hk, hle, _⟩ := insLater_keeps h' hwf
  exact shared_all hk.1 hsz (laidOut_readable (ins_laid h (laidOut_empty _ (by decide))).1 (by omega) he hk) n tiles ctx q

theorem packDb_wf {f : Tile → List Bytes → Bytes} {mem batch : Nat} {pf : PackFile} {es : List (UInt64 × List PackRecord)} (hx : Index pf es)
    (hf : ∀ tile packs, f tile packs ≠ []) {s : PackDb} (h : PackReach f mem batch (stored es) (packDbInit (stored es) pf) s) : s.file.WF := by
  obtain ⟨tasks, ht, hg⟩ := packTasks_index hx
  obtain ⟨h1, h2⟩ := packDb_reach hx ht hg hf h
  have hl : Layout pf (tasks.flatMap (·.records)) := by rw [hg.flat]; exact hx.layout
  cases hrun : s.run with
  | none => rw [PackDb.file, hrun]; dsimp only; rw [h1]; exact hx.layout.wf
  | some r0 =>
    rw [hrun] at h2
    rw [PackDb.file, hrun]
    exact (rinv_reach hl hf h2.1).wf

/-- The same while another process rewrites the packs, for a view of the database that was taken after the index had been emptied. -/
theorem C61_packing (f : Tile → List Bytes → Bytes) (mem batch : Nat) (pf : PackFile) (es : List (UInt64 × List PackRecord)) (hx : Index pf es)
    (hf : ∀ tile packs, f tile packs ≠ []) (s s' : PackDb) (h : PackReach f mem batch (stored es) (packDbInit (stored es) pf) s) (hn : s.run ≠ none)
    (h' : PackReach f mem batch (stored es) s s') (hsz : s.file.size < 2 ^ 64) (hsz' : s'.file.size < 2 ^ 64)
    (features : List (UInt64 × Bytes)) (he : EntriesOf s.db features) (n : Nat) (tiles : UInt64 → Option Bytes) (ctx : GetCtx) (q : Tile) :
    (getTile tiles features (seenBy s'.file.data n) ctx q = getTile tiles features s.file ctx q ∨
      getTile tiles features (seenBy s'.file.data n) ctx q = .throw_) ∧
    (Within features n → getTile tiles features (seenBy s'.file.data n) ctx q = getTile tiles features s.file ctx q) ∧
    (∀ e ∈ features, ∃ rs, packRecordsDeserialize e.2 = .ok rs ∧ ∀ r ∈ rs, readShared s'.file.data n r ≠ .ub) := by
  have hb : BothRead features s.file s'.file := by
    intro e hm
    obtain ⟨_, r, b, h1, h2, h3⟩ := C44_kept_partial hx hf h hn h' ((he.same e.1 e.2).1 hm)
    refine ⟨[r], ?_, fun r' hr' => ?_⟩
    · rw [h1]
      refine C05_records_round_trip _ (fun r' hr' => ?_)
      rw [List.mem_singleton] at hr'
      subst hr'
      have := (PackFile.get_eq_ok_iff ..).1 h2
      unfold PackRecord.endOffset at this
      exact ⟨by omega, by omega⟩
    · rw [List.mem_singleton] at hr'
      subst hr'
      exact ⟨b, h2, h3⟩
  exact shared_all (packDb_wf hx hf (packReach_trans h h')) hsz' hb n tiles ctx q

/-! ### views that are older -/

/-- If the packs are rewritten after the view of the database was taken, other bytes can be read without any error. -/
theorem C61_stale_pack : ∃ (f : Tile → List Bytes → Bytes) (pf : PackFile) (es : List (UInt64 × List PackRecord)) (s : PackDb) (r : PackRecord) (x y : Bytes),
    Index pf es ∧ PackReach f 3 1 (stored es) (packDbInit (stored es) pf) s ∧ r ∈ es.flatMap (·.2) ∧ pf.get r = .ok x ∧
    readShared s.file.data pf.size r = .ok y ∧ x ≠ y := by
  have h : (match packChoices C15_fn 3 1 (stored C44_es) (.go :: C15_choices) (packDbInit (stored C44_es) C15_file) with
    | some s => decide (readShared s.file.data 14 ⟨6, 3⟩ = .ok [7, 7, 7])
    | none => false) = true := by decide +kernel
  cases hs : packChoices C15_fn 3 1 (stored C44_es) (.go :: C15_choices) (packDbInit (stored C44_es) C15_file) with
  | none => rw [hs] at h; cases h
  | some s =>
    rw [hs] at h
    refine ⟨C15_fn, C15_file, C44_es, s, ⟨6, 3⟩, [3, 3, 3], [7, 7, 7], ⟨?_, ?_, layoutB_ok (by decide +kernel), by decide⟩, packChoices_reach _ .init hs, by decide,
      by decide, of_decide_eq_true h, by decide⟩
    · simp only [DbSorted, C44_es, List.pairwise_cons]; decide
    · simp [C44_es]

/-- A new import truncates the file: reading a record of an older view is then an access behind the end of the file (a bus error), and so is
the end of the server. -/
theorem C61_truncated (data : Bytes) (n : Nat) (r : PackRecord) (hn : 0 < n) (hr : r.endOffset ≤ n) (ho : r.offset < n) (hs : 0 < r.size) (hsz : n < 2 ^ 64) :
    readShared (clearShared data) n r = .ub ∧ exitShared (clearShared data) n = .ub := by
  unfold PackRecord.endOffset at hr
  constructor
  · rw [readShared, (PackFile.get_eq_ok_iff (seenBy (clearShared data) n) r _).2 ⟨ho, hr, rfl⟩, Res.ok_bind, if_neg]
    rw [clearShared, List.length_nil]; omega
  · rw [exitShared, if_pos]
    exact hn

/-- When the file has grown again, a record of the older view leads to the bytes of other packs. -/
theorem C61_stale_import : ∃ (crc : Bytes → UInt32) (s : InsShared × List InsPc) (old : PackFile) (r : PackRecord) (x y : Bytes),
    InsRun crc cacheTiles 1000 500 (fun _ => none) ⟨clearShared old.data, 0⟩ ([[C14_ex]].map (List.map InsCall.feature)) s ∧ old.WF ∧ old.get r = .ok x ∧
    readShared s.1.pf.data old.size r = .ok y ∧ x ≠ y := by
  obtain ⟨s, h1, h2, h3, h4⟩ := C52_inserted
  refine ⟨_, s, ⟨[9, 9, 9], 3⟩, ⟨0, 3⟩, [9, 9, 9], C52_pack.take 3, h1, by decide, by decide, ?_, ?_⟩
  · rw [h4]; decide +kernel
  · decide +kernel

/-! ### the end of the server -/

/-- The server's exit leaves the file as it is if the last of the bytes it knows of is not zero. -/
theorem exit_same {data : Bytes} {n : Nat} {c : UInt8} (h : data[n - 1]? = some c) (hn : 0 < n) (hc : c ≠ 0) : exitShared data n = .ok data := by
  have hl := (List.getElem?_eq_some_iff.1 h).1
  rw [exitShared, if_neg (by omega), PackFile.close, if_neg]
  · rfl
  · rintro (h0 | h0)
    · exact absurd h0 (by show n ≠ 0; omega)
    · rw [show (seenBy data n).data[(seenBy data n).size - 1]? = data[n - 1]? from rfl, h] at h0
      injection h0 with h0
      exact hc h0

theorem trimmed_last {d : Bytes} (h : 0 < PackFile.trimmedLength d) : ∃ c, d[PackFile.trimmedLength d - 1]? = some c ∧ c ≠ 0 := by
  have hl := PackFile.trimmedLength_le d
  refine ⟨_, List.getElem?_eq_getElem (by omega), fun hc => ?_⟩
  have : PackFile.trimmedLength d ≤ PackFile.trimmedLength d - 1 := by
    refine PackFile.trimmed_le_of (fun i c hi hx => ?_)
    rcases Nat.lt_or_ge i (PackFile.trimmedLength d) with h1 | h1
    · have e : i = PackFile.trimmedLength d - 1 := by omega
      subst e
      rw [List.getElem?_eq_getElem (by omega), hc] at hx
      injection hx with hx
      exact hx.symm
    · by_contra hne
      have := PackFile.lt_trimmedLength _ _ _ hx hne
      omega
  omega

/-- A server that is started while features are inserted, after at least one byte other than zero has been written, and that ends while they
are still inserted, leaves the pack file as it is. -/
theorem C61_stops (crc : Bytes → UInt32) (cache : List Tile) (upper lower : Nat) (calls : List (List InsCall)) (s s' : InsShared × List InsPc)
    (h : InsRun crc cache upper lower (fun _ => none) ⟨[], 0⟩ calls s) (h' : InsLater crc cache upper lower s s')
    (hn : ∃ (i : Nat) (c : UInt8), s.1.pf.data[i]? = some c ∧ c ≠ 0) : exitShared s'.1.pf.data (openedSize s.1.pf.data) = .ok s'.1.pf.data := by
  obtain ⟨hk0, _, hct⟩ := insLater_keeps h (show (PackFile.mk [] 0).WF by decide)
  obtain ⟨hk, _, _⟩ := insLater_keeps h' hk0.1
  obtain ⟨i, c, h1, h2⟩ := hn
  have hpos : 0 < PackFile.trimmedLength s.1.pf.data := by have := PackFile.lt_trimmedLength _ _ _ h1 h2; omega
  have hle : PackFile.trimmedLength s.1.pf.data ≤ s.1.pf.size := PackFile.trimmed_le_of (hct (by intro i c _ h; simp [insInit] at h))
  obtain ⟨d, h3, h4⟩ := trimmed_last hpos
  refine exit_same (c := d) ?_ hpos h4
  have hg := (PackFile.get_eq_ok_iff s.1.pf ⟨PackFile.trimmedLength s.1.pf.data - 1, 1⟩ _).2 ⟨by show _ - 1 < _; omega, by show _ - 1 + 1 ≤ _; omega, rfl⟩
  have h5 := ((PackFile.get_eq_ok_iff ..).1 (hk.2 _ _ hg)).2.2
  have h6 := congrArg (·[0]?) h5
  simp only [slice_getElem?, Nat.lt_one_iff, if_true, Nat.add_zero] at h6
  show s'.1.pf.data[PackFile.trimmedLength s.1.pf.data - 1]? = some d
  rw [h6, h3]

/-- If that is not so, the server's exit writes an `a` into the middle of the file of the other process: … -/
theorem C61_exit_writes (data : Bytes) (n : Nat) (h : n < data.length) (hz : n = 0 ∨ data[n - 1]? = some 0) :
    exitShared data n = .ok (data.take n ++ 97 :: data.drop (n + 1)) := by
  rw [exitShared, if_neg (by omega), PackFile.close, if_pos (show (seenBy data n).size = 0 ∨ (seenBy data n).data[(seenBy data n).size - 1]? = some 0 from hz)]
  congr 1
  show overwrite ((seenBy data n).resize (n + 1)).data n [97] = _
  rw [PackFile.resize, if_neg (by show ¬ n + 1 ≤ n; omega)]
  dsimp only [seenBy]
  rw [show n + 1 - data.length = 0 by omega, show zeros 0 = [] from rfl, List.append_nil, Nat.add_sub_cancel_left, show zeros 1 = [0] from rfl]
  unfold overwrite
  have hl : (data.take n).length = n := by rw [List.length_take]; omega
  simp only [List.length_cons, List.length_nil, Nat.zero_add, List.append_assoc, List.singleton_append]
  rw [List.take_left' hl, show data.take n ++ 0 :: data.drop (n + 1) = (data.take n ++ [0]) ++ data.drop (n + 1) by simp,
    List.drop_left' (by rw [List.length_append, hl]; rfl)]

/-- … a server that was started on an empty database damages what was imported meanwhile, when it ends: a pack of the index has other bytes
than those that were written. -/
theorem C61_damages : ∃ (crc : Bytes → UInt32) (s : InsShared × List InsPc) (features : List (UInt64 × Bytes)) (e : UInt64 × Bytes) (r : PackRecord) (x y after : Bytes),
    InsRun crc cacheTiles 1000 500 (fun _ => none) ⟨[], 0⟩ ([[C14_ex]].map (List.map InsCall.feature)) s ∧ .finished ∈ s.2 ∧ EntriesOf s.1.db features ∧
    e ∈ features ∧ packRecordsDeserialize e.2 = .ok [r] ∧ s.1.pf.close.reopen.get r = .ok x ∧
    exitShared s.1.pf.close.data (openedSize []) = .ok after ∧ (seenBy after (openedSize after)).get r = .ok y ∧ x ≠ y := by
  obtain ⟨s, h1, h2, h3, h4⟩ := C52_inserted
  refine ⟨_, s, _, _, _, C52_pack, 97 :: C52_pack.drop 1, 97 :: (C52_pack.drop 1 ++ [97]), h1, h2, h3, List.mem_singleton.2 rfl, C05_records_round_trip _ ?_, ?_, ?_, ?_, ?_⟩
  · intro r hr
    rw [List.mem_singleton.1 hr]
    decide +kernel
  · rw [h4]; decide +kernel
  · rw [h4]; decide +kernel
  · decide +kernel
  · decide +kernel

/-- The same can happen to a server that was started on a complete database when the data is imported anew: here the file held one byte when
the server was started, was emptied, and now holds a record of three bytes, whose first byte is zero. -/
example : openedSize [1] = 1 ∧ ((seenBy (clearShared [1]) 0).append [0, 5, 5]).1.data = [0, 5, 5] ∧ exitShared [0, 5, 5] (openedSize [1]) = .ok [0, 97, 5] := by
  decide

/-- Two imports at the same time overwrite each other's packs: each appends at the size it knows. -/
theorem C61_two_imports (data x y : Bytes) (n : Nat) (h : n ≤ data.length) (hx : x ≠ []) (hxy : x.length ≤ y.length) :
    ((seenBy ((seenBy data n).append x).1.data n).append y).1.get ((seenBy data n).append x).2 = .ok (y.take x.length) := by
  have hy : y ≠ [] := by rintro rfl; cases x <;> simp_all
  have hwf : (seenBy ((seenBy data n).append x).1.data n).WF := by
    have h1 : ((seenBy data n).append x).1.WF := PackFile.insert_wf _ _ _ h
    have h2 : ((seenBy data n).append x).1.size = n + x.length := append_size _ _
    unfold PackFile.WF at h1 ⊢
    show n ≤ List.length ((seenBy data n).append x).1.data
    omega
  have hg := (PackFile.get_eq_ok_iff ..).1 (PackFile.insert_get_self _ n y hwf hy)
  have hpos : 0 < x.length := List.length_pos_iff.2 hx
  have hsz : ((seenBy ((seenBy data n).append x).1.data n).append y).1.size = n + y.length := append_size _ _
  refine (PackFile.get_eq_ok_iff ..).2 ⟨?_, ?_, ?_⟩
  · rw [hsz]; show n < _; omega
  · rw [hsz]; show n + x.length ≤ _; omega
  · have h3 : slice ((seenBy ((seenBy data n).append x).1.data n).append y).1.data n y.length = y := hg.2.2
    show slice ((seenBy ((seenBy data n).append x).1.data n).append y).1.data n x.length = _
    generalize ((seenBy ((seenBy data n).append x).1.data n).append y).1.data = d at h3
    rw [← h3, slice, slice, List.take_take]
    congr 1
    rw [h3.symm] at hxy
    rw [slice, List.length_take] at hxy
    omega

/-! ### a run -/

/-- A server that was started before the import fails for the tiles it would need the new packs for, one that is started afterwards serves
them. -/
example : ∃ (s : InsShared × List InsPc) (features : List (UInt64 × Bytes)),
    InsRun (fun _ => 0) cacheTiles 1000 500 (fun _ => none) ⟨[], 0⟩ ([[C14_ex]].map (List.map InsCall.feature)) s ∧ s.1.pf.size < 2 ^ 64 ∧
    EntriesOf s.1.db features ∧ Within features 1000 ∧ packsOf features (seenBy s.1.pf.data 50) ⟨16, 0, 5⟩ = .throw_ ∧
    (∃ ps, packsOf features (seenBy s.1.pf.data 1000) ⟨16, 0, 5⟩ = .ok ps ∧ ps ≠ []) ∧ (∃ (i : Nat) (c : UInt8), s.1.pf.data[i]? = some c ∧ c ≠ 0) := by
  obtain ⟨s, h1, h2, h3, h4⟩ := C52_inserted
  refine ⟨s, _, h1, ?_, h3, ?_, ?_, ?_, ?_⟩
  · rw [h4, append_size, C52_pack_len]; decide
  · intro e he rs hrs r hr
    rw [List.mem_singleton.1 he, C05_records_round_trip _ (by intro r hr; rw [List.mem_singleton.1 hr]; decide +kernel)] at hrs
    injection hrs with hrs
    subst hrs
    rw [List.mem_singleton.1 hr]
    decide +kernel
  · rw [h4]; decide +kernel
  · rw [h4]; exact ⟨[(⟨512, 0, 10⟩, C52_pack)], by decide +kernel, by simp⟩
  · rw [h4]; exact ⟨0, 1, by decide +kernel, by decide⟩

end Tiles
