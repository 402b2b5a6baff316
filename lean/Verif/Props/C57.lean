import Verif.Proof.InsBound
import Verif.Props.C17
import Verif.Props.C15
/-! C57 — how much memory loading and packing hold. -/
namespace Tiles
open Spec

/-! ### the inserter -/

theorem insBound_init (cache : List Tile) (upper B : Nat) (db : UInt64 → Option Bytes) (pf : PackFile) (calls : List (List InsCall))
    (hc : ∀ c ∈ calls.flatten, SmallCall cache B c) : InsBound cache upper B (insInit db pf calls).1 (insInit db pf calls).2 := by
  have hmem : ∀ p ∈ (insInit db pf calls).2, p = .join ∨ ∃ todo ∈ calls, p = .idle todo := by
    intro p hp
    simp only [insInit, List.mem_cons, List.mem_map] at hp
    rcases hp with rfl | ⟨t, ht, rfl⟩
    · exact .inl rfl
    · exact .inr ⟨t, ht, rfl⟩
  refine ⟨?_, fun t => rfl, ?_, Nat.zero_le _, ?_⟩
  · intro p hp
    rcases hmem p hp with rfl | ⟨todo, ht, rfl⟩
    · trivial
    · exact fun c hcc => hc c (List.mem_flatten.2 ⟨todo, ht, hcc⟩)
  · have h1 : (cache.map (insInit db pf calls).1.memSize).sum = 0 := by simp [insInit]
    have h2 : ((insInit db pf calls).2.map InsPc.bumped).sum = 0 := by
      apply sum_zero
      intro x hx
      obtain ⟨p, hp, rfl⟩ := List.mem_map.1 hx
      rcases hmem p hp with rfl | ⟨_, _, rfl⟩ <;> rfl
    rw [h1, h2]; rfl
  · intro p hp l hl
    rcases hmem p hp with rfl | ⟨_, _, rfl⟩ <;> cases hl

theorem insBound_run {crc : Bytes → UInt32} {cache : List Tile} (hnd : cache.Nodup) {upper lower B : Nat} (hlow : lower ≤ upper) {db : UInt64 → Option Bytes} {pf : PackFile}
    {calls : List (List InsCall)} (hc : ∀ c ∈ calls.flatten, SmallCall cache B c) {s : InsShared × List InsPc} (h : InsRun crc cache upper lower db pf calls s) :
    s.2.length = calls.length + 1 ∧ InsShape cache s.1 s.2 ∧ InsBound cache upper B s.1 s.2 := by
  induction h with
  | refl => exact ⟨by simp [insInit], insShape_init .., insBound_init cache upper B db pf calls hc⟩
  | step _ st ih =>
    obtain ⟨s, s', a, b, p, p', hst⟩ := st
    have hst := insTr_of_step hst
    obtain ⟨h0, h1, h2⟩ := ih
    exact ⟨by simpa using h0, insShape_step h1 hst, insBound_step hlow hnd h1 h2 hst⟩

theorem bucketBytes_eq {cache : List Tile} {s : InsShared} (h : ∀ t, s.memSize t = ((s.mem t).map List.length).sum) :
    bucketBytes cache s = (cache.map s.memSize).sum := by
  unfold bucketBytes
  induction cache with
  | nil => rfl
  | cons t l ih =>
    rw [List.flatMap_cons, List.map_append, List.sum_append, List.map_cons, List.sum_cons, ih, h t]

/-- However many threads insert and however they are scheduled: the features that wait in the buckets never are more than the upper threshold
plus one call for each thread; and whenever all threads are between two calls, they are not more than the upper threshold. -/
theorem C57_buckets (crc : Bytes → UInt32) (cache : List Tile) (hnd : cache.Nodup) (upper lower B : Nat) (hlow : lower ≤ upper) (db : UInt64 → Option Bytes) (pf : PackFile)
    (calls : List (List InsCall)) (hc : ∀ c ∈ calls.flatten, SmallCall cache B c) (s : InsShared × List InsPc) (h : InsRun crc cache upper lower db pf calls s) :
    bucketBytes cache s.1 ≤ upper + calls.length * B ∧
    ((∀ p ∈ s.2, p = .join ∨ p = .stop ∨ ∃ todo, p = .idle todo) → bucketBytes cache s.1 ≤ upper) := by
  obtain ⟨hlen, hsh, hb⟩ := insBound_run hnd hlow hc h
  have hle : bucketBytes cache s.1 ≤ s.1.cacheSize := by rw [bucketBytes_eq hb.size, hb.total]; omega
  have hsm := hb.small
  constructor
  · have hone : ∀ p ∈ s.2, p.slack B ≤ if p.owner then 0 else B := by
      intro p hp
      cases p with
      | bump v ts todo => show B - _ ≤ B; omega
      | add v t ts todo => show B - _ ≤ B; omega
      | check up lo k => cases k <;> exact Nat.le_refl _
      | lock up lo k => cases k <;> exact Nat.le_refl _
      | recheck up lo k => cases k <;> exact Nat.le_refl _
      | scan lo r f k => cases k <;> exact Nat.le_refl _
      | take lo r q k => cases k <;> exact Nat.le_refl _
      | _ => exact Nat.zero_le _
    have hsum : ∀ l : List InsPc, (∀ p ∈ l, p.slack B ≤ if p.owner then 0 else B) → (l.map (InsPc.slack B)).sum + l.countP InsPc.owner * B ≤ l.length * B := by
      intro l hl
      induction l with
      | nil => simp
      | cons p l ih =>
        have h1 := hl p (by simp)
        have h2 := ih (fun q hq => hl q (by simp [hq]))
        simp only [List.map_cons, List.sum_cons, List.countP_cons, List.length_cons]
        cases ho : p.owner with
        | true => rw [ho] at h1; simp only [if_true] at h1 ⊢; rw [Nat.add_mul, Nat.add_mul]; omega
        | false => rw [ho] at h1; simp only [Bool.false_eq_true, if_false, Nat.add_zero] at h1 ⊢; rw [Nat.add_mul (l.length)]; omega
    have := hsum _ hone
    rw [hsh.owners, hlen, Nat.add_mul] at this
    omega
  · intro hidle
    have : (s.2.map (InsPc.slack B)).sum = 0 := by
      apply sum_zero
      intro x hx
      obtain ⟨p, hp, rfl⟩ := List.mem_map.1 hx
      rcases hidle p hp with rfl | rfl | ⟨_, rfl⟩ <;> rfl
    omega

open Classical in
/-- The same for features: `B` bounds the size of a feature times the number of index tiles that its box meets; with the thresholds of the code. -/
theorem C57_features (crc : Bytes → UInt32) (db : UInt64 → Option Bytes) (pf : PackFile) (fs : List (List Feature)) (B : Nat)
    (hfs : ∀ f ∈ fs.flatten, (boundingBox f.geometry).InRange)
    (hB : ∀ f ∈ fs.flatten, ∀ v, serializeFeature (fun _ => []) [] true f = .ok v → (cacheTiles.filter (fun t => decide (boxMeets f t))).length * v.length ≤ B)
    (s : InsShared × List InsPc) (h : InsRun crc cacheTiles (1024 * 1024 * 1024) (768 * 1024 * 1024) db pf (fs.map (List.map InsCall.feature)) s) :
    bucketBytes cacheTiles s.1 ≤ 1024 * 1024 * 1024 + fs.length * B ∧
    ((∀ p ∈ s.2, p = .join ∨ p = .stop ∨ ∃ todo, p = .idle todo) → bucketBytes cacheTiles s.1 ≤ 1024 * 1024 * 1024) := by
  have := C57_buckets crc cacheTiles cacheTiles_nodup (1024 * 1024 * 1024) (768 * 1024 * 1024) B (by decide) db pf (fs.map (List.map InsCall.feature)) ?_ s h
  · rwa [List.length_map] at this
  · intro c hc
    rw [List.mem_flatten] at hc
    obtain ⟨l, hl, hc⟩ := hc
    obtain ⟨l', hl', rfl⟩ := List.mem_map.1 hl
    obtain ⟨f, hf, rfl⟩ := List.mem_map.1 hc
    have hff : f ∈ fs.flatten := List.mem_flatten.2 ⟨l', hl', hf⟩
    obtain ⟨ts, h1, h2, h3⟩ := C03_tile_range_exact _ (hfs f hff) 10 (by decide)
    have hvalid := C03_tile_range_valid _ (hfs f hff) 10 (by decide) ts h1
    have hplan : ∀ ts' v, (InsCall.feature f).plan = .ok (ts', v) → ts' = ts ∧ serializeFeature (fun _ => []) [] true f = .ok v := by
      intro ts' v hp
      rw [InsCall.plan, h1, Res.ok_bind, Res.bind_eq_ok] at hp
      obtain ⟨_, _, hp⟩ := hp
      rw [Res.bind_eq_ok] at hp
      obtain ⟨v', hv, hp⟩ := hp
      injection hp with hp
      injection hp with e1 e2
      exact ⟨e1.symm, by rw [← e2]; exact hv⟩
    refine ⟨?_, ?_⟩
    · unfold callBytes
      split
      · rename_i ts' v hp
        obtain ⟨rfl, hv⟩ := hplan _ _ hp
        refine Nat.le_trans (Nat.mul_le_mul_right _ ?_) (hB f hff v hv)
        have hsub : ts' ⊆ cacheTiles.filter (fun t => decide (boxMeets f t)) := by
          intro t ht
          rw [List.mem_filter]
          obtain ⟨hz, px, py, hbx, hin⟩ := (h3 t).1 ht
          exact ⟨mem_cacheTiles.2 ⟨hvalid t ht, hz⟩, decide_eq_true ⟨px, py, hbx, hin⟩⟩
        exact (List.subperm_of_subset h2 hsub).length_le
      · exact Nat.zero_le _
    · intro ts' v hp t ht
      obtain ⟨rfl, _⟩ := hplan _ _ hp
      exact mem_cacheTiles.2 ⟨hvalid t ht, ((h3 t).1 ht).1⟩

/-- Finding: a flush writes the smallest buckets first (it sorts them by size, ascending): to get below the lower threshold it writes as many, as
small packs as possible. -/
theorem C57_smallest_first (crc : Bytes → UInt32) (cache : List Tile) (upper lower : Nat) (s s' : InsShared) (lo lo' : Nat) (found : List (Nat × Tile)) (k k' : InsCont)
    (order : List Tile) (q : List (Tile × List Bytes)) (h : insStep crc cache upper lower s (.scan lo [] found k) = some (s', .take lo' order q k')) :
    ∃ l : List (Nat × Tile), l.Perm found ∧ l.Pairwise (fun a b => a.1 ≤ b.1) ∧ order = l.map (·.2) := by
  rw [insStep.eq_def] at h
  dsimp only at h
  split at h
  · injection h with h; injection h with _ h; cases k <;> cases h
  injection h with h
  injection h with _ h
  injection h with _ h _ _
  refine ⟨sortBy bucketLe found.reverse, (sortBy_perm _ _).trans (List.reverse_perm _), ?_, h.symm⟩
  refine (sortBy_sorted ?_ ?_ _).imp ?_
  · intro a b c h1 h2
    simp only [bucketLe, Bool.or_eq_true, Bool.and_eq_true, decide_eq_true_eq, beq_iff_eq] at *
    omega
  · intro a b
    simp only [bucketLe, Bool.or_eq_true, Bool.and_eq_true, decide_eq_true_eq, beq_iff_eq]
    omega
  · intro a b h1
    simp only [bucketLe, Bool.or_eq_true, Bool.and_eq_true, decide_eq_true_eq, beq_iff_eq] at h1
    omega

/-! ### the packing -/

section
variable {f : Tile → List Bytes → Bytes} {mem batch : Nat} {pf : PackFile} {tasks : List TileRecord}

/-- the bytes of the packs that were read for the workers -/
def Spec.flightBytes (l : List (Tile × List Bytes)) : Nat := ((l.flatMap (·.2)).map List.length).sum

theorem flightBytes_append (a b : List (Tile × List Bytes)) : flightBytes (a ++ b) = flightBytes a + flightBytes b := by
  simp [flightBytes]

theorem readTask_bytes {pf : PackFile} (rs : List PackRecord) {bs : List Bytes} (h : readTask pf rs = .ok bs) (hwf : pf.WF) :
    (bs.map List.length).sum = (rs.map (·.size)).sum := by
  induction rs generalizing bs with
  | nil => injection h with h; subst h; rfl
  | cons r rs ih =>
    rw [readTask, Res.bind_eq_ok] at h
    obtain ⟨b, hb, h⟩ := h
    rw [Res.bind_eq_ok] at h
    obtain ⟨bs', hbs, h⟩ := h
    injection h with h
    subst h
    obtain ⟨h1, h2, h3⟩ := (PackFile.get_eq_ok_iff ..).1 hb
    simp only [List.map_cons, List.sum_cons, ih hbs]
    rw [← h3]
    simp only [PackRecord.endOffset, PackFile.WF] at h2 hwf
    simp only [slice, List.length_take, List.length_drop]
    omega

/-- what the steps do with the work under way -/
inductive FlightStep (mem batch : Nat) (s : Repack) : RepackChoice → Repack → Prop
  | fill (n : Nat) (x : Tile × List Bytes) (s' : Repack) (h : s.pc = .fill n) (hn : n < mem) (h1 : s'.pc = .fill (n + flightBytes [x])) (h2 : s'.inflight = s.inflight ++ [x]) :
      FlightStep mem batch s .go s'
  | fillEnd (n : Nat) (s' : Repack) (h : s.pc = .fill n) (h1 : s'.pc = .defrag) (h2 : s'.inflight = s.inflight) : FlightStep mem batch s .go s'
  | defrag (c : RepackChoice) (s' : Repack) (h : s.pc = .defrag) (h1 : s'.pc = .head) (h2 : s'.inflight = s.inflight) : FlightStep mem batch s c s'
  | head (s' : Repack) (h : s.pc = .head) (h1 : s'.pc = .results batch ∨ s'.pc = .stash) (h2 : s'.inflight = s.inflight) : FlightStep mem batch s .go s'
  | resultsEnd (s' : Repack) (h : s.pc = .results 0) (h1 : s'.pc = .flush) (h2 : s'.inflight = s.inflight) : FlightStep mem batch s .go s'
  | resultsQuit (n : Nat) (s' : Repack) (h : s.pc = .results n) (h1 : s'.pc = .flush) (h2 : s'.inflight = s.inflight) : FlightStep mem batch s .quit s'
  | resultsTimeout (n : Nat) (s' : Repack) (h : s.pc = .results (n + 1)) (h1 : s'.pc = .results n) (h2 : s'.inflight = s.inflight) : FlightStep mem batch s .timeout s'
  | result (n i : Nat) (s' : Repack) (h : s.pc = .results (n + 1)) (h1 : s'.pc = .results n) (h2 : s'.inflight.length + 1 = s.inflight.length) :
      FlightStep mem batch s (.result i) s'
  | flush (s' : Repack) (h : s.pc = .flush) (h1 : s'.pc = .take batch) (h2 : s'.inflight = s.inflight) : FlightStep mem batch s .go s'
  | take (n : Nat) (x : Tile × List Bytes) (s' : Repack) (h : s.pc = .take (n + 1)) (h1 : s'.pc = .take n) (h2 : s'.inflight = s.inflight ++ [x]) :
      FlightStep mem batch s .go s'
  | takeEnd (n : Nat) (s' : Repack) (h : s.pc = .take n) (h1 : s'.pc = .head) (h2 : s'.inflight = s.inflight) : FlightStep mem batch s .go s'
  | rest (c : RepackChoice) (s' : Repack) (h1 : s'.pc ∈ [.stash, .resize, .flushStash, .drain, .flushLast, .check, .done])
      (h : s.pc ∈ [.stash, .resize, .flushStash, .drain, .flushLast, .check, .done]) (h2 : s'.inflight.length ≤ s.inflight.length) : FlightStep mem batch s c s'

theorem enqueue_read {s s1 : Repack} {k : Nat} (h : s.enqueue = .ok (s1, k)) (hwf : s.pf.WF) : ∃ x, s1.inflight = s.inflight ++ [x] ∧ k = flightBytes [x] := by
  rw [Repack.enqueue, Res.bind_eq_ok] at h
  obtain ⟨_, _, h⟩ := h
  split at h
  · cases h
  rw [Res.bind_eq_ok] at h
  obtain ⟨packs, h1, h2⟩ := h
  injection h2 with h2
  injection h2 with h2 h3
  subst h2
  refine ⟨_, rfl, ?_⟩
  rw [← h3, ← readTask_bytes _ h1 hwf]
  simp [flightBytes]

theorem flight_step {s s' : Repack} {c : RepackChoice} (hwf : s.pf.WF) (hs : repackStep f mem batch c s = some (.ok s')) : FlightStep mem batch s c s' := by
  rw [repackStep.eq_def] at hs
  split at hs
  · rename_i n hpc
    split at hs
    · rename_i hc
      injection hs with hs
      rw [Res.bind_eq_ok] at hs
      obtain ⟨⟨s1, k⟩, h1, hs⟩ := hs
      injection hs with hs
      subst hs
      obtain ⟨x, h2, rfl⟩ := enqueue_read h1 hwf
      exact .fill n x _ hpc hc.2 rfl h2
    · injection hs with hs
      injection hs with hs
      subst hs
      exact .fillEnd n _ hpc rfl rfl
  · rename_i fuel hpc
    split at hs
    · cases hs
    · injection hs with hs
      rw [Res.bind_eq_ok] at hs
      obtain ⟨⟨pf', tasks'⟩, rfl, hs⟩ := hs
      injection hs with hs
      subst hs
      exact .defrag _ _ hpc rfl rfl
  · rename_i hpc
    split at hs
    all_goals
      injection hs with hs
      injection hs with hs
      subst hs
    · exact .head _ hpc (.inl rfl) rfl
    · exact .head _ hpc (.inr rfl) rfl
  · rename_i n hpc
    split at hs
    · rename_i hn
      subst hn
      injection hs with hs
      injection hs with hs
      subst hs
      exact .resultsEnd _ hpc rfl rfl
    · cases hs
  · rename_i n hpc
    injection hs with hs
    injection hs with hs
    subst hs
    exact .resultsQuit n _ hpc rfl rfl
  · rename_i n hpc
    split at hs
    · cases hs
    · rename_i hn
      obtain ⟨m, rfl⟩ := Nat.exists_eq_succ_of_ne_zero hn
      injection hs with hs
      injection hs with hs
      subst hs
      exact .resultsTimeout m _ hpc rfl rfl
  · rename_i n i hpc
    split at hs
    · cases hs
    · rename_i hn
      obtain ⟨m, rfl⟩ := Nat.exists_eq_succ_of_ne_zero hn
      split at hs
      · cases hs
      · rename_i r hd
        injection hs with hs
        rw [Res.bind_eq_ok] at hs
        obtain ⟨s1, rfl, hs⟩ := hs
        injection hs with hs
        subst hs
        obtain ⟨e1, e2, e3, e4⟩ := dequeue_shape hd
        exact .result m i _ hpc rfl (by show s1.inflight.length + 1 = _; omega)
  · rename_i hpc
    injection hs with hs
    injection hs with hs
    subst hs
    exact .flush _ hpc rfl rfl
  · rename_i n hpc
    split at hs
    · rename_i hc
      obtain ⟨m, rfl⟩ := Nat.exists_eq_succ_of_ne_zero (Nat.pos_iff_ne_zero.1 hc.2)
      injection hs with hs
      rw [Res.bind_eq_ok] at hs
      obtain ⟨⟨s1, k⟩, h1, hs⟩ := hs
      injection hs with hs
      subst hs
      obtain ⟨x, h2, rfl⟩ := enqueue_read h1 hwf
      exact .take m x _ hpc rfl h2
    · injection hs with hs
      injection hs with hs
      subst hs
      exact .takeEnd n _ hpc rfl rfl
  · rename_i hpc
    split at hs
    · injection hs with hs
      rw [Res.bind_eq_ok] at hs
      obtain ⟨_, _, hs⟩ := hs
      injection hs with hs
      subst hs
      exact .rest _ _ (by simp [Repack.goto]) (by simp [hpc]) (Nat.le_refl _)
    · injection hs with hs
      rw [Res.bind_eq_ok] at hs
      obtain ⟨_, _, hs⟩ := hs
      rw [Res.bind_eq_ok] at hs
      obtain ⟨⟨pf', r'⟩, _, hs⟩ := hs
      injection hs with hs
      subst hs
      exact .rest _ _ (by simp [hpc]) (by simp [hpc]) (Nat.le_refl _)
  · rename_i hpc
    injection hs with hs
    injection hs with hs
    subst hs
    exact .rest _ _ (by simp) (by simp [hpc]) (Nat.le_refl _)
  · rename_i hpc
    injection hs with hs
    injection hs with hs
    subst hs
    exact .rest _ _ (by simp [Repack.goto]) (by simp [hpc]) (Nat.le_refl _)
  · rename_i hpc
    injection hs with hs
    injection hs with hs
    subst hs
    exact .rest _ _ (by simp [Repack.goto]) (by simp [hpc]) (Nat.le_refl _)
  · rename_i hpc
    injection hs with hs
    injection hs with hs
    subst hs
    exact .rest _ _ (by simp [hpc]) (by simp [hpc]) (Nat.le_refl _)
  · rename_i i hpc
    split at hs
    · cases hs
    · rename_i r hd
      injection hs with hs
      subst hs
      obtain ⟨e1, e2, e3, e4⟩ := dequeue_shape hd
      exact .rest _ _ (by rw [e1, hpc]; simp) (by simp [hpc]) (by omega)
  · rename_i hpc
    injection hs with hs
    injection hs with hs
    subst hs
    exact .rest _ _ (by simp [Repack.goto]) (by simp [hpc]) (Nat.le_refl _)
  · rename_i hpc
    injection hs with hs
    rw [Res.bind_eq_ok] at hs
    obtain ⟨_, _, hs⟩ := hs
    rw [Res.bind_eq_ok] at hs
    obtain ⟨_, _, hs⟩ := hs
    injection hs with hs
    subst hs
    exact .rest _ _ (by simp [Repack.goto]) (by simp [hpc]) (Nat.le_refl _)
  · cases hs

/-- The first filling stops at the limit: without the task read last, it holds less than `mem` bytes. -/
theorem C57_first_fill (hl : Layout pf (tasks.flatMap (·.records))) (hf : ∀ tile packs, f tile packs ≠ []) {s : Repack}
    (h : RepackReach f mem batch (repackInit pf tasks) s) (hpc : s.pc = .defrag) : s.inflight = [] ∨ flightBytes s.inflight.dropLast < mem := by
  have key : ∀ s, RepackReach f mem batch (repackInit pf tasks) s →
      (∀ n, s.pc = .fill n → n = flightBytes s.inflight ∧ (s.inflight = [] ∨ flightBytes s.inflight.dropLast < mem)) ∧
      (s.pc = .defrag → s.inflight = [] ∨ flightBytes s.inflight.dropLast < mem) := by
    intro s h
    induction h with
    | init => exact ⟨fun n hn => by injection hn with hn; subst hn; exact ⟨rfl, .inl rfl⟩, fun h => by cases h⟩
    | @step s s' c hr hs ih =>
      cases flight_step (rinv_reach hl hf hr).wf hs with
      | fill n x _ h hn h1 h2 =>
        obtain ⟨i1, _⟩ := ih.1 n h
        rw [h1, h2]
        refine ⟨fun m hm => ?_, fun h => by cases h⟩
        injection hm with hm
        rw [flightBytes_append, List.dropLast_concat, ← hm, i1]
        exact ⟨rfl, .inr (by rw [← i1]; exact hn)⟩
      | fillEnd n _ h h1 h2 =>
        rw [h1, h2]
        exact ⟨fun n hn => (by cases hn), fun _ => (ih.1 n h).2⟩
      | head _ _ h1 _ => rcases h1 with h1 | h1 <;> rw [h1] <;> exact ⟨fun n hn => (by cases hn), fun hd => by cases hd⟩
      | rest _ _ h1 _ _ =>
        refine ⟨fun n hn => ?_, fun hn => ?_⟩ <;> rw [hn] at h1 <;> simp at h1
      | _ => rename_i h1 _; rw [h1]; exact ⟨fun n hn => (by cases hn), fun hd => by cases hd⟩
  exact (key s h).2 hpc

/-- steps where the main thread never waits in vain for a result: no time-out, and it stops waiting for results only if nothing is under way -/
inductive Spec.Brisk (f : Tile → List Bytes → Bytes) (mem batch : Nat) (s0 : Repack) : Repack → Prop
  | init : Brisk f mem batch s0 s0
  | step {s s' : Repack} (c : RepackChoice) : Brisk f mem batch s0 s → c ≠ .timeout → (c = .quit → s.inflight = []) →
      repackStep f mem batch c s = some (.ok s') → Brisk f mem batch s0 s'

theorem brisk_reach {s0 s1 s2 : Repack} (h : RepackReach f mem batch s0 s1) (hb : Brisk f mem batch s1 s2) : RepackReach f mem batch s0 s2 := by
  induction hb with
  | init => exact h
  | step c _ _ _ hs ih => exact .step c ih hs

/-- If the main thread never waits in vain, there never is more work under way than after the first filling (or than one batch). -/
theorem C57_in_flight (hl : Layout pf (tasks.flatMap (·.records))) (hf : ∀ tile packs, f tile packs ≠ []) {s1 s2 : Repack}
    (h : RepackReach f mem batch (repackInit pf tasks) s1) (hpc : s1.pc = .defrag) (hb : Brisk f mem batch s1 s2) :
    s2.inflight.length ≤ max batch s1.inflight.length := by
  obtain ⟨M, hM⟩ : ∃ M, M = max batch s1.inflight.length := ⟨_, rfl⟩
  rw [← hM]
  have hbM : batch ≤ M := by omega
  have key : (∀ n, s2.pc ≠ .fill n) ∧ s2.inflight.length ≤ M ∧ (∀ n, s2.pc = .results n → n ≤ batch ∧ s2.inflight.length + batch ≤ M + n) ∧
      (s2.pc = .flush → s2.inflight.length + batch ≤ M) ∧ (∀ n, s2.pc = .take n → s2.inflight.length + n ≤ M) := by
    induction hb with
    | init => rw [hpc]; exact ⟨fun n hn => (by cases hn), by omega, fun n hn => (by cases hn), fun hn => (by cases hn), fun n hn => (by cases hn)⟩
    | @step s s' c hr hto hq hs ih =>
      obtain ⟨i0, i1, i2, i3, i4⟩ := ih
      cases flight_step (rinv_reach hl hf (brisk_reach h hr)).wf hs with
      | fill n _ _ h => exact absurd h (i0 n)
      | fillEnd n _ h => exact absurd h (i0 n)
      | defrag _ _ h h1 h2 => rw [h1, h2]; exact ⟨fun n hn => (by cases hn), i1, fun n hn => (by cases hn), fun hn => (by cases hn), fun n hn => (by cases hn)⟩
      | head _ h h1 h2 =>
        rw [h2]
        rcases h1 with h1 | h1 <;> rw [h1]
        · exact ⟨fun n hn => (by cases hn), i1, fun n hn => (by injection hn with hn; omega), fun hn => (by cases hn), fun n hn => (by cases hn)⟩
        · exact ⟨fun n hn => (by cases hn), i1, fun n hn => (by cases hn), fun hn => (by cases hn), fun n hn => (by cases hn)⟩
      | resultsEnd _ h h1 h2 =>
        have := i2 _ h
        rw [h1, h2]; exact ⟨fun n hn => (by cases hn), i1, fun n hn => (by cases hn), fun hn => (by omega), fun n hn => (by cases hn)⟩
      | resultsQuit n _ h h1 h2 =>
        rw [h1, h2, hq rfl]; exact ⟨fun n hn => (by cases hn), by simp, fun n hn => (by cases hn), fun hn => (by simpa using hbM), fun n hn => (by cases hn)⟩
      | resultsTimeout => exact absurd rfl hto
      | result n i _ h h1 h2 =>
        have := i2 _ h
        rw [h1]; exact ⟨fun n hn => (by cases hn), by omega, fun m hn => (by injection hn with hn; omega), fun hn => (by cases hn), fun n hn => (by cases hn)⟩
      | flush _ h h1 h2 =>
        have := i3 h
        rw [h1, h2]; exact ⟨fun n hn => (by cases hn), i1, fun n hn => (by cases hn), fun hn => (by cases hn), fun n hn => (by injection hn with hn; omega)⟩
      | take n x _ h h1 h2 =>
        have := i4 _ h
        have hlen : s'.inflight.length = s.inflight.length + 1 := by rw [h2]; simp
        rw [h1]; exact ⟨fun n hn => (by cases hn), by omega, fun n hn => (by cases hn), fun hn => (by cases hn), fun m hn => (by injection hn with hn; omega)⟩
      | takeEnd n _ h h1 h2 => rw [h1, h2]; exact ⟨fun n hn => (by cases hn), i1, fun n hn => (by cases hn), fun hn => (by cases hn), fun n hn => (by cases hn)⟩
      | rest _ _ h1 h h2 =>
        refine ⟨fun n hn => ?_, by omega, fun n hn => ?_, fun hn => ?_, fun n hn => ?_⟩ <;> rw [hn] at h1 <;> simp at h1
  exact key.2.1

theorem slow_results (n : Nat) {s : Repack} (h : RepackReach f mem batch (repackInit pf tasks) s) (hpc : s.pc = .results n) :
    ∃ s', RepackReach f mem batch (repackInit pf tasks) s' ∧ s'.pc = .flush ∧ s'.tasks = s.tasks ∧ s'.inflight = s.inflight := by
  induction n generalizing s with
  | zero => exact ⟨s.goto .flush, .step .go h (by rw [repackStep.eq_def, hpc]; rfl), rfl, rfl, rfl⟩
  | succ n ih =>
    have h2 : RepackReach f mem batch (repackInit pf tasks) (s.goto (.results n)) := .step .timeout h (by rw [repackStep.eq_def, hpc]; rfl)
    obtain ⟨s', i1, i2, i3, i4⟩ := ih h2 rfl
    exact ⟨s', i1, i2, i3, i4⟩

theorem slow_take (hl : Layout pf (tasks.flatMap (·.records))) (hf : ∀ tile packs, f tile packs ≠ []) (n : Nat) {s : Repack}
    (h : RepackReach f mem batch (repackInit pf tasks) s) (hpc : s.pc = .take n) :
    ∃ s', RepackReach f mem batch (repackInit pf tasks) s' ∧ s'.pc = .head ∧ s'.tasks.length = s.tasks.length - n ∧
      s'.inflight.length + s'.tasks.length = s.inflight.length + s.tasks.length := by
  induction n generalizing s with
  | zero => exact ⟨s.goto .head, .step .go h (by rw [repackStep.eq_def, hpc]; simp), rfl, rfl, rfl⟩
  | succ n ih =>
    by_cases ht : s.tasks = []
    · exact ⟨s.goto .head, .step .go h (by rw [repackStep.eq_def, hpc]; simp [ht]), rfl, by simp [Repack.goto, ht], rfl⟩
    · have hs : repackStep f mem batch .go s = some (do
          let (s, _) ← s.enqueue
          return s.goto (.take n)) := by
        rw [repackStep.eq_def, hpc]; simp [ht]
      rcases C15_steps hl hf h hs with ⟨s', h1⟩ | ⟨_, ⟨h1, _⟩ | ⟨h1, _⟩⟩
      · rw [h1] at hs
        have h2 := RepackReach.step .go h hs
        rw [Res.bind_eq_ok] at h1
        obtain ⟨⟨s1, k⟩, h3, h4⟩ := h1
        injection h4 with h4
        subst h4
        obtain ⟨_, e2, e3, _⟩ := enqueue_shape h3
        obtain ⟨s', i1, i2, i3, i4⟩ := ih h2 rfl
        refine ⟨s', i1, i2, ?_, ?_⟩
        · rw [i3]; show s1.tasks.length - n = _; omega
        · rw [i4]; show s1.inflight.length + s1.tasks.length = _; omega
      · rw [hpc] at h1; cases h1
      · rw [hpc] at h1; cases h1

/-- Finding: `kRepackInFlightMemory` does not limit the memory: if the workers are slow, the main thread goes on reading a batch of tasks each
round, until everything is in memory. -/
theorem C57_unbounded (hl : Layout pf (tasks.flatMap (·.records))) (hf : ∀ tile packs, f tile packs ≠ []) (hb : 0 < batch) {s : Repack}
    (h : RepackReach f mem batch (repackInit pf tasks) s) (hpc : s.pc = .head) :
    ∃ s', RepackReach f mem batch (repackInit pf tasks) s' ∧ s'.pc = .head ∧ s'.tasks = [] ∧ s'.inflight.length = s.inflight.length + s.tasks.length := by
  obtain ⟨n, hn⟩ : ∃ n, n = s.tasks.length := ⟨_, rfl⟩
  induction n using Nat.strongRecOn generalizing s with
  | _ n ih =>
    by_cases ht : s.tasks = []
    · exact ⟨s, h, hpc, ht, by simp [ht]⟩
    · have h1 : RepackReach f mem batch (repackInit pf tasks) (s.goto (.results batch)) := .step .go h (by rw [repackStep.eq_def, hpc]; simp [ht])
      obtain ⟨s2, h2, p2, t2, l2⟩ := slow_results batch h1 rfl
      have h3 : RepackReach f mem batch (repackInit pf tasks) (s2.flushed.goto (.take batch)) := .step .go h2 (by rw [repackStep.eq_def, p2])
      obtain ⟨s4, h4, p4, t4, l4⟩ := slow_take hl hf batch h3 rfl
      have t5 : s4.tasks.length = s.tasks.length - batch := by rw [t4]; show s2.tasks.length - batch = _; rw [t2]; rfl
      have l5 : s4.inflight.length + s4.tasks.length = s.inflight.length + s.tasks.length := by
        rw [l4]; show s2.inflight.length + s2.tasks.length = _; rw [t2, l2]; rfl
      have hpos : 0 < s.tasks.length := List.length_pos_iff.2 ht
      obtain ⟨s', r1, r2, r3, r4⟩ := ih s4.tasks.length (by omega) h4 p4 rfl
      exact ⟨s', r1, r2, r3, by omega⟩

end

/-! ### cases -/

/-- the calls of C17's run are small, with `B` = 33 -/
example : C17_cache.Nodup ∧ 10 ≤ 40 ∧ ∀ c ∈ C17_calls.flatten, SmallCall C17_cache 33 c := by
  refine ⟨by decide, by decide, ?_⟩
  intro c hc
  simp only [C17_calls, List.flatten_cons, List.flatten_nil, List.append_nil, List.cons_append, List.nil_append, List.mem_cons, List.not_mem_nil,
    or_false] at hc
  have h0 : (⟨0, 0, 10⟩ : Tile) ∈ C17_cache := by decide
  have h1 : (⟨1, 0, 10⟩ : Tile) ∈ C17_cache := by decide
  rcases hc with rfl | rfl | rfl
  all_goals
    refine ⟨by simp [callBytes, InsCall.plan], ?_⟩
    intro ts v hp t ht
    simp only [InsCall.plan] at hp
    injection hp with hp
    injection hp with e1 e2
    subst e1
    rw [List.mem_singleton] at ht
    subst ht
    assumption

/-- and in that run the buckets do hold more than the upper threshold for a while: 65 bytes, with a threshold of 40 -/
example : (match runSched (insStep (fun _ => 7) C17_cache 40 10) (insInit (fun _ => none) ⟨[], 0⟩ C17_calls) [1, 2, 1, 2, 1, 2, 1, 2] with
    | some s => decide (40 < bucketBytes C17_cache s.1) | none => false) = true := by decide +kernel

/-- the first filling of C15's run stops after one task, whose 3 bytes reach the limit; from there on there is one task under way after each round -/
example : (match runChoices C15_fn 3 1 [.go, .go] (repackInit C15_file C15_tasks) with
    | some s => s.pc == .defrag && s.inflight.length == 1 && s.tasks.length == 2 | none => false) = true := by decide +kernel

/-- and with slow workers all three are under way, although the limit is 3 bytes -/
example : (match runChoices C15_fn 3 1 [.go, .go, .steps 50, .go, .timeout, .go, .go, .go, .go, .go, .timeout, .go, .go, .go, .go]
      (repackInit C15_file C15_tasks) with
    | some s => s.pc == .head && s.inflight.length == 3 && s.tasks.length == 0 && decide (3 < flightBytes s.inflight) | none => false) = true := by decide +kernel

end Tiles
