import Verif.Proof.InsSpace
import Verif.Proof.RepackSpace
import Verif.Proof.PackSize
import Verif.Props.C57
import Verif.Props.C62
/-!
C67: how large an import makes the pack file, and that an import can be completed: for features of acceptable size, whatever the files held before
and whatever was done so far, no step fails, and the steps can be continued until the import ends with exit code 0.
-/
namespace Tiles
open Spec

/-! ### the inserter -/

open Classical in
/-- the number of index tiles (zoom level 10) that a feature goes to: so many copies of it are stored -/
noncomputable def Spec.copies (x : Inserted) : Nat := (cacheTiles.filter (fun t => decide (x.At t))).length

/-- the size of a feature as it is inserted -/
def Spec.insertedSize (f : Feature) : Nat := match serializeFeature (fun _ => []) [] true f with | .ok v => v.length | _ => 0

/-- each copy, with its length (5 bytes at most) and its share of a pack -/
noncomputable def Spec.insertBytes (fs : List (List Inserted)) : Nat := (fs.flatten.map (fun x => copies x * (insertedSize x.feature + 15))).sum

theorem encVarint_len : ∀ (k v : Nat), v < 128 ^ (k + 1) → (encVarint v).length ≤ k + 1 := by
  intro k
  induction k with
  | zero => intro v hv; rw [encVarint, if_pos (by simpa using hv)]; simp
  | succ k ih =>
    intro v hv
    rw [encVarint]
    split
    · simp
    · rw [List.length_cons]
      have := ih (v / 128) (by rw [Nat.div_lt_iff_lt_mul (by decide)]; rw [Nat.pow_succ] at hv; exact hv)
      omega

theorem callCost_feature {f : Feature} (hr : (boundingBox f.geometry).InRange) (hs : insertedSize f < 2 ^ 32) :
    callCost (.feature f) ≤ copies (whole f) * (insertedSize f + 15) := by
  classical
  obtain ⟨ts, h1, h2, h3⟩ := C03_tile_range_exact _ hr 10 (by decide)
  have hvalid := C03_tile_range_valid _ hr 10 (by decide) ts h1
  unfold callCost
  split
  · rename_i ts' v hp
    rw [InsCall.plan, h1, Res.ok_bind, Res.bind_eq_ok] at hp
    obtain ⟨_, _, hp⟩ := hp
    rw [Res.bind_eq_ok] at hp
    obtain ⟨v', hv, hp⟩ := hp
    injection hp with hp
    injection hp with e1 e2
    subst e1 e2
    have hsz : insertedSize f = v'.length := by rw [insertedSize, hv]
    rw [hsz] at hs ⊢
    refine Nat.mul_le_mul ?_ ?_
    · have hsub : ts ⊆ cacheTiles.filter (fun t => decide ((whole f).At t)) := by
        intro t ht
        rw [List.mem_filter]
        obtain ⟨hz, px, py, hbx, hin⟩ := (h3 t).1 ht
        exact ⟨mem_cacheTiles.2 ⟨hvalid t ht, hz⟩, decide_eq_true ⟨px, py, hbx, hin⟩⟩
      have := (List.subperm_of_subset h2 hsub).length_le
      unfold copies
      convert this
    · have := encVarint_len 4 v'.length (by norm_num; omega)
      unfold featCost
      omega
  · exact Nat.zero_le _

theorem callCost_inserted {x : Inserted} (hr : x.InMap) (hs : insertedSize x.feature < 2 ^ 32) :
    callCost (x.call plainOf) ≤ copies x * (insertedSize x.feature + 15) := by
  classical
  obtain ⟨f, o⟩ := x
  cases o with
  | none => exact callCost_feature hr hs
  | some t =>
    have hlen : (plainOf f).length = insertedSize f := by unfold plainOf insertedSize; cases serializeFeature (fun _ => []) [] true f <;> rfl
    have hc : 1 ≤ copies ⟨f, some t⟩ := by
      unfold copies
      have : t ∈ cacheTiles.filter (fun u => decide ((⟨f, some t⟩ : Inserted).At u)) := List.mem_filter.2 ⟨mem_cacheTiles.2 hr, decide_eq_true (show t = t from rfl)⟩
      exact List.length_pos_of_mem this
    have he := encVarint_len 4 (plainOf f).length (by rw [hlen]; norm_num; exact lt_of_lt_of_le hs (by norm_num))
    have : callCost (.value t (plainOf f)) ≤ insertedSize f + 15 := by
      show [t].length * featCost (plainOf f) ≤ _
      unfold featCost
      rw [hlen] at he ⊢
      simp only [List.length_singleton]
      omega
    exact le_trans this (Nat.le_mul_of_pos_left _ hc)

theorem insSpace_init (cache : List Tile) (db : UInt64 → Option Bytes) (pf : PackFile) (calls : List (List InsCall)) :
    InsSpace cache (pf.size + (calls.flatten.map callCost).sum) (insInit db pf calls).1 (insInit db pf calls).2 := by
  refine ⟨fun t => rfl, ?_, ?_⟩
  · intro p hp
    simp only [insInit, List.mem_cons, List.mem_map] at hp
    rcases hp with rfl | ⟨_, _, rfl⟩ <;> trivial
  · have h1 : (cache.map (fun t => listCost ((insInit db pf calls).1.mem t))).sum = 0 := by
      apply sum_zero
      intro x hx
      obtain ⟨_, _, rfl⟩ := List.mem_map.1 hx
      rfl
    have h2 : ((insInit db pf calls).2.map InsPc.owed).sum = (calls.flatten.map callCost).sum := by
      simp only [insInit, List.map_cons, List.map_map, List.sum_cons, List.map_flatten, List.sum_flatten]
      show 0 + _ = _
      rw [Nat.zero_add]
      rfl
    rw [h1, h2]
    exact Nat.le_refl _

theorem insSpace_run {crc : Bytes → UInt32} {cache : List Tile} (hnd : cache.Nodup) {upper lower : Nat} {db : UInt64 → Option Bytes} {pf : PackFile}
    {calls : List (List InsCall)} {s : InsShared × List InsPc} (h : InsRun crc cache upper lower db pf calls s) :
    InsShape cache s.1 s.2 ∧ InsSpace cache (pf.size + (calls.flatten.map callCost).sum) s.1 s.2 := by
  induction h with
  | refl => exact ⟨insShape_init .., insSpace_init ..⟩
  | step _ st ih =>
    obtain ⟨s, s', a, b, p, p', hst⟩ := st
    have hst := insTr_of_step hst
    exact ⟨insShape_step ih.1 hst, insSpace_step hnd ih.1 ih.2 hst⟩

theorem insGrows_run {crc : Bytes → UInt32} {cache : List Tile} {upper lower : Nat} {db : UInt64 → Option Bytes} {pf : PackFile}
    {calls : List (List InsCall)} {s : InsShared × List InsPc} (h : InsRun crc cache upper lower db pf calls s) : Grows pf s.1.pf := by
  induction h with
  | refl => exact grows_refl _
  | step _ st ih =>
    obtain ⟨s, s', a, b, p, p', hst⟩ := st
    have hst := insTr_of_step hst
    refine grows_trans ih ?_
    dsimp only
    cases hst with
    | write t fs q k view view' pf' hv hw =>
      rw [writeBucket] at hw
      obtain ⟨k, _, hw⟩ := Res.bind_eq_ok.1 hw
      obtain ⟨p, hp, hw⟩ := Res.bind_eq_ok.1 hw
      dsimp only at hw
      split at hw
      · obtain ⟨v, _, hw⟩ := Res.bind_eq_ok.1 hw
        injection hw with hw
        injection hw with _ hw
        rw [← hw]; exact insert_grows ..
      · injection hw with hw
        injection hw with _ hw
        rw [← hw]; exact insert_grows ..
    | _ => exact grows_refl _

/-- At every point of the insertion, by any threads in any schedule, the pack file — and the file on disk — has grown to at most its size before and
the bytes of the copies of the inserted features, with 15 bytes more for each. -/
theorem C67_insert_space (crc : Bytes → UInt32) (upper lower : Nat) (db : UInt64 → Option Bytes) (pf : PackFile) (fs : List (List Inserted))
    (hfs : ∀ x ∈ fs.flatten, x.InMap ∧ insertedSize x.feature < 2 ^ 32)
    (s : InsShared × List InsPc) (h : InsRun crc cacheTiles upper lower db pf (fs.map (List.map (Inserted.call plainOf))) s) :
    s.1.pf.size ≤ pf.size + insertBytes fs ∧ s.1.pf.data.length ≤ max pf.data.length (pf.size + insertBytes fs) := by
  have h0 := (insGrows_run h).data
  have h1 := (insSpace_run cacheTiles_nodup h).2.total
  have h2 : (((fs.map (List.map (Inserted.call plainOf))).flatten).map callCost).sum ≤ insertBytes fs := by
    rw [← List.map_flatten, List.map_map, insertBytes]
    generalize fs.flatten = l at hfs
    induction l with
    | nil => exact Nat.le_refl _
    | cons f l ih =>
      have := ih (fun f hf => hfs f (by simp [hf]))
      have h3 := callCost_inserted (hfs f (by simp)).1 (hfs f (by simp)).2
      simp only [List.map_cons, List.sum_cons, Function.comp] at this ⊢
      omega
  omega

/-- the destructor gives up only when a flush has failed -/
theorem terminated_failed {crc : Bytes → UInt32} {cache : List Tile} {upper lower : Nat} {db : UInt64 → Option Bytes} {pf : PackFile}
    {calls : List (List InsCall)} {s : InsShared × List InsPc} (h : InsRun crc cache upper lower db pf calls s) (ht : .terminated ∈ s.2) : s.1.failed = true := by
  induction h with
  | refl =>
    simp only [insInit, List.mem_cons, List.mem_map] at ht
    rcases ht with ht | ⟨_, _, ht⟩ <;> cases ht
  | step _ st ih =>
    obtain ⟨s, s', a, b, p, p', hst⟩ := st
    have hst := insTr_of_step hst
    dsimp only at ht ih ⊢
    have hmono : s.failed = true → s'.failed = true := by
      intro hf
      cases hst <;> first | exact hf | rfl
    rcases List.mem_append.1 ht with ht | ht
    · exact hmono (ih (by simp [ht]))
    · rcases List.mem_cons.1 ht with ht | ht
      · cases hst with
        | fail => rfl
        | small up lo k => cases k <;> cases ht
        | resmall up lo k => cases k <;> cases ht
        | scanEmpty lo k => cases k <;> cases ht
        | commit k => cases k <;> cases ht
        | _ => cases ht
      · exact hmono (ih (by simp [ht]))

/-- The insertion of acceptable features into an empty database never fails and cannot get stuck: a run that cannot be continued has finished; and
every run can be continued until it has finished. -/
theorem C67_insert_ends (crc : Bytes → UInt32) (upper lower : Nat) (fs : List (List Inserted))
    (hfs : ∀ x ∈ fs.flatten, x.InMap ∧ ∃ v, serializeFeature (fun _ => []) [] true x.feature = .ok v ∧ 32 ≤ v.length ∧ v.length < 2 ^ 32)
    (hmany : fs.flatten.length < 2 ^ 32) (hbytes : insertBytes fs < 2 ^ 64)
    (s : InsShared × List InsPc) (h : InsRun crc cacheTiles upper lower (fun _ => none) ⟨[], 0⟩ (fs.map (List.map (Inserted.call plainOf))) s) :
    s.1.pf.size < 2 ^ 64 ∧ s.1.failed = false ∧ .terminated ∉ s.2 ∧
    ((¬ ∃ t, ThreadStep (insStep crc cacheTiles upper lower) s t) → .finished ∈ s.2) ∧
    ∃ t, Reach (ThreadStep (insStep crc cacheTiles upper lower)) s t ∧ .finished ∈ t.2 := by
  have hsize : ∀ {s}, InsRun crc cacheTiles upper lower (fun _ => none) ⟨[], 0⟩ (fs.map (List.map (Inserted.call plainOf))) s → s.1.pf.size < 2 ^ 64 := by
    intro s h
    have := (C67_insert_space crc upper lower _ _ fs (fun f hf => ⟨(hfs f hf).1, by obtain ⟨v, e1, _, e2⟩ := (hfs f hf).2; rw [insertedSize, e1]; exact e2⟩) s h).1
    have : (⟨[], 0⟩ : PackFile).size = 0 := rfl
    omega
  have hplaced : ∀ t ∈ cacheTiles, (∀ v ∈ allPlaced cacheTiles (fs.map (List.map (Inserted.call plainOf))) t, 32 ≤ v.length ∧ v.length < 2 ^ 64) ∧
      (allPlaced cacheTiles (fs.map (List.map (Inserted.call plainOf))) t).length < 2 ^ 32 := by
    classical
    intro t ht
    have hall : allPlaced cacheTiles (fs.map (List.map (Inserted.call plainOf))) t = (fs.flatten.filter (fun x => decide (x.At t))).map (fun x => plainOf x.feature) := by
      rw [allPlaced, ← List.map_flatten]
      generalize fs.flatten = l at hfs
      induction l with
      | nil => rfl
      | cons f l ih =>
        obtain ⟨h1, v, h2, _⟩ := hfs f (by simp)
        obtain ⟨h3, h4⟩ := placed_inserted plainOf f h1 (by rw [plainOf_eq h2]; exact h2) t ht
        rw [List.map_cons, List.flatMap_cons, ih (fun f hf => hfs f (by simp [hf]))]
        by_cases hm : f.At t
        · rw [h3 hm, List.filter_cons_of_pos (by simpa using hm)]; rfl
        · rw [h4 hm, List.filter_cons_of_neg (by simpa using hm)]; rfl
    rw [hall]
    refine ⟨?_, ?_⟩
    · intro v hv
      obtain ⟨f, hf, rfl⟩ := List.mem_map.1 hv
      obtain ⟨_, v, h2, h3, h4⟩ := hfs f (List.mem_filter.1 hf).1
      rw [plainOf_eq h2]
      exact ⟨h3, by omega⟩
    · rw [List.length_map]
      have := List.length_filter_le (fun x => decide (Inserted.At x t)) fs.flatten
      omega
  have hfailed : ∀ {s}, InsRun crc cacheTiles upper lower (fun _ => none) ⟨[], 0⟩ (fs.map (List.map (Inserted.call plainOf))) s → s.1.failed = false := by
    intro s h
    exact (ins_run_ok (R := fun p ss => packFeaturesPlain crc ss = .ok p) (db := fun _ => none) (pf := ⟨[], 0⟩) (fun ss p h _ _ => h) cacheTiles_nodup
      (fun t ht => cacheTiles_fits ht) (by simp [PackFile.WF]) (old := fun _ => []) (fun t _ k _ => rfl) (fun t ht => (hplaced t ht).1) (fun t ht => (hplaced t ht).2) h (hsize h)).2
  have hterm : ∀ {s}, InsRun crc cacheTiles upper lower (fun _ => none) ⟨[], 0⟩ (fs.map (List.map (Inserted.call plainOf))) s → .terminated ∉ s.2 := by
    intro s h ht
    have := terminated_failed h ht
    rw [hfailed h] at this
    cases this
  obtain ⟨e1, e2⟩ := C17_ends crc cacheTiles upper lower (fun _ => none) ⟨[], 0⟩ (fs.map (List.map (Inserted.call plainOf)))
  have hend : ∀ {s}, InsRun crc cacheTiles upper lower (fun _ => none) ⟨[], 0⟩ (fs.map (List.map (Inserted.call plainOf))) s →
      (¬ ∃ t, ThreadStep (insStep crc cacheTiles upper lower) s t) → .finished ∈ s.2 := fun h hn => (e2 _ h hn).resolve_right (hterm h)
  refine ⟨hsize h, hfailed h, hterm h, hend h, ?_⟩
  by_contra hc
  have hstep : ∀ x : { x // Reach (ThreadStep (insStep crc cacheTiles upper lower)) s x }, ∃ y : { x // Reach (ThreadStep (insStep crc cacheTiles upper lower)) s x },
      ThreadStep (insStep crc cacheTiles upper lower) x.1 y.1 := by
    intro ⟨x, hx⟩
    by_contra hn
    refine hc ⟨x, hx, hend (reach_trans h hx) ?_⟩
    rintro ⟨t, ht⟩
    exact hn ⟨⟨t, .step hx ht⟩, ht⟩
  choose next hnext using hstep
  exact e1 ⟨fun n => (next^[n] ⟨s, .refl⟩).1, fun n => by
    show ThreadStep _ (next^[n] _).1 (next^[n + 1] _).1
    rw [Function.iterate_succ_apply']; exact hnext _⟩

/-! ### the packing -/

/-- At every point of the packing, whatever the workers do and in whatever order their results arrive, the pack file — and the file on disk — is at most
as large as before with the new packs added: both forms of all packs are never needed twice. -/
theorem C67_pack_space (fn : Tile → List Bytes → Bytes) (hne : ∀ t packs, fn t packs ≠ []) (mem batch : Nat) {pf : PackFile} {es : List (UInt64 × List PackRecord)}
    (hx : Index pf es) (L : Tile → Nat) (hL : ∀ t packs, PacksOf pf es t packs → (fn t packs).length ≤ L t) (s : PackDb)
    (h : PackReach fn mem batch (stored es) (packDbInit (stored es) pf) s) :
    ∃ tiles : List Tile, tiles.Nodup ∧ (∀ t ∈ tiles, ∃ e ∈ es, keyToTile e.1 = t) ∧
      s.file.size ≤ pf.size + (tiles.map L).sum ∧ s.file.data.length ≤ max pf.data.length (pf.size + (tiles.map L).sum) := by
  obtain ⟨tasks, ht, hg⟩ := packTasks_index hx
  have hl : Layout pf (tasks.flatMap (·.records)) := by rw [hg.flat]; exact hx.layout
  refine ⟨tasks.map (·.tile), hg.nodup, fun t ht => (hg.tiles t).1 ht, ?_⟩
  obtain ⟨hpf, hp⟩ := packDb_reach hx ht hg hne h
  rw [PackDb.file]
  cases hrun : s.run with
  | none => dsimp only; rw [hpf]; omega
  | some r =>
    rw [hrun] at hp
    have := repack_space hl hne hp.1 L (fun t packs hi => hL t packs (grouped_input hg hi))
    rw [grouped_tilesOf hg] at this
    exact this

theorem sum_map_const_nat {α : Type} (l : List α) (c : Nat) : (l.map (fun _ => c)).sum = l.length * c := by
  induction l with
  | nil => simp
  | cons a l ih => rw [List.map_cons, List.sum_cons, ih, List.length_cons, Nat.add_mul]; omega

theorem geoTileRange_length (x1 y1 x2 y2 z : Nat) : (geoTileRange x1 y1 x2 y2 z).length = (y2 + 1 - y1) * (x2 + 1 - x1) := by
  rw [geoTileRange, List.length_flatMap]
  simp only [List.length_map, List.length_range']
  rw [sum_map_const_nat, List.length_range']

theorem cacheTiles_length : cacheTiles.length = 2 ^ 20 := by
  rw [cacheTiles, geoTileRange_length]
  decide

/-- the size of a feature in an indexed pack -/
def Spec.indexedSize (mk : Line → Bytes) (dec : List Meta) (f : Feature) : Nat := match serializeFeature mk dec false f with | .ok v => v.length | _ => 0

/-- for an index tile: the features that go there, 182 bytes more for each, and 69 bytes -/
noncomputable def Spec.tileBytes (mk : Line → Bytes) (dec : List Meta) (fs : List (List Inserted)) (t : Tile) : Nat :=
  ((goesTo fs t).map (fun f => indexedSize mk dec f + 182)).sum + 69

/-- for all: each copy, 182 bytes more for each, and 69 bytes for each of the 2^20 index tiles -/
noncomputable def Spec.packBytes (mk : Line → Bytes) (dec : List Meta) (fs : List (List Inserted)) : Nat :=
  (fs.flatten.map (fun x => copies x * (indexedSize mk dec x.feature + 182))).sum + 69 * 2 ^ 20

theorem sum_swap {α β : Type} (P : α → β → Prop) [∀ a b, Decidable (P a b)] (c : β → Nat) (T : List α) (l : List β) :
    (T.map (fun t => ((l.filter (fun f => decide (P t f))).map c).sum)).sum = (l.map (fun f => (T.filter (fun t => decide (P t f))).length * c f)).sum := by
  induction l with
  | nil => simp
  | cons f l ih =>
    rw [List.map_cons, List.sum_cons, ← ih]
    clear ih
    induction T with
    | nil => simp
    | cons t T ih =>
      rw [List.map_cons, List.sum_cons, ih, List.map_cons, List.sum_cons, List.filter_cons, List.filter_cons (xs := T)]
      by_cases h : P t f
      · rw [if_pos (by simpa using h), if_pos (by simpa using h), List.map_cons, List.sum_cons, List.length_cons, Nat.add_mul]; omega
      · rw [if_neg (by simpa using h), if_neg (by simpa using h)]; omega

/-- The index packs of all tiles. -/
theorem tileBytes_sum (mk : Line → Bytes) (dec : List Meta) (fs : List (List Inserted)) {tiles : List Tile} (h1 : tiles.Nodup) (h2 : ∀ t ∈ tiles, t ∈ cacheTiles) :
    (tiles.map (tileBytes mk dec fs)).sum ≤ packBytes mk dec fs := by
  classical
  have hlen : tiles.length ≤ 2 ^ 20 := by
    rw [← cacheTiles_length]
    exact (List.subperm_of_subset h1 h2).length_le
  have e : tileBytes mk dec fs = fun t => ((fs.flatten.filter (fun x => decide (x.At t))).map (fun x => indexedSize mk dec x.feature + 182)).sum + 69 := by
    funext t; unfold tileBytes goesTo; rw [List.map_map]; rfl
  have hadd : ∀ (l : List Tile) (g : Tile → Nat), (l.map (fun t => g t + 69)).sum = (l.map g).sum + 69 * l.length := by
    intro l g
    induction l with
    | nil => rfl
    | cons a l ih => simp only [List.map_cons, List.sum_cons, List.length_cons, ih]; omega
  rw [e, hadd, sum_swap (fun t x => Inserted.At x t), packBytes]
  refine Nat.add_le_add ?_ (by omega)
  generalize fs.flatten = l
  induction l with
  | nil => exact Nat.le_refl _
  | cons f l ih =>
    rw [List.map_cons, List.sum_cons, List.map_cons, List.sum_cons]
    refine Nat.add_le_add (Nat.mul_le_mul_right _ ?_) ih
    have hs : tiles.filter (fun t => decide (f.At t)) ⊆ cacheTiles.filter (fun t => decide (f.At t)) := by
      intro t ht
      obtain ⟨a, b⟩ := List.mem_filter.1 ht
      exact List.mem_filter.2 ⟨h2 t a, b⟩
    have := (List.subperm_of_subset (h1.filter _) hs).length_le
    unfold copies
    convert this

section
variable (crc : Bytes → UInt32) (srt : List QFeature → List QFeature) (mk : Line → Bytes) (rd : Bytes → Nat → List Bool) (dec : List Meta)
  (upper lower : Nat) (fs : List (List Inserted))

/-- The pack of a tile is not larger than the features in it and 182 bytes for each, and 69 bytes. -/
theorem C67_pack_bytes (hsrt : SortsByKey srt) (t : Tile) (hv : t.Valid) (hz : t.z = 10) (l : List Feature)
    (hl : ∀ f ∈ l, indexedSize mk dec f < 2 ^ 32) (x : Bytes) (h : packIndexedFeatures crc srt (serializeFeature mk dec false) t l = .ok x) :
    x.length ≤ (l.map (fun f => indexedSize mk dec f + 182)).sum + 69 := by
  have := packIndexed_size (serializeFeature mk dec false) srt crc hsrt hv (by omega) (fun f hf b hb => by
    have := hl f hf
    rw [indexedSize, hb] at this
    exact this) h
  rw [hz] at this
  exact this

/-- what the packing function returns for the packs of a tile -/
theorem packs_small (hsrt : SortsByKey srt) (hd : dec.length ≤ 2 ^ 64) (hm : ∀ l z, (rd (mk l) z).length = l.length)
    (hfs : ∀ f ∈ fs.flatten, Importable mk dec plainOf f) (hmany : fs.flatten.length < 2 ^ 32)
    {s : InsShared × List InsPc} (h : InsRun crc cacheTiles upper lower (fun _ => none) ⟨[], 0⟩ (fs.map (List.map (Inserted.call plainOf))) s)
    (hpf : s.1.pf.size < 2 ^ 64) (hfin : .finished ∈ s.2) {entries : List (UInt64 × Bytes)} (hdb : EntriesOf s.1.db entries)
    {fn : Tile → List Bytes → Bytes} (hfn : ∀ t packs x, packIndexed crc srt mk rd dec t packs = .ok x → fn t packs = x) :
    ∃ es, Index s.1.pf es ∧ entries = stored es ∧ (∀ t packs, PacksOf s.1.pf es t packs → (t.Valid ∧ t.z = 10) ∧ (fn t packs).length ≤ tileBytes mk dec fs t) ∧
      ∀ e ∈ es, (keyToTile e.1).Valid ∧ (keyToTile e.1).z = 10 := by
  classical
  obtain ⟨es, hx, rfl, hpk, _, hkey⟩ := ins_packs crc mk dec upper lower fs plainOf (fun f hf => by
    obtain ⟨a, b, c⟩ := (hfs f hf).plain
    exact ⟨(hfs f hf).inMap, a, b, c⟩) hmany s h hpf hfin entries hdb
  refine ⟨es, hx, rfl, fun t packs hp => ?_, fun e he => ⟨(hkey e he).1, (hkey e he).2.1⟩⟩
  obtain ⟨a, b, fss, c1, c2⟩ := hpk t packs hp
  have hmem : ∀ f ∈ fss.flatten, Packable mk dec plainOf f := by
    intro f hf
    obtain ⟨x, hx, _, rfl⟩ := mem_goesTo (c2.mem_iff.1 hf)
    exact (hfs x hx).toPackable
  have hread := readPacks_exact crc mk rd dec hd c1 (fun l hl f hf => (hmem f (List.mem_flatten.2 ⟨l, hl, hf⟩)).toStorable)
  obtain ⟨pack, p1, _⟩ := indexed_read crc srt mk rd dec plainOf hsrt hd hm a b (l := goesTo fs t) (by
    intro f hf
    obtain ⟨x, a, b, rfl⟩ := mem_goesTo hf
    exact ⟨(hfs x a).toPackable, importable_touches (hfs x a) b⟩) c1 c2
  rw [hfn t packs pack p1]
  rw [packIndexed, hread, Res.ok_bind] at p1
  have := C67_pack_bytes crc srt mk dec hsrt t a b fss.flatten (fun f hf => by
    obtain ⟨x, h1, h2, h3⟩ := (hmem f hf).indexed
    rw [indexedSize, h1]; exact h3) pack p1
  refine ⟨⟨a, b⟩, le_trans this (Nat.le_of_eq ?_)⟩
  exact congrArg (· + 69) (c2.map (fun f => indexedSize mk dec f + 182)).sum_nat

/-- After a complete insertion: at every point of the packing the file has grown by at most the size of the index packs. -/
theorem C67_packed_size (hsrt : SortsByKey srt) (hd : dec.length ≤ 2 ^ 64) (hm : ∀ l z, (rd (mk l) z).length = l.length)
    (hfs : ∀ f ∈ fs.flatten, Importable mk dec plainOf f) (hmany : fs.flatten.length < 2 ^ 32)
    (s : InsShared × List InsPc) (h : InsRun crc cacheTiles upper lower (fun _ => none) ⟨[], 0⟩ (fs.map (List.map (Inserted.call plainOf))) s)
    (hpf : s.1.pf.size < 2 ^ 64) (hfin : .finished ∈ s.2) (entries : List (UInt64 × Bytes)) (hdb : EntriesOf s.1.db entries)
    (fn : Tile → List Bytes → Bytes) (hfn : ∀ t packs x, packIndexed crc srt mk rd dec t packs = .ok x → fn t packs = x) (hne : ∀ t packs, fn t packs ≠ [])
    (mem batch : Nat) (s' : PackDb) (h' : PackReach fn mem batch entries (packDbInit entries s.1.pf) s') :
    s'.file.size ≤ s.1.pf.size + packBytes mk dec fs ∧ s'.file.data.length ≤ max s.1.pf.data.length (s.1.pf.size + packBytes mk dec fs) := by
  obtain ⟨es, hx, rfl, hsmall, hkey⟩ := packs_small crc srt mk rd dec upper lower fs hsrt hd hm hfs hmany h hpf hfin hdb hfn
  obtain ⟨tiles, t1, t2, t3, t4⟩ := C67_pack_space fn hne mem batch hx (tileBytes mk dec fs) (fun t packs hp => (hsmall t packs hp).2) s' h'
  have hsum := tileBytes_sum mk dec fs t1 (by
    intro t ht
    obtain ⟨e, he, rfl⟩ := t2 t ht
    exact mem_cacheTiles.2 (hkey e he))
  omega

/-- the function that the workers apply -/
def Spec.packFn (crc : Bytes → UInt32) (srt : List QFeature → List QFeature) (mk : Line → Bytes) (rd : Bytes → Nat → List Bool) (dec : List Meta)
    (t : Tile) (packs : List Bytes) : Bytes :=
  match packIndexed crc srt mk rd dec t packs with | .ok [] => [0] | .ok b => b | _ => [0]

theorem packFn_ne (t : Tile) (packs : List Bytes) : packFn crc srt mk rd dec t packs ≠ [] := by
  unfold packFn
  split
  · simp
  · rename_i h _; exact fun hc => h (by assumption)
  · simp

theorem packFn_ok (t : Tile) (packs : List Bytes) (b : Bytes) (h : packIndexed crc srt mk rd dec t packs = .ok b) : packFn crc srt mk rd dec t packs = b := by
  have hne : b ≠ [] := by
    rw [packIndexed, Res.bind_eq_ok] at h
    obtain ⟨_, _, h⟩ := h
    exact packIndexedFeatures_ne _ _ h
  unfold packFn
  rw [h]
  cases b with
  | nil => exact absurd rfl hne
  | cons => rfl

/-- The packing can be completed after every complete insertion: the packs are small, in a file that is larger by at most their size. -/
theorem pack_completes (hsrt : SortsByKey srt) (hd : dec.length ≤ 2 ^ 64) (hm : ∀ l z, (rd (mk l) z).length = l.length)
    (hfs : ∀ f ∈ fs.flatten, Importable mk dec plainOf f) (hmany : fs.flatten.length < 2 ^ 32) (hsome : fs.flatten ≠ []) (hfits : ∀ t : Tile, t.Valid → t.z = 10 → tileBytes mk dec fs t ≤ 2 ^ 30)
    (hsum : packBytes mk dec fs < 2 ^ 63) {mem batch : Nat} (hb : 0 < batch) {s : InsShared × List InsPc}
    (h : InsRun crc cacheTiles upper lower (fun _ => none) ⟨[], 0⟩ (fs.map (List.map (Inserted.call plainOf))) s)
    (hmem : s.1.pf.size ≤ mem) (hpf : s.1.pf.size < 2 ^ 63) (hfin : .finished ∈ s.2) {entries : List (UInt64 × Bytes)} (hdb : EntriesOf s.1.db entries) :
    ∃ s' r0 features, PackReach (packFn crc srt mk rd dec) mem batch entries (packDbInit entries s.1.pf) s' ∧ s'.run = some r0 ∧ r0.pc = .done ∧
      s'.file.size ≤ s.1.pf.size + packBytes mk dec fs ∧ s'.file.data.length ≤ max s.1.pf.data.length (s.1.pf.size + packBytes mk dec fs) ∧ s'.file.WF ∧
      EntriesOf s'.db features ∧ features ≠ [] ∧ SmallPacks s'.db ∧ Imported crc srt mk rd dec upper lower plainOf fs features s'.file := by
  have hpf' : s.1.pf.size < 2 ^ 64 := by omega
  obtain ⟨s', r0, h1, h2, h3⟩ := C52_pack_ends crc mk dec upper lower fs plainOf hfs hmany hsome s h hpf' hfin entries hdb (packFn crc srt mk rd dec)
    (packFn_ne crc srt mk rd dec) mem batch hb hmem _ .init (by intro r0 hr; cases hr)
  obtain ⟨h4, h5⟩ := C67_packed_size crc srt mk rd dec upper lower fs hsrt hd hm hfs hmany s h hpf' hfin entries hdb (packFn crc srt mk rd dec)
    (packFn_ok crc srt mk rd dec) (packFn_ne crc srt mk rd dec) mem batch s' h1
  obtain ⟨features, hdb'⟩ := entriesOf_exists s'.db
  obtain ⟨es, hx, he, hlen, hkey⟩ := packs_small crc srt mk rd dec upper lower fs hsrt hd hm hfs hmany h hpf' hfin hdb (packFn_ok crc srt mk rd dec)
  obtain ⟨es', hx', he', _, hrec, _⟩ := ins_packs crc mk dec upper lower fs plainOf (fun f hf => by
    obtain ⟨a, b, c⟩ := (hfs f hf).plain
    exact ⟨(hfs f hf).inMap, a, b, c⟩) hmany s h hpf' hfin entries hdb
  have hwf : s'.file.WF := by
    obtain ⟨tasks, ht, hg⟩ := packTasks_index hx
    have hl : Layout s.1.pf (tasks.flatMap (·.records)) := by rw [hg.flat]; exact hx.layout
    rw [he] at h1
    have hp := (packDb_reach hx ht hg (packFn_ne crc srt mk rd dec) h1).2
    rw [h2] at hp
    rw [PackDb.file, h2]
    exact (rinv_reach hl (packFn_ne crc srt mk rd dec) hp.1).wf
  have hsm : SmallPacks s'.db := by
    rw [he] at h1
    obtain ⟨hd1, hd2, hd3⟩ := C44_done_partial hx (packFn_ne crc srt mk rd dec) h1 h2 h3
    intro k v rs hk hrs r hr
    obtain ⟨k1, k2⟩ := hd2 _ _ hk
    obtain ⟨k', r', packs, e1, e2, e3, e4⟩ := hd1 _ k2
    rw [k1] at e1; injection e1 with e1; subst e1
    rw [hk] at e2; injection e2 with e2
    have hg := (PackFile.get_eq_ok_iff ..).1 e4
    have hrs' : packRecordsDeserialize v = .ok [r'] := by
      rw [e2]
      refine C05_records_round_trip _ (fun r'' hr' => ?_)
      rw [List.mem_singleton] at hr'; subst hr'
      have := hg
      unfold PackRecord.endOffset at this
      exact ⟨by omega, by omega⟩
    rw [hrs'] at hrs; injection hrs with hrs; subst hrs
    rw [List.mem_singleton] at hr; subst hr
    obtain ⟨⟨v1, v2⟩, v3⟩ := hlen _ _ e3
    have := le_trans v3 (hfits _ v1 v2)
    rw [← hg.2.2] at this
    have hw : s'.file.size ≤ s'.file.data.length := hwf
    rw [slice, List.length_take, List.length_drop] at this
    unfold PackRecord.endOffset at hg
    omega
  refine ⟨s', r0, features, h1, h2, h3, h4, h5, hwf, hdb', ?_, hsm, .mk s h hpf' hfin entries hdb _ (packFn_ok crc srt mk rd dec) (packFn_ne crc srt mk rd dec)
    mem batch s.1.pf (keeps_refl hx.layout.wf) hpf' s' h1 r0 h2 h3 features hdb' s'.file (keeps_refl hwf) (by omega) hsm⟩
  rintro rfl
  rw [he'] at h1
  obtain ⟨hd1, _, _⟩ := C44_done_partial hx' (packFn_ne crc srt mk rd dec) h1 h2 h3
  obtain ⟨f, hf⟩ := List.exists_mem_of_ne_nil _ hsome
  obtain ⟨t, hv, hz, hbt⟩ := inserted_has_tile f (hfs f hf).inMap
  obtain ⟨k, r, _, _, e2, _⟩ := hd1 t (hrec t f hv hz hf hbt)
  have := (hdb'.same _ _).2 e2
  cases this

end

/-! ### the tiles -/

/-- the tiles of the levels 0 to 10 can be drawn: the context is that of the import, the libraries do what they promise (C62), and the features can be drawn (C62) -/
structure Spec.CanDraw {ι : Type} (env : ImportEnv ι) (i : ι) (fs : List (List Inserted)) : Prop where
  label : (env.ctxOf i).label = none
  rd : (env.ctxOf i).rd = env.rd
  dec : (env.ctxOf i).dec = env.decOf i
  layers : ∀ x ∈ fs.flatten, x.feature.layer < (env.ctxOf i).layerNames.length
  some : 0 < (env.ctxOf i).layerNames.length
  sea : ∃ sea, SeaTree sea (env.ctxOf i).seaside
  lib : ∃ e inter clipper correct, 0 ≤ e ∧ e ≤ 2 ^ 20 ∧ ClipLib e inter clipper correct ∧ (env.ctxOf i).clip = clipGeometry inter clipper correct
  agg : ∃ simplify, ∀ z fs out, aggregateLineFeatures simplify z fs = .ok out → (env.ctxOf i).aggregate z fs = out
  draw : ∀ z ≤ 10, ∀ x ∈ fs.flatten, Drawable (fun l => env.rd (env.mkMask l) z) x.feature
  short : ∀ q : Tile, q.Valid → q.z ≤ 10 → ∀ gs j,
    (∀ g ∈ gs, (∃ t, g = seaSquare t) ∨ ∃ x ∈ fs.flatten, StoredAs (fun l => env.rd (env.mkMask l) q.z) x.feature g) →
    ∀ f ∈ candidates { (env.ctxOf i).toRenderCtx with aggLines := true, aggPolygons := true } (specOf q) (ofLayer gs j),
      NoLongLine { (env.ctxOf i).toRenderCtx with aggLines := true, aggPolygons := true } q f

/-- After an import every tile of the levels 0 to 10 can be rendered. -/
theorem C67_renders {ι : Type} (env : ImportEnv ι) (i : ι) (fs : List (List Inserted)) (hsrt : SortsByKey env.srt)
    (hm : ∀ l z, (env.rd (env.mkMask l) z).length = l.length) (hd : (env.decOf i).length ≤ 2 ^ 64)
    (hfs : ∀ f ∈ fs.flatten, Importable env.mkMask (env.decOf i) plainOf f) (hmany : fs.flatten.length < 2 ^ 32) (hdraw : CanDraw env i fs)
    (features : List (UInt64 × Bytes)) (pf : PackFile) (hi : Imported env.crc env.srt env.mkMask env.rd (env.decOf i) env.upper env.lower plainOf fs features pf)
    (q : Tile) (hv : q.Valid) (hz : q.z ≤ 10) : ∃ r, prepRender features pf (env.ctxOf i) q = .ok r := by
  obtain ⟨sea, hsea⟩ := hdraw.sea
  obtain ⟨e, inter, clipper, correct, he, he', hl, hclip⟩ := hdraw.lib
  obtain ⟨simplify, hagg⟩ := hdraw.agg
  let ctx : GetCtx := { env.ctxOf i with ignoreSeaside := true, aggLines := true, aggPolygons := true }
  obtain ⟨ps, gs, h1, h2, h3, _⟩ := C52_read env.crc env.srt env.mkMask env.rd (env.decOf i) env.upper env.lower fs plainOf hsrt hd hm hfs hmany features pf hi ctx
    hdraw.rd hdraw.dec q hv (by omega)
  obtain ⟨leafs, h5, _, h8, _⟩ := hsea.leafs hv (by omega)
  have hfrom : ∀ g ∈ leafs.map seaSquare ++ gs, (∃ t, g = seaSquare t) ∨ ∃ x ∈ fs.flatten, StoredAs (fun l => env.rd (env.mkMask l) q.z) x.feature g := by
    intro g hg
    rcases List.mem_append.1 hg with hg | hg
    · obtain ⟨t, _, rfl⟩ := List.mem_map.1 hg
      exact .inl ⟨t, rfl⟩
    · obtain ⟨f, k1, _, _, k2⟩ := h3 g hg
      exact .inr ⟨f, k1, k2⟩
  have hren : ∀ g ∈ leafs.map seaSquare ++ gs, Renderable g := by
    intro g hg
    rcases List.mem_append.1 hg with hg | hg
    · obtain ⟨t, ht, rfl⟩ := List.mem_map.1 hg
      exact sea_renderable (h8 t ht).1 (h8 t ht).2
    · obtain ⟨f, k1, _, _, k2⟩ := h3 g hg
      exact stored_renderable (hfs f k1).toPackable.toFeatureOk (hdraw.draw q.z hz f k1) k2
  have hok : ∀ j, LayerOk ctx.toRenderCtx (specOf q) (ofLayer (leafs.map seaSquare ++ gs) j) := fun j =>
    (C62_layer hl he he' ctx.toRenderCtx hclip q (by omega) (hagg q.z) _ (fun g hg => hren g (List.mem_filter.1 hg).1) (hdraw.short q hv hz _ j hfrom)).1
  obtain ⟨h6, h7⟩ := C29_render ctx hdraw.label q hv (by omega) sea hsea ps gs h2 leafs h5 (by
    intro f hf
    rcases List.mem_append.1 hf with hf | hf
    · obtain ⟨t, _, rfl⟩ := List.mem_map.1 hf
      exact hdraw.some
    · obtain ⟨f', hf', _, _, ms, _, rfl⟩ := h3 f hf
      exact hdraw.layers f' hf') hok
  rw [prepRender, h1, Res.ok_bind]
  by_cases hc : ctx.ignoreSeaside = true ∧ (∃ t ∈ sea, AncOrSelf t q) ∧ gs = []
  · exact ⟨_, h6 hc.1 hc.2.1 hc.2.2⟩
  · obtain ⟨bytes, h9, _⟩ := h7 hc
    exact ⟨_, h9⟩

theorem area_valid {keys : List UInt64} (hne : keys ≠ []) (hk : ∀ k ∈ keys, (keyToTile k).Valid ∧ (keyToTile k).z = 10) {t : Tile} (ht : t.z ≤ 10)
    (h : InArea (dbBounds keys) t) : t.Valid := by
  obtain ⟨j, hj, h1, h2, h3, h4, hmeet⟩ := h
  obtain ⟨_, _, ⟨a, ha, ha'⟩, _, ⟨b, hb, hb'⟩⟩ := C30_area keys hne
  have va := (hk a ha).1.1
  have vb := (hk b hb).1.2
  rw [(hk a ha).2] at va
  rw [(hk b hb).2] at vb
  rcases hmeet with ⟨m1, m2, m3⟩ | ⟨m1, m2, m3⟩
  · have hz : t.z = 10 := by omega
    rw [hz, hj, Nat.sub_self, Nat.pow_zero, Nat.div_one] at m2 m3
    refine ⟨?_, ?_⟩ <;> rw [hz] <;> omega
  · rw [hj] at m2 m3
    have hpow : 2 ^ t.z * 2 ^ (10 - t.z) = 2 ^ 10 := by rw [← Nat.pow_add]; congr 1; omega
    refine ⟨?_, ?_⟩
    · rw [m2, Nat.div_lt_iff_lt_mul (Nat.pow_pos (by decide)), hpow]; omega
    · rw [m3, Nat.div_lt_iff_lt_mul (Nat.pow_pos (by decide)), hpow]; omega

/-! ### the whole import -/

theorem close_length (f : PackFile) : f.close.data.length ≤ max f.data.length (f.size + 1) := by
  unfold PackFile.close
  split
  · have h1 := resize_le f (f.size + 1)
    have h2 := overwrite_le (f.resize (f.size + 1)).data f.size [97]
    simp only [List.length_cons, List.length_nil] at h2
    dsimp only
    omega
  · exact Nat.le_max_left ..

/-- Whatever the files held before, an import of acceptable features with the tasks `features`, `pack` and `tiles` (or `all`, and with any other tasks)
can end with exit code 0, and leaves a database of acceptable size: the inserted features fit into the memory bound of the packing. -/
theorem C67_completes {ι : Type} (env : ImportEnv ι) (tasks : List String) (hf : Asked tasks "features") (hp : Asked tasks "pack") (ht : Asked tasks "tiles")
    (hgood : env.profileGood = true) (hsrt : SortsByKey env.srt) (hm : ∀ l z, (env.rd (env.mkMask l) z).length = l.length) (hb : 0 < env.batch)
    (hmem : env.mem < 2 ^ 62) (coast : Bool) (hcoast : coast = true ↔ Asked tasks "coastlines")
    (fs : List (List Inserted)) (i : ι) (hload : env.loads coast true fs i) (hd : (env.decOf i).length ≤ 2 ^ 64)
    (hfs : ∀ f ∈ fs.flatten, Importable env.mkMask (env.decOf i) plainOf f) (hmany : fs.flatten.length < 2 ^ 32) (hsome : fs.flatten ≠ [])
    (hbytes : insertBytes fs ≤ env.mem) (hfits : ∀ t : Tile, t.Valid → t.z = 10 → tileBytes env.mkMask (env.decOf i) fs t ≤ 2 ^ 30)
    (hsum : packBytes env.mkMask (env.decOf i) fs < 2 ^ 62) (hdraw : CanDraw env i fs) (a : TileDb ι) :
    ∃ b, runImport (importParts env) tasks a true b ∧ b.info = i ∧ b.maxPrepared = some 10 ∧ SmallPacks b.features ∧
      b.pf.reopen.size ≤ insertBytes fs + packBytes env.mkMask (env.decOf i) fs + 1 := by
  have hplain : ∀ x ∈ fs.flatten, x.InMap ∧ ∃ v, serializeFeature (fun _ => []) [] true x.feature = .ok v ∧ 32 ≤ v.length ∧ v.length < 2 ^ 32 := by
    intro f hf
    obtain ⟨a, b, c⟩ := (hfs f hf).plain
    exact ⟨(hfs f hf).inMap, _, a, b, c⟩
  obtain ⟨_, _, _, _, s, h1, h2⟩ := C67_insert_ends env.crc env.upper env.lower fs hplain hmany (by omega) _ .refl
  have h1 : InsRun env.crc cacheTiles env.upper env.lower (fun _ => none) ⟨[], 0⟩ (fs.map (List.map (Inserted.call plainOf))) s := h1
  obtain ⟨hsz, hlen⟩ := C67_insert_space env.crc env.upper env.lower _ _ fs
    (fun f hf => ⟨(hplain f hf).1, by obtain ⟨v, e1, _, e2⟩ := (hplain f hf).2; rw [insertedSize, e1]; exact e2⟩) s h1
  have e0 : (⟨[], 0⟩ : PackFile).size = 0 := rfl
  have e1 : (⟨[], 0⟩ : PackFile).data.length = 0 := rfl
  rw [e0] at hsz hlen
  rw [e1] at hlen
  obtain ⟨entries, hdb⟩ := entriesOf_exists s.1.db
  obtain ⟨s', r0, features, p1, p2, p3, p4, p5, p6, p7, p8, p9, p10⟩ := pack_completes env.crc env.srt env.mkMask env.rd (env.decOf i) env.upper env.lower fs
    hsrt hd hm hfs hmany hsome hfits (by omega) hb h1 (mem := env.mem) (by omega) (by omega) h2 hdb
  obtain ⟨st, hst, _⟩ := C55_inserted env.crc env.mkMask (env.decOf i) env.upper env.lower fs plainOf hfs hmany s h1 (by omega) h2 entries hdb
  obtain ⟨hsort, hk⟩ := imported_keys env.crc env.srt env.mkMask env.rd (env.decOf i) env.upper env.lower fs plainOf hfs hmany features s'.file p10
  have hk' : ∀ k ∈ features.map (·.1), (keyToTile k).Valid ∧ (keyToTile k).z = 10 := by
    intro k hk''
    obtain ⟨x, hx, rfl⟩ := List.mem_map.1 hk''
    exact hk x hx
  have hne : features.map (·.1) ≠ [] := by simpa using p8
  obtain ⟨q, q1, q2⟩ := prep_can_finish (render := prepRender features s'.file (env.ctxOf i)) hk' hne (maxZ := 10) (workers := env.workers) (by omega)
    (fun _ => none) none (by
      intro t hz hin
      exact C67_renders env i fs hsrt hm hd hfs hmany hdraw features s'.file p10 t (area_valid hne hk' hz hin) hz)
  have hmax : q.1.maxPrepared = some 10 := by
    obtain ⟨_, hi⟩ := prepInv_run hk' (by omega) q1
    exact (hi.fin q2).2
  have hclose := close_length s'.file
  refine ⟨⟨i, q.1.maxPrepared, s'.db, q.1.tiles, s'.file.close⟩, ?_, rfl, hmax, p9, ?_⟩
  · have hf' := (hasAnyTask_one tasks "features").2 hf
    have hp' := (hasAnyTask_one tasks "pack").2 hp
    have ht' := (hasAnyTask_one tasks "tiles").2 ht
    have hcf := (hasAnyTask_two tasks "coastlines" "features").2 (.inr hf)
    have hc' : hasAnyTask tasks ["coastlines"] = coast := by
      rw [Bool.eq_iff_iff, hasAnyTask_one, hcoast]
    rw [runImport, hf', hp', ht', hcf, hc', Bool.or_true]
    refine seq_ok.2 ⟨a, ⟨hgood.symm, rfl⟩, seq_ok.2 ⟨_, .inr ⟨rfl, rfl⟩, seq_ok.2 ⟨⟨env.noInfo, none, fun _ => none, fun _ => none, ⟨[], 0⟩⟩, .inr ⟨rfl, rfl, show (PackFile.reopen ⟨[], 0⟩).size < 2 ^ 64 by decide⟩,
      ⟨i, q.1.maxPrepared, s'.db, q.1.tiles, s'.file⟩, ?_, .inr rfl⟩⟩⟩
    refine seq_ok.2 ⟨⟨i, none, s.1.db, fun _ => none, s.1.pf⟩, ⟨fs, i, s, hload, h1, by omega, rfl, rfl, rfl, rfl, fun _ => ⟨h2, rfl⟩⟩, ?_⟩
    refine seq_ok.2 ⟨⟨i, none, s.1.db, fun _ => none, s.1.pf⟩, ?_, ?_⟩
    · refine guard_ok.2 ?_
      by_cases hs : hasAnyTask tasks ["stats"] = true
      · exact .inl ⟨hs, rfl, entries, [], hdb, entriesOf_none, fun _ => ⟨_, hst⟩, fun _ => rfl⟩
      · exact .inr ⟨by simpa using hs, rfl, rfl⟩
    refine seq_ok.2 ⟨⟨i, none, s'.db, fun _ => none, s'.file⟩, ⟨entries, hdb, _, packFn_ok _ _ _ _ _, packFn_ne _ _ _ _ _, s', p1, by omega, rfl, fun _ => ⟨r0, p2, p3⟩⟩, ?_⟩
    exact ⟨features, p7, .inr ⟨q, q1, rfl, fun _ => q2⟩⟩
  · have := PackFile.trimmedLength_le s'.file.close.data
    show PackFile.trimmedLength s'.file.close.data ≤ _
    omega

/-! ### the hypotheses are met -/

theorem ex_meets {t : Tile} (hz : t.z = 10) (h : boxMeets C14_ex t) : t = ⟨512, 0, 10⟩ := by
  obtain ⟨px, py, ⟨b1, b2, b3, b4⟩, p1, p2, p3, p4⟩ := h
  rw [C14_ex_box] at b1 b2 b3 b4
  dsimp only at b1 b2 b3 b4
  have hs10 : side 10 = 4194304 := by decide
  rw [hz, hs10] at p1 p2 p3 p4
  cases t with
  | mk x y z =>
    dsimp only at *
    have hx : x = 512 := by omega
    have hy : y = 0 := by omega
    rw [hx, hy, hz]

theorem ex_copies : copies (whole C14_ex) ≤ 1 := by
  classical
  unfold copies
  have hn := cacheTiles_nodup.filter (fun t => decide ((whole C14_ex).At t))
  have hs : cacheTiles.filter (fun t => decide ((whole C14_ex).At t)) ⊆ [⟨512, 0, 10⟩] := by
    intro t ht
    obtain ⟨a, b⟩ := List.mem_filter.1 ht
    rw [List.mem_singleton]
    exact ex_meets (mem_cacheTiles.1 a).2 (of_decide_eq_true b)
  have : _ ≤ 1 := (List.subperm_of_subset hn hs).length_le
  convert this

theorem ex_size : insertedSize C14_ex = 48 := by rw [insertedSize, C49_ser]; exact C49_len

theorem ex_indexed : indexedSize C52_mk [] C14_ex ≤ 100 := by
  have : (match serializeFeature C52_mk [] false C14_ex with | .ok b => decide (b.length ≤ 100) | _ => true) = true := by decide +kernel
  unfold indexedSize
  cases h : serializeFeature C52_mk [] false C14_ex with
  | ok b => rw [h] at this; exact of_decide_eq_true this
  | _ => exact Nat.zero_le _

theorem ex_bytes : insertBytes [[whole C14_ex]] ≤ 63 := by
  have := ex_copies
  simp only [insertBytes, List.flatten_cons, List.flatten_nil, List.append_nil, List.map_cons, List.map_nil, List.sum_cons, List.sum_nil, show (whole C14_ex).feature = C14_ex from rfl, ex_size]
  omega

theorem ex_packBytes : packBytes C52_mk [] [[whole C14_ex]] ≤ 2 ^ 27 := by
  have h1 := ex_copies
  have h2 := ex_indexed
  have h3 := Nat.mul_le_mul h1 (Nat.add_le_add_right h2 182)
  simp only [packBytes, List.flatten_cons, List.flatten_nil, List.append_nil, List.map_cons, List.map_nil, List.sum_cons, List.sum_nil, show (whole C14_ex).feature = C14_ex from rfl]
  generalize copies (whole C14_ex) * (indexedSize C52_mk [] C14_ex + 182) = x at h3
  omega

theorem ex_tileBytes (t : Tile) : tileBytes C52_mk [] [[whole C14_ex]] t ≤ 351 := by
  classical
  have h2 := ex_indexed
  simp only [tileBytes, goesTo, List.flatten_cons, List.flatten_nil, List.append_nil, List.filter_cons, List.filter_nil]
  split <;> simp [whole] <;> omega

/-- at every point of the insertion of the point, the pack file has at most 63 bytes; and the insertion can always be completed -/
example (s : InsShared × List InsPc) (h : InsRun (fun _ => 0) cacheTiles 1000 500 (fun _ => none) ⟨[], 0⟩ ([[C14_ex]].map (List.map InsCall.feature)) s) :
    s.1.pf.size ≤ 63 ∧ ∃ t, Reach (ThreadStep (insStep (fun _ => 0) cacheTiles 1000 500)) s t ∧ .finished ∈ t.2 := by
  have hb := ex_bytes
  have hf : ∀ f ∈ [[whole C14_ex]].flatten, f = whole C14_ex := by simp
  obtain ⟨h1, _⟩ := C67_insert_space (fun _ => 0) 1000 500 _ _ [[whole C14_ex]] (fun f hf' => by rw [hf f hf']; exact ⟨C49_ex_ok.2, by show insertedSize C14_ex < _; rw [ex_size]; decide⟩) s h
  obtain ⟨_, _, _, _, h2⟩ := C67_insert_ends (fun _ => 0) 1000 500 [[whole C14_ex]] (fun f hf' => by
    rw [hf f hf']; exact ⟨C49_ex_ok.2, _, C49_ser, by rw [C49_len]; decide, by rw [C49_len]; decide⟩) (by decide) (by omega) s h
  exact ⟨le_trans h1 (by show 0 + _ ≤ _; omega), h2⟩

/-- The import of the point, on top of anything, can end with exit code 0; with a pack file that is not larger than 2^28 bytes. -/
example (a : TileDb Unit) : ∃ b, runImport (importParts { C54_env with ctxOf := fun _ => C62_ctx }) ["all"] a true b ∧ b.maxPrepared = some 10 ∧ SmallPacks b.features ∧
    b.pf.reopen.size ≤ 2 ^ 28 := by
  have hb := ex_bytes
  have hp := ex_packBytes
  have hall : ∀ t, Asked ["all"] t := fun t => .inl (by simp)
  have hmem : ∀ f ∈ [[whole C14_ex]].flatten, f = whole C14_ex := by simp
  obtain ⟨b, h1, _, h2, h3, h4⟩ := C67_completes { C54_env with ctxOf := fun _ => C62_ctx } ["all"] (hall _) (hall _) (hall _) rfl C13_sort_exists
    (fun l z => by simp [C54_env, C52_mk, C52_rd]) (by decide) (by decide) true ⟨fun _ => hall _, fun _ => rfl⟩ [[whole C14_ex]] () rfl (by simp [C54_env])
    (by intro f hf; rw [hmem f hf]; exact C52_ex_ok) (by decide) (by simp) (le_trans hb (by decide))
    (fun t _ _ => le_trans (ex_tileBytes t) (by decide)) (lt_of_le_of_lt hp (by decide))
    { label := rfl, rd := rfl, dec := rfl, layers := by intro f hf; rw [hmem f hf]; decide
      some := by decide, sea := ⟨C29_sea, C29_sea_tree⟩
      lib := ⟨0, C62_inter, C62_clipper, id, by omega, by norm_num, C62_lib, rfl⟩
      agg := ⟨fun _ l => l, by intro z fs out h; show C62_agg z fs = out; rw [C62_agg, h]⟩
      draw := by intro z _ f hf; rw [hmem f hf]; exact C62_drawable _
      short := fun q _ _ gs j hgs f hf => short_of _ rfl q gs j hgs f hf } a
  have hp' : packBytes C54_env.mkMask (C54_env.decOf ()) [[whole C14_ex]] ≤ 2 ^ 27 := hp
  refine ⟨b, h1, h2, h3, le_trans h4 ?_⟩
  show insertBytes [[whole C14_ex]] + packBytes C54_env.mkMask (C54_env.decOf ()) [[whole C14_ex]] + 1 ≤ _
  omega

end Tiles
