import Verif.Proof.Inserter
import Mathlib.Data.List.Perm.Subperm
/-! C17 — the feature inserter neither loses nor duplicates features. -/
namespace Tiles
open Spec

/-- `s` can be reached: the threads make the given calls, the inserter is destroyed when they have returned -/
abbrev InsRun (crc : Bytes → UInt32) (cache : List Tile) (upper lower : Nat) (db : UInt64 → Option Bytes) (pf : PackFile) (calls : List (List InsCall))
    (s : InsShared × List InsPc) : Prop :=
  Reach (ThreadStep (insStep crc cache upper lower)) (insInit db pf calls) s

/-- everything that all calls put into the bucket of a tile -/
def Spec.allPlaced (cache : List Tile) (calls : List (List InsCall)) (t : Tile) : List Bytes := calls.flatten.flatMap (fun c => placed cache c t)

theorem sum_zero {l : List Nat} (h : ∀ x ∈ l, x = 0) : l.sum = 0 := by
  induction l with
  | nil => rfl
  | cons a l ih => rw [List.sum_cons, h a (by simp), ih (fun x hx => h x (by simp [hx]))]

theorem insShape_init (cache : List Tile) (db : UInt64 → Option Bytes) (pf : PackFile) (calls : List (List InsCall)) :
    InsShape cache (insInit db pf calls).1 (insInit db pf calls).2 := by
  have cnt : ∀ (f : InsPc → Bool) (b : Bool), (∀ todo, f (.idle todo) = b) → (calls.map InsPc.idle).countP f = if b then calls.length else 0 := by
    intro f b hf
    rw [List.countP_map]
    have : (f ∘ InsPc.idle) = fun _ => b := by funext x; exact hf x
    rw [this]
    cases b <;> simp
  refine ⟨?_, ?_, ?_, ?_, ?_, ?_, ?_⟩
  · intro p hp
    simp only [insInit, List.mem_cons, List.mem_map] at hp
    rcases hp with rfl | ⟨_, _, rfl⟩ <;> trivial
  · simp only [insInit, List.countP_cons, cnt InsPc.writing false (fun _ => rfl)]
    rfl
  · simp only [insInit, List.countP_cons, cnt InsPc.locking false (fun _ => rfl)]
    rfl
  · simp only [insInit, List.countP_cons, cnt InsPc.active true (fun _ => rfl)]
    rfl
  · simp only [insInit, List.countP_cons, cnt InsPc.owner false (fun _ => rfl)]
    rfl
  · intro p hp
    simp only [insInit, List.mem_cons, List.mem_map] at hp
    rcases hp with rfl | ⟨_, _, rfl⟩
    · exact .inr (.inl rfl)
    · exact .inl rfl
  · rintro ⟨p, hp, h1, h2⟩
    simp only [insInit, List.mem_cons, List.mem_map] at hp
    rcases hp with rfl | ⟨_, _, rfl⟩
    · exact absurd rfl h2
    · cases h1

theorem pend_init (cache : List Tile) (calls : List (List InsCall)) (t : Tile) (v : Bytes) :
    ((InsPc.join :: calls.map InsPc.idle).map (fun p => (p.pend cache t).count v)).sum = (allPlaced cache calls t).count v := by
  have : ∀ calls : List (List InsCall), ((calls.map InsPc.idle).map (fun p => (p.pend cache t).count v)).sum = (allPlaced cache calls t).count v := by
    intro calls
    induction calls with
    | nil => rfl
    | cons c cs ih =>
      simp only [List.map_cons, List.sum_cons, ih]
      simp only [allPlaced, List.flatten_cons, List.flatMap_append, List.count_append]
      rfl
  rw [List.map_cons, List.sum_cons, this]
  simp [InsPc.pend]

theorem insStore_init (R : Bytes → List Bytes → Prop) (cache : List Tile) (db : UInt64 → Option Bytes) (pf : PackFile) (calls : List (List InsCall)) (hwf : pf.WF)
    (old : Tile → List (List Bytes)) (hold : ∀ t ∈ cache, ∀ k, keyOfTile t = .ok k → ContentBy R pf (db k) (old t)) :
    InsStore R cache db old (allPlaced cache calls) (insInit db pf calls).1 (insInit db pf calls).2 (fun _ => []) (fun _ => []) := by
  have hs : ∀ t v, (([] : List (List Bytes)).flatten.count v + ((insInit db pf calls).1.mem t).count v +
      ((insInit db pf calls).2.map (fun p => (p.pend cache t).count v)).sum) = (allPlaced cache calls t).count v := by
    intro t v
    have := pend_init cache calls t v
    simp only [insInit, List.flatten_nil, List.count_nil, Nat.zero_add]
    exact this
  refine ⟨hwf, ?_, ?_, fun k _ => ⟨rfl, rfl⟩, fun t => List.prefix_refl _, fun t _ v => Nat.le_of_eq (hs t v), fun _ t _ v => hs t v⟩
  · intro t ht k hk; rw [List.append_nil]; exact hold t ht k hk
  · intro t ht k hk; rw [List.append_nil]; exact hold t ht k hk

/-- shape and content at every time -/
theorem ins_run {R : Bytes → List Bytes → Prop} {crc : Bytes → UInt32} (hR : Packs crc R) {cache : List Tile} {upper lower : Nat} {db : UInt64 → Option Bytes} {pf : PackFile} {calls : List (List InsCall)}
    (hfit : ∀ t ∈ cache, KeyFits t) (hwf : pf.WF) {old : Tile → List (List Bytes)}
    (hold : ∀ t ∈ cache, ∀ k, keyOfTile t = .ok k → ContentBy R pf (db k) (old t))
    (hlen : ∀ t ∈ cache, ∀ v ∈ allPlaced cache calls t, v.length < 2 ^ 64)
    {s : InsShared × List InsPc} (h : InsRun crc cache upper lower db pf calls s) (hpf : s.1.pf.size < 2 ^ 64) :
    InsShape cache s.1 s.2 ∧ ∃ new cnew, InsStore R cache db old (allPlaced cache calls) s.1 s.2 new cnew := by
  induction h with
  | refl => exact ⟨insShape_init .., _, _, insStore_init R cache db pf calls hwf old hold⟩
  | step _ st ih =>
    obtain ⟨s, s', a, b, p, p', hst⟩ := st
    have hst := insTr_of_step hst
    have := insTr_pf hst
    obtain ⟨h1, new, cnew, h2⟩ := ih (by dsimp only at hpf ⊢; omega)
    exact ⟨insShape_step h1 hst, insStore_step hR hfit hlen h1 h2 hst hpf⟩

/-- with features of acceptable size no flush fails, and the buckets are accounted for -/
theorem ins_run_ok {R : Bytes → List Bytes → Prop} {crc : Bytes → UInt32} (hR : Packs crc R) {cache : List Tile} (hnd : cache.Nodup) {upper lower : Nat} {db : UInt64 → Option Bytes} {pf : PackFile}
    {calls : List (List InsCall)} (hfit : ∀ t ∈ cache, KeyFits t) (hwf : pf.WF) {old : Tile → List (List Bytes)}
    (hold : ∀ t ∈ cache, ∀ k, keyOfTile t = .ok k → ContentBy R pf (db k) (old t))
    (hlen : ∀ t ∈ cache, ∀ v ∈ allPlaced cache calls t, 32 ≤ v.length ∧ v.length < 2 ^ 64)
    (hmany : ∀ t ∈ cache, (allPlaced cache calls t).length < 2 ^ 32)
    {s : InsShared × List InsPc} (h : InsRun crc cache upper lower db pf calls s) (hpf : s.1.pf.size < 2 ^ 64) :
    InsMem cache s.1 s.2 ∧ s.1.failed = false := by
  induction h with
  | refl =>
    refine ⟨⟨fun t => rfl, ?_, ?_⟩, rfl⟩
    · have h1 : (cache.map (insInit db pf calls).1.memSize).sum = 0 := by
        simp [insInit]
      have h2 : ((insInit db pf calls).2.map InsPc.bumped).sum = 0 := by
        apply sum_zero
        intro x hx
        simp only [insInit, List.map_cons, List.map_map, List.mem_cons, List.mem_map] at hx
        rcases hx with rfl | ⟨_, _, rfl⟩ <;> rfl
      omega
    · intro p hp
      simp only [insInit, List.mem_cons, List.mem_map] at hp
      rcases hp with rfl | ⟨_, _, rfl⟩ <;> trivial
  | step hr st ih =>
    obtain ⟨s, s', a, b, p, p', hst⟩ := st
    have hst := insTr_of_step hst
    have hsz := insTr_pf hst
    have hpf' : s.pf.size < 2 ^ 64 := by dsimp only at hpf; omega
    obtain ⟨h1, h3⟩ := ih hpf'
    obtain ⟨hsh, new, cnew, hst2⟩ := ins_run hR hfit hwf hold (fun t ht v hv => (hlen t ht v hv).2) hr hpf'
    have hmem : ∀ t ∈ cache, ∀ v ∈ s.mem t, 0 < v.length := by
      intro t ht v hv
      have h0 := hst2.most t ht v
      have h4 : 0 < (s.mem t).count v := List.count_pos_iff.2 hv
      dsimp only at h0
      have : v ∈ allPlaced cache calls t := List.count_pos_iff.1 (by omega)
      have := (hlen t ht v this).1
      omega
    refine ⟨insMem_step hnd hmem hsh h1 hst, ?_⟩
    dsimp only at h3 ⊢
    cases hst with
    | fail t fs q k view ht hw =>
      exfalso
      have htc : t ∈ cache := hsh.tiles (.write ((t, fs) :: q) k) (by simp) (t, fs) (by simp)
      have hle : ∀ f, fs.count f ≤ (allPlaced cache calls t).count f := by
        intro f
        have h1 := hst2.most t htc f
        have h2 := count_le_sum (fun p : InsPc => (p.pend cache t).count f) (show InsPc.write ((t, fs) :: q) k ∈ a ++ .write ((t, fs) :: q) k :: b by simp)
        have h4 : fs.count f ≤ ((InsPc.write ((t, fs) :: q) k).pend cache t).count f := by
          simp only [InsPc.pend, queueAt_cons, if_true, List.count_append]
          omega
        dsimp only at h1
        omega
      have hsub : ∀ f ∈ fs, f ∈ allPlaced cache calls t := by
        intro f hf
        have := hle f
        have h4 : 0 < fs.count f := List.count_pos_iff.2 hf
        exact List.count_pos_iff.1 (by omega)
      have hcard : fs.length ≤ (allPlaced cache calls t).length := (List.subperm_ext_iff.2 (fun f _ => hle f)).length_le
      have hm := hmany t htc
      have hview := hst2.view t htc
      dsimp only at hview
      rw [ht] at hview
      obtain ⟨r, hr⟩ := writeBucket_total crc view s.pf t fs (hfit t htc) (fun f hf => hlen t htc f (hsub f hf)) (by omega) hview
      exact hw r hr
    | _ => exact h3

/-- C17_exact for any notion of the features of a pack -/
theorem ins_exact {R : Bytes → List Bytes → Prop} (crc : Bytes → UInt32) (hR : Packs crc R) (cache : List Tile) (hnd : cache.Nodup) (hfit : ∀ t ∈ cache, KeyFits t) (upper lower : Nat)
    (db : UInt64 → Option Bytes) (pf : PackFile) (hwf : pf.WF) (old : Tile → List (List Bytes))
    (hold : ∀ t ∈ cache, ∀ k, keyOfTile t = .ok k → ContentBy R pf (db k) (old t)) (calls : List (List InsCall))
    (hlen : ∀ t ∈ cache, ∀ v ∈ allPlaced cache calls t, 32 ≤ v.length ∧ v.length < 2 ^ 64)
    (hmany : ∀ t ∈ cache, (allPlaced cache calls t).length < 2 ^ 32)
    (s : InsShared × List InsPc) (h : InsRun crc cache upper lower db pf calls s) (hpf : s.1.pf.size < 2 ^ 64) (hfin : .finished ∈ s.2) :
    (∀ t ∈ cache, ∀ k, keyOfTile t = .ok k →
      ∃ new, ContentBy R s.1.pf (s.1.db k) (old t ++ new) ∧ new.flatten.Perm (allPlaced cache calls t)) ∧
    (∀ k, (∀ t ∈ cache, keyOfTile t ≠ .ok k) → s.1.db k = db k) := by
  obtain ⟨hsh, new, cnew, hst⟩ := ins_run hR hfit hwf hold (fun t ht v hv => (hlen t ht v hv).2) h hpf
  obtain ⟨hm, hf⟩ := ins_run_ok hR hnd hfit hwf hold hlen hmany h hpf
  have hrun : s.1.running = 0 := hsh.waits ⟨_, hfin, rfl, by intro h; cases h⟩
  have hact : ∀ p ∈ s.2, p.active = false := by
    intro p hp
    have := hsh.running
    rw [hrun] at this
    simpa using List.countP_eq_zero.1 this.symm p hp
  have hpend : ∀ p ∈ s.2, ∀ t, p.pend cache t = [] := by
    intro p hp t
    rcases hsh.kinds p hp with hk | hk | hk
    · rw [hact p hp] at hk; cases hk
    · -- there is only one owner
      have : p = .finished := by
        by_contra hne
        obtain ⟨a, b, hab⟩ := List.append_of_mem hfin
        have hp' : p ∈ a ++ b := by
          rw [hab] at hp
          simp only [List.mem_append, List.mem_cons] at hp
          rcases hp with hp | hp | hp
          · simp [hp]
          · exact absurd hp hne
          · simp [hp]
        have h1 := hsh.owners
        rw [hab] at h1
        have h2 : 0 < (a ++ b).countP InsPc.owner := List.countP_pos_iff.2 ⟨p, hp', hk⟩
        simp only [List.countP_append, List.countP_cons] at h1 h2
        have h3 : InsPc.finished.owner = true := rfl
        rw [h3] at h1
        simp at h1
        omega
      subst this; rfl
    · subst hk; rfl
  have htxn : s.1.txn = none := by
    have h1 := hsh.writers
    cases ht : s.1.txn with
    | none => rfl
    | some v =>
      rw [ht] at h1
      have : 0 < s.2.countP InsPc.writing := by rw [h1]; simp
      obtain ⟨p, hp, hw⟩ := List.countP_pos_iff.1 this
      have hk := hact p hp
      rcases hsh.kinds p hp with h2 | h2 | h2
      · rw [hk] at h2; cases h2
      · obtain ⟨a, b, hab⟩ := List.append_of_mem hfin
        have hne : p ≠ .finished := by rintro rfl; cases hw
        have hp' : p ∈ a ++ b := by
          rw [hab] at hp
          simp only [List.mem_append, List.mem_cons] at hp
          rcases hp with hp | hp | hp
          · simp [hp]
          · exact absurd hp hne
          · simp [hp]
        have h1 := hsh.owners
        rw [hab] at h1
        have h5 : 0 < (a ++ b).countP InsPc.owner := List.countP_pos_iff.2 ⟨p, hp', h2⟩
        simp only [List.countP_append, List.countP_cons] at h1 h5
        have h3 : InsPc.finished.owner = true := rfl
        rw [h3] at h1
        simp at h1
        omega
      · subst h2; cases hw
  have hmem : ∀ t ∈ cache, s.1.mem t = [] := hm.final _ hfin
  refine ⟨fun t ht k hk => ⟨new t, ?_, ?_⟩, fun k hk => (hst.other k hk).2⟩
  · have := hst.view t ht k hk
    rw [htxn] at this
    exact this
  · rw [List.perm_iff_count]
    intro v
    have h1 := hst.all hf t ht v
    have h2 : (s.2.map (fun p => (p.pend cache t).count v)).sum = 0 := by
      apply sum_zero
      intro x hx
      obtain ⟨p, hp, rfl⟩ := List.mem_map.1 hx
      rw [hpend p hp t]; rfl
    rw [hmem t ht, h2, List.count_nil] at h1
    omega

/-- When the destructor has returned, every index tile leads to what it led to before, and to exactly the values put into its bucket,
each as often as it was put; whatever the limits of the cache and the schedule.  Nothing else in the table has changed. -/
theorem C17_exact (crc : Bytes → UInt32) (cache : List Tile) (hnd : cache.Nodup) (hfit : ∀ t ∈ cache, KeyFits t) (upper lower : Nat)
    (db : UInt64 → Option Bytes) (pf : PackFile) (hwf : pf.WF) (old : Tile → List (List Bytes))
    (hold : ∀ t ∈ cache, ∀ k, keyOfTile t = .ok k → Content pf (db k) (old t)) (calls : List (List InsCall))
    (hlen : ∀ t ∈ cache, ∀ v ∈ allPlaced cache calls t, 32 ≤ v.length ∧ v.length < 2 ^ 64)
    (hmany : ∀ t ∈ cache, (allPlaced cache calls t).length < 2 ^ 32)
    (s : InsShared × List InsPc) (h : InsRun crc cache upper lower db pf calls s) (hpf : s.1.pf.size < 2 ^ 64) (hfin : .finished ∈ s.2) :
    (∀ t ∈ cache, ∀ k, keyOfTile t = .ok k →
      ∃ new, Content s.1.pf (s.1.db k) (old t ++ new) ∧ new.flatten.Perm (allPlaced cache calls t)) ∧
    (∀ k, (∀ t ∈ cache, keyOfTile t ≠ .ok k) → s.1.db k = db k) :=
  ins_exact crc (packs_unpacks crc) cache hnd hfit upper lower db pf hwf old hold calls hlen hmany s h hpf hfin

/-! ### for features -/

theorem mem_cacheTiles {t : Tile} : t ∈ cacheTiles ↔ t.Valid ∧ t.z = 10 := by
  rw [cacheTiles, mem_geoTileRange]
  constructor
  · rintro ⟨h1, _, h3, _, h5⟩
    have hz : t.z = 10 := h1
    refine ⟨⟨?_, ?_⟩, hz⟩ <;> rw [hz] <;> omega
  · rintro ⟨⟨h1, h2⟩, h3⟩
    rw [h3] at h1 h2
    exact ⟨h3, Nat.zero_le _, by omega, Nat.zero_le _, by omega⟩

theorem cacheTiles_nodup : cacheTiles.Nodup := nodup_geoTileRange ..

theorem cacheTiles_fits {t : Tile} (h : t ∈ cacheTiles) : KeyFits t := by
  obtain ⟨h1, h2⟩ := mem_cacheTiles.1 h
  exact keyFits_of_valid h1 (by omega)

/-- the box of the feature has a point in the square of the tile -/
def Spec.boxMeets (f : Feature) (t : Tile) : Prop := ∃ px py, (boundingBox f.geometry).Has px py ∧ PointIn t px py

theorem takeWhile_all {l : List Tile} {p : Tile → Bool} (h : ∀ t ∈ l, p t = true) : l.takeWhile p = l := by
  induction l with
  | nil => rfl
  | cons a l ih => rw [List.takeWhile_cons, h a (by simp), if_pos rfl, ih (fun t ht => h t (by simp [ht]))]

theorem filter_eq_one {l : List Tile} (hn : l.Nodup) {t : Tile} (h : t ∈ l) : l.filter (fun u => decide (u = t)) = [t] := by
  have := List.filter_beq t (l := l)
  have h2 : l.filter (fun u => decide (u = t)) = l.filter (· == t) := List.filter_congr (by intro x _; rfl)
  rw [h2, this, List.count_eq_one_of_mem hn h]
  rfl

/-- a feature in the range of coordinates goes into the bucket of every index tile its box meets, once -/
theorem placed_feature (f : Feature) (hb : (boundingBox f.geometry).InRange) (v : Bytes) (hv : serializeFeature (fun _ => []) [] true f = .ok v) (t : Tile)
    (ht : t ∈ cacheTiles) : (boxMeets f t → placed cacheTiles (.feature f) t = [v]) ∧ (¬ boxMeets f t → placed cacheTiles (.feature f) t = []) := by
  obtain ⟨ts, h1, h2, h3⟩ := C03_tile_range_exact _ hb 10 (by decide)
  have hvalid := C03_tile_range_valid _ hb 10 (by decide) ts h1
  have hne : ts ≠ [] := by
    -- the tile of the north-west corner
    obtain ⟨hx0, hx1, hx2, hy0, hy1, hy2⟩ := hb
    have hm : kFixedCoordMax = 2 ^ 32 - 1 := by decide
    have hs : side 10 = 2 ^ 22 := by decide
    intro h0
    have hmem : (⟨(boundingBox f.geometry).min.x.toNat / 2 ^ 22, (boundingBox f.geometry).min.y.toNat / 2 ^ 22, 10⟩ : Tile) ∈ ts := by
      rw [h3]
      refine ⟨rfl, (boundingBox f.geometry).min.x.toNat, (boundingBox f.geometry).min.y.toNat, ⟨by omega, by omega, by omega, by omega⟩, ?_⟩
      refine ⟨?_, ?_, ?_, ?_⟩ <;> dsimp only <;> rw [hs] <;> omega
    rw [h0] at hmem
    cases hmem
  have hplan : (InsCall.feature f).plan = .ok (ts, v) := by
    rw [InsCall.plan, h1, Res.ok_bind, decide_eq_true hne, verify_true, Res.ok_bind, hv, Res.ok_bind]
    rfl
  have hall : ts.takeWhile (fun u => decide (u ∈ cacheTiles)) = ts := by
    apply takeWhile_all
    intro u hu
    exact decide_eq_true (mem_cacheTiles.2 ⟨hvalid u hu, ((h3 u).1 hu).1⟩)
  have hz := (mem_cacheTiles.1 ht).2
  rw [placed, hplan]
  dsimp only
  rw [placedIn, hall]
  constructor
  · intro hm
    rw [filter_eq_one h2 ((h3 t).2 ⟨hz, hm⟩)]
    rfl
  · intro hm
    rw [List.filter_eq_nil_iff.2]
    · rfl
    · intro u hu hc
      rw [decide_eq_true_eq] at hc
      subst hc
      exact hm ((h3 u).1 hu).2

/-- what is handed to the inserter: a feature, which goes to every index tile that its box meets, or (`tile`) a feature for this index tile only (the
coastline) -/
structure Spec.Inserted where
  feature : Feature
  tile : Option Tile

/-- the index tiles it goes to -/
def Spec.Inserted.At (x : Inserted) (t : Tile) : Prop := match x.tile with | none => boxMeets x.feature t | some u => u = t

/-- the call of the inserter -/
def Spec.Inserted.call (ser : Feature → Bytes) (x : Inserted) : InsCall := match x.tile with | none => .feature x.feature | some t => .value t (ser x.feature)

/-- the bytes of a feature as the inserter stores it: metadata as text, no simplification masks -/
noncomputable def Spec.plainOf (f : Feature) : Bytes := match serializeFeature (fun _ => []) [] true f with | .ok b => b | _ => []

theorem plainOf_eq {f : Feature} {b : Bytes} (h : serializeFeature (fun _ => []) [] true f = .ok b) : plainOf f = b := by rw [plainOf, h]

/-- it is in the map -/
def Spec.Inserted.InMap (x : Inserted) : Prop := match x.tile with | none => (boundingBox x.feature.geometry).InRange | some t => t.Valid ∧ t.z = 10

/-- a feature for all tiles -/
def Spec.whole (f : Feature) : Inserted := ⟨f, none⟩

theorem whole_calls (ser : Feature → Bytes) (fs : List (List Feature)) : (fs.map (List.map whole)).map (List.map (Inserted.call ser)) = fs.map (List.map InsCall.feature) := by
  rw [List.map_map]
  refine List.map_congr_left (fun l _ => ?_)
  show (l.map whole).map _ = _
  rw [List.map_map]
  rfl

theorem placed_inserted (ser : Feature → Bytes) (x : Inserted) (hb : x.InMap) (hv : serializeFeature (fun _ => []) [] true x.feature = .ok (ser x.feature)) (t : Tile)
    (ht : t ∈ cacheTiles) : (x.At t → placed cacheTiles (x.call ser) t = [ser x.feature]) ∧ (¬ x.At t → placed cacheTiles (x.call ser) t = []) := by
  obtain ⟨f, o⟩ := x
  cases o with
  | none => exact placed_feature f hb _ hv t ht
  | some u =>
    have hu : u ∈ cacheTiles := mem_cacheTiles.2 hb
    have e : placed cacheTiles (.value u (ser f)) t = placedIn cacheTiles (ser f) [u] t := rfl
    have e2 : [u].takeWhile (fun u => decide (u ∈ cacheTiles)) = [u] := takeWhile_all (by simpa using hu)
    constructor
    · intro h
      have h : u = t := h
      show placed cacheTiles (.value u (ser f)) t = _
      rw [e, placedIn, e2]
      simp [h]
    · intro h
      have h : ¬ u = t := h
      show placed cacheTiles (.value u (ser f)) t = _
      rw [e, placedIn, e2]
      simp [h]

open Classical in
/-- C17_features for any notion of the features of a pack -/
theorem ins_inserted {R : Bytes → List Bytes → Prop} (crc : Bytes → UInt32) (hR : Packs crc R) (upper lower : Nat) (db : UInt64 → Option Bytes) (pf : PackFile) (hwf : pf.WF)
    (old : Tile → List (List Bytes)) (hold : ∀ t, t.Valid → t.z = 10 → ∀ k, keyOfTile t = .ok k → ContentBy R pf (db k) (old t))
    (fs : List (List Inserted)) (ser : Feature → Bytes)
    (hfs : ∀ x ∈ fs.flatten, x.InMap ∧ serializeFeature (fun _ => []) [] true x.feature = .ok (ser x.feature) ∧
      32 ≤ (ser x.feature).length ∧ (ser x.feature).length < 2 ^ 64) (hmany : fs.flatten.length < 2 ^ 32)
    (s : InsShared × List InsPc) (h : InsRun crc cacheTiles upper lower db pf (fs.map (List.map (Inserted.call ser))) s) (hpf : s.1.pf.size < 2 ^ 64)
    (hfin : .finished ∈ s.2) :
    (∀ t, t.Valid → t.z = 10 → ∀ k, keyOfTile t = .ok k →
      ∃ new, ContentBy R s.1.pf (s.1.db k) (old t ++ new) ∧ new.flatten.Perm ((fs.flatten.filter (fun x => decide (x.At t))).map (fun x => ser x.feature))) ∧
    (∀ k, (∀ t, t.Valid → t.z = 10 → keyOfTile t ≠ .ok k) → s.1.db k = db k) := by
  have hall : ∀ t ∈ cacheTiles, allPlaced cacheTiles (fs.map (List.map (Inserted.call ser))) t = (fs.flatten.filter (fun x => decide (x.At t))).map (fun x => ser x.feature) := by
    intro t ht
    rw [allPlaced, ← List.map_flatten]
    generalize fs.flatten = l at hfs
    induction l with
    | nil => rfl
    | cons f l ih =>
      obtain ⟨h1, h2, _⟩ := hfs f (by simp)
      obtain ⟨h3, h4⟩ := placed_inserted ser f h1 h2 t ht
      rw [List.map_cons, List.flatMap_cons, ih (fun f hf => hfs f (by simp [hf]))]
      by_cases hm : f.At t
      · rw [h3 hm, List.filter_cons_of_pos (by simpa using hm)]; rfl
      · rw [h4 hm, List.filter_cons_of_neg (by simpa using hm)]; rfl
  obtain ⟨h1, h9⟩ := ins_exact crc hR cacheTiles cacheTiles_nodup (fun t ht => cacheTiles_fits ht) upper lower db pf hwf old
    (fun t ht k hk => hold t (mem_cacheTiles.1 ht).1 (mem_cacheTiles.1 ht).2 k hk) _ (by
      intro t ht v hv
      rw [hall t ht, List.mem_map] at hv
      obtain ⟨f, hf, rfl⟩ := hv
      obtain ⟨_, _, h3, h4⟩ := hfs f (List.mem_filter.1 hf).1
      exact ⟨h3, h4⟩) (by
      intro t ht
      rw [hall t ht, List.length_map]
      have := List.length_filter_le (fun x => decide (Inserted.At x t)) fs.flatten
      omega) s h hpf hfin
  refine ⟨?_, fun k hk => h9 k (fun t ht => hk t (mem_cacheTiles.1 ht).1 (mem_cacheTiles.1 ht).2)⟩
  intro t hv hz k hk
  have ht := mem_cacheTiles.2 ⟨hv, hz⟩
  obtain ⟨new, h2, h3⟩ := h1 t ht k hk
  rw [hall t ht] at h3
  exact ⟨new, h2, h3⟩

theorem mem_whole {fs : List (List Feature)} {x : Inserted} : x ∈ (fs.map (List.map whole)).flatten ↔ ∃ f ∈ fs.flatten, x = whole f := by
  rw [← List.map_flatten, List.mem_map]
  exact ⟨fun ⟨f, h, e⟩ => ⟨f, h, e.symm⟩, fun ⟨f, h, e⟩ => ⟨f, h, e.symm⟩⟩

theorem whole_length (fs : List (List Feature)) : (fs.map (List.map whole)).flatten.length = fs.flatten.length := by
  rw [← List.map_flatten, List.length_map]

open Classical in
theorem ins_features {R : Bytes → List Bytes → Prop} (crc : Bytes → UInt32) (hR : Packs crc R) (upper lower : Nat) (db : UInt64 → Option Bytes) (pf : PackFile) (hwf : pf.WF)
    (old : Tile → List (List Bytes)) (hold : ∀ t, t.Valid → t.z = 10 → ∀ k, keyOfTile t = .ok k → ContentBy R pf (db k) (old t))
    (fs : List (List Feature)) (ser : Feature → Bytes)
    (hfs : ∀ f ∈ fs.flatten, (boundingBox f.geometry).InRange ∧ serializeFeature (fun _ => []) [] true f = .ok (ser f) ∧
      32 ≤ (ser f).length ∧ (ser f).length < 2 ^ 64) (hmany : fs.flatten.length < 2 ^ 32)
    (s : InsShared × List InsPc) (h : InsRun crc cacheTiles upper lower db pf (fs.map (List.map InsCall.feature)) s) (hpf : s.1.pf.size < 2 ^ 64)
    (hfin : .finished ∈ s.2) :
    (∀ t, t.Valid → t.z = 10 → ∀ k, keyOfTile t = .ok k →
      ∃ new, ContentBy R s.1.pf (s.1.db k) (old t ++ new) ∧ new.flatten.Perm ((fs.flatten.filter (fun f => decide (boxMeets f t))).map ser)) ∧
    (∀ k, (∀ t, t.Valid → t.z = 10 → keyOfTile t ≠ .ok k) → s.1.db k = db k) := by
  rw [← whole_calls ser] at h
  obtain ⟨h1, h2⟩ := ins_inserted crc hR upper lower db pf hwf old hold (fs.map (List.map whole)) ser (fun x hx => by
    obtain ⟨f, hf, rfl⟩ := mem_whole.1 hx
    exact hfs f hf) (by rw [whole_length]; exact hmany) s h hpf hfin
  refine ⟨fun t hv hz k hk => ?_, h2⟩
  obtain ⟨new, h3, h4⟩ := h1 t hv hz k hk
  refine ⟨new, h3, h4.trans (.of_eq ?_)⟩
  rw [← List.map_flatten, List.filter_map, List.map_map]
  rfl

open Classical in
/-- The same for the real buckets and features: when the destructor has returned, every index tile leads, in addition to what it led to
before, exactly to the features whose box meets the tile, each as often as it was inserted. -/
theorem C17_features (crc : Bytes → UInt32) (upper lower : Nat) (db : UInt64 → Option Bytes) (pf : PackFile) (hwf : pf.WF)
    (old : Tile → List (List Bytes)) (hold : ∀ t, t.Valid → t.z = 10 → ∀ k, keyOfTile t = .ok k → Content pf (db k) (old t))
    (fs : List (List Feature)) (ser : Feature → Bytes)
    (hfs : ∀ f ∈ fs.flatten, (boundingBox f.geometry).InRange ∧ serializeFeature (fun _ => []) [] true f = .ok (ser f) ∧
      32 ≤ (ser f).length ∧ (ser f).length < 2 ^ 64) (hmany : fs.flatten.length < 2 ^ 32)
    (s : InsShared × List InsPc) (h : InsRun crc cacheTiles upper lower db pf (fs.map (List.map InsCall.feature)) s) (hpf : s.1.pf.size < 2 ^ 64)
    (hfin : .finished ∈ s.2) :
    ∀ t, t.Valid → t.z = 10 → ∀ k, keyOfTile t = .ok k →
      ∃ new, Content s.1.pf (s.1.db k) (old t ++ new) ∧ new.flatten.Perm ((fs.flatten.filter (fun f => decide (boxMeets f t))).map ser) :=
  (ins_features crc (packs_unpacks crc) upper lower db pf hwf old hold fs ser hfs hmany s h hpf hfin).1

/-! ### the run ends -/

/-- number of tiles of a call -/
def callTiles (c : InsCall) : Nat := match c.plan with | .ok (ts, _) => ts.length | _ => 0

def contWeight (n : Nat) (k : InsCont) : Nat := ((k.getD []).map (fun c => 2 * callTiles c + 3 * n + 12)).sum + 1

/-- upper bound for the number of steps of a thread; `n` is the number of buckets -/
def InsPc.weight (n : Nat) : InsPc → Nat
  | .idle todo => contWeight n (some todo)
  | .bump _ ts todo => 2 * ts.length + 3 * n + 10 + contWeight n (some todo)
  | .add _ _ ts todo => 2 * ts.length + 1 + 3 * n + 10 + contWeight n (some todo)
  | .check _ _ k => 3 * n + 9 + contWeight n k
  | .lock _ _ k => 3 * n + 8 + contWeight n k
  | .recheck _ _ k => 3 * n + 7 + contWeight n k
  | .scan _ rest found k => 3 * rest.length + 2 * found.length + 5 + contWeight n k
  | .take _ rest q k => 2 * rest.length + q.length + 3 + contWeight n k
  | .begin q k => q.length + 2 + contWeight n k
  | .write q k => q.length + 1 + contWeight n k
  | .stop => 0
  | .join => 3 * n + 20
  | .finished => 0
  | .terminated => 0

theorem insNext_weight (n : Nat) (k : InsCont) : (insNext k).weight n ≤ contWeight n k ∧ (insThrow k).weight n ≤ contWeight n k := by
  cases k with
  | none => exact ⟨Nat.zero_le _, Nat.zero_le _⟩
  | some t => exact ⟨Nat.le_refl _, Nat.le_refl _⟩

theorem insTr_weight {crc : Bytes → UInt32} {cache : List Tile} {upper lower : Nat} {s s' : InsShared} {p p' : InsPc}
    (st : InsTr crc cache upper lower s p s' p') : p'.weight cache.length < p.weight cache.length := by
  have hcons : ∀ c todo, contWeight cache.length (some (c :: todo)) = 2 * callTiles c + 3 * cache.length + 12 + contWeight cache.length (some todo) := by
    intro c todo
    simp only [contWeight, Option.getD_some, List.map_cons, List.sum_cons]
    omega
  have hn := fun k => insNext_weight cache.length k
  cases st with
  | plan c todo ts v h =>
    have : callTiles c = ts.length := by rw [callTiles, h]
    simp only [InsPc.weight, hcons, this]
    omega
  | refuse c todo => simp only [InsPc.weight, hcons]; omega
  | scan lo t rest found k =>
    simp only [InsPc.weight, List.length_cons]
    split <;> (try simp only [List.length_cons]) <;> omega
  | scanDone lo found k =>
    have : (sortBy bucketLe found.reverse).length = found.length := by rw [(sortBy_perm _ _).length_eq, List.length_reverse]
    simp only [InsPc.weight, List.length_map, this, List.length_nil]
    omega
  | take lo t rest q k => simp only [InsPc.weight, List.length_append, List.length_cons, List.length_nil]; omega
  | small up lo k => refine Nat.lt_of_le_of_lt (hn k).1 ?_; simp only [InsPc.weight]; omega
  | resmall up lo k => refine Nat.lt_of_le_of_lt (hn k).1 ?_; simp only [InsPc.weight]; omega
  | scanEmpty lo k => refine Nat.lt_of_le_of_lt (hn k).1 ?_; simp only [InsPc.weight, List.length_nil]; omega
  | fail t fs q k => refine Nat.lt_of_le_of_lt (hn k).2 ?_; simp only [InsPc.weight, List.length_cons]; omega
  | commit k => refine Nat.lt_of_le_of_lt (hn k).1 ?_; simp only [InsPc.weight, List.length_nil]; omega
  | stop => simp [InsPc.weight, contWeight]
  | join => simp [InsPc.weight, contWeight]
  | _ => simp only [InsPc.weight, List.length_cons, List.length_nil]; omega

/-- There is no infinite run, and a run that cannot be continued has ended: there is no deadlock. -/
theorem C17_ends (crc : Bytes → UInt32) (cache : List Tile) (upper lower : Nat) (db : UInt64 → Option Bytes) (pf : PackFile) (calls : List (List InsCall)) :
    (¬ ∃ run : Nat → InsShared × List InsPc, ∀ n, ThreadStep (insStep crc cache upper lower) (run n) (run (n + 1))) ∧
    ∀ s, InsRun crc cache upper lower db pf calls s → (¬ ∃ t, ThreadStep (insStep crc cache upper lower) s t) → .finished ∈ s.2 ∨ .terminated ∈ s.2 := by
  constructor
  · rintro ⟨run, hrun⟩
    have hdec : ∀ n, ((run n).2.map (InsPc.weight cache.length)).sum + n ≤ ((run 0).2.map (InsPc.weight cache.length)).sum := by
      intro n
      induction n with
      | zero => exact Nat.le_refl _
      | succ n ih =>
        have hs := hrun n
        generalize run n = x at hs ih
        generalize run (n + 1) = y at hs
        obtain ⟨s, s', a, b, p, p', hst⟩ := hs
        have := insTr_weight (insTr_of_step hst)
        simp only [List.map_append, List.map_cons, List.sum_append, List.sum_cons] at ih ⊢
        omega
    have := hdec (((run 0).2.map (InsPc.weight cache.length)).sum + 1)
    omega
  · intro s h hstuck
    have hsh : InsShape cache s.1 s.2 := by
      induction h with
      | refl => exact insShape_init ..
      | step hr st ih =>
        clear ih hstuck
        have : ∀ {x y}, Reach (ThreadStep (insStep crc cache upper lower)) (insInit db pf calls) x → ThreadStep (insStep crc cache upper lower) x y →
            InsShape cache x.1 x.2 → InsShape cache y.1 y.2 := by
          rintro x y _ ⟨s, s', a, b, p, p', hst⟩ h
          exact insShape_step h (insTr_of_step hst)
        have hx : ∀ x, Reach (ThreadStep (insStep crc cache upper lower)) (insInit db pf calls) x → InsShape cache x.1 x.2 := by
          intro x hx
          induction hx with
          | refl => exact insShape_init ..
          | step hr st ih => exact this hr st ih
        exact this hr st (hx _ hr)
    obtain ⟨s, ps⟩ := s
    have hno : ∀ p ∈ ps, insStep crc cache upper lower s p = none := by
      intro p hp
      cases hst : insStep crc cache upper lower s p with
      | none => rfl
      | some r =>
        obtain ⟨s', p'⟩ := r
        obtain ⟨a, b, rfl⟩ := List.append_of_mem hp
        exact absurd ⟨_, ThreadStep.mk s s' a b p p' hst⟩ hstuck
    dsimp only at hsh ⊢
    -- nobody holds the mutex or has a transaction
    have hmut : s.mutex = false := by
      cases hm : s.mutex with
      | false => rfl
      | true =>
        have h1 := hsh.lockers
        rw [hm, if_pos rfl] at h1
        obtain ⟨p, hp, hl⟩ := List.countP_pos_iff.1 (show 0 < ps.countP InsPc.locking by omega)
        have h2 := hno p hp
        cases p with
        | recheck up lo k => simp only [insStep] at h2; split at h2 <;> cases h2
        | scan lo rest found k =>
          cases rest with
          | nil => simp only [insStep] at h2; split at h2 <;> cases h2
          | cons t rest => simp only [insStep] at h2; cases h2
        | take lo rest q k =>
          cases rest with
          | nil => simp only [insStep] at h2; cases h2
          | cons t rest => simp only [insStep] at h2; split at h2 <;> cases h2
        | _ => cases hl
    have htxn : s.txn = none := by
      cases ht : s.txn with
      | none => rfl
      | some v =>
        have h1 := hsh.writers
        rw [ht] at h1
        obtain ⟨p, hp, hl⟩ := List.countP_pos_iff.1 (show 0 < ps.countP InsPc.writing by rw [h1]; simp)
        have h2 := hno p hp
        cases p with
        | write q k =>
          cases q with
          | nil => simp only [insStep, ht] at h2; cases h2
          | cons e q => obtain ⟨t, fs⟩ := e; simp only [insStep, ht] at h2; split at h2 <;> cases h2
        | _ => cases hl
    have hwr : ∀ p ∈ ps, p.writing = false ∧ p.locking = false := by
      intro p hp
      have h1 := hsh.lockers
      have h2 := hsh.writers
      rw [hmut] at h1
      rw [htxn] at h2
      refine ⟨?_, ?_⟩
      · simpa using List.countP_eq_zero.1 h2 p hp
      · simpa using List.countP_eq_zero.1 h1 p hp
    have hdone : ∀ p ∈ ps, p = .stop ∨ p = .join ∨ p = .finished ∨ p = .terminated := by
      intro p hp
      have h2 := hno p hp
      obtain ⟨h3, h4⟩ := hwr p hp
      cases p with
      | idle todo => cases todo with
        | nil => simp only [insStep] at h2; cases h2
        | cons c todo => simp only [insStep] at h2; split at h2 <;> cases h2
      | bump v ts todo => cases ts <;> (simp only [insStep] at h2; cases h2)
      | add v t ts todo => simp only [insStep] at h2; split at h2 <;> cases h2
      | check up lo k => simp only [insStep] at h2; split at h2 <;> cases h2
      | lock up lo k => simp only [insStep, hmut] at h2; cases h2
      | recheck => cases h4
      | scan => cases h4
      | take => cases h4
      | begin q k => simp only [insStep, htxn] at h2; cases h2
      | write => cases h3
      | stop => exact .inl rfl
      | join => exact .inr (.inl rfl)
      | finished => exact .inr (.inr (.inl rfl))
      | terminated => exact .inr (.inr (.inr rfl))
    obtain ⟨p, hp, ho⟩ := List.countP_pos_iff.1 (show 0 < ps.countP InsPc.owner by rw [hsh.owners]; decide)
    rcases hdone p hp with rfl | rfl | rfl | rfl
    · cases ho
    · have h2 := hno _ hp
      have hr : s.running = 0 := by
        rw [hsh.running, List.countP_eq_zero]
        intro q hq
        rcases hdone q hq with rfl | rfl | rfl | rfl <;> simp [InsPc.active, InsPc.cont]
      simp only [insStep, hr] at h2
      cases h2
    · exact .inl hp
    · exact .inr hp

/-! ### the hypotheses are met: two threads, two buckets; one flush during the run and one at the end -/

def C17_cache : List Tile := [⟨0, 0, 10⟩, ⟨1, 0, 10⟩]
def C17_calls : List (List InsCall) :=
  [[.value ⟨0, 0, 10⟩ (List.replicate 32 1), .value ⟨1, 0, 10⟩ (List.replicate 33 2)], [.value ⟨0, 0, 10⟩ (List.replicate 33 2)]]
def C17_run : Option (InsShared × List InsPc) :=
  runSched (insStep (fun _ => 7) C17_cache 40 10) (insInit (fun _ => none) ⟨[], 0⟩ C17_calls)
    [1, 2, 1, 2, 1, 2, 1, 2, 1, 2, 1, 1, 1, 1, 1, 1, 1, 2, 1, 2, 1, 2, 1, 1, 1, 1, 1, 1, 1, 0, 0, 0, 0, 0, 0, 0, 0, 0, 0, 0, 0]

example : C17_cache.Nodup ∧ (∀ t ∈ C17_cache, t.Valid ∧ t.z ≤ 20) ∧
    (∀ t ∈ C17_cache, ∀ v ∈ allPlaced C17_cache C17_calls t, 32 ≤ v.length ∧ v.length < 2 ^ 64) := by
  refine ⟨by decide, by decide, ?_⟩
  intro t _ v hv
  have h : v = List.replicate 32 1 ∨ v = List.replicate 33 2 := by
    have h1 : ∀ c ∈ C17_calls.flatten, ∀ v ∈ placed C17_cache c t, v = List.replicate 32 1 ∨ v = List.replicate 33 2 := by
      intro c hc v hv
      simp only [C17_calls, List.flatten_cons, List.flatten_nil, List.append_nil, List.cons_append, List.nil_append, List.mem_cons, List.not_mem_nil,
        or_false] at hc
      rcases hc with rfl | rfl | rfl <;> (simp only [placed, InsCall.plan, placedIn, List.mem_map] at hv; obtain ⟨_, _, rfl⟩ := hv; simp)
    rw [allPlaced, List.mem_flatMap] at hv
    obtain ⟨c, hc, hv⟩ := hv
    exact h1 c hc v hv
  rcases h with rfl | rfl <;> rw [List.length_replicate] <;> decide

/-- the owner has returned; the first tile has a pack of each flush, the second one of the flush at the end -/
example : (match C17_run with
    | some s => (s.2.map (fun p => match p with | .finished => true | _ => false)).any id &&
      (match s.1.db 5764607523034234880 with | some d => decide (d.length = 16) | none => false) &&
      (match s.1.db 5764607523034365952 with | some d => decide (d.length = 16) | none => false) && decide (s.1.pf.size < 2 ^ 64)
    | none => false) = true := by decide +kernel

/-! ### an unusually small feature -/

/-- a point without metadata: 20 bytes when serialized -/
def C17_smallFeature : Feature := ⟨1, 1, 0, 20, [], .point [⟨2 ^ 31, 2 ^ 31⟩]⟩

/-- A feature of less than 32 bytes is accepted by `insert`, but makes the flush fail that tries to write it; the buckets which that flush has
emptied are lost: here the destructor, and with it the process, ends with an exception, and nothing of what was inserted is stored. -/
theorem C17_small_feature_loses : ∃ (cache : List Tile) (s : InsShared × List InsPc) (v : Bytes),
    cache.Nodup ∧ (∀ t ∈ cache, t.Valid ∧ t.z = 10) ∧ 32 ≤ v.length ∧
    InsRun (fun _ => 7) cache (1024 * 1024 * 1024) (768 * 1024 * 1024) (fun _ => none) ⟨[], 0⟩ [[.value ⟨0, 0, 10⟩ v, .feature C17_smallFeature]] s ∧
    (∃ ts w, (InsCall.feature C17_smallFeature).plan = .ok (ts, w)) ∧
    .terminated ∈ s.2 ∧ (∀ t ∈ cache, ∀ k, keyOfTile t = .ok k → s.1.db k = none) := by
  have hrun : ∃ s, runSched (insStep (fun _ => 7) [⟨0, 0, 10⟩, ⟨512, 512, 10⟩] (1024 * 1024 * 1024) (768 * 1024 * 1024))
      (insInit (fun _ => none) ⟨[], 0⟩ [[.value ⟨0, 0, 10⟩ (List.replicate 32 1), .feature C17_smallFeature]])
      [1, 1, 1, 1, 1, 1, 1, 1, 1, 1, 1, 0, 0, 0, 0, 0, 0, 0, 0, 0, 0, 0, 0] = some s ∧
      (s.2.any (fun p => match p with | .terminated => true | _ => false)) = true ∧ s.1.db 5764607523034234880 = none ∧
      s.1.db (match keyOfTile ⟨512, 512, 10⟩ with | .ok k => k | _ => 0) = none := by
    have h : (match runSched (insStep (fun _ => 7) [⟨0, 0, 10⟩, ⟨512, 512, 10⟩] (1024 * 1024 * 1024) (768 * 1024 * 1024))
      (insInit (fun _ => none) ⟨[], 0⟩ [[.value ⟨0, 0, 10⟩ (List.replicate 32 1), .feature C17_smallFeature]])
      [1, 1, 1, 1, 1, 1, 1, 1, 1, 1, 1, 0, 0, 0, 0, 0, 0, 0, 0, 0, 0, 0, 0] with
      | some s => s.2.any (fun p => match p with | .terminated => true | _ => false) && decide (s.1.db 5764607523034234880 = none) &&
        decide (s.1.db (match keyOfTile ⟨512, 512, 10⟩ with | .ok k => k | _ => 0) = none)
      | none => false) = true := by decide +kernel
    revert h
    generalize runSched _ _ _ = o
    intro h
    cases o with
    | none => exact absurd h Bool.false_ne_true
    | some s =>
      simp only [Bool.and_eq_true, decide_eq_true_eq] at h
      exact ⟨s, rfl, h.1.1, h.1.2, h.2⟩
  obtain ⟨s, hs, h1, h2, h3⟩ := hrun
  refine ⟨[⟨0, 0, 10⟩, ⟨512, 512, 10⟩], s, List.replicate 32 1, by decide, by decide, by decide, runSched_reach .refl hs, ?_, ?_, ?_⟩
  · have : (match (InsCall.feature C17_smallFeature).plan with | .ok _ => true | _ => false) = true := by decide +kernel
    split at this
    · exact ⟨_, _, by assumption⟩
    · cases this
  · rw [List.any_eq_true] at h1
    obtain ⟨p, hp, hq⟩ := h1
    split at hq
    · exact hp
    · cases hq
  · intro t ht k hk
    simp only [List.mem_cons, List.not_mem_nil, or_false] at ht
    rcases ht with rfl | rfl
    · have : keyOfTile ⟨0, 0, 10⟩ = .ok 5764607523034234880 := by decide +kernel
      rw [this] at hk
      injection hk with hk
      rw [← hk]; exact h2
    · rw [hk] at h3; exact h3

end Tiles
