import Verif.Model.Inserter
import Verif.Props.C05
import Verif.Props.C06
import Verif.Props.C11
import Verif.Props.C29
/-! The inserter: what is stored. -/
namespace Tiles
open Spec

/-- what a database value (the value of a tile, or none) leads to: a list of packs, each with its serialized features (`R` tells which
features a pack has) -/
def Spec.ContentBy (R : Bytes → List Bytes → Prop) (pf : PackFile) (val : Option Bytes) (packs : List (List Bytes)) : Prop :=
  match val with
  | none => packs = []
  | some dat => ∃ recs, packRecordsDeserialize dat = .ok recs ∧ List.Forall₂ (fun r fs => ∃ p, pf.get r = .ok p ∧ R p fs) recs packs

/-- the features a pack has: what unpacking it yields -/
def Spec.Unpacks (p : Bytes) (fs : List Bytes) : Prop := ∃ n, unpackFeatures p = .ok (fs, n)

abbrev Spec.Content (pf : PackFile) (val : Option Bytes) (packs : List (List Bytes)) : Prop := ContentBy Unpacks pf val packs

/-- packs as the inserter makes them -/
def Spec.Packs (crc : Bytes → UInt32) (R : Bytes → List Bytes → Prop) : Prop :=
  ∀ fs p, packFeaturesPlain crc fs = .ok p → (∀ f ∈ fs, 32 ≤ f.length ∧ f.length < 2 ^ 64) → fs.length < 2 ^ 32 → R p fs

theorem packs_unpacks (crc : Bytes → UInt32) : Packs crc Unpacks := by
  intro fs p hp hmin hn
  obtain ⟨p', hp', n, hu⟩ := C11_pack_round_trip crc fs hmin hn
  rw [hp] at hp'; injection hp' with hp'; subst hp'
  exact ⟨n, hu⟩

theorem append_get {pf : PackFile} (h : pf.WF) {r : PackRecord} {b : Bytes} (p : Bytes) (hg : pf.get r = .ok b) : (pf.append p).1.get r = .ok b :=
  PackFile.C06_record_stable pf _ [.append p] r b h hg (by intro op hop; rw [List.mem_singleton] at hop; subst hop; trivial) rfl

theorem content_append {R : Bytes → List Bytes → Prop} {pf : PackFile} (h : pf.WF) {val : Option Bytes} {packs : List (List Bytes)} (p : Bytes)
    (hc : ContentBy R pf val packs) : ContentBy R (pf.append p).1 val packs := by
  cases val with
  | none => exact hc
  | some dat =>
    obtain ⟨recs, h1, h2⟩ := hc
    refine ⟨recs, h1, h2.imp ?_⟩
    rintro r fs ⟨b, h3, h4⟩
    exact ⟨b, append_get h p h3, h4⟩

theorem append_size (pf : PackFile) (p : Bytes) : (pf.append p).1.size = pf.size + p.length := by
  rw [PackFile.append, PackFile.insert_size]; omega

/-- effect of writing one bucket -/
theorem writeBucket_ok {R : Bytes → List Bytes → Prop} {crc : Bytes → UInt32} (hR : Packs crc R) {view view' : UInt64 → Option Bytes} {pf pf' : PackFile} {t : Tile} {fs : List Bytes} (hwf : pf.WF)
    (h : writeBucket crc view pf t fs = .ok (view', pf')) (hlen : ∀ f ∈ fs, f.length < 2 ^ 64) (hsz : pf'.size < 2 ^ 64) :
    ∃ k p, keyOfTile t = .ok k ∧ pf' = (pf.append p).1 ∧ (∀ k', k' ≠ k → view' k' = view k') ∧
      ∀ packs, ContentBy R pf (view k) packs → ContentBy R pf' (view' k) (packs ++ [fs]) := by
  rw [writeBucket, Res.bind_eq_ok] at h
  obtain ⟨k, hk, h⟩ := h
  rw [Res.bind_eq_ok] at h
  obtain ⟨p, hp, h⟩ := h
  dsimp only at h
  have hn : fs.length < 2 ^ 32 := by
    by_contra hc
    rw [C11_too_many_refused crc fs (by omega)] at hp
    cases hp
  have hmin : ∀ f ∈ fs, 32 ≤ f.length ∧ f.length < 2 ^ 64 := by
    intro f hf
    refine ⟨?_, hlen f hf⟩
    by_contra hc
    rw [C11_mini_feature_refused crc fs ⟨f, hf, by omega⟩] at hp
    cases hp
  obtain ⟨p', hp', n, hu⟩ := C11_pack_round_trip crc fs hmin hn
  rw [hp] at hp'; injection hp' with hp'; subst hp'
  have hpne : p ≠ [] := by
    intro h0
    rw [h0, C11_short_pack_refused [] (by decide)] at hu
    cases hu
  have hget := PackFile.insert_get_self pf pf.size p hwf hpne
  have hr : (pf.append p).2 = ⟨pf.size, p.length⟩ := rfl
  have hs := append_size pf p
  have main : ∀ v, (match view k with | some dat => packRecordsUpdate dat (pf.append p).2 | none => .ok (packRecordsSerialize [(pf.append p).2])) = .ok v →
      view' = (fun k' => if k' = k then some v else view k') → pf' = (pf.append p).1 →
      ∃ k p, keyOfTile t = .ok k ∧ pf' = (pf.append p).1 ∧ (∀ k', k' ≠ k → view' k' = view k') ∧
      ∀ packs, ContentBy R pf (view k) packs → ContentBy R pf' (view' k) (packs ++ [fs]) := by
    intro v hv e1 e2
    subst e1; subst e2
    have hfit : (pf.append p).2.Fits := by
      rw [hr]; exact ⟨by dsimp only; omega, by dsimp only; omega⟩
    refine ⟨k, p, hk, rfl, fun k' hk' => if_neg hk', fun packs hc => ?_⟩
    dsimp only
    rw [if_pos rfl]
    have hnew : ∃ q, (pf.append p).1.get (pf.append p).2 = .ok q ∧ R q fs := ⟨p, hget, hR fs p hp hmin hn⟩
    cases hvk : view k with
    | none =>
      rw [hvk] at hc hv
      dsimp only at hv
      injection hv with hv
      subst hv
      have : packs = [] := hc
      subst this
      exact ⟨_, C05_records_round_trip _ (by intro r hr; rw [List.mem_singleton] at hr; subst hr; exact hfit), List.Forall₂.cons hnew List.Forall₂.nil⟩
    | some dat =>
      rw [hvk] at hv hc
      dsimp only at hv
      obtain ⟨recs, h1, h2⟩ := content_append hwf p hc
      obtain ⟨e, hf⟩ := C05_accepted_is_serialization dat recs h1
      subst e
      obtain ⟨dat', h3, h4⟩ := C05_update_appends recs hf _ hfit
      rw [hv] at h3
      injection h3 with h3
      subst h3
      exact ⟨_, h4, List.rel_append h2 (List.Forall₂.cons hnew List.Forall₂.nil)⟩
  cases hvk : view k with
  | none =>
    rw [hvk] at h
    dsimp only at h
    rw [Res.ok_bind, Res.pure_eq] at h
    injection h with h; injection h with e1 e2
    exact main _ (by rw [hvk]) e1.symm e2.symm
  | some dat =>
    rw [hvk] at h
    dsimp only at h
    rw [Res.bind_eq_ok] at h
    obtain ⟨v, hv, h⟩ := h
    rw [Res.pure_eq] at h
    injection h with h; injection h with e1 e2
    exact main v (by rw [hvk]; exact hv) e1.symm e2.symm

/-- when writing does not fail -/
theorem writeBucket_total {R : Bytes → List Bytes → Prop} (crc : Bytes → UInt32) (view : UInt64 → Option Bytes) (pf : PackFile) (t : Tile) (fs : List Bytes) (hk : KeyFits t)
    (hmin : ∀ f ∈ fs, 32 ≤ f.length ∧ f.length < 2 ^ 64) (hn : fs.length < 2 ^ 32) {packs : List (List Bytes)}
    (hc : ∀ k, keyOfTile t = .ok k → ContentBy R pf (view k) packs) : ∃ r, writeBucket crc view pf t fs = .ok r := by
  obtain ⟨k, hk, _⟩ := keyOfTile_ok hk
  obtain ⟨p, hp, _⟩ := C11_pack_round_trip crc fs hmin hn
  rw [writeBucket, hk, Res.ok_bind, hp, Res.ok_bind]
  dsimp only
  have hc := hc k hk
  cases hv : view k with
  | none => exact ⟨_, rfl⟩
  | some dat =>
    rw [hv] at hc
    obtain ⟨recs, h1, _⟩ := hc
    obtain ⟨e, _⟩ := C05_accepted_is_serialization dat recs h1
    subst e
    dsimp only
    rw [packRecordsUpdate]
    have : ((packRecordsSerialize recs).length % 16 == 0) = true := by simp
    rw [this, verify_true, Res.ok_bind]
    exact ⟨_, rfl⟩

/-! ### what is still to be stored -/

/-- the buckets into which a value goes: the tiles in order, up to the first that has no bucket -/
def placedIn (cache : List Tile) (v : Bytes) (tiles : List Tile) (t : Tile) : List Bytes :=
  ((tiles.takeWhile (fun u => decide (u ∈ cache))).filter (fun u => decide (u = t))).map (fun _ => v)

/-- what a call puts into the bucket of a tile -/
def Spec.placed (cache : List Tile) (c : InsCall) (t : Tile) : List Bytes :=
  match c.plan with
  | .ok (tiles, v) => placedIn cache v tiles t
  | _ => []

def queueAt (q : List (Tile × List Bytes)) (t : Tile) : List Bytes := q.flatMap (fun e => if e.1 = t then e.2 else [])

def contPend (cache : List Tile) (k : InsCont) (t : Tile) : List Bytes := (k.getD []).flatMap (fun c => placed cache c t)

/-- what a thread still has to bring into the database, for one tile -/
def InsPc.pend (cache : List Tile) (t : Tile) : InsPc → List Bytes
  | .idle todo => contPend cache (some todo) t
  | .bump v ts todo => placedIn cache v ts t ++ contPend cache (some todo) t
  | .add v u ts todo => placedIn cache v (u :: ts) t ++ contPend cache (some todo) t
  | .check _ _ k => contPend cache k t
  | .lock _ _ k => contPend cache k t
  | .recheck _ _ k => contPend cache k t
  | .scan _ _ _ k => contPend cache k t
  | .take _ _ q k => queueAt q t ++ contPend cache k t
  | .begin q k => queueAt q t ++ contPend cache k t
  | .write q k => queueAt q t ++ contPend cache k t
  | _ => []

/-- counted by `cache_size_`, but not in a bucket -/
def InsPc.bumped : InsPc → Nat
  | .add v _ _ _ => v.length
  | _ => 0

def InsPc.writing : InsPc → Bool
  | .write _ _ => true
  | _ => false

def InsPc.locking : InsPc → Bool
  | .recheck _ _ _ => true
  | .scan _ _ _ _ => true
  | .take _ _ _ _ => true
  | _ => false

/-- the continuation of a thread in `flush` -/
def InsPc.cont : InsPc → Option InsCont
  | .check _ _ k => some k
  | .lock _ _ k => some k
  | .recheck _ _ k => some k
  | .scan _ _ _ k => some k
  | .take _ _ _ k => some k
  | .begin _ k => some k
  | .write _ k => some k
  | _ => none

/-- a thread that has not returned -/
def InsPc.active (p : InsPc) : Bool :=
  match p with
  | .idle _ => true
  | .bump _ _ _ => true
  | .add _ _ _ _ => true
  | p => match p.cont with
    | some (some _) => true
    | _ => false

/-- the owner -/
def InsPc.owner (p : InsPc) : Bool :=
  match p with
  | .join => true
  | .finished => true
  | .terminated => true
  | p => match p.cont with
    | some none => true
    | _ => false

/-- tiles in the hands of a thread have buckets -/
def InsPc.TilesOk (cache : List Tile) : InsPc → Prop
  | .scan _ rest found _ => (∀ t ∈ rest, t ∈ cache) ∧ ∀ e ∈ found, e.2 ∈ cache
  | .take _ rest q _ => (∀ t ∈ rest, t ∈ cache) ∧ ∀ e ∈ q, e.1 ∈ cache
  | .begin q _ => ∀ e ∈ q, e.1 ∈ cache
  | .write q _ => ∀ e ∈ q, e.1 ∈ cache
  | _ => True

theorem insNext_simps (cache : List Tile) (k : InsCont) : (∀ t, (insNext k).pend cache t = contPend cache k t) ∧ (insNext k).bumped = 0 ∧
    (insNext k).writing = false ∧ (insNext k).locking = false ∧ (insNext k).TilesOk cache ∧ (insNext k).cont = none := by
  cases k <;> exact ⟨fun t => rfl, rfl, rfl, rfl, trivial, rfl⟩

theorem insThrow_simps (cache : List Tile) (k : InsCont) : (∀ t, (insThrow k).pend cache t = contPend cache k t) ∧ (insThrow k).bumped = 0 ∧
    (insThrow k).writing = false ∧ (insThrow k).locking = false ∧ (insThrow k).TilesOk cache ∧ (insThrow k).cont = none := by
  cases k <;> exact ⟨fun t => rfl, rfl, rfl, rfl, trivial, rfl⟩

theorem placedIn_cons (cache : List Tile) (v : Bytes) (u : Tile) (ts : List Tile) (t : Tile) :
    placedIn cache v (u :: ts) t = if u ∈ cache then (if u = t then v :: placedIn cache v ts t else placedIn cache v ts t) else [] := by
  rw [placedIn, List.takeWhile_cons]
  by_cases hu : u ∈ cache
  · rw [decide_eq_true hu, if_pos rfl, if_pos hu]
    by_cases ht : u = t
    · rw [List.filter_cons_of_pos (by simpa using ht), if_pos ht]; rfl
    · rw [List.filter_cons_of_neg (by simpa using ht), if_neg ht]; rfl
  · rw [decide_eq_false hu, if_neg hu]; rfl

/-! ### the threads -/

/-- structure of the state that does not depend on what is inserted -/
structure InsShape (cache : List Tile) (s : InsShared) (ps : List InsPc) : Prop where
  tiles : ∀ p ∈ ps, p.TilesOk cache
  writers : ps.countP InsPc.writing = if s.txn.isSome then 1 else 0
  lockers : ps.countP InsPc.locking = if s.mutex then 1 else 0
  running : s.running = ps.countP InsPc.active
  owners : ps.countP InsPc.owner = 1
  kinds : ∀ p ∈ ps, p.active = true ∨ p.owner = true ∨ p = .stop
  waits : (∃ p ∈ ps, p.owner = true ∧ p ≠ .join) → s.running = 0

theorem insNext_kinds (k : InsCont) : ((insNext k).active = k.isSome) ∧ ((insNext k).owner = k.isNone) ∧ insNext k ≠ .join := by
  cases k <;> exact ⟨rfl, rfl, by intro h; cases h⟩

theorem insThrow_kinds (k : InsCont) : ((insThrow k).active = k.isSome) ∧ ((insThrow k).owner = k.isNone) ∧ insThrow k ≠ .join := by
  cases k <;> exact ⟨rfl, rfl, by intro h; cases h⟩

/-- the steps, one constructor for each case -/
inductive InsTr (crc : Bytes → UInt32) (cache : List Tile) (upper lower : Nat) (s : InsShared) : InsPc → InsShared → InsPc → Prop
  | stop : InsTr crc cache upper lower s (.idle []) { s with running := s.running - 1 } .stop
  | plan (c : InsCall) (todo : List InsCall) (tiles : List Tile) (v : Bytes) (h : c.plan = .ok (tiles, v)) :
      InsTr crc cache upper lower s (.idle (c :: todo)) s (.bump v tiles todo)
  | refuse (c : InsCall) (todo : List InsCall) (h : ∀ r, c.plan ≠ .ok r) : InsTr crc cache upper lower s (.idle (c :: todo)) s (.idle todo)
  | placed (v : Bytes) (todo : List InsCall) : InsTr crc cache upper lower s (.bump v [] todo) s (.check upper lower (some todo))
  | bump (v : Bytes) (t : Tile) (tiles : List Tile) (todo : List InsCall) :
      InsTr crc cache upper lower s (.bump v (t :: tiles) todo) { s with cacheSize := s.cacheSize + v.length } (.add v t tiles todo)
  | add (v : Bytes) (t : Tile) (tiles : List Tile) (todo : List InsCall) (h : t ∈ cache) :
      InsTr crc cache upper lower s (.add v t tiles todo)
        { s with memSize := fun t' => if t' = t then s.memSize t + v.length else s.memSize t',
                 mem := fun t' => if t' = t then s.mem t ++ [v] else s.mem t' } (.bump v tiles todo)
  | nobucket (v : Bytes) (t : Tile) (tiles : List Tile) (todo : List InsCall) (h : t ∉ cache) :
      InsTr crc cache upper lower s (.add v t tiles todo) s (.idle todo)
  | small (up lo : Nat) (k : InsCont) (h : s.cacheSize ≤ up) : InsTr crc cache upper lower s (.check up lo k) s (insNext k)
  | big (up lo : Nat) (k : InsCont) (h : up < s.cacheSize) : InsTr crc cache upper lower s (.check up lo k) s (.lock up lo k)
  | lock (up lo : Nat) (k : InsCont) (h : s.mutex = false) : InsTr crc cache upper lower s (.lock up lo k) { s with mutex := true } (.recheck up lo k)
  | resmall (up lo : Nat) (k : InsCont) (h : s.cacheSize ≤ up) :
      InsTr crc cache upper lower s (.recheck up lo k) { s with mutex := false } (insNext k)
  | rebig (up lo : Nat) (k : InsCont) (h : up < s.cacheSize) : InsTr crc cache upper lower s (.recheck up lo k) s (.scan lo cache [] k)
  | scan (lo : Nat) (t : Tile) (rest : List Tile) (found : List (Nat × Tile)) (k : InsCont) :
      InsTr crc cache upper lower s (.scan lo (t :: rest) found k) s (.scan lo rest (if s.memSize t > 0 then (s.memSize t, t) :: found else found) k)
  | scanEmpty (lo : Nat) (k : InsCont) : InsTr crc cache upper lower s (.scan lo [] [] k) { s with mutex := false } (insNext k)
  | scanDone (lo : Nat) (found : List (Nat × Tile)) (k : InsCont) (h : found ≠ []) :
      InsTr crc cache upper lower s (.scan lo [] found k) s (.take lo ((sortBy bucketLe found.reverse).map (·.2)) [] k)
  | takeDone (lo : Nat) (rest : List Tile) (queue : List (Tile × List Bytes)) (k : InsCont) (h : rest = [] ∨ s.cacheSize < lo) :
      InsTr crc cache upper lower s (.take lo rest queue k) { s with mutex := false } (.begin queue k)
  | take (lo : Nat) (t : Tile) (rest : List Tile) (queue : List (Tile × List Bytes)) (k : InsCont) (h : lo ≤ s.cacheSize) :
      InsTr crc cache upper lower s (.take lo (t :: rest) queue k)
        { s with cacheSize := s.cacheSize - s.memSize t, memSize := fun t' => if t' = t then 0 else s.memSize t',
                 mem := fun t' => if t' = t then [] else s.mem t' } (.take lo rest (queue ++ [(t, s.mem t)]) k)
  | begin (queue : List (Tile × List Bytes)) (k : InsCont) (h : s.txn = none) :
      InsTr crc cache upper lower s (.begin queue k) { s with txn := some s.db } (.write queue k)
  | write (t : Tile) (fs : List Bytes) (queue : List (Tile × List Bytes)) (k : InsCont) (view view' : UInt64 → Option Bytes) (pf' : PackFile)
      (h : s.txn = some view) (hw : writeBucket crc view s.pf t fs = .ok (view', pf')) :
      InsTr crc cache upper lower s (.write ((t, fs) :: queue) k) { s with txn := some view', pf := pf' } (.write queue k)
  | fail (t : Tile) (fs : List Bytes) (queue : List (Tile × List Bytes)) (k : InsCont) (view : UInt64 → Option Bytes)
      (h : s.txn = some view) (hw : ∀ r, writeBucket crc view s.pf t fs ≠ .ok r) :
      InsTr crc cache upper lower s (.write ((t, fs) :: queue) k) { s with txn := none, failed := true } (insThrow k)
  | commit (k : InsCont) (view : UInt64 → Option Bytes) (h : s.txn = some view) :
      InsTr crc cache upper lower s (.write [] k) { s with db := view, txn := none } (insNext k)
  | join (h : s.running = 0) : InsTr crc cache upper lower s .join s (.check 0 0 none)

theorem insTr_of_step {crc : Bytes → UInt32} {cache : List Tile} {upper lower : Nat} {s s' : InsShared} {p p' : InsPc}
    (h : insStep crc cache upper lower s p = some (s', p')) : InsTr crc cache upper lower s p s' p' := by
  have inj : ∀ {x : InsShared × InsPc}, some x = some (s', p') → x = (s', p') := fun h => Option.some.inj h
  rw [insStep.eq_def] at h
  split at h
  · cases inj h; exact .stop
  · split at h
    · cases inj h; exact .plan _ _ _ _ (by assumption)
    · rename_i hn
      cases inj h; exact .refuse _ _ (fun r hr => hn r.1 r.2 hr)
  · cases inj h; exact .placed _ _
  · cases inj h; exact .bump _ _ _ _
  · split at h
    · cases inj h; exact .add _ _ _ _ (by assumption)
    · cases inj h; exact .nobucket _ _ _ _ (by assumption)
  · split at h
    · cases inj h; exact .small _ _ _ (by assumption)
    · cases inj h; exact .big _ _ _ (by omega)
  · split at h
    · cases h
    · cases inj h; exact .lock _ _ _ (by simp_all)
  · split at h
    · cases inj h; exact .resmall _ _ _ (by assumption)
    · cases inj h; exact .rebig _ _ _ (by omega)
  · cases inj h; exact .scan _ _ _ _ _
  · split at h
    · rename_i h0; subst h0; cases inj h; exact .scanEmpty _ _
    · cases inj h; exact .scanDone _ _ _ (by assumption)
  · cases inj h; exact .takeDone _ _ _ _ (.inl rfl)
  · split at h
    · cases inj h; exact .takeDone _ _ _ _ (.inr (by assumption))
    · cases inj h; exact .take _ _ _ _ _ (by omega)
  · split at h
    · cases inj h; exact .begin _ _ (by assumption)
    · cases h
  · split at h
    · split at h
      · cases inj h; exact .write _ _ _ _ _ _ _ (by assumption) (by assumption)
      · rename_i hn
        cases inj h; exact .fail _ _ _ _ _ (by assumption) (fun r hr => hn r.1 r.2 hr)
    · cases h
  · split at h
    · cases inj h; exact .commit _ _ (by assumption)
    · cases h
  · cases h
  · split at h
    · cases inj h; exact .join (by assumption)
    · cases h
  · cases h
  · cases h

theorem insShape_step {crc : Bytes → UInt32} {cache : List Tile} {upper lower : Nat} {s s' : InsShared} {a b : List InsPc} {p p' : InsPc}
    (h : InsShape cache s (a ++ p :: b)) (st : InsTr crc cache upper lower s p s' p') : InsShape cache s' (a ++ p' :: b) := by
  obtain ⟨h1, h2, h3, h4, h5, h6, h7⟩ := h
  have hp1 := h1 p (by simp)
  have hp6 := h6 p (by simp)
  -- it is enough to look at the thread that moves
  have key : p'.TilesOk cache → (p'.writing.toNat + (if s.txn.isSome then 1 else 0) = p.writing.toNat + (if s'.txn.isSome then 1 else 0)) →
      (p'.locking.toNat + (if s.mutex then 1 else 0) = p.locking.toNat + (if s'.mutex then 1 else 0)) →
      (p'.active.toNat + s.running = p.active.toNat + s'.running) → p'.owner = p.owner → (p'.active = true ∨ p'.owner = true ∨ p' = .stop) →
      (p'.owner = true → p' ≠ .join → p = .join → s'.running = 0) → (p.active = false → p'.active = false) →
      InsShape cache s' (a ++ p' :: b) := by
    intro k1 k2 k3 k4 k5 k6 k7 k8
    have cnt : ∀ f : InsPc → Bool, (a ++ p' :: b).countP f + (f p).toNat = (a ++ p :: b).countP f + (f p').toNat := by
      intro f
      simp only [List.countP_append, List.countP_cons]
      cases f p <;> cases f p' <;> simp <;> omega
    have c1 := cnt InsPc.writing
    have c2 := cnt InsPc.locking
    have c3 := cnt InsPc.active
    have c4 := cnt InsPc.owner
    rw [k5] at c4
    refine ⟨?_, by omega, by omega, by omega, by omega, ?_, ?_⟩
    · intro q hq
      simp only [List.mem_append, List.mem_cons] at hq
      rcases hq with hq | rfl | hq
      · exact h1 q (by simp [hq])
      · exact k1
      · exact h1 q (by simp [hq])
    · intro q hq
      simp only [List.mem_append, List.mem_cons] at hq
      rcases hq with hq | rfl | hq
      · exact h6 q (by simp [hq])
      · exact k6
      · exact h6 q (by simp [hq])
    · rintro ⟨q, hq, hq1, hq2⟩
      have old : (∃ r ∈ a ++ p :: b, r.owner = true ∧ r ≠ .join) → s'.running = 0 := by
        intro he
        have h0 := h7 he
        rw [h0] at h4
        have hz : InsPc.active p = false := by
          have := List.countP_eq_zero.1 h4.symm p (by simp)
          simpa using this
        have hz' : s'.running = (a ++ p' :: b).countP InsPc.active := by omega
        rw [hz, k8 hz] at k4
        simp only [Bool.toNat_false, h0] at k4
        omega
      simp only [List.mem_append, List.mem_cons] at hq
      rcases hq with hq | rfl | hq
      · exact old ⟨q, by simp [hq], hq1, hq2⟩
      · by_cases hj : p = .join
        · exact k7 hq1 hq2 hj
        · exact old ⟨p, by simp, by rw [← k5]; exact hq1, hj⟩
      · exact old ⟨q, by simp [hq], hq1, hq2⟩
  have hpos : p.active = true → 0 < s.running := by
    intro ha
    rw [h4, List.countP_pos_iff]
    exact ⟨p, by simp, ha⟩
  have hw : p.writing = true → s.txn.isSome = true := by
    intro ha
    have : 0 < (a ++ p :: b).countP InsPc.writing := List.countP_pos_iff.2 ⟨p, by simp, ha⟩
    by_contra hc
    rw [h2, if_neg hc] at this
    omega
  have hl : p.locking = true → s.mutex = true := by
    intro ha
    have : 0 < (a ++ p :: b).countP InsPc.locking := List.countP_pos_iff.2 ⟨p, by simp, ha⟩
    by_contra hc
    rw [h3, if_neg hc] at this
    omega
  cases st with
  | stop =>
    have := hpos rfl
    refine key trivial rfl rfl ?_ rfl (.inr (.inr rfl)) (by intro _ _ hj; cases hj) (fun _ => rfl)
    simp only [InsPc.active, Bool.toNat_true, Bool.toNat_false]
    simp [InsPc.cont]
    omega
  | plan => exact key trivial rfl rfl rfl rfl (.inl rfl) (by intro _ _ hj; cases hj) (fun h => h)
  | refuse => exact key trivial rfl rfl rfl rfl (.inl rfl) (by intro _ _ hj; cases hj) (fun h => h)
  | placed => exact key trivial rfl rfl rfl rfl (.inl rfl) (by intro _ _ hj; cases hj) (fun h => h)
  | bump => exact key trivial rfl rfl rfl rfl (.inl rfl) (by intro _ _ hj; cases hj) (fun h => h)
  | add => exact key trivial rfl rfl rfl rfl (.inl rfl) (by intro _ _ hj; cases hj) (fun h => h)
  | nobucket => exact key trivial rfl rfl rfl rfl (.inl rfl) (by intro _ _ hj; cases hj) (fun h => h)
  | small up lo k => cases k <;> exact key trivial rfl rfl rfl rfl (by simp [insNext, InsPc.active, InsPc.owner]) (by intro _ _ hj; cases hj) (fun h => h)
  | big up lo k => cases k <;> exact key trivial rfl rfl rfl rfl (by simp [InsPc.active, InsPc.owner, InsPc.cont]) (by intro _ _ hj; cases hj) (fun h => h)
  | lock up lo k hm =>
    cases k <;> exact key trivial rfl (by rw [hm]; rfl) rfl rfl (by simp [InsPc.active, InsPc.owner, InsPc.cont]) (by intro _ _ hj; cases hj) (fun h => h)
  | resmall up lo k =>
    have := hl rfl
    cases k <;> exact key trivial rfl (by rw [this]; rfl) rfl rfl (by simp [insNext, InsPc.active, InsPc.owner]) (by intro _ _ hj; cases hj) (fun h => h)
  | rebig up lo k =>
    have := hl rfl
    cases k <;> exact key ⟨fun _ h => h, by intro e he; cases he⟩ rfl rfl rfl rfl (by simp [InsPc.active, InsPc.owner, InsPc.cont]) (by intro _ _ hj; cases hj) (fun h => h)
  | scan lo t rest found k =>
    have ht : (InsPc.scan lo rest (if s.memSize t > 0 then (s.memSize t, t) :: found else found) k).TilesOk cache := by
      refine ⟨fun u hu => hp1.1 u (by simp [hu]), fun e he => ?_⟩
      split at he
      · rw [List.mem_cons] at he
        rcases he with rfl | he
        · exact hp1.1 t (by simp)
        · exact hp1.2 e he
      · exact hp1.2 e he
    cases k <;> exact key ht rfl rfl rfl rfl (by simp [InsPc.active, InsPc.owner, InsPc.cont]) (by intro _ _ hj; cases hj) (fun h => h)
  | scanEmpty lo k =>
    have := hl rfl
    cases k <;> exact key trivial rfl (by rw [this]; rfl) rfl rfl (by simp [insNext, InsPc.active, InsPc.owner]) (by intro _ _ hj; cases hj) (fun h => h)
  | scanDone lo found k hf =>
    have ht : (InsPc.take lo ((sortBy bucketLe found.reverse).map (·.2)) [] k).TilesOk cache := by
      refine ⟨fun u hu => ?_, by intro e he; cases he⟩
      rw [List.mem_map] at hu
      obtain ⟨e, he, rfl⟩ := hu
      exact hp1.2 e (by simpa using (sortBy_perm _ _).mem_iff.1 he)
    cases k <;> exact key ht rfl rfl rfl rfl (by simp [InsPc.active, InsPc.owner, InsPc.cont]) (by intro _ _ hj; cases hj) (fun h => h)
  | takeDone lo rest q k =>
    have := hl rfl
    cases k <;> exact key hp1.2 rfl (by rw [this]; rfl) rfl rfl (by simp [InsPc.active, InsPc.owner, InsPc.cont]) (by intro _ _ hj; cases hj) (fun h => h)
  | take lo t rest q k =>
    have ht : (InsPc.take lo rest (q ++ [(t, s.mem t)]) k).TilesOk cache := by
      refine ⟨fun u hu => hp1.1 u (by simp [hu]), fun e he => ?_⟩
      rw [List.mem_append, List.mem_singleton] at he
      rcases he with he | rfl
      · exact hp1.2 e he
      · exact hp1.1 t (by simp)
    cases k <;> exact key ht rfl rfl rfl rfl (by simp [InsPc.active, InsPc.owner, InsPc.cont]) (by intro _ _ hj; cases hj) (fun h => h)
  | begin q k ht =>
    cases k <;> exact key hp1 (by rw [ht]; rfl) rfl rfl rfl (by simp [InsPc.active, InsPc.owner, InsPc.cont]) (by intro _ _ hj; cases hj) (fun h => h)
  | write t fs q k view view' pf' ht =>
    have ho : (InsPc.write q k).TilesOk cache := fun e he => hp1 e (by simp [he])
    cases k <;> exact key ho (by rw [ht]; rfl) rfl rfl rfl (by simp [InsPc.active, InsPc.owner, InsPc.cont]) (by intro _ _ hj; cases hj) (fun h => h)
  | fail t fs q k view ht =>
    cases k <;> exact key trivial (by rw [ht]; rfl) rfl rfl rfl (by simp [insThrow, InsPc.active, InsPc.owner]) (by intro _ _ hj; cases hj) (fun h => h)
  | commit k view ht =>
    cases k <;> exact key trivial (by rw [ht]; rfl) rfl rfl rfl (by simp [insNext, InsPc.active, InsPc.owner]) (by intro _ _ hj; cases hj) (fun h => h)
  | join hr => exact key trivial rfl rfl rfl rfl (by simp [InsPc.active, InsPc.owner, InsPc.cont]) (by intro _ _ _; exact hr) (fun h => h)

/-! ### nothing gets lost or doubled on the way -/

def writtenAt (p : InsPc) (t : Tile) : List Bytes :=
  match p with
  | .write ((u, fs) :: _) _ => if u = t then fs else []
  | _ => []

theorem queueAt_cons (u : Tile) (fs : List Bytes) (q : List (Tile × List Bytes)) (t : Tile) : queueAt ((u, fs) :: q) t = (if u = t then fs else []) ++ queueAt q t := rfl

theorem queueAt_concat (q : List (Tile × List Bytes)) (u : Tile) (fs : List Bytes) (t : Tile) :
    queueAt (q ++ [(u, fs)]) t = queueAt q t ++ (if u = t then fs else []) := by
  simp [queueAt, List.flatMap_append]

theorem contPend_cons (cache : List Tile) (c : InsCall) (todo : List InsCall) (t : Tile) :
    contPend cache (some (c :: todo)) t = placed cache c t ++ contPend cache (some todo) t := rfl

/-- one step: what leaves the hands of a thread is in a bucket or written, and the other way round; only a failing flush loses something -/
theorem insFlow {crc : Bytes → UInt32} {cache : List Tile} {upper lower : Nat} {s s' : InsShared} {p p' : InsPc}
    (st : InsTr crc cache upper lower s p s' p') :
    (s'.failed = s.failed ∧ ∀ t v, (p'.pend cache t).count v + (s'.mem t).count v + (writtenAt p t).count v = (p.pend cache t).count v + (s.mem t).count v) ∨
    (s'.failed = true ∧ s'.mem = s.mem ∧ ∀ t v, (p'.pend cache t).count v ≤ (p.pend cache t).count v) := by
  cases st with
  | fail t fs q k view =>
    refine .inr ⟨rfl, rfl, fun u v => ?_⟩
    rw [(insThrow_simps cache k).1 u]
    simp only [InsPc.pend, List.count_append]
    omega
  | stop => exact .inl ⟨rfl, fun t v => rfl⟩
  | plan c todo tiles v hp =>
    refine .inl ⟨rfl, fun t w => ?_⟩
    simp only [InsPc.pend, contPend_cons, placed, hp, writtenAt, List.count_nil, Nat.add_zero]
  | refuse c todo hp =>
    refine .inl ⟨rfl, fun t w => ?_⟩
    have : placed cache c t = [] := by
      rw [placed]
      split
      · exact absurd (by assumption) (hp _)
      · rfl
    simp only [InsPc.pend, contPend_cons, this, writtenAt, List.nil_append, List.count_nil, Nat.add_zero]
  | placed v todo => exact .inl ⟨rfl, fun t w => rfl⟩
  | bump v t tiles todo => exact .inl ⟨rfl, fun t w => rfl⟩
  | add v t tiles todo ht =>
    refine .inl ⟨rfl, fun u w => ?_⟩
    simp only [InsPc.pend, placedIn_cons, if_pos ht, writtenAt, List.count_nil, List.count_append]
    by_cases hu : t = u
    · subst hu
      simp only [if_true, List.count_append, List.count_cons, List.count_nil]
      omega
    · have hu' : ¬ u = t := fun h => hu h.symm
      simp only [if_neg hu, if_neg hu']
      omega
  | nobucket v t tiles todo ht =>
    refine .inl ⟨rfl, fun u w => ?_⟩
    simp only [InsPc.pend, placedIn_cons, if_neg ht, writtenAt, List.nil_append, List.count_nil, Nat.add_zero]
  | small up lo k => refine .inl ⟨rfl, fun u w => ?_⟩; rw [(insNext_simps cache k).1 u]; rfl
  | big up lo k => exact .inl ⟨rfl, fun t w => rfl⟩
  | lock up lo k => exact .inl ⟨rfl, fun t w => rfl⟩
  | resmall up lo k => refine .inl ⟨rfl, fun u w => ?_⟩; rw [(insNext_simps cache k).1 u]; rfl
  | rebig up lo k => exact .inl ⟨rfl, fun t w => rfl⟩
  | scan lo t rest found k => exact .inl ⟨rfl, fun t w => rfl⟩
  | scanEmpty lo k => refine .inl ⟨rfl, fun u w => ?_⟩; rw [(insNext_simps cache k).1 u]; rfl
  | scanDone lo found k => exact .inl ⟨rfl, fun t w => rfl⟩
  | takeDone lo rest q k => exact .inl ⟨rfl, fun t w => rfl⟩
  | take lo t rest q k =>
    refine .inl ⟨rfl, fun u w => ?_⟩
    simp only [InsPc.pend, queueAt_concat, writtenAt, List.count_nil, List.count_append]
    by_cases hu : t = u
    · subst hu
      simp only [if_true, List.count_nil]
      omega
    · have hu' : ¬ u = t := fun h => hu h.symm
      simp only [if_neg hu, if_neg hu', List.count_nil]
      omega
  | begin q k => exact .inl ⟨rfl, fun t w => rfl⟩
  | write t fs q k view view' pf' =>
    refine .inl ⟨rfl, fun u w => ?_⟩
    simp only [InsPc.pend, queueAt_cons, writtenAt, List.count_append]
    omega
  | commit k view =>
    refine .inl ⟨rfl, fun u w => ?_⟩
    rw [(insNext_simps cache k).1 u]
    rfl
  | join => exact .inl ⟨rfl, fun t w => rfl⟩

/-- what the database leads to, at any time: `new` in the transaction (or, without transaction, in the table), `cnew` in the table -/
structure InsStore (R : Bytes → List Bytes → Prop) (cache : List Tile) (db0 : UInt64 → Option Bytes) (old : Tile → List (List Bytes)) (total : Tile → List Bytes)
    (s : InsShared) (ps : List InsPc) (new cnew : Tile → List (List Bytes)) : Prop where
  wf : s.pf.WF
  view : ∀ t ∈ cache, ∀ k, keyOfTile t = .ok k → ContentBy R s.pf ((s.txn.getD s.db) k) (old t ++ new t)
  table : ∀ t ∈ cache, ∀ k, keyOfTile t = .ok k → ContentBy R s.pf (s.db k) (old t ++ cnew t)
  other : ∀ k, (∀ t ∈ cache, keyOfTile t ≠ .ok k) → (s.txn.getD s.db) k = db0 k ∧ s.db k = db0 k
  pre : ∀ t, cnew t <+: new t
  most : ∀ t ∈ cache, ∀ v, (new t).flatten.count v + (s.mem t).count v + (ps.map (fun p => (p.pend cache t).count v)).sum ≤ (total t).count v
  all : s.failed = false → ∀ t ∈ cache, ∀ v,
    (new t).flatten.count v + (s.mem t).count v + (ps.map (fun p => (p.pend cache t).count v)).sum = (total t).count v

theorem insTr_pf {crc : Bytes → UInt32} {cache : List Tile} {upper lower : Nat} {s s' : InsShared} {p p' : InsPc}
    (st : InsTr crc cache upper lower s p s' p') : s.pf.size ≤ s'.pf.size := by
  cases st with
  | write t fs q k view view' pf' h hw =>
    rw [writeBucket, Res.bind_eq_ok] at hw
    obtain ⟨k, _, h⟩ := hw
    rw [Res.bind_eq_ok] at h
    obtain ⟨p, _, h⟩ := h
    dsimp only at h
    have := append_size s.pf p
    have fin : (s.pf.append p).1 = pf' → s.pf.size ≤ pf'.size := by intro h; rw [← h]; omega
    cases hv : view k with
    | none =>
      rw [hv] at h
      dsimp only at h
      rw [Res.ok_bind, Res.pure_eq] at h
      injection h with h; injection h with _ e2
      exact fin e2
    | some dat =>
      rw [hv] at h
      dsimp only at h
      rw [Res.bind_eq_ok] at h
      obtain ⟨_, _, h⟩ := h
      rw [Res.pure_eq] at h
      injection h with h; injection h with _ e2
      exact fin e2
  | _ => exact Nat.le_refl _

theorem count_le_sum {α : Type} (f : α → Nat) {l : List α} {a : α} (h : a ∈ l) : f a ≤ (l.map f).sum := by
  induction l with
  | nil => cases h
  | cons b l ih =>
    rw [List.map_cons, List.sum_cons]
    rcases List.mem_cons.1 h with rfl | h
    · omega
    · have := ih h; omega

theorem insStore_step {R : Bytes → List Bytes → Prop} {crc : Bytes → UInt32} (hR : Packs crc R) {cache : List Tile} {upper lower : Nat} {db0 : UInt64 → Option Bytes} {old : Tile → List (List Bytes)}
    {total : Tile → List Bytes} {s s' : InsShared} {a b : List InsPc} {p p' : InsPc} {new cnew : Tile → List (List Bytes)}
    (hfit : ∀ t ∈ cache, KeyFits t) (htot : ∀ t ∈ cache, ∀ v ∈ total t, v.length < 2 ^ 64)
    (hsh : InsShape cache s (a ++ p :: b)) (h : InsStore R cache db0 old total s (a ++ p :: b) new cnew)
    (st : InsTr crc cache upper lower s p s' p') (hsz : s'.pf.size < 2 ^ 64) :
    ∃ new' cnew', InsStore R cache db0 old total s' (a ++ p' :: b) new' cnew' := by
  have hflow := insFlow st
  have hsum : ∀ t v, ((a ++ p' :: b).map (fun p => (p.pend cache t).count v)).sum + (p.pend cache t).count v =
      ((a ++ p :: b).map (fun p => (p.pend cache t).count v)).sum + (p'.pend cache t).count v := by
    intro t v
    simp only [List.map_append, List.map_cons, List.sum_append, List.sum_cons]
    omega
  -- a step that leaves the database as it is
  have quiet : s'.pf = s.pf → s'.db = s.db → s'.txn = s.txn → (∀ t, writtenAt p t = []) → s'.failed = s.failed →
      (∀ t v, (p'.pend cache t).count v + (s'.mem t).count v + (writtenAt p t).count v = (p.pend cache t).count v + (s.mem t).count v) →
      ∃ new' cnew', InsStore R cache db0 old total s' (a ++ p' :: b) new' cnew' := by
    intro e1 e2 e3 e4 e5 hf
    refine ⟨new, cnew, by rw [e1]; exact h.wf, ?_, ?_, ?_, h.pre, ?_, ?_⟩
    · rw [e1, e2, e3]; exact h.view
    · rw [e1, e2]; exact h.table
    · rw [e2, e3]; exact h.other
    · intro t ht v
      have h1 := h.most t ht v
      have h2 := hsum t v
      have h3 := hf t v
      rw [e4 t] at h3
      simp only [List.count_nil] at h3
      omega
    · intro hn t ht v
      have h1 := h.all (by rw [← e5]; exact hn) t ht v
      have h2 := hsum t v
      have h3 := hf t v
      rw [e4 t] at h3
      simp only [List.count_nil] at h3
      omega
  have quiet' : s'.pf = s.pf → s'.db = s.db → s'.txn = s.txn → (∀ t, writtenAt p t = []) → s'.failed = s.failed →
      ∃ new' cnew', InsStore R cache db0 old total s' (a ++ p' :: b) new' cnew' := by
    intro e1 e2 e3 e4 e5
    rcases hflow with ⟨_, hf⟩ | ⟨hf, hm, hl⟩
    · exact quiet e1 e2 e3 e4 e5 hf
    · refine ⟨new, cnew, by rw [e1]; exact h.wf, ?_, ?_, ?_, h.pre, ?_, ?_⟩
      · rw [e1, e2, e3]; exact h.view
      · rw [e1, e2]; exact h.table
      · rw [e2, e3]; exact h.other
      · intro t ht v
        have h1 := h.most t ht v
        have h2 := hsum t v
        have h3 := hl t v
        rw [hm]
        omega
      · intro hn; rw [hf] at hn; cases hn
  cases st with
  | begin q k ht =>
    refine ⟨new, cnew, h.wf, ?_, h.table, ?_, h.pre, ?_, ?_⟩
    · have := h.view; rw [ht] at this; exact this
    · have := h.other; rw [ht] at this; exact this
    · intro t ht v
      have h1 := h.most t ht v
      have h2 := hsum t v
      have h3 : ((InsPc.write q k).pend cache t).count v = ((InsPc.begin q k).pend cache t).count v := rfl
      show _ + (s.mem t).count v + _ ≤ _
      omega
    · intro hn t ht v
      have h1 := h.all hn t ht v
      have h2 := hsum t v
      have h3 : ((InsPc.write q k).pend cache t).count v = ((InsPc.begin q k).pend cache t).count v := rfl
      show _ + (s.mem t).count v + _ = _
      omega
  | write t fs q k view view' pf' ht hw =>
    have htc : t ∈ cache := hsh.tiles (.write ((t, fs) :: q) k) (by simp) (t, fs) (by simp)
    have hlen : ∀ f ∈ fs, f.length < 2 ^ 64 := by
      intro f hf
      refine htot t htc f ?_
      rw [← List.count_pos_iff]
      have h1 := h.most t htc f
      have h2 := count_le_sum (fun p : InsPc => (p.pend cache t).count f) (show InsPc.write ((t, fs) :: q) k ∈ a ++ .write ((t, fs) :: q) k :: b by simp)
      have h3 : 0 < ((InsPc.write ((t, fs) :: q) k).pend cache t).count f := by
        rw [List.count_pos_iff]
        simp only [InsPc.pend, queueAt_cons, if_true, List.mem_append]
        exact .inl (.inl hf)
      omega
    obtain ⟨kt, pk, hkt, rfl, hv1, hv2⟩ := writeBucket_ok hR h.wf hw hlen hsz
    have hview : ∀ t ∈ cache, ∀ k, keyOfTile t = .ok k → ContentBy R s.pf (view k) (old t ++ new t) := by
      have := h.view; rw [ht] at this; exact this
    refine ⟨fun u => if u = t then new t ++ [fs] else new u, cnew, PackFile.insert_wf _ _ _ h.wf, ?_, ?_, ?_, ?_, ?_, ?_⟩
    · intro u hu ku hku
      show ContentBy R _ (view' ku) _
      by_cases hut : u = t
      · subst hut
        rw [hkt] at hku
        injection hku with hku
        subst hku
        dsimp only
        rw [if_pos rfl, ← List.append_assoc]
        exact hv2 _ (hview u hu _ hkt)
      · dsimp only
        rw [if_neg hut, hv1 ku]
        · exact content_append h.wf pk (hview u hu ku hku)
        · intro hc
          subst hc
          exact hut (keyOfTile_inj (hfit u hu) (hfit t htc) hku hkt)
    · intro u hu ku hku
      exact content_append h.wf pk (h.table u hu ku hku)
    · intro ku hku
      have := h.other ku hku
      rw [ht] at this
      refine ⟨?_, this.2⟩
      show view' ku = _
      rw [hv1 ku, ← this.1]
      · rfl
      · intro hc
        subst hc
        exact hku t htc hkt
    · intro u
      try dsimp only
      split
      · rename_i hut; subst hut; exact (h.pre u).trans (List.prefix_append _ _)
      · exact h.pre u
    · intro u hu v
      have h1 := h.most u hu v
      have h2 := hsum u v
      have h3 : ((InsPc.write ((t, fs) :: q) k).pend cache u).count v = (if t = u then fs else []).count v + ((InsPc.write q k).pend cache u).count v := by
        simp only [InsPc.pend, queueAt_cons, List.count_append]
        omega
      dsimp only
      by_cases hut : u = t
      · subst hut
        rw [if_pos rfl] at h3 ⊢
        rw [List.flatten_append, List.count_append]
        simp only [List.flatten_cons, List.flatten_nil, List.append_nil]
        omega
      · rw [if_neg hut]
        rw [if_neg (fun h => hut h.symm), List.count_nil] at h3
        omega
    · intro hn u hu v
      have h1 := h.all hn u hu v
      have h2 := hsum u v
      have h3 : ((InsPc.write ((t, fs) :: q) k).pend cache u).count v = (if t = u then fs else []).count v + ((InsPc.write q k).pend cache u).count v := by
        simp only [InsPc.pend, queueAt_cons, List.count_append]
        omega
      dsimp only
      by_cases hut : u = t
      · subst hut
        rw [if_pos rfl] at h3 ⊢
        rw [List.flatten_append, List.count_append]
        simp only [List.flatten_cons, List.flatten_nil, List.append_nil]
        omega
      · rw [if_neg hut]
        rw [if_neg (fun h => hut h.symm), List.count_nil] at h3
        omega
  | fail t fs q k view ht hw =>
    refine ⟨cnew, cnew, h.wf, h.table, h.table, fun ku hku => ⟨(h.other ku hku).2, (h.other ku hku).2⟩, fun t => List.prefix_refl _, ?_, ?_⟩
    · intro u hu v
      have h1 := h.most u hu v
      have h2 := hsum u v
      have h3 : ((insThrow k).pend cache u).count v ≤ ((InsPc.write ((t, fs) :: q) k).pend cache u).count v := by
        rw [(insThrow_simps cache k).1 u]
        simp only [InsPc.pend, List.count_append]
        omega
      have h4 : (cnew u).flatten.count v ≤ (new u).flatten.count v := by
        obtain ⟨m, hm⟩ := h.pre u
        rw [← hm, List.flatten_append, List.count_append]
        omega
      show _ + (s.mem u).count v + _ ≤ _
      omega
    · intro hn; cases hn
  | commit k view ht =>
    have hview := h.view
    have hother := h.other
    rw [ht] at hview hother
    refine ⟨new, new, h.wf, hview, hview, fun ku hku => ⟨(hother ku hku).1, (hother ku hku).1⟩, fun t => List.prefix_refl _, ?_, ?_⟩
    · intro u hu v
      have h1 := h.most u hu v
      have h2 := hsum u v
      have h3 : ((insNext k).pend cache u).count v = ((InsPc.write [] k).pend cache u).count v := by rw [(insNext_simps cache k).1 u]; rfl
      show _ + (s.mem u).count v + _ ≤ _
      omega
    · intro hn u hu v
      have h1 := h.all hn u hu v
      have h2 := hsum u v
      have h3 : ((insNext k).pend cache u).count v = ((InsPc.write [] k).pend cache u).count v := by rw [(insNext_simps cache k).1 u]; rfl
      show _ + (s.mem u).count v + _ = _
      omega
  | _ => exact quiet' rfl rfl rfl (fun t => rfl) rfl

/-! ### the destructor finds everything -/

/-- the progress of the destructor -/
def InsPc.FinalOk (cache : List Tile) (s : InsShared) : InsPc → Prop
  | .check up lo none => up = 0 ∧ lo = 0
  | .lock up lo none => up = 0 ∧ lo = 0
  | .recheck up lo none => up = 0 ∧ lo = 0
  | .scan lo rest found none => lo = 0 ∧ ∀ t ∈ cache, s.mem t ≠ [] → t ∈ rest ∨ t ∈ found.map (·.2)
  | .take lo rest _ none => lo = 0 ∧ ∀ t ∈ cache, s.mem t ≠ [] → t ∈ rest
  | .begin _ none => ∀ t ∈ cache, s.mem t = []
  | .write _ none => ∀ t ∈ cache, s.mem t = []
  | .finished => ∀ t ∈ cache, s.mem t = []
  | _ => True

theorem finalOk_worker {cache : List Tile} {s : InsShared} {p : InsPc} (h : p.owner = false) : p.FinalOk cache s := by
  cases p <;> first
    | trivial
    | (rename_i k; cases k <;> first | trivial | cases h)
    | cases h

structure InsMem (cache : List Tile) (s : InsShared) (ps : List InsPc) : Prop where
  size : ∀ t, s.memSize t = ((s.mem t).map List.length).sum
  total : (cache.map s.memSize).sum + (ps.map InsPc.bumped).sum ≤ s.cacheSize
  final : ∀ p ∈ ps, p.FinalOk cache s

theorem sum_update {l : List Tile} (hn : l.Nodup) {t : Tile} (ht : t ∈ l) (f : Tile → Nat) (x : Nat) :
    (l.map (fun t' => if t' = t then x else f t')).sum + f t = (l.map f).sum + x := by
  induction l with
  | nil => cases ht
  | cons a l ih =>
    rw [List.nodup_cons] at hn
    simp only [List.map_cons, List.sum_cons]
    rcases List.mem_cons.1 ht with rfl | ht
    · have : l.map (fun t' => if t' = t then x else f t') = l.map f := by
        apply List.map_congr_left
        intro u hu
        rw [if_neg]
        rintro rfl
        exact hn.1 hu
      rw [this, if_pos rfl]
      omega
    · have := ih hn.2 ht
      have hat : a ≠ t := by rintro rfl; exact hn.1 ht
      rw [if_neg hat]
      omega

theorem insMem_step {crc : Bytes → UInt32} {cache : List Tile} {upper lower : Nat} {s s' : InsShared} {a b : List InsPc} {p p' : InsPc}
    (hnd : cache.Nodup) (hpos : ∀ t ∈ cache, ∀ v ∈ s.mem t, 0 < v.length)
    (hsh : InsShape cache s (a ++ p :: b)) (h : InsMem cache s (a ++ p :: b)) (st : InsTr crc cache upper lower s p s' p') :
    InsMem cache s' (a ++ p' :: b) := by
  have hzero : ∀ t ∈ cache, s.memSize t = 0 → s.mem t = [] := by
    intro t ht h0
    rw [h.size t] at h0
    cases hm : s.mem t with
    | nil => rfl
    | cons v l =>
      have := hpos t ht v (by rw [hm]; simp)
      rw [hm, List.map_cons, List.sum_cons] at h0
      omega
  have hle : ∀ t ∈ cache, s.memSize t ≤ s.cacheSize := by
    intro t ht
    have := count_le_sum s.memSize ht
    have := h.total
    omega
  have hpf := h.final p (by simp)
  -- the other threads do not look at the buckets while the destructor runs
  have others : ∀ q ∈ a ++ b, q.FinalOk cache s' := by
    intro q hq
    by_cases ho : q.owner = true
    · by_cases hj : q = .join
      · subst hj; trivial
      · exfalso
        have hq' : q ∈ a ++ p :: b := by
          rcases List.mem_append.1 hq with hq | hq <;> simp [hq]
        have hr := hsh.waits ⟨q, hq', ho, hj⟩
        have hact : p.active = false := by
          have := hsh.running
          rw [hr] at this
          simpa using List.countP_eq_zero.1 this.symm p (by simp)
        have hown : p.owner = false := by
          have h1 := hsh.owners
          have h2 : 0 < (a ++ b).countP InsPc.owner := List.countP_pos_iff.2 ⟨q, hq, ho⟩
          simp only [List.countP_append, List.countP_cons] at h1 h2
          cases hpo : p.owner with
          | false => rfl
          | true => rw [hpo] at h1; simp at h1; omega
        rcases hsh.kinds p (by simp) with hk | hk | hk
        · rw [hact] at hk; cases hk
        · rw [hown] at hk; cases hk
        · subst hk; cases st
    · exact finalOk_worker (by simpa using ho)
  have key : (∀ t, s'.memSize t = ((s'.mem t).map List.length).sum) →
      ((cache.map s'.memSize).sum + p'.bumped + s.cacheSize ≤ (cache.map s.memSize).sum + p.bumped + s'.cacheSize) →
      p'.FinalOk cache s' → InsMem cache s' (a ++ p' :: b) := by
    intro k1 k2 k3
    refine ⟨k1, ?_, ?_⟩
    · have h1 := h.total
      simp only [List.map_append, List.map_cons, List.sum_append, List.sum_cons] at h1 ⊢
      omega
    · intro q hq
      simp only [List.mem_append, List.mem_cons] at hq
      rcases hq with hq | rfl | hq
      · exact others q (by simp [hq])
      · exact k3
      · exact others q (by simp [hq])
  have same : s'.memSize = s.memSize → s'.mem = s.mem → s'.cacheSize = s.cacheSize → p'.bumped ≤ p.bumped → p'.FinalOk cache s' →
      InsMem cache s' (a ++ p' :: b) := by
    intro e1 e2 e3 e4 e5
    refine key (by rw [e1, e2]; exact h.size) (by rw [e1, e3]; omega) e5
  have hempty : s.cacheSize = 0 → ∀ t ∈ cache, s.mem t = [] := by
    intro h0 t ht
    have := hle t ht
    exact hzero t ht (by omega)
  cases st with
  | stop => exact same rfl rfl rfl (Nat.le_refl _) trivial
  | plan => exact same rfl rfl rfl (Nat.le_refl _) trivial
  | refuse => exact same rfl rfl rfl (Nat.le_refl _) trivial
  | placed => exact same rfl rfl rfl (Nat.le_refl _) trivial
  | bump v t tiles todo =>
    refine key h.size ?_ trivial
    simp only [InsPc.bumped]
    omega
  | add v t tiles todo ht =>
    refine key ?_ ?_ trivial
    · intro u
      dsimp only
      split
      · rename_i hu; subst hu
        rw [h.size u]
        simp
      · exact h.size u
    · have := sum_update hnd ht s.memSize (s.memSize t + v.length)
      simp only [InsPc.bumped]
      omega
  | nobucket => exact same rfl rfl rfl (Nat.zero_le _) trivial
  | small up lo k hc =>
    refine same rfl rfl rfl (by rw [(insNext_simps cache k).2.1]; exact Nat.zero_le _) ?_
    cases k with
    | some todo => trivial
    | none =>
      have : up = 0 ∧ lo = 0 := hpf
      exact hempty (by omega)
  | big up lo k => exact same rfl rfl rfl (Nat.le_refl _) (by cases k <;> [exact hpf; trivial])
  | lock up lo k => exact same rfl rfl rfl (Nat.le_refl _) (by cases k <;> [exact hpf; trivial])
  | resmall up lo k hc =>
    refine same rfl rfl rfl (by rw [(insNext_simps cache k).2.1]; exact Nat.zero_le _) ?_
    cases k with
    | some todo => trivial
    | none =>
      have : up = 0 ∧ lo = 0 := hpf
      exact hempty (by omega)
  | rebig up lo k =>
    refine same rfl rfl rfl (Nat.le_refl _) ?_
    cases k with
    | some todo => trivial
    | none => exact ⟨hpf.2, fun t ht _ => .inl ht⟩
  | scan lo t rest found k =>
    refine same rfl rfl rfl (Nat.le_refl _) ?_
    cases k with
    | some todo => trivial
    | none =>
      refine ⟨hpf.1, fun u hu hm => ?_⟩
      rcases hpf.2 u hu hm with h1 | h1
      · rcases List.mem_cons.1 h1 with rfl | h1
        · right
          have : s.memSize u > 0 := by
            rcases Nat.eq_zero_or_pos (s.memSize u) with h0 | h0
            · exact absurd (hzero u hu h0) hm
            · exact h0
          rw [if_pos this]
          simp
        · exact .inl h1
      · right
        split
        · rw [List.map_cons]; exact List.mem_cons_of_mem _ h1
        · exact h1
  | scanEmpty lo k =>
    refine same rfl rfl rfl (by rw [(insNext_simps cache k).2.1]; exact Nat.zero_le _) ?_
    cases k with
    | some todo => trivial
    | none =>
      intro t ht
      by_contra hm
      rcases hpf.2 t ht hm with h1 | h1 <;> cases h1
  | scanDone lo found k =>
    refine same rfl rfl rfl (Nat.le_refl _) ?_
    cases k with
    | some todo => trivial
    | none =>
      refine ⟨hpf.1, fun t ht hm => ?_⟩
      rcases hpf.2 t ht hm with h1 | h1
      · cases h1
      · rw [List.mem_map] at h1 ⊢
        obtain ⟨e, he, rfl⟩ := h1
        exact ⟨e, (sortBy_perm _ _).mem_iff.2 (by simpa using he), rfl⟩
  | takeDone lo rest q k hd =>
    refine same rfl rfl rfl (Nat.le_refl _) ?_
    cases k with
    | some todo => trivial
    | none =>
      intro t ht
      by_contra hm
      have h1 := hpf.2 t ht hm
      rcases hd with rfl | hd
      · cases h1
      · have := hpf.1
        omega
  | take lo t rest q k hc =>
    have ht : t ∈ cache := (hsh.tiles (.take lo (t :: rest) q k) (by simp)).1 t (by simp)
    refine key ?_ ?_ ?_
    · intro u
      dsimp only
      split
      · rfl
      · exact h.size u
    · have := sum_update hnd ht s.memSize 0
      have := hle t ht
      simp only [InsPc.bumped]
      omega
    · cases k with
      | some todo => trivial
      | none =>
        refine ⟨hpf.1, fun u hu hm => ?_⟩
        dsimp only at hm
        split at hm
        · exact absurd rfl hm
        · rename_i hut
          rcases List.mem_cons.1 (hpf.2 u hu hm) with h1 | h1
          · exact absurd h1 hut
          · exact h1
  | begin q k => exact same rfl rfl rfl (Nat.le_refl _) (by cases k <;> [exact hpf; trivial])
  | write t fs q k => exact same rfl rfl rfl (Nat.le_refl _) (by cases k <;> [exact hpf; trivial])
  | fail t fs q k =>
    exact same rfl rfl rfl (by rw [(insThrow_simps cache k).2.1]; exact Nat.zero_le _) (by cases k <;> trivial)
  | commit k =>
    refine same rfl rfl rfl (by rw [(insNext_simps cache k).2.1]; exact Nat.zero_le _) ?_
    cases k with
    | some todo => trivial
    | none => exact hpf
  | join => exact same rfl rfl rfl (Nat.le_refl _) ⟨rfl, rfl⟩

end Tiles
