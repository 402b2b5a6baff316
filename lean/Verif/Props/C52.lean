import Verif.Proof.InsIndex
import Verif.Props.C44
import Verif.Props.C49
/-! C52 — insert, index, render: after the import steps `features` and `pack`, a rendered tile reads what was inserted. -/
namespace Tiles
open Spec

/-! ### the packs of an index tile after the inserter -/

theorem forall₂_split_flatten {α β : Type} {P : α → β → Prop} : ∀ (ll : List (List α)) (m : List β), List.Forall₂ P ll.flatten m →
    ∃ mm, mm.flatten = m ∧ List.Forall₂ (List.Forall₂ P) ll mm := by
  intro ll
  induction ll with
  | nil => intro m h; cases h; exact ⟨[], rfl, .nil⟩
  | cons l ll ih =>
    intro m h
    rw [List.flatten_cons] at h
    have h1 := (List.forall₂_take_append m l ll.flatten h.flip).flip
    have h2 := (List.forall₂_drop_append m l ll.flatten h.flip).flip
    obtain ⟨mm, h3, h4⟩ := ih _ h2
    exact ⟨m.take l.length :: mm, by rw [List.flatten_cons, h3, List.take_append_drop], .cons h1 h4⟩

theorem forall₂_mem_left {α β : Type} {P : α → β → Prop} {l : List α} {m : List β} (h : List.Forall₂ P l m) : ∀ a ∈ l, ∃ b ∈ m, P a b := by
  induction h with
  | nil => intro a h; cases h
  | cons h0 _ ih =>
    intro a ha
    rcases List.mem_cons.1 ha with rfl | ha
    · exact ⟨_, by simp, h0⟩
    · obtain ⟨b, hb, h⟩ := ih a ha
      exact ⟨b, by simp [hb], h⟩

theorem serializeAll_fast {mk : Line → Bytes} {dec : List Meta} {ser : Feature → Bytes} {ss : List Bytes} {fs : List Feature}
    (h : List.Forall₂ (fun s f => s = ser f) ss fs) (hs : ∀ f ∈ fs, serializeFeature (fun _ => []) [] true f = .ok (ser f)) :
    serializeAll (serializeFeature mk dec true) fs = .ok ss := by
  induction h with
  | nil => rfl
  | cons h0 _ ih =>
    rename_i s f ss fs _
    rw [serializeAll, serialize_fast mk (fun _ => []) dec [], hs f (by simp), Res.ok_bind, ih (fun f hf => hs f (by simp [hf])), Res.ok_bind, h0]
    rfl

/-- the records of a tile when all its entries are one -/
theorem recordsOf_one {es : List (UInt64 × List PackRecord)} (hs : DbSorted es) {k : UInt64} {t : Tile} (hk : keyToTile k = t) {rs : List PackRecord}
    (he : (k, rs) ∈ es) (hone : ∀ e ∈ es, keyToTile e.1 = t → e.1 = k) : recordsOf es t = rs := by
  have : es.filter (fun e => decide (keyToTile e.1 = t)) = [(k, rs)] := by
    have hnd : es.Nodup := hs.imp (by rintro a b h rfl; exact absurd h (UInt64.lt_irrefl _))
    have hperm : (es.filter (fun e => decide (keyToTile e.1 = t))).Perm [(k, rs)] := by
      rw [List.perm_ext_iff_of_nodup (hnd.filter _) (by simp)]
      intro e
      rw [List.mem_filter, List.mem_singleton, decide_eq_true_eq]
      constructor
      · rintro ⟨h1, h2⟩
        by_contra hne
        have hkey := hone e h1 h2
        have : Std.Symm (fun a b : UInt64 × List PackRecord => a.1 ≠ b.1) := ⟨fun _ _ h => h.symm⟩
        have hp : es.Pairwise (fun a b => a.1 ≠ b.1) := hs.imp (fun h hc => by rw [hc] at h; exact absurd h (UInt64.lt_irrefl _))
        exact hp.forall h1 he hne hkey
      · rintro rfl; exact ⟨he, hk⟩
    exact List.perm_singleton.1 hperm
  rw [recordsOf, this]; simp

section
variable (crc : Bytes → UInt32) (mk : Line → Bytes) (dec : List Meta) (upper lower : Nat) (fs : List (List Inserted)) (ser : Feature → Bytes)

open Classical in
/-- After the inserter: the table is an index; the packs of each index tile hold the features that go there. -/
theorem ins_packs
    (hfs : ∀ x ∈ fs.flatten, x.InMap ∧ serializeFeature (fun _ => []) [] true x.feature = .ok (ser x.feature) ∧
      32 ≤ (ser x.feature).length ∧ (ser x.feature).length < 2 ^ 32) (hmany : fs.flatten.length < 2 ^ 32)
    (s : InsShared × List InsPc) (h : InsRun crc cacheTiles upper lower (fun _ => none) ⟨[], 0⟩ (fs.map (List.map (Inserted.call ser))) s)
    (hpf : s.1.pf.size < 2 ^ 64) (hfin : .finished ∈ s.2) (features : List (UInt64 × Bytes)) (hdb : EntriesOf s.1.db features) :
    ∃ es, Index s.1.pf es ∧ features = stored es ∧
      (∀ t packs, PacksOf s.1.pf es t packs → t.Valid ∧ t.z = 10 ∧
        ∃ fss, List.Forall₂ (InputPack crc mk dec) packs fss ∧ fss.flatten.Perm ((fs.flatten.filter (fun x => decide (x.At t))).map (·.feature))) ∧
      (∀ t x, t.Valid → t.z = 10 → x ∈ fs.flatten → x.At t → recordsOf es t ≠ []) ∧
      ∀ e ∈ es, (keyToTile e.1).Valid ∧ (keyToTile e.1).z = 10 ∧ keyOfTile (keyToTile e.1) = .ok e.1 := by
  let R : Bytes → List Bytes → Prop := fun p ss => packFeaturesPlain crc ss = .ok p
  obtain ⟨h1, h2⟩ := ins_inserted crc (R := R) (fun ss p h _ _ => h) upper lower (fun _ => none) ⟨[], 0⟩ (by simp [PackFile.WF]) (fun _ => [])
    (fun t _ _ k _ => rfl) fs ser (fun f hf => by
      obtain ⟨a, b, c, d⟩ := hfs f hf
      exact ⟨a, b, c, by omega⟩) hmany s h hpf hfin
  obtain ⟨es, hx, hst⟩ := laidOut_index (ins_laid h (laidOut_empty _ (by simp [PackFile.WF]))).1 hpf hdb.sorted hdb.same
  -- the index tile of an entry
  have hkey : ∀ e ∈ es, (keyToTile e.1).Valid ∧ (keyToTile e.1).z = 10 ∧ keyOfTile (keyToTile e.1) = .ok e.1 := by
    intro e he
    by_contra hc
    have he' : (e.1, packRecordsSerialize e.2) ∈ features := by rw [hst]; exact List.mem_map.2 ⟨e, he, rfl⟩
    have he'' := (hdb.same _ _).1 he'
    rw [h2 e.1] at he''
    · cases he''
    · intro t hv hz hk
      have := keyToTile_keyOfTile (keyFits_of_valid hv (by omega)) hk
      rw [this] at hc
      exact hc ⟨hv, hz, hk⟩
  -- the content of an entry
  have hcon : ∀ e ∈ es, ∃ packs, List.Forall₂ (fun r l => ∃ p, s.1.pf.get r = .ok p ∧ R p l) e.2 packs ∧
      packs.flatten.Perm ((fs.flatten.filter (fun x => decide (x.At (keyToTile e.1)))).map (fun x => ser x.feature)) := by
    intro e he
    obtain ⟨a, b, c⟩ := hkey e he
    obtain ⟨new, h3, h4⟩ := h1 _ a b _ c
    have he' : (e.1, packRecordsSerialize e.2) ∈ features := by rw [hst]; exact List.mem_map.2 ⟨e, he, rfl⟩
    rw [(hdb.same _ _).1 he', List.nil_append] at h3
    obtain ⟨recs, h5, h6⟩ := h3
    rw [C05_records_round_trip _ (index_fits hx e he).2] at h5
    injection h5 with h5
    subst h5
    exact ⟨new, h6, h4⟩
  refine ⟨es, hx, hst, ?_, ?_, hkey⟩
  · rintro t packs ⟨rs, p1, p2, p3, p4⟩
    obtain ⟨e, he, hr⟩ : ∃ e ∈ es, keyToTile e.1 = t := by
      by_contra hc
      have : recordsOf es t = [] := by
        rw [recordsOf, List.filter_eq_nil_iff.2, List.flatMap_nil]
        intro e he hk
        exact hc ⟨e, he, by simpa using hk⟩
      rw [this] at p1
      exact p2 (List.Perm.eq_nil p1)
    obtain ⟨a, b, c⟩ := hkey e he
    rw [hr] at a b c
    refine ⟨a, b, ?_⟩
    have hrec : recordsOf es t = e.2 := recordsOf_one hx.sorted hr he (by
      intro e' he' hk'
      obtain ⟨_, _, c'⟩ := hkey e' he'
      rw [hk', c] at c'
      injection c' with c'
      exact c'.symm)
    obtain ⟨new, h3, h4⟩ := hcon e he
    rw [hr] at h4
    rw [hrec] at p1
    -- the same packs in another order
    obtain ⟨new', h5, h6⟩ := List.perm_comp_forall₂ p1 h3
    have h7 : List.Forall₂ R packs new' := by
      clear p1 p2 p3 h6
      induction p4 generalizing new' with
      | nil => cases h5; exact .nil
      | cons q1 _ ih =>
        cases h5 with
        | cons q2 q3 =>
          obtain ⟨p, q4, q5⟩ := q2
          rw [q1] at q4; injection q4 with q4; subst q4
          exact .cons q5 (ih _ q3)
    have h8 : new'.flatten.Perm (((fs.flatten.filter (fun x => decide (x.At t))).map (·.feature)).map ser) := by rw [List.map_map]; exact h6.flatten.trans h4
    obtain ⟨m', h9, h10⟩ := List.perm_comp_forall₂ (r := fun s f => s = ser f) h8
      (List.forall₂_map_left_iff.2 (List.forall₂_same.2 (fun f _ => rfl)))
    obtain ⟨fss, h11, h12⟩ := forall₂_split_flatten _ _ h9
    refine ⟨fss, ?_, h11 ▸ h10⟩
    have hmem : ∀ l ∈ fss, ∀ f ∈ l, ∃ x ∈ fs.flatten, x.feature = f := by
      intro l hl f hf
      obtain ⟨x, hx, e⟩ := List.mem_map.1 (h10.mem_iff.1 (h11 ▸ List.mem_flatten.2 ⟨l, hl, hf⟩))
      exact ⟨x, (List.mem_filter.1 hx).1, e⟩
    clear h5 h6 h8 h9 h11 h10 p4
    induction h7 generalizing fss with
    | nil => cases h12; exact .nil
    | cons q1 _ ih =>
      cases h12 with
      | cons q2 q3 =>
        refine .cons ⟨_, serializeAll_fast q2 (fun f hf => by obtain ⟨x, hx, rfl⟩ := hmem _ (by simp) f hf; exact (hfs x hx).2.1), ?_, q1⟩ (ih _ q3 (fun l hl => hmem l (by simp [hl])))
        intro b hb
        obtain ⟨f, hf, e⟩ := forall₂_mem_left q2 b hb
        obtain ⟨x, hx, rfl⟩ := hmem _ (by simp) f hf
        rw [e]; exact (hfs x hx).2.2.2
  · intro t f hv hz hf hbox
    obtain ⟨k, hk, _⟩ := keyOfTile_ok (keyFits_of_valid hv (by omega))
    have hkt := keyToTile_keyOfTile (keyFits_of_valid hv (by omega)) hk
    obtain ⟨v, hdbk⟩ : ∃ v, s.1.db k = some v := by
      obtain ⟨new, h3, h4⟩ := h1 t hv hz k hk
      cases hc : s.1.db k with
      | some v => exact ⟨v, rfl⟩
      | none =>
        rw [hc] at h3
        have h3 : [] ++ new = [] := h3
        rw [List.nil_append] at h3
        subst h3
        have : ser f.feature ∈ ([] : List (List Bytes)).flatten := h4.mem_iff.2 (List.mem_map.2 ⟨f, List.mem_filter.2 ⟨hf, by simpa using hbox⟩, rfl⟩)
        cases this
    have he := (hdb.same k v).2 hdbk
    rw [hst] at he
    obtain ⟨e, he, hke⟩ := List.mem_map.1 he
    injection hke with hke _
    intro hc
    have : e.2 = [] := by
      refine List.eq_nil_iff_forall_not_mem.2 (fun r hr => ?_)
      have : r ∈ recordsOf es t := by
        rw [recordsOf]
        exact List.mem_flatMap.2 ⟨e, List.mem_filter.2 ⟨he, by rw [decide_eq_true_eq, hke, hkt]⟩, hr⟩
      rw [hc] at this; cases this
    exact hx.some e he this

end

/-- At every crash point of the inserter the records of the committed table (if this was so at the start: those of the empty table) lie inside of the
pack file, are not empty, and no two of them share a byte. -/
theorem C18_no_overlap (crc : Bytes → UInt32) (upper lower : Nat) (db : UInt64 → Option Bytes) (pf : PackFile) (calls : List (List InsCall))
    (s : InsShared × List InsPc) (h : InsRun crc cacheTiles upper lower db pf calls s) (hl : LaidOut pf db) : LaidOut s.1.pf s.1.db :=
  (ins_laid h hl).1

example : LaidOut ⟨[], 0⟩ (fun _ => none) := laidOut_empty _ (by simp [PackFile.WF])

/-- reading the packs of the inserter gives the very features -/
theorem readPacks_exact (crc : Bytes → UInt32) (mk : Line → Bytes) (rd : Bytes → Nat → List Bool) (dec : List Meta) (hd : dec.length ≤ 2 ^ 64)
    {packs : List Bytes} {fss : List (List Feature)} (h : List.Forall₂ (InputPack crc mk dec) packs fss) (hf : ∀ fs ∈ fss, ∀ f ∈ fs, Storable f) :
    readPacks rd dec packs = .ok fss.flatten := by
  have hread : ∀ (fs : List Feature) (ss : List Bytes), (∀ f ∈ fs, Storable f) → serializeAll (serializeFeature mk dec true) fs = .ok ss →
      (∀ s ∈ ss, s.length < 2 ^ 32) → readFeatures rd dec ss = .ok fs := by
    intro fs
    induction fs with
    | nil => intro ss _ h _; injection h with h; subst h; rfl
    | cons f fs ih =>
      intro ss hf h hl
      rw [serializeAll, Res.bind_eq_ok] at h
      obtain ⟨s, h1, h⟩ := h
      rw [Res.bind_eq_ok] at h
      obtain ⟨ss', h2, h⟩ := h
      injection h with h
      subst h
      have hf0 := hf f (by simp)
      obtain ⟨ms, _, e1, e2⟩ := C22_same mk rd dec true f s hf0.toFeatureOk hd hf0.rings h1 (hl s (by simp))
      rw [e1 rfl] at e2
      rw [readFeatures, e2, Res.ok_bind]
      dsimp only
      rw [ih ss' (fun g hg => hf g (by simp [hg])) h2 (fun t ht => hl t (by simp [ht]))]
      rfl
  induction h with
  | nil => rfl
  | cons h0 _ ih =>
    rename_i p fs packs fss _
    obtain ⟨ss, h1, h2, h3⟩ := h0
    have hmin : ∀ s ∈ ss, 32 ≤ s.length := by
      intro s hs
      by_contra hc
      rw [C11_mini_feature_refused crc ss ⟨s, hs, by omega⟩] at h3
      simp at h3
    have hn : ss.length < 2 ^ 32 := by
      by_contra hc
      rw [C11_too_many_refused crc ss (by omega)] at h3
      simp at h3
    obtain ⟨p', k1, n, k2⟩ := C11_pack_round_trip crc ss (fun s hs => ⟨hmin s hs, by have := h2 s hs; omega⟩) hn
    rw [h3] at k1
    injection k1 with k1
    subst k1
    rw [readPacks, k2, Res.ok_bind]
    dsimp only
    rw [hread fs ss (hf fs (by simp)) h1 h2, Res.ok_bind, ih (fun fs hfs => hf fs (by simp [hfs]))]
    rfl

/-- a box with a point in the tile touches the tile -/
theorem touches_of_meets {f : Feature} {t : Tile} (h : boxMeets f t) : touches (boundingBox f.geometry) t := by
  obtain ⟨px, py, ⟨b1, b2, b3, b4⟩, ⟨p1, p2, p3, p4⟩⟩ := h
  have e : ∀ a : Nat, ((a : Int) * (side t.z : Nat)) = ((a * side t.z : Nat) : Int) := by intro a; push_cast; ring
  have e' : ∀ a : Nat, (((a : Int) + 1) * (side t.z : Nat)) = (((a + 1) * side t.z : Nat) : Int) := by intro a; push_cast; ring
  refine ⟨?_, ?_, ?_, ?_⟩ <;> simp only [e, e'] <;> omega

/-- a feature that can be packed: both of its stored forms (`ser`: as inserted; the other one: as indexed) have 32 bytes or more -/
structure Spec.Packable (mk : Line → Bytes) (dec : List Meta) (ser : Feature → Bytes) (f : Feature) : Prop extends Storable f where
  visible : f.zmin ≤ 20
  plain : serializeFeature (fun _ => []) [] true f = .ok (ser f) ∧ 32 ≤ (ser f).length ∧ (ser f).length < 2 ^ 32
  indexed : ∃ b, serializeFeature mk dec false f = .ok b ∧ 32 ≤ b.length ∧ b.length < 2 ^ 32

/-- ... that the import accepts: it is in the map; if it is inserted for one index tile only, then its box touches this tile -/
structure Spec.Importable (mk : Line → Bytes) (dec : List Meta) (ser : Feature → Bytes) (x : Inserted) : Prop extends Packable mk dec ser x.feature where
  inMap : x.InMap
  near : ∀ t, x.tile = some t → touches (boundingBox x.feature.geometry) t

theorem importable_touches {mk : Line → Bytes} {dec : List Meta} {ser : Feature → Bytes} {x : Inserted} (h : Importable mk dec ser x) {t : Tile} (ht : x.At t) :
    touches (boundingBox x.feature.geometry) t := by
  obtain ⟨f, o⟩ := x
  cases o with
  | none => exact touches_of_meets ht
  | some u => have ht : u = t := ht; exact h.near t (by rw [← ht])

theorem importable_whole {mk : Line → Bytes} {dec : List Meta} {ser : Feature → Bytes} {f : Feature} (h : Packable mk dec ser f) (hr : (boundingBox f.geometry).InRange) :
    Importable mk dec ser (whole f) := ⟨h, hr, by intro t h; cases h⟩

/-- it goes to an index tile that shares area with the tile -/
def Spec.Inserted.Indexed (x : Inserted) (q : Tile) : Prop := ∃ t : Tile, t.Valid ∧ t.z = 10 ∧ Meet t q ∧ x.At t

/-- if it is for one index tile only, this one shares area with the tile -/
def Spec.Inserted.Reaches (x : Inserted) (q : Tile) : Prop := ∀ t, x.tile = some t → Meet t q

theorem whole_reaches (f : Feature) (q : Tile) : (whole f).Reaches q := by intro t h; cases h

theorem reaches_indexed {x : Inserted} (hm : x.InMap) (hf : FeatureOk x.feature) {q : Tile} (hv : q.Valid) (hz : q.z ≤ 20) (hmin : x.feature.zmin ≤ q.z)
    (hmax : q.z ≤ x.feature.zmax) (hbox : boxMeets x.feature q) (hr : x.Reaches q) : x.Indexed q := by
  obtain ⟨f, o⟩ := x
  cases o with
  | none => exact (C49_own_area f hf q hv hz hmin hmax hbox).2
  | some t => exact ⟨t, hm.1, hm.2, hr t rfl, rfl⟩

open Classical in
/-- the inserted features that go to an index tile -/
noncomputable def Spec.goesTo (fs : List (List Inserted)) (t : Tile) : List Feature := (fs.flatten.filter (fun x => decide (x.At t))).map (·.feature)

theorem mem_goesTo {fs : List (List Inserted)} {t : Tile} {f : Feature} (h : f ∈ goesTo fs t) : ∃ x ∈ fs.flatten, x.At t ∧ f = x.feature := by
  classical
  obtain ⟨x, hx, rfl⟩ := List.mem_map.1 h
  obtain ⟨a, b⟩ := List.mem_filter.1 hx
  exact ⟨x, a, of_decide_eq_true b, rfl⟩

/-- the feature as it is read for a zoom level: simplified by the masks, its metadata perhaps in another order -/
def Spec.StoredAs (simp : Line → List Bool) (f g : Feature) : Prop :=
  ∃ ms, ms.Perm f.metas ∧ g = { f with metas := ms, geometry := withoutSmallRings (simplified simp f.geometry) }

section
variable (crc : Bytes → UInt32) (srt : List QFeature → List QFeature) (mk : Line → Bytes) (rd : Bytes → Nat → List Bool) (dec : List Meta)
  (upper lower : Nat) (fs : List (List Inserted)) (ser : Feature → Bytes)

/-- the smallest tile below the root whose closed square alone meets the box of the feature (C14) shares area with the query -/
def Spec.FoundIn (root q : Tile) (f : Feature) : Prop := ∃ b, findBestTile root f = .ok b ∧ Meet b q

theorem found_in {t : Tile} (hv : t.Valid) (hz : t.z = 10) {f : Feature} (hok : FeatureOk f) (hpts : envelopePoints f.geometry ≠ []) (ht : touches (boundingBox f.geometry) t) {q : Tile}
    (hq : q.z ≤ 20) (hm : Meet t q) (htq : touches (boundingBox f.geometry) q) : FoundIn t q f := by
  obtain ⟨b, hb⟩ : ∃ b, findBestTile t f = .ok b := by
    obtain ⟨p, hp⟩ := List.exists_mem_of_ne_nil _ hpts
    have hb := (boundingBox_spec hok.coords hpts).1 p hp
    exact findBestLoop_total (by omega) (by omega) _ t hv (by simp only [kMaxZoomLevel]; omega) ((touches_iff _ _).1 ht)
  obtain ⟨_, _, _, d⟩ := findBestLoop_spec _ _ t b hv (by simp only [kMaxZoomLevel]; omega) hb
  exact ⟨b, hb, d q hq hm ((touches_iff _ _).1 htq)⟩

/-- what a lookup in the indexed pack of a tile reads -/
theorem indexed_found (hsrt : SortsByKey srt) (hd : dec.length ≤ 2 ^ 64) (hm : ∀ l z, (rd (mk l) z).length = l.length)
    {t : Tile} (hv : t.Valid) (hz : t.z = 10) {l : List Feature} (hl : ∀ f ∈ l, Packable mk dec ser f ∧ touches (boundingBox f.geometry) t)
    {packs : List Bytes} {fss : List (List Feature)} (hp : List.Forall₂ (InputPack crc mk dec) packs fss) (hperm : fss.flatten.Perm l) :
    ∃ pack, packIndexed crc srt mk rd dec t packs = .ok pack ∧ (pack.length ≤ 2 ^ 30 → ∀ q : Tile, q.Valid → q.z ≤ 20 → Meet t q →
      ∃ ss, unpackTile t pack q = .ok ss ∧ ∀ ctx : GetCtx, ctx.rd = rd → ctx.dec = dec →
        ∃ gs, readKept ctx (drawBounds q) q.z ss = .ok gs ∧
          (∀ g ∈ gs, ∃ f ∈ l, Shows q f ∧ FoundIn t q f ∧ StoredAs (fun l => rd (mk l) q.z) f g) ∧
          (∀ f ∈ l, Shows q f → FoundIn t q f → withoutSmallRings (simplified (fun l => rd (mk l) q.z) f.geometry) ≠ .null →
            ∃ g ∈ gs, StoredAs (fun l => rd (mk l) q.z) f g)) := by
  have hmem : ∀ f ∈ fss.flatten, Packable mk dec ser f ∧ touches (boundingBox f.geometry) t := fun f hf => hl f (hperm.mem_iff.1 hf)
  have hread := readPacks_exact crc mk rd dec hd hp (fun l hl f hf => (hmem f (List.mem_flatten.2 ⟨l, hl, hf⟩)).1.toStorable)
  obtain ⟨pack, h1⟩ := C14_accepts crc srt hsrt (serializeFeature mk dec false) t hv (by omega) fss.flatten
    (fun f hf => ⟨(hmem f hf).1.coords, (hmem f hf).1.points⟩) (fun f hf => (hmem f hf).2) (fun f hf => (hmem f hf).1.visible)
    (fun f hf => by obtain ⟨b, h1, h2, _⟩ := (hmem f hf).1.indexed; exact ⟨b, h1, h2⟩)
  have hpk : packIndexed crc srt mk rd dec t packs = .ok pack := by rw [packIndexed, hread, Res.ok_bind, h1]
  refine ⟨pack, hpk, fun hlen q hvq hzq hmeet => ?_⟩
  obtain ⟨best, hbest, hits, ss, h2, h3, h4⟩ := C14_exact crc srt hsrt _ t hv (by omega) _ pack h1 hlen q hzq
  refine ⟨ss, h4, ?_⟩
  rintro ctx rfl rfl
  have hhit : ∀ f ∈ hits, f ∈ l := fun f hf => hperm.mem_iff.1 (List.mem_filter.1 (h2.mem_iff.1 hf)).1
  -- one feature
  have hone : ∀ f ∈ hits, ∀ b, serializeFeature mk ctx.dec false f = .ok b →
      (∃ o, deserializeFeature ctx.rd ctx.dec b (drawBounds q) q.z = .ok o) ∧
      (∀ g, readFor ctx q b = some g → Shows q f ∧ StoredAs (fun l => ctx.rd (mk l) q.z) f g) ∧
      (Shows q f → withoutSmallRings (simplified (fun l => ctx.rd (mk l) q.z) f.geometry) ≠ .null →
        ∃ g, readFor ctx q b = some g ∧ StoredAs (fun l => ctx.rd (mk l) q.z) f g) := by
    intro f hf b hb
    obtain ⟨hi, _⟩ := hl f (hhit f hf)
    obtain ⟨b', e1, _, e2⟩ := hi.indexed
    rw [hb] at e1; injection e1 with e1; subst e1
    obtain ⟨hy, hn⟩ := C23_filter_exact_masked mk ctx.rd ctx.dec f b (drawBounds q) q.z (drawBounds_hint hvq hzq) (fun l _ => hm l q.z) hi.toFeatureOk hd hb e2
    by_cases hs : f.zmin ≤ q.z ∧ q.z ≤ f.zmax ∧ meetsBox (drawBounds q) (envelopePoints f.geometry) ∧
        withoutSmallRings (simplified (fun l => ctx.rd (mk l) q.z) f.geometry) ≠ .null
    · obtain ⟨ms, m1, m2⟩ := hy hs
      refine ⟨⟨_, m2⟩, ?_, ?_⟩
      · intro g hg
        rw [readFor, m2] at hg
        injection hg with hg
        exact ⟨⟨hs.1, hs.2.1, hs.2.2.1⟩, ms, m1, hg.symm⟩
      · intro _ _
        exact ⟨_, by rw [readFor, m2], ms, m1, rfl⟩
    · have m2 := hn hs
      refine ⟨⟨_, m2⟩, ?_, ?_⟩
      · intro g hg; rw [readFor, m2] at hg; cases hg
      · intro a b; exact absurd ⟨a.1, a.2.1, a.2.2, b⟩ hs
  have hrel : List.Forall₂ (fun f b => serializeFeature mk ctx.dec false f = .ok b) hits ss := by
    clear hone hhit h2 h4
    induction hits generalizing ss with
    | nil => injection h3 with h3; subst h3; exact .nil
    | cons f hits ih =>
      rw [serializeAll, Res.bind_eq_ok] at h3
      obtain ⟨b, e1, h3⟩ := h3
      rw [Res.bind_eq_ok] at h3
      obtain ⟨ss', e2, h3⟩ := h3
      injection h3 with h3
      subst h3
      exact .cons e1 (ih ss' e2)
  refine ⟨_, readKept_ok ctx q ss ?_, ?_, ?_⟩
  · intro b hb
    obtain ⟨f, hf, e⟩ := forall₂_mem_left hrel.flip b hb
    exact (hone f hf b e).1
  · intro g hg
    obtain ⟨b, hb, hg⟩ := List.mem_filterMap.1 hg
    obtain ⟨f, hf, e⟩ := forall₂_mem_left hrel.flip b hb
    have hfm := List.mem_filter.1 (h2.mem_iff.1 hf)
    have hmb : Meet (best f) q := by have := hfm.2; simp at this; exact this.2
    exact ⟨f, hhit f hf, ((hone f hf b e).2.1 g hg).1, ⟨best f, hbest f hfm.1, hmb⟩, ((hone f hf b e).2.1 g hg).2⟩
  · intro f hf hs ht hn
    have hin : f ∈ hits := by
      obtain ⟨u, hu1, hu2⟩ := ht
      have hfl := hperm.mem_iff.2 hf
      rw [hbest f hfl] at hu1
      injection hu1 with hu1
      have h1 := hs.1
      refine h2.mem_iff.2 (List.mem_filter.2 ⟨hfl, ?_⟩)
      rw [hu1]
      simp only [Bool.and_eq_true, decide_eq_true_eq]
      exact ⟨by omega, hu2⟩
    obtain ⟨b, hb, e⟩ := forall₂_mem_left hrel f hin
    obtain ⟨g, hg, hst⟩ := (hone f hin b e).2.2 hs hn
    exact ⟨g, List.mem_filterMap.2 ⟨b, hb, hg⟩, hst⟩

theorem indexed_read (hsrt : SortsByKey srt) (hd : dec.length ≤ 2 ^ 64) (hm : ∀ l z, (rd (mk l) z).length = l.length)
    {t : Tile} (hv : t.Valid) (hz : t.z = 10) {l : List Feature} (hl : ∀ f ∈ l, Packable mk dec ser f ∧ touches (boundingBox f.geometry) t)
    {packs : List Bytes} {fss : List (List Feature)} (hp : List.Forall₂ (InputPack crc mk dec) packs fss) (hperm : fss.flatten.Perm l) :
    ∃ pack, packIndexed crc srt mk rd dec t packs = .ok pack ∧ (pack.length ≤ 2 ^ 30 → ∀ q : Tile, q.Valid → q.z ≤ 20 → Meet t q →
      ∃ ss, unpackTile t pack q = .ok ss ∧ ∀ ctx : GetCtx, ctx.rd = rd → ctx.dec = dec →
        ∃ gs, readKept ctx (drawBounds q) q.z ss = .ok gs ∧
          (∀ g ∈ gs, ∃ f ∈ l, Shows q f ∧ StoredAs (fun l => rd (mk l) q.z) f g) ∧
          (∀ f ∈ l, Shows q f → touches (boundingBox f.geometry) q → withoutSmallRings (simplified (fun l => rd (mk l) q.z) f.geometry) ≠ .null →
            ∃ g ∈ gs, StoredAs (fun l => rd (mk l) q.z) f g)) := by
  obtain ⟨pack, h1, h2⟩ := indexed_found crc srt mk rd dec ser hsrt hd hm hv hz hl hp hperm
  refine ⟨pack, h1, fun hlen q hvq hzq hmeet => ?_⟩
  obtain ⟨ss, h3, h4⟩ := h2 hlen q hvq hzq hmeet
  refine ⟨ss, h3, fun ctx c1 c2 => ?_⟩
  obtain ⟨gs, h5, h6, h7⟩ := h4 ctx c1 c2
  refine ⟨gs, h5, fun g hg => ?_, fun f hf hs ht => h7 f hf hs (found_in hv hz (hl f hf).1.toFeatureOk (hl f hf).1.points (hl f hf).2 hzq hmeet ht)⟩
  obtain ⟨f, k1, k2, _, k3⟩ := h6 g hg
  exact ⟨f, k1, k2, k3⟩

/-- what can be read from one pack file can be read from the other (it may be the same file, or the file after it was closed and opened again) -/
def Spec.Keeps (a b : PackFile) : Prop := b.WF ∧ ∀ r x, a.get r = .ok x → b.get r = .ok x

theorem keeps_refl {a : PackFile} (h : a.WF) : Keeps a a := ⟨h, fun _ _ h => h⟩

theorem index_get {pf : PackFile} {es : List (UInt64 × List PackRecord)} (hx : Index pf es) {r : PackRecord} (hr : r ∈ es.flatMap (·.2)) :
    ∃ b, pf.get r = .ok b := by
  obtain ⟨h1, h2⟩ := hx.layout.inside r hr
  exact ⟨_, (PackFile.get_eq_ok_iff ..).2 ⟨by unfold PackRecord.endOffset at h2; omega, h2, rfl⟩⟩

theorem index_keeps {a b : PackFile} {es : List (UInt64 × List PackRecord)} (hx : Index a es) (hk : Keeps a b) (hs : b.size < 2 ^ 64) : Index b es :=
  ⟨hx.sorted, hx.some, ⟨hk.1, fun r hr => by
    obtain ⟨x, h⟩ := index_get hx hr
    exact ⟨(hx.layout.inside r hr).1, ((PackFile.get_eq_ok_iff ..).1 (hk.2 _ _ h)).2.1⟩, hx.layout.apart⟩, hs⟩

theorem packsOf_keeps {a b : PackFile} {es : List (UInt64 × List PackRecord)} (hx : Index a es) (hk : Keeps a b) {t : Tile} {packs : List Bytes}
    (h : PacksOf b es t packs) : PacksOf a es t packs := by
  obtain ⟨rs, h1, h2, h3, h4⟩ := h
  refine ⟨rs, h1, h2, h3, ?_⟩
  have hm : ∀ r ∈ rs, r ∈ es.flatMap (·.2) := by
    intro r hr
    have := h1.mem_iff.1 hr
    rw [recordsOf, List.mem_flatMap] at this
    obtain ⟨e, he, hre⟩ := this
    exact List.mem_flatMap.2 ⟨e, (List.mem_filter.1 he).1, hre⟩
  clear h1 h2 h3
  induction h4 with
  | nil => exact .nil
  | cons g _ ih =>
    refine .cons ?_ (ih fun r' hr' => hm r' (List.mem_cons_of_mem _ hr'))
    obtain ⟨x, hx'⟩ := index_get hx (hm _ List.mem_cons_self)
    rw [hk.2 _ _ hx'] at g
    injection g with g
    rw [hx', g]

/-- `features` and `pf` are what the import steps `features` (any number of threads, any schedule of the inserter) and `pack` (any schedule of the
workers) leave, when both ended, starting from an empty database; `fs` is what each thread inserted. -/
inductive Spec.Imported (fs : List (List Inserted)) : List (UInt64 × Bytes) → PackFile → Prop
  | mk
    -- the inserter, and the table it leaves
    (s : InsShared × List InsPc) (h : InsRun crc cacheTiles upper lower (fun _ => none) ⟨[], 0⟩ (fs.map (List.map (Inserted.call ser))) s)
    (hpf : s.1.pf.size < 2 ^ 64) (hfin : .finished ∈ s.2) (entries : List (UInt64 × Bytes)) (hdb : EntriesOf s.1.db entries)
    -- the packing; `fn` is the function that packs the features of one tile
    (fn : Tile → List Bytes → Bytes) (hfn : ∀ t packs b, packIndexed crc srt mk rd dec t packs = .ok b → fn t packs = b) (hne : ∀ t packs, fn t packs ≠ [])
    (mem batch : Nat) (pf1 : PackFile) (hk1 : Keeps s.1.pf pf1) (hpf1 : pf1.size < 2 ^ 64)
    (s' : PackDb) (h' : PackReach fn mem batch entries (packDbInit entries pf1) s')
    (r0 : Repack) (hrun : s'.run = some r0) (hdone : r0.pc = .done) (features : List (UInt64 × Bytes)) (hdb' : EntriesOf s'.db features)
    -- the pack file that is read later
    (pf2 : PackFile) (hk2 : Keeps s'.file pf2) (hpf2 : pf2.size < 2 ^ 64)
    -- no pack is larger than 1 GiB
    (hsmall : ∀ k v rs, s'.db k = some v → packRecordsDeserialize v = .ok rs → ∀ r ∈ rs, r.size ≤ 2 ^ 30) : Imported fs features pf2

/-- it is found when the tile is drawn: in an index tile that it was inserted for and that shares area with the tile -/
def Spec.Inserted.Found (x : Inserted) (q : Tile) : Prop := ∃ t : Tile, t.Valid ∧ t.z = 10 ∧ Meet t q ∧ x.At t ∧ FoundIn t q x.feature

theorem found_indexed {x : Inserted} {q : Tile} (h : x.Found q) : x.Indexed q := by
  obtain ⟨t, h1, h2, h3, h4, _⟩ := h
  exact ⟨t, h1, h2, h3, h4⟩

theorem shows_found {mk : Line → Bytes} {dec : List Meta} {ser : Feature → Bytes} {x : Inserted} (h : Importable mk dec ser x) {q : Tile} (hv : q.Valid) (hz : q.z ≤ 20)
    (hmin : x.feature.zmin ≤ q.z) (hmax : q.z ≤ x.feature.zmax) (hbox : boxMeets x.feature q) (hr : x.Reaches q) : Shows q x.feature ∧ x.Found q := by
  obtain ⟨hs, _⟩ := C49_own_area x.feature h.toFeatureOk q hv hz hmin hmax hbox
  obtain ⟨t, hvt, hzt, hmt, hbt⟩ := reaches_indexed h.inMap h.toFeatureOk hv hz hmin hmax hbox hr
  exact ⟨hs, t, hvt, hzt, hmt, hbt, found_in hvt hzt h.toFeatureOk h.points (importable_touches h hbt) hz hmt (touches_of_meets hbox)⟩

/-- `C52_read`, exactly -/
theorem read_found (hsrt : SortsByKey srt) (hd : dec.length ≤ 2 ^ 64) (hm : ∀ l z, (rd (mk l) z).length = l.length)
    (hfs : ∀ f ∈ fs.flatten, Importable mk dec ser f) (hmany : fs.flatten.length < 2 ^ 32)
    (features : List (UInt64 × Bytes)) (pf : PackFile) (hi : Imported crc srt mk rd dec upper lower ser fs features pf)
    (ctx : GetCtx) (hrd : ctx.rd = rd) (hdec : ctx.dec = dec) (q : Tile) (hv : q.Valid) (hz : q.z ≤ 20) :
    ∃ ps gs, packsOf features pf q = .ok ps ∧ readPacked ctx (specOf q) ps = .ok gs ∧
      (∀ g ∈ gs, ∃ x ∈ fs.flatten, Shows q x.feature ∧ x.Found q ∧ StoredAs (fun l => rd (mk l) q.z) x.feature g) ∧
      (∀ x ∈ fs.flatten, Shows q x.feature → x.Found q →
        withoutSmallRings (simplified (fun l => rd (mk l) q.z) x.feature.geometry) ≠ .null → ∃ g ∈ gs, StoredAs (fun l => rd (mk l) q.z) x.feature g) := by
  cases hi with
  | mk s h hpf hfin entries hdb fn hfn hne mem batch pf1 hk1 hpf1 s' h' r0 hrun hdone _ hdb' _ hk2 hpf2 hsmall =>
  classical
  obtain ⟨es, hx, rfl, hpk, hrec, _⟩ := ins_packs crc mk dec upper lower fs ser (fun f hf => by
    obtain ⟨a, b, c⟩ := (hfs f hf).plain
    exact ⟨(hfs f hf).inMap, a, b, c⟩) hmany s h hpf hfin entries hdb
  replace hpk := fun t packs (h : PacksOf pf1 es t packs) => hpk t packs (packsOf_keeps hx hk1 h)
  replace hx := index_keeps hx hk1 hpf1
  obtain ⟨hd1, hd2, hd3⟩ := C44_done_partial hx hne h' hrun hdone
  let l : Tile → List Feature := fun t => (fs.flatten.filter (fun x => decide (x.At t))).map (·.feature)
  have hl : ∀ t, ∀ f ∈ l t, Packable mk dec ser f ∧ touches (boundingBox f.geometry) t := by
    intro t f hf
    obtain ⟨x, hx, rfl⟩ := List.mem_map.1 hf
    obtain ⟨a, b⟩ := List.mem_filter.1 hx
    exact ⟨(hfs x a).toPackable, importable_touches (hfs x a) (by simpa using b)⟩
  -- the tile of an entry
  have htile : ∀ e ∈ features, (keyToTile e.1).Valid ∧ (keyToTile e.1).z = 10 ∧ ∃ r pack, e.2 = packRecordsSerialize [r] ∧
      packRecordsDeserialize e.2 = .ok [r] ∧ pf.get r = .ok pack ∧ (Meet (keyToTile e.1) q →
        ∃ ss, unpackTile (keyToTile e.1) pack q = .ok ss ∧ ∃ gs, readKept ctx (drawBounds q) q.z ss = .ok gs ∧
          (∀ g ∈ gs, ∃ f ∈ l (keyToTile e.1), Shows q f ∧ FoundIn (keyToTile e.1) q f ∧ StoredAs (fun l => rd (mk l) q.z) f g) ∧
          (∀ f ∈ l (keyToTile e.1), Shows q f → FoundIn (keyToTile e.1) q f →
            withoutSmallRings (simplified (fun l => rd (mk l) q.z) f.geometry) ≠ .null → ∃ g ∈ gs, StoredAs (fun l => rd (mk l) q.z) f g)) := by
    intro e he
    have hedb := (hdb'.same e.1 e.2).1 he
    obtain ⟨k1, k2⟩ := hd2 _ _ hedb
    obtain ⟨k, r, packs, e1, e2, e3, e4⟩ := hd1 _ k2
    replace e4 := hk2.2 _ _ e4
    rw [k1] at e1; injection e1 with e1; subst e1
    rw [hedb] at e2; injection e2 with e2
    obtain ⟨a, b, fss, c1, c2⟩ := hpk _ _ e3
    have hfit : packRecordsDeserialize e.2 = .ok [r] := by
      rw [e2]
      refine C05_records_round_trip _ (fun r' hr' => ?_)
      rw [List.mem_singleton] at hr'; subst hr'
      have := (PackFile.get_eq_ok_iff ..).1 e4
      unfold PackRecord.endOffset at this
      exact ⟨by omega, by omega⟩
    refine ⟨a, b, r, _, e2, hfit, e4, fun hmt => ?_⟩
    obtain ⟨pack, p1, p2⟩ := indexed_found crc srt mk rd dec ser hsrt hd hm a b (hl _) c1 c2
    rw [hfn _ _ _ p1] at e4 ⊢
    have hlen : pack.length ≤ 2 ^ 30 := by
      have hg := (PackFile.get_eq_ok_iff ..).1 e4
      rw [← hg.2.2]
      have := hsmall _ _ _ hedb hfit r (by simp)
      refine le_trans ?_ this
      simp [slice]
    obtain ⟨ss, p3, p4⟩ := p2 hlen q hv hz hmt
    obtain ⟨gs, p5, p6, p7⟩ := p4 ctx hrd hdec
    exact ⟨ss, p3, gs, p5, p6, p7⟩
  let recs : UInt64 × Bytes → List PackRecord := fun e => match packRecordsDeserialize e.2 with | .ok l => l | _ => []
  let data : PackRecord → Bytes := fun r => match pf.get r with | .ok b => b | _ => []
  let ss : Tile × Bytes → List Bytes := fun p => match unpackTile p.1 p.2 q with | .ok l => l | _ => []
  let gs : Tile × Bytes → List Feature := fun p => match readKept ctx (drawBounds q) q.z (ss p) with | .ok l => l | _ => []
  have hent : ∀ e ∈ features, Meet (keyToTile e.1) q → ∃ r, recs e = [r] ∧ packRecordsDeserialize e.2 = .ok [r] ∧ pf.get r = .ok (data r) ∧
      unpackTile (keyToTile e.1) (data r) q = .ok (ss (keyToTile e.1, data r)) ∧
      readKept ctx (drawBounds q) q.z (ss (keyToTile e.1, data r)) = .ok (gs (keyToTile e.1, data r)) ∧
      (∀ g ∈ gs (keyToTile e.1, data r), ∃ f ∈ l (keyToTile e.1), Shows q f ∧ FoundIn (keyToTile e.1) q f ∧ StoredAs (fun l => rd (mk l) q.z) f g) ∧
      (∀ f ∈ l (keyToTile e.1), Shows q f → FoundIn (keyToTile e.1) q f →
        withoutSmallRings (simplified (fun l => rd (mk l) q.z) f.geometry) ≠ .null →
        ∃ g ∈ gs (keyToTile e.1, data r), StoredAs (fun l => rd (mk l) q.z) f g) := by
    intro e he hmt
    obtain ⟨_, _, r, pack, a1, a2, a3, a4⟩ := htile e he
    obtain ⟨ss', b1, gs', b2, b3, b4⟩ := a4 hmt
    have e1 : recs e = [r] := by show (match packRecordsDeserialize e.2 with | .ok l => l | _ => []) = _; rw [a2]
    have e2 : data r = pack := by show (match pf.get r with | .ok l => l | _ => []) = _; rw [a3]
    have e3 : ss (keyToTile e.1, pack) = ss' := by show (match unpackTile (keyToTile e.1) pack q with | .ok l => l | _ => []) = _; rw [b1]
    have e4 : gs (keyToTile e.1, pack) = gs' := by
      show (match readKept ctx (drawBounds q) q.z (ss (keyToTile e.1, pack)) with | .ok l => l | _ => []) = _; rw [e3, b2]
    exact ⟨r, e1, a2, by rw [e2, a3], by rw [e2, e3, b1], by rw [e2, e3, e4, b2], by rw [e2, e4]; exact b3, by rw [e2, e4]; exact b4⟩
  have hps := C29_packs features hdb'.sorted pf q hv hz recs data (fun e he _ hmt => by
    obtain ⟨r, a1, a2, a3, _⟩ := hent e he hmt
    rw [a1]
    exact ⟨a2, fun r' hr' => by rw [List.mem_singleton] at hr'; subst hr'; exact a3⟩)
  -- an element of the list of packs
  have hin : ∀ p, p ∈ (features.filter (fun e => decide ((keyToTile e.1).z = 10 ∧ Meet (keyToTile e.1) q))).flatMap
      (fun e => (recs e).map (fun r => (keyToTile e.1, data r))) ↔
      ∃ e ∈ features, (keyToTile e.1).z = 10 ∧ Meet (keyToTile e.1) q ∧ ∃ r ∈ recs e, p = (keyToTile e.1, data r) := by
    intro p
    simp only [List.mem_flatMap, List.mem_filter, List.mem_map, decide_eq_true_eq]
    constructor
    · rintro ⟨e, ⟨a, b, c⟩, r, d, rfl⟩; exact ⟨e, a, b, c, r, d, rfl⟩
    · rintro ⟨e, a, b, c, r, d, rfl⟩; exact ⟨e, ⟨a, b, c⟩, r, d, rfl⟩
  refine ⟨_, _, hps, readPacked_ok ctx (specOf q) _ ss gs ?_ ?_, ?_, ?_⟩
  · intro p hp
    obtain ⟨e, he, _, hmt, r, hr, rfl⟩ := (hin p).1 hp
    obtain ⟨r', a1, a2, a3, a4, a5⟩ := hent e he hmt
    rw [a1, List.mem_singleton] at hr; subst hr
    exact a4
  · intro p hp
    obtain ⟨e, he, _, hmt, r, hr, rfl⟩ := (hin p).1 hp
    obtain ⟨r', a1, a2, a3, a4, a5, a6⟩ := hent e he hmt
    rw [a1, List.mem_singleton] at hr; subst hr
    exact a5
  · intro g hg
    obtain ⟨p, hp, hg⟩ := List.mem_flatMap.1 hg
    obtain ⟨e, he, h10, hmt, r, hr, rfl⟩ := (hin p).1 hp
    obtain ⟨r', a1, a2, a3, a4, a5, a6, a7⟩ := hent e he hmt
    rw [a1, List.mem_singleton] at hr; subst hr
    obtain ⟨f, hf, b1, bf, b2⟩ := a6 g hg
    obtain ⟨x, hx, rfl⟩ := List.mem_map.1 hf
    obtain ⟨c1, c2⟩ := List.mem_filter.1 hx
    exact ⟨x, c1, b1, ⟨_, (htile e he).1, h10, hmt, by simpa using c2, bf⟩, b2⟩
  · intro f hf hs hfound hsimp
    obtain ⟨t, hvt, hzt, hmt, hbt, hfi⟩ := hfound
    obtain ⟨k, r, packs, e1, e2, e3, e4⟩ := hd1 t (hrec t f hvt hzt hf hbt)
    have he := (hdb'.same _ _).2 e2
    have hkt := keyToTile_keyOfTile (keyFits_of_valid hvt (by omega)) e1
    obtain ⟨r', a1, a2, a3, a4, a5, a6, a7⟩ := hent _ he (by dsimp only; rw [hkt]; exact hmt)
    dsimp only at a7
    obtain ⟨g, hg, hst⟩ := a7 f.feature (List.mem_map.2 ⟨f, List.mem_filter.2 ⟨hf, by rw [hkt]; simpa using hbt⟩, rfl⟩) hs (by rw [hkt]; exact hfi) hsimp
    refine ⟨g, List.mem_flatMap.2 ⟨_, (hin _).2 ⟨_, he, ?_, ?_, r', ?_, rfl⟩, hg⟩, hst⟩
    · dsimp only; rw [hkt]; exact hzt
    · dsimp only; rw [hkt]; exact hmt
    · rw [a1]; simp

/-- After the import, live rendering of any tile reads only inserted features that the tile shows; and it reads every inserted feature that is
visible at the zoom level, has a point of its box in the tile, and is not simplified away. -/
theorem C52_read (hsrt : SortsByKey srt) (hd : dec.length ≤ 2 ^ 64) (hm : ∀ l z, (rd (mk l) z).length = l.length)
    (hfs : ∀ f ∈ fs.flatten, Importable mk dec ser f) (hmany : fs.flatten.length < 2 ^ 32)
    (features : List (UInt64 × Bytes)) (pf : PackFile) (hi : Imported crc srt mk rd dec upper lower ser fs features pf)
    (ctx : GetCtx) (hrd : ctx.rd = rd) (hdec : ctx.dec = dec) (q : Tile) (hv : q.Valid) (hz : q.z ≤ 20) :
    ∃ ps gs, packsOf features pf q = .ok ps ∧ readPacked ctx (specOf q) ps = .ok gs ∧
      (∀ g ∈ gs, ∃ x ∈ fs.flatten, Shows q x.feature ∧ x.Indexed q ∧ StoredAs (fun l => rd (mk l) q.z) x.feature g) ∧
      (∀ x ∈ fs.flatten, x.feature.zmin ≤ q.z → q.z ≤ x.feature.zmax → boxMeets x.feature q → x.Reaches q →
        withoutSmallRings (simplified (fun l => rd (mk l) q.z) x.feature.geometry) ≠ .null → ∃ g ∈ gs, StoredAs (fun l => rd (mk l) q.z) x.feature g) := by
  obtain ⟨ps, gs, h1, h2, h3, h4⟩ := read_found crc srt mk rd dec upper lower fs ser hsrt hd hm hfs hmany features pf hi ctx hrd hdec q hv hz
  refine ⟨ps, gs, h1, h2, fun g hg => ?_, fun x hx n1 n2 n3 n4 => h4 x hx (shows_found (hfs x hx) hv hz n1 n2 n3 n4).1 (shows_found (hfs x hx) hv hz n1 n2 n3 n4).2⟩
  obtain ⟨x, k1, k2, k3, k4⟩ := h3 g hg
  exact ⟨x, k1, k2, found_indexed k3, k4⟩

/-! ### the packing does not fail -/

theorem packIndexedFeatures_ne {ser : Feature → Res Bytes} {root : Tile} {fs : List Feature} {p : Bytes} (h : packIndexedFeatures crc srt ser root fs = .ok p) :
    p ≠ [] := by
  unfold packIndexedFeatures at h
  rw [Res.bind_eq_ok] at h
  obtain ⟨_, _, h⟩ := h
  rw [Res.bind_eq_ok] at h
  obtain ⟨_, _, h⟩ := h
  dsimp only at h
  rw [Res.bind_eq_ok] at h
  obtain ⟨_, _, h⟩ := h
  rw [Res.bind_eq_ok] at h
  obtain ⟨_, _, h⟩ := h
  injection h with h
  rw [← h, finishPack]
  intro hc
  have := congrArg List.length hc
  simp [leBytes] at this

theorem box_has_tile (f : Feature) (h : (boundingBox f.geometry).InRange) : ∃ t : Tile, t.Valid ∧ t.z = 10 ∧ boxMeets f t := by
  obtain ⟨h1, h2, h3, h4, h5, h6⟩ := h
  have hs10 : side 10 = 2 ^ 22 := by decide
  have hmax : (kFixedCoordMax : Int) < 2 ^ 32 := by decide
  refine ⟨⟨(boundingBox f.geometry).min.x.toNat / 2 ^ 22, (boundingBox f.geometry).min.y.toNat / 2 ^ 22, 10⟩, ⟨?_, ?_⟩, rfl,
    (boundingBox f.geometry).min.x.toNat, (boundingBox f.geometry).min.y.toNat, ⟨?_, ?_, ?_, ?_⟩, ?_⟩
  · show _ / 2 ^ 22 < 2 ^ 10; norm_num at *; omega
  · show _ / 2 ^ 22 < 2 ^ 10; norm_num at *; omega
  all_goals try omega
  refine ⟨?_, ?_, ?_, ?_⟩ <;> dsimp only <;> rw [hs10] <;> omega

theorem inserted_has_tile (x : Inserted) (h : x.InMap) : ∃ t : Tile, t.Valid ∧ t.z = 10 ∧ x.At t := by
  obtain ⟨f, o⟩ := x
  cases o with
  | none => exact box_has_tile f h
  | some t => exact ⟨t, h.1, h.2, rfl⟩

/-- In every state of the `pack` step after a complete `features` step: each tile whose packs were handed to a worker is packed without an exception
(an exception in a worker would end the process, with the index emptied), and the result is not empty. -/
theorem C52_no_worker_throws (hsrt : SortsByKey srt) (hd : dec.length ≤ 2 ^ 64) (hm : ∀ l z, (rd (mk l) z).length = l.length)
    (hfs : ∀ f ∈ fs.flatten, Importable mk dec ser f) (hmany : fs.flatten.length < 2 ^ 32)
    (s : InsShared × List InsPc) (h : InsRun crc cacheTiles upper lower (fun _ => none) ⟨[], 0⟩ (fs.map (List.map (Inserted.call ser))) s)
    (hpf : s.1.pf.size < 2 ^ 64) (hfin : .finished ∈ s.2) (entries : List (UInt64 × Bytes)) (hdb : EntriesOf s.1.db entries)
    (fn : Tile → List Bytes → Bytes) (hne : ∀ t packs, fn t packs ≠ []) (mem batch : Nat) (s' : PackDb)
    (h' : PackReach fn mem batch entries (packDbInit entries s.1.pf) s') (r0 : Repack) (hrun : s'.run = some r0) :
    ∀ d ∈ r0.inflight, ∃ b, packIndexed crc srt mk rd dec d.1 d.2 = .ok b ∧ b ≠ [] := by
  classical
  obtain ⟨es, hx, rfl, hpk, _, _⟩ := ins_packs crc mk dec upper lower fs ser (fun f hf => by
    obtain ⟨a, b, c⟩ := (hfs f hf).plain
    exact ⟨(hfs f hf).inMap, a, b, c⟩) hmany s h hpf hfin entries hdb
  obtain ⟨tasks, ht, hg⟩ := packTasks_index hx
  have hl : Layout s.1.pf (tasks.flatMap (·.records)) := by rw [hg.flat]; exact hx.layout
  have hp := (packDb_reach hx ht hg hne h').2
  rw [hrun] at hp
  obtain ⟨_, hin, _⟩ := C15_safe hl hne hp.1
  intro d hdm
  obtain ⟨a, b, fss, c1, c2⟩ := hpk _ _ (grouped_input hg (hin d hdm))
  obtain ⟨pack, p1, _⟩ := indexed_read crc srt mk rd dec ser hsrt hd hm a b (l := (fs.flatten.filter (fun x : Inserted => decide (x.At d.1))).map Inserted.feature) (by
    intro f hf
    obtain ⟨x, hx, rfl⟩ := List.mem_map.1 hf
    obtain ⟨a, b⟩ := List.mem_filter.1 hx
    exact ⟨(hfs x a).toPackable, importable_touches (hfs x a) (by simpa using b)⟩) c1 c2
  refine ⟨pack, p1, ?_⟩
  rw [packIndexed, Res.bind_eq_ok] at p1
  obtain ⟨_, _, p1⟩ := p1
  exact packIndexedFeatures_ne crc srt p1

/-- After a complete `features` step the `pack` step can run to its end from every point at which its last loop was not left too early, if the
pack file is not larger than the memory bound (1 GiB in the code). -/
theorem C52_pack_ends (hfs : ∀ f ∈ fs.flatten, Importable mk dec ser f) (hmany : fs.flatten.length < 2 ^ 32) (hsome : fs.flatten ≠ [])
    (s : InsShared × List InsPc) (h : InsRun crc cacheTiles upper lower (fun _ => none) ⟨[], 0⟩ (fs.map (List.map (Inserted.call ser))) s)
    (hpf : s.1.pf.size < 2 ^ 64) (hfin : .finished ∈ s.2) (entries : List (UInt64 × Bytes)) (hdb : EntriesOf s.1.db entries)
    (fn : Tile → List Bytes → Bytes) (hne : ∀ t packs, fn t packs ≠ []) (mem batch : Nat) (hb : 0 < batch) (hsmall : s.1.pf.size ≤ mem) (s' : PackDb)
    (h' : PackReach fn mem batch entries (packDbInit entries s.1.pf) s')
    (hq : ∀ r0, s'.run = some r0 → r0.pc = .flushLast ∨ r0.pc = .check → r0.inflight = []) :
    ∃ s'' r0, PackReach fn mem batch entries s' s'' ∧ s''.run = some r0 ∧ r0.pc = .done := by
  classical
  obtain ⟨es, hx, rfl, _, hrec, _⟩ := ins_packs crc mk dec upper lower fs ser (fun f hf => by
    obtain ⟨a, b, c⟩ := (hfs f hf).plain
    exact ⟨(hfs f hf).inMap, a, b, c⟩) hmany s h hpf hfin entries hdb
  have hused := layout_used hx.layout
  have hin : ∀ r ∈ es.flatMap (·.2), 0 < r.size ∧ r.endOffset ≤ s.1.pf.size := fun r hr => hx.layout.inside r hr
  obtain ⟨f, hf⟩ := List.exists_mem_of_ne_nil _ hsome
  have hpos : 0 < s.1.pf.size := by
    obtain ⟨t, hv, hz, hbt⟩ := inserted_has_tile f (hfs f hf).inMap
    obtain ⟨r, hr⟩ := List.exists_mem_of_ne_nil _ (hrec t f hv hz hf hbt)
    obtain ⟨a, b⟩ := hin r (by
      rw [recordsOf] at hr
      obtain ⟨e, he, hr⟩ := List.mem_flatMap.1 hr
      exact List.mem_flatMap.2 ⟨e, (List.mem_filter.1 he).1, hr⟩)
    unfold PackRecord.endOffset at b
    omega
  refine C44_ends hx hne hb hpos ?_ h' hq
  intro r hr
  obtain ⟨a, b⟩ := hin r hr
  unfold PackRecord.endOffset at b
  omega

/-! ### the whole answer -/

theorem imported_keys (hfs : ∀ f ∈ fs.flatten, Importable mk dec ser f) (hmany : fs.flatten.length < 2 ^ 32)
    (features : List (UInt64 × Bytes)) (pf : PackFile) (hi : Imported crc srt mk rd dec upper lower ser fs features pf) :
    DbSorted features ∧ ∀ e ∈ features, (keyToTile e.1).Valid ∧ (keyToTile e.1).z = 10 := by
  cases hi with
  | mk s h hpf hfin entries hdb fn hfn hne mem batch pf1 hk1 hpf1 s' h' r0 hrun hdone _ hdb' _ hk2 hpf2 hsmall =>
  classical
  obtain ⟨es, hx, rfl, hpk, hrec, _⟩ := ins_packs crc mk dec upper lower fs ser (fun f hf => by
    obtain ⟨a, b, c⟩ := (hfs f hf).plain
    exact ⟨(hfs f hf).inMap, a, b, c⟩) hmany s h hpf hfin entries hdb
  replace hpk := fun t packs (h : PacksOf pf1 es t packs) => hpk t packs (packsOf_keeps hx hk1 h)
  replace hx := index_keeps hx hk1 hpf1
  obtain ⟨hd1, hd2, hd3⟩ := C44_done_partial hx hne h' hrun hdone
  refine ⟨hdb'.sorted, fun e he => ?_⟩
  obtain ⟨k1, k2⟩ := hd2 _ _ ((hdb'.same e.1 e.2).1 he)
  obtain ⟨k, r, packs, e1, e2, e3, e4⟩ := hd1 _ k2
  obtain ⟨a, b, _⟩ := hpk _ _ e3
  exact ⟨a, b⟩

/-- `C52_tile`, exactly -/
theorem tile_found (hsrt : SortsByKey srt) (hd : dec.length ≤ 2 ^ 64) (hm : ∀ l z, (rd (mk l) z).length = l.length)
    (hfs : ∀ f ∈ fs.flatten, Importable mk dec ser f) (hmany : fs.flatten.length < 2 ^ 32)
    (features : List (UInt64 × Bytes)) (pf : PackFile) (hi : Imported crc srt mk rd dec upper lower ser fs features pf)
    (ctx : GetCtx) (hrd : ctx.rd = rd) (hdec : ctx.dec = dec) (hlab : ctx.label = none) (hsea : ctx.ignoreSeaside = false)
    (hlayers : ∀ x ∈ fs.flatten, x.feature.layer < ctx.layerNames.length) (hcoast : 0 < ctx.layerNames.length)
    (sea : List Tile) (hs : SeaTree sea ctx.seaside)
    (tiles : UInt64 → Option Bytes) (q : Tile) (hv : q.Valid) (hz : q.z ≤ 20) (hlive : ctx.ignorePrepared = true ∨ ctx.maxPrepared < q.z) :
    ∃ leafs gs, bqAllLeafs ctx.seaside q = .ok leafs ∧
      (∀ g ∈ gs, ∃ x ∈ fs.flatten, Shows q x.feature ∧ x.Found q ∧ StoredAs (fun l => rd (mk l) q.z) x.feature g) ∧
      (∀ x ∈ fs.flatten, Shows q x.feature → x.Found q →
        withoutSmallRings (simplified (fun l => rd (mk l) q.z) x.feature.geometry) ≠ .null → ∃ g ∈ gs, StoredAs (fun l => rd (mk l) q.z) x.feature g) ∧
      ((∀ i, LayerOk ctx.toRenderCtx (specOf q) (ofLayer (leafs.map seaSquare ++ gs) i)) →
        ∃ bytes, getTile tiles features pf ctx q = .ok (if bytes = [] then none else some (ctx.encode bytes)) ∧
          (bytes.length < 2 ^ 32 → clientTile bytes = some (tileContent ctx.toRenderCtx (specOf q) (leafs.map seaSquare ++ gs)) ∧
            (bytes = [] ↔ tileContent ctx.toRenderCtx (specOf q) (leafs.map seaSquare ++ gs) = []))) := by
  obtain ⟨ps, gs, h1, h2, h3, h4⟩ := read_found crc srt mk rd dec upper lower fs ser hsrt hd hm hfs hmany features pf hi ctx hrd hdec q hv hz
  obtain ⟨leafs, h5, _⟩ := C29_sea_squares ctx q hv hz sea hs
  refine ⟨leafs, gs, h5, h3, h4, fun hok => ?_⟩
  obtain ⟨_, h6⟩ := C29_render ctx hlab q hv hz sea hs ps gs h2 leafs h5 (by
    intro f hf
    rcases List.mem_append.1 hf with hf | hf
    · obtain ⟨t, _, rfl⟩ := List.mem_map.1 hf
      exact hcoast
    · obtain ⟨f', hf', _, _, ms, _, rfl⟩ := h3 f hf
      exact hlayers f' hf') hok
  obtain ⟨bytes, h7, h8⟩ := h6 (by rintro ⟨h, _⟩; rw [hsea] at h; cases h)
  exact ⟨bytes, by rw [C29_live tiles features pf ctx q hz hlive, h1, Res.ok_bind]; exact h7, h8⟩

/-- The answer of a live request after the import: what a client sees is the content (C28) for the sea squares and some features `gs`; all of them
were inserted and are shown by the tile, and each inserted feature that is visible, has a point of its box in the tile, is not inserted for an index tile elsewhere only and is not simplified away
is among them. -/
theorem C52_tile (hsrt : SortsByKey srt) (hd : dec.length ≤ 2 ^ 64) (hm : ∀ l z, (rd (mk l) z).length = l.length)
    (hfs : ∀ f ∈ fs.flatten, Importable mk dec ser f) (hmany : fs.flatten.length < 2 ^ 32)
    (features : List (UInt64 × Bytes)) (pf : PackFile) (hi : Imported crc srt mk rd dec upper lower ser fs features pf)
    (ctx : GetCtx) (hrd : ctx.rd = rd) (hdec : ctx.dec = dec) (hlab : ctx.label = none) (hsea : ctx.ignoreSeaside = false)
    (hlayers : ∀ x ∈ fs.flatten, x.feature.layer < ctx.layerNames.length) (hcoast : 0 < ctx.layerNames.length)
    (sea : List Tile) (hs : SeaTree sea ctx.seaside)
    (tiles : UInt64 → Option Bytes) (q : Tile) (hv : q.Valid) (hz : q.z ≤ 20) (hlive : ctx.ignorePrepared = true ∨ ctx.maxPrepared < q.z) :
    ∃ leafs gs, bqAllLeafs ctx.seaside q = .ok leafs ∧
      (∀ g ∈ gs, ∃ x ∈ fs.flatten, Shows q x.feature ∧ x.Indexed q ∧ StoredAs (fun l => rd (mk l) q.z) x.feature g) ∧
      (∀ x ∈ fs.flatten, x.feature.zmin ≤ q.z → q.z ≤ x.feature.zmax → boxMeets x.feature q → x.Reaches q →
        withoutSmallRings (simplified (fun l => rd (mk l) q.z) x.feature.geometry) ≠ .null → ∃ g ∈ gs, StoredAs (fun l => rd (mk l) q.z) x.feature g) ∧
      ((∀ i, LayerOk ctx.toRenderCtx (specOf q) (ofLayer (leafs.map seaSquare ++ gs) i)) →
        ∃ bytes, getTile tiles features pf ctx q = .ok (if bytes = [] then none else some (ctx.encode bytes)) ∧
          (bytes.length < 2 ^ 32 → clientTile bytes = some (tileContent ctx.toRenderCtx (specOf q) (leafs.map seaSquare ++ gs)) ∧
            (bytes = [] ↔ tileContent ctx.toRenderCtx (specOf q) (leafs.map seaSquare ++ gs) = []))) := by
  obtain ⟨leafs, gs, h1, h3, h4, h5⟩ := tile_found crc srt mk rd dec upper lower fs ser hsrt hd hm hfs hmany features pf hi ctx hrd hdec hlab hsea hlayers hcoast sea hs tiles q hv hz hlive
  refine ⟨leafs, gs, h1, fun g hg => ?_, fun x hx n1 n2 n3 n4 => h4 x hx (shows_found (hfs x hx) hv hz n1 n2 n3 n4).1 (shows_found (hfs x hx) hv hz n1 n2 n3 n4).2, h5⟩
  obtain ⟨x, k1, k2, k3, k4⟩ := h3 g hg
  exact ⟨x, k1, k2, found_indexed k3, k4⟩

/-- `C52_served`, exactly -/
theorem served_found (hsrt : SortsByKey srt) (hd : dec.length ≤ 2 ^ 64) (hm : ∀ l z, (rd (mk l) z).length = l.length)
    (hfs : ∀ f ∈ fs.flatten, Importable mk dec ser f) (hmany : fs.flatten.length < 2 ^ 32)
    (features : List (UInt64 × Bytes)) (pf : PackFile) (hi : Imported crc srt mk rd dec upper lower ser fs features pf)
    (ctx : GetCtx) (hrd : ctx.rd = rd) (hdec : ctx.dec = dec) (maxZ : Nat) (hmz : maxZ ≤ 20) (hc : Serving ctx maxZ)
    (hlayers : ∀ x ∈ fs.flatten, x.feature.layer < ctx.layerNames.length) (hcoast : 0 < ctx.layerNames.length)
    (sea : List Tile) (hs : SeaTree sea ctx.seaside)
    (workers : Nat) (hw : 0 < workers) (oldMax : Option Nat) (p : PrepShared × List PrepPc)
    (h : PrepRun (prepRender features pf ctx) (features.map (·.1)) maxZ workers (fun _ => none) oldMax p) (hfin : PrepPc.finished ∈ p.2)
    (q : Tile) (hv : q.Valid) (hz : q.z ≤ 20)
    (hwhere : maxZ < q.z ∨ InArea (dbBounds (features.map (·.1))) q ∨ (∃ t ∈ sea, AncOrSelf t q) ∨ ∀ t ∈ sea, ¬ AncOrSelf q t) :
    ∃ leafs gs, bqAllLeafs ctx.seaside q = .ok leafs ∧
      (∀ g ∈ gs, ∃ x ∈ fs.flatten, Shows q x.feature ∧ x.Found q ∧ StoredAs (fun l => rd (mk l) q.z) x.feature g) ∧
      (∀ x ∈ fs.flatten, Shows q x.feature → x.Found q →
        withoutSmallRings (simplified (fun l => rd (mk l) q.z) x.feature.geometry) ≠ .null → ∃ g ∈ gs, StoredAs (fun l => rd (mk l) q.z) x.feature g) ∧
      ((∀ i, LayerOk (drawing ctx maxZ q).toRenderCtx (specOf q) (ofLayer (leafs.map seaSquare ++ gs) i)) →
        ∃ bytes, getTile p.1.tiles features pf ctx q = .ok (if bytes = [] then none else some (ctx.encode bytes)) ∧
          (bytes.length < 2 ^ 32 → clientTile bytes = some (tileContent (drawing ctx maxZ q).toRenderCtx (specOf q) (leafs.map seaSquare ++ gs)) ∧
            (bytes = [] ↔ tileContent (drawing ctx maxZ q).toRenderCtx (specOf q) (leafs.map seaSquare ++ gs) = []))) := by
  obtain ⟨hsort, hk⟩ := imported_keys crc srt mk rd dec upper lower fs ser hfs hmany features pf hi
  by_cases hq : maxZ < q.z
  · rw [drawing, if_neg (by omega)]
    exact tile_found crc srt mk rd dec upper lower fs ser hsrt hd hm hfs hmany features pf hi ctx hrd hdec hc.label hc.sea hlayers hcoast sea hs p.1.tiles q hv hz
      (.inr (by rw [hc.max]; omega))
  · have hd' : drawing ctx maxZ q = { ctx with aggLines := true, aggPolygons := true } := by rw [drawing, if_pos (by omega)]
    obtain ⟨leafs, gs, a1, a2, a3, a4⟩ := tile_found crc srt mk rd dec upper lower fs ser hsrt hd hm hfs hmany features pf hi
      { drawing ctx maxZ q with ignorePrepared := true } (by rw [hd']; exact hrd) (by rw [hd']; exact hdec) (by rw [hd']; exact hc.label) (by rw [hd']; exact hc.sea)
      (by rw [hd']; exact hlayers) (by rw [hd']; exact hcoast) sea (by rw [hd']; exact hs) p.1.tiles q hv hz (.inl rfl)
    refine ⟨leafs, gs, by rw [hd'] at a1; exact a1, a2, a3, fun hok => ?_⟩
    obtain ⟨bytes, b1, b2⟩ := a4 hok
    refine ⟨bytes, ?_, b2⟩
    have := C29_prepared_equals_live features hsort pf ctx hk maxZ workers hmz hw oldMax p h hfin hc sea hs q hv (by omega)
      (hwhere.resolve_left hq) _ b1
    rw [this, hd']
    rfl

/-- The answer of the server after all import steps (`features`, `pack`, and a complete preparation of the levels up to `maxZ`, any number of workers, any
schedule): the same as in `C52_tile`, for every tile of every level, prepared or not.  The exception of C29 is left: below the prepared levels,
outside of the prepared area, a tile that is partly sea. -/
theorem C52_served (hsrt : SortsByKey srt) (hd : dec.length ≤ 2 ^ 64) (hm : ∀ l z, (rd (mk l) z).length = l.length)
    (hfs : ∀ f ∈ fs.flatten, Importable mk dec ser f) (hmany : fs.flatten.length < 2 ^ 32)
    (features : List (UInt64 × Bytes)) (pf : PackFile) (hi : Imported crc srt mk rd dec upper lower ser fs features pf)
    (ctx : GetCtx) (hrd : ctx.rd = rd) (hdec : ctx.dec = dec) (maxZ : Nat) (hmz : maxZ ≤ 20) (hc : Serving ctx maxZ)
    (hlayers : ∀ x ∈ fs.flatten, x.feature.layer < ctx.layerNames.length) (hcoast : 0 < ctx.layerNames.length)
    (sea : List Tile) (hs : SeaTree sea ctx.seaside)
    (workers : Nat) (hw : 0 < workers) (oldMax : Option Nat) (p : PrepShared × List PrepPc)
    (h : PrepRun (prepRender features pf ctx) (features.map (·.1)) maxZ workers (fun _ => none) oldMax p) (hfin : PrepPc.finished ∈ p.2)
    (q : Tile) (hv : q.Valid) (hz : q.z ≤ 20)
    (hwhere : maxZ < q.z ∨ InArea (dbBounds (features.map (·.1))) q ∨ (∃ t ∈ sea, AncOrSelf t q) ∨ ∀ t ∈ sea, ¬ AncOrSelf q t) :
    ∃ leafs gs, bqAllLeafs ctx.seaside q = .ok leafs ∧
      (∀ g ∈ gs, ∃ x ∈ fs.flatten, Shows q x.feature ∧ x.Indexed q ∧ StoredAs (fun l => rd (mk l) q.z) x.feature g) ∧
      (∀ x ∈ fs.flatten, x.feature.zmin ≤ q.z → q.z ≤ x.feature.zmax → boxMeets x.feature q → x.Reaches q →
        withoutSmallRings (simplified (fun l => rd (mk l) q.z) x.feature.geometry) ≠ .null → ∃ g ∈ gs, StoredAs (fun l => rd (mk l) q.z) x.feature g) ∧
      ((∀ i, LayerOk (drawing ctx maxZ q).toRenderCtx (specOf q) (ofLayer (leafs.map seaSquare ++ gs) i)) →
        ∃ bytes, getTile p.1.tiles features pf ctx q = .ok (if bytes = [] then none else some (ctx.encode bytes)) ∧
          (bytes.length < 2 ^ 32 → clientTile bytes = some (tileContent (drawing ctx maxZ q).toRenderCtx (specOf q) (leafs.map seaSquare ++ gs)) ∧
            (bytes = [] ↔ tileContent (drawing ctx maxZ q).toRenderCtx (specOf q) (leafs.map seaSquare ++ gs) = []))) := by
  obtain ⟨leafs, gs, h1, h3, h4, h5⟩ := served_found crc srt mk rd dec upper lower fs ser hsrt hd hm hfs hmany features pf hi ctx hrd hdec maxZ hmz hc hlayers hcoast sea hs workers hw oldMax p h hfin q hv hz hwhere
  refine ⟨leafs, gs, h1, fun g hg => ?_, fun x hx n1 n2 n3 n4 => h4 x hx (shows_found (hfs x hx) hv hz n1 n2 n3 n4).1 (shows_found (hfs x hx) hv hz n1 n2 n3 n4).2, h5⟩
  obtain ⟨x, k1, k2, k3, k4⟩ := h3 g hg
  exact ⟨x, k1, k2, found_indexed k3, k4⟩

end
/-! ### what is not accepted -/

/-- Why `Importable` asks for rings of four points or more: such a feature is inserted into every index tile its box meets, but small rings are dropped
when a pack is read, and if what is left does not lie at the index tile, then packing throws — in a worker, so that the process ends, with
the index emptied (C44). -/
theorem C52_small_rings_throw (crc : Bytes → UInt32) (srt : List QFeature → List QFeature) (mk : Line → Bytes) (rd : Bytes → Nat → List Bool) (dec : List Meta)
    (hd : dec.length ≤ 2 ^ 64) (root : Tile) (hv : root.Valid) (hr : root.z < 20) (f : Feature) (hf : FeatureOk f) (p : Bytes)
    (hp : InputPack crc mk dec p [f]) (hout : ¬ touches (boundingBox (withoutSmallRings f.geometry)) root) :
    packIndexed crc srt mk rd dec root [p] = .throw_ := by
  obtain ⟨ss, h1, h2, h3⟩ := hp
  rw [serializeAll, Res.bind_eq_ok] at h1
  obtain ⟨b, h1, h4⟩ := h1
  injection h4 with h4
  subst h4
  have hmin : 32 ≤ b.length := by
    by_contra hc
    rw [C11_mini_feature_refused crc [b] ⟨b, by simp, by omega⟩] at h3
    simp at h3
  have hl := h2 b (by simp)
  obtain ⟨p', k1, n, k2⟩ := C11_pack_round_trip crc [b] (fun s hs => by
    rw [List.mem_singleton] at hs; subst hs; exact ⟨hmin, by omega⟩) (by simp)
  rw [h3] at k1
  injection k1 with k1
  subst k1
  obtain ⟨r, e1, _, _, _, _, e2, _⟩ := C22_round_trip mk rd dec true f b hf hd h1 hl
  have hread : readPacks rd dec [p] = .ok [r] := by
    rw [readPacks, k2, Res.ok_bind]
    dsimp only
    rw [readFeatures, e1, Res.ok_bind]
    rfl
  rw [packIndexed, hread, Res.ok_bind]
  exact C14_outside_throws crc srt _ root hv hr r [] (by rw [e2]; exact hout)

/-- a triangle whose ring does not repeat its first point -/
def C52_triangle : Feature := ⟨7, 1, 5, 20, [⟨[1, 2, 3, 4, 5, 6, 7, 8], [2, 3, 4, 5, 6, 7, 8, 9]⟩],
  .polygon [⟨[⟨2147483649, 5⟩, ⟨2147483660, 5⟩, ⟨2147483649, 50⟩], []⟩]⟩

/-- It is inserted into index tile 10/512/0 and cannot be packed there. -/
theorem C52_triangle_throws : boxMeets C52_triangle ⟨512, 0, 10⟩ ∧
    ∃ p, InputPack (fun _ => 0) (fun _ => []) [] p [C52_triangle] ∧ ∀ srt rd, packIndexed (fun _ => 0) srt (fun _ => []) rd [] ⟨512, 0, 10⟩ [p] = .throw_ := by
  have hbox : boundingBox C52_triangle.geometry = ⟨⟨2147483649, 5⟩, ⟨2147483660, 50⟩⟩ := by decide
  refine ⟨⟨2147483649, 5, by rw [hbox]; unfold Box.Has; decide, by decide⟩, ?_⟩
  have hp : ∃ b p, serializeFeature (fun _ => []) [] true C52_triangle = .ok b ∧ b.length < 2 ^ 32 ∧ packFeaturesPlain (fun _ => 0) [b] = .ok p := by
    have : (match serializeFeature (fun _ => []) [] true C52_triangle with
      | .ok b => (match packFeaturesPlain (fun _ => 0) [b] with | .ok _ => decide (b.length < 2 ^ 32) | _ => false) | _ => false) = true := by decide +kernel
    cases h : serializeFeature (fun _ => []) [] true C52_triangle with
    | ok b =>
      rw [h] at this
      dsimp only at this
      cases h' : packFeaturesPlain (fun _ => 0) [b] with
      | ok p => rw [h'] at this; exact ⟨b, p, rfl, by simpa using this, h'⟩
      | _ => rw [h'] at this; cases this
    | _ => rw [h] at this; cases this
  obtain ⟨b, p, h1, h2, h3⟩ := hp
  have hin : InputPack (fun _ => 0) (fun _ => []) [] p [C52_triangle] :=
    ⟨[b], by rw [serializeAll, h1]; rfl, by intro s hs; rw [List.mem_singleton] at hs; subst hs; exact h2, h3⟩
  refine ⟨p, hin, fun srt rd => C52_small_rings_throw _ srt _ rd [] (by simp) _ (by decide) (by decide) C52_triangle ?_ p hin ?_⟩
  · exact ⟨by decide, by decide, by decide, by decide, by simp [C52_triangle, GeoOk, linesOf, PtOk, CoordOk], by simp [C52_triangle, Spec.CountsOk], by simp [C52_triangle, envelopePoints]⟩
  · have : withoutSmallRings C52_triangle.geometry = .null := by decide
    rw [this]
    unfold touches boundingBox
    decide

/-! ### the hypotheses are met: one feature, inserted by one thread, packed -/

def C52_mk : Line → Bytes := fun l => l.map (fun _ => 0)
def C52_rd : Bytes → Nat → List Bool := fun b _ => b.map (fun _ => true)

theorem C52_ex_ok : Importable C52_mk [] plainOf (whole C14_ex) := by
  have hp := plainOf_eq C49_ser
  refine importable_whole ⟨⟨C49_ex_ok.1, by intro ps h; cases h⟩, by decide, ⟨by rw [hp]; exact C49_ser, by rw [hp, C49_len]; decide, by rw [hp, C49_len]; decide⟩, ?_⟩ C49_ex_ok.2
  have : (match serializeFeature C52_mk [] false C14_ex with | .ok b => decide (32 ≤ b.length ∧ b.length < 2 ^ 32) | _ => false) = true := by decide +kernel
  cases h : serializeFeature C52_mk [] false C14_ex with
  | ok b => rw [h] at this; exact ⟨b, rfl, by simpa using this⟩
  | _ => rw [h] at this; cases this

/-- the pack that the inserter writes -/
def C52_pack : Bytes := match packFeaturesPlain (fun _ => 0) [C49_bytes] with | .ok p => p | _ => []
def C52_entries : List (UInt64 × List PackRecord) := [(5764607523101343744, [⟨0, C52_pack.length⟩])]
/-- the function of the workers -/
def C52_fn : Tile → List Bytes → Bytes := fun t packs => match packIndexed (fun _ => 0) keySort C52_mk C52_rd [] t packs with | .ok [] => [0] | .ok b => b | _ => [0]

open RepackChoice in
def C52_end : Option PackDb := packChoices C52_fn 1000 1 (stored C52_entries)
  [go, go, go, steps 10, go, go, go, go, result 0, quit, go, go] (packDbInit (stored C52_entries) ((PackFile.mk [] 0).append C52_pack).1)

theorem C52_pack_eq : packFeaturesPlain (fun _ => 0) [C49_bytes] = .ok C52_pack := by
  have : (match packFeaturesPlain (fun _ => 0) [C49_bytes] with | .ok _ => true | _ => false) = true := by decide +kernel
  unfold C52_pack
  cases h : packFeaturesPlain (fun _ => 0) [C49_bytes] with
  | ok p => rfl
  | _ => rw [h] at this; cases this

theorem C52_pack_len : C52_pack.length = 59 := by decide +kernel

/-- the run of the inserter -/
theorem C52_inserted : ∃ s, InsRun (fun _ => 0) cacheTiles 1000 500 (fun _ => none) ⟨[], 0⟩ ([[C14_ex]].map (List.map InsCall.feature)) s ∧ .finished ∈ s.2 ∧
    EntriesOf s.1.db (stored C52_entries) ∧ s.1.pf = ((PackFile.mk [] 0).append C52_pack).1 := by
  have hplan : (InsCall.feature C14_ex).plan = .ok ([⟨512, 0, 10⟩], C49_bytes) := by
    rw [InsCall.plan, C14_ex_box, show makeTileRange ⟨⟨2147483649, 5⟩, ⟨2147483649, 5⟩⟩ = .ok [⟨512, 0, 10⟩] by decide +kernel, Res.ok_bind,
      decide_eq_true (by decide), verify_true, Res.ok_bind, C49_ser]
    rfl
  have hk : keyOfTile ⟨512, 0, 10⟩ = .ok 5764607523101343744 := by decide +kernel
  obtain ⟨s, h1, h2, h3, h4⟩ := run_single (crc := fun _ => 0) (upper := 1000) (lower := 500) C14_ex ⟨512, 0, 10⟩ C49_bytes hplan
    (mem_cacheTiles.2 (by decide)) (by rw [C49_len]; decide) (by rw [C49_len]; decide)
    (fun k' => if k' = 5764607523101343744 then some (packRecordsSerialize [((PackFile.mk [] 0).append C52_pack).2]) else none)
    ((PackFile.mk [] 0).append C52_pack).1 (by rw [writeBucket, hk, Res.ok_bind, C52_pack_eq, Res.ok_bind]; rfl)
  refine ⟨s, h1, h2, ⟨by simp [DbSorted, stored, C52_entries], ?_⟩, h4⟩
  intro k v
  rw [h3]
  simp only [stored, C52_entries, List.map_cons, List.map_nil, List.mem_singleton, Prod.mk.injEq]
  constructor
  · rintro ⟨rfl, rfl⟩; exact if_pos rfl
  · intro h
    split at h
    · injection h with h; exact ⟨by assumption, h.symm⟩
    · cases h

theorem C52_fn_ne (t : Tile) (packs : List Bytes) : C52_fn t packs ≠ [] := by
  unfold C52_fn
  split
  · simp
  · rename_i h _; exact fun hc => h (by assumption)
  · simp

theorem C52_fn_ok (t : Tile) (packs : List Bytes) (b : Bytes) (h : packIndexed (fun _ => 0) keySort C52_mk C52_rd [] t packs = .ok b) : C52_fn t packs = b := by
  have hne : b ≠ [] := by
    rw [packIndexed, Res.bind_eq_ok] at h
    obtain ⟨_, _, h⟩ := h
    exact packIndexedFeatures_ne _ _ h
  unfold C52_fn
  rw [h]
  cases b with
  | nil => exact absurd rfl hne
  | cons => rfl

theorem C52_index : Index ((PackFile.mk [] 0).append C52_pack).1 C52_entries := by
  refine ⟨by simp [DbSorted, C52_entries], by simp [C52_entries], layoutB_ok (by decide +kernel), ?_⟩
  rw [append_size, C52_pack_len]; decide

/-- the run of the packing -/
theorem C52_ex_packed : ∃ s' r0, C52_end = some s' ∧ s'.run = some r0 ∧ r0.pc = .done ∧ s'.file.size = 251 ∧ s'.file.WF ∧
    PackReach C52_fn 1000 1 (stored C52_entries) (packDbInit (stored C52_entries) ((PackFile.mk [] 0).append C52_pack).1) s' ∧
    EntriesOf s'.db [(5764607523101343744, packRecordsSerialize [⟨0, 251⟩])] := by
  obtain ⟨s', hs', hpc, hsize, hval⟩ : ∃ s', C52_end = some s' ∧ s'.run.map (·.pc) = some .done ∧ s'.file.size = 251 ∧
      s'.db 5764607523101343744 = some (packRecordsSerialize [⟨0, 251⟩]) := by
    have h : (match C52_end with
      | some s => decide (s.run.map (·.pc) = some .done) && decide (s.file.size = 251) &&
        decide (s.db 5764607523101343744 = some (packRecordsSerialize [⟨0, 251⟩]))
      | none => false) = true := by decide +kernel
    cases hs : C52_end with
    | none => rw [hs] at h; cases h
    | some s' =>
      rw [hs] at h
      simp only [Bool.and_eq_true, decide_eq_true_eq] at h
      exact ⟨s', rfl, h.1.1, h.1.2, h.2⟩
  have hreach : PackReach C52_fn 1000 1 (stored C52_entries) (packDbInit (stored C52_entries) ((PackFile.mk [] 0).append C52_pack).1) s' := by
    exact packChoices_reach _ .init hs'
  obtain ⟨r0, hrun, hdone⟩ : ∃ r0, s'.run = some r0 ∧ r0.pc = .done := by
    cases hr : s'.run with
    | none => rw [hr] at hpc; cases hpc
    | some r0 => rw [hr] at hpc; injection hpc with hpc; exact ⟨r0, rfl, hpc⟩
  have hx := C52_index
  obtain ⟨_, hd2, _⟩ := C44_done_partial hx C52_fn_ne hreach hrun hdone
  have hkey : ∀ k v, s'.db k = some v → k = 5764607523101343744 := by
    intro k v hkv
    obtain ⟨a, b⟩ := hd2 k v hkv
    have : keyToTile 5764607523101343744 = keyToTile k := by
      by_contra hc
      apply b
      rw [recordsOf, List.filter_eq_nil_iff.2, List.flatMap_nil]
      intro e he
      rw [show e = (5764607523101343744, [⟨0, C52_pack.length⟩]) by simpa [C52_entries] using he]
      simpa using hc
    rw [← this, show keyOfTile (keyToTile 5764607523101343744) = .ok 5764607523101343744 by decide +kernel] at a
    injection a with a
    exact a.symm
  have hwf : s'.file.WF := by
    obtain ⟨tasks, ht, hg⟩ := packTasks_index hx
    have hl : Layout ((PackFile.mk [] 0).append C52_pack).1 (tasks.flatMap (·.records)) := by rw [hg.flat]; exact hx.layout
    have hp := (packDb_reach hx ht hg C52_fn_ne hreach).2
    rw [hrun] at hp
    rw [PackDb.file, hrun]
    exact (rinv_reach hl C52_fn_ne hp.1).wf
  refine ⟨s', r0, hs', hrun, hdone, hsize, hwf, hreach, by simp [DbSorted], ?_⟩
  intro k v
  simp only [List.mem_singleton, Prod.mk.injEq]
  constructor
  · rintro ⟨rfl, rfl⟩; exact hval
  · intro h
    have := hkey k v h
    subst this
    rw [hval] at h; injection h with h
    exact ⟨rfl, h.symm⟩

theorem C52_ex_small {db : UInt64 → Option Bytes} (h : EntriesOf db [(5764607523101343744, packRecordsSerialize [⟨0, 251⟩])]) :
    ∀ k v rs, db k = some v → packRecordsDeserialize v = .ok rs → ∀ r ∈ rs, r.size ≤ 2 ^ 30 := by
  intro k v rs hkv hrs r hr
  have := (h.same k v).2 hkv
  rw [List.mem_singleton, Prod.mk.injEq] at this
  rw [this.2, C05_records_round_trip _ (by simp [PackRecord.Fits])] at hrs
  injection hrs with hrs
  subst hrs
  rw [List.mem_singleton] at hr; subst hr
  decide

/-- the hypotheses of the theorems above are met by the feature of C14: the import ends -/
theorem C52_ex_imported : ∃ features pf, Imported (fun _ => 0) keySort C52_mk C52_rd [] 1000 500 plainOf [[whole C14_ex]] features pf := by
  obtain ⟨s, h1, h2, h3, h4⟩ := C52_inserted
  obtain ⟨s', r0, hs', hrun, hdone, hsize, hwf, hreach, hdb⟩ := C52_ex_packed
  rw [← h4] at hreach
  have hx := C52_index
  rw [← h4] at hx
  have hsz : s.1.pf.size < 2 ^ 64 := by rw [h4, append_size, C52_pack_len]; decide
  exact ⟨_, s'.file, .mk s h1 hsz h2 (stored C52_entries) h3 C52_fn C52_fn_ok C52_fn_ne 1000 1 s.1.pf
    (keeps_refl hx.layout.wf) hsz s' hreach r0 hrun hdone _ hdb _ (keeps_refl hwf) (by rw [hsize]; decide) (C52_ex_small hdb)⟩

/-- and tile 5/16/0 is rendered with it -/
example : ∃ features pf ps gs, packsOf features pf ⟨16, 0, 5⟩ = .ok ps ∧
    readPacked { C29_ctx with rd := C52_rd, dec := [] } (specOf ⟨16, 0, 5⟩) ps = .ok gs ∧ C14_ex ∈ gs := by
  obtain ⟨features, pf, hi⟩ := C52_ex_imported
  obtain ⟨ps, gs, h1, h2, h3, h4⟩ := C52_read (fun _ => 0) keySort C52_mk C52_rd [] 1000 500 [[whole C14_ex]] plainOf C13_sort_exists (by simp)
    (fun l z => by simp [C52_mk, C52_rd]) (by
      intro f hf
      rw [show f = whole C14_ex by simpa using hf]
      exact C52_ex_ok) (by decide) features pf hi { C29_ctx with rd := C52_rd, dec := [] } rfl rfl ⟨16, 0, 5⟩ (by decide) (by decide)
  refine ⟨features, pf, ps, gs, h1, h2, ?_⟩
  obtain ⟨g, hg, ms, hm, hgm⟩ := h4 (whole C14_ex) (by simp) (by decide) (by decide) ⟨2147483649, 5, by rw [show (whole C14_ex).feature = C14_ex from rfl, C14_ex_box]; unfold Box.Has; decide, by decide⟩
    (whole_reaches _ _) (by
    simp [whole, C14_ex, simplified, withoutSmallRings])
  have : g = C14_ex := by
    rw [hgm]
    rw [show (whole C14_ex).feature.metas = [⟨[1, 2, 3, 4, 5, 6, 7, 8], [2, 3, 4, 5, 6, 7, 8, 9]⟩] from rfl, List.perm_singleton] at hm
    rw [hm]; rfl
  rw [← this]; exact hg

end Tiles
