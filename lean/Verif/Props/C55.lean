import Verif.Model.Stats
import Verif.Props.C52
import Verif.Props.C12
import Mathlib.Data.Rat.Floor
/-! C55 — `database_stats` never fails on a database that the program produced, and its numbers are exact. -/
namespace Tiles
open Spec

/-! ### one feature -/

def statHeader : PbfField → Option Nat
  | .bytes t d => if t = 1 then some ((encVarint d.length).length + d.length) else none
  | _ => none
def statMask : PbfField → Option Nat
  | .bytes t d => if t = 6 then some d.length else none
  | _ => none
def statGeo : PbfField → Option Nat
  | .bytes t d => if t = 7 then some d.length else none
  | _ => none

/-- the fields that features have -/
def StatField (q : PbfField) : Prop := q.Ok ∧ ((∃ t d, q = .bytes t d) ∨ ∃ v, q = .varint 2 v)

theorem featStatsLoop_enc (fs : List PbfField) (h : ∀ f ∈ fs, StatField f) (fuel : Nat) (hf : (encMessage fs).length ≤ fuel) :
    featStatsLoop fuel (encMessage fs) = .ok ⟨fs.filterMap statHeader, fs.filterMap statMask, fs.filterMap statGeo⟩ := by
  induction fs generalizing fuel with
  | nil => cases fuel <;> rfl
  | cons f fs ih =>
    have he : encMessage (f :: fs) = f.enc ++ encMessage fs := rfl
    have hp := f.enc_length_pos
    rw [he] at hf ⊢
    rw [List.length_append] at hf
    cases fuel with
    | zero => omega
    | succ fuel =>
      have : ∃ c r, f.enc ++ encMessage fs = c :: r := by
        cases hc : f.enc with
        | nil => rw [hc] at hp; simp at hp
        | cons c r => exact ⟨c, r ++ encMessage fs, rfl⟩
      obtain ⟨c, r, hcr⟩ := this
      obtain ⟨hok, hkind⟩ := h f (by simp)
      have hd := decField_enc f (encMessage fs) hok
      have ih' := ih (fun f hf => h f (by simp [hf])) fuel (by omega)
      rcases hkind with ⟨t, d, rfl⟩ | ⟨v, rfl⟩
      · obtain ⟨⟨h1, h2⟩, h3⟩ := hok
        have hk : decVarint (c :: r) = .ok (8 * t + 2, encVarint d.length ++ d ++ encMessage fs) := by
          rw [← hcr, PbfField.enc, List.append_assoc]
          exact decVarint_enc _ _ (by omega)
        rw [hcr] at hd ⊢
        simp only [featStatsLoop, hd, hk, Res.ok_bind, ih']
        have ht : (8 * t + 2) % 2 ^ 32 / 8 = t := by rw [Nat.mod_eq_of_lt (by omega)]; omega
        rw [ht]
        simp only [List.filterMap_cons, statHeader, statMask, statGeo]
        by_cases e1 : t = 1
        · subst e1
          simp [Res.pure_eq]
          omega
        · by_cases e6 : t = 6
          · subst e6; simp [Res.pure_eq]
          · by_cases e7 : t = 7
            · subst e7; simp [Res.pure_eq]
            · simp [e1, e6, e7, Res.pure_eq]
      · obtain ⟨_, h3⟩ := hok
        have hk : decVarint (c :: r) = .ok (16, encVarint v ++ encMessage fs) := by
          rw [← hcr, PbfField.enc, List.append_assoc]
          exact decVarint_enc _ _ (by omega)
        rw [hcr] at hd ⊢
        simp only [featStatsLoop, hd, hk, Res.ok_bind, ih']
        simp [statHeader, statMask, statGeo, Res.pure_eq, List.filterMap_cons]

theorem serFeature_fields {dec : List Meta} {fast : Bool} {mk : Line → Bytes} {f : Feature} (hid : f.id < 2 ^ 64) {g bs : Bytes}
    (h : encMessage (.bytes 1 ((featureHeader f).flatMap encS64) :: .varint 2 f.id ::
      (featureMetaFields dec fast f.metas ++ ((if fast then [] else (makeSimplifyMask mk f.geometry).map (.bytes 6)) ++ [.bytes 7 g]))) = bs)
    (hl : bs.length < 2 ^ 32) :
    ∀ q ∈ (PbfField.bytes 1 ((featureHeader f).flatMap encS64) :: .varint 2 f.id ::
      (featureMetaFields dec fast f.metas ++ ((if fast then [] else (makeSimplifyMask mk f.geometry).map (.bytes 6)) ++ [.bytes 7 g]))), StatField q := by
  intro q hq
  have hbytes : ∀ t d, q = .bytes t d → d.length < 2 ^ 32 := by
    rintro t d rfl
    have := bytes_len_le hq
    rw [h] at this
    omega
  have htag : ∃ t, TagOk t ∧ ((∃ d, q = .bytes t d) ∨ (q = .varint 2 f.id ∧ t = 2)) := by
    rcases List.mem_cons.1 hq with rfl | hq
    · exact ⟨1, by decide, .inl ⟨_, rfl⟩⟩
    rcases List.mem_cons.1 hq with rfl | hq
    · exact ⟨2, by decide, .inr ⟨rfl, rfl⟩⟩
    rcases List.mem_append.1 hq with hq | hq
    · unfold featureMetaFields at hq
      split at hq
      · rcases List.mem_append.1 hq with hq | hq
        · obtain ⟨m, _, rfl⟩ := List.mem_map.1 hq; exact ⟨4, by decide, .inl ⟨_, rfl⟩⟩
        · obtain ⟨m, _, rfl⟩ := List.mem_map.1 hq; exact ⟨5, by decide, .inl ⟨_, rfl⟩⟩
      · dsimp only at hq
        rcases List.mem_append.1 hq with hq | hq
        · split at hq
          · simp at hq
          · rw [List.mem_singleton] at hq; exact ⟨3, by decide, .inl ⟨_, hq⟩⟩
        rcases List.mem_append.1 hq with hq | hq
        · obtain ⟨m, _, rfl⟩ := List.mem_map.1 hq; exact ⟨4, by decide, .inl ⟨_, rfl⟩⟩
        · obtain ⟨m, _, rfl⟩ := List.mem_map.1 hq; exact ⟨5, by decide, .inl ⟨_, rfl⟩⟩
    rcases List.mem_append.1 hq with hq | hq
    · split at hq
      · simp at hq
      · obtain ⟨m, _, rfl⟩ := List.mem_map.1 hq; exact ⟨6, by decide, .inl ⟨_, rfl⟩⟩
    · rw [List.mem_singleton] at hq; exact ⟨7, by decide, .inl ⟨_, hq⟩⟩
  obtain ⟨t, ht, ⟨d, rfl⟩ | ⟨rfl, rfl⟩⟩ := htag
  · exact ⟨⟨ht, hbytes _ _ rfl⟩, .inl ⟨_, _, rfl⟩⟩
  · exact ⟨⟨ht, hid⟩, .inr ⟨_, rfl⟩⟩

theorem featureMetaFields_stat (dec : List Meta) (fast : Bool) (ms : List Meta) :
    (featureMetaFields dec fast ms).filterMap statHeader = [] ∧ (featureMetaFields dec fast ms).filterMap statMask = [] ∧
    (featureMetaFields dec fast ms).filterMap statGeo = [] := by
  have key : ∀ q ∈ featureMetaFields dec fast ms, ∃ t d, q = .bytes t d ∧ t ≠ 1 ∧ t ≠ 6 ∧ t ≠ 7 := by
    intro q hq
    unfold featureMetaFields at hq
    split at hq
    · rcases List.mem_append.1 hq with hq | hq
      · obtain ⟨m, _, rfl⟩ := List.mem_map.1 hq; exact ⟨4, _, rfl, by decide⟩
      · obtain ⟨m, _, rfl⟩ := List.mem_map.1 hq; exact ⟨5, _, rfl, by decide⟩
    · dsimp only at hq
      rcases List.mem_append.1 hq with hq | hq
      · split at hq
        · simp at hq
        · rw [List.mem_singleton] at hq; exact ⟨3, _, hq, by decide⟩
      rcases List.mem_append.1 hq with hq | hq
      · obtain ⟨m, _, rfl⟩ := List.mem_map.1 hq; exact ⟨4, _, rfl, by decide⟩
      · obtain ⟨m, _, rfl⟩ := List.mem_map.1 hq; exact ⟨5, _, rfl, by decide⟩
  refine ⟨?_, ?_, ?_⟩ <;> rw [List.filterMap_eq_nil_iff] <;> intro q hq <;> obtain ⟨t, d, rfl, h1, h6, h7⟩ := key q hq <;>
    simp [statHeader, statMask, statGeo, h1, h6, h7]

/-- One feature: its header is counted once, with the size of its payload and length prefix; each of its simplification masks once; its
geometry once. -/
theorem C55_feature (mk : Line → Bytes) (dec : List Meta) (fast : Bool) (f : Feature) (hid : f.id < 2 ^ 64) (s : Bytes)
    (h : serializeFeature mk dec fast f = .ok s) (hl : s.length < 2 ^ 32) :
    ∃ g, serializeGeometry f.geometry = .ok g ∧
      featStats s = .ok ⟨[(encVarint ((featureHeader f).flatMap encS64).length).length + ((featureHeader f).flatMap encS64).length],
        if fast then [] else (makeSimplifyMask mk f.geometry).map List.length, [g.length]⟩ := by
  rw [serializeFeature, Res.bind_eq_ok] at h
  obtain ⟨g, hgs, h⟩ := h
  injection h with h
  refine ⟨g, hgs, ?_⟩
  obtain ⟨m1, m2, m3⟩ := featureMetaFields_stat dec fast f.metas
  rw [featStats, ← h, featStatsLoop_enc _ (serFeature_fields hid h hl) _ (Nat.le_refl _)]
  simp only [List.filterMap_cons, List.filterMap_append, m1, m2, m3]
  cases fast <;> simp [statHeader, statMask, statGeo, List.filterMap_map, Function.comp_def]

/-! ### packs, records, the features table -/

namespace Spec
/-- the size of the geometry of a feature as it is stored -/
def geoBytes (f : Feature) : Nat := match serializeGeometry f.geometry with | .ok g => g.length | _ => 0

/-- the record leads to a valid pack of these features, written with or without index -/
def HoldsPack (crc : Bytes → UInt32) (pf : PackFile) (r : PackRecord) (fs : List Feature) : Prop :=
  ∃ p ss n, pf.get r = .ok p ∧ featurePackValid crc p = true ∧ unpackFeatures p = .ok (ss, n) ∧
    List.Forall₂ (fun f s => f.id < 2 ^ 64 ∧ s.length < 2 ^ 32 ∧ ∃ mk dec fast, serializeFeature mk dec fast f = .ok s) fs ss

/-- an entry of the features table: its records, each with its features -/
def EntryHolds (crc : Bytes → UInt32) (pf : PackFile) (e : UInt64 × Bytes) (fss : List (PackRecord × List Feature)) : Prop :=
  packRecordsDeserialize e.2 = .ok (fss.map (·.1)) ∧ ∀ x ∈ fss, HoldsPack crc pf x.1 x.2
end Spec

theorem featStatsAll_ok {fs : List Feature} {ss : List Bytes}
    (h : List.Forall₂ (fun f s => f.id < 2 ^ 64 ∧ s.length < 2 ^ 32 ∧ ∃ mk dec fast, serializeFeature mk dec fast f = .ok s) fs ss) :
    ∃ st, featStatsAll ss = .ok st ∧ st.headers.length = fs.length ∧ st.geos = fs.map geoBytes := by
  induction h with
  | nil => exact ⟨_, rfl, rfl, rfl⟩
  | cons h0 _ ih =>
    obtain ⟨h1, h2, mk, dec, fast, h3⟩ := h0
    obtain ⟨st, i1, i2, i3⟩ := ih
    obtain ⟨g, g1, g2⟩ := C55_feature mk dec fast _ h1 _ h3 h2
    refine ⟨_, by rw [featStatsAll, g2, Res.ok_bind, i1, Res.ok_bind]; rfl, ?_, ?_⟩
    · simp [i2]
    · simp [i3, geoBytes, g1]

theorem recordStats_ok {crc : Bytes → UInt32} {pf : PackFile} (hwf : pf.WF) {fss : List (PackRecord × List Feature)} (h : ∀ x ∈ fss, HoldsPack crc pf x.1 x.2) :
    ∃ st, recordStats crc pf (fss.map (·.1)) = .ok st ∧ st.packs = fss.map (·.1.size) ∧ st.index.length = fss.length ∧
      st.feats.headers.length = (fss.flatMap (·.2)).length ∧ st.feats.geos = (fss.flatMap (·.2)).map geoBytes := by
  induction fss with
  | nil => exact ⟨_, rfl, rfl, rfl, rfl, rfl⟩
  | cons x fss ih =>
    obtain ⟨p, ss, n, h1, h2, h3, h4⟩ := h x (by simp)
    obtain ⟨a, a1, a2, a3⟩ := featStatsAll_ok h4
    obtain ⟨b, b1, b2, b3, b4, b5⟩ := ih fun y hy => h y (by simp [hy])
    have hlen : p.length = x.1.size := by
      obtain ⟨_, h5, h6⟩ := (PackFile.get_eq_ok_iff ..).1 h1
      unfold PackRecord.endOffset at h5
      unfold PackFile.WF at hwf
      rw [← h6]; simp [slice]; omega
    refine ⟨_, by rw [List.map_cons, recordStats, h1, Res.ok_bind, h2, verify_true, Res.ok_bind, h3, Res.ok_bind]; dsimp only; rw [a1, Res.ok_bind, b1, Res.ok_bind]; rfl, ?_, ?_, ?_, ?_⟩
    · simp [b2, hlen]
    · simp [b3]
    · simp [a2, b4]
    · simp [a3, b5]

/-- The features table: never a failure; one pack size per record, one header and one geometry size per stored feature, all exact. -/
theorem C55_features (crc : Bytes → UInt32) (pf : PackFile) (hwf : pf.WF) (features : List (UInt64 × Bytes)) (c : List (List (PackRecord × List Feature)))
    (h : List.Forall₂ (EntryHolds crc pf) features c) :
    ∃ st, entryStats crc pf features = .ok st ∧ st.packs = c.flatten.map (·.1.size) ∧ st.index.length = c.flatten.length ∧
      st.feats.headers.length = (c.flatten.flatMap (·.2)).length ∧ st.feats.geos = (c.flatten.flatMap (·.2)).map geoBytes := by
  induction h with
  | nil => exact ⟨_, rfl, rfl, rfl, rfl, rfl⟩
  | cons h0 _ ih =>
    obtain ⟨h1, h2⟩ := h0
    obtain ⟨a, a1, a2, a3, a4, a5⟩ := recordStats_ok hwf h2
    obtain ⟨b, b1, b2, b3, b4, b5⟩ := ih
    refine ⟨_, by rw [entryStats, h1, Res.ok_bind, a1, Res.ok_bind, b1, Res.ok_bind]; rfl, ?_, ?_, ?_, ?_⟩
    · simp [a2, b2]
    · simp [a3, b3]
    · simp [a4, b4]
    · simp [a5, b5]

/-! ### the prepared tiles -/

theorem tileStats_ok {m : Nat} {tiles : List (UInt64 × Bytes)} {sizes : List (List Nat)} (hs : sizes.length = m + 1)
    (h : ∀ e ∈ tiles, (keyToTile e.1).z ≤ m) :
    tileStats m tiles sizes =
      .ok (sizes.zipIdx.map fun p => p.1 ++ (tiles.filter (fun e => decide ((keyToTile e.1).z = p.2))).map (·.2.length)) := by
  induction tiles generalizing sizes with
  | nil =>
    simp [tileStats]
  | cons e es ih =>
    have hz := h e (by simp)
    rw [tileStats, decide_eq_true hz, verify_true, Res.ok_bind, if_pos (by omega), ih (by simpa using hs) fun e he => h e (by simp [he])]
    congr 1
    apply List.ext_getElem
    · simp
    · intro i h1 h2
      simp only [List.getElem_map, List.getElem_zipIdx, Nat.zero_add, List.getElem_modify]
      by_cases e1 : (keyToTile e.1).z = i
      · rw [if_pos e1, List.filter_cons_of_pos (by simpa using e1)]
        simp
      · rw [if_neg e1, List.filter_cons_of_neg (by simpa using e1)]

/-- The prepared tiles: if none is deeper than the stored zoom level, there is one list per zoom level, with the sizes of exactly the tiles of this
level; the total is the sum of the sizes of all packs and all prepared tiles. -/
theorem C55_tiles (crc : Bytes → UInt32) (pf : PackFile) (features : List (UInt64 × Bytes)) (ps : PackStats) (hps : entryStats crc pf features = .ok ps)
    (m : Nat) (tiles : List (UInt64 × Bytes)) (h : ∀ e ∈ tiles, (keyToTile e.1).z ≤ m) :
    ∃ sizes, databaseStats crc features pf (some m) tiles = .ok ⟨ps, some (sizes, ps.packs.sum + (tiles.map (·.2.length)).sum)⟩ ∧
      sizes.length = m + 1 ∧ ∀ z (hz : z < sizes.length), sizes[z] = (tiles.filter (fun e => decide ((keyToTile e.1).z = z))).map (·.2.length) := by
  refine ⟨(List.range (m + 1)).map fun z => (tiles.filter (fun e => decide ((keyToTile e.1).z = z))).map (·.2.length), ?_, ?_, ?_⟩
  · have e : (List.replicate (m + 1) ([] : List Nat)).zipIdx.map (fun p => p.1 ++ (tiles.filter (fun e => decide ((keyToTile e.1).z = p.2))).map (·.2.length)) =
        (List.range (m + 1)).map fun z => (tiles.filter (fun e => decide ((keyToTile e.1).z = z))).map (·.2.length) := by
      apply List.ext_getElem
      · simp
      · intro i h1 h2; simp
    rw [databaseStats, hps, Res.ok_bind]
    dsimp only
    rw [tileStats_ok (by simp) h, Res.ok_bind, e]
    have hsum : (((List.range (m + 1)).map fun z => (tiles.filter (fun e => decide ((keyToTile e.1).z = z))).map (·.2.length)).map List.sum).sum =
        (tiles.map (·.2.length)).sum := by
      clear e hps
      induction tiles with
      | nil => simp
      | cons e es ih =>
        rw [List.map_cons, List.sum_cons, ← ih fun e he => h e (by simp [he])]
        have hz := h e (by simp)
        have key : ∀ n, (((List.range n).map fun z => ((e :: es).filter (fun e => decide ((keyToTile e.1).z = z))).map (·.2.length)).map List.sum).sum =
            (if (keyToTile e.1).z < n then e.2.length else 0) +
            (((List.range n).map fun z => (es.filter (fun e => decide ((keyToTile e.1).z = z))).map (·.2.length)).map List.sum).sum := by
          intro n
          induction n with
          | zero => simp
          | succ n ihn =>
            simp only [List.range_succ, List.map_append, List.sum_append, ihn, List.map_cons, List.map_nil, List.sum_cons, List.sum_nil]
            by_cases e1 : (keyToTile e.1).z = n
            · rw [List.filter_cons_of_pos (by simpa using e1), if_neg (by omega), if_pos (by omega)]
              simp; omega
            · rw [List.filter_cons_of_neg (by simpa using e1)]
              split <;> split <;> omega
        rw [key, if_pos (by omega)]
    rw [hsum]
    rfl
  · simp
  · intro z hz; simp

/-- finding: a prepared tile that is deeper than the stored zoom level makes it throw -/
theorem C55_stale_tile_throws (crc : Bytes → UInt32) (pf : PackFile) (features : List (UInt64 × Bytes)) (ps : PackStats)
    (hps : entryStats crc pf features = .ok ps) (m : Nat) (tiles : List (UInt64 × Bytes)) (e : UInt64 × Bytes) (he : e ∈ tiles) (h : m < (keyToTile e.1).z) :
    databaseStats crc features pf (some m) tiles = .throw_ := by
  have key : ∀ (tiles : List (UInt64 × Bytes)) (sizes : List (List Nat)), e ∈ tiles → sizes.length = m + 1 → tileStats m tiles sizes = .throw_ := by
    intro tiles
    induction tiles with
    | nil => intro _ h; cases h
    | cons d es ih =>
      intro sizes hd hs
      rw [tileStats]
      by_cases hz : (keyToTile d.1).z ≤ m
      · rw [decide_eq_true hz, verify_true, Res.ok_bind, if_pos (by omega)]
        rcases List.mem_cons.1 hd with rfl | hd
        · omega
        · exact ih _ hd (by simpa using hs)
      · rw [decide_eq_false hz, verify_false, Res.throw_bind]
  rw [databaseStats, hps, Res.ok_bind]
  dsimp only
  rw [key tiles _ he (by simp), Res.throw_bind]

/-- The quantile: for any rounding of the product with a relative error of at most 2^-52 (`c` is the double 0.95), the position is in the list. -/
theorem C55_quantile (m : List Nat) (hne : m ≠ []) (c : ℚ) (hc0 : 0 ≤ c) (hc : c ≤ 19 / 20 + 1 / 2 ^ 52) (x : ℚ)
    (hx : x ≤ m.length * c * (1 + 1 / 2 ^ 52)) (hx0 : 0 ≤ x) : ∃ v, q95 m ⌊x⌋.toNat = .ok v ∧ v ∈ m := by
  have hpos : (1 : ℚ) ≤ m.length := by exact_mod_cast List.length_pos_iff.2 hne
  have hlt : x < m.length := by
    have h1 : (m.length : ℚ) * c * (1 + 1 / 2 ^ 52) ≤ m.length * (19 / 20 + 1 / 2 ^ 52) * (1 + 1 / 2 ^ 52) := by
      apply mul_le_mul_of_nonneg_right _ (by positivity)
      exact mul_le_mul_of_nonneg_left hc (by positivity)
    have h2 : (m.length : ℚ) * (19 / 20 + 1 / 2 ^ 52) * (1 + 1 / 2 ^ 52) < m.length := by
      have : (19 / 20 + 1 / 2 ^ 52 : ℚ) * (1 + 1 / 2 ^ 52) < 1 := by norm_num
      nlinarith
    linarith
  have hfl : ⌊x⌋.toNat < m.length := by
    have := Int.floor_lt.2 (show x < ((m.length : Int) : ℚ) by exact_mod_cast hlt)
    have h0 := Int.floor_nonneg.2 hx0
    omega
  refine ⟨m[⌊x⌋.toNat], ?_, List.getElem_mem _⟩
  rw [q95, List.getElem?_eq_getElem hfl]

/-! ### the databases that an import produces -/

theorem unpackLoop_mem {n : Nat} {bs : Bytes} {ss : List Bytes} {rest : Bytes} (h : unpackLoop n bs = .ok (ss, rest)) : ∀ s ∈ ss, s.length ≤ bs.length := by
  induction n generalizing bs ss rest with
  | zero =>
    rw [unpackLoop] at h
    injection h with h; injection h with h1 h2
    subst h1; simp
  | succ n ih =>
    rw [unpackLoop, Res.bind_eq_ok] at h
    obtain ⟨⟨size, bs'⟩, h1, h⟩ := h
    dsimp only at h
    split at h
    · rw [Res.bind_eq_ok] at h
      obtain ⟨⟨fs, rest'⟩, h2, h⟩ := h
      injection h with h; injection h with h3 h4
      subst h3
      have hlt : ∀ bs bs' size, nextSize bs = .ok (size, bs') → bs'.length ≤ bs.length := by
        intro bs
        induction hn : bs.length using Nat.strong_induction_on generalizing bs with
        | _ k ih =>
          intro bs' size h
          rw [nextSize] at h
          split at h
          · rename_i rest hd
            have := decVarint_rest_lt hd
            have := ih _ (by omega) _ rfl _ _ h
            omega
          · rename_i m rest hd
            have := decVarint_rest_lt hd
            injection h with h; injection h with _ h
            subst h; omega
          · cases h
          · cases h
      have hb := hlt _ _ _ h1
      intro s hs
      rcases List.mem_cons.1 hs with rfl | hs
      · rw [List.length_take]; omega
      · have := ih h2 s hs
        rw [List.length_drop] at this; omega
    · cases h

theorem unpackFeatures_mem {p : Bytes} {ss : List Bytes} {n : Nat} (h : unpackFeatures p = .ok (ss, n)) : ∀ s ∈ ss, s.length ≤ p.length := by
  rw [unpackFeatures, Res.bind_eq_ok] at h
  obtain ⟨_, _, h⟩ := h
  dsimp only at h
  split at h
  · rw [Res.bind_eq_ok] at h
    obtain ⟨⟨fs, rest⟩, h2, h⟩ := h
    injection h with h; injection h with h3 h4
    subst h3
    intro s hs
    have := unpackLoop_mem h2 s hs
    rw [List.length_drop] at this; omega
  · cases h

theorem serializeAll_forall₂ {ser : Feature → Res Bytes} {fs : List Feature} {ss : List Bytes} (h : serializeAll ser fs = .ok ss) :
    List.Forall₂ (fun f s => ser f = .ok s) fs ss := by
  induction fs generalizing ss with
  | nil => injection h with h; subst h; exact .nil
  | cons f fs ih =>
    rw [serializeAll, Res.bind_eq_ok] at h
    obtain ⟨b, h1, h⟩ := h
    rw [Res.bind_eq_ok] at h
    obtain ⟨ss', h2, h⟩ := h
    injection h with h
    subst h
    exact .cons h1 (ih h2)

theorem packIndexedFeatures_valid {crc : Bytes → UInt32} {srt : List QFeature → List QFeature} {ser : Feature → Res Bytes} {root : Tile} {fs : List Feature}
    {p : Bytes} (h : packIndexedFeatures crc srt ser root fs = .ok p) : featurePackValid crc p = true := by
  rw [packIndexedFeatures, Res.bind_eq_ok] at h
  obtain ⟨_, _, h⟩ := h
  rw [Res.bind_eq_ok] at h
  obtain ⟨_, _, h⟩ := h
  dsimp only at h
  rw [Res.bind_eq_ok] at h
  obtain ⟨_, _, h⟩ := h
  rw [Res.bind_eq_ok] at h
  obtain ⟨_, _, h⟩ := h
  injection h with h
  rw [← h]
  exact C12_finished_valid _ _

theorem inputPack_holds {crc : Bytes → UInt32} {mk : Line → Bytes} {dec : List Meta} {pf : PackFile} {r : PackRecord} {p : Bytes} {l : List Feature}
    (hg : pf.get r = .ok p) (hp : InputPack crc mk dec p l) (hid : ∀ f ∈ l, f.id < 2 ^ 64) : HoldsPack crc pf r l := by
  obtain ⟨ss, h1, h2, h3⟩ := hp
  have hf := serializeAll_forall₂ h1
  have hmin : ∀ s ∈ ss, 32 ≤ s.length ∧ s.length < 2 ^ 64 := by
    intro s hs
    refine ⟨?_, by have := h2 s hs; omega⟩
    by_contra hc
    rw [C11_mini_feature_refused crc ss ⟨s, hs, by omega⟩] at h3
    cases h3
  have hn : ss.length < 2 ^ 32 := by
    by_contra hc
    rw [C11_too_many_refused crc ss (by omega)] at h3
    cases h3
  obtain ⟨p', k1, n, k2⟩ := C11_pack_round_trip crc ss hmin hn
  rw [h3] at k1
  injection k1 with k1
  subst k1
  refine ⟨p, ss, n, hg, C12_pack_valid crc ss p h3, k2, ?_⟩
  clear h1 h3 k2 hmin hn
  induction hf with
  | nil => exact .nil
  | cons h0 _ ih => exact .cons ⟨hid _ (by simp), h2 _ (by simp), mk, dec, true, h0⟩ (ih (fun f hf => hid f (by simp [hf])) (fun s hs => h2 s (by simp [hs])))

theorem packsOf_exists {pf : PackFile} {es : List (UInt64 × List PackRecord)} (hx : Index pf es) {t : Tile} (hne : recordsOf es t ≠ []) :
    ∃ packs, PacksOf pf es t packs := by
  let le : PackRecord → PackRecord → Bool := fun a b => decide (b.offset ≤ a.offset)
  have hperm := sortBy_perm le (recordsOf es t)
  have hsort := sortBy_sorted (le := le) (by intro a b c h1 h2; simp only [le, decide_eq_true_eq] at *; omega)
    (by intro a b; simp only [le, decide_eq_true_eq]; omega) (recordsOf es t)
  have hget : ∀ r ∈ sortBy le (recordsOf es t), ∃ b, pf.get r = .ok b := by
    intro r hr
    have hr' : r ∈ es.flatMap (·.2) := by
      have := hperm.mem_iff.1 hr
      rw [recordsOf, List.mem_flatMap] at this
      obtain ⟨e, he, hre⟩ := this
      exact List.mem_flatMap.2 ⟨e, (List.mem_filter.1 he).1, hre⟩
    obtain ⟨h1, h2⟩ := hx.layout.inside r hr'
    exact ⟨_, (PackFile.get_eq_ok_iff ..).2 ⟨by unfold PackRecord.endOffset at h2; omega, h2, rfl⟩⟩
  have hall : ∀ rs : List PackRecord, (∀ r ∈ rs, ∃ b, pf.get r = .ok b) → ∃ packs, List.Forall₂ (fun r b => pf.get r = .ok b) rs packs := by
    intro rs
    induction rs with
    | nil => intro _; exact ⟨[], .nil⟩
    | cons r rs ih =>
      intro h
      obtain ⟨b, hb⟩ := h r (by simp)
      obtain ⟨bs, hbs⟩ := ih fun r hr => h r (by simp [hr])
      exact ⟨b :: bs, .cons hb hbs⟩
  obtain ⟨packs, hp⟩ := hall _ hget
  refine ⟨packs, _, hperm, ?_, ?_, hp⟩
  · intro h
    rw [h] at hperm
    exact hne hperm.symm.eq_nil
  · exact hsort.imp (fun h => by simpa [le] using h)

theorem forall₂_of_mem {α β : Type} {P : α → β → Prop} {l : List α} (h : ∀ a ∈ l, ∃ b, P a b) : ∃ m, List.Forall₂ P l m := by
  induction l with
  | nil => exact ⟨[], .nil⟩
  | cons a l ih =>
    obtain ⟨b, hb⟩ := h a (by simp)
    obtain ⟨m, hm⟩ := ih fun a ha => h a (by simp [ha])
    exact ⟨b :: m, .cons hb hm⟩

section
variable (crc : Bytes → UInt32) (srt : List QFeature → List QFeature) (mk : Line → Bytes) (rd : Bytes → Nat → List Bool) (dec : List Meta)
  (upper lower : Nat) (fs : List (List Inserted)) (ser : Feature → Bytes)

open Classical in
/-- After the features were inserted, by any threads in any schedule (the point at which an import takes the statistics): no failure; the packs
counted are those of the table, and the headers and geometries counted are those of the inserted features, each once per index tile that it
goes to. -/
theorem C55_inserted (hfs : ∀ f ∈ fs.flatten, Importable mk dec ser f) (hmany : fs.flatten.length < 2 ^ 32)
    (s : InsShared × List InsPc) (h : InsRun crc cacheTiles upper lower (fun _ => none) ⟨[], 0⟩ (fs.map (List.map (Inserted.call ser))) s)
    (hpf : s.1.pf.size < 2 ^ 64) (hfin : .finished ∈ s.2) (entries : List (UInt64 × Bytes)) (hdb : EntriesOf s.1.db entries) :
    ∃ st, databaseStats crc entries s.1.pf none [] = .ok ⟨st, none⟩ ∧
      st.feats.headers.length = (entries.flatMap (fun e => goesTo fs (keyToTile e.1))).length ∧
      st.feats.geos.Perm ((entries.flatMap (fun e => goesTo fs (keyToTile e.1))).map geoBytes) := by
  obtain ⟨es, hx, rfl, hpk, hrec, hkey⟩ := ins_packs crc mk dec upper lower fs ser (fun f hf => by
    obtain ⟨a, b, c⟩ := (hfs f hf).plain
    exact ⟨(hfs f hf).inMap, a, b, c⟩) hmany s h hpf hfin entries hdb
  obtain ⟨c, hc⟩ : ∃ c, List.Forall₂ (fun (e : UInt64 × Bytes) x => EntryHolds crc s.1.pf e x ∧
      (x.flatMap (·.2)).Perm (goesTo fs (keyToTile e.1))) (stored es) c := by
    apply forall₂_of_mem
    intro e' he'
    obtain ⟨e, he, rfl⟩ := List.mem_map.1 he'
    have hone : recordsOf es (keyToTile e.1) = e.2 := recordsOf_one hx.sorted rfl he (by
      intro e' he' hk'
      have := (hkey e' he').2.2
      rw [hk', (hkey e he).2.2] at this
      injection this with this
      exact this.symm)
    obtain ⟨packs, rs, p1, p2, p3, p4⟩ := packsOf_exists hx (t := keyToTile e.1) (by rw [hone]; exact hx.some e he)
    obtain ⟨_, _, fss, q1, q2⟩ := hpk _ packs ⟨rs, p1, p2, p3, p4⟩
    rw [hone] at p1
    have hid : ∀ l ∈ fss, ∀ f ∈ l, f.id < 2 ^ 64 := by
      intro l hl f hf
      obtain ⟨x, hx, _, rfl⟩ := mem_goesTo (q2.mem_iff.1 (List.mem_flatten.2 ⟨l, hl, hf⟩))
      exact (hfs x hx).id
    have hcomb : ∃ x : List (PackRecord × List Feature), x.map (·.1) = rs ∧ x.flatMap (·.2) = fss.flatten ∧ ∀ y ∈ x, HoldsPack crc s.1.pf y.1 y.2 := by
      clear p1 p2 p3 q2
      induction p4 generalizing fss with
      | nil => cases q1; exact ⟨[], rfl, rfl, by simp⟩
      | @cons r0 b0 rs0 bs0 g1 _ ih =>
        cases q1 with
        | @cons _ l0 _ fss0 g2 g3 =>
          obtain ⟨x, x1, x2, x3⟩ := ih fss0 g3 (fun l hl => hid l (by simp [hl]))
          refine ⟨(r0, l0) :: x, by simp [x1], by simp [x2], ?_⟩
          intro y hy
          rcases List.mem_cons.1 hy with rfl | hy
          · exact inputPack_holds g1 g2 (hid _ (by simp))
          · exact x3 y hy
    obtain ⟨x, x1, x2, x3⟩ := hcomb
    -- in the order of the entry
    obtain ⟨y, y1, y2⟩ : ∃ y : List (PackRecord × List Feature), y.map (·.1) = e.2 ∧ y.Perm x := by
      obtain ⟨y, y1, y2⟩ := List.perm_comp_forall₂ (r := fun (r : PackRecord) (z : PackRecord × List Feature) => z.1 = r) p1.symm
        (by rw [← x1]; exact List.forall₂_map_left_iff.2 (List.forall₂_same.2 (fun f _ => rfl)))
      refine ⟨y, ?_, y2⟩
      clear y2
      generalize e.2 = l at y1
      induction y1 with
      | nil => rfl
      | cons a _ ih => simp [a, ih]
    refine ⟨y, ⟨?_, fun z hz => x3 z (y2.mem_iff.1 hz)⟩, ?_⟩
    · rw [y1]
      exact C05_records_round_trip _ (index_fits hx e he).2
    · exact (y2.flatMap_right _).trans (x2 ▸ q2)
  have hent : List.Forall₂ (EntryHolds crc s.1.pf) (stored es) c := hc.imp (fun _ _ h => h.1)
  obtain ⟨st, s1, s2, s3, s4, s5⟩ := C55_features crc s.1.pf hx.layout.wf _ c hent
  have hperm : (c.flatten.flatMap (·.2)).Perm ((stored es).flatMap (fun e => goesTo fs (keyToTile e.1))) := by
    generalize stored es = l at hc
    clear hent s1 s2 s3 s4 s5 hdb
    induction hc with
    | nil => exact .refl _
    | cons h0 _ ih =>
      rw [List.flatten_cons, List.flatMap_append, List.flatMap_cons]
      exact h0.2.append ih
  refine ⟨st, by rw [databaseStats, s1, Res.ok_bind]; rfl, ?_, ?_⟩
  · rw [s4]; exact hperm.length_eq
  · rw [s5]; exact hperm.map _

open Classical in
/-- After the packing: no failure; the same numbers of headers and the same geometry sizes as before the packing, and one pack per tile. -/
theorem C55_imported (hsrt : SortsByKey srt) (hd : dec.length ≤ 2 ^ 64) (hm : ∀ l z, (rd (mk l) z).length = l.length)
    (hfs : ∀ f ∈ fs.flatten, Importable mk dec ser f) (hmany : fs.flatten.length < 2 ^ 32)
    (features : List (UInt64 × Bytes)) (pf : PackFile) (hi : Imported crc srt mk rd dec upper lower ser fs features pf) :
    ∃ st, databaseStats crc features pf none [] = .ok ⟨st, none⟩ ∧ st.packs.length = features.length ∧ st.index.length = features.length ∧
      st.feats.headers.length = (features.flatMap (fun e => goesTo fs (keyToTile e.1))).length ∧
      st.feats.geos.Perm ((features.flatMap (fun e => goesTo fs (keyToTile e.1))).map geoBytes) := by
  cases hi with
  | mk s h hpf hfin entries hdb fn hfn hne mem batch pf1 hk1 hpf1 s' h' r0 hrun hdone _ hdb' _ hk2 hpf2 hsmall =>
  obtain ⟨es, hx, rfl, hpk, hrec, _⟩ := ins_packs crc mk dec upper lower fs ser (fun f hf => by
    obtain ⟨a, b, c⟩ := (hfs f hf).plain
    exact ⟨(hfs f hf).inMap, a, b, c⟩) hmany s h hpf hfin entries hdb
  replace hpk := fun t packs (h : PacksOf pf1 es t packs) => hpk t packs (packsOf_keeps hx hk1 h)
  replace hx := index_keeps hx hk1 hpf1
  obtain ⟨hd1, hd2, hd3⟩ := C44_done_partial hx hne h' hrun hdone
  have hwf : pf.WF := hk2.1
  obtain ⟨c, hc⟩ : ∃ c, List.Forall₂ (fun (e : UInt64 × Bytes) x => EntryHolds crc pf e x ∧ x.length = 1 ∧
      (x.flatMap (·.2)).Perm (goesTo fs (keyToTile e.1))) features c := by
    apply forall₂_of_mem
    intro e he
    have hedb := (hdb'.same e.1 e.2).1 he
    obtain ⟨k1, k2⟩ := hd2 _ _ hedb
    obtain ⟨k, r, packs, e1, e2, e3, e4⟩ := hd1 _ k2
    replace e4 := hk2.2 _ _ e4
    rw [k1] at e1; injection e1 with e1; subst e1
    rw [hedb] at e2; injection e2 with e2
    obtain ⟨a, b, fss, c1, c2⟩ := hpk _ _ e3
    have hfit : packRecordsDeserialize e.2 = .ok [r] := by
      rw [e2]
      refine C05_records_round_trip _ (fun r' hr' => ?_)
      rw [List.mem_singleton] at hr'; subst hr'
      have := (PackFile.get_eq_ok_iff ..).1 e4
      unfold PackRecord.endOffset at this
      exact ⟨by omega, by omega⟩
    have hl : ∀ f ∈ goesTo fs (keyToTile e.1), Packable mk dec ser f ∧ touches (boundingBox f.geometry) (keyToTile e.1) := by
      intro f hf
      obtain ⟨x, a, b, rfl⟩ := mem_goesTo hf
      exact ⟨(hfs x a).toPackable, importable_touches (hfs x a) b⟩
    obtain ⟨pack, p1, _⟩ := indexed_read crc srt mk rd dec ser hsrt hd hm a b hl c1 c2
    rw [hfn _ _ _ p1] at e4
    have hlen : pack.length ≤ 2 ^ 30 := by
      have hg := (PackFile.get_eq_ok_iff ..).1 e4
      rw [← hg.2.2]
      have := hsmall _ _ _ hedb hfit r (by simp)
      refine le_trans ?_ this
      simp [slice]
    obtain ⟨fs', q1, gs, q2, ss, n, q3, q4⟩ := C13_packs crc srt hsrt mk rd dec _ a (by omega) _ _ p1 (by omega)
    have hread := readPacks_exact crc mk rd dec hd c1 (fun l hl' f hf => (hl f (c2.mem_iff.1 (List.mem_flatten.2 ⟨l, hl', hf⟩))).1.toStorable)
    rw [hread] at q1; injection q1 with q1; subst q1
    refine ⟨[(r, gs)], ⟨hfit, ?_⟩, rfl, by rw [List.flatMap_singleton]; exact q2.trans c2⟩
    intro y hy
    rw [List.mem_singleton] at hy; subst hy
    refine ⟨pack, ss, n, e4, ?_, q4, ?_⟩
    · rw [packIndexed, Res.bind_eq_ok] at p1
      obtain ⟨_, _, p1⟩ := p1
      exact packIndexedFeatures_valid p1
    · have hmem : ∀ f ∈ gs, f.id < 2 ^ 64 := fun f hf => (hl f ((q2.trans c2).mem_iff.1 hf)).1.id
      have hsz : ∀ s ∈ ss, s.length < 2 ^ 32 := fun s hs => by have := unpackFeatures_mem q4 s hs; omega
      have h2 := serializeAll_forall₂ q3
      clear q2 q3 q4
      induction h2 with
      | nil => exact .nil
      | cons h0 _ ih => exact .cons ⟨hmem _ (by simp), hsz _ (by simp), mk, dec, false, h0⟩ (ih (fun f hf => hmem f (by simp [hf])) (fun s hs => hsz s (by simp [hs])))
  have hent : List.Forall₂ (EntryHolds crc pf) features c := hc.imp (fun _ _ h => h.1)
  obtain ⟨st, s1, s2, s3, s4, s5⟩ := C55_features crc pf hwf _ c hent
  have hperm : (c.flatten.flatMap (·.2)).Perm (features.flatMap (fun e => goesTo fs (keyToTile e.1))) ∧
      c.flatten.length = features.length := by
    clear hent s1 s2 s3 s4 s5 hdb'
    induction hc with
    | nil => exact ⟨.refl _, rfl⟩
    | cons h0 _ ih =>
      rw [List.flatten_cons, List.flatMap_append, List.flatMap_cons]
      refine ⟨h0.2.2.append ih.1, ?_⟩
      rw [List.length_append, h0.2.1, ih.2, List.length_cons]; omega
  refine ⟨st, by rw [databaseStats, s1, Res.ok_bind]; rfl, ?_, ?_, ?_, ?_⟩
  · rw [s2, List.length_map]; exact hperm.2
  · rw [s3]; exact hperm.2
  · rw [s4]; exact hperm.1.length_eq
  · rw [s5]; exact hperm.1.map _

end

/-- After preparing tiles in a database without tiles, by any number of threads in any schedule: all stored tiles lie in the levels that are counted, so the
tile statistics (`C55_tiles`) never fail; and the total is the size of all packs and tiles. -/
theorem C55_prepared (render : Tile → Res (Option Bytes)) (keys : List UInt64) (hk : ∀ k ∈ keys, (keyToTile k).Valid ∧ (keyToTile k).z = 10)
    (maxZ workers : Nat) (hz : maxZ ≤ 20) (hw : 0 < workers) (s : PrepShared × List PrepPc)
    (h : PrepRun render keys maxZ workers (fun _ => none) none s) (hfin : PrepPc.finished ∈ s.2) (tiles : List (UInt64 × Bytes)) (hdb : EntriesOf s.1.tiles tiles)
    (crc : Bytes → UInt32) (pf : PackFile) (features : List (UInt64 × Bytes)) (ps : PackStats) (hps : entryStats crc pf features = .ok ps) :
    ∃ sizes, databaseStats crc features pf s.1.maxPrepared tiles = .ok ⟨ps, some (sizes, ps.packs.sum + (tiles.map (·.2.length)).sum)⟩ ∧
      sizes.length = maxZ + 1 ∧ ∀ z (hz : z < sizes.length), sizes[z] = (tiles.filter (fun e => decide ((keyToTile e.1).z = z))).map (·.2.length) := by
  obtain ⟨_, _, hmax, _, _⟩ := C30_complete render keys hk maxZ workers hz hw _ _ s h hfin
  have hne := (prepInv_run hk hz h).1
  have hle : ∀ e ∈ tiles, (keyToTile e.1).z ≤ maxZ := by
    intro e he
    have h1 := (hdb.same e.1 e.2).1 he
    rcases (C30_interrupted render keys hk maxZ workers hz _ _ s h).2 e.1 with h2 | ⟨t, v, h2, h3, h4, h5, h6⟩
    · rw [h1] at h2; cases h2
    · obtain ⟨hx, hy⟩ := dbBounds_le hne
      rw [keyToTile_keyOfTile (area_fits hne hk hz t ((mem_tilesFrom hx hy).2 ⟨h2, h3⟩)).2 h4]
      exact h2
  rw [hmax]
  exact C55_tiles crc pf features ps hps maxZ tiles hle

/-! ### concrete cases -/

/-- a database with one feature, before and after packing -/
example : (∃ entries pf st, databaseStats (fun _ => 0) entries pf none [] = .ok ⟨st, none⟩ ∧ st.feats.headers.length = 1) ∧
    ∃ features pf st, databaseStats (fun _ => 0) features pf none [] = .ok ⟨st, none⟩ ∧ st.packs.length = features.length := by
  have himp : ∀ f ∈ [[whole C14_ex]].flatten, Importable C52_mk [] plainOf f := by
    intro f hf
    rw [show f = whole C14_ex by simpa using hf]
    exact C52_ex_ok
  constructor
  · obtain ⟨s, h1, h2, h3, h4⟩ := C52_inserted
    obtain ⟨st, a, b, _⟩ := C55_inserted (fun _ => 0) C52_mk [] 1000 500 [[whole C14_ex]] plainOf himp (by decide) s h1 (by rw [h4]; decide +kernel) h2 _ h3
    refine ⟨_, _, st, a, ?_⟩
    rw [b]
    have hm : boxMeets C14_ex (keyToTile 5764607523101343744) :=
      ⟨2147483649, 5, by rw [C14_ex_box]; unfold Box.Has; decide, by decide +kernel⟩
    have hat : (whole C14_ex).At (keyToTile 5764607523101343744) := hm
    simp [stored, C52_entries, hat, goesTo]
  · obtain ⟨features, pf, hi⟩ := C52_ex_imported
    obtain ⟨st, a, b, _⟩ := C55_imported (fun _ => 0) keySort C52_mk C52_rd [] 1000 500 [[whole C14_ex]] plainOf C13_sort_exists (by simp)
      (fun l z => by simp [C52_mk, C52_rd]) himp (by decide) features pf hi
    exact ⟨features, pf, st, a, b⟩

/-- three tiles on two levels; and a table with a tile above the recorded level -/
example : databaseStats (fun _ => 0) [] ⟨[], 0⟩ (some 1) [(0, [1, 2]), (576460752303423488, [3]), (576460752303554560, [4, 5, 6])] =
    .ok ⟨⟨[], [], ⟨[], [], []⟩⟩, some ([[2], [1, 3]], 6)⟩ := by decide +kernel
example : databaseStats (fun _ => 0) [] ⟨[], 0⟩ (some 0) [(0, [1, 2]), (576460752303423488, [3])] = .throw_ := by decide +kernel

/-! ### a damaged pack is noticed -/

theorem recordStats_reads {crc : Bytes → UInt32} {pf : PackFile} : ∀ {rs : List PackRecord} {st : PackStats}, recordStats crc pf rs = .ok st →
    ∀ r ∈ rs, ∃ pack, pf.get r = .ok pack ∧ featurePackValid crc pack = true
  | [], _, _, r, hr => by cases hr
  | r :: rs, st, h, r', hr' => by
    rw [recordStats] at h
    obtain ⟨pack, h1, h⟩ := Res.bind_eq_ok.1 h
    obtain ⟨u, h2, h⟩ := Res.bind_eq_ok.1 h
    obtain ⟨⟨ss, n⟩, h3, h⟩ := Res.bind_eq_ok.1 h
    obtain ⟨a, h4, h⟩ := Res.bind_eq_ok.1 h
    obtain ⟨b, h5, h⟩ := Res.bind_eq_ok.1 h
    rcases List.mem_cons.1 hr' with rfl | hr'
    · refine ⟨pack, h1, ?_⟩
      cases hv : featurePackValid crc pack with
      | true => rfl
      | false => rw [hv] at h2; cases h2
    · exact recordStats_reads h5 r' hr'

theorem entryStats_reads {crc : Bytes → UInt32} {pf : PackFile} : ∀ {es : List (UInt64 × Bytes)} {st : PackStats}, entryStats crc pf es = .ok st →
    ∀ e ∈ es, ∃ rs, packRecordsDeserialize e.2 = .ok rs ∧ ∀ r ∈ rs, ∃ pack, pf.get r = .ok pack ∧ featurePackValid crc pack = true
  | [], _, _, e, he => by cases he
  | e :: es, st, h, e', he' => by
    rw [entryStats] at h
    obtain ⟨rs, h1, h⟩ := Res.bind_eq_ok.1 h
    obtain ⟨a, h2, h⟩ := Res.bind_eq_ok.1 h
    obtain ⟨b, h3, h⟩ := Res.bind_eq_ok.1 h
    rcases List.mem_cons.1 he' with rfl | he'
    · exact ⟨rs, h1, recordStats_reads h2⟩
    · exact entryStats_reads h3 e' he'

/-- Statistics are only printed for a database in order: if there are any, every record of every entry lies inside the pack file, and the checksum behind its pack is the
checksum of the pack.  (So a damaged pack is an exception — which C58 says happens for every burst of up to 32 changed bits.) -/
theorem C55_damaged (crc : Bytes → UInt32) (features : List (UInt64 × Bytes)) (pf : PackFile) (maxPrep : Option Nat) (tiles : List (UInt64 × Bytes)) (st : DbStats)
    (h : databaseStats crc features pf maxPrep tiles = .ok st) :
    ∀ e ∈ features, ∃ rs, packRecordsDeserialize e.2 = .ok rs ∧ ∀ r ∈ rs, ∃ content sum, pf.get r = .ok (content ++ sum) ∧ sum.length = 4 ∧ leNat sum = (crc content).toNat := by
  rw [databaseStats] at h
  obtain ⟨ps, h1, _⟩ := Res.bind_eq_ok.1 h
  intro e he
  obtain ⟨rs, h2, h3⟩ := entryStats_reads h1 e he
  refine ⟨rs, h2, fun r hr => ?_⟩
  obtain ⟨pack, h4, h5⟩ := h3 r hr
  unfold featurePackValid at h5
  split at h5
  · cases h5
  · refine ⟨pack.take (pack.length - 4), pack.drop (pack.length - 4), by rw [List.take_append_drop]; exact h4, ?_, by simpa using h5⟩
    rw [List.length_drop]; omega

end Tiles
