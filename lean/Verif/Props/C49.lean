import Verif.Props.C17
import Verif.Props.C14
import Verif.Props.C23
import Verif.Props.C29
/-! C49 — from the inserter to the tile: a live rendered tile reads exactly the inserted features that it shows. -/
namespace Tiles
open Spec

/-- the entries of a table in key order (what a cursor walks through) -/
structure Spec.EntriesOf (table : UInt64 → Option Bytes) (entries : List (UInt64 × Bytes)) : Prop where
  sorted : DbSorted entries
  same : ∀ k v, (k, v) ∈ entries ↔ table k = some v

/-- a tile shows a feature: the zoom level is in its range, and its bounding box meets the area that is drawn (the tile with its margin) -/
def Spec.Shows (q : Tile) (f : Feature) : Prop :=
  f.zmin ≤ q.z ∧ q.z ≤ f.zmax ∧ meetsBox (drawBounds q) (envelopePoints f.geometry)

/-- the box of the feature meets an index tile (zoom level 10) that shares area with the tile -/
def Spec.Indexed (q : Tile) (f : Feature) : Prop := ∃ t : Tile, t.Valid ∧ t.z = 10 ∧ Meet t q ∧ boxMeets f t

/-- a pack without index, and what any tile gets from it -/
def plainPack (p : Bytes) (ss : List Bytes) : Prop := ∀ root q, unpackTile root p q = .ok ss

theorem packs_plain (crc : Bytes → UInt32) : Packs crc plainPack := by
  intro ss p hp hmin hn root q
  obtain ⟨p', h1, h2⟩ := C14_no_index crc root q ss hmin hn
  rw [hp] at h1; injection h1 with h1; subst h1
  exact h2

theorem serialize_fast (mk mk' : Line → Bytes) (dec dec' : List Meta) (f : Feature) : serializeFeature mk dec true f = serializeFeature mk' dec' true f := rfl

theorem keyToTile_keyOfTile {t : Tile} (h : KeyFits t) {k : UInt64} (hk : keyOfTile t = .ok k) : keyToTile k = t := by
  obtain ⟨k', h1, h2⟩ := keyOfTile_ok h
  rw [hk] at h1; injection h1 with h1; subst h1
  obtain ⟨a, b, c⟩ := h
  obtain ⟨x, y, z⟩ := t
  rw [keyToTile_nat, h2]
  simp only [keyNat, Tile.mk.injEq] at *
  omega

/-- what reading a serialized feature for a tile leaves of it -/
def Spec.asRead (f : Feature) : Feature := { f with geometry := withoutSmallRings f.geometry }

theorem drawBounds_hint {q : Tile} (hv : q.Valid) (hz : q.z ≤ 20) : HintOk (drawBounds q) q.z := by
  obtain ⟨hx, hy⟩ := hv
  have h1 : (q.x + 1) * 2 ^ (20 - q.z) ≤ 2 ^ 20 := by
    calc (q.x + 1) * 2 ^ (20 - q.z) ≤ 2 ^ q.z * 2 ^ (20 - q.z) := Nat.mul_le_mul_right _ hx
      _ = 2 ^ 20 := by rw [← Nat.pow_add]; congr 1; omega
  have h2 : (q.y + 1) * 2 ^ (20 - q.z) ≤ 2 ^ 20 := by
    calc (q.y + 1) * 2 ^ (20 - q.z) ≤ 2 ^ q.z * 2 ^ (20 - q.z) := Nat.mul_le_mul_right _ hy
      _ = 2 ^ 20 := by rw [← Nat.pow_add]; congr 1; omega
  have hp : 0 < 2 ^ (20 - q.z) := Nat.pow_pos (by decide)
  have e : ∀ a : Nat, ((a : Int) * 4096 * 2 ^ (20 - q.z)) = ((a * 2 ^ (20 - q.z) : Nat) : Int) * 4096 := by intro a; push_cast; ring
  have e' : ∀ a : Nat, (((a : Int) + 1) * 4096 * 2 ^ (20 - q.z)) = (((a + 1) * 2 ^ (20 - q.z) : Nat) : Int) * 4096 := by intro a; push_cast; ring
  have m1 : q.x * 2 ^ (20 - q.z) ≤ (q.x + 1) * 2 ^ (20 - q.z) := Nat.mul_le_mul_right _ (Nat.le_succ _)
  have m2 : q.y * 2 ^ (20 - q.z) ≤ (q.y + 1) * 2 ^ (20 - q.z) := Nat.mul_le_mul_right _ (Nat.le_succ _)
  refine ⟨?_, ?_, ?_, ?_, by omega⟩ <;> simp only [drawBounds, pxBounds, kOverdraw, e, e'] <;>
    generalize q.x * 2 ^ (20 - q.z) = a at * <;> generalize (q.x + 1) * 2 ^ (20 - q.z) = b at * <;>
    generalize q.y * 2 ^ (20 - q.z) = c at * <;> generalize (q.y + 1) * 2 ^ (20 - q.z) = d at * <;> norm_num at * <;> omega

/-- reading one stored feature for a tile -/
noncomputable def readFor (ctx : GetCtx) (q : Tile) (b : Bytes) : Option Feature :=
  match deserializeFeature ctx.rd ctx.dec b (drawBounds q) q.z with | .ok o => o | _ => none

theorem readKept_ok (ctx : GetCtx) (q : Tile) (l : List Bytes) (h : ∀ b ∈ l, ∃ o, deserializeFeature ctx.rd ctx.dec b (drawBounds q) q.z = .ok o) :
    readKept ctx (drawBounds q) q.z l = .ok (l.filterMap (readFor ctx q)) := by
  induction l with
  | nil => rfl
  | cons b l ih =>
    obtain ⟨o, ho⟩ := h b (by simp)
    have hr : readFor ctx q b = o := by rw [readFor, ho]
    rw [readKept, ho, Res.ok_bind, ih (fun b hb => h b (by simp [hb])), Res.ok_bind, List.filterMap_cons, hr]
    cases o <;> rfl

theorem readFor_ser (ctx : GetCtx) (hd : ctx.dec.length ≤ 2 ^ 64) {q : Tile} (hv : q.Valid) (hz : q.z ≤ 20) {f : Feature} {b : Bytes}
    (h1 : FeatureOk f) (h2 : serializeFeature (fun _ => []) [] true f = .ok b) (h3 : b.length < 2 ^ 32) :
    (∃ o, deserializeFeature ctx.rd ctx.dec b (drawBounds q) q.z = .ok o) ∧ ∀ g, readFor ctx q b = some g ↔ g = asRead f ∧ Shows q f := by
  obtain ⟨hy, hn⟩ := C23_filter_exact (fun _ => []) ctx.rd ctx.dec f b (drawBounds q) q.z (drawBounds_hint hv hz) h1 hd
    (by rw [← h2]; exact serialize_fast ..) h3
  by_cases hs : Shows q f
  · refine ⟨⟨_, hy hs⟩, fun g => ?_⟩
    rw [readFor, hy hs]
    dsimp only
    rw [Option.some.injEq, eq_comm]
    exact ⟨fun e => ⟨e, hs⟩, fun e => e.1⟩
  · refine ⟨⟨_, hn hs⟩, fun g => ?_⟩
    rw [readFor, hn hs]
    exact ⟨fun e => (by cases e), fun e => absurd e.2 hs⟩

theorem readPacked_ok (ctx : GetCtx) (s : TileSpec) (ps : List (Tile × Bytes)) (ss : Tile × Bytes → List Bytes) (gs : Tile × Bytes → List Feature)
    (h1 : ∀ p ∈ ps, unpackTile p.1 p.2 s.tile = .ok (ss p)) (h2 : ∀ p ∈ ps, readKept ctx s.draw s.tile.z (ss p) = .ok (gs p)) :
    readPacked ctx s ps = .ok (ps.flatMap gs) := by
  induction ps with
  | nil => rfl
  | cons p ps ih =>
    obtain ⟨t, p⟩ := p
    rw [readPacked, h1 (t, p) (by simp), Res.ok_bind, h2 (t, p) (by simp), Res.ok_bind,
      ih (fun p hp => h1 p (by simp [hp])) (fun p hp => h2 p (by simp [hp])), Res.ok_bind]
    rfl

/-- After a complete run of the inserter on an empty database: for any tile, what live rendering reads from the packs are exactly the
inserted features that the tile shows and whose box meets an index tile sharing area with the tile. -/
theorem C49_read (crc : Bytes → UInt32) (upper lower : Nat) (fs : List (List Feature)) (ser : Feature → Bytes)
    (hfs : ∀ f ∈ fs.flatten, FeatureOk f ∧ (boundingBox f.geometry).InRange ∧ serializeFeature (fun _ => []) [] true f = .ok (ser f) ∧
      32 ≤ (ser f).length ∧ (ser f).length < 2 ^ 32) (hmany : fs.flatten.length < 2 ^ 32)
    (s : InsShared × List InsPc) (h : InsRun crc cacheTiles upper lower (fun _ => none) ⟨[], 0⟩ (fs.map (List.map InsCall.feature)) s)
    (hpf : s.1.pf.size < 2 ^ 64) (hfin : .finished ∈ s.2) (features : List (UInt64 × Bytes)) (hdb : EntriesOf s.1.db features)
    (ctx : GetCtx) (hd : ctx.dec.length ≤ 2 ^ 64) (q : Tile) (hv : q.Valid) (hz : q.z ≤ 20) :
    ∃ ps gs, packsOf features s.1.pf q = .ok ps ∧ readPacked ctx (specOf q) ps = .ok gs ∧
      ∀ g, g ∈ gs ↔ ∃ f ∈ fs.flatten, g = asRead f ∧ Shows q f ∧ Indexed q f := by
  classical
  obtain ⟨h1, h2⟩ := ins_features crc (packs_plain crc) upper lower (fun _ => none) ⟨[], 0⟩ (by simp [PackFile.WF]) (fun _ => [])
    (fun t _ _ k _ => rfl) fs ser (fun f hf => by
      obtain ⟨_, a, b, c, d⟩ := hfs f hf
      exact ⟨a, b, c, by omega⟩) hmany s h hpf hfin
  have hser : ∀ f ∈ fs.flatten, FeatureOk f ∧ serializeFeature (fun _ => []) [] true f = .ok (ser f) ∧ (ser f).length < 2 ^ 32 := by
    intro f hf
    obtain ⟨a, _, b, _, d⟩ := hfs f hf
    exact ⟨a, b, d⟩
  -- the index tile of an entry
  have hkey : ∀ e ∈ features, (keyToTile e.1).Valid ∧ (keyToTile e.1).z = 10 ∧ keyOfTile (keyToTile e.1) = .ok e.1 := by
    intro e he
    have he' := (hdb.same e.1 e.2).1 he
    by_contra hc
    rw [h2 e.1] at he'
    · cases he'
    · intro t hv hz hk
      have := keyToTile_keyOfTile (keyFits_of_valid hv (by omega)) hk
      rw [this] at hc
      exact hc ⟨hv, hz, hk⟩
  -- the content of an entry
  have hcon : ∀ e ∈ features, ∃ recs packs, packRecordsDeserialize e.2 = .ok recs ∧
      List.Forall₂ (fun r l => ∃ p, s.1.pf.get r = .ok p ∧ plainPack p l) recs packs ∧
      packs.flatten.Perm ((fs.flatten.filter (fun f => decide (boxMeets f (keyToTile e.1)))).map ser) := by
    intro e he
    obtain ⟨a, b, c⟩ := hkey e he
    obtain ⟨new, h3, h4⟩ := h1 _ a b _ c
    rw [(hdb.same e.1 e.2).1 he, List.nil_append] at h3
    obtain ⟨recs, h5, h6⟩ := h3
    exact ⟨recs, new, h5, h6, h4⟩
  let recs : UInt64 × Bytes → List PackRecord := fun e => match packRecordsDeserialize e.2 with | .ok l => l | _ => []
  let data : PackRecord → Bytes := fun r => match s.1.pf.get r with | .ok b => b | _ => []
  let ss : Tile × Bytes → List Bytes := fun p => match unpackTile p.1 p.2 q with | .ok l => l | _ => []
  -- the packs of an entry
  have hrec : ∀ e ∈ features, packRecordsDeserialize e.2 = .ok (recs e) ∧ (∀ r ∈ recs e, s.1.pf.get r = .ok (data r) ∧
      ∀ t, unpackTile t (data r) q = .ok (ss (t, data r))) ∧
      (∀ t b, (∃ r ∈ recs e, b ∈ ss (t, data r)) ↔ ∃ f ∈ fs.flatten, boxMeets f (keyToTile e.1) ∧ ser f = b) := by
    intro e he
    obtain ⟨rs, packs, h3, h4, h5⟩ := hcon e he
    have hre : recs e = rs := by show (match packRecordsDeserialize e.2 with | .ok l => l | _ => []) = rs; rw [h3]
    have hone : ∀ r l, (∃ p, s.1.pf.get r = .ok p ∧ plainPack p l) → s.1.pf.get r = .ok (data r) ∧ ∀ t, unpackTile t (data r) q = .ok l ∧ ss (t, data r) = l := by
      rintro r l ⟨p, h6, h7⟩
      have hd : data r = p := by show (match s.1.pf.get r with | .ok b => b | _ => []) = p; rw [h6]
      rw [hd]
      refine ⟨h6, fun t => ⟨h7 t q, ?_⟩⟩
      show (match unpackTile t p q with | .ok l => l | _ => []) = l
      rw [h7]
    rw [hre]
    refine ⟨h3, ?_, ?_⟩
    · intro r hr
      obtain ⟨l, hl⟩ : ∃ l, ∃ p, s.1.pf.get r = .ok p ∧ plainPack p l := by
        clear h3 h5 hre
        induction h4 with
        | nil => cases hr
        | cons h1 _ ih =>
          rcases List.mem_cons.1 hr with rfl | hr
          · exact ⟨_, h1⟩
          · exact ih hr
      obtain ⟨h6, h7⟩ := hone r l hl
      exact ⟨h6, fun t => by rw [(h7 t).2]; exact (h7 t).1⟩
    · intro t b
      have : (∃ r ∈ rs, b ∈ ss (t, data r)) ↔ b ∈ packs.flatten := by
        clear h3 h5 hre
        induction h4 with
        | nil => simp
        | cons h1 _ ih =>
          rw [List.flatten_cons, List.mem_append, ← ih, ← ((hone _ _ h1).2 t).2]
          simp
      rw [this, h5.mem_iff, List.mem_map]
      simp only [List.mem_filter, decide_eq_true_eq]
      constructor
      · rintro ⟨f, ⟨a, b⟩, c⟩; exact ⟨f, a, b, c⟩
      · rintro ⟨f, a, b, c⟩; exact ⟨f, ⟨a, b⟩, c⟩
  have hps := C29_packs features hdb.sorted s.1.pf q hv hz recs data (fun e he _ _ => ⟨(hrec e he).1, fun r hr => ((hrec e he).2.1 r hr).1⟩)
  refine ⟨_, _, hps, readPacked_ok ctx (specOf q) _ ss (fun p => (ss p).filterMap (readFor ctx q)) ?_ ?_, ?_⟩
  · intro p hp
    simp only [List.mem_flatMap, List.mem_filter, List.mem_map] at hp
    obtain ⟨e, ⟨he, _⟩, r, hr, rfl⟩ := hp
    exact ((hrec e he).2.1 r hr).2 _
  · intro p hp
    simp only [List.mem_flatMap, List.mem_filter, List.mem_map] at hp
    obtain ⟨e, ⟨he, _⟩, r, hr, rfl⟩ := hp
    apply readKept_ok
    intro b hb
    obtain ⟨f, hf, _, rfl⟩ := ((hrec e he).2.2 _ b).1 ⟨r, hr, hb⟩
    obtain ⟨a, b, c⟩ := hser f hf
    exact (readFor_ser ctx hd hv hz a b c).1
  · intro g
    simp only [List.mem_flatMap, List.mem_filter, List.mem_map, List.mem_filterMap, decide_eq_true_eq]
    constructor
    · rintro ⟨p, ⟨e, ⟨he, h10, hm⟩, r, hr, rfl⟩, b, hb, hg⟩
      obtain ⟨f, hf, hbox, rfl⟩ := ((hrec e he).2.2 _ b).1 ⟨r, hr, hb⟩
      obtain ⟨a, b, c⟩ := hser f hf
      obtain ⟨h3, h4⟩ := ((readFor_ser ctx hd hv hz a b c).2 g).1 hg
      exact ⟨f, hf, h3, h4, _, (hkey e he).1, h10, hm, hbox⟩
    · rintro ⟨f, hf, hg, hs, t, hvt, hzt, hm, hbox⟩
      obtain ⟨k, hk, _⟩ := keyOfTile_ok (keyFits_of_valid hvt (by omega))
      have hkt := keyToTile_keyOfTile (keyFits_of_valid hvt (by omega)) hk
      obtain ⟨v, hdbk⟩ : ∃ v, s.1.db k = some v := by
        obtain ⟨new, h3, h4⟩ := h1 t hvt hzt k hk
        cases hc : s.1.db k with
        | some v => exact ⟨v, rfl⟩
        | none =>
          rw [hc] at h3
          have h3 : [] ++ new = [] := h3
          rw [List.nil_append] at h3
          subst h3
          have : ser f ∈ ([] : List (List Bytes)).flatten := h4.mem_iff.2 (List.mem_map.2 ⟨f, List.mem_filter.2 ⟨hf, by simpa using hbox⟩, rfl⟩)
          cases this
      have he := (hdb.same k v).2 hdbk
      have hb := (hrec (k, v) he).2.2 t (ser f)
      rw [hkt] at hb
      obtain ⟨r, hr, hb⟩ := hb.2 ⟨f, hf, hbox, rfl⟩
      refine ⟨(keyToTile k, data r), ⟨(k, v), ⟨he, ?_⟩, r, hr, rfl⟩, ser f, ?_, ?_⟩
      · dsimp only; rw [hkt]; exact ⟨hzt, hm⟩
      · rw [hkt]; exact hb
      · obtain ⟨a, b, c⟩ := hser f hf
        exact ((readFor_ser ctx hd hv hz a b c).2 g).2 ⟨hg, hs⟩

/-! ### the area of the tile itself -/

theorem own_tile {k s px : Nat} (h1 : k * s ≤ px) (h2 : px < (k + 1) * s) : k = px / s := by
  have : px < k * s + s := by rw [Nat.succ_mul] at h2; exact h2
  exact (Nat.div_eq_of_lt_le (by rwa [Nat.mul_comm] at *) (by rw [Nat.succ_mul]; exact this)).symm

/-- A feature whose box has a point in the area of the tile (without margin) is both shown, if the zoom level is in its range, and found. -/
theorem C49_own_area (f : Feature) (hf : FeatureOk f) (q : Tile) (hv : q.Valid) (hz : q.z ≤ 20) (hmin : f.zmin ≤ q.z) (hmax : q.z ≤ f.zmax)
    (h : boxMeets f q) : Shows q f ∧ Indexed q f := by
  obtain ⟨px, py, ⟨b1, b2, b3, b4⟩, ⟨p1, p2, p3, p4⟩⟩ := h
  obtain ⟨_, ⟨a1, m1, e1⟩, ⟨a2, m2, e2⟩, ⟨a3, m3, e3⟩, ⟨a4, m4, e4⟩⟩ := boundingBox_spec hf.coords hf.points
  constructor
  · refine ⟨hmin, hmax, ⟨px, py⟩, ?_, ⟨a1, m1, by rw [e1]; exact b1⟩, ⟨a3, m3, by rw [e3]; exact b2⟩, ⟨a2, m2, by rw [e2]; exact b3⟩, ⟨a4, m4, by rw [e4]; exact b4⟩⟩
    have e : ∀ a : Nat, ((a : Int) * 4096 * 2 ^ (20 - q.z)) = ((a * side q.z : Nat) : Int) := by intro a; simp only [side]; push_cast; ring
    have e' : ∀ a : Nat, (((a : Int) + 1) * 4096 * 2 ^ (20 - q.z)) = (((a + 1) * side q.z : Nat) : Int) := by intro a; simp only [side]; push_cast; ring
    refine ⟨?_, ?_, ?_, ?_⟩ <;> simp only [drawBounds, pxBounds, kOverdraw, e, e'] <;> omega
  · have hx : q.x = px / side q.z := own_tile p1 p2
    have hy : q.y = py / side q.z := own_tile p3 p4
    obtain ⟨v1, v2⟩ := hv
    have hs10 : side 10 = 2 ^ 22 := by decide
    have hsplit : ∀ z, z ≤ 20 → side z * 2 ^ z = 2 ^ 32 := by
      intro z hz
      rw [side, Nat.mul_assoc, ← Nat.pow_add, Nat.sub_add_cancel hz]
      decide
    have hbound : ∀ k p : Nat, k < 2 ^ q.z → p < (k + 1) * side q.z → p < 2 ^ 32 := by
      intro k p hk hp
      have := hsplit q.z hz
      calc p < (k + 1) * side q.z := hp
        _ ≤ 2 ^ q.z * side q.z := Nat.mul_le_mul_right _ hk
        _ = 2 ^ 32 := by rw [Nat.mul_comm]; exact this
    have hpx := hbound _ _ v1 p2
    have hpy := hbound _ _ v2 p4
    refine ⟨⟨px / 2 ^ 22, py / 2 ^ 22, 10⟩, ⟨?_, ?_⟩, rfl, ?_, px, py, ⟨b1, b2, b3, b4⟩, ?_⟩
    · show px / 2 ^ 22 < 2 ^ 10; norm_num at *; omega
    · show py / 2 ^ 22 < 2 ^ 10; norm_num at *; omega
    · rcases Nat.le_total 10 q.z with hc | hc
      · left
        have : side q.z * 2 ^ (q.z - 10) = 2 ^ 22 := by
          rw [side, Nat.mul_assoc, ← Nat.pow_add, show 20 - q.z + (q.z - 10) = 10 by omega]
          decide
        refine ⟨hc, ?_, ?_⟩ <;> dsimp only
        · rw [hx, Nat.div_div_eq_div_mul, this]
        · rw [hy, Nat.div_div_eq_div_mul, this]
      · right
        have : 2 ^ 22 * 2 ^ (10 - q.z) = side q.z := by
          rw [side, ← Nat.pow_add, show (4096 : Nat) = 2 ^ 12 by decide, ← Nat.pow_add]; congr 1; omega
        refine ⟨hc, ?_, ?_⟩ <;> dsimp only
        · rw [Nat.div_div_eq_div_mul, this, hx]
        · rw [Nat.div_div_eq_div_mul, this, hy]
    · refine ⟨?_, ?_, ?_, ?_⟩ <;> dsimp only <;> rw [hs10] <;> omega

/-- In the margin this is not so: the box of this feature meets the draw bounds of tile 5/15/0, but a tile is rendered from the index tiles
below it only, so the feature is not found. -/
theorem C49_margin_not_found : Shows ⟨15, 0, 5⟩ C14_ex ∧ ¬ Indexed ⟨15, 0, 5⟩ C14_ex := by
  constructor
  · refine ⟨by decide, by decide, ⟨2147483649, 5⟩, by decide, ⟨⟨2147483649, 5⟩, by decide, by decide⟩, ⟨⟨2147483649, 5⟩, by decide, by decide⟩,
      ⟨⟨2147483649, 5⟩, by decide, by decide⟩, ⟨⟨2147483649, 5⟩, by decide, by decide⟩⟩
  · rintro ⟨t, hv, hz, hm, px, py, ⟨b1, b2, b3, b4⟩, ⟨p1, p2, p3, p4⟩⟩
    rw [C14_ex_box] at b1 b2 b3 b4
    dsimp only at b1 b2 b3 b4
    rw [hz] at p1 p2
    have hs10 : side 10 = 4194304 := by decide
    rw [hs10] at p1 p2
    have hpx : px = 2147483649 := by omega
    have ht : t.x = 512 := by omega
    rcases hm with ⟨h1, _⟩ | ⟨h1, h2, _⟩
    · rw [hz] at h1; exact absurd h1 (by decide)
    · rw [hz, ht] at h2; exact absurd h2 (by decide)

/-! ### the whole answer -/

/-- The answer of a live request after a complete run of the inserter: what a client sees is the content (C28) for the sea squares and the
inserted features that the tile shows and that are found. -/
theorem C49_tile (crc : Bytes → UInt32) (upper lower : Nat) (fs : List (List Feature)) (ser : Feature → Bytes)
    (hfs : ∀ f ∈ fs.flatten, FeatureOk f ∧ (boundingBox f.geometry).InRange ∧ serializeFeature (fun _ => []) [] true f = .ok (ser f) ∧
      32 ≤ (ser f).length ∧ (ser f).length < 2 ^ 32) (hmany : fs.flatten.length < 2 ^ 32)
    (s : InsShared × List InsPc) (h : InsRun crc cacheTiles upper lower (fun _ => none) ⟨[], 0⟩ (fs.map (List.map InsCall.feature)) s)
    (hpf : s.1.pf.size < 2 ^ 64) (hfin : .finished ∈ s.2) (features : List (UInt64 × Bytes)) (hdb : EntriesOf s.1.db features)
    (ctx : GetCtx) (hd : ctx.dec.length ≤ 2 ^ 64) (hlab : ctx.label = none) (hsea : ctx.ignoreSeaside = false)
    (hlayers : ∀ f ∈ fs.flatten, f.layer < ctx.layerNames.length) (hcoast : 0 < ctx.layerNames.length)
    (sea : List Tile) (hs : SeaTree sea ctx.seaside)
    (tiles : UInt64 → Option Bytes) (q : Tile) (hv : q.Valid) (hz : q.z ≤ 20) (hi : ctx.ignorePrepared = true ∨ ctx.maxPrepared < q.z) :
    ∃ leafs gs, bqAllLeafs ctx.seaside q = .ok leafs ∧ (∀ g, g ∈ gs ↔ ∃ f ∈ fs.flatten, g = asRead f ∧ Shows q f ∧ Indexed q f) ∧
      ((∀ i, LayerOk ctx.toRenderCtx (specOf q) (ofLayer (leafs.map seaSquare ++ gs) i)) →
        ∃ bytes, getTile tiles features s.1.pf ctx q = .ok (if bytes = [] then none else some (ctx.encode bytes)) ∧
          (bytes.length < 2 ^ 32 → clientTile bytes = some (tileContent ctx.toRenderCtx (specOf q) (leafs.map seaSquare ++ gs)) ∧
            (bytes = [] ↔ tileContent ctx.toRenderCtx (specOf q) (leafs.map seaSquare ++ gs) = []))) := by
  obtain ⟨ps, gs, h1, h2, h3⟩ := C49_read crc upper lower fs ser hfs hmany s h hpf hfin features hdb ctx hd q hv hz
  obtain ⟨leafs, h4, _⟩ := C29_sea_squares ctx q hv hz sea hs
  refine ⟨leafs, gs, h4, h3, fun hok => ?_⟩
  obtain ⟨_, h5⟩ := C29_render ctx hlab q hv hz sea hs ps gs h2 leafs h4 (by
    intro f hf
    rcases List.mem_append.1 hf with hf | hf
    · obtain ⟨t, _, rfl⟩ := List.mem_map.1 hf
      exact hcoast
    · obtain ⟨f', hf', rfl, _⟩ := (h3 f).1 hf
      exact hlayers f' hf') hok
  obtain ⟨bytes, h6, h7⟩ := h5 (by rintro ⟨h, _⟩; rw [hsea] at h; cases h)
  exact ⟨bytes, by rw [C29_live tiles features s.1.pf ctx q hz hi, h1, Res.ok_bind]; exact h6, h7⟩

/-! ### the hypotheses are met: one feature, inserted by one thread -/

section Example
variable {crc : Bytes → UInt32} {upper lower : Nat}

theorem reach_owner {z : InsShared × List InsPc} {a a' w : InsPc} {x x' : InsShared}
    (h : Reach (ThreadStep (insStep crc cacheTiles upper lower)) z (x, [a, w])) (hs : insStep crc cacheTiles upper lower x a = some (x', a')) :
    Reach (ThreadStep (insStep crc cacheTiles upper lower)) z (x', [a', w]) :=
  .step h (ThreadStep.mk x x' [] [w] a a' hs)

theorem reach_worker {z : InsShared × List InsPc} {a w w' : InsPc} {x x' : InsShared}
    (h : Reach (ThreadStep (insStep crc cacheTiles upper lower)) z (x, [a, w])) (hs : insStep crc cacheTiles upper lower x w = some (x', w')) :
    Reach (ThreadStep (insStep crc cacheTiles upper lower)) z (x', [a, w']) :=
  .step h (ThreadStep.mk x x' [a] [] w w' hs)

/-- the loop of line 101 -/
theorem reach_scan {z : InsShared × List InsPc} {w : InsPc} {x : InsShared} {lo : Nat} {k : InsCont} (rest : List Tile) :
    ∀ found, Reach (ThreadStep (insStep crc cacheTiles upper lower)) z (x, [.scan lo rest found k, w]) →
    Reach (ThreadStep (insStep crc cacheTiles upper lower)) z
      (x, [.scan lo [] (((rest.filter (fun t => decide (x.memSize t > 0))).map (fun t => (x.memSize t, t))).reverse ++ found) k, w]) := by
  induction rest with
  | nil => intro found h; exact h
  | cons t rest ih =>
    intro found h
    have := ih _ (reach_owner h rfl)
    rw [List.filter_cons]
    by_cases ht : x.memSize t > 0
    · simp only [ht, if_true, decide_true, List.map_cons, List.reverse_cons, List.append_assoc, List.singleton_append] at this ⊢
      exact this
    · simp only [ht, if_false, decide_false, Bool.false_eq_true] at this ⊢
      exact this

/-- one thread inserts one feature that lies in one index tile; then the inserter is destroyed -/
theorem run_single (f : Feature) (t : Tile) (v : Bytes) (hplan : (InsCall.feature f).plan = .ok ([t], v)) (ht : t ∈ cacheTiles) (hpos : 0 < v.length)
    (hup : v.length ≤ upper) (view : UInt64 → Option Bytes) (pf : PackFile) (hw : writeBucket crc (fun _ => none) ⟨[], 0⟩ t [v] = .ok (view, pf)) :
    ∃ s, InsRun crc cacheTiles upper lower (fun _ => none) ⟨[], 0⟩ ([[f]].map (List.map InsCall.feature)) s ∧ .finished ∈ s.2 ∧ s.1.db = view ∧ s.1.pf = pf := by
  refine ⟨(⟨0, fun t' => if t' = t then 0 else if t' = t then 0 + v.length else 0,
    fun t' => if t' = t then [] else if t' = t then [] ++ [v] else [], false, view, none, pf, 0, false⟩, [.finished, .stop]), ?_, by simp, rfl, rfl⟩
  have h0 : Reach (ThreadStep (insStep crc cacheTiles upper lower)) (insInit (fun _ => none) ⟨[], 0⟩ ([[f]].map (List.map InsCall.feature)))
      (⟨0, fun _ => 0, fun _ => [], false, fun _ => none, none, ⟨[], 0⟩, 1, false⟩, [.join, .idle [.feature f]]) := .refl
  have h1 := reach_worker h0 (x' := _) (w' := .bump v [t] []) (by rw [insStep, hplan])
  have h2 := reach_worker h1 rfl
  try dsimp only at h2
  have h3 := reach_worker h2 (by rw [insStep, if_pos ht])
  try dsimp only at h3
  have h4 := reach_worker h3 rfl
  try dsimp only at h4
  have h5 := reach_worker h4 (show _ = some (_, InsPc.idle []) from if_pos (show 0 + v.length ≤ upper by omega))
  try dsimp only at h5
  have h6 := reach_worker h5 rfl
  try dsimp only at h6
  have h7 := reach_owner h6 (by rw [insStep]; exact if_pos (Nat.sub_self 1))
  try dsimp only at h7
  have h8 := reach_owner h7 (by rw [insStep, if_neg (by simp only [Nat.zero_add, not_le, not_lt, Nat.not_lt, Nat.zero_le]; try exact hpos)])
  try dsimp only at h8
  have h9 := reach_owner h8 rfl
  try dsimp only at h9
  have h10 := reach_owner h9 (by rw [insStep, if_neg (by simp only [Nat.zero_add, not_le, not_lt, Nat.not_lt, Nat.zero_le]; try exact hpos)])
  try dsimp only at h10
  have h11 := reach_scan _ _ h10
  have hfound : (((cacheTiles.filter (fun u => decide ((if u = t then 0 + v.length else 0) > 0))).map
      (fun u => ((if u = t then 0 + v.length else 0), u))).reverse ++ []) = [(0 + v.length, t)] := by
    have hf : cacheTiles.filter (fun u => decide ((if u = t then 0 + v.length else 0) > 0)) = [t] := by
      have : (fun u => decide ((if u = t then 0 + v.length else 0) > 0)) = (fun u : Tile => u == t) := by
        funext u
        by_cases hu : u = t
        · rw [if_pos hu]; simp [hu]; exact hpos
        · rw [if_neg hu]; simp [hu]
      rw [this, List.filter_beq, List.count_eq_one_of_mem cacheTiles_nodup ht]; rfl
    rw [hf]; simp
  try dsimp only at h11
  rw [hfound] at h11
  have h12 := reach_owner h11 (by rw [insStep, if_neg (by simp)])
  try dsimp only at h12
  have hsort : (sortBy bucketLe [(0 + v.length, t)].reverse).map (·.2) = [t] := rfl
  rw [hsort] at h12
  have h13 := reach_owner h12 (by rw [insStep, if_neg (by simp only [Nat.zero_add, not_le, not_lt, Nat.not_lt, Nat.zero_le]; try exact hpos)])
  try dsimp only at h13
  have h14 := reach_owner h13 rfl
  try dsimp only at h14
  have h15 := reach_owner h14 rfl
  try dsimp only at h15
  try dsimp only at h15
  simp only [if_true, List.nil_append] at h15
  have h16 := reach_owner h15 (by rw [insStep]; dsimp only; rw [hw])
  try dsimp only at h16
  have h17 := reach_owner h16 rfl
  try dsimp only at h17
  simp only [insNext, Nat.zero_add, Nat.sub_self] at h17
  simpa [InsRun] using h17
end Example

/-- what the feature of C14 is serialized to -/
def C49_bytes : Bytes := match serializeFeature (fun _ => []) [] true C14_ex with | .ok b => b | _ => []

theorem C49_ser : serializeFeature (fun _ => []) [] true C14_ex = .ok C49_bytes := by
  have : (match serializeFeature (fun _ => []) [] true C14_ex with | .ok _ => true | _ => false) = true := by decide +kernel
  unfold C49_bytes
  cases h : serializeFeature (fun _ => []) [] true C14_ex with
  | ok b => rfl
  | _ => rw [h] at this; cases this

theorem C49_len : C49_bytes.length = 48 := by decide +kernel

theorem C49_ex_ok : FeatureOk C14_ex ∧ (boundingBox C14_ex.geometry).InRange := by
  refine ⟨⟨by decide, by decide, by decide, by decide, by simp [C14_ex, GeoOk, linesOf, PtOk, CoordOk], trivial, by simp [C14_ex, envelopePoints]⟩, ?_⟩
  rw [C14_ex_box]; unfold Box.InRange; decide

/-- the hypotheses of `C49_read` are met by the feature of C14, and tile 5/16/0 shows it -/
example : ∃ s features, InsRun (fun _ => 0) cacheTiles 1000 500 (fun _ => none) ⟨[], 0⟩ ([[C14_ex]].map (List.map InsCall.feature)) s ∧ .finished ∈ s.2 ∧
    s.1.pf.size < 2 ^ 64 ∧ EntriesOf s.1.db features ∧
    (∀ f ∈ [[C14_ex]].flatten, FeatureOk f ∧ (boundingBox f.geometry).InRange ∧ serializeFeature (fun _ => []) [] true f = .ok C49_bytes ∧
      32 ≤ C49_bytes.length ∧ C49_bytes.length < 2 ^ 32) ∧ Shows ⟨16, 0, 5⟩ C14_ex ∧ Indexed ⟨16, 0, 5⟩ C14_ex := by
  have hplan : (InsCall.feature C14_ex).plan = .ok ([⟨512, 0, 10⟩], C49_bytes) := by
    rw [InsCall.plan, C14_ex_box, show makeTileRange ⟨⟨2147483649, 5⟩, ⟨2147483649, 5⟩⟩ = .ok [⟨512, 0, 10⟩] by decide +kernel, Res.ok_bind,
      decide_eq_true (by decide), verify_true, Res.ok_bind, C49_ser]
    rfl
  have hk : keyOfTile ⟨512, 0, 10⟩ = .ok 5764607523101343744 := by decide +kernel
  have hp : ∃ p, packFeaturesPlain (fun _ => 0) [C49_bytes] = .ok p ∧ p.length < 2 ^ 32 := by
    have : (match packFeaturesPlain (fun _ => 0) [C49_bytes] with | .ok p => decide (p.length < 2 ^ 32) | _ => false) = true := by decide +kernel
    cases h : packFeaturesPlain (fun _ => 0) [C49_bytes] with
    | ok p => rw [h] at this; exact ⟨p, rfl, by simpa using this⟩
    | _ => rw [h] at this; cases this
  obtain ⟨p, hp, hpl⟩ := hp
  obtain ⟨s, h1, h2, h3, h4⟩ := run_single (crc := fun _ => 0) (upper := 1000) (lower := 500) C14_ex ⟨512, 0, 10⟩ C49_bytes hplan
    (mem_cacheTiles.2 (by decide)) (by rw [C49_len]; decide) (by rw [C49_len]; decide)
    (fun k' => if k' = 5764607523101343744 then some (packRecordsSerialize [((PackFile.mk [] 0).append p).2]) else none) ((PackFile.mk [] 0).append p).1 (by
      rw [writeBucket, hk, Res.ok_bind, hp, Res.ok_bind]; rfl)
  refine ⟨s, [(5764607523101343744, packRecordsSerialize [((PackFile.mk [] 0).append p).2])], h1, h2, ?_, ⟨?_, ?_⟩, ?_, ?_⟩
  · rw [h4]
    rw [append_size]; show 0 + p.length < 2 ^ 64; omega
  · simp [DbSorted]
  · intro k v
    rw [h3]
    simp only [List.mem_singleton, Prod.mk.injEq]
    constructor
    · rintro ⟨rfl, rfl⟩; exact if_pos rfl
    · intro h
      split at h
      · injection h with h; exact ⟨by assumption, h.symm⟩
      · cases h
  · intro f hf
    rw [show f = C14_ex by simpa using hf]
    exact ⟨C49_ex_ok.1, C49_ex_ok.2, C49_ser, by rw [C49_len]; decide, by rw [C49_len]; decide⟩
  · exact C49_own_area _ C49_ex_ok.1 _ (by decide) (by decide) (by decide) (by decide)
      ⟨2147483649, 5, by rw [C14_ex_box]; unfold Box.Has; decide, by decide⟩

end Tiles
