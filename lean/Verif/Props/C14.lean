import Verif.Props.C13
/-!
C14 — indexed lookups return every feature a tile needs, each once.

`unpackTile root pack q` is `unpack_features(root, pack, q, fn)`: the strings passed to `fn`.
-/
namespace Tiles
open Spec

/-- the box has a point in common with the closed square of tile `q` (fixed coordinates) -/
def Spec.touches (b : Box) (q : Tile) : Prop :=
  (q.x : Int) * side q.z ≤ b.max.x ∧ b.min.x ≤ ((q.x : Int) + 1) * side q.z ∧
  (q.y : Int) * side q.z ≤ b.max.y ∧ b.min.y ≤ ((q.y : Int) + 1) * side q.z

instance (b : Box) (q : Tile) : Decidable (touches b q) := by unfold touches; infer_instance

theorem touches_iff (b : Box) (q : Tile) : touches b q ↔ boxesApart b (insertBounds q) = false := by
  rw [boxesApart_false, touches]
  have : ∀ a : Int, a * (side q.z : Nat) = a * 4096 * 2 ^ (20 - q.z) := by
    intro a; rw [side]; push_cast; ring
  simp only [insertBounds, pxBounds, this]

/-- a lookup for tile `q` in a pack of tile `root` needs the feature -/
def Spec.Needed (root q : Tile) (f : Feature) : Prop :=
  f.zmin ≤ q.z ∧ Meet root q ∧ touches (boundingBox f.geometry) q

instance (root q : Tile) (f : Feature) : Decidable (Needed root q f) := by unfold Needed; infer_instance

/-- The features passed to the callback are part of those packed (none twice, none new), and nothing that is needed is left out. -/
theorem C14_lookup (crc : Bytes → UInt32) (srt : List QFeature → List QFeature) (hsrt : SortsByKey srt) (ser : Feature → Res Bytes)
    (root : Tile) (hv : root.Valid) (hr : root.z ≤ 20) (fs : List Feature) (pack : Bytes)
    (h : packIndexedFeatures crc srt ser root fs = .ok pack) (hl : pack.length ≤ 2 ^ 30) (q : Tile) (hq : q.z ≤ 20) :
    ∃ hits rest, (hits ++ rest).Perm fs ∧ (∃ ss, serializeAll ser hits = .ok ss ∧ unpackTile root pack q = .ok ss) ∧
      ∀ f ∈ rest, ¬ Needed root q f := by
  obtain ⟨best, hb, gs, h1, h2⟩ := unpack_tile hsrt hv hr h hl q hq
  have hs := (unpack_all hsrt hv hr h (by omega)).1
  refine ⟨gs, fs.filter (fun f => !(decide (f.zmin ≤ max root.z q.z) && decide (Meet (best f) q))), ?_, ⟨_, ?_, h2⟩, ?_⟩
  · exact (h1.append_right _).trans (List.filter_append_perm _ fs)
  · exact serializeAll_ok (fun f hf => (hs f (List.mem_filter.1 (h1.mem_iff.1 hf)).1).1)
  · rintro f hf ⟨n1, n2, n3⟩
    rw [List.mem_filter] at hf
    obtain ⟨hf, hc⟩ := hf
    obtain ⟨_, _, _, d⟩ := findBestLoop_spec _ _ root (best f) hv (by simp only [kMaxZoomLevel]; omega) (hb f hf)
    have hm := d q hq n2 ((touches_iff _ _).1 n3)
    have hz : f.zmin ≤ max root.z q.z := by omega
    simp [hm, hz] at hc

/-- The same for `pack_features` on input packs. -/
theorem C14_lookup_packs (crc : Bytes → UInt32) (srt : List QFeature → List QFeature) (hsrt : SortsByKey srt) (mk : Line → Bytes)
    (rd : Bytes → Nat → List Bool) (dec : List Meta) (root : Tile) (hv : root.Valid) (hr : root.z ≤ 20) (packs : List Bytes) (pack : Bytes)
    (h : packIndexed crc srt mk rd dec root packs = .ok pack) (hl : pack.length ≤ 2 ^ 30) (q : Tile) (hq : q.z ≤ 20) :
    ∃ fs hits rest, readPacks rd dec packs = .ok fs ∧ (hits ++ rest).Perm fs ∧
      (∃ ss, serializeAll (serializeFeature mk dec false) hits = .ok ss ∧ unpackTile root pack q = .ok ss) ∧
      ∀ f ∈ rest, ¬ Needed root q f := by
  rw [packIndexed, Res.bind_eq_ok] at h
  obtain ⟨fs, h1, h2⟩ := h
  obtain ⟨hits, rest, h3⟩ := C14_lookup crc srt hsrt _ root hv hr fs pack h2 hl q hq
  exact ⟨fs, hits, rest, h1, h3⟩

/-- What exactly is returned: the features that are visible at the zoom level of the query (or of the root, for a query above it) and whose
index tile (the smallest tile below the root whose closed square alone meets the box) shares area with the query. -/
theorem C14_exact (crc : Bytes → UInt32) (srt : List QFeature → List QFeature) (hsrt : SortsByKey srt) (ser : Feature → Res Bytes)
    (root : Tile) (hv : root.Valid) (hr : root.z ≤ 20) (fs : List Feature) (pack : Bytes)
    (h : packIndexedFeatures crc srt ser root fs = .ok pack) (hl : pack.length ≤ 2 ^ 30) (q : Tile) (hq : q.z ≤ 20) :
    ∃ best : Feature → Tile, (∀ f ∈ fs, findBestTile root f = .ok (best f)) ∧
    ∃ gs ss, gs.Perm (fs.filter (fun f => decide (f.zmin ≤ max root.z q.z) && decide (Meet (best f) q))) ∧
      serializeAll ser gs = .ok ss ∧ unpackTile root pack q = .ok ss := by
  obtain ⟨best, hb, gs, h1, h2⟩ := unpack_tile hsrt hv hr h hl q hq
  have hs := (unpack_all hsrt hv hr h (by omega)).1
  exact ⟨best, hb, gs, _, h1, serializeAll_ok (fun f hf => (hs f (List.mem_filter.1 (h1.mem_iff.1 hf)).1).1), h2⟩

/-- Packing succeeds for every list of features that lie at the root, become visible at zoom level 20 or earlier, and whose stored form
has at least 32 bytes. -/
theorem C14_accepts (crc : Bytes → UInt32) (srt : List QFeature → List QFeature) (hsrt : SortsByKey srt) (ser : Feature → Res Bytes)
    (root : Tile) (hv : root.Valid) (hr : root.z ≤ 20) (fs : List Feature) (hpts : ∀ f ∈ fs, GeoOk f.geometry ∧ envelopePoints f.geometry ≠ [])
    (hin : ∀ f ∈ fs, touches (boundingBox f.geometry) root) (hz : ∀ f ∈ fs, f.zmin ≤ 20)
    (hser : ∀ f ∈ fs, ∃ s, ser f = .ok s ∧ 32 ≤ s.length) :
    ∃ pack, packIndexedFeatures crc srt ser root fs = .ok pack := by
  exact pack_accepts crc hsrt hv hr hpts (fun f hf => (touches_iff _ _).1 (hin f hf)) hz hser

/-- A feature that does not lie at the root (not even at its border) makes packing throw. -/
theorem C14_outside_throws (crc : Bytes → UInt32) (srt : List QFeature → List QFeature) (ser : Feature → Res Bytes)
    (root : Tile) (hv : root.Valid) (hr : root.z < 20) (f : Feature) (fs : List Feature) (hout : ¬ touches (boundingBox f.geometry) root) :
    packIndexedFeatures crc srt ser root (f :: fs) = .throw_ := by
  have hb : boxesApart (boundingBox f.geometry) (insertBounds root) = true := by
    rw [touches_iff] at hout; simpa using hout
  have : findBestTile root f = .throw_ := by
    rw [findBestTile, show kMaxZoomLevel - root.z = (19 - root.z) + 1 by simp only [kMaxZoomLevel]; omega]
    exact findBestLoop_throws hv (by omega) hb
  rw [packIndexedFeatures, decide_eq_true (by simp only [kMaxZoomLevel]; omega), verify_true, Res.ok_bind, locateAll, locate, this]
  rfl

/-- So does one that only becomes visible below zoom level 20. -/
theorem C14_deep_throws (crc : Bytes → UInt32) (srt : List QFeature → List QFeature) (ser : Feature → Res Bytes)
    (root : Tile) (hr : root.z ≤ 20) (f : Feature) (fs : List Feature) (hz : 20 < f.zmin) :
    ¬ ∃ pack, packIndexedFeatures crc srt ser root (f :: fs) = .ok pack := by
  rintro ⟨pack, h⟩
  rw [packIndexedFeatures, Res.bind_eq_ok] at h
  obtain ⟨_, _, h⟩ := h
  rw [Res.bind_eq_ok] at h
  obtain ⟨qs, h, _⟩ := h
  rw [locateAll, Res.bind_eq_ok] at h
  obtain ⟨q, h, _⟩ := h
  rw [locate, Res.bind_eq_ok] at h
  obtain ⟨t, _, h⟩ := h
  have : ¬ bucketOf root f < kMaxZoomLevel + 1 - root.z := by
    simp only [bucketOf, kMaxZoomLevel]; omega
  rw [decide_eq_false this] at h
  simp at h

/-- Without an index every feature of the pack is passed on. -/
theorem C14_no_index (crc : Bytes → UInt32) (root q : Tile) (ss : List Bytes) (h : ∀ s ∈ ss, 32 ≤ s.length ∧ s.length < 2 ^ 64)
    (hn : ss.length < 2 ^ 32) : ∃ p, packFeaturesPlain crc ss = .ok p ∧ unpackTile root p q = .ok ss := by
  obtain ⟨p, h1, n, h2⟩ := C11_pack_round_trip crc ss h hn
  refine ⟨p, h1, ?_⟩
  have hp : ∃ tl, p = leBytes 4 ss.length ++ (0 :: tl) := by
    have h0 : finishHeader ss.length [] = .ok (leBytes 4 ss.length ++ leBytes 1 0) := by
      have : ss.length ≤ 4294967295 := by omega
      simp [finishHeader, this]
    rw [packFeaturesPlain, h0, Res.ok_bind, Res.bind_eq_ok] at h1
    obtain ⟨b, _, h1⟩ := h1
    injection h1 with h1
    exact ⟨b ++ leBytes 4 (crc (leBytes 4 ss.length ++ leBytes 1 0 ++ b)).toNat, by rw [← h1, finishPack]; simp [leBytes]⟩
  obtain ⟨tl, hp⟩ := hp
  have hlen : 5 ≤ p.length := by rw [hp]; simp; omega
  have hd : (p.drop 4).take 1 = [0] := by
    rw [hp, List.drop_append_of_le_length (by simp), List.drop_eq_nil_of_le (by simp)]; rfl
  have hseg : findSegmentOffset p 0 = .ok none := by
    rw [findSegmentOffset, if_neg (by omega)]
    dsimp only
    rw [hd, show leNat [0] = 0 by rfl, if_pos (by omega)]
    rfl
  rw [unpackTile, decide_eq_true (by omega), verify_true, Res.ok_bind, hseg, Res.ok_bind]
  dsimp only
  rw [h2]
  rfl

/-! ### concrete cases -/

/-- a point in the middle of the map, one pixel (at zoom 20) right of the border between the tiles 1/0/0 and 1/1/0 -/
def C14_ex : Feature := ⟨7, 1, 5, 20, [⟨[1, 2, 3, 4, 5, 6, 7, 8], [2, 3, 4, 5, 6, 7, 8, 9]⟩], .point [⟨2147483649, 5⟩]⟩

theorem C14_ex_best : findBestTile ⟨0, 0, 0⟩ C14_ex = .ok ⟨524288, 0, 20⟩ := by decide +kernel

theorem C14_ex_box : boundingBox C14_ex.geometry = ⟨⟨2147483649, 5⟩, ⟨2147483649, 5⟩⟩ := by decide

/-- The index knows nothing of the margin that is drawn around a tile: the point lies in the draw bounds of tile 1/0/0 and is passed on by
a pack without index, but not by an indexed one. -/
theorem C14_overdraw_depends_on_index (crc : Bytes → UInt32) (srt : List QFeature → List QFeature) (hsrt : SortsByKey srt)
    (ser : Feature → Res Bytes) (pack : Bytes) (h : packIndexedFeatures crc srt ser ⟨0, 0, 0⟩ [C14_ex] = .ok pack) (hl : pack.length ≤ 2 ^ 30) :
    boxesApart (boundingBox C14_ex.geometry) (drawBounds ⟨0, 0, 1⟩) = false ∧ unpackTile ⟨0, 0, 0⟩ pack ⟨0, 0, 1⟩ = .ok [] := by
  refine ⟨by rw [C14_ex_box]; decide, ?_⟩
  obtain ⟨best, hb, gs, ss, h1, h2, h3⟩ := C14_exact crc srt hsrt ser ⟨0, 0, 0⟩ (by decide) (by decide) [C14_ex] pack h hl ⟨0, 0, 1⟩ (by decide)
  have hbe := hb C14_ex (by simp)
  rw [C14_ex_best] at hbe
  injection hbe with hbe
  have hm : ¬ Meet (best C14_ex) ⟨0, 0, 1⟩ := by rw [← hbe]; decide
  simp only [List.filter_cons, hm, decide_false, Bool.and_false, Bool.false_eq_true, if_false, List.filter_nil] at h1
  have := List.Perm.eq_nil h1
  subst this
  injection h2 with h2
  rw [h3, h2]

/-- hypotheses met: two features of a pack of tile 0/0/0, and what is needed of them -/
def C14_ex2 : Feature := ⟨8, 1, 0, 20, [⟨[1, 2, 3, 4, 5, 6, 7, 8], [2, 3, 4, 5, 6, 7, 8, 9]⟩], .polyline [[⟨10, 20⟩, ⟨3000000000, 40⟩]]⟩

example : ∃ pack, packIndexedFeatures (fun _ => 0) keySort (fun f => .ok (List.replicate 40 (UInt8.ofNat f.id))) ⟨0, 0, 0⟩ [C14_ex, C14_ex2] = .ok pack :=
  C14_accepts _ _ C13_sort_exists _ _ (by decide) (by decide) _ (by
    intro f hf
    rw [List.mem_cons, List.mem_singleton] at hf
    rcases hf with rfl | rfl
    · exact ⟨by simp [C14_ex, GeoOk, linesOf, PtOk, CoordOk], by decide⟩
    · exact ⟨by simp [C14_ex2, GeoOk, linesOf, PtOk, CoordOk], by decide⟩) (by
    intro f hf
    rw [List.mem_cons, List.mem_singleton] at hf
    rcases hf with rfl | rfl <;> decide) (by
    intro f hf
    rw [List.mem_cons, List.mem_singleton] at hf
    rcases hf with rfl | rfl <;> decide) (by
    intro f _; exact ⟨_, rfl, by rw [List.length_replicate]; decide⟩)

example : Needed ⟨0, 0, 0⟩ ⟨1, 0, 1⟩ C14_ex2 ∧ ¬ Needed ⟨0, 0, 0⟩ ⟨1, 0, 1⟩ C14_ex ∧ Needed ⟨0, 0, 0⟩ ⟨16, 0, 5⟩ C14_ex := by decide

end Tiles
