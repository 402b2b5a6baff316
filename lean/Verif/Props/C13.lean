import Verif.Proof.IndexedPackTop
import Verif.Props.C11
import Verif.Props.C22
/-!
C13 — indexed packs lose and duplicate nothing on whole-pack reads.

`packIndexed` is `pack_features(tile, metadata_coder, packs)`, `unpackFeatures` the reader of all features of a pack.
-/
namespace Tiles
open Spec

/-- a feature that is stored without loss: values of the C++ types, and polygon rings of at least four points -/
structure Spec.Storable (f : Feature) : Prop extends Spec.FeatureOk f where
  rings : ∀ ps, f.geometry = .polygon ps → ∀ p ∈ ps, ∀ r ∈ p.outer :: p.inners, 4 ≤ r.length

/-- the same feature, its metadata possibly in another order -/
def Spec.SameFeature (r f : Feature) : Prop := ∃ ms, ms.Perm f.metas ∧ r = { f with metas := ms }

/-- Whatever list of features is packed (by any sort by quad key): reading the pack yields their stored forms, each as often as it was packed. -/
theorem C13_features (crc : Bytes → UInt32) (srt : List QFeature → List QFeature) (hsrt : SortsByKey srt) (ser : Feature → Res Bytes)
    (root : Tile) (hv : root.Valid) (hr : root.z ≤ 20) (fs : List Feature) (pack : Bytes)
    (h : packIndexedFeatures crc srt ser root fs = .ok pack) (hl : pack.length < 2 ^ 32) :
    ∃ gs, gs.Perm fs ∧ ∃ ss n, serializeAll ser gs = .ok ss ∧ unpackFeatures pack = .ok (ss, n) := by
  obtain ⟨h1, gs, h2, n, h3⟩ := unpack_all hsrt hv hr h hl
  exact ⟨gs, h2, _, n, serializeAll_ok (fun f hf => (h1 f (h2.mem_iff.1 hf)).1), h3⟩

/-- The same for `pack_features` on input packs: the features of all the input packs. -/
theorem C13_packs (crc : Bytes → UInt32) (srt : List QFeature → List QFeature) (hsrt : SortsByKey srt) (mk : Line → Bytes)
    (rd : Bytes → Nat → List Bool) (dec : List Meta) (root : Tile) (hv : root.Valid) (hr : root.z ≤ 20) (packs : List Bytes) (pack : Bytes)
    (h : packIndexed crc srt mk rd dec root packs = .ok pack) (hl : pack.length < 2 ^ 32) :
    ∃ fs, readPacks rd dec packs = .ok fs ∧ ∃ gs, gs.Perm fs ∧
      ∃ ss n, serializeAll (serializeFeature mk dec false) gs = .ok ss ∧ unpackFeatures pack = .ok (ss, n) := by
  rw [packIndexed, Res.bind_eq_ok] at h
  obtain ⟨fs, h1, h2⟩ := h
  exact ⟨fs, h1, C13_features crc srt hsrt _ root hv hr fs pack h2 hl⟩

theorem readFeatures_same (mk : Line → Bytes) (rd : Bytes → Nat → List Bool) (dec : List Meta) (hd : dec.length ≤ 2 ^ 64) (fast : Bool)
    {fs : List Feature} {ss : List Bytes} (hf : ∀ f ∈ fs, Storable f) (h : serializeAll (serializeFeature mk dec fast) fs = .ok ss)
    (hl : ∀ s ∈ ss, s.length < 2 ^ 32) : ∃ rs, readFeatures rd dec ss = .ok rs ∧ List.Forall₂ SameFeature rs fs := by
  induction fs generalizing ss with
  | nil => injection h with h; subst h; exact ⟨[], rfl, List.Forall₂.nil⟩
  | cons f fs ih =>
    rw [serializeAll, Res.bind_eq_ok] at h
    obtain ⟨s, h1, h⟩ := h
    rw [Res.bind_eq_ok] at h
    obtain ⟨ss', h2, h⟩ := h
    injection h with h
    subst h
    have hf0 := hf f (by simp)
    obtain ⟨ms, e1, _, e2⟩ := C22_same mk rd dec fast f s hf0.toFeatureOk hd hf0.rings h1 (hl s (by simp))
    obtain ⟨rs, h3, h4⟩ := ih (fun g hg => hf g (by simp [hg])) h2 (fun t ht => hl t (by simp [ht]))
    refine ⟨{ f with metas := ms } :: rs, ?_, List.Forall₂.cons ⟨ms, e1, rfl⟩ h4⟩
    rw [readFeatures, e2, Res.ok_bind]
    dsimp only
    rw [h3]; rfl

theorem storable_of_same {r f : Feature} (h : SameFeature r f) (hf : Storable f) : Storable r := by
  obtain ⟨ms, _, rfl⟩ := h
  exact ⟨⟨hf.id, hf.zmin, hf.zmax, hf.layer, hf.coords, hf.counts, hf.points⟩, hf.rings⟩

theorem same_trans {a b c : Feature} (h : SameFeature a b) (h' : SameFeature b c) : SameFeature a c := by
  obtain ⟨ms, h1, rfl⟩ := h
  obtain ⟨ns, h2, rfl⟩ := h'
  exact ⟨ms, h1.trans h2, rfl⟩

/-- an input pack as the inserter writes it: the features serialized with inline metadata, packed without index -/
def Spec.InputPack (crc : Bytes → UInt32) (mk : Line → Bytes) (dec : List Meta) (p : Bytes) (fs : List Feature) : Prop :=
  ∃ ss, serializeAll (serializeFeature mk dec true) fs = .ok ss ∧ (∀ s ∈ ss, s.length < 2 ^ 32) ∧ packFeaturesPlain crc ss = .ok p

theorem readPacks_same (crc : Bytes → UInt32) (mk : Line → Bytes) (rd : Bytes → Nat → List Bool) (dec : List Meta) (hd : dec.length ≤ 2 ^ 64)
    {packs : List Bytes} {fss : List (List Feature)} (h : List.Forall₂ (InputPack crc mk dec) packs fss) (hf : ∀ fs ∈ fss, ∀ f ∈ fs, Storable f) :
    ∃ rs, readPacks rd dec packs = .ok rs ∧ List.Forall₂ SameFeature rs fss.flatten := by
  induction h with
  | nil => exact ⟨[], rfl, List.Forall₂.nil⟩
  | cons h0 _ ih =>
    rename_i p fs packs fss _
    obtain ⟨ss, h1, h2, h3⟩ := h0
    obtain ⟨rs, i1, i2⟩ := ih (fun fs hfs => hf fs (by simp [hfs]))
    obtain ⟨gs, j1, j2⟩ := readFeatures_same mk rd dec hd true (hf fs (by simp)) h1 h2
    have hmin : ∀ s ∈ ss, 32 ≤ s.length := by
      intro s hs
      by_contra hc
      rw [C11_mini_feature_refused crc ss ⟨s, hs, by omega⟩] at h3
      simp at h3
    have hn : ss.length < 2 ^ 32 := by
      by_contra hc
      rw [C11_too_many_refused crc ss (by omega)] at h3
      simp at h3
    obtain ⟨p', k1, n, k2⟩ := C11_pack_round_trip crc ss (fun s hs => ⟨hmin s hs, by have := h2 s hs; omega⟩) hn
    rw [h3] at k1
    injection k1 with k1
    subst k1
    refine ⟨gs ++ rs, ?_, ?_⟩
    · rw [readPacks, k2, Res.ok_bind]
      dsimp only
      rw [j1, Res.ok_bind, i1]
      rfl
    · rw [List.flatten_cons]
      exact List.rel_append j2 i2

/-- From the features to the features: insert features in any number of plain packs, index them, read the whole pack: every feature is there,
as often as it was inserted, and nothing else. -/
theorem C13_end_to_end (crc : Bytes → UInt32) (srt : List QFeature → List QFeature) (hsrt : SortsByKey srt) (mk : Line → Bytes)
    (rd : Bytes → Nat → List Bool) (dec : List Meta) (hd : dec.length ≤ 2 ^ 64) (root : Tile) (hv : root.Valid) (hr : root.z ≤ 20)
    (fss : List (List Feature)) (hf : ∀ fs ∈ fss, ∀ f ∈ fs, Storable f) (packs : List Bytes) (hp : List.Forall₂ (InputPack crc mk dec) packs fss)
    (pack : Bytes) (h : packIndexed crc srt mk rd dec root packs = .ok pack) (hl : pack.length < 2 ^ 32) :
    ∃ ss n rs gs, unpackFeatures pack = .ok (ss, n) ∧ readFeatures rd dec ss = .ok rs ∧ List.Forall₂ SameFeature rs gs ∧ gs.Perm fss.flatten := by
  obtain ⟨fs, h1, gs, h2, ss, n, h3, h4⟩ := C13_packs crc srt hsrt mk rd dec root hv hr packs pack h hl
  obtain ⟨rs, h5, h6⟩ := readPacks_same crc mk rd dec hd hp hf
  rw [h1] at h5
  injection h5 with h5
  subst h5
  obtain ⟨w, h7, h8⟩ := List.perm_comp_forall₂ h2 h6
  have hmem : ∀ g ∈ gs, Storable g := by
    intro g hg
    obtain ⟨i, hi, rfl⟩ := List.getElem_of_mem (h2.mem_iff.1 hg)
    have hlen := h6.length_eq
    have := (List.forall₂_iff_get.1 h6).2 i hi (by omega)
    simp only [List.get_eq_getElem] at this
    refine storable_of_same this ?_
    obtain ⟨fs', hfs', hmem⟩ := List.mem_flatten.1 (List.getElem_mem (l := fss.flatten) (n := i) (by omega))
    exact hf fs' hfs' _ hmem
  have hss : ∀ s ∈ ss, s.length < 2 ^ 32 := by
    rw [unpackFeatures, Res.bind_eq_ok] at h4
    obtain ⟨_, _, h4⟩ := h4
    dsimp only at h4
    split at h4
    · rw [Res.bind_eq_ok] at h4
      obtain ⟨⟨a, b⟩, h4, h4'⟩ := h4
      injection h4' with h4'
      injection h4' with h4' _
      subst h4'
      have key : ∀ (n : Nat) (bs : Bytes) (r : List Bytes × Bytes), unpackLoop n bs = .ok r → ∀ s ∈ r.1, s.length ≤ bs.length := by
        intro n
        induction n with
        | zero => intro bs r h; injection h with h; subst h; simp
        | succ n ih =>
          intro bs r h
          rw [unpackLoop, Res.bind_eq_ok] at h
          obtain ⟨⟨size, b'⟩, h0, h⟩ := h
          dsimp only at h
          split at h
          · rename_i hsz
            rw [Res.bind_eq_ok] at h
            obtain ⟨⟨x, y⟩, h1, h⟩ := h
            injection h with h
            subst h
            have hle : ∀ bs r, nextSize bs = .ok r → r.2.length ≤ bs.length := by
              intro bs
              induction hn : bs.length using Nat.strongRecOn generalizing bs with
              | _ m ihm =>
                intro r hr
                rw [nextSize] at hr
                split at hr
                · rename_i rest heq
                  have := decVarint_rest_lt heq
                  have := ihm rest.length (by omega) rest rfl r hr
                  omega
                · rename_i rest heq
                  have := decVarint_rest_lt heq
                  injection hr with hr; subst hr; dsimp only; omega
                · simp at hr
                · simp at hr
            have hb' := hle _ _ h0
            dsimp only at hb'
            intro s hs
            rcases List.mem_cons.1 hs with rfl | hs
            · rw [List.length_take]; omega
            · have := ih _ _ h1 s hs
              rw [List.length_drop] at this; omega
          · simp at h
      intro s hs
      have := key _ _ _ h4 s hs
      rw [List.length_drop] at this
      omega
    · simp at h4
  obtain ⟨rs', k1, k2⟩ := readFeatures_same mk rd dec hd false hmem h3 hss
  refine ⟨ss, n, rs', w, h4, k1, ?_, h8⟩
  rw [List.forall₂_iff_get] at k2 h7 ⊢
  refine ⟨k2.1.trans h7.1, fun i hi hi' => ?_⟩
  exact same_trans (k2.2 i hi (by omega)) (h7.2 i (by omega) hi')

/-- a sort for the examples -/
def keySort : List QFeature → List QFeature := sortBy (fun a b => !keyLt b.key a.key)

theorem keyLt_trans_false (a b c : List Nat) (h : keyLt b a = false) (h' : keyLt c b = false) : keyLt c a = false := by
  induction a generalizing b c with
  | nil => cases c <;> rfl
  | cons x a ih =>
    cases b with
    | nil => simp [keyLt] at h
    | cons y b =>
      cases c with
      | nil => simp [keyLt] at h'
      | cons z c =>
        rw [keyLt] at h h' ⊢
        by_cases h1 : y < x
        · simp [h1] at h
        · by_cases h2 : z < y
          · simp [h2] at h'
          · rw [if_neg h1] at h
            rw [if_neg h2] at h'
            rw [if_neg (by omega)]
            by_cases h3 : x < z
            · rw [if_pos h3]
            · rw [if_neg h3]
              rw [if_neg (by omega)] at h h'
              exact ih b c h h'

/-- there is such a sort -/
theorem C13_sort_exists : SortsByKey keySort := by
  intro l
  refine ⟨sortBy_perm _ l, ?_⟩
  have := sortBy_sorted (le := fun a b : QFeature => !keyLt b.key a.key) (by
    intro a b c h h'
    simp only [Bool.not_eq_true'] at h h' ⊢
    exact keyLt_trans_false _ _ _ h h') (by
    intro a b
    simp only [Bool.not_eq_true']
    generalize a.key = k, b.key = m
    induction k generalizing m with
    | nil => left; cases m <;> rfl
    | cons x k ih =>
      cases m with
      | nil => right; rfl
      | cons y m =>
        rw [keyLt, keyLt]
        rcases Nat.lt_trichotomy x y with h | h | h
        · left; simp [h, Nat.lt_asymm h]
        · subst h; simpa using ih m
        · right; simp [h, Nat.lt_asymm h]) l
  exact this.imp (fun h => by simpa using h)

/-- hypotheses met: a point and a line in a pack of tile 0/0/0 -/
example : ∃ pack, packIndexedFeatures (fun _ => 0) keySort (fun f => .ok (List.replicate 40 (UInt8.ofNat f.id))) ⟨0, 0, 0⟩
    [⟨7, 1, 5, 20, [], .point [⟨2147483649, 5⟩]⟩, ⟨8, 1, 0, 20, [], .polyline [[⟨10, 20⟩, ⟨3000000000, 40⟩]]⟩] = .ok pack :=
  pack_accepts _ C13_sort_exists (by decide) (by decide) (by
    intro f hf
    rw [List.mem_cons, List.mem_singleton] at hf
    rcases hf with rfl | rfl
    · exact ⟨by simp [GeoOk, linesOf, PtOk, CoordOk], by decide⟩
    · exact ⟨by simp [GeoOk, linesOf, PtOk, CoordOk], by decide⟩) (by
    intro f hf
    rw [List.mem_cons, List.mem_singleton] at hf
    rcases hf with rfl | rfl <;> decide) (by
    intro f hf
    rw [List.mem_cons, List.mem_singleton] at hf
    rcases hf with rfl | rfl <;> decide) (by
    intro f _; exact ⟨_, rfl, by rw [List.length_replicate]; decide⟩)

example : Storable ⟨7, 1, 5, 20, [⟨[1], [2, 3]⟩], .polyline [[⟨10, 20⟩, ⟨30, 40⟩]]⟩ :=
  ⟨⟨by decide, by decide, by decide, by decide, by simp [GeoOk, linesOf, PtOk, CoordOk], by simp [Spec.CountsOk], by simp [envelopePoints]⟩, by simp⟩

end Tiles
