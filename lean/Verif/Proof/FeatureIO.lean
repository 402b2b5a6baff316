import Verif.Model.FeatureIO
import Verif.Props.C24
import Verif.Props.C41
import Verif.Props.C42
/- Helper lemmas: reading what serialize_feature wrote. -/
namespace Tiles
open Spec

/-- the loop over already split fields -/
def featFold (rd : Bytes → Nat → List Bool) (dec : List Meta) (box : Box) (zoom : Nat) :
    List PbfField → FeatState → Res (Option FeatState)
  | [], st => .ok (some st)
  | f :: fs, st => do
    match ← featField rd dec box zoom st f with
    | none => return none
    | some st => featFold rd dec box zoom fs st

variable (rd : Bytes → Nat → List Bool) (dec : List Meta) (box : Box) (zoom : Nat)

theorem featLoop_enc (fs : List PbfField) (h : ∀ f ∈ fs, f.Ok) (fuel : Nat) (hf : (encMessage fs).length ≤ fuel) (st : FeatState) :
    featLoop rd dec box zoom fuel (encMessage fs) st = featFold rd dec box zoom fs st := by
  induction fs generalizing fuel st with
  | nil => cases fuel <;> rfl
  | cons f fs ih =>
    have hp := f.enc_length_pos
    have e : encMessage (f :: fs) = f.enc ++ encMessage fs := rfl
    rw [e] at hf ⊢
    rw [List.length_append] at hf
    obtain ⟨n, rfl⟩ : ∃ n, fuel = n + 1 := ⟨fuel - 1, by omega⟩
    have hd := decField_enc f (encMessage fs) (h f (by simp))
    cases hx : f.enc ++ encMessage fs with
    | nil => rw [List.append_eq_nil_iff] at hx; rw [hx.1] at hp; simp at hp
    | cons b bs =>
      rw [hx] at hd
      rw [featLoop, hd, Res.ok_bind]
      · dsimp only
        rw [featFold]
        congr 1
        funext o
        cases o with
        | none => rfl
        | some st => exact ih (fun g hg => h g (by simp [hg])) n (by omega) st
      · simp

theorem featFold_append (a b : List PbfField) (st : FeatState) :
    featFold rd dec box zoom (a ++ b) st = (do
      match ← featFold rd dec box zoom a st with
      | none => return none
      | some st => featFold rd dec box zoom b st) := by
  induction a generalizing st with
  | nil => rfl
  | cons f a ih =>
    rw [List.cons_append, featFold, featFold]
    cases featField rd dec box zoom st f with
    | throw_ => rfl
    | ub => rfl
    | ok o =>
      rw [Res.ok_bind, Res.ok_bind]
      cases o with
      | none => rfl
      | some st => exact ih st

theorem bytes_len_le {fs : List PbfField} {t : Nat} {d : Bytes} (h : PbfField.bytes t d ∈ fs) : d.length ≤ (encMessage fs).length := by
  have h1 : (PbfField.enc (.bytes t d)).length ≤ (encMessage fs).length := by
    induction fs with
    | nil => simp at h
    | cons f fs ih =>
      rw [show encMessage (f :: fs) = f.enc ++ encMessage fs from rfl, List.length_append]
      rcases List.mem_cons.1 h with rfl | h
      · omega
      · have := ih h; omega
  simp only [PbfField.enc, List.length_append] at h1
  omega

/-! ### metadata -/

theorem fold_keys (ks : List Bytes) (st : FeatState) :
    featFold rd dec box zoom (ks.map (.bytes 4)) st = .ok (some { st with metas := st.metas ++ ks.map (fun k => ⟨k, []⟩) }) := by
  induction ks generalizing st with
  | nil => simp [featFold]
  | cons k ks ih =>
    simp only [List.map_cons, featFold, featField]
    rw [if_neg (by decide), if_neg (by decide), if_neg (by decide), if_pos trivial]
    simp only [Res.pure_eq, Res.ok_bind]
    rw [ih]
    simp

theorem modify_mid {α : Type} (pre : List α) (a : α) (l : List α) (g : α → α) :
    (pre ++ a :: l).modify pre.length g = pre ++ g a :: l := by
  induction pre with
  | nil => rfl
  | cons b pre ih => simp [ih]

theorem fold_values (ms pre : List Meta) (st : FeatState) (h : st.metas = pre ++ ms.map (fun m => ⟨m.key, []⟩)) (hf : st.fill = pre.length) :
    featFold rd dec box zoom (ms.map (fun m => .bytes 5 m.value)) st =
      .ok (some { st with metas := pre ++ ms, fill := pre.length + ms.length }) := by
  induction ms generalizing pre st with
  | nil => cases st; simp at h hf; subst h hf; simp [featFold]
  | cons m ms ih =>
    simp only [List.map_cons, featFold, featField]
    rw [if_neg (by decide), if_neg (by decide), if_neg (by decide), if_neg (by decide), if_pos trivial]
    have hlt : decide (st.fill < st.metas.length) = true := by rw [decide_eq_true_iff, h, hf]; simp
    rw [hlt]
    simp only [verify_true, Res.pure_eq, Res.ok_bind]
    rw [ih (pre ++ [m])]
    · simp; omega
    · simp only [h, hf]
      rw [List.map_cons, modify_mid]
      simp
    · simp [hf]

theorem fold_inline (ms : List Meta) (st : FeatState) (hf : st.fill = st.metas.length) :
    featFold rd dec box zoom (ms.map (fun m => .bytes 4 m.key) ++ ms.map (fun m => .bytes 5 m.value)) st =
      .ok (some { st with metas := st.metas ++ ms, fill := st.metas.length + ms.length }) := by
  rw [featFold_append]
  have := fold_keys rd dec box zoom (ms.map (·.key)) st
  rw [List.map_map] at this
  have e : (ms.map (fun m => PbfField.bytes 4 m.key)) = ms.map (PbfField.bytes 4 ∘ fun m => m.key) := rfl
  rw [e, this, Res.ok_bind]
  dsimp only
  rw [fold_values rd dec box zoom ms st.metas _ (by simp [Function.comp_def]) (by simp [hf])]

theorem decodeMetas_enc (ms : List Meta) : decodeMetas dec (ms.filterMap (metaEncode dec)) = .ok (ms.filter (fun m => (metaEncode dec m).isSome)) := by
  induction ms with
  | nil => rfl
  | cons m ms ih =>
    cases h : metaEncode dec m with
    | none => simp [h, ih]
    | some i =>
      rw [List.filterMap_cons, h, List.filter_cons]
      simp [h, decodeMetas, C24_encode_decode dec m i h, ih]

theorem metaEncode_lt {q : Meta} {i : Nat} (h : metaEncode dec q = some i) : i < dec.length := by
  by_cases hi : i < dec.length
  · exact hi
  · have := C24_encode_decode dec q i h
    rw [C24_unknown_index_throws dec i (by omega)] at this
    cases this

/-- the metadata as read: inline in order, through the table those in the table first -/
def metasRead (dec : List Meta) (fast : Bool) (ms : List Meta) : List Meta :=
  if fast then ms else ms.filter (fun m => (metaEncode dec m).isSome) ++ ms.filter (fun m => (metaEncode dec m).isNone)

theorem metasRead_perm (fast : Bool) (ms : List Meta) : (metasRead dec fast ms).Perm ms := by
  unfold metasRead
  split
  · exact .refl _
  · have := List.filter_append_perm (fun m => (metaEncode dec m).isSome) ms
    simpa using this

theorem fold_metas (fast : Bool) (ms : List Meta) (hd : dec.length ≤ 2 ^ 64) (st : FeatState) (hm : st.metas = []) (hf : st.fill = 0) :
    featFold rd dec box zoom (featureMetaFields dec fast ms) st =
      .ok (some { st with metas := metasRead dec fast ms, fill := ms.length }) := by
  have hlen := (metasRead_perm dec fast ms).length_eq
  unfold featureMetaFields
  cases fast with
  | true =>
    rw [if_pos rfl, fold_inline _ _ _ _ _ _ (by simp [hm, hf])]
    simp [metasRead, hm]
  | false =>
    rw [if_neg (by simp)]
    dsimp only
    rw [featFold_append]
    have h1 : featFold rd dec box zoom (if (ms.filterMap (metaEncode dec)).isEmpty then [] else
        [.bytes 3 ((ms.filterMap (metaEncode dec)).flatMap encVarint)]) st =
        .ok (some { st with metas := ms.filter (fun m => (metaEncode dec m).isSome),
                            fill := (ms.filter (fun m => (metaEncode dec m).isSome)).length }) := by
      have hdm := decodeMetas_enc dec ms
      split
      · rename_i he
        rw [List.isEmpty_iff] at he
        rw [he] at hdm
        injection hdm with hdm
        cases st
        simp only at hm hf
        subst hm hf
        simp [featFold, ← hdm]
      · simp only [featFold, featField]
        rw [if_neg (by decide), if_neg (by decide), if_pos trivial, decPacked_enc]
        · simp [hm, hdm]
        · intro v hv
          obtain ⟨m, _, hm⟩ := List.mem_filterMap.1 hv
          have := metaEncode_lt dec hm
          omega
    rw [h1, Res.ok_bind]
    dsimp only
    rw [fold_inline _ _ _ _ _ _ (by simp)]
    dsimp only
    rw [← List.length_append]
    simp only [metasRead] at hlen ⊢
    simp only [Bool.false_eq_true, if_false] at hlen ⊢
    rw [hlen]

theorem fold_masks (ms : List Bytes) (st : FeatState) :
    featFold rd dec box zoom (ms.map (.bytes 6)) st = .ok (some { st with masks := st.masks ++ ms }) := by
  induction ms generalizing st with
  | nil => simp [featFold]
  | cons k ks ih =>
    simp only [List.map_cons, featFold, featField]
    rw [if_neg (by decide), if_neg (by decide), if_neg (by decide), if_neg (by decide), if_neg (by decide), if_pos trivial]
    simp only [Res.pure_eq, Res.ok_bind]
    rw [ih]
    simp

/-! ### header -/

theorem headerNext_enc {v : Int} (h1 : -(2 : Int) ^ 63 ≤ v) (h2 : v < (2 : Int) ^ 63) (r : Bytes) :
    headerNext (encS64 v ++ r) = .ok (v, r) := by
  have := next_enc h1 h2 r magicXY none
  rw [headerNext, encS64_ne_nil]
  rw [if_neg (by simp)]
  rw [encS64, decVarint_enc _ _ (zigzag_lt h1 h2), Res.ok_bind]
  simp only [Res.pure_eq]
  rw [unzigzag_zigzag]

theorem toI64_range (n : Nat) : -(2 : Int) ^ 63 ≤ toI64 n ∧ toI64 n < (2 : Int) ^ 63 := by
  unfold toI64 bitsI64
  norm_num
  split <;> omega

theorem toU64_toI64 {n : Nat} (h : n < 2 ^ 64) : toU64 (toI64 n) = n := by
  unfold toU64 toI64 bitsI64
  norm_num at h ⊢
  split <;> omega

theorem toU32_cast {n : Nat} (h : n < 2 ^ 32) : toU32 n = n := by
  unfold toU32
  norm_num at h ⊢
  omega

/-- the header checks: zoom level outside the stored range, or box beside the stored box -/
def headerDrops (box : Box) (zoom : Nat) (f : Feature) : Prop :=
  (zoom ≠ kInvalidZoomLevel ∧ (zoom < f.zmin ∨ f.zmax < zoom)) ∨
  (box.min.x ≠ kInvalidBoxHint ∧ box.max.x ≠ kInvalidBoxHint ∧
    ((boundingBox f.geometry).max.x < box.min.x ∨ (boundingBox f.geometry).min.x > box.max.x)) ∨
  (box.min.y ≠ kInvalidBoxHint ∧ box.max.y ≠ kInvalidBoxHint ∧
    ((boundingBox f.geometry).max.y < box.min.y ∨ (boundingBox f.geometry).min.y > box.max.y))

instance (box : Box) (zoom : Nat) (f : Feature) : Decidable (headerDrops box zoom f) := by unfold headerDrops; infer_instance

theorem readHeader_enc (f : Feature) (st : FeatState) (hz1 : f.zmin < 2 ^ 32) (hz2 : f.zmax < 2 ^ 32) (hl : f.layer < 2 ^ 64)
    (h1 : PtOk (boundingBox f.geometry).min) (h2 : PtOk (boundingBox f.geometry).max) :
    readHeader box zoom st ((featureHeader f).flatMap encS64) =
      .ok (@ite _ (headerDrops box zoom f) (Classical.dec _) none (some { st with zmin := f.zmin, zmax := f.zmax, layer := f.layer })) := by
  have hm := magic_ok
  have r3 := delta_range hm.1 h1.1
  have r4 := delta_range h1.1 h2.1
  have r5 := delta_range hm.2 h1.2
  have r6 := delta_range h1.2 h2.2
  have r7 := toI64_range f.layer
  have r1 : -(2 : Int) ^ 63 ≤ (f.zmin : Int) ∧ (f.zmin : Int) < (2 : Int) ^ 63 := by norm_num at hz1 ⊢; omega
  have r2 : -(2 : Int) ^ 63 ≤ (f.zmax : Int) ∧ (f.zmax : Int) < (2 : Int) ^ 63 := by norm_num at hz2 ⊢; omega
  have c1 := toU32_cast hz1
  have c2 := toU32_cast hz2
  have c3 := toU64_toI64 hl
  have em : magicXY.x = (kFixedCoordMagicOffset : Int) := rfl
  have em' : magicXY.y = (kFixedCoordMagicOffset : Int) := rfl
  rw [em] at r3
  rw [em'] at r5
  have hdef : headerDrops box zoom f = _ := headerDrops.eq_1 box zoom f
  simp only [featureHeader, List.flatMap_cons, List.flatMap_nil]
  generalize headerDrops box zoom f = P at hdef ⊢
  generalize boundingBox f.geometry = B at *
  unfold readHeader
  generalize (kFixedCoordMagicOffset : Int) = M at *
  rw [headerNext_enc r1.1 r1.2, Res.ok_bind]
  dsimp only
  rw [c1]
  by_cases g1 : zoom ≠ kInvalidZoomLevel ∧ zoom < f.zmin
  · rw [if_pos g1, if_pos (hdef.mpr (.inl ⟨g1.1, .inl g1.2⟩))]; rfl
  rw [if_neg g1, headerNext_enc r2.1 r2.2, Res.ok_bind]
  dsimp only
  rw [c2]
  by_cases g2 : zoom ≠ kInvalidZoomLevel ∧ f.zmax < zoom
  · rw [if_pos g2, if_pos (hdef.mpr (.inl ⟨g2.1, .inr g2.2⟩))]; rfl
  rw [if_neg g2, headerNext_enc r3.1 r3.2, Res.ok_bind]
  dsimp only
  rw [headerNext_enc r4.1 r4.2, Res.ok_bind]
  dsimp only
  rw [show M + (B.min.x - M) = B.min.x from by omega, show B.min.x + (B.max.x - B.min.x) = B.max.x from by omega]
  by_cases g3 : box.min.x ≠ kInvalidBoxHint ∧ box.max.x ≠ kInvalidBoxHint ∧ (B.max.x < box.min.x ∨ B.min.x > box.max.x)
  · rw [if_pos g3, if_pos (hdef.mpr (.inr (.inl g3)))]; rfl
  rw [if_neg g3, headerNext_enc r5.1 r5.2, Res.ok_bind]
  dsimp only
  rw [headerNext_enc r6.1 r6.2, Res.ok_bind]
  dsimp only
  rw [show M + (B.min.y - M) = B.min.y from by omega, show B.min.y + (B.max.y - B.min.y) = B.max.y from by omega]
  by_cases g4 : box.min.y ≠ kInvalidBoxHint ∧ box.max.y ≠ kInvalidBoxHint ∧ (B.max.y < box.min.y ∨ B.min.y > box.max.y)
  · rw [if_pos g4, if_pos (hdef.mpr (.inr (.inr g4)))]; rfl
  rw [if_neg g4, headerNext_enc r7.1 r7.2, Res.ok_bind]
  dsimp only
  rw [c3, if_neg]
  · rfl
  · rw [hdef]
    rintro (⟨a, b | b⟩ | a | a)
    · exact g1 ⟨a, b⟩
    · exact g2 ⟨a, b⟩
    · exact g3 a
    · exact g4 a

/-! ### bounding box -/

theorem foldl_expand (l : List XY) (b : Box) :
    (l.foldl expandBox b).min.x ≤ b.min.x ∧ (l.foldl expandBox b).min.y ≤ b.min.y ∧
    b.max.x ≤ (l.foldl expandBox b).max.x ∧ b.max.y ≤ (l.foldl expandBox b).max.y ∧
    (∀ p ∈ l, (l.foldl expandBox b).min.x ≤ p.x ∧ (l.foldl expandBox b).min.y ≤ p.y ∧
      p.x ≤ (l.foldl expandBox b).max.x ∧ p.y ≤ (l.foldl expandBox b).max.y) ∧
    ((l.foldl expandBox b).min.x = b.min.x ∨ ∃ p ∈ l, p.x = (l.foldl expandBox b).min.x) ∧
    ((l.foldl expandBox b).min.y = b.min.y ∨ ∃ p ∈ l, p.y = (l.foldl expandBox b).min.y) ∧
    ((l.foldl expandBox b).max.x = b.max.x ∨ ∃ p ∈ l, p.x = (l.foldl expandBox b).max.x) ∧
    ((l.foldl expandBox b).max.y = b.max.y ∨ ∃ p ∈ l, p.y = (l.foldl expandBox b).max.y) := by
  induction l generalizing b with
  | nil => simp
  | cons p l ih =>
    rw [List.foldl_cons]
    obtain ⟨i1, i2, i3, i4, i5, i6, i7, i8, i9⟩ := ih (expandBox b p)
    generalize List.foldl expandBox (expandBox b p) l = R at *
    simp only [expandBox] at i1 i2 i3 i4 i6 i7 i8 i9
    refine ⟨by clear i5 i6 i7 i8 i9; omega, by clear i5 i6 i7 i8 i9; omega, by clear i5 i6 i7 i8 i9; omega,
      by clear i5 i6 i7 i8 i9; omega, ?_, ?_, ?_, ?_, ?_⟩
    · intro q hq
      rcases List.mem_cons.1 hq with rfl | hq
      · clear i5 i6 i7 i8 i9; omega
      · exact i5 q hq
    · clear i5 i7 i8 i9
      rcases i6 with h | ⟨q, hq, h⟩
      · rcases Int.le_total b.min.x p.x with h' | h'
        · left; omega
        · right; exact ⟨p, by simp, by omega⟩
      · right; exact ⟨q, by simp [hq], h⟩
    · clear i5 i6 i8 i9
      rcases i7 with h | ⟨q, hq, h⟩
      · rcases Int.le_total b.min.y p.y with h' | h'
        · left; omega
        · right; exact ⟨p, by simp, by omega⟩
      · right; exact ⟨q, by simp [hq], h⟩
    · clear i5 i6 i7 i9
      rcases i8 with h | ⟨q, hq, h⟩
      · rcases Int.le_total b.max.x p.x with h' | h'
        · right; exact ⟨p, by simp, by omega⟩
        · left; omega
      · right; exact ⟨q, by simp [hq], h⟩
    · clear i5 i6 i7 i8
      rcases i9 with h | ⟨q, hq, h⟩
      · rcases Int.le_total b.max.y p.y with h' | h'
        · right; exact ⟨p, by simp, by omega⟩
        · left; omega
      · right; exact ⟨q, by simp [hq], h⟩

theorem envelope_ok {g : Geometry} (hg : GeoOk g) : ∀ p ∈ envelopePoints g, PtOk p := by
  intro p hp
  cases g with
  | null => simp [envelopePoints] at hp
  | point q => exact (hg q (by simp [linesOf])).2 p hp
  | polyline ls =>
    obtain ⟨l, hl, h⟩ := List.mem_flatten.1 hp
    exact (hg l hl).2 p h
  | polygon ps =>
    obtain ⟨q, hq, h⟩ := List.mem_flatMap.1 hp
    split at h
    · obtain ⟨l, hl, h⟩ := List.mem_flatten.1 h
      exact (hg l (List.mem_flatMap.2 ⟨q, hq, by simp [hl]⟩)).2 p h
    · exact (hg q.outer (List.mem_flatMap.2 ⟨q, hq, by simp⟩)).2 p h

/-- the box of a nonempty geometry is the least box around its points -/
theorem boundingBox_spec {g : Geometry} (hg : GeoOk g) (hne : envelopePoints g ≠ []) :
    (∀ p ∈ envelopePoints g, (boundingBox g).min.x ≤ p.x ∧ (boundingBox g).min.y ≤ p.y ∧
      p.x ≤ (boundingBox g).max.x ∧ p.y ≤ (boundingBox g).max.y) ∧
    (∃ p ∈ envelopePoints g, p.x = (boundingBox g).min.x) ∧ (∃ p ∈ envelopePoints g, p.y = (boundingBox g).min.y) ∧
    (∃ p ∈ envelopePoints g, p.x = (boundingBox g).max.x) ∧ (∃ p ∈ envelopePoints g, p.y = (boundingBox g).max.y) := by
  have hok := envelope_ok hg
  have e : boundingBox g = (envelopePoints g).foldl expandBox inverseBox := by
    cases g <;> first | rfl | exact absurd rfl hne
  rw [e]
  obtain ⟨i1, i2, i3, i4, i5, i6, i7, i8, i9⟩ := foldl_expand (envelopePoints g) inverseBox
  generalize (envelopePoints g).foldl expandBox inverseBox = R at *
  obtain ⟨p, hp⟩ := List.exists_mem_of_ne_nil _ hne
  have h1 := i5 p hp
  obtain ⟨⟨a1, a2⟩, ⟨a3, a4⟩⟩ := hok p hp
  refine ⟨i5, i6.resolve_left ?_, i7.resolve_left ?_, i8.resolve_left ?_, i9.resolve_left ?_⟩ <;>
    (intro hh; clear i5 i6 i7 i8 i9; simp only [inverseBox] at hh; norm_num at *; omega)

theorem boundingBox_ok {g : Geometry} (hg : GeoOk g) (hne : envelopePoints g ≠ []) :
    PtOk (boundingBox g).min ∧ PtOk (boundingBox g).max := by
  obtain ⟨_, ⟨p1, m1, e1⟩, ⟨p2, m2, e2⟩, ⟨p3, m3, e3⟩, ⟨p4, m4, e4⟩⟩ := boundingBox_spec hg hne
  have hok := envelope_ok hg
  exact ⟨⟨e1 ▸ (hok p1 m1).1, e2 ▸ (hok p2 m2).2⟩, ⟨e3 ▸ (hok p3 m3).1, e4 ▸ (hok p4 m4).2⟩⟩

/-! ### the whole message -/

/-- geometries for which masks are stored -/
def hasLines : Geometry → Bool
  | .polyline _ => true
  | .polygon _ => true
  | _ => false

/-- whether masks are stored and used -/
def masked (fast : Bool) (zoom : Nat) (g : Geometry) : Bool :=
  !fast && decide (zoom ≠ kInvalidZoomLevel) && hasLines g

theorem serializeGeometry_ne {g : Geometry} {bs : Bytes} (h : serializeGeometry g = .ok bs) : nonEmpty g := by
  rcases C21_refused g with ⟨h1, _⟩ | ⟨_, h1⟩
  · exact h1
  · rw [h1] at h; cases h

theorem makeSimplifyMask_ne (mk : Line → Bytes) {g : Geometry} (h : nonEmpty g) :
    (makeSimplifyMask mk g ≠ []) ↔ hasLines g = true := by
  cases g with
  | null => exact h.elim
  | point p => simp [makeSimplifyMask, hasLines]
  | polyline l => cases l with
    | nil => exact absurd rfl h
    | cons a l => simp [makeSimplifyMask, hasLines]
  | polygon l => cases l with
    | nil => exact absurd rfl h
    | cons a l => simp [makeSimplifyMask, hasLines]

/-- the geometry as read -/
def geometryRead (mk : Line → Bytes) (rd : Bytes → Nat → List Bool) (fast : Bool) (zoom : Nat) (g : Geometry) : Geometry :=
  withoutSmallRings (keepGeo (if masked fast zoom g then some (fun l => rd (mk l) zoom) else none) g)

theorem feature_read (mk : Line → Bytes) (fast : Bool) (f : Feature) (bs : Bytes)
    (h : serializeFeature mk dec fast f = .ok bs) (hl : bs.length < 2 ^ 32)
    (hid : f.id < 2 ^ 64) (hz1 : f.zmin < 2 ^ 32) (hz2 : f.zmax < 2 ^ 32) (hlay : f.layer < 2 ^ 64 - 1)
    (hg : GeoOk f.geometry) (hc : Spec.CountsOk f.geometry) (hne : envelopePoints f.geometry ≠ []) (hd : dec.length ≤ 2 ^ 64)
    (hm : masked fast zoom f.geometry = true → ∀ l ∈ linesOf f.geometry, (rd (mk l) zoom).length = l.length) :
    deserializeFeature rd dec bs box zoom =
      .ok (if headerDrops box zoom f then none
        else if masked fast zoom f.geometry ∧ geometryRead mk rd fast zoom f.geometry = .null then none
        else some ⟨f.id, f.layer, f.zmin, f.zmax, metasRead dec fast f.metas, geometryRead mk rd fast zoom f.geometry⟩) := by
  rw [serializeFeature, Res.bind_eq_ok] at h
  obtain ⟨g, hgs, h⟩ := h
  injection h with h
  have hgn := serializeGeometry_ne hgs
  obtain ⟨hb1, hb2⟩ := boundingBox_ok hg hne
  have hok : ∀ q ∈ (PbfField.bytes 1 ((featureHeader f).flatMap encS64) :: .varint 2 f.id ::
    (featureMetaFields dec fast f.metas ++
      ((if fast then [] else (makeSimplifyMask mk f.geometry).map (.bytes 6)) ++ [.bytes 7 g]))), q.Ok := by
    intro q hq
    have hbytes : ∀ t d, q = .bytes t d → d.length < 2 ^ 32 := by
      rintro t d rfl
      have := bytes_len_le hq
      rw [h] at this
      omega
    have htag : ∃ t, TagOk t ∧ ((∃ d, q = .bytes t d) ∨ (q = .varint 2 f.id ∧ t = 2)) := by
      rcases List.mem_cons.1 hq with rfl | hq
      · exact ⟨1, by decide, .inl ⟨_, rfl⟩⟩
      rcases List.mem_cons.1 hq with rfl | hq
      · exact ⟨2, by decide, .inr ⟨rfl, rfl⟩⟩
      rcases List.mem_append.1 hq with hq | hq
      · unfold featureMetaFields at hq
        split at hq
        · rcases List.mem_append.1 hq with hq | hq
          · obtain ⟨m, _, rfl⟩ := List.mem_map.1 hq; exact ⟨4, by decide, .inl ⟨_, rfl⟩⟩
          · obtain ⟨m, _, rfl⟩ := List.mem_map.1 hq; exact ⟨5, by decide, .inl ⟨_, rfl⟩⟩
        · dsimp only at hq
          rcases List.mem_append.1 hq with hq | hq
          · split at hq
            · simp at hq
            · rw [List.mem_singleton] at hq; exact ⟨3, by decide, .inl ⟨_, hq⟩⟩
          rcases List.mem_append.1 hq with hq | hq
          · obtain ⟨m, _, rfl⟩ := List.mem_map.1 hq; exact ⟨4, by decide, .inl ⟨_, rfl⟩⟩
          · obtain ⟨m, _, rfl⟩ := List.mem_map.1 hq; exact ⟨5, by decide, .inl ⟨_, rfl⟩⟩
      rcases List.mem_append.1 hq with hq | hq
      · split at hq
        · simp at hq
        · obtain ⟨m, _, rfl⟩ := List.mem_map.1 hq; exact ⟨6, by decide, .inl ⟨_, rfl⟩⟩
      · rw [List.mem_singleton] at hq; exact ⟨7, by decide, .inl ⟨_, hq⟩⟩
    obtain ⟨t, ht, ⟨d, rfl⟩ | ⟨rfl, rfl⟩⟩ := htag
    · exact ⟨ht, hbytes _ _ rfl⟩
    · exact ⟨ht, hid⟩
  have hgl : g.length < 2 ^ 32 := by
    have := bytes_len_le (fs := (PbfField.bytes 1 ((featureHeader f).flatMap encS64) :: .varint 2 f.id ::
      (featureMetaFields dec fast f.metas ++
        ((if fast then [] else (makeSimplifyMask mk f.geometry).map (.bytes 6)) ++ [.bytes 7 g])))) (t := 7) (d := g) (by simp)
    rw [h] at this
    omega
  rw [deserializeFeature]
  rw [← h, featLoop_enc rd dec box zoom _ hok _ (Nat.le_refl _)]
  rw [featFold, featField, if_pos rfl, readHeader_enc box zoom f _ hz1 hz2 (by omega) hb1 hb2, Res.ok_bind]
  by_cases hdrop : headerDrops box zoom f
  · rw [if_pos hdrop, if_pos hdrop]; rfl
  rw [if_neg hdrop, if_neg hdrop]
  dsimp only
  rw [featFold, featField, if_pos rfl, Res.pure_eq, Res.ok_bind]
  dsimp only
  rw [featFold_append, fold_metas rd dec box zoom fast f.metas hd _ rfl rfl, Res.ok_bind]
  dsimp only
  rw [featFold_append]
  have hmask : ∀ st : FeatState, st.masks = [] → featFold rd dec box zoom (if fast then [] else (makeSimplifyMask mk f.geometry).map (.bytes 6)) st =
      .ok (some { st with masks := if fast then [] else makeSimplifyMask mk f.geometry }) := by
    intro st hst
    cases fast with
    | true => cases st; simp at hst; subst hst; simp [featFold]
    | false => simp [fold_masks, hst]
  rw [hmask _ rfl, Res.ok_bind]
  dsimp only
  rw [featFold, featField, if_neg (by decide), if_neg (by decide), if_neg (by decide), if_neg (by decide), if_neg (by decide),
    if_neg (by decide), if_pos rfl]
  dsimp only
  have hcond : (zoom ≠ kInvalidZoomLevel ∧ (if fast then [] else makeSimplifyMask mk f.geometry) ≠ []) ↔ masked fast zoom f.geometry = true := by
    have := makeSimplifyMask_ne mk hgn
    unfold masked
    cases fast with
    | true => simp
    | false => simp only [Bool.false_eq_true, if_false, this]; simp
  have hlayer : decide (f.layer ≠ kInvalidLayer) = true := by rw [decide_eq_true_iff]; unfold kInvalidLayer; omega
  have hfill : decide (f.metas.length = (metasRead dec fast f.metas).length) = true := by
    rw [decide_eq_true_iff, (metasRead_perm dec fast f.metas).length_eq]
  by_cases hmk : masked fast zoom f.geometry = true
  · have hfast : fast = false := by cases fast <;> simp_all [masked]
    subst hfast
    have hnp : ∀ p, f.geometry ≠ .point p := by intro p hp; rw [hp] at hmk; simp [masked, hasLines] at hmk
    rw [if_pos (hcond.2 hmk)]
    have hread := deserialize_serialize (some (fun l => rd (mk l) zoom)) f.geometry g hg hc
      (fun l hl b hb => by injection hb with hb; subst hb; exact hm hmk l hl) hgs hgl
    rw [Option.map_some, ← C41_masks_fit mk (fun m => rd m zoom) f.geometry hnp] at hread
    simp only [geometryRead, hmk, if_true, Bool.false_eq_true, if_false]
    rw [hread, Res.ok_bind]
    by_cases hnull : withoutSmallRings (keepGeo (some (fun l => rd (mk l) zoom)) f.geometry) = .null
    · simp [hnull]
    · rw [if_neg hnull, if_neg (by simp [hnull])]
      simp only [Res.pure_eq, Res.ok_bind, featFold]
      rw [hfill, hlayer]
      rfl
  · rw [if_neg (fun hh => hmk (hcond.1 hh)), C21_round_trip f.geometry g hg hc hgs hgl, Res.ok_bind]
    rw [if_neg (fun hh => hmk hh.1)]
    simp only [Res.pure_eq, Res.ok_bind, featFold]
    rw [hfill, hlayer]
    simp only [geometryRead, if_neg hmk, keepGeo_none]
    rfl

end Tiles
