import Verif.Proof.Pbf
import Verif.Proof.FeatureIO
import Verif.Proof.FeaturePack
import Verif.Model.IndexedPack
import Verif.Model.SharedMetadata
import Verif.Model.LayerNames
import Verif.Model.Clip
/-! C56 — reading damaged bytes: exceptions instead of reads outside of the buffer, and where that is not so. -/
namespace Tiles
open Spec

theorem bind_safe {α β : Type} {x : Res α} {f : α → Res β} (hx : x ≠ .ub) (hf : ∀ a, x = .ok a → f a ≠ .ub) : (x >>= f) ≠ .ub := by
  cases x with
  | ok a => exact hf a rfl
  | throw_ => intro h; cases h
  | ub => exact absurd rfl hx

theorem verify_safe (b : Bool) : verify b ≠ .ub := by cases b <;> intro h <;> cases h

theorem decVarintGo_safe (bs : Bytes) : ∀ i acc, decVarintGo i acc bs ≠ .ub := by
  induction bs with
  | nil => intro i acc h; cases h
  | cons b bs ih =>
    intro i acc
    rw [decVarintGo]
    split
    · split <;> intro h <;> cases h
    · split
      · intro h; cases h
      · exact ih _ _

theorem decVarint_safe (bs : Bytes) : decVarint bs ≠ .ub := decVarintGo_safe bs 0 0

theorem takeN_safe (n : Nat) (bs : Bytes) : takeN n bs ≠ .ub := by
  rw [takeN]; split <;> intro h <;> cases h

theorem decField_safe (bs : Bytes) : decField bs ≠ .ub := by
  rw [decField]
  refine bind_safe (decVarint_safe _) ?_
  rintro ⟨k, r⟩ _
  dsimp only
  split
  · intro h; cases h
  split
  · exact bind_safe (decVarint_safe _) (fun a _ h => by cases h)
  split
  · exact bind_safe (takeN_safe _ _) (fun a _ h => by cases h)
  split
  · exact bind_safe (decVarint_safe _) (fun a _ => bind_safe (takeN_safe _ _) (fun a _ h => by cases h))
  split
  · exact bind_safe (takeN_safe _ _) (fun a _ h => by cases h)
  · intro h; cases h

theorem takeN_rest {n : Nat} {bs d r : Bytes} (h : takeN n bs = .ok (d, r)) : bs = d ++ r := by
  rw [takeN] at h
  split at h
  · injection h with h; injection h with h1 h2; rw [← h1, ← h2, List.take_append_drop]
  · cases h

theorem decVarint_rest {bs r : Bytes} {v : Nat} (h : decVarint bs = .ok (v, r)) : ∃ pre, pre ≠ [] ∧ bs = pre ++ r := by
  obtain ⟨pre, h1, h2, _⟩ := decVarintGo_ok (by omega) (by decide) h
  exact ⟨pre, by intro e; rw [e] at h2; simp at h2, h1⟩

/-- the tag of a field -/
def Spec.tagOf : PbfField → Nat
  | .varint t _ => t
  | .fixed64 t _ => t
  | .bytes t _ => t
  | .fixed32 t _ => t

/-- A field is read from the front of the buffer, and its tag is a valid one. -/
theorem C56_field (bs : Bytes) (f : PbfField) (r : Bytes) (h : decField bs = .ok (f, r)) :
    (∃ pre, pre ≠ [] ∧ bs = pre ++ r) ∧ 0 < tagOf f ∧ tagOf f < 2 ^ 29 ∧ ¬ (19000 ≤ tagOf f ∧ tagOf f ≤ 19999) := by
  rw [decField, Res.bind_eq_ok] at h
  obtain ⟨⟨k, r1⟩, h1, h⟩ := h
  dsimp only at h
  obtain ⟨p1, n1, e1⟩ := decVarint_rest h1
  have hk : k % 2 ^ 32 / 8 < 2 ^ 29 := by omega
  split at h
  · cases h
  rename_i ht
  have ht1 : 0 < k % 2 ^ 32 / 8 := by omega
  have ht2 : ¬ (19000 ≤ k % 2 ^ 32 / 8 ∧ k % 2 ^ 32 / 8 ≤ 19999) := fun c => ht (.inr c)
  split at h
  · rw [Res.bind_eq_ok] at h
    obtain ⟨⟨v, r2⟩, h2, h⟩ := h
    injection h with h
    injection h with h3 h4
    subst h3 h4
    obtain ⟨p2, _, e2⟩ := decVarint_rest h2
    exact ⟨⟨p1 ++ p2, by simp [n1], by rw [e1, e2, List.append_assoc]⟩, ht1, hk, ht2⟩
  split at h
  · rw [Res.bind_eq_ok] at h
    obtain ⟨⟨d, r2⟩, h2, h⟩ := h
    injection h with h
    injection h with h3 h4
    subst h3 h4
    exact ⟨⟨p1 ++ d, by simp [n1], by rw [e1, takeN_rest h2, List.append_assoc]⟩, ht1, hk, ht2⟩
  split at h
  · rw [Res.bind_eq_ok] at h
    obtain ⟨⟨v, r2⟩, h2, h⟩ := h
    rw [Res.bind_eq_ok] at h
    obtain ⟨⟨d, r3⟩, h5, h⟩ := h
    injection h with h
    injection h with h3 h4
    subst h3 h4
    obtain ⟨p2, _, e2⟩ := decVarint_rest h2
    have e3 := takeN_rest h5
    dsimp only at e3
    exact ⟨⟨p1 ++ (p2 ++ d), by simp [n1], by rw [e1, e2, e3]; simp⟩, ht1, hk, ht2⟩
  split at h
  · rw [Res.bind_eq_ok] at h
    obtain ⟨⟨d, r2⟩, h2, h⟩ := h
    injection h with h
    injection h with h3 h4
    subst h3 h4
    exact ⟨⟨p1 ++ d, by simp [n1], by rw [e1, takeN_rest h2, List.append_assoc]⟩, ht1, hk, ht2⟩
  · cases h

/-- A key with tag 0, a reserved tag or an unknown wire type is refused. -/
theorem C56_bad_key (tag wire : Nat) (rest : Bytes) (ht : tag < 2 ^ 29) (hw : wire < 8)
    (hbad : tag = 0 ∨ (19000 ≤ tag ∧ tag ≤ 19999) ∨ wire = 3 ∨ wire = 4 ∨ wire = 6 ∨ wire = 7) :
    decField (encVarint (8 * tag + wire) ++ rest) = .throw_ := by
  rw [decField, decVarint_enc _ _ (by omega), Res.ok_bind]
  dsimp only
  have e1 : (8 * tag + wire) % 2 ^ 32 = 8 * tag + wire := by omega
  rw [e1]
  have e2 : (8 * tag + wire) / 8 = tag := by omega
  have e3 : (8 * tag + wire) % 8 = wire := by omega
  rw [e2, e3]
  by_cases h : tag = 0 ∨ (19000 ≤ tag ∧ tag ≤ 19999)
  · rw [if_pos h]
  · rw [if_neg h, if_neg (by omega), if_neg (by omega), if_neg (by omega), if_neg (by omega)]

/-- Splitting any bytes into the fields of a message ends with the fields or an exception. -/
theorem C56_message (bs : Bytes) : decMessage bs ≠ .ub := by
  have key : ∀ n bs, bs.length ≤ n → decMessageGo n bs ≠ .ub := by
    intro n
    induction n with
    | zero => intro bs h; cases bs with
      | nil => intro e; cases e
      | cons b bs => simp at h
    | succ n ih =>
      intro bs h
      cases bs with
      | nil => intro e; cases e
      | cons b bs =>
        rw [decMessageGo]
        · refine bind_safe (decField_safe _) ?_
          rintro ⟨f, r⟩ hf
          obtain ⟨⟨pre, hp, e⟩, _⟩ := C56_field _ _ _ hf
          refine bind_safe (ih r ?_) (fun a _ h => by cases h)
          have := congrArg List.length e
          have hp : 0 < pre.length := List.length_pos_iff.2 hp
          rw [List.length_append] at this
          omega
        · simp
  exact key _ _ (Nat.le_refl _)

theorem decPacked_safe (bs : Bytes) : decPacked bs ≠ .ub := by
  have key : ∀ n bs, bs.length ≤ n → decPackedGo n bs ≠ .ub := by
    intro n
    induction n with
    | zero => intro bs h; cases bs with
      | nil => intro e; cases e
      | cons b bs => simp at h
    | succ n ih =>
      intro bs h
      cases bs with
      | nil => intro e; cases e
      | cons b bs =>
        rw [decPackedGo]
        · refine bind_safe (decVarint_safe _) ?_
          rintro ⟨f, r⟩ hf
          refine bind_safe (ih r ?_) (fun a _ h => by cases h)
          have := decVarint_rest_lt hf
          omega
        · simp
  exact key _ _ (Nat.le_refl _)

/-! ### geometries and features -/

/-- the wire type of a field: 0 varint, 1 eight bytes, 2 string, 5 four bytes -/
def Spec.wireOf : PbfField → Nat
  | .varint _ _ => 0
  | .fixed64 _ _ => 1
  | .bytes _ _ => 2
  | .fixed32 _ _ => 5

/-- the field is one of the fields of the message -/
inductive Spec.FieldIn : Bytes → PbfField → Prop
  | here {bs r : Bytes} {f : PbfField} : decField bs = .ok (f, r) → FieldIn bs f
  | later {bs r : Bytes} {f g : PbfField} : decField bs = .ok (g, r) → FieldIn r f → FieldIn bs f

/-- a stored geometry whose known fields have their types: tag 1 is a varint, tag 2 a string -/
def Spec.GeoTyped (bs : Bytes) : Prop := ∀ f, FieldIn bs f → (tagOf f = 1 → wireOf f = 0) ∧ (tagOf f = 2 → wireOf f = 2)

/-- a stored feature whose known fields have their types: tag 2 is a varint, 1 and 3 to 7 are strings, 7 a geometry -/
def Spec.FeatureTyped (bs : Bytes) : Prop := ∀ f, FieldIn bs f →
  (tagOf f = 2 → wireOf f = 0) ∧ (tagOf f = 1 ∨ (3 ≤ tagOf f ∧ tagOf f ≤ 7) → wireOf f = 2) ∧ (∀ d, f = .bytes 7 d → GeoTyped d)

theorem next_safe (d : GeoDec) : d.next ≠ .ub := by
  rw [GeoDec.next]
  split
  · intro h; cases h
  · exact bind_safe (decVarint_safe _) (fun a _ h => by cases h)

theorem nextPoint_safe (d : GeoDec) : d.nextPoint ≠ .ub := by
  rw [GeoDec.nextPoint]
  exact bind_safe (next_safe _) (fun a _ => bind_safe (next_safe _) (fun a _ h => by cases h))

theorem points_safe (n : Nat) : ∀ d, GeoDec.points n d ≠ .ub := by
  induction n with
  | zero => intro d h; cases h
  | succ n ih =>
    intro d
    rw [GeoDec.points]
    exact bind_safe (nextPoint_safe _) (fun a _ => bind_safe (ih _) (fun a _ h => by cases h))

theorem masked_safe (m : List Bool) : ∀ d, GeoDec.masked m d ≠ .ub := by
  induction m with
  | nil => intro d h; cases h
  | cons b m ih =>
    intro d
    rw [GeoDec.masked]
    exact bind_safe (nextPoint_safe _) (fun a _ => bind_safe (ih _) (fun a _ h => by cases h))

theorem line_safe (d : GeoDec) : d.line ≠ .ub := by
  rw [GeoDec.line]
  split
  · refine bind_safe (next_safe _) ?_
    rintro ⟨size, d⟩ _
    dsimp only
    split
    · intro h; cases h
    · exact points_safe _ _
  · intro h; cases h
  · refine bind_safe (next_safe _) ?_
    rintro ⟨size, d⟩ _
    exact bind_safe (verify_safe _) (fun a _ => bind_safe (masked_safe _ _) (fun a _ h => by cases h))

theorem lines_safe (n : Nat) : ∀ d, GeoDec.lines n d ≠ .ub := by
  induction n with
  | zero => intro d h; cases h
  | succ n ih =>
    intro d
    rw [GeoDec.lines]
    exact bind_safe (line_safe _) (fun a _ => bind_safe (ih _) (fun a _ h => by cases h))

theorem count_safe (d : GeoDec) : d.count ≠ .ub := by
  rw [GeoDec.count]
  refine bind_safe (next_safe _) ?_
  rintro ⟨c, d⟩ _
  dsimp only
  split <;> intro h <;> cases h

theorem polygons_safe (n : Nat) : ∀ d, GeoDec.polygons n d ≠ .ub := by
  induction n with
  | zero => intro d h; cases h
  | succ n ih =>
    intro d
    rw [GeoDec.polygons]
    exact bind_safe (line_safe _) (fun a _ => bind_safe (count_safe _) (fun a _ => bind_safe (lines_safe _ _) (fun a _ =>
      bind_safe (ih _) (fun a _ h => by cases h))))

theorem geometry_safe (type : Nat) (d : GeoDec) : d.geometry type ≠ .ub := by
  rw [GeoDec.geometry]
  split
  · exact bind_safe (line_safe _) (fun a _ h => by cases h)
  split
  · exact bind_safe (count_safe _) (fun a _ => bind_safe (lines_safe _ _) (fun a _ h => by cases h))
  split
  · exact bind_safe (count_safe _) (fun a _ => bind_safe (polygons_safe _ _) (fun a _ h => by cases h))
  · intro h; cases h

/-- Reading a geometry from any bytes (with any simplification masks) gives a geometry or an exception, if the two known fields have their types. -/
theorem C56_geometry (bs : Bytes) (masks : Option (List (List Bool))) (ht : GeoTyped bs) : deserializeGeometry bs masks ≠ .ub := by
  rw [deserializeGeometry]
  split
  · intro h; cases h
  refine bind_safe (decField_safe _) ?_
  rintro ⟨f, rest⟩ hf
  have h1 := (ht f (.here hf)).1
  cases f with
  | varint tag type =>
    dsimp only
    split
    · intro h; cases h
    split
    · intro h; cases h
    split
    · intro h; cases h
    refine bind_safe (decField_safe _) ?_
    rintro ⟨g, r⟩ hg
    have h2 := (ht g (.later hf (.here hg))).2
    cases g with
    | bytes tag data =>
      dsimp only
      split
      · intro h; cases h
      · exact geometry_safe _ _
    | _ =>
      dsimp only
      split
      · intro h; cases h
      · rename_i h; have := h2 (by simpa [tagOf] using h); cases this
  | _ =>
    dsimp only
    split
    · intro h; cases h
    · rename_i h; have := h1 (by simpa [tagOf] using h); cases this

theorem headerNext_safe (bs : Bytes) : headerNext bs ≠ .ub := by
  rw [headerNext]
  split
  · intro h; cases h
  · exact bind_safe (decVarint_safe _) (fun a _ h => by cases h)

theorem readHeader_safe (box : Box) (zoom : Nat) (st : FeatState) (bs : Bytes) : readHeader box zoom st bs ≠ .ub := by
  rw [readHeader]
  refine bind_safe (headerNext_safe _) (fun a _ => ?_)
  try dsimp only
  split
  · intro h; cases h
  refine bind_safe (headerNext_safe _) (fun a _ => ?_)
  try dsimp only
  split
  · intro h; cases h
  refine bind_safe (headerNext_safe _) (fun a _ => ?_)
  refine bind_safe (headerNext_safe _) (fun a _ => ?_)
  try dsimp only
  split
  · intro h; cases h
  refine bind_safe (headerNext_safe _) (fun a _ => ?_)
  refine bind_safe (headerNext_safe _) (fun a _ => ?_)
  try dsimp only
  split
  · intro h; cases h
  refine bind_safe (headerNext_safe _) (fun a _ => ?_)
  exact bind_safe (verify_safe _) (fun a _ h => by cases h)

theorem decodeMetas_safe (dec : List Meta) (is : List Nat) : decodeMetas dec is ≠ .ub := by
  induction is with
  | nil => intro h; cases h
  | cons i is ih =>
    rw [decodeMetas]
    refine bind_safe ?_ (fun a _ => bind_safe ih (fun a _ h => by cases h))
    rw [metaDecode, at_]
    split <;> intro h <;> cases h

theorem featField_safe (rd : Bytes → Nat → List Bool) (dec : List Meta) (box : Box) (zoom : Nat) (st : FeatState) (f : PbfField)
    (h1 : tagOf f = 2 → wireOf f = 0) (h2 : tagOf f = 1 ∨ (3 ≤ tagOf f ∧ tagOf f ≤ 7) → wireOf f = 2) (h3 : ∀ d, f = .bytes 7 d → GeoTyped d) :
    featField rd dec box zoom st f ≠ .ub := by
  cases f with
  | bytes tag d =>
    rw [featField]
    split
    · exact readHeader_safe _ _ _ _
    split
    · rename_i h; have := h1 h; cases this
    split
    · exact bind_safe (verify_safe _) (fun a _ => bind_safe (decPacked_safe _) (fun a _ => bind_safe (decodeMetas_safe _ _) (fun a _ h => by cases h)))
    split
    · intro h; cases h
    split
    · exact bind_safe (verify_safe _) (fun a _ h => by cases h)
    split
    · intro h; cases h
    split
    · rename_i h7
      subst h7
      split
      · refine bind_safe (C56_geometry _ _ (h3 d rfl)) (fun a _ => ?_)
        split <;> intro h <;> cases h
      · exact bind_safe (C56_geometry _ _ (h3 d rfl)) (fun a _ h => by cases h)
    · intro h; cases h
  | varint tag v =>
    rw [featField]
    split
    · intro h; cases h
    split
    · rename_i n h; have := h2 (by simp only [tagOf]; omega); cases this
    · intro h; cases h
  | fixed64 tag v =>
    rw [featField]
    split
    · rename_i h
      simp only [tagOf, wireOf] at h1 h2
      by_cases e : tag = 2
      · cases h1 e
      · cases h2 (by omega)
    · intro h; cases h
  | fixed32 tag v =>
    rw [featField]
    split
    · rename_i h
      simp only [tagOf, wireOf] at h1 h2
      by_cases e : tag = 2
      · cases h1 e
      · cases h2 (by omega)
    · intro h; cases h

/-- Reading a feature from any bytes, with any box and zoom level, gives a feature, `nullopt` or an exception, if its known fields have their types. -/
theorem C56_feature (rd : Bytes → Nat → List Bool) (dec : List Meta) (bs : Bytes) (box : Box) (zoom : Nat) (ht : FeatureTyped bs) :
    deserializeFeature rd dec bs box zoom ≠ .ub := by
  have key : ∀ n bs st, bs.length ≤ n → FeatureTyped bs → featLoop rd dec box zoom n bs st ≠ .ub := by
    intro n
    induction n with
    | zero => intro bs st h _; cases bs with
      | nil => intro e; cases e
      | cons b bs => simp at h
    | succ n ih =>
      intro bs st h ht
      cases bs with
      | nil => intro e; cases e
      | cons b bs =>
        rw [featLoop]
        · refine bind_safe (decField_safe _) ?_
          rintro ⟨f, r⟩ hf
          obtain ⟨⟨pre, hp, e⟩, _⟩ := C56_field _ _ _ hf
          obtain ⟨t1, t2, t3⟩ := ht f (.here hf)
          refine bind_safe (featField_safe rd dec box zoom st f t1 t2 t3) (fun a _ => ?_)
          cases a with
          | none => intro h; cases h
          | some st =>
            refine ih r st ?_ (fun g hg => ht g (.later hf hg))
            have := congrArg List.length e
            have hp : 0 < pre.length := List.length_pos_iff.2 hp
            rw [List.length_append] at this
            omega
        · simp
  rw [deserializeFeature]
  refine bind_safe (key _ _ _ (Nat.le_refl _) ht) (fun a _ => ?_)
  cases a with
  | none => intro h; cases h
  | some st => exact bind_safe (verify_safe _) (fun a _ => bind_safe (verify_safe _) (fun a _ h => by cases h))

/-- A feature that is read without a box and a zoom level is never skipped. -/
theorem C56_no_hints (rd : Bytes → Nat → List Bool) (dec : List Meta) (bs : Bytes) : deserializeFeature rd dec bs ≠ .ok none := by
  have hh : ∀ st d, readHeader ⟨⟨kInvalidBoxHint, kInvalidBoxHint⟩, ⟨kInvalidBoxHint, kInvalidBoxHint⟩⟩ kInvalidZoomLevel st d ≠ .ok none := by
    intro st d h
    rw [readHeader] at h
    simp only [ne_eq, not_true, false_and, if_false, Res.bind_eq_ok] at h
    obtain ⟨a, _, b, _, c, _, d, _, e, _, f, _, g, _, u, _, h⟩ := h
    cases h
  have hf : ∀ st f, featField rd dec ⟨⟨kInvalidBoxHint, kInvalidBoxHint⟩, ⟨kInvalidBoxHint, kInvalidBoxHint⟩⟩ kInvalidZoomLevel st f ≠ .ok none := by
    intro st f
    cases f with
    | bytes tag d =>
      rw [featField]
      split
      · exact hh _ _
      split
      · intro h; cases h
      split
      · intro h
        simp only [Res.bind_eq_ok] at h
        obtain ⟨_, _, _, _, _, _, h⟩ := h
        cases h
      split
      · intro h; cases h
      split
      · intro h
        simp only [Res.bind_eq_ok] at h
        obtain ⟨_, _, h⟩ := h
        cases h
      split
      · intro h; cases h
      split
      · rw [if_neg (by simp)]
        intro h
        simp only [Res.bind_eq_ok] at h
        obtain ⟨_, _, h⟩ := h
        cases h
      · intro h; cases h
    | varint tag v =>
      rw [featField]
      split
      · intro h; cases h
      split <;> intro h <;> cases h
    | _ => rw [featField]; split <;> intro h <;> cases h
  have key : ∀ n bs st, featLoop rd dec ⟨⟨kInvalidBoxHint, kInvalidBoxHint⟩, ⟨kInvalidBoxHint, kInvalidBoxHint⟩⟩ kInvalidZoomLevel n bs st ≠ .ok none := by
    intro n
    induction n with
    | zero => intro bs st; cases bs <;> intro h <;> cases h
    | succ n ih =>
      intro bs st
      cases bs with
      | nil => intro h; cases h
      | cons b bs =>
        rw [featLoop]
        · intro h
          rw [Res.bind_eq_ok] at h
          obtain ⟨⟨f, r⟩, _, h⟩ := h
          dsimp only at h
          rw [Res.bind_eq_ok] at h
          obtain ⟨o, ho, h⟩ := h
          cases o with
          | none => exact hf _ _ ho
          | some st => exact ih _ _ h
        · simp
  intro h
  rw [deserializeFeature, Res.bind_eq_ok] at h
  obtain ⟨o, ho, h⟩ := h
  cases o with
  | none => exact key _ _ _ ho
  | some st =>
    simp only [Res.bind_eq_ok] at h
    obtain ⟨_, _, _, _, h⟩ := h
    cases h

/-- A known field with another wire type is read through protozero's unchecked accessors: undefined in a release build. -/
theorem C56_wrong_type (rd : Bytes → Nat → List Bool) (dec : List Meta) (box : Box) (zoom : Nat) (bs rest : Bytes) (f : PbfField)
    (hf : decField bs = .ok (f, rest)) (ht : 1 ≤ tagOf f ∧ tagOf f ≤ 7) (hw : (tagOf f = 2 → wireOf f ≠ 0) ∧ (tagOf f ≠ 2 → wireOf f ≠ 2)) :
    deserializeFeature rd dec bs box zoom = .ub := by
  have hfield : featField rd dec box zoom {} f = .ub := by
    cases f with
    | bytes tag d =>
      simp only [tagOf, wireOf] at ht hw
      have h2 : tag = 2 := by
        by_contra h; exact hw.2 h rfl
      subst h2
      rfl
    | varint tag v =>
      simp only [tagOf, wireOf] at ht hw
      have h2 : ¬ tag = 2 := by intro h; exact hw.1 h rfl
      rw [featField, if_neg h2, if_pos ht]
    | _ => rw [featField]; exact if_pos ht
  cases bs with
  | nil => cases hf
  | cons b bs =>
    rw [deserializeFeature, List.length_cons, featLoop]
    · rw [hf, Res.ok_bind]
      dsimp only
      rw [hfield]
      rfl
    · simp

/-! ### the size of what is read -/

/-- the number of points of a geometry -/
def Spec.pointCount : Geometry → Nat
  | .null => 0
  | .point p => p.length
  | .polyline l => (l.map List.length).sum
  | .polygon p => (p.map (fun q => q.outer.length + (q.inners.map List.length).sum)).sum

theorem next_size {d d' : GeoDec} {v : Int} (h : d.next = .ok (v, d')) : d'.rest.length < d.rest.length := by
  rw [GeoDec.next] at h
  split at h
  · cases h
  · rw [Res.bind_eq_ok] at h
    obtain ⟨⟨w, r⟩, h1, h⟩ := h
    have := decVarint_rest_lt h1
    cases h
    exact this

theorem nextPoint_size {d d' : GeoDec} {p : XY} (h : d.nextPoint = .ok (p, d')) : d'.rest.length + 2 ≤ d.rest.length := by
  rw [GeoDec.nextPoint] at h
  simp only [Res.bind_eq_ok] at h
  obtain ⟨⟨x, d1⟩, h1, ⟨y, d2⟩, h2, h⟩ := h
  have a := next_size h1
  have b := next_size h2
  cases h
  dsimp only at *
  omega

theorem points_size (n : Nat) : ∀ {d d' : GeoDec} {l : Line}, GeoDec.points n d = .ok (l, d') → d'.rest.length + 2 * l.length ≤ d.rest.length := by
  induction n with
  | zero => intro d d' l h; cases h; simp
  | succ n ih =>
    intro d d' l h
    rw [GeoDec.points] at h
    simp only [Res.bind_eq_ok] at h
    obtain ⟨⟨p, d1⟩, h1, ⟨ps, d2⟩, h2, h⟩ := h
    have a := nextPoint_size h1
    have b := ih h2
    cases h
    simp only [List.length_cons]
    dsimp only at *
    omega

theorem masked_size (m : List Bool) : ∀ {d d' : GeoDec} {l : Line}, GeoDec.masked m d = .ok (l, d') → d'.rest.length + 2 * l.length ≤ d.rest.length := by
  induction m with
  | nil => intro d d' l h; cases h; simp
  | cons b m ih =>
    intro d d' l h
    rw [GeoDec.masked] at h
    simp only [Res.bind_eq_ok] at h
    obtain ⟨⟨p, d1⟩, h1, ⟨ps, d2⟩, h2, h⟩ := h
    have a := nextPoint_size h1
    have c := ih h2
    cases h
    dsimp only at *
    cases b <;> simp <;> omega

theorem line_size {d d' : GeoDec} {l : Line} (h : d.line = .ok (l, d')) : d'.rest.length + 2 * l.length < d.rest.length := by
  rw [GeoDec.line] at h
  split at h
  · simp only [Res.bind_eq_ok] at h
    obtain ⟨⟨v, d1⟩, h1, h⟩ := h
    have a := next_size h1
    dsimp only at h
    split at h
    · cases h
    · have b := points_size _ h
      omega
  · cases h
  · simp only [Res.bind_eq_ok] at h
    obtain ⟨⟨v, d1⟩, h1, _, _, ⟨l', d2⟩, h2, h⟩ := h
    have a := next_size h1
    have b := masked_size _ h2
    cases h
    dsimp only at *
    omega

theorem lines_size (n : Nat) : ∀ {d d' : GeoDec} {l : List Line}, GeoDec.lines n d = .ok (l, d') →
    d'.rest.length + 2 * (l.map List.length).sum + n ≤ d.rest.length ∧ l.length = n := by
  induction n with
  | zero => intro d d' l h; cases h; simp
  | succ n ih =>
    intro d d' l h
    rw [GeoDec.lines] at h
    simp only [Res.bind_eq_ok] at h
    obtain ⟨⟨p, d1⟩, h1, ⟨ps, d2⟩, h2, h⟩ := h
    have a := line_size h1
    have ⟨c, e⟩ := ih h2
    cases h
    simp only [List.map_cons, List.sum_cons, List.length_cons]
    dsimp only at *
    omega

theorem count_size {d d' : GeoDec} {n : Nat} (h : d.count = .ok (n, d')) : d'.rest.length < d.rest.length := by
  rw [GeoDec.count] at h
  simp only [Res.bind_eq_ok] at h
  obtain ⟨⟨p, d1⟩, h1, h⟩ := h
  have a := next_size h1
  dsimp only at h
  split at h
  · cases h
  · cases h; exact a

theorem polygons_size (n : Nat) : ∀ {d d' : GeoDec} {l : List Polygon}, GeoDec.polygons n d = .ok (l, d') →
    d'.rest.length + 2 * (l.map (fun q => q.outer.length + (q.inners.map List.length).sum)).sum ≤ d.rest.length := by
  induction n with
  | zero => intro d d' l h; cases h; simp
  | succ n ih =>
    intro d d' l h
    rw [GeoDec.polygons] at h
    simp only [Res.bind_eq_ok] at h
    obtain ⟨⟨o, d1⟩, h1, ⟨c, d2⟩, h2, ⟨is, d3⟩, h3, ⟨ps, d4⟩, h4, h⟩ := h
    have a := line_size h1
    have b := count_size h2
    have ⟨e, _⟩ := lines_size _ h3
    have f := ih h4
    cases h
    simp only [List.map_cons, List.sum_cons]
    dsimp only at *
    omega

theorem sum_filter_le {α : Type} (f : α → Nat) (p : α → Bool) (l : List α) : ((l.filter p).map f).sum ≤ (l.map f).sum := by
  induction l with
  | nil => simp
  | cons a l ih =>
    rw [List.filter_cons]
    split
    · simp only [List.map_cons, List.sum_cons]; omega
    · simp only [List.map_cons, List.sum_cons]; omega

theorem sum_mono_read {α : Type} {f g : α → Nat} (h : ∀ a, f a ≤ g a) (l : List α) : (l.map f).sum ≤ (l.map g).sum := by
  induction l with
  | nil => simp
  | cons a l ih => simp only [List.map_cons, List.sum_cons]; have := h a; omega

theorem dropSmallRings_size (ps : List Polygon) : pointCount (.polygon (dropSmallRings ps)) ≤ pointCount (.polygon ps) := by
  rw [dropSmallRings]
  refine Nat.le_trans (sum_filter_le _ _ _) ?_
  rw [List.map_map, pointCount]
  refine sum_mono_read (fun p => ?_) _
  exact Nat.add_le_add_left (sum_filter_le (fun l : Line => l.length) _ p.inners) _

theorem decField_bytes_size {bs d r : Bytes} {tag : Nat} (h : decField bs = .ok (.bytes tag d, r)) : d.length + r.length < bs.length := by
  rw [decField, Res.bind_eq_ok] at h
  obtain ⟨⟨k, r1⟩, h1, h⟩ := h
  dsimp only at h
  have a := decVarint_rest_lt h1
  split at h
  · cases h
  split at h
  · simp only [Res.bind_eq_ok] at h
    obtain ⟨_, _, h⟩ := h
    cases h
  split at h
  · simp only [Res.bind_eq_ok] at h
    obtain ⟨_, _, h⟩ := h
    cases h
  split at h
  · simp only [Res.bind_eq_ok] at h
    obtain ⟨⟨v, r2⟩, h2, ⟨d', r3⟩, h3, h⟩ := h
    have b := decVarint_rest_lt h2
    have c := congrArg List.length (takeN_rest h3)
    rw [List.length_append] at c
    cases h
    dsimp only at *
    omega
  split at h
  · simp only [Res.bind_eq_ok] at h
    obtain ⟨_, _, h⟩ := h
    cases h
  · cases h

theorem geometry_size {type : Nat} {d : GeoDec} {g : Geometry} (h : GeoDec.geometry type d = .ok g) : 2 * pointCount g ≤ d.rest.length := by
  rw [GeoDec.geometry] at h
  split at h
  · simp only [Res.bind_eq_ok] at h
    obtain ⟨⟨l, d1⟩, h1, h⟩ := h
    have a := line_size h1
    cases h
    rw [pointCount]
    dsimp only
    omega
  split at h
  · simp only [Res.bind_eq_ok] at h
    obtain ⟨⟨c, d1⟩, h1, ⟨l, d2⟩, h2, h⟩ := h
    have a := count_size h1
    have ⟨b, _⟩ := lines_size _ h2
    cases h
    rw [pointCount]
    dsimp only at *
    omega
  split at h
  · simp only [Res.bind_eq_ok] at h
    obtain ⟨⟨c, d1⟩, h1, ⟨l, d2⟩, h2, h⟩ := h
    have a := count_size h1
    have b := polygons_size _ h2
    have e : (if (dropSmallRings l).isEmpty then Geometry.null else .polygon (dropSmallRings l)) = g := by injection h
    subst e
    have c := dropSmallRings_size l
    split
    · rw [pointCount]; omega
    · rw [pointCount] at c ⊢
      rw [pointCount] at c
      dsimp only at *
      omega
  · cases h

theorem readGeometry_dec {bs : Bytes} {masks : Option (List (List Bool))} {g : Geometry} (h : deserializeGeometry bs masks = .ok g) :
    ∃ type d, d.rest.length < bs.length ∧ GeoDec.geometry type d = .ok g := by
  rw [deserializeGeometry] at h
  split at h
  · cases h
  rw [Res.bind_eq_ok] at h
  obtain ⟨⟨f, rest⟩, hf, h⟩ := h
  obtain ⟨⟨pre, _, e⟩, _⟩ := C56_field _ _ _ hf
  have e := congrArg List.length e
  rw [List.length_append] at e
  cases f with
  | varint tag type =>
    dsimp only at h
    split at h
    · cases h
    split at h
    · cases h
    split at h
    · cases h
    rw [Res.bind_eq_ok] at h
    obtain ⟨⟨f, r⟩, hg, h⟩ := h
    cases f with
    | bytes tag data =>
      dsimp only at h
      split at h
      · cases h
      · have b := decField_bytes_size hg
        exact ⟨_, _, by dsimp only; omega, h⟩
    | _ => dsimp only at h; split at h <;> cases h
  | _ => dsimp only at h; split at h <;> cases h

/-- A geometry that was read has at most half as many points as there were bytes, whatever sizes the bytes declare. -/
theorem C56_geometry_size (bs : Bytes) (masks : Option (List (List Bool))) (g : Geometry) (h : deserializeGeometry bs masks = .ok g) :
    2 * pointCount g ≤ bs.length := by
  obtain ⟨type, d, hd, hg⟩ := readGeometry_dec h
  have := geometry_size hg
  omega

/-! ### tables of names and metadata -/

/-- all fields of the message are strings -/
def Spec.AllStrings (bs : Bytes) : Prop := ∀ f, FieldIn bs f → wireOf f = 2

theorem mem_fieldIn {bs : Bytes} {fs : List PbfField} (h : decMessage bs = .ok fs) : ∀ f ∈ fs, FieldIn bs f := by
  have key : ∀ n bs fs, decMessageGo n bs = .ok fs → ∀ f ∈ fs, FieldIn bs f := by
    intro n
    induction n with
    | zero => intro bs fs h f hf; cases bs with
      | nil => cases h; cases hf
      | cons b bs => cases h
    | succ n ih =>
      intro bs fs h f hf
      cases bs with
      | nil => cases h; cases hf
      | cons b bs =>
        rw [decMessageGo] at h
        · rw [Res.bind_eq_ok] at h
          obtain ⟨⟨g, r⟩, h1, h⟩ := h
          dsimp only at h
          rw [Res.bind_eq_ok] at h
          obtain ⟨gs, h2, h⟩ := h
          cases h
          rcases List.mem_cons.1 hf with rfl | hf
          · exact .here h1
          · exact .later h1 (ih _ _ h2 f hf)
        · simp
  exact key _ _ _ h

theorem readMetaPairs_spec : ∀ n (fs : List PbfField), fs.length ≤ n → (∀ f ∈ fs, wireOf f = 2) →
    (fs.length % 2 = 1 → readMetaPairs fs = .throw_) ∧ (fs.length % 2 = 0 → ∃ ms, readMetaPairs fs = .ok ms ∧ 2 * ms.length = fs.length) := by
  intro n
  induction n with
  | zero =>
    intro fs h _
    have : fs = [] := List.length_eq_zero_iff.1 (by omega)
    subst this
    exact ⟨fun h => by simp at h, fun _ => ⟨[], rfl, rfl⟩⟩
  | succ n ih =>
    intro fs h hw
    match fs, h, hw with
    | [], _, _ => exact ⟨fun h => by simp at h, fun _ => ⟨[], rfl, rfl⟩⟩
    | [f], _, hw =>
      have := hw f (by simp)
      cases f <;> simp [wireOf] at this
      exact ⟨fun _ => rfl, fun h => by simp at h⟩
    | f :: g :: fs, h, hw =>
      have h1 := hw f (by simp)
      have h2 := hw g (by simp)
      cases f <;> simp [wireOf] at h1
      cases g <;> simp [wireOf] at h2
      obtain ⟨i1, i2⟩ := ih fs (by simp only [List.length_cons] at h; omega) (fun x hx => hw x (by simp [hx]))
      rw [readMetaPairs]
      refine ⟨fun h => ?_, fun h => ?_⟩
      · rw [i1 (by simp only [List.length_cons] at h; omega)]; rfl
      · obtain ⟨ms, e, l⟩ := i2 (by simp only [List.length_cons] at h; omega)
        exact ⟨⟨_, _⟩ :: ms, by rw [e]; rfl, by simp only [List.length_cons]; omega⟩

/-- Opening a database with any stored metadata table whose fields are strings gives a table or an exception; a key without a value is an exception. -/
theorem C56_metadata_table (bs : Bytes) (hs : AllStrings bs) : loadSharedMetadata (some bs) ≠ .ub ∧
    ∀ fs, decMessage bs = .ok fs → (fs.length % 2 = 1 → loadSharedMetadata (some bs) = .throw_) ∧
      (fs.length % 2 = 0 → ∃ ms, loadSharedMetadata (some bs) = .ok ms ∧ 2 * ms.length = fs.length) := by
  have h1 : ∀ fs, decMessage bs = .ok fs → (fs.length % 2 = 1 → loadSharedMetadata (some bs) = .throw_) ∧
      (fs.length % 2 = 0 → ∃ ms, loadSharedMetadata (some bs) = .ok ms ∧ 2 * ms.length = fs.length) := by
    intro fs hfs
    have := readMetaPairs_spec fs.length fs (Nat.le_refl _) (fun f hf => hs f (mem_fieldIn hfs f hf))
    rw [loadSharedMetadata, hfs]
    exact this
  refine ⟨?_, h1⟩
  cases hd : decMessage bs with
  | ok fs =>
    obtain ⟨a, b⟩ := h1 fs hd
    by_cases h : fs.length % 2 = 1
    · rw [a h]; intro h; cases h
    · obtain ⟨ms, e, _⟩ := b (by omega)
      rw [e]; intro h; cases h
  | throw_ => rw [loadSharedMetadata, hd]; intro h; cases h
  | ub => exact absurd hd (C56_message _)

/-- The same for the table of layer names. -/
theorem C56_layer_names (bs : Bytes) (hs : AllStrings bs) : loadLayerNames (some bs) ≠ .ub := by
  have key : ∀ fs : List PbfField, (∀ f ∈ fs, wireOf f = 2) → readStrings fs ≠ .ub := by
    intro fs
    induction fs with
    | nil => intro _ h; cases h
    | cons f fs ih =>
      intro hw
      have := hw f (by simp)
      cases f <;> simp [wireOf] at this
      rw [readStrings]
      exact bind_safe (ih (fun x hx => hw x (by simp [hx]))) (fun a _ h => by cases h)
  rw [loadLayerNames]
  exact bind_safe (C56_message _) (fun fs hfs => key fs (fun f hf => hs f (mem_fieldIn hfs f hf)))

/-! ### packs -/

/-- A pack whose declared feature is longer than the pack is read beyond its end: the readers do not compare sizes, nor do they call `feature_pack_valid`. -/
theorem C56_pack_overrun (n : Nat) (rest : Bytes) (h0 : 0 < n) (hn : n < 2 ^ 64) (h : rest.length < n) :
    unpackFeatures (leBytes 4 1 ++ leBytes 1 0 ++ (encVarint n ++ rest)) = .ub := by
  have e : leBytes 4 1 ++ leBytes 1 0 = [1, 0, 0, 0, 0] := by decide
  rw [e, unpackFeatures]
  have hc : leNat (List.take 4 ([1, 0, 0, 0, 0] ++ (encVarint n ++ rest))) = 1 := by
    simp only [List.cons_append, List.nil_append, List.take_succ_cons, List.take_zero]; decide
  have hs : leNat (List.take 1 (List.drop 4 ([1, 0, 0, 0, 0] ++ (encVarint n ++ rest)))) = 0 := by
    simp only [List.cons_append, List.nil_append, List.drop_succ_cons, List.drop_zero, List.take_succ_cons, List.take_zero]; decide
  have hl : decide (List.length ([1, 0, 0, 0, 0] ++ (encVarint n ++ rest)) ≥ 5) = true := by simp
  rw [hl, verify_true, Res.ok_bind]
  dsimp only
  rw [hc, hs]
  rw [if_pos (by simp)]
  have e2 : List.drop ((0 + 1) * 5) ([1, 0, 0, 0, 0] ++ (encVarint n ++ rest)) = encVarint n ++ rest := rfl
  rw [e2, unpackLoop, nextSize_enc _ _ h0 hn, Res.ok_bind]
  dsimp only
  rw [if_neg (by omega)]
  rfl

/-! ### clipping -/

theorem openRings_safe (rs : List Line) (h : ∀ r ∈ rs, r ≠ []) : openRings rs ≠ .ub := by
  induction rs with
  | nil => intro h; cases h
  | cons r rs ih =>
    rw [openRings]
    refine bind_safe ?_ (fun a _ => bind_safe (ih (fun x hx => h x (by simp [hx]))) (fun a _ h => by cases h))
    rw [openRing, if_neg (by have := h r (by simp); cases r <;> simp_all)]
    intro h; cases h

theorem clipSubject_safe (ps : List Polygon) (h : ∀ p ∈ ps, p.outer ≠ [] ∧ ∀ r ∈ p.inners, r ≠ []) : clipSubject ps ≠ .ub := by
  induction ps with
  | nil => intro h; cases h
  | cons p ps ih =>
    rw [clipSubject]
    obtain ⟨h1, h2⟩ := h p (by simp)
    refine bind_safe ?_ (fun a _ => bind_safe (openRings_safe _ h2) (fun a _ => bind_safe (ih (fun x hx => h x (by simp [hx]))) (fun a _ h => by cases h)))
    rw [openRing, if_neg (by cases h : p.outer <;> simp_all)]
    intro h; cases h

theorem pathToRing_safe (c : List XY) : pathToRing c ≠ .ub := by cases c <;> intro h <;> cases h

mutual
theorem toFixedPolygon_safe (acc : List Polygon) : ∀ ns, toFixedPolygon acc ns ≠ .ub
  | [] => by rw [toFixedPolygon]; intro h; cases h
  | .mk contour hole childs :: rest => by
    rw [toFixedPolygon]
    refine bind_safe (verify_safe _) (fun _ _ => bind_safe (pathToRing_safe _) (fun o _ => bind_safe (toFixedInners_safe acc [] childs) (fun a _ => ?_)))
    exact toFixedPolygon_safe _ rest
theorem toFixedInners_safe (acc : List Polygon) (inners : List Line) : ∀ ns, toFixedInners acc inners ns ≠ .ub
  | [] => by rw [toFixedInners]; intro h; cases h
  | .mk contour hole childs :: rest => by
    rw [toFixedInners]
    refine bind_safe (verify_safe _) (fun _ _ => bind_safe (pathToRing_safe _) (fun o _ => bind_safe (toFixedPolygon_safe acc childs) (fun a _ => ?_)))
    exact toFixedInners_safe _ _ rest
end

/-- Clipping a geometry without empty rings gives a geometry or an exception, whatever Clipper returns. -/
theorem C56_clip (inter : Box → List Line → List Line) (clipper : List Line → Box → Option (List PolyNode)) (correct : List Polygon → List Polygon)
    (g : Geometry) (box : Box) (h : ∀ ps, g = .polygon ps → ∀ p ∈ ps, p.outer ≠ [] ∧ ∀ r ∈ p.inners, r ≠ []) :
    clipGeometry inter clipper correct g box ≠ .ub := by
  cases g with
  | null => intro h; cases h
  | point p => intro h; cases h
  | polyline l => intro h; cases h
  | polygon ps =>
    rw [clipGeometry, clipPolygon]
    refine bind_safe (clipSubject_safe ps (h ps rfl)) (fun a _ => ?_)
    split
    · intro h; cases h
    · intro h; cases h
    · exact bind_safe (toFixedPolygon_safe _ _) (fun a _ h => by cases h)

/-- A polygon that was read from any bytes has no empty ring: what a tile request clips is never undefined. -/
theorem C56_clip_read (inter : Box → List Line → List Line) (clipper : List Line → Box → Option (List PolyNode)) (correct : List Polygon → List Polygon)
    (bs : Bytes) (masks : Option (List (List Bool))) (g : Geometry) (box : Box) (h : deserializeGeometry bs masks = .ok g) :
    clipGeometry inter clipper correct g box ≠ .ub := by
  refine C56_clip _ _ _ _ _ (fun ps hps p hp => ?_)
  subst hps
  obtain ⟨type, d, _, hg⟩ := readGeometry_dec h
  rw [GeoDec.geometry] at hg
  split at hg
  · rw [Res.bind_eq_ok] at hg
    obtain ⟨_, _, hg⟩ := hg
    cases hg
  split at hg
  · simp only [Res.bind_eq_ok] at hg
    obtain ⟨_, _, _, _, hg⟩ := hg
    cases hg
  split at hg
  · simp only [Res.bind_eq_ok] at hg
    obtain ⟨c, _, qs, _, hg⟩ := hg
    have e : (if (dropSmallRings qs.1).isEmpty then Geometry.null else .polygon (dropSmallRings qs.1)) = .polygon ps := by injection hg
    split at e
    · cases e
    · injection e with e
      subst e
      rw [dropSmallRings, List.mem_filter, List.mem_map] at hp
      obtain ⟨⟨q, _, rfl⟩, h2⟩ := hp
      simp only [decide_not, Bool.not_eq_true', decide_eq_false_iff_not] at h2
      refine ⟨fun e => h2 (by rw [e]; decide), fun r hr e => ?_⟩
      rw [List.mem_filter] at hr
      simp [e] at hr
  · cases hg

/-! ### the hypotheses are met -/

/-- a geometry whose packed field declares more points than there are: an exception -/
example : GeoTyped [8, 1, 18, 1, 4] ∧ deserializeGeometry [8, 1, 18, 1, 4] = .throw_ := by
  refine ⟨?_, by decide +kernel⟩
  intro f hf
  cases hf with
  | here h =>
    have e : decField [8, 1, 18, 1, 4] = .ok (.varint 1 1, [18, 1, 4]) := by decide +kernel
    rw [e] at h
    cases h
    exact ⟨fun _ => rfl, fun h => by cases h⟩
  | later h hf =>
    have e : decField [8, 1, 18, 1, 4] = .ok (.varint 1 1, [18, 1, 4]) := by decide +kernel
    rw [e] at h
    cases h
    cases hf with
    | here h =>
      have e : decField [18, 1, 4] = .ok (.bytes 2 [4], []) := by decide +kernel
      rw [e] at h
      cases h
      exact ⟨fun h => (by cases h), fun _ => rfl⟩
    | later h hf =>
      have e : decField [18, 1, 4] = .ok (.bytes 2 [4], []) := by decide +kernel
      rw [e] at h
      cases h
      have e2 : decField [] = .throw_ := by decide +kernel
      cases hf with
      | here h => rw [e2] at h; cases h
      | later h _ => rw [e2] at h; cases h

/-- the field 3 (coded metadata) as a varint: undefined -/
example : deserializeFeature (fun _ _ => []) [] [24, 5] = .ub :=
  C56_wrong_type _ _ _ _ [24, 5] [] (.varint 3 5) (by decide +kernel) (by decide) ⟨fun h => (by cases h), fun _ h => (by cases h)⟩

/-- a table with one string: the value is missing -/
example : loadSharedMetadata (some [10, 1, 97]) = .throw_ := by decide +kernel

end Tiles
