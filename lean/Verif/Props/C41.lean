import Verif.Props.C21
/-! C41 — reading with simplification masks: exactly the points whose bit is set. -/
namespace Tiles
open Spec

/-- reading a stored geometry with the masks that were made for it: from each line exactly the points with a set bit, in order.
`bits l` are the bits which the (external) mask codec gives for line `l` at the zoom level. -/
theorem C41_masked (bits : Line → List Bool) (g : Geometry) (bs : Bytes) (hg : GeoOk g) (hc : CountsOk g)
    (hs : ∀ l, (bits l).length = l.length) (h : serializeGeometry g = .ok bs) (hl : bs.length < 2 ^ 32) :
    deserializeGeometry bs (some ((linesOf g).map bits)) =
      .ok (withoutSmallRings (match g with
        | .null => .null
        | .point p => .point p
        | .polyline ls => .polyline (ls.map (fun l => keep (bits l) l))
        | .polygon ps => .polygon (ps.map (fun q => ⟨keep (bits q.outer) q.outer, q.inners.map (fun l => keep (bits l) l)⟩)))) := by
  have := deserialize_serialize (some bits) g bs hg hc (fun l _ b hb => by injection hb with hb; subst hb; exact hs l) h hl
  rw [Option.map_some] at this
  rw [this]
  cases g <;> rfl

/-- the masks stored beside a geometry (one per line, made by `mk`) are the ones the reader needs -/
theorem C41_masks_fit (mk : Line → Bytes) (rd : Bytes → List Bool) (g : Geometry) (hp : ∀ p, g ≠ .point p) :
    (makeSimplifyMask mk g).map rd = (linesOf g).map (fun l => rd (mk l)) := by
  cases g with
  | null => rfl
  | point p => exact absurd rfl (hp p)
  | polyline l => simp [makeSimplifyMask, linesOf]
  | polygon p =>
    simp only [makeSimplifyMask, linesOf, List.map_flatMap, List.map_cons, List.map_map]
    rfl

/-- a point set is read completely, whatever the masks -/
theorem C41_points_unmasked (p : List XY) (masks : List (List Bool)) (bs : Bytes) (hg : GeoOk (.point p))
    (h : serializeGeometry (.point p) = .ok bs) (hl : bs.length < 2 ^ 32) :
    deserializeGeometry bs (some masks) = .ok (.point p) := by
  have h0 := C21_round_trip (.point p) bs hg trivial h hl
  have key : ∀ b : Bytes, ∀ m, (∃ r, decField b = .ok (.varint 1 1, r)) → deserializeGeometry b (some m) = deserializeGeometry b none := by
    intro b m ⟨r, hr⟩
    simp only [deserializeGeometry, hr, Res.ok_bind]
    simp
  rw [key bs masks ?_, h0]
  · rfl
  · simp only [serializeGeometry, serElements] at h
    split at h
    · cases h
    · rw [Res.ok_bind] at h
      injection h with h
      subst h
      exact ⟨_, by
        rw [show ∀ a b : PbfField, encMessage [a, b] = a.enc ++ encMessage [b] from fun a b => rfl]
        exact decField_enc (.varint 1 1) _ ⟨by decide, by decide⟩⟩

/-- the points kept are a subsequence of the line -/
theorem C41_subsequence (bits : List Bool) (l : Line) : (keep bits l).Sublist l := by
  induction l generalizing bits with
  | nil => simp [keep]
  | cons p l ih =>
    cases bits with
    | nil => simp [keep]
    | cons b bs =>
      cases b
      · simpa [keep] using (ih bs).cons p
      · simpa [keep] using ih bs

/-- first and last point are kept when their bits are set -/
theorem C41_end_points (bits : List Bool) (l : Line) (hl : bits.length = l.length)
    (h0 : bits.head? = some true) (h1 : bits.getLast? = some true) :
    (keep bits l).head? = l.head? ∧ (keep bits l).getLast? = l.getLast? := by
  constructor
  · cases l with
    | nil => simp at hl; subst hl; cases h0
    | cons p l => cases bits with
      | nil => cases h0
      | cons b bs => simp at h0; subst h0; simp [keep]
  · cases hb : bits.reverse with
    | nil => simp at hb; subst hb; cases h0
    | cons b bs =>
      have hb' : bits = bs.reverse ++ [b] := by rw [← List.reverse_reverse bits, hb]; simp
      cases hl' : l.reverse with
      | nil => simp at hl'; subst hl'; simp at hl; subst hl; cases h0
      | cons p ps =>
        have e : l = ps.reverse ++ [p] := by rw [← List.reverse_reverse l, hl']; simp
        subst hb'; subst e
        simp at h1; subst h1
        have hlen : ps.reverse.length = bs.reverse.length := by simp at hl ⊢; omega
        simp [keep, List.zip_append hlen]

/-- when the mask of a lower zoom level is contained in that of a higher one, so is what is read -/
theorem C41_levels_nested (lo hi : List Bool) (l : Line) (hl : lo.length = hi.length)
    (h : ∀ i : Nat, lo[i]? = some true → hi[i]? = some true) : (keep lo l).Sublist (keep hi l) := by
  induction l generalizing lo hi with
  | nil => simp [keep]
  | cons p l ih =>
    cases lo with
    | nil => simp [keep]
    | cons a lo =>
      cases hi with
      | nil => simp at hl
      | cons b hi =>
        have h' := ih lo hi (by simpa using hl) (fun i => by simpa using h (i + 1))
        have h0 := h 0
        cases a <;> cases b <;> simp [keep] at h0 h' ⊢
        · exact h'
        · exact h'.cons p
        · exact h'

/-- everything is kept when all bits are set -/
theorem C41_full_mask (l : Line) : keep (List.replicate l.length true) l = l := by
  induction l with
  | nil => rfl
  | cons p l ih => simp only [keep, List.length_cons, List.replicate_succ, List.zip_cons_cons] at ih ⊢; simp [ih]

/-- a mask of the wrong size is refused -/
theorem C41_size_mismatch (d : GeoDec) (m : List Bool) (ms : List (List Bool)) (v : Int) (d' : GeoDec)
    (hm : d.masks = some (m :: ms)) (hn : d.next = .ok (v, d')) (h : v ≠ m.length) : d.line = .throw_ := by
  simp only [GeoDec.line, hm, hn, Res.ok_bind]
  simp [h]

/-- a missing mask is refused -/
theorem C41_mask_missing (d : GeoDec) (hm : d.masks = some []) : d.line = .throw_ := by
  simp [GeoDec.line, hm]

/-- hypotheses met: a line of three points of which the middle one is masked out -/
example : keep [true, false, true] [⟨0, 0⟩, ⟨1, 0⟩, ⟨2, 0⟩] = [⟨0, 0⟩, ⟨2, 0⟩] := by decide

end Tiles
