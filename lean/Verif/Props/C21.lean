import Verif.Proof.GeometryIO
/-! C21 — fixed geometries round-trip through their binary form. -/
namespace Tiles
open Spec

/-- a geometry that may be stored: not null, not empty -/
def Spec.nonEmpty : Geometry → Prop
  | .null => False
  | .point p => p ≠ []
  | .polyline l => l ≠ []
  | .polygon p => p ≠ []

/-- what reading gives: polygons lose rings with fewer than four points -/
def Spec.withoutSmallRings : Geometry → Geometry
  | .polygon ps =>
    match (ps.filter (fun p => 4 ≤ p.outer.length)).map (fun p => (⟨p.outer, p.inners.filter (fun i => 4 ≤ i.length)⟩ : Polygon)) with
    | [] => .null
    | qs => .polygon qs
  | g => g

/-- sizes below 2^62: number of lines, polygons and inner rings (all sizes a vector can have) -/
def Spec.CountsOk : Geometry → Prop
  | .polyline l => l.length < 2 ^ 62
  | .polygon p => p.length < 2 ^ 62 ∧ ∀ q ∈ p, q.inners.length < 2 ^ 62
  | _ => True

/-- the geometry with the lines selected by the mask bits -/
def keepGeo (sel : Option (Line → List Bool)) : Geometry → Geometry
  | .null => .null
  | .point p => .point p
  | .polyline l => .polyline (l.map (keepSel sel))
  | .polygon p => .polygon (p.map (fun q => ⟨keepSel sel q.outer, q.inners.map (keepSel sel)⟩))

theorem dropSmallRings_eq (ps : List Polygon) : (if (dropSmallRings ps).isEmpty then Geometry.null else .polygon (dropSmallRings ps)) =
    withoutSmallRings (.polygon ps) := by
  have e : dropSmallRings ps =
      (ps.filter (fun p => 4 ≤ p.outer.length)).map (fun p => (⟨p.outer, p.inners.filter (fun i => 4 ≤ i.length)⟩ : Polygon)) := by
    simp only [dropSmallRings, List.filter_map, Nat.not_lt]
    rfl
  simp only [withoutSmallRings, ← e]
  cases dropSmallRings ps <;> rfl

/-- reading what was written, with or without masks -/
theorem deserialize_serialize (sel : Option (Line → List Bool)) (g : Geometry) (bs : Bytes) (hg : GeoOk g) (hc : CountsOk g)
    (hs : ∀ l ∈ linesOf g, SelOk sel l) (h : serializeGeometry g = .ok bs) (hl : bs.length < 2 ^ 32) :
    deserializeGeometry bs (sel.map (fun b => (linesOf g).map b)) = .ok (withoutSmallRings (keepGeo sel g)) := by
  rw [serializeGeometry, Res.bind_eq_ok] at h
  obtain ⟨⟨type, els⟩, he, h⟩ := h
  have hb : bs = encMessage [.varint 1 type, .bytes 2 (els.flatMap encS64)] := by
    injection h with h; exact h.symm
  have htype : type = 1 ∨ type = 2 ∨ type = 3 := by
    cases g <;> simp only [serElements] at he
    · cases he
    all_goals (split at he; · cases he
               injection he with he; injection he with e1 e2; omega)
  have hlen : (els.flatMap encS64).length < 2 ^ 32 := by
    rw [hb] at hl; simp [encMessage, PbfField.enc] at hl ⊢; omega
  have hne : bs.isEmpty = false := by
    rw [hb]
    have := PbfField.enc_length_pos (.varint 1 type)
    simp only [encMessage, List.flatMap_cons, List.isEmpty_eq_false_iff]
    intro h0; rw [List.append_eq_nil_iff] at h0; rw [h0.1] at this; simp at this
  have hd1 : decField bs = .ok (.varint 1 type, encMessage [.bytes 2 (els.flatMap encS64)]) := by
    rw [hb, show encMessage [.varint 1 type, .bytes 2 (els.flatMap encS64)] =
      PbfField.enc (.varint 1 type) ++ encMessage [.bytes 2 (els.flatMap encS64)] from rfl]
    exact decField_enc _ _ ⟨by decide, by omega⟩
  have hne2 : (encMessage [.bytes 2 (els.flatMap encS64)]).isEmpty = false := by
    have := PbfField.enc_length_pos (.bytes 2 (els.flatMap encS64))
    simp only [encMessage, List.flatMap_cons, List.flatMap_nil, List.append_nil, List.isEmpty_eq_false_iff]
    intro h0; rw [h0] at this; simp at this
  have hd2 : decField (encMessage [.bytes 2 (els.flatMap encS64)]) = .ok (.bytes 2 (els.flatMap encS64), []) := by
    rw [show encMessage [.bytes 2 (els.flatMap encS64)] = PbfField.enc (.bytes 2 (els.flatMap encS64)) ++ [] from by simp [encMessage]]
    exact decField_enc _ _ ⟨by decide, hlen⟩
  have hmain : GeoDec.geometry type ⟨els.flatMap encS64, magicXY, if type = 1 then none else sel.map (fun b => (linesOf g).map b)⟩ =
      .ok (withoutSmallRings (keepGeo sel g)) := by
    have hm : ∀ ls : List Line, sel.map (fun b => ls.map b) = masksFor sel ls [] := by
      intro ls; cases sel <;> simp [masksFor]
    cases g with
    | null => cases he
    | point p =>
      simp only [serElements] at he
      split at he
      · cases he
      injection he with he; injection he with e1 e2; subst e1; subst e2
      obtain ⟨h1, h2⟩ := hg p (by simp [linesOf])
      have := line_enc none p [] (by intro b hb; cases hb) h1 magicXY magic_ok h2 []
      simp only [masksFor, Option.map_none, List.append_nil] at this
      rw [GeoDec.geometry, if_pos rfl, if_pos rfl, this, Res.ok_bind]
      rfl
    | polyline l =>
      simp only [serElements] at he
      split at he
      · cases he
      injection he with he; injection he with e1 e2; subst e1; subst e2
      rw [GeoDec.geometry, if_neg (by decide), if_pos rfl, if_neg (by decide), hm]
      have hcount := count_enc (n := l.length) hc ((serLines magicXY l).1.flatMap encS64) magicXY (masksFor sel l [])
      have := lines_enc sel l [] (fun q hq => ⟨hs q hq, hg q hq⟩) magicXY magic_ok []
      rw [List.append_nil] at this
      rw [List.flatMap_cons, show linesOf (.polyline l) = l from rfl, hcount, Res.ok_bind]
      dsimp only
      rw [this, Res.ok_bind]
      rfl
    | polygon p =>
      simp only [serElements] at he
      split at he
      · cases he
      injection he with he; injection he with e1 e2; subst e1; subst e2
      rw [GeoDec.geometry, if_neg (by decide), if_neg (by decide), if_pos rfl, if_neg (by decide), hm]
      have hcount := count_enc (n := p.length) hc.1 ((serPolygons magicXY p).1.flatMap encS64) magicXY (masksFor sel (ringList p) [])
      have hin : ∀ q ∈ p, ∀ l ∈ q.outer :: q.inners, l ∈ linesOf (.polygon p) := fun q hq l hl =>
        List.mem_flatMap.2 ⟨q, hq, hl⟩
      have := polygons_enc sel p [] (fun q hq => ⟨hc.2 q hq, fun l hl => ⟨hs l (hin q hq l hl), hg l (hin q hq l hl)⟩⟩)
        magicXY magic_ok []
      rw [List.append_nil] at this
      rw [List.flatMap_cons, show linesOf (.polygon p) = ringList p from rfl, hcount, Res.ok_bind]
      dsimp only
      rw [this, Res.ok_bind]
      dsimp only
      rw [dropSmallRings_eq]
      rfl
  rw [deserializeGeometry, hne, if_neg (by simp), hd1, Res.ok_bind]
  dsimp only
  rw [if_neg (by simp), Nat.mod_eq_of_lt (by omega), if_neg (by omega), hne2, if_neg (by simp), hd2, Res.ok_bind]
  dsimp only
  rw [if_neg (by simp), hmain]

theorem keepGeo_none (g : Geometry) : keepGeo none g = g := by
  have : (keepSel none) = id := rfl
  cases g <;> simp [keepGeo, this]

/-- every stored geometry is read back; polygons lose rings with fewer than four points -/
theorem C21_round_trip (g : Geometry) (bs : Bytes) (hg : GeoOk g) (hc : CountsOk g)
    (h : serializeGeometry g = .ok bs) (hl : bs.length < 2 ^ 32) :
    deserializeGeometry bs = .ok (withoutSmallRings g) := by
  have := deserialize_serialize none g bs hg hc (fun l _ b hb => by cases hb) h hl
  rwa [keepGeo_none] at this

/-- rings of at least four points: exactly the same geometry -/
theorem C21_same (g : Geometry) (bs : Bytes) (hg : GeoOk g) (hc : CountsOk g)
    (h4 : ∀ ps, g = .polygon ps → ∀ p ∈ ps, ∀ r ∈ p.outer :: p.inners, 4 ≤ r.length)
    (h : serializeGeometry g = .ok bs) (hl : bs.length < 2 ^ 32) : deserializeGeometry bs = .ok g := by
  rw [C21_round_trip g bs hg hc h hl]
  cases g with
  | polygon ps =>
    have h4 := h4 ps rfl
    have e1 : ps.filter (fun p => 4 ≤ p.outer.length) = ps := by
      rw [List.filter_eq_self]; intro p hp; simpa using h4 p hp p.outer (by simp)
    have e2 : ps.map (fun p => (⟨p.outer, p.inners.filter (fun i => 4 ≤ i.length)⟩ : Polygon)) = ps := by
      refine (List.map_congr_left fun p hp => ?_).trans (List.map_id _)
      have : p.inners.filter (fun i => 4 ≤ i.length) = p.inners := by
        rw [List.filter_eq_self]; intro i hi; simpa using h4 p hp i (by simp [hi])
      rw [this]; rfl
    simp only [withoutSmallRings, e1, e2]
    cases ps with
    | nil => cases h
    | cons a l => rfl
  | _ => rfl

/-- a geometry is stored exactly when it is neither null nor empty; otherwise the call throws -/
theorem C21_refused (g : Geometry) : (nonEmpty g ∧ ∃ bs, serializeGeometry g = .ok bs) ∨ (¬ nonEmpty g ∧ serializeGeometry g = .throw_) := by
  cases g with
  | null => exact .inr ⟨id, rfl⟩
  | point p => cases p with
    | nil => exact .inr ⟨fun h => h rfl, rfl⟩
    | cons a l => exact .inl ⟨by simp [nonEmpty], _, rfl⟩
  | polyline p => cases p with
    | nil => exact .inr ⟨fun h => h rfl, rfl⟩
    | cons a l => exact .inl ⟨by simp [nonEmpty], _, rfl⟩
  | polygon p => cases p with
    | nil => exact .inr ⟨fun h => h rfl, rfl⟩
    | cons a l => exact .inl ⟨by simp [nonEmpty], _, rfl⟩

/-- hypotheses met: a polygon with a hole -/
example : ∃ bs, serializeGeometry (.polygon [⟨[⟨0, 0⟩, ⟨9, 0⟩, ⟨9, 9⟩, ⟨0, 0⟩], [[⟨1, 1⟩, ⟨3, 1⟩, ⟨3, 3⟩, ⟨1, 1⟩]]⟩]) = .ok bs ∧
    bs.length < 2 ^ 32 ∧ GeoOk (.polygon [⟨[⟨0, 0⟩, ⟨9, 0⟩, ⟨9, 9⟩, ⟨0, 0⟩], [[⟨1, 1⟩, ⟨3, 1⟩, ⟨3, 3⟩, ⟨1, 1⟩]]⟩]) := by
  refine ⟨_, rfl, ?_, ?_⟩
  · simp [encMessage, PbfField.enc, serPolygons, serPoints, serDeltas, serLines, encS64, zigzag, encVarint, magicXY, kFixedCoordMagicOffset, kFixedCoordMax]
  · simp [GeoOk, linesOf, PtOk, CoordOk]

end Tiles
