import Verif.Model.GeometryIO
import Verif.Proof.Pbf
/-! Reading back what the geometry serializer wrote. -/
namespace Tiles

namespace Spec
/-- a coordinate for which differences do not overflow int64_t -/
def CoordOk (c : Int) : Prop := -(2 : Int) ^ 62 ≤ c ∧ c < (2 : Int) ^ 62
def PtOk (p : XY) : Prop := CoordOk p.x ∧ CoordOk p.y
/-- all lines of a geometry in the order in which they are stored -/
def linesOf : Geometry → List Line
  | .null => []
  | .point p => [p]
  | .polyline l => l
  | .polygon p => p.flatMap (fun p => p.outer :: p.inners)
def GeoOk (g : Geometry) : Prop := ∀ l ∈ linesOf g, l.length < 2 ^ 62 ∧ ∀ p ∈ l, PtOk p
/-- the points whose bit is set -/
def keep (bits : List Bool) (l : Line) : Line := ((l.zip bits).filter (·.2)).map (·.1)
/-- reading with a function giving each line its mask bits; without it everything is kept -/
def keepSel (sel : Option (Line → List Bool)) (l : Line) : Line :=
  match sel with
  | none => l
  | some b => keep (b l) l
end Spec
open Spec

theorem magic_ok : PtOk magicXY := by
  refine ⟨⟨?_, ?_⟩, ⟨?_, ?_⟩⟩ <;> decide

theorem encS64_ne_nil (v : Int) (r : Bytes) : (encS64 v ++ r).isEmpty = false := by
  have := encVarint_ne_nil (zigzag v)
  cases h : encS64 v with
  | nil => exact absurd h this
  | cons a l => rfl

theorem next_enc {v : Int} (h1 : -(2 : Int) ^ 63 ≤ v) (h2 : v < (2 : Int) ^ 63) (r : Bytes) (cur : XY) (m : Option (List (List Bool))) :
    GeoDec.next ⟨encS64 v ++ r, cur, m⟩ = .ok (v, ⟨r, cur, m⟩) := by
  simp only [GeoDec.next, encS64_ne_nil, Bool.false_eq_true, if_false]
  rw [encS64, decVarint_enc _ _ (zigzag_lt h1 h2), Res.ok_bind]
  simp only [unzigzag_zigzag, Res.pure_eq]

theorem delta_range {a b : Int} (ha : CoordOk a) (hb : CoordOk b) : -(2 : Int) ^ 63 ≤ b - a ∧ b - a < (2 : Int) ^ 63 := by
  obtain ⟨h1, h2⟩ := ha; obtain ⟨h3, h4⟩ := hb
  norm_num at *
  omega

theorem nextPoint_enc {cur p : XY} (hc : PtOk cur) (hp : PtOk p) (r : Bytes) (m : Option (List (List Bool))) :
    GeoDec.nextPoint ⟨encS64 (p.x - cur.x) ++ (encS64 (p.y - cur.y) ++ r), cur, m⟩ = .ok (p, ⟨r, p, m⟩) := by
  obtain ⟨a1, a2⟩ := delta_range hc.1 hp.1
  obtain ⟨b1, b2⟩ := delta_range hc.2 hp.2
  rw [GeoDec.nextPoint, next_enc a1 a2, Res.ok_bind]
  dsimp only
  rw [next_enc b1 b2, Res.ok_bind]
  have e : (⟨cur.x + (p.x - cur.x), cur.y + (p.y - cur.y)⟩ : XY) = p := by
    cases p; simp only [XY.mk.injEq]; omega
  simp only [e, Res.pure_eq]

theorem serDeltas_last_ok (pts : List XY) (cur : XY) (hc : PtOk cur) (hp : ∀ p ∈ pts, PtOk p) : PtOk (serDeltas cur pts).2 := by
  induction pts generalizing cur with
  | nil => exact hc
  | cons p ps ih => exact ih p (hp p (by simp)) (fun q hq => hp q (by simp [hq]))

theorem serPoints_last_ok (pts : List XY) (cur : XY) (hc : PtOk cur) (hp : ∀ p ∈ pts, PtOk p) : PtOk (serPoints cur pts).2 :=
  serDeltas_last_ok pts cur hc hp

theorem points_enc (pts : List XY) (cur : XY) (hc : PtOk cur) (hp : ∀ p ∈ pts, PtOk p) (r : Bytes) (m : Option (List (List Bool))) :
    GeoDec.points pts.length ⟨(serDeltas cur pts).1.flatMap encS64 ++ r, cur, m⟩ =
      .ok (pts, ⟨r, (serDeltas cur pts).2, m⟩) := by
  induction pts generalizing cur with
  | nil => rfl
  | cons p ps ih =>
    simp only [serDeltas, List.flatMap_cons, List.append_assoc, List.length_cons, GeoDec.points]
    rw [nextPoint_enc hc (hp p (by simp)), Res.ok_bind]
    dsimp only
    rw [ih p (hp p (by simp)) (fun q hq => hp q (by simp [hq])), Res.ok_bind]
    rfl

theorem masked_enc (pts : List XY) (bits : List Bool) (hb : bits.length = pts.length) (cur : XY) (hc : PtOk cur)
    (hp : ∀ p ∈ pts, PtOk p) (r : Bytes) (m : Option (List (List Bool))) :
    GeoDec.masked bits ⟨(serDeltas cur pts).1.flatMap encS64 ++ r, cur, m⟩ =
      .ok (keep bits pts, ⟨r, (serDeltas cur pts).2, m⟩) := by
  induction pts generalizing cur bits with
  | nil =>
    cases bits with
    | nil => rfl
    | cons b bs => simp at hb
  | cons p ps ih =>
    cases bits with
    | nil => simp at hb
    | cons b bs =>
      simp only [serDeltas, List.flatMap_cons, List.append_assoc, GeoDec.masked]
      rw [nextPoint_enc hc (hp p (by simp)), Res.ok_bind]
      dsimp only
      rw [ih bs (by simpa using hb) p (hp p (by simp)) (fun q hq => hp q (by simp [hq])), Res.ok_bind]
      cases b <;> simp [keep]

theorem len_range {n : Nat} (h : n < 2 ^ 62) : -(2 : Int) ^ 63 ≤ (n : Int) ∧ (n : Int) < (2 : Int) ^ 63 := by
  norm_num at *; omega

/-- the masks a decoder has for some lines, followed by others -/
def masksFor (sel : Option (Line → List Bool)) (ls : List Line) (more : List (List Bool)) : Option (List (List Bool)) :=
  sel.map (fun b => ls.map b ++ more)

/-- each line has a mask of its own size -/
def SelOk (sel : Option (Line → List Bool)) (l : Line) : Prop := ∀ b, sel = some b → (b l).length = l.length

theorem line_enc (sel : Option (Line → List Bool)) (l : Line) (more : List (List Bool)) (hs : SelOk sel l) (hl : l.length < 2 ^ 62)
    (cur : XY) (hc : PtOk cur) (hp : ∀ p ∈ l, PtOk p) (r : Bytes) :
    GeoDec.line ⟨(serPoints cur l).1.flatMap encS64 ++ r, cur, masksFor sel [l] more⟩ =
      .ok (keepSel sel l, ⟨r, (serPoints cur l).2, masksFor sel [] more⟩) := by
  obtain ⟨h1, h2⟩ := len_range hl
  cases sel with
  | none =>
    simp only [GeoDec.line, masksFor, Option.map_none, serPoints, List.flatMap_cons, List.append_assoc]
    rw [next_enc h1 h2, Res.ok_bind]
    dsimp only
    rw [if_neg (by omega)]
    rw [show (l.length : Int).toNat = l.length by omega, points_enc l cur hc hp]
    rfl
  | some b =>
    have hb := hs b rfl
    simp only [GeoDec.line, masksFor, Option.map_some, serPoints, List.flatMap_cons, List.append_assoc, List.map_cons,
      List.map_nil, List.cons_append, List.nil_append]
    rw [next_enc h1 h2, Res.ok_bind]
    dsimp only
    rw [show decide ((l.length : Int) = ((b l).length : Int)) = true by simp [hb], verify_true, Res.ok_bind,
      masked_enc l (b l) hb cur hc hp, Res.ok_bind]
    rfl

theorem masksFor_cons (sel : Option (Line → List Bool)) (l : Line) (ls : List Line) (more : List (List Bool)) :
    masksFor sel (l :: ls) more = masksFor sel [l] ((sel.map (fun b => ls.map b)).getD [] ++ more) := by
  cases sel <;> simp [masksFor]

theorem masksFor_nil_step (sel : Option (Line → List Bool)) (ls : List Line) (more : List (List Bool)) :
    masksFor sel [] ((sel.map (fun b => ls.map b)).getD [] ++ more) = masksFor sel ls more := by
  cases sel <;> simp [masksFor]

theorem serLines_last_ok (ls : List Line) (cur : XY) (hc : PtOk cur) (hp : ∀ l ∈ ls, ∀ p ∈ l, PtOk p) : PtOk (serLines cur ls).2 := by
  induction ls generalizing cur with
  | nil => exact hc
  | cons l ls ih =>
    exact ih _ (serDeltas_last_ok l cur hc (hp l (by simp))) (fun q hq => hp q (by simp [hq]))

theorem lines_enc (sel : Option (Line → List Bool)) (ls : List Line) (more : List (List Bool))
    (hok : ∀ l ∈ ls, SelOk sel l ∧ l.length < 2 ^ 62 ∧ ∀ p ∈ l, PtOk p) (cur : XY) (hc : PtOk cur) (r : Bytes) :
    GeoDec.lines ls.length ⟨(serLines cur ls).1.flatMap encS64 ++ r, cur, masksFor sel ls more⟩ =
      .ok (ls.map (keepSel sel), ⟨r, (serLines cur ls).2, masksFor sel [] more⟩) := by
  induction ls generalizing cur with
  | nil => rfl
  | cons l ls ih =>
    obtain ⟨h1, h2, h3⟩ := hok l (by simp)
    simp only [serLines, List.flatMap_append, List.append_assoc, List.length_cons, GeoDec.lines]
    rw [masksFor_cons, line_enc sel l _ h1 h2 cur hc h3, Res.ok_bind]
    dsimp only
    rw [masksFor_nil_step, ih (fun q hq => hok q (by simp [hq])) _ (serPoints_last_ok l cur hc h3), Res.ok_bind]
    rfl

theorem count_enc {n : Nat} (h : n < 2 ^ 62) (r : Bytes) (cur : XY) (m : Option (List (List Bool))) :
    GeoDec.count ⟨encS64 (n : Int) ++ r, cur, m⟩ = .ok (n, ⟨r, cur, m⟩) := by
  obtain ⟨h1, h2⟩ := len_range h
  rw [GeoDec.count, next_enc h1 h2, Res.ok_bind]
  dsimp only
  rw [if_neg (by omega), show (n : Int).toNat = n by omega]
  rfl

theorem serPolygons_last_ok (ps : List Polygon) (cur : XY) (hc : PtOk cur)
    (hp : ∀ q ∈ ps, ∀ l ∈ q.outer :: q.inners, ∀ p ∈ l, PtOk p) : PtOk (serPolygons cur ps).2 := by
  induction ps generalizing cur with
  | nil => exact hc
  | cons q ps ih =>
    have h1 := serDeltas_last_ok q.outer cur hc (hp q (by simp) _ (by simp))
    have h2 := serLines_last_ok q.inners _ h1 (fun l hl => hp q (by simp) l (by simp [hl]))
    exact ih _ h2 (fun q' hq => hp q' (by simp [hq]))

/-- the rings of a list of polygons in storage order -/
def ringList (ps : List Polygon) : List Line := ps.flatMap (fun p => p.outer :: p.inners)

theorem masksFor_append (sel : Option (Line → List Bool)) (a b : List Line) (more : List (List Bool)) :
    masksFor sel (a ++ b) more = masksFor sel a ((sel.map (fun f => b.map f)).getD [] ++ more) := by
  cases sel <;> simp [masksFor]

theorem polygons_enc (sel : Option (Line → List Bool)) (ps : List Polygon) (more : List (List Bool))
    (hok : ∀ q ∈ ps, q.inners.length < 2 ^ 62 ∧ ∀ l ∈ q.outer :: q.inners, SelOk sel l ∧ l.length < 2 ^ 62 ∧ ∀ p ∈ l, PtOk p)
    (cur : XY) (hc : PtOk cur) (r : Bytes) :
    GeoDec.polygons ps.length ⟨(serPolygons cur ps).1.flatMap encS64 ++ r, cur, masksFor sel (ringList ps) more⟩ =
      .ok (ps.map (fun p => ⟨keepSel sel p.outer, p.inners.map (keepSel sel)⟩),
        ⟨r, (serPolygons cur ps).2, masksFor sel [] more⟩) := by
  induction ps generalizing cur with
  | nil => rfl
  | cons q ps ih =>
    obtain ⟨h0, h⟩ := hok q (by simp)
    obtain ⟨h1, h2, h3⟩ := h q.outer (by simp)
    have c1 := serPoints_last_ok q.outer cur hc h3
    have c2 := serLines_last_ok q.inners _ c1 (fun l hl => (h l (by simp [hl])).2.2)
    have e : ringList (q :: ps) = q.outer :: (q.inners ++ ringList ps) := by simp [ringList]
    simp only [serPolygons, List.flatMap_append, List.flatMap_cons, List.append_assoc, List.length_cons, GeoDec.polygons]
    rw [e, masksFor_cons, line_enc sel q.outer _ h1 h2 cur hc h3, Res.ok_bind]
    dsimp only
    rw [masksFor_nil_step, count_enc h0, Res.ok_bind]
    dsimp only
    rw [masksFor_append, lines_enc sel q.inners _ (fun l hl => h l (by simp [hl])) _ c1, Res.ok_bind]
    dsimp only
    rw [masksFor_nil_step, ih (fun q' hq => hok q' (by simp [hq])) _ c2, Res.ok_bind]
    rfl

end Tiles
