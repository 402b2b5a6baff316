import Verif.Model.Shapefile
import Verif.Spec.Shapefile
import Verif.Proof.At
/-! C39 — reading polygon shapefiles.  The full statement is false: every ring is read from the start of the record's
point array, so each ring after the first one consists of the wrong points. -/
namespace Tiles
open Spec

/-- specification: the polygon of a record — first ring outer, the others inner -/
def Spec.shpExpected (conv : Nat → Nat → XY) (p : ShpPolygon) : Polygon :=
  ⟨(p.rings.headD []).map (fun q => conv q.lat q.lng), p.rings.tail.map (·.map (fun q => conv q.lat q.lng))⟩

/-- full property -/
def C39_full : Prop := ∀ (conv : Nat → Nat → XY) (pad1 pad2 : Bytes) (ps : List ShpPolygon),
  pad1.length = 24 → pad2.length = 64 → ps.length < 2 ^ 31 - 1 → (∀ p ∈ ps, p.Ok) →
  readShapefile conv (shpFile pad1 pad2 ps) = .ok (ps.map (shpExpected conv))

/-- what the code reads: ring `k` has the right number of points, but always the first ones of the record -/
def shpActual (conv : Nat → Nat → XY) (p : ShpPolygon) : Polygon :=
  let pts := p.points.map (fun q => conv q.lat q.lng)
  ⟨pts.take (p.rings.headD []).length, p.rings.tail.map (fun r => pts.take r.length)⟩

theorem toI32_small {n : Nat} (h : n < 2 ^ 31) : toI32 n = n := by
  unfold toI32
  have : n % 2 ^ 32 = n := Nat.mod_eq_of_lt (by omega)
  rw [this, if_pos h]

theorem readIntLittle_at {buf : Bytes} {pos v : Nat} (h : HasAt buf pos (leBytes 4 v)) (hv : v < 2 ^ 31) :
    readIntLittle buf pos = .ok v := by
  have h1 := h.le; have h2 := h.take
  simp only [leBytes_length] at h1 h2
  rw [readIntLittle, if_pos h1, h2, leNat_leBytes_of_lt (by omega), toI32_small hv]

theorem readIntBig_at {buf : Bytes} {pos v : Nat} (h : HasAt buf pos (beBytes 4 v)) (hv : v < 2 ^ 31) :
    readIntBig buf pos = .ok v := by
  have h1 := h.le; have h2 := h.take
  simp only [beBytes, List.length_reverse, leBytes_length] at h1 h2
  rw [readIntBig, if_pos h1, h2, List.reverse_reverse, leNat_leBytes_of_lt (by omega), toI32_small hv]

theorem readDouble_at {buf : Bytes} {pos v : Nat} (h : HasAt buf pos (leBytes 8 v)) (hv : v < 2 ^ 64) :
    readDoubleLittle buf pos = .ok v := by
  have h1 := h.le; have h2 := h.take
  simp only [leBytes_length] at h1 h2
  rw [readDoubleLittle, if_pos h1, h2, leNat_leBytes_of_lt (by omega)]

theorem readPoints_spec (conv : Nat → Nat → XY) (buf : Bytes) (off : Nat) (pts : List ShpPoint)
    (hb : ∀ q ∈ pts, q.lng < 2 ^ 64 ∧ q.lat < 2 ^ 64) (h : HasAt buf off (pts.flatMap shpPoint)) (n i : Nat)
    (hn : i + n ≤ pts.length) :
    readPoints conv buf off i n = .ok (((pts.drop i).take n).map (fun q => conv q.lat q.lng)) := by
  induction n generalizing i with
  | zero => simp [readPoints]
  | succ n ih =>
    have hi : i < pts.length := by omega
    have hp : HasAt buf (off + 16 * i) (shpPoint pts[i]) := h.flatMap (n := 16) (fun b => by simp [shpPoint]) i hi
    have hq := hb pts[i] (List.getElem_mem hi)
    have e1 := readDouble_at hp.append.1 hq.1
    have e2 := readDouble_at hp.append.2 hq.2
    rw [leBytes_length] at e2
    simp only [readPoints, e1, e2, Res.ok_bind, ih (i + 1) (by omega), Res.pure_eq]
    rw [List.drop_eq_getElem_cons hi, List.take_succ_cons, List.map_cons]

theorem starts_length (i : Nat) (rs : List (List ShpPoint)) : (starts i rs).length = rs.length := by
  induction rs generalizing i with
  | nil => rfl
  | cons r rs ih => simp [starts, ih]

theorem starts_getElem (rs : List (List ShpPoint)) (i k : Nat) (h : k < (starts i rs).length) :
    (starts i rs)[k] = i + ((rs.take k).flatten).length := by
  induction rs generalizing i k with
  | nil => simp [starts] at h
  | cons r rs ih =>
    cases k with
    | zero => simp [starts]
    | succ k =>
      simp only [starts, List.getElem_cons_succ, List.take_succ_cons, List.flatten_cons, List.length_append]
      rw [ih]; omega

/-- adding a ring to the polygon read so far -/
def addRing (p : Polygon) (r : Line) : Polygon :=
  if p.outer.isEmpty then { p with outer := r } else { p with inners := p.inners ++ [r] }

theorem readRing_spec (conv : Nat → Nat → XY) (buf : Bytes) (off : Nat) (pts : List ShpPoint)
    (hb : ∀ q ∈ pts, q.lng < 2 ^ 64 ∧ q.lat < 2 ^ 64) (h : HasAt buf off (pts.flatMap shpPoint)) (lb n : Nat)
    (hn : n ≤ pts.length) (hs : pts.length < 2 ^ 31) (p : Polygon) :
    readRing conv buf off lb ((lb + n : Nat) : Int) p =
      .ok (addRing p ((pts.take n).map (fun q => conv q.lat q.lng))) := by
  have e : ((lb + n : Nat) : Int) - (lb : Int) = (n : Int) := by omega
  have := readPoints_spec conv buf off pts hb h n 0 (by omega)
  rw [List.drop_zero] at this
  simp only [readRing, e]
  rw [if_neg (by omega), if_neg (by omega), Int.toNat_natCast, this]
  rfl

theorem flatten_take_le {α : Type} (rs : List (List α)) (k : Nat) : (rs.take k).flatten.length ≤ rs.flatten.length := by
  conv => rhs; rw [← List.take_append_drop k rs]
  rw [List.flatten_append, List.length_append]; omega

theorem readParts_spec (conv : Nat → Nat → XY) (buf : Bytes) (po off : Nat) (rings : List (List ShpPoint))
    (hb : ∀ q ∈ rings.flatten, q.lng < 2 ^ 64 ∧ q.lat < 2 ^ 64) (h : HasAt buf off (rings.flatten.flatMap shpPoint))
    (hp : HasAt buf po ((starts 0 rings).flatMap (leBytes 4))) (hs : rings.flatten.length < 2 ^ 31)
    (n i : Nat) (hn : i + n < rings.length) (p : Polygon) :
    readParts conv buf po off i n p =
      .ok ((((rings.drop i).take n).map (fun r => (rings.flatten.take r.length).map (fun q => conv q.lat q.lng))).foldl addRing p) := by
  induction n generalizing i p with
  | zero => simp [readParts]
  | succ n ih =>
    have hl : (starts 0 rings).length = rings.length := starts_length _ _
    have h1 := hp.flatMap (n := 4) (fun b => by simp) i (by omega)
    have h2 := hp.flatMap (n := 4) (fun b => by simp) (i + 1) (by omega)
    rw [starts_getElem] at h1 h2
    have l1 := flatten_take_le rings i
    have l2 := flatten_take_le rings (i + 1)
    have e1 := readIntLittle_at h1 (by omega)
    have e2 := readIntLittle_at h2 (by omega)
    have hi : i < rings.length := by omega
    have hlen : (rings.take (i + 1)).flatten.length = (rings.take i).flatten.length + rings[i].length := by
      rw [List.take_succ_eq_append_getElem hi, List.flatten_append, List.length_append]; simp
    have e3 := readRing_spec conv buf off rings.flatten hb h ((rings.take i).flatten.length) rings[i].length
      (by omega) hs p
    have a1 : po + i * 4 = po + 4 * i := by omega
    simp only [readParts, a1, e1, Nat.zero_add, Res.ok_bind]
    rw [show po + 4 * i + 4 = po + 4 * (i + 1) by omega, e2]
    simp only [Nat.zero_add, Res.ok_bind, hlen, e3]
    rw [ih (i + 1) (by omega)]
    rw [List.drop_eq_getElem_cons hi, List.take_succ_cons, List.map_cons, List.foldl_cons]

theorem foldl_addRing (rs : List Line) (p : Polygon) (hp : p.outer ≠ []) :
    rs.foldl addRing p = ⟨p.outer, p.inners ++ rs⟩ := by
  induction rs generalizing p with
  | nil => simp
  | cons r rs ih =>
    have : addRing p r = ⟨p.outer, p.inners ++ [r]⟩ := by simp [addRing, hp]
    rw [List.foldl_cons, this, ih ⟨p.outer, p.inners ++ [r]⟩ hp]; simp

theorem readShpRecord_spec (conv : Nat → Nat → XY) (buf : Bytes) (rh : Nat) (p : ShpPolygon) (hok : p.Ok)
    (h : HasAt buf (rh + 8) (shpContent p)) : readShpRecord conv buf rh = .ok (shpActual conv p) := by
  obtain ⟨hbox, hne, hre, hb, hsz⟩ := hok
  unfold shpContent at h
  have hclen : (shpContent p).length = 4 + 32 + 4 + 4 + 4 * p.rings.length + 16 * p.points.length := by
    have h1 : ((starts 0 p.rings).flatMap (leBytes 4)).length = 4 * p.rings.length := by
      rw [length_flatMap_const _ 4 (fun b => by simp), starts_length]
    have h2 : (p.points.flatMap shpPoint).length = 16 * p.points.length := by
      exact length_flatMap_const _ 16 (fun b => by simp [shpPoint]) _
    simp only [shpContent, List.length_append, leBytes_length, hbox, h1, h2]
  have hparts : ((starts 0 p.rings).flatMap (leBytes 4)).length = 4 * p.rings.length := by
    rw [length_flatMap_const _ 4 (fun b => by simp), starts_length]
  obtain ⟨h, hpts⟩ := h.append
  obtain ⟨h, hpa⟩ := h.append
  obtain ⟨h, hnp⟩ := h.append
  obtain ⟨h, hnr⟩ := h.append
  obtain ⟨ht, _⟩ := h.append
  simp only [List.length_append, leBytes_length, hbox, hparts] at hpts hpa hnp hnr
  have hrl : 0 < p.rings.length := List.length_pos_iff.2 hne
  have hpl : 0 < p.points.length := by
    obtain ⟨r, rs, e⟩ := List.exists_cons_of_ne_nil hne
    have := hre r (by simp [e])
    simp only [ShpPolygon.points, e, List.flatten_cons, List.length_append]
    have := List.length_pos_iff.2 this
    omega
  have e1 := readIntLittle_at ht (by omega)
  have e2 := readIntLittle_at hnr (by omega)
  have e3 := readIntLittle_at hnp (by omega)
  have hl : (starts 0 p.rings).length = p.rings.length := starts_length _ _
  have hlast := hpa.flatMap (n := 4) (fun b => by simp) (p.rings.length - 1) (by omega)
  rw [starts_getElem] at hlast
  have l1 := flatten_take_le p.rings (p.rings.length - 1)
  have hpts' : p.points.length < 2 ^ 31 := by omega
  have e4 := readIntLittle_at hlast (by unfold ShpPolygon.points at hpts'; omega)
  have hpts2 : HasAt buf (rh + 8 + 44 + 4 * p.rings.length) (p.points.flatMap shpPoint) := by
    have e : rh + 8 + 44 + 4 * p.rings.length = rh + 8 + (4 + 32 + 4 + 4 + 4 * p.rings.length) := by omega
    rw [e]; exact hpts
  have e5 := readParts_spec conv buf (rh + 8 + 44) (rh + 8 + 44 + 4 * p.rings.length) p.rings hb
    hpts2 hpa hpts' (p.rings.length - 1) 0 (by omega) ⟨[], []⟩
  obtain ⟨rlast, hrlast⟩ : ∃ r, p.rings[p.rings.length - 1]? = some r :=
    ⟨_, List.getElem?_eq_getElem (by omega)⟩
  have hsplit : p.rings = p.rings.take (p.rings.length - 1) ++ [rlast] := by
    have hlt : p.rings.length - 1 < p.rings.length := by omega
    have he : p.rings[p.rings.length - 1] = rlast := by
      rw [List.getElem?_eq_getElem hlt] at hrlast; injection hrlast
    conv => lhs; rw [← List.take_length (l := p.rings)]
    have : p.rings.length = p.rings.length - 1 + 1 := by omega
    conv => lhs; rw [this]
    rw [List.take_succ_eq_append_getElem hlt, he]
  have hcount : p.points.length = (p.rings.take (p.rings.length - 1)).flatten.length + rlast.length := by
    unfold ShpPolygon.points
    conv => lhs; rw [hsplit]
    rw [List.flatten_append, List.length_append]; simp
  have e6 := readRing_spec conv buf (rh + 8 + 44 + 4 * p.rings.length) p.points hb hpts2
    ((p.rings.take (p.rings.length - 1)).flatten.length) rlast.length (by omega) hpts'
  have hres : ((p.rings.take (p.rings.length - 1) ++ [rlast]).map
      (fun r => (p.points.take r.length).map (fun q => conv q.lat q.lng))).foldl addRing ⟨[], []⟩ = shpActual conv p := by
    rw [← hsplit]
    obtain ⟨r, rs, e⟩ := List.exists_cons_of_ne_nil hne
    have hr := hre r (by simp [e])
    have hrp := List.length_pos_iff.2 hr
    have hx : (p.points.take r.length).map (fun q => conv q.lat q.lng) ≠ [] := by
      intro hc
      have := congrArg List.length hc
      simp at this
      rcases this with h | h
      · exact hr h
      · rw [h] at hpl; simp at hpl
    rw [e, List.map_cons, List.foldl_cons]
    have : addRing ⟨[], []⟩ ((p.points.take r.length).map (fun q => conv q.lat q.lng)) =
        ⟨(p.points.take r.length).map (fun q => conv q.lat q.lng), []⟩ := rfl
    rw [this, foldl_addRing _ _ hx]
    simp [shpActual, e, List.map_take]
  have hne' : (shpActual conv p).outer.isEmpty = false := by
    obtain ⟨r, rs, e⟩ := List.exists_cons_of_ne_nil hne
    have hr := List.length_pos_iff.2 (hre r (by simp [e]))
    rw [List.isEmpty_eq_false_iff]
    intro hc
    have := congrArg List.length hc
    simp only [shpActual, e, List.headD_cons, List.length_take, List.length_map, List.length_nil] at this
    omega
  simp only [readShpRecord, show rh + 8 + 36 = rh + 8 + (4 + 32) by omega, show rh + 8 + 40 = rh + 8 + (4 + 32 + 4) by omega,
    e1, e2, e3, Res.ok_bind, Int.toNat_natCast]
  have v1 : verify (decide ((p.rings.length : Int) > 0)) = .ok () := by
    rw [decide_eq_true (by omega)]; rfl
  have v2 : verify (decide ((p.points.length : Int) > 0)) = .ok () := by
    rw [decide_eq_true (by omega)]; rfl
  have hsum : rh + 8 + 44 = rh + 8 + (4 + 32 + 4 + 4) := by omega
  rw [hsum] at e5 e6 ⊢
  simp only [v1, v2, Res.ok_bind, e5, e4, Nat.zero_add]
  have e7 := e6 ((((p.rings.drop 0).take (p.rings.length - 1)).map
      (fun r => (p.rings.flatten.take r.length).map (fun q => conv q.lat q.lng))).foldl addRing ⟨[], []⟩)
  rw [← hcount] at e7
  rw [e7]
  have hfin : addRing ((((p.rings.drop 0).take (p.rings.length - 1)).map
      (fun r => (p.rings.flatten.take r.length).map (fun q => conv q.lat q.lng))).foldl addRing ⟨[], []⟩)
      ((p.points.take rlast.length).map (fun q => conv q.lat q.lng)) = shpActual conv p := by
    rw [← hres, List.map_append, List.foldl_append]; rfl
  simp only [Res.ok_bind, hfin, hne']
  rfl

theorem shpContent_even (p : ShpPolygon) (hok : p.Ok) : (shpContent p).length / 2 * 2 = (shpContent p).length := by
  have h1 : ((starts 0 p.rings).flatMap (leBytes 4)).length = 4 * p.rings.length := by
    rw [length_flatMap_const _ 4 (fun b => by simp), starts_length]
  have h2 : (p.points.flatMap shpPoint).length = 16 * p.points.length := by
    exact length_flatMap_const _ 16 (fun b => by simp [shpPoint]) _
  simp only [shpContent, List.length_append, leBytes_length, hok.1, h1, h2]
  omega

theorem next_rh {a c l : Nat} (hl : l = c * 2) (hb : a + 8 + l < 2 ^ 64) :
    (((a : Int) + (8 + (c : Int) * 2)) % 2 ^ 64).toNat = a + 8 + l := by
  subst hl
  have : ((a : Int) + (8 + (c : Int) * 2)) % 2 ^ 64 = (a : Int) + (8 + (c : Int) * 2) := by
    apply Int.emod_eq_of_lt <;> omega
  rw [this]; omega

theorem len_in_range {c l : Nat} (hl : l = c * 2) (hb : l + 8 < 2 ^ 31) :
    ¬ ¬ (-(2 : Int) ^ 31 ≤ (c : Int) * 2 + 8 ∧ (c : Int) * 2 + 8 < 2 ^ 31) := by
  omega

theorem readShpLoop_spec (conv : Nat → Nat → XY) (ps : List ShpPolygon) (pre : Bytes) (n fuel : Nat)
    (hok : ∀ p ∈ ps, p.Ok) (hn : n + ps.length < 2 ^ 31) (hf : ps.length < fuel)
    (hlen : (pre ++ shpRecords (n + 1) ps).length < 2 ^ 64) :
    readShpLoop conv (pre ++ shpRecords (n + 1) ps) fuel n pre.length = .ok (ps.map (shpActual conv)) := by
  induction ps generalizing pre n fuel with
  | nil =>
    cases fuel with
    | zero => simp at hf
    | succ fuel => simp [readShpLoop, shpRecords]
  | cons p ps ih =>
    cases fuel with
    | zero => simp at hf
    | succ fuel =>
      have hp := hok p (by simp)
      have hev := shpContent_even p hp
      have hb : pre ++ shpRecords (n + 1) (p :: ps) =
          (pre ++ shpRecord (n + 1) p) ++ shpRecords (n + 1 + 1) ps := by simp [shpRecords]
      have hat : HasAt (pre ++ shpRecords (n + 1) (p :: ps)) pre.length (shpRecord (n + 1) p) := by
        rw [hb]; exact hasAt_of _ _ _
      unfold shpRecord at hat
      obtain ⟨h1, hc⟩ := hat.append
      obtain ⟨hnum, hl⟩ := h1.append
      have hsz := hp.2.2.2.2
      simp only [List.length_append, beBytes, List.length_reverse, leBytes_length] at hc hl
      simp only [List.length_cons] at hn
      have e1 := readIntBig_at hnum (by omega)
      have e2 := readIntBig_at (v := (shpContent p).length / 2) hl (by omega)
      have hc : HasAt (pre ++ shpRecords (n + 1) (p :: ps)) (pre.length + 8) (shpContent p) := hc
      have e3 := readShpRecord_spec conv _ _ p hp hc
      have hlt : pre.length < (pre ++ shpRecords (n + 1) (p :: ps)).length := by
        rw [hb]; simp [shpRecord, beBytes]; omega
      have hrec : (pre ++ shpRecord (n + 1) p).length = pre.length + 8 + (shpContent p).length := by
        simp [shpRecord, beBytes]; omega
      have hle : (pre ++ shpRecord (n + 1) p).length ≤ (pre ++ shpRecords (n + 1) (p :: ps)).length := by
        rw [hb]; exact (List.sublist_append_left _ _).length_le
      have e4 := ih (pre ++ shpRecord (n + 1) p) (n + 1) fuel (fun q hq => hok q (by simp [hq])) (by omega)
        (by simp at hf; omega) (by rw [← hb]; exact hlen)
      rw [readShpLoop, if_pos hlt, e1]
      have v1 : verify ((n : Int) + 1 == ((n + 1 : Nat) : Int)) = .ok () := by
        rw [show ((n : Int) + 1) = ((n + 1 : Nat) : Int) by omega]; simp
      rw [Res.ok_bind, v1, Res.ok_bind, e3, Res.ok_bind, e2, Res.ok_bind]
      rw [if_neg (len_in_range hev.symm hsz)]
      have hrh := next_rh (a := pre.length) hev.symm (by omega)
      rw [← hrec] at hrh
      rw [hrh]
      have v2 : verify (decide ((pre ++ shpRecord (n + 1) p).length ≤ (pre ++ shpRecords (n + 1) (p :: ps)).length)) = .ok () := by
        rw [decide_eq_true hle]; rfl
      dsimp only
      rw [v2, hb, Res.ok_bind]
      have : ((n : Int) + 1) = ((n + 1 : Nat) : Int) := by omega
      rw [this, e4]
      rfl

theorem shpRecords_length_ge (n : Nat) (ps : List ShpPolygon) : ps.length ≤ (shpRecords n ps).length := by
  induction ps generalizing n with
  | nil => simp
  | cons p ps ih =>
    have := ih (n + 1)
    simp [shpRecords, shpRecord, beBytes]; omega

/-- the exact result for every well-formed polygon shapefile: one polygon per record, in order, with the right number of
rings and points per ring, but each ring taken from the start of the record's points. -/
theorem C39_exact (conv : Nat → Nat → XY) (pad1 pad2 : Bytes) (ps : List ShpPolygon)
    (h1 : pad1.length = 24) (h2 : pad2.length = 64) (hn : ps.length < 2 ^ 31 - 1)
    (hlen : (shpFile pad1 pad2 ps).length < 2 ^ 64) (hok : ∀ p ∈ ps, p.Ok) :
    readShapefile conv (shpFile pad1 pad2 ps) = .ok (ps.map (shpActual conv)) := by
  have hat : HasAt (shpFile pad1 pad2 ps) 0 (shpFile pad1 pad2 ps) := ⟨[], [], by simp, rfl⟩
  conv at hat => arg 3; unfold shpFile
  obtain ⟨h, _⟩ := hat.append
  obtain ⟨h, _⟩ := h.append
  obtain ⟨h, ht⟩ := h.append
  obtain ⟨h, hv⟩ := h.append
  obtain ⟨hm, _⟩ := h.append
  simp only [List.length_append, beBytes, List.length_reverse, leBytes_length, h1] at ht hv
  have e1 := readIntBig_at hm (by omega)
  have e2 := readIntLittle_at hv (by omega)
  have e3 := readIntLittle_at ht (by omega)
  have hpre : (beBytes 4 9994 ++ pad1 ++ leBytes 4 1000 ++ leBytes 4 5 ++ pad2).length = 100 := by
    simp [beBytes, h1, h2]
  have e4 := readShpLoop_spec conv ps (beBytes 4 9994 ++ pad1 ++ leBytes 4 1000 ++ leBytes 4 5 ++ pad2) 0
    ((shpFile pad1 pad2 ps).length + 1) hok (by omega)
    (by
      have := shpRecords_length_ge 1 ps
      simp only [shpFile, List.length_append]; omega)
    (by exact hlen)
  rw [hpre] at e4
  simp only [readShapefile, e1, e2, e3, Res.ok_bind, Nat.zero_add] at *
  exact e4

/-- records with a single ring are read exactly (missing from the full property: records with several rings, which the
code reads wrongly, see `C39_full_refuted`) -/
theorem C39_single_ring_partial (conv : Nat → Nat → XY) (pad1 pad2 : Bytes) (ps : List ShpPolygon)
    (h1 : pad1.length = 24) (h2 : pad2.length = 64) (hn : ps.length < 2 ^ 31 - 1)
    (hlen : (shpFile pad1 pad2 ps).length < 2 ^ 64) (hok : ∀ p ∈ ps, p.Ok) (hs : ∀ p ∈ ps, p.rings.length = 1) :
    readShapefile conv (shpFile pad1 pad2 ps) = .ok (ps.map (shpExpected conv)) := by
  rw [C39_exact conv pad1 pad2 ps h1 h2 hn hlen hok]
  congr 1
  apply List.map_congr_left
  intro p hp
  obtain ⟨r, hr⟩ := List.length_eq_one_iff.1 (hs p hp)
  simp [shpActual, shpExpected, hr, ShpPolygon.points, List.take_of_length_le]

/-- the outer ring is always right, and the number and sizes of the inner rings are -/
theorem C39_outer_ring (conv : Nat → Nat → XY) (p : ShpPolygon) (hok : p.Ok) :
    (shpActual conv p).outer = (shpExpected conv p).outer ∧
    (shpActual conv p).inners.map List.length = (shpExpected conv p).inners.map List.length := by
  obtain ⟨_, hne, _⟩ := hok
  obtain ⟨r, rs, e⟩ := List.exists_cons_of_ne_nil hne
  constructor
  · simp [shpActual, shpExpected, e, ShpPolygon.points]
  · simp only [shpActual, shpExpected, e, List.tail_cons, List.map_map, ShpPolygon.points, List.flatten_cons]
    apply List.map_congr_left
    intro q hq
    have : q.length ≤ rs.flatten.length := by
      exact (List.sublist_flatten_of_mem hq).length_le
    simp only [Function.comp_apply, List.length_take, List.length_map, List.map_append, List.length_append]
    omega

theorem C39_full_refuted : ¬ C39_full := by
  intro h
  let p : ShpPolygon := ⟨List.replicate 32 0, [[⟨1, 1⟩], [⟨2, 2⟩]]⟩
  have hok : p.Ok := by
    refine ⟨by simp [p], by simp [p], by simp [p], by simp [p, ShpPolygon.points], ?_⟩
    simp [p, shpContent, ShpPolygon.points, starts, shpPoint]
  have h1 := h (fun a b => ⟨a, b⟩) (List.replicate 24 0) (List.replicate 64 0) [p] (by simp) (by simp) (by simp)
    (by simpa using hok)
  rw [C39_exact _ _ _ _ (by simp) (by simp) (by simp) ?_ (by simpa using hok)] at h1
  · injection h1 with h1
    revert h1
    decide
  · simp [shpFile, beBytes, shpRecords, shpRecord, shpContent, p, ShpPolygon.points, starts, shpPoint]

end Tiles
