import Verif.Props.C39
/-!
C75 — a shapefile with land polygons that was cut off.

`buf.take m` is the file after its first m bytes were written.  The polygons have one ring each (C39: those with several rings are not read correctly).
-/
namespace Tiles
open Spec

/-- the result of reading a shorter buffer: the same, or undefined behaviour -/
def CutRes {α : Type} (r' r : Res α) : Prop := r' = r ∨ r' = .ub

theorem CutRes.refl {α : Type} (r : Res α) : CutRes r r := .inl rfl

theorem CutRes.bind {α β : Type} {r' r : Res α} {f' f : α → Res β} (h : CutRes r' r) (hf : ∀ a, CutRes (f' a) (f a)) : CutRes (r' >>= f') (r >>= f) := by
  rcases h with h | h
  · subst h
    cases r' with
    | ok a => rw [Res.ok_bind, Res.ok_bind]; exact hf a
    | throw_ => exact .inl rfl
    | ub => exact .inl rfl
  · subst h; exact .inr rfl

theorem take_chunk {buf : Bytes} {m pos n : Nat} (h : pos + n ≤ m) : ((buf.take m).drop pos).take n = (buf.drop pos).take n := by
  rw [List.drop_take, List.take_take, Nat.min_eq_left (by omega)]

theorem cut_int {buf : Bytes} {m : Nat} (hm : m ≤ buf.length) (pos : Nat) : CutRes (readIntLittle (buf.take m) pos) (readIntLittle buf pos) := by
  have hl : (buf.take m).length = m := by rw [List.length_take, Nat.min_eq_left hm]
  unfold readIntLittle
  rw [hl]
  split
  · rename_i h
    rw [if_pos (by omega), take_chunk h]; exact .inl rfl
  · exact .inr rfl

theorem cut_big {buf : Bytes} {m : Nat} (hm : m ≤ buf.length) (pos : Nat) : CutRes (readIntBig (buf.take m) pos) (readIntBig buf pos) := by
  have hl : (buf.take m).length = m := by rw [List.length_take, Nat.min_eq_left hm]
  unfold readIntBig
  rw [hl]
  split
  · rename_i h
    rw [if_pos (by omega), take_chunk h]; exact .inl rfl
  · exact .inr rfl

theorem cut_double {buf : Bytes} {m : Nat} (hm : m ≤ buf.length) (pos : Nat) : CutRes (readDoubleLittle (buf.take m) pos) (readDoubleLittle buf pos) := by
  have hl : (buf.take m).length = m := by rw [List.length_take, Nat.min_eq_left hm]
  unfold readDoubleLittle
  rw [hl]
  split
  · rename_i h
    rw [if_pos (by omega), take_chunk h]; exact .inl rfl
  · exact .inr rfl

theorem cut_points (conv : Nat → Nat → XY) {buf : Bytes} {m : Nat} (hm : m ≤ buf.length) (off i n : Nat) :
    CutRes (readPoints conv (buf.take m) off i n) (readPoints conv buf off i n) := by
  induction n generalizing i with
  | zero => exact .inl rfl
  | succ n ih => exact (cut_double hm _).bind fun _ => (cut_double hm _).bind fun _ => (ih _).bind fun _ => .refl _

theorem cut_ring (conv : Nat → Nat → XY) {buf : Bytes} {m : Nat} (hm : m ≤ buf.length) (off : Nat) (lb ub : Int) (p : Polygon) :
    CutRes (readRing conv (buf.take m) off lb ub p) (readRing conv buf off lb ub p) := by
  unfold readRing
  dsimp only
  split
  · exact .refl _
  · split
    · exact .refl _
    · exact (cut_points conv hm _ _ _).bind fun _ => .refl _

theorem cut_parts (conv : Nat → Nat → XY) {buf : Bytes} {m : Nat} (hm : m ≤ buf.length) (po off i n : Nat) (p : Polygon) :
    CutRes (readParts conv (buf.take m) po off i n p) (readParts conv buf po off i n p) := by
  induction n generalizing i p with
  | zero => exact .inl rfl
  | succ n ih => exact (cut_int hm _).bind fun _ => (cut_int hm _).bind fun _ => (cut_ring conv hm _ _ _ _).bind fun _ => ih _ _

theorem cut_record (conv : Nat → Nat → XY) {buf : Bytes} {m : Nat} (hm : m ≤ buf.length) (rh : Nat) :
    CutRes (readShpRecord conv (buf.take m) rh) (readShpRecord conv buf rh) := by
  unfold readShpRecord
  dsimp only
  refine (cut_int hm _).bind fun _ => CutRes.bind (.refl _) fun _ => (cut_int hm _).bind fun _ => (cut_int hm _).bind fun _ =>
    CutRes.bind (.refl _) fun _ => CutRes.bind (.refl _) fun _ => (cut_parts conv hm _ _ _ _ _).bind fun _ => (cut_int hm _).bind fun _ =>
    (cut_ring conv hm _ _ _ _).bind fun _ => .refl _

/-- points that were read lie in the buffer -/
theorem points_in {conv : Nat → Nat → XY} {buf : Bytes} {off i n : Nat} {l : Line} (h : readPoints conv buf off i n = .ok l) (hn : 0 < n) :
    off + 16 * (i + n) ≤ buf.length := by
  induction n generalizing i l with
  | zero => omega
  | succ n ih =>
    rw [readPoints, Res.bind_eq_ok] at h
    obtain ⟨_, _, h⟩ := h
    rw [Res.bind_eq_ok] at h
    obtain ⟨_, h2, h⟩ := h
    rw [Res.bind_eq_ok] at h
    obtain ⟨_, h3, _⟩ := h
    cases n with
    | zero =>
      unfold readDoubleLittle at h2
      split at h2
      · omega
      · cases h2
    | succ n =>
      have := ih h3 (by omega)
      omega

theorem content_length (p : ShpPolygon) (hok : p.Ok) : (shpContent p).length = 44 + 4 * p.rings.length + 16 * p.points.length := by
  have h1 : ((starts 0 p.rings).flatMap (leBytes 4)).length = 4 * p.rings.length := by
    rw [length_flatMap_const _ 4 (fun b => by simp), starts_length]
  have h2 : (p.points.flatMap shpPoint).length = 16 * p.points.length := by
    exact length_flatMap_const _ 16 (fun b => by simp [shpPoint]) _
  simp only [shpContent, List.length_append, leBytes_length, hok.1, h1, h2]

/-- a record with one ring is read only if all of it is there -/
theorem record_in {conv : Nat → Nat → XY} {buf : Bytes} {rh : Nat} {p : ShpPolygon} (hok : p.Ok) (h1 : p.rings.length = 1)
    (h : HasAt buf (rh + 8) (shpContent p)) {m : Nat} (hm : m ≤ buf.length) {r : Polygon} (hr : readShpRecord conv (buf.take m) rh = .ok r) :
    rh + 8 + (shpContent p).length ≤ m := by
  have hclen := content_length p hok
  obtain ⟨hbox, hne, hre, hb, hsz⟩ := hok
  unfold shpContent at h
  have hparts : ((starts 0 p.rings).flatMap (leBytes 4)).length = 4 * p.rings.length := by
    rw [length_flatMap_const _ 4 (fun b => by simp), starts_length]
  obtain ⟨h, hpts⟩ := h.append
  obtain ⟨h, hpa⟩ := h.append
  obtain ⟨h, hnp⟩ := h.append
  obtain ⟨h, hnr⟩ := h.append
  obtain ⟨ht, _⟩ := h.append
  simp only [List.length_append, leBytes_length, hbox, hparts] at hpts hpa hnp hnr
  have hpl : 0 < p.points.length := by
    obtain ⟨r, rs, e⟩ := List.exists_cons_of_ne_nil hne
    have := hre r (by simp [e])
    simp only [ShpPolygon.points, e, List.flatten_cons, List.length_append]
    have := List.length_pos_iff.2 this
    omega
  have e2 := readIntLittle_at hnr (by omega)
  have e3 := readIntLittle_at hnp (by omega)
  have hlast := hpa.flatMap (n := 4) (fun b => by simp) 0 (by rw [starts_length]; omega)
  rw [starts_getElem] at hlast
  have e4 := readIntLittle_at hlast (by simp)
  have cut : ∀ {pos : Nat} {v w : Int}, readIntLittle buf pos = .ok v → readIntLittle (buf.take m) pos = .ok w → w = v := by
    intro pos v w hv hw
    rcases cut_int hm pos with h | h
    · rw [h, hv] at hw; injection hw with hw; exact hw.symm
    · rw [h] at hw; cases hw
  unfold readShpRecord at hr
  dsimp only at hr
  simp only [Res.bind_eq_ok] at hr
  obtain ⟨_, _, _, _, np, k1, nq, k2, _, _, _, _, p0, k3, lb, k4, p1, k5, _⟩ := hr
  have hnp1 : np = 1 := by
    have := cut e2 k1
    rw [this, h1]; rfl
  have hnq : nq = p.points.length := cut e3 k2
  subst hnp1 hnq
  have hlb : lb = 0 := by
    have : readIntLittle buf (rh + 8 + 44 + 4 * (Int.toNat 1 - 1)) = .ok ((0 : Nat) : Int) := by
      simpa using e4
    exact cut this k4
  subst hlb
  unfold readRing at k5
  dsimp only at k5
  rw [if_neg (by omega), if_neg (by omega), Res.bind_eq_ok] at k5
  obtain ⟨l, k6, _⟩ := k5
  have := points_in k6 (by omega)
  have hl : (buf.take m).length = m := by rw [List.length_take, Nat.min_eq_left hm]
  rw [hl] at this
  have e : Int.toNat 1 = 1 := rfl
  rw [e] at this
  omega

theorem record_length (n : Nat) (p : ShpPolygon) : (shpRecord n p).length = 8 + (shpContent p).length := by
  simp [shpRecord, beBytes]; omega

/-- the loop over the records of a buffer that ends within a record -/
theorem cut_loop (conv : Nat → Nat → XY) (ps : List ShpPolygon) (pre : Bytes) (n fuel m : Nat)
    (hok : ∀ p ∈ ps, p.Ok ∧ p.rings.length = 1) (hn : n + ps.length < 2 ^ 31) (hf : m < fuel + pre.length)
    (hlen : (pre ++ shpRecords (n + 1) ps).length < 2 ^ 64) (hlo : pre.length ≤ m) (hm : m ≤ (pre ++ shpRecords (n + 1) ps).length)
    (hk : ∀ k, k ≤ ps.length → m ≠ pre.length + (shpRecords (n + 1) (ps.take k)).length) :
    readShpLoop conv ((pre ++ shpRecords (n + 1) ps).take m) fuel n pre.length = .ub := by
  induction ps generalizing pre n fuel with
  | nil =>
    have := hk 0 (by simp)
    simp [shpRecords] at this hm
    omega
  | cons p ps ih =>
    cases fuel with
    | zero => omega
    | succ fuel =>
      obtain ⟨hp, h1⟩ := hok p (by simp)
      have hev := shpContent_even p hp
      have hsz := hp.2.2.2.2
      have hb : pre ++ shpRecords (n + 1) (p :: ps) =
          (pre ++ shpRecord (n + 1) p) ++ shpRecords (n + 1 + 1) ps := by simp [shpRecords]
      have hrec : (pre ++ shpRecord (n + 1) p).length = pre.length + 8 + (shpContent p).length := by
        rw [List.length_append, record_length]; omega
      have hl : ((pre ++ shpRecords (n + 1) (p :: ps)).take m).length = m := by rw [List.length_take, Nat.min_eq_left hm]
      have h0 := hk 0 (by simp)
      simp only [List.take_zero, shpRecords, List.length_nil, Nat.add_zero] at h0
      simp only [List.length_cons] at hn
      have v1 : verify ((n : Int) + 1 == ((n + 1 : Nat) : Int)) = .ok () := by
        rw [show ((n : Int) + 1) = ((n + 1 : Nat) : Int) by omega]; simp
      rw [readShpLoop, hl, if_pos (by omega)]
      by_cases hin : (pre ++ shpRecord (n + 1) p).length ≤ m
      · -- the record is there
        have ht : (pre ++ shpRecords (n + 1) (p :: ps)).take m =
            pre ++ shpRecord (n + 1) p ++ (shpRecords (n + 1 + 1) ps).take (m - (pre ++ shpRecord (n + 1) p).length) := by
          rw [hb, List.take_append, List.take_of_length_le hin]
        have hat : HasAt ((pre ++ shpRecords (n + 1) (p :: ps)).take m) pre.length (shpRecord (n + 1) p) := by
          rw [ht]; exact hasAt_of _ _ _
        unfold shpRecord at hat
        obtain ⟨h2, hc⟩ := hat.append
        obtain ⟨hnum, hlw⟩ := h2.append
        simp only [List.length_append, beBytes, List.length_reverse, leBytes_length] at hc hlw
        have e1 := readIntBig_at hnum (by omega)
        have e2 := readIntBig_at (v := (shpContent p).length / 2) hlw (by omega)
        have e3 := readShpRecord_spec conv _ _ p hp hc
        have e4 := ih (pre ++ shpRecord (n + 1) p) (n + 1) fuel (fun q hq => hok q (by simp [hq])) (by omega) (by rw [hrec]; omega) (by rw [← hb]; exact hlen) hin
          (by rw [← hb]; exact hm) (fun k hkl he => hk (k + 1) (by simp; omega) (by
            rw [he, List.take_succ_cons, shpRecords]; simp only [List.length_append]; omega))
        rw [← hb] at e4
        rw [e1, Res.ok_bind, v1, Res.ok_bind, e3, Res.ok_bind, e2, Res.ok_bind, if_neg (len_in_range hev.symm hsz)]
        have hrh := next_rh (a := pre.length) hev.symm (by rw [hb, List.length_append, hrec] at hlen; omega)
        rw [← hrec] at hrh
        rw [hrh]
        dsimp only
        rw [decide_eq_true hin, verify_true, Res.ok_bind, show ((n : Int) + 1) = ((n + 1 : Nat) : Int) by omega, e4]
        rfl
      · -- the end is within the record
        have hat : HasAt (pre ++ shpRecords (n + 1) (p :: ps)) pre.length (shpRecord (n + 1) p) := by
          rw [hb]; exact hasAt_of _ _ _
        unfold shpRecord at hat
        obtain ⟨h2, hc⟩ := hat.append
        obtain ⟨hnum, _⟩ := h2.append
        simp only [List.length_append, beBytes, List.length_reverse, leBytes_length] at hc
        have e1 := readIntBig_at hnum (by omega)
        have e3 := readShpRecord_spec conv _ _ p hp hc
        have hub : readShpRecord conv ((pre ++ shpRecords (n + 1) (p :: ps)).take m) pre.length = .ub := by
          rcases cut_record conv hm pre.length with h | h
          · rw [e3] at h
            have := record_in hp h1 hc hm h
            omega
          · exact h
        rcases cut_big hm pre.length with h | h
        · rw [h, e1, Res.ok_bind, v1, Res.ok_bind, hub]; rfl
        · rw [h]; rfl

/-- The first m bytes of a shapefile are
* accepted, if they end with the header or with a record: exactly the polygons of these records are read, and nothing says that others are missing;
* accepted without a polygon, if they end within the unused part of the header;
* else — within the first 36 bytes, or within a record — undefined behaviour: the program reads beyond the end of the buffer. -/
theorem C75_cut (conv : Nat → Nat → XY) (pad1 pad2 : Bytes) (ps : List ShpPolygon)
    (h1 : pad1.length = 24) (h2 : pad2.length = 64) (hn : ps.length < 2 ^ 31 - 1)
    (hlen : (shpFile pad1 pad2 ps).length < 2 ^ 64) (hok : ∀ p ∈ ps, p.Ok ∧ p.rings.length = 1) (m : Nat) (hm : m ≤ (shpFile pad1 pad2 ps).length) :
    (∀ k, k ≤ ps.length → m = 100 + (shpRecords 1 (ps.take k)).length →
      readShapefile conv ((shpFile pad1 pad2 ps).take m) = .ok ((ps.take k).map (shpExpected conv))) ∧
    (36 ≤ m → m ≤ 100 → readShapefile conv ((shpFile pad1 pad2 ps).take m) = .ok []) ∧
    (m < 36 ∨ (100 < m ∧ ∀ k, k ≤ ps.length → m ≠ 100 + (shpRecords 1 (ps.take k)).length) →
      readShapefile conv ((shpFile pad1 pad2 ps).take m) = .ub) := by
  have hpre : (beBytes 4 9994 ++ pad1 ++ leBytes 4 1000 ++ leBytes 4 5 ++ pad2).length = 100 := by
    simp [beBytes, h1, h2]
  have hat : HasAt (shpFile pad1 pad2 ps) 0 (shpFile pad1 pad2 ps) := ⟨[], [], by simp, rfl⟩
  conv at hat => arg 3; unfold shpFile
  obtain ⟨h, _⟩ := hat.append
  obtain ⟨h, _⟩ := h.append
  obtain ⟨h, ht⟩ := h.append
  obtain ⟨h, hv⟩ := h.append
  obtain ⟨hmg, _⟩ := h.append
  simp only [List.length_append, beBytes, List.length_reverse, leBytes_length, h1] at ht hv
  have e1 := readIntBig_at hmg (by omega)
  have e2 := readIntLittle_at hv (by omega)
  have e3 := readIntLittle_at ht (by omega)
  have hl : ((shpFile pad1 pad2 ps).take m).length = m := by rw [List.length_take, Nat.min_eq_left hm]
  have r1 : 4 ≤ m → readIntBig ((shpFile pad1 pad2 ps).take m) 0 = .ok (9994 : Nat) := by
    intro h
    rw [← e1, readIntBig, readIntBig, hl, if_pos (by omega), if_pos (by omega), take_chunk (by omega)]
  have r2 : 32 ≤ m → readIntLittle ((shpFile pad1 pad2 ps).take m) 28 = .ok (1000 : Nat) := by
    intro h
    rw [← e2, readIntLittle, readIntLittle, hl, if_pos (by omega), if_pos (by omega), take_chunk (by omega)]
  have r3 : 36 ≤ m → readIntLittle ((shpFile pad1 pad2 ps).take m) 32 = .ok (5 : Nat) := by
    intro h
    rw [← e3, readIntLittle, readIntLittle, hl, if_pos (by omega), if_pos (by omega), take_chunk (by omega)]
  have v1 : verify (((9994 : Nat) : Int) == 9994) = .ok () := rfl
  have v2 : verify (((1000 : Nat) : Int) == 1000) = .ok () := rfl
  have v3 : verify (((5 : Nat) : Int) == 5) = .ok () := rfl
  have hall : 36 ≤ m → readShapefile conv ((shpFile pad1 pad2 ps).take m) = readShpLoop conv ((shpFile pad1 pad2 ps).take m) (m + 1) 0 100 := by
    intro h
    rw [readShapefile, r1 (by omega), Res.ok_bind, v1, Res.ok_bind, r2 (by omega), Res.ok_bind, v2, Res.ok_bind, r3 h, Res.ok_bind, v3, Res.ok_bind, hl]
  refine ⟨fun k hk he => ?_, fun h36 h100 => ?_, ?_⟩
  · have hcut : (shpFile pad1 pad2 ps).take m = shpFile pad1 pad2 (ps.take k) := by
      have happ : ∀ (n j : Nat) (qs : List ShpPolygon), shpRecords n qs = shpRecords n (qs.take j) ++ shpRecords (n + j) (qs.drop j) := by
        intro n j qs
        induction qs generalizing n j with
        | nil => simp [shpRecords]
        | cons q qs ih =>
          cases j with
          | zero => simp [shpRecords]
          | succ j =>
            rw [List.take_succ_cons, List.drop_succ_cons, shpRecords, shpRecords, ih (n + 1) j, List.append_assoc,
              show n + 1 + j = n + (j + 1) by omega]
      rw [shpFile, shpFile, happ 1 k ps, ← List.append_assoc]
      refine List.take_left' ?_
      rw [List.length_append, hpre, he]
    rw [hcut]
    refine C39_single_ring_partial conv pad1 pad2 _ h1 h2 ?_ ?_ (fun p hp => (hok p (List.mem_of_mem_take hp)).1) (fun p hp => (hok p (List.mem_of_mem_take hp)).2)
    · rw [List.length_take]; omega
    · rw [← hcut, hl]; omega
  · rw [hall h36, readShpLoop, hl, if_neg (by omega)]
  · rintro (h | ⟨h, hk⟩)
    · rw [readShapefile]
      by_cases h4 : 4 ≤ m
      · rw [r1 h4, Res.ok_bind, v1, Res.ok_bind]
        by_cases h32 : 32 ≤ m
        · rw [r2 h32, Res.ok_bind, v2, Res.ok_bind, readIntLittle, hl, if_neg (by omega)]; rfl
        · rw [readIntLittle, hl, if_neg (by omega)]; rfl
      · rw [readIntBig, hl, if_neg (by omega)]; rfl
    · rw [hall (by omega)]
      have := cut_loop conv ps (beBytes 4 9994 ++ pad1 ++ leBytes 4 1000 ++ leBytes 4 5 ++ pad2) 0 (m + 1) m hok (by omega) (by omega) hlen (by rw [hpre]; omega) hm
        (by rw [hpre]; exact hk)
      rw [hpre] at this
      exact this

/-- So a shapefile that was cut off is never refused. -/
theorem C75_never_refused (conv : Nat → Nat → XY) (pad1 pad2 : Bytes) (ps : List ShpPolygon)
    (h1 : pad1.length = 24) (h2 : pad2.length = 64) (hn : ps.length < 2 ^ 31 - 1)
    (hlen : (shpFile pad1 pad2 ps).length < 2 ^ 64) (hok : ∀ p ∈ ps, p.Ok ∧ p.rings.length = 1) (m : Nat) (hm : m ≤ (shpFile pad1 pad2 ps).length) :
    readShapefile conv ((shpFile pad1 pad2 ps).take m) ≠ .throw_ := by
  obtain ⟨a, b, c⟩ := C75_cut conv pad1 pad2 ps h1 h2 hn hlen hok m hm
  by_cases h : m < 36 ∨ (100 < m ∧ ∀ k, k ≤ ps.length → m ≠ 100 + (shpRecords 1 (ps.take k)).length)
  · rw [c h]; simp
  · by_cases h' : 100 < m
    · by_cases hk : ∃ k, k ≤ ps.length ∧ m = 100 + (shpRecords 1 (ps.take k)).length
      · obtain ⟨k, k1, k2⟩ := hk
        rw [a k k1 k2]; simp
      · exact absurd (.inr ⟨h', fun k k1 k2 => hk ⟨k, k1, k2⟩⟩) h
    · rw [b (by omega) (by omega)]; simp

/-! ### the hypotheses are met: a file with two polygons -/

def cutPolygon (a b : Nat) : ShpPolygon := ⟨List.replicate 32 0, [[⟨a, 1⟩, ⟨b, 2⟩, ⟨a, 3⟩]]⟩
def cutFile : Bytes := shpFile (List.replicate 24 0) (List.replicate 64 0) [cutPolygon 1 2, cutPolygon 3 4]

theorem cutPolygon_ok (a b : Nat) (ha : a < 2 ^ 64) (hb : b < 2 ^ 64) : (cutPolygon a b).Ok ∧ (cutPolygon a b).rings.length = 1 := by
  refine ⟨⟨by simp [cutPolygon], by simp [cutPolygon], by simp [cutPolygon], ?_, ?_⟩, rfl⟩
  · intro q hq
    simp [cutPolygon, ShpPolygon.points] at hq
    rcases hq with rfl | rfl | rfl <;> exact ⟨by assumption, by simp⟩
  · simp [cutPolygon, shpContent, ShpPolygon.points, starts, shpPoint]

example : (∀ p ∈ [cutPolygon 1 2, cutPolygon 3 4], p.Ok ∧ p.rings.length = 1) ∧ cutFile.length = 308 := by
  refine ⟨?_, by decide +kernel⟩
  intro p hp
  simp only [List.mem_cons, List.mem_nil_iff, or_false] at hp
  rcases hp with rfl | rfl
  · exact cutPolygon_ok 1 2 (by decide) (by decide)
  · exact cutPolygon_ok 3 4 (by decide) (by decide)

/-- the first polygon is complete, the second one is lost -/
example : readShapefile (fun a b => ⟨a, b⟩) (cutFile.take 204) = .ok [⟨[⟨1, 1⟩, ⟨2, 2⟩, ⟨3, 1⟩], []⟩] := by decide +kernel
/-- one byte is missing -/
example : readShapefile (fun a b => ⟨a, b⟩) (cutFile.take 307) = .ub := by decide +kernel
example : readShapefile (fun a b => ⟨a, b⟩) (cutFile.take 205) = .ub := by decide +kernel
example : readShapefile (fun a b => ⟨a, b⟩) (cutFile.take 60) = .ok [] := by decide +kernel
example : (readShapefile (fun a b => ⟨a, b⟩) cutFile) = .ok [⟨[⟨1, 1⟩, ⟨2, 2⟩, ⟨3, 1⟩], []⟩, ⟨[⟨1, 3⟩, ⟨2, 4⟩, ⟨3, 3⟩], []⟩] := by decide +kernel

end Tiles
