import Verif.Model.NodeIdx
import Verif.Proof.Varint
import Verif.Proof.GeometryIO
/-! Lemmas about the node index: the bytes as a sequence of spans, the scan over them, the builder's invariant. -/
namespace Tiles

/-- a span of the data file -/
inductive NSpan where
  | coords (p : XY) (ps : List XY)
  | gap (n : Nat)

def NSpan.enc : NSpan → Bytes
  | coords p ps => encVarint (2 * ps.length) ++ (fixed32 p.x ++ (fixed32 p.y ++ encDeltas p ps))
  | gap n => encVarint (2 * n + 1)

def NSpan.flat : NSpan → List (Option XY)
  | coords p ps => (p :: ps).map some
  | gap n => List.replicate n none

/-- the coordinates the index stores: 32 bit unsigned -/
def XY.U32 (p : XY) : Prop := 0 ≤ p.x ∧ p.x < 2 ^ 32 ∧ 0 ≤ p.y ∧ p.y < 2 ^ 32

def NSpan.Ok : NSpan → Prop
  | coords p ps => p.U32 ∧ (∀ q ∈ ps, q.U32) ∧ ps.length < 2 ^ 63
  | gap n => 1 ≤ n ∧ n < 2 ^ 63

def encAll (ss : List NSpan) : Bytes := ss.flatMap NSpan.enc
def flatAll (ss : List NSpan) : List (Option XY) := ss.flatMap NSpan.flat

@[simp] theorem encAll_nil : encAll [] = [] := rfl
@[simp] theorem flatAll_nil : flatAll [] = [] := rfl
theorem encAll_cons (s : NSpan) (ss : List NSpan) : encAll (s :: ss) = s.enc ++ encAll ss := by simp [encAll]
theorem flatAll_cons (s : NSpan) (ss : List NSpan) : flatAll (s :: ss) = s.flat ++ flatAll ss := by simp [flatAll]
theorem encAll_append (a b : List NSpan) : encAll (a ++ b) = encAll a ++ encAll b := by simp [encAll]
theorem flatAll_append (a b : List NSpan) : flatAll (a ++ b) = flatAll a ++ flatAll b := by simp [flatAll]

theorem NSpan.enc_pos (s : NSpan) : 1 ≤ s.enc.length := by
  cases s with
  | coords p ps =>
    have := encVarint_length_pos (2 * ps.length)
    simp only [NSpan.enc, List.length_append]; omega
  | gap n => exact encVarint_length_pos _

theorem encAll_length (ss : List NSpan) : ss.length ≤ (encAll ss).length := by
  induction ss with
  | nil => simp
  | cons s ss ih =>
    have := s.enc_pos
    rw [encAll_cons, List.length_append, List.length_cons]; omega

theorem NSpan.flat_length_coords (p : XY) (ps : List XY) : (NSpan.coords p ps).flat.length = ps.length + 1 := by
  simp [NSpan.flat]

/-! ### reading what was written -/

theorem readFixed_fixed32 {v : Int} (h0 : 0 ≤ v) (h1 : v < 2 ^ 32) (rest : Bytes) :
    readFixed (fixed32 v ++ rest) = .ok (v, rest) := by
  have e : (v % 2 ^ 32).toNat < 256 ^ 4 := by omega
  have h := leNat_leBytes_of_lt e
  have hl : (fixed32 v).length = 4 := by simp [fixed32]
  unfold fixed32 at hl ⊢
  revert h hl
  generalize leBytes 4 (v % 2 ^ 32).toNat = l
  intro h hl
  match l, hl with
  | [a, b, c, d], _ =>
    simp only [List.cons_append, List.nil_append, readFixed, h]
    congr 2
    omega

theorem readDelta_enc {cur p : XY} (hc : cur.U32) (hp : p.U32) (rest : Bytes) :
    readDelta cur (encS64 (p.x - cur.x) ++ encS64 (p.y - cur.y) ++ rest) = .ok (p, rest) := by
  obtain ⟨a1, a2, a3, a4⟩ := hc
  obtain ⟨b1, b2, b3, b4⟩ := hp
  have hx : zigzag (p.x - cur.x) < 2 ^ 64 := zigzag_lt (by omega) (by omega)
  have hy : zigzag (p.y - cur.y) < 2 ^ 64 := zigzag_lt (by omega) (by omega)
  unfold readDelta encS64
  rw [List.append_assoc, decVarint_enc _ _ hx]
  simp only [Res.ok_bind]
  rw [decVarint_enc _ _ hy]
  simp only [Res.ok_bind, unzigzag_zigzag, Res.pure_eq]
  congr 2
  cases p
  simp only [XY.mk.injEq]
  constructor <;> omega

/-- the nodes of a span behind the first one -/
theorem scanSpan_enc {a : Int} (ps : List XY) (cur : XY) (curr : Int) (d : Nat) (rest : Bytes) (hc : cur.U32)
    (hp : ∀ q ∈ ps, q.U32) (ha : a = curr + d) :
    scanSpan a ps.length cur curr (encDeltas cur ps ++ rest) =
      .ok (match ps[d]? with | some p => .inl p | none => .inr (curr + ps.length, rest)) := by
  induction ps generalizing cur curr d with
  | nil => simp [scanSpan, encDeltas]
  | cons p ps ih =>
    simp only [List.length_cons, scanSpan, encDeltas]
    rw [List.append_assoc, readDelta_enc hc (hp p (by simp))]
    simp only [Res.ok_bind]
    cases d with
    | zero => rw [if_pos (by omega)]; simp
    | succ d =>
      rw [if_neg (by omega), ih p (curr + 1) d (hp p (by simp)) (fun q hq => hp q (by simp [hq])) (by omega)]
      simp only [List.getElem?_cons_succ]
      have : curr + 1 + (ps.length : Int) = curr + ((ps.length + 1 : Nat) : Int) := by omega
      rw [this]

theorem scanSpans_enc {a : Int} (ss : List NSpan) (fuel : Nat) (curr : Int) (d : Nat) (h : ∀ s ∈ ss, s.Ok)
    (hf : ss.length < fuel) (ha : a = curr + d) :
    scanSpans a fuel curr (encAll ss ++ encVarint 1) = .ok ((flatAll ss)[d]?.join) := by
  induction ss generalizing fuel curr d with
  | nil =>
    obtain ⟨f, rfl⟩ : ∃ f, fuel = f + 1 := ⟨fuel - 1, by simp at hf; omega⟩
    have e1 := decVarint_enc 1 [] (by decide)
    simp only [List.append_nil] at e1
    rw [scanSpans, if_pos ⟨by omega, by simpa using encVarint_ne_nil 1⟩]
    simp [e1]
  | cons s ss ih =>
    obtain ⟨f, rfl⟩ : ∃ f, fuel = f + 1 := ⟨fuel - 1, by simp at hf; omega⟩
    have hok := h s (by simp)
    have hss : ∀ s ∈ ss, s.Ok := fun t ht => h t (by simp [ht])
    have hf' : ss.length < f := by simp at hf; omega
    rw [scanSpans, if_pos ⟨by omega, by
      have := s.enc_pos
      intro h0
      have h1 := congrArg List.length h0
      simp only [encAll_cons, List.length_append, List.length_nil] at h1
      omega⟩, encAll_cons, List.append_assoc, flatAll_cons]
    cases s with
    | gap n =>
      obtain ⟨h1, h2⟩ := hok
      simp only [NSpan.enc, NSpan.flat]
      rw [decVarint_enc _ _ (by omega)]
      simp only [Res.ok_bind]
      rw [if_pos (by omega), if_neg (by omega)]
      have e : (2 * n + 1) / 2 = n := by omega
      rw [e]
      by_cases hd : d < n
      · -- the id lies in the gap
        have hlt : ¬ (curr + (n : Int) ≤ a ∧ encAll ss ++ encVarint 1 ≠ []) := by omega
        obtain ⟨f', rfl⟩ : ∃ f', f = f' + 1 := ⟨f - 1, by omega⟩
        rw [scanSpans, if_neg hlt, List.getElem?_append_left (by simpa using hd)]
        simp [hd]
      · rw [ih f (curr + n) (d - n) hss hf' (by omega), List.getElem?_append_right (by simpa using hd)]
        simp
    | coords p ps =>
      obtain ⟨h1, h2, h3⟩ := hok
      simp only [NSpan.enc, NSpan.flat, List.append_assoc]
      rw [decVarint_enc _ _ (by omega)]
      simp only [Res.ok_bind]
      rw [if_neg (by omega), readFixed_fixed32 h1.1 h1.2.1]
      simp only [Res.ok_bind]
      rw [readFixed_fixed32 h1.2.2.1 h1.2.2.2]
      simp only [Res.ok_bind]
      have e : 2 * ps.length / 2 = ps.length := by omega
      cases d with
      | zero => rw [if_pos (by omega)]; simp
      | succ d =>
        rw [if_neg (by omega), e, scanSpan_enc ps p (curr + 1) d _ h1 h2 (by omega)]
        simp only [Res.ok_bind]
        cases hd : ps[d]? with
        | some q =>
          have hlt : d < ps.length := (List.getElem?_eq_some_iff.mp hd).1
          simp only [List.map_cons, List.cons_append, List.getElem?_cons_succ]
          rw [List.getElem?_append_left (by simpa using hlt)]
          simp [hd]
        | none =>
          have hge : ps.length ≤ d := List.getElem?_eq_none_iff.mp hd
          simp only [List.map_cons, List.cons_append, List.getElem?_cons_succ]
          rw [ih f (curr + 1 + ps.length) (d - ps.length) hss hf' (by omega),
            List.getElem?_append_right (by simpa using hge)]
          simp

/-! ### the coordinate spans -/

theorem spanRun_le (cur : XY) (ps : List XY) : spanRun cur ps ≤ ps.length := by
  induction ps generalizing cur with
  | nil => simp [spanRun]
  | cons p ps ih =>
    simp only [spanRun]
    split
    · omega
    · have := ih p; simp; omega

theorem encCoords_spans (pts : List XY) (h : ∀ p ∈ pts, p.U32) (hl : pts.length ≤ 2 ^ 63) :
    ∃ ss, encCoords pts = encAll ss ∧ flatAll ss = pts.map some ∧ (∀ s ∈ ss, s.Ok) := by
  induction hn : pts.length using Nat.strongRecOn generalizing pts with
  | ind n ih =>
    subst hn
    cases pts with
    | nil => exact ⟨[], by simp [encCoords], rfl, by simp⟩
    | cons p ps =>
      have hle := spanRun_le p ps
      have hlen : ps.length + 1 ≤ 2 ^ 63 := by simpa using hl
      have htl : (ps.take (spanRun p ps)).length = spanRun p ps := by simp; omega
      obtain ⟨ss, h1, h2, h3⟩ := ih (ps.drop (spanRun p ps)).length (by simp; omega) (ps.drop (spanRun p ps))
        (fun q hq => h q (List.mem_cons_of_mem _ (List.mem_of_mem_drop hq))) (by simp; omega) rfl
      refine ⟨.coords p (ps.take (spanRun p ps)) :: ss, ?_, ?_, ?_⟩
      · rw [encCoords, encAll_cons, h1]
        simp only [NSpan.enc, htl, List.append_assoc]
      · rw [flatAll_cons, h2]
        simp only [NSpan.flat, List.map_cons, List.cons_append]
        rw [← List.map_append, List.take_append_drop]
      · intro s hs
        rcases List.mem_cons.mp hs with rfl | hs
        · refine ⟨h p (by simp), fun q hq => h q (List.mem_cons_of_mem _ (List.mem_of_mem_take hq)), ?_⟩
          rw [htl]; omega
        · exact h3 s hs

end Tiles
