import Verif.Model.Mvt
import Verif.Spec.Mvt
import Verif.Proof.Pbf
import Verif.Props.C26
/-! C27 — the geometry commands of a feature decode, by the rules of the vector tile specification, to the geometry relative to the
tile's upper left corner. -/
namespace Tiles
open Spec

/-- relative to the corner of the tile -/
def Spec.rel (o p : XY) : XY := ⟨p.x - o.x, p.y - o.y⟩

/-- the parts a client should see -/
def Spec.partsOf (o : XY) : Geometry → List MvtPart
  | .null => []
  | .point ps => ps.map (fun p => ⟨[rel o p], false⟩)
  | .polyline ls => ls.map (fun l => ⟨l.map (rel o), false⟩)
  | .polygon ps => (ps.flatMap (fun p => p.outer :: p.inners)).map (fun r => ⟨r.dropLast.map (rel o), true⟩)

def Spec.typeOf : Geometry → Nat
  | .null => 0
  | .point _ => 1
  | .polyline _ => 2
  | .polygon _ => 3

def Spec.allLines : Geometry → List Line
  | .null => []
  | .point p => [p]
  | .polyline ls => ls
  | .polygon ps => ps.flatMap (fun p => p.outer :: p.inners)

/-- within 2^30 pixels of the corner, and fewer than 2^29 points in a line (the counter of a command has 29 bits) -/
def Spec.NearTile (o : XY) (g : Geometry) : Prop :=
  ∀ l ∈ allLines g, l.length < 2 ^ 29 ∧ ∀ p ∈ l, -(2 : Int) ^ 30 ≤ p.x - o.x ∧ p.x - o.x < (2 : Int) ^ 30 ∧
    -(2 : Int) ^ 30 ≤ p.y - o.y ∧ p.y - o.y < (2 : Int) ^ 30

def Near (o p : XY) : Prop := -(2 : Int) ^ 30 ≤ p.x - o.x ∧ p.x - o.x < (2 : Int) ^ 30 ∧
    -(2 : Int) ^ 30 ≤ p.y - o.y ∧ p.y - o.y < (2 : Int) ^ 30

theorem param_zigzag32 {v : Int} (h1 : -(2 : Int) ^ 31 ≤ v) (h2 : v < (2 : Int) ^ 31) : param (zigzag32 v) = v := by
  have : narrow32 v = v := by unfold narrow32; norm_num at *; omega
  rw [zigzag32, this]
  unfold param zigzag
  split <;> split <;> omega

theorem zigzag32_lt (v : Int) : zigzag32 v < 2 ^ 64 := by
  unfold zigzag32 zigzag narrow32
  norm_num
  split <;> omega

theorem param_x {o a b : XY} (ha : Near o a) (hb : Near o b) : param (zigzag32 (b.x - a.x)) = b.x - a.x := by
  obtain ⟨h1, h2, -, -⟩ := ha; obtain ⟨h3, h4, -, -⟩ := hb
  apply param_zigzag32 <;> norm_num at * <;> omega

theorem param_y {o a b : XY} (ha : Near o a) (hb : Near o b) : param (zigzag32 (b.y - a.y)) = b.y - a.y := by
  obtain ⟨-, -, h1, h2⟩ := ha; obtain ⟨-, -, h3, h4⟩ := hb
  apply param_zigzag32 <;> norm_num at * <;> omega

theorem rel_step {o a b : XY} (ha : Near o a) (hb : Near o b) :
    (⟨(rel o a).x + param (zigzag32 (b.x - a.x)), (rel o a).y + param (zigzag32 (b.y - a.y))⟩ : XY) = rel o b := by
  rw [param_x ha hb, param_y ha hb]
  simp only [rel, XY.mk.injEq]
  omega

theorem mvtRun_zero (els : List Nat) (cmd : Nat) (cur : XY) (parts : List MvtPart) : mvtRun els cmd 0 cur parts = mvtRun els 0 0 cur parts := by
  cases els with
  | nil => simp only [mvtRun]
  | cons c r => cases r <;> simp only [mvtRun]

theorem run_points {o : XY} (ps : List XY) (cur : XY) (hc : Near o cur) (hp : ∀ p ∈ ps, Near o p) (parts : List MvtPart) :
    mvtRun (encodePoints cur ps) 1 ps.length (rel o cur) parts = some ((ps.map (fun p => (⟨[rel o p], false⟩ : MvtPart))).reverse ++ parts) := by
  induction ps generalizing cur parts with
  | nil => simp [encodePoints, mvtRun]
  | cons p ps ih =>
    simp only [encodePoints, List.length_cons, mvtRun]
    rw [rel_step hc (hp p (by simp))]
    rw [if_pos trivial, ih p (hp p (by simp)) (fun q hq => hp q (by simp [hq]))]
    simp

theorem encodeLineTo_last {ps : List XY} {cur : XY} {els : List Nat} {last : XY} (h : encodeLineTo cur ps = .ok (els, last)) :
    last = (cur :: ps).getLast (by simp) ∧ ∀ e ∈ els, e < 2 ^ 64 := by
  induction ps generalizing cur els with
  | nil => cases h; exact ⟨rfl, by simp⟩
  | cons p ps ih =>
    simp only [encodeLineTo, Res.bind_eq_ok] at h
    obtain ⟨_, _, ⟨e, l⟩, h1, h2⟩ := h
    cases h2
    obtain ⟨i1, i2⟩ := ih h1
    refine ⟨by rw [i1]; simp, fun x hx => ?_⟩
    rcases List.mem_cons.1 hx with rfl | hx
    · exact zigzag32_lt _
    rcases List.mem_cons.1 hx with rfl | hx
    · exact zigzag32_lt _
    · exact i2 x hx

theorem run_lineTo {o : XY} (ps : List XY) (cur : XY) (hc : Near o cur) (hp : ∀ p ∈ ps, Near o p) {els : List Nat} {last : XY}
    (h : encodeLineTo cur ps = .ok (els, last)) (rest : List Nat) (q : MvtPart) (parts : List MvtPart) :
    mvtRun (els ++ rest) 2 ps.length (rel o cur) (q :: parts) =
      mvtRun rest 0 0 (rel o last) (⟨q.points ++ ps.map (rel o), q.closed⟩ :: parts) := by
  induction ps generalizing cur els q with
  | nil => cases h; simp only [List.nil_append, List.length_nil, List.map_nil, List.append_nil]; exact mvtRun_zero _ _ _ _
  | cons p ps ih =>
    simp only [encodeLineTo, Res.bind_eq_ok] at h
    obtain ⟨_, _, ⟨e, l⟩, h1, h2⟩ := h
    cases h2
    simp only [List.cons_append, List.length_cons, mvtRun]
    rw [rel_step hc (hp p (by simp)), if_neg (by decide)]
    simp only [addPoint, Option.bind_some]
    rw [ih p (hp p (by simp)) (fun q hq => hp q (by simp [hq])) h1]
    simp

theorem encodeCommand_eq {cmd n : Nat} (h1 : cmd < 8) (h2 : n < 2 ^ 29) : encodeCommand cmd n % 8 = cmd ∧ encodeCommand cmd n / 8 = n := by
  unfold encodeCommand
  rw [Nat.mod_eq_of_lt (show cmd % 8 + n * 8 < 2 ^ 32 by omega)]
  omega

theorem encodeCommand_lt (cmd n : Nat) : encodeCommand cmd n < 2 ^ 64 := by unfold encodeCommand; omega

/-- a path the encoder handles properly -/
def PathOk (o : XY) (close : Bool) (c : Line) : Prop :=
  (if close then 3 else 2) ≤ c.length ∧ c.length < 2 ^ 29 ∧ ∀ p ∈ c, Near o p

theorem run_path {o : XY} {close : Bool} {c : Line} (hc : PathOk o close c) (cur : XY) (hcur : Near o cur) {els : List Nat} {last : XY}
    (h : encodePath close cur c = .ok (els, last)) (rest : List Nat) (parts : List MvtPart) :
    Near o last ∧ (∀ e ∈ els, e < 2 ^ 64) ∧ els ≠ [] ∧ mvtRun (els ++ rest) 0 0 (rel o cur) parts =
      mvtRun rest 0 0 (rel o last) (⟨(if close then c.dropLast else c).map (rel o), close⟩ :: parts) := by
  obtain ⟨h1, h2, h3⟩ := hc
  match c, h1, h2, h3, h with
  | [], _, _, _, h => cases h
  | [_], _, _, _, h => cases h
  | p :: q :: r, h1, h2, h3, h =>
    simp only [encodePath] at h
    rw [Res.bind_eq_ok] at h
    obtain ⟨⟨e, l⟩, h4, h5⟩ := h
    cases h5
    have hp := h3 p (by simp)
    have hsub : ∀ x ∈ (q :: r).take (if close = true then (p :: q :: r).length - 2 else (p :: q :: r).length - 1), Near o x :=
      fun x hx => h3 x (List.mem_cons_of_mem _ (List.mem_of_mem_take hx))
    obtain ⟨hl, he⟩ := encodeLineTo_last h4
    generalize hlim : (if close = true then (p :: q :: r).length - 2 else (p :: q :: r).length - 1) = limit at *
    have hlim1 : 1 ≤ limit ∧ limit < 2 ^ 29 ∧ limit ≤ (q :: r).length := by
      subst hlim
      cases close <;> simp only [Bool.false_eq_true, if_false, if_true, List.length_cons] at h1 h2 ⊢ <;> omega
    obtain ⟨c1, c2⟩ := encodeCommand_eq (cmd := 1) (n := 1) (by decide) (by decide)
    obtain ⟨d1, d2⟩ := encodeCommand_eq (cmd := 2) (n := limit) (by decide) hlim1.2.1
    obtain ⟨e1, e2⟩ := encodeCommand_eq (cmd := 7) (n := 1) (by decide) (by decide)
    have htake : ((q :: r).take limit).length = limit := by rw [List.length_take]; omega
    refine ⟨?_, ?_, by simp, ?_⟩
    · rw [hl]
      rcases List.mem_cons.1 (List.getLast_mem (l := p :: (q :: r).take limit) (by simp)) with h | h
      · rw [h]; exact hp
      · exact hsub _ h
    · intro x hx
      simp only [List.cons_append, List.nil_append, List.mem_cons, List.mem_append] at hx
      rcases hx with rfl | rfl | rfl | rfl | hx | hx
      · exact encodeCommand_lt _ _
      · exact zigzag32_lt _
      · exact zigzag32_lt _
      · exact encodeCommand_lt _ _
      · exact he x hx
      · cases close
        · simp at hx
        · simp at hx; subst hx; exact encodeCommand_lt _ _
    · simp only [List.cons_append, List.nil_append]
      rw [mvtRun, if_neg (by rw [c1]; decide), if_pos (by rw [c1]; exact .inl rfl), c1, c2, if_neg (by decide)]
      rw [mvtRun]
      rw [rel_step hcur hp, if_pos rfl, mvtRun_zero]
      rw [mvtRun, if_neg (by rw [d1]; decide), if_pos (by rw [d1]; exact .inr rfl), d1, d2, if_neg (by omega)]
      have := run_lineTo ((q :: r).take limit) p hp hsub h4 ((if close = true then [encodeCommand 7 1] else []) ++ rest) ⟨[rel o p], false⟩ parts
      rw [htake] at this
      rw [List.append_assoc, this]
      cases close with
      | false =>
        simp only [Bool.false_eq_true, if_false, List.nil_append] at hlim ⊢
        rw [List.take_of_length_le (by rw [← hlim]; simp)]
        simp
      | true =>
        simp only [if_true, List.cons_append, List.nil_append] at hlim ⊢
        rw [mvtRun, if_pos e1, if_pos e2]
        · simp only [closePart, Option.bind_some]
          congr 2
          rw [List.dropLast_eq_take]
          subst hlim
          simp
        

theorem run_paths {o : XY} {close : Bool} (ls : List Line) (hl : ∀ c ∈ ls, PathOk o close c) (cur : XY) (hcur : Near o cur) {els : List Nat}
    {last : XY} (h : encodePaths close cur ls = .ok (els, last)) (parts : List MvtPart) :
    (∀ e ∈ els, e < 2 ^ 64) ∧ (ls ≠ [] → els ≠ []) ∧ mvtRun els 0 0 (rel o cur) parts =
      some ((ls.map (fun c => (⟨(if close then c.dropLast else c).map (rel o), close⟩ : MvtPart))).reverse ++ parts) := by
  induction ls generalizing cur els parts with
  | nil => cases h; simp [mvtRun]
  | cons c ls ih =>
    simp only [encodePaths, Res.bind_eq_ok] at h
    obtain ⟨⟨a, cur1⟩, h1, ⟨b, cur2⟩, h2, h3⟩ := h
    cases h3
    obtain ⟨g1, g2, g3, g4⟩ := run_path (hl c (by simp)) cur hcur h1 b parts
    obtain ⟨i1, -, i2⟩ := ih (fun d hd => hl d (by simp [hd])) cur1 g1 h2 (⟨(if close then c.dropLast else c).map (rel o), close⟩ :: parts)
    refine ⟨fun e he => (List.mem_append.1 he).elim (g2 e) (i1 e), fun _ hx => g3 (List.append_eq_nil_iff.1 hx).1, ?_⟩
    rw [g4, i2]
    simp

/-! ### when the encoder throws -/

theorem encodeLineTo_cases (ps : List XY) (cur : XY) :
    (NoRepeat (cur :: ps) ∧ ∃ r, encodeLineTo cur ps = .ok r) ∨ (¬ NoRepeat (cur :: ps) ∧ encodeLineTo cur ps = .throw_) := by
  induction ps generalizing cur with
  | nil => exact .inl ⟨List.isChain_singleton _, _, rfl⟩
  | cons p ps ih =>
    by_cases hne : cur = p
    · right
      subst hne
      refine ⟨fun h => ?_, by simp [encodeLineTo]⟩
      rw [NoRepeat, List.isChain_cons_cons] at h
      exact h.1 rfl
    · have hv : (decide (p.x - cur.x ≠ 0) || decide (p.y - cur.y ≠ 0)) = true := by
        by_contra hx
        simp only [Bool.or_eq_true, decide_eq_true_eq, not_or, not_not] at hx
        apply hne
        obtain ⟨x, y⟩ := cur; obtain ⟨x', y'⟩ := p
        simp only [XY.mk.injEq] at *
        omega
      rcases ih p with ⟨h1, ⟨e, l⟩, h2⟩ | ⟨h1, h2⟩
      · exact .inl ⟨by rw [NoRepeat, List.isChain_cons_cons]; exact ⟨hne, h1⟩, _, by simp only [encodeLineTo]; rw [hv, h2]; rfl⟩
      · exact .inr ⟨by rw [NoRepeat, List.isChain_cons_cons]; exact fun h => h1 h.2, by simp only [encodeLineTo]; rw [hv, h2]; rfl⟩

/-- the points of a path that are written -/
def written (close : Bool) (c : Line) : Line := if close then c.dropLast else c

theorem encodePath_cases (close : Bool) (cur : XY) (c : Line) :
    ((2 ≤ c.length ∧ NoRepeat (written close c)) ∧ ∃ r, encodePath close cur c = .ok r) ∨
    (¬ (2 ≤ c.length ∧ NoRepeat (written close c)) ∧ encodePath close cur c = .throw_) := by
  match c with
  | [] => exact .inr ⟨by simp, rfl⟩
  | [_] => exact .inr ⟨by simp, rfl⟩
  | p :: q :: r =>
    have hw : written close (p :: q :: r) = p :: (q :: r).take (if close = true then (p :: q :: r).length - 2 else (p :: q :: r).length - 1) := by
      cases close
      · simp [written]
      · simp [written, List.dropLast_eq_take]
    rw [hw]
    rcases encodeLineTo_cases ((q :: r).take (if close = true then (p :: q :: r).length - 2 else (p :: q :: r).length - 1)) p with
      ⟨h1, ⟨e, l⟩, h2⟩ | ⟨h1, h2⟩
    · exact .inl ⟨⟨by simp, h1⟩, _, by simp only [encodePath]; rw [h2]; rfl⟩
    · exact .inr ⟨fun h => h1 h.2, by simp only [encodePath]; rw [h2]; rfl⟩

theorem encodePaths_cases (close : Bool) (ls : List Line) (cur : XY) :
    ((∀ c ∈ ls, 2 ≤ c.length ∧ NoRepeat (written close c)) ∧ ∃ r, encodePaths close cur ls = .ok r) ∨
    (¬ (∀ c ∈ ls, 2 ≤ c.length ∧ NoRepeat (written close c)) ∧ encodePaths close cur ls = .throw_) := by
  induction ls generalizing cur with
  | nil => exact .inl ⟨by simp, _, rfl⟩
  | cons c ls ih =>
    rcases encodePath_cases close cur c with ⟨h1, ⟨a, cur1⟩, h2⟩ | ⟨h1, h2⟩
    · rcases ih cur1 with ⟨h3, ⟨b, cur2⟩, h4⟩ | ⟨h3, h4⟩
      · exact .inl ⟨by simpa using ⟨h1, h3⟩, _, by simp only [encodePaths]; rw [h2, Res.ok_bind, h4]; rfl⟩
      · exact .inr ⟨fun h => h3 fun c hc => h c (by simp [hc]), by simp only [encodePaths]; rw [h2, Res.ok_bind, h4]; rfl⟩
    · exact .inr ⟨fun h => h1 (h c (by simp)), by simp only [encodePaths]; rw [h2]; rfl⟩

/-- The encoder throws exactly on a line with fewer than two points, a ring with fewer than two points, two equal consecutive
written points, or an empty polygon set; otherwise it returns. -/
theorem C27_throws_exactly (o : XY) (g : Geometry) :
    let bad := match g with
      | .null => False
      | .point _ => False
      | .polyline ls => ∃ l ∈ ls, l.length < 2 ∨ ¬ NoRepeat l
      | .polygon ps => ps = [] ∨ ∃ r ∈ allLines (.polygon ps), r.length < 2 ∨ ¬ NoRepeat r.dropLast
    (bad ∧ encodeGeometryFields o g = .throw_) ∨ (¬ bad ∧ ∃ fs, encodeGeometryFields o g = .ok fs) := by
  cases g with
  | null => exact .inr ⟨id, _, rfl⟩
  | point p => exact .inr ⟨id, _, rfl⟩
  | polyline ls =>
    dsimp only
    have hiff : (∃ l ∈ ls, l.length < 2 ∨ ¬ NoRepeat l) ↔ ¬ (∀ c ∈ ls, 2 ≤ c.length ∧ NoRepeat (written false c)) := by
      simp only [written, Bool.false_eq_true, if_false]
      push Not
      constructor
      · rintro ⟨l, hl, h⟩
        exact ⟨l, hl, fun h2 => h.resolve_left (by omega)⟩
      · rintro ⟨l, hl, h⟩
        refine ⟨l, hl, ?_⟩
        by_cases h2 : 2 ≤ l.length
        · exact .inr (h h2)
        · left; omega
    rw [hiff]
    rcases encodePaths_cases false ls o with ⟨h1, ⟨a, b⟩, h2⟩ | ⟨h1, h2⟩
    · exact .inr ⟨not_not_intro h1, _, by simp only [encodeGeometryFields]; rw [h2]; rfl⟩
    · exact .inl ⟨h1, by simp only [encodeGeometryFields]; rw [h2]; rfl⟩
  | polygon ps =>
    dsimp only
    have hiff : (∃ l ∈ allLines (.polygon ps), l.length < 2 ∨ ¬ NoRepeat l.dropLast) ↔
        ¬ (∀ c ∈ allLines (.polygon ps), 2 ≤ c.length ∧ NoRepeat (written true c)) := by
      simp only [written, if_true]
      push Not
      constructor
      · rintro ⟨l, hl, h⟩
        exact ⟨l, hl, fun h2 => h.resolve_left (by omega)⟩
      · rintro ⟨l, hl, h⟩
        refine ⟨l, hl, ?_⟩
        by_cases h2 : 2 ≤ l.length
        · exact .inr (h h2)
        · left; omega
    rw [hiff]
    cases ps with
    | nil => exact .inl ⟨.inl rfl, rfl⟩
    | cons p ps =>
      rcases encodePaths_cases true (allLines (.polygon (p :: ps))) o with ⟨h1, ⟨a, b⟩, h2⟩ | ⟨h1, h2⟩
      · refine .inr ⟨by simpa using h1, .varint 3 3 :: packedField 4 a, ?_⟩
        simp only [encodeGeometryFields]
        rw [show ((p :: ps).flatMap fun p => p.outer :: p.inners) = allLines (.polygon (p :: ps)) from rfl, h2]; rfl
      · refine .inl ⟨.inr h1, ?_⟩
        simp only [encodeGeometryFields]
        rw [show ((p :: ps).flatMap fun p => p.outer :: p.inners) = allLines (.polygon (p :: ps)) from rfl, h2]; rfl

/-! ### decoding -/

theorem noRepeat_dropLast {c : Line} (h : NoRepeat c) : NoRepeat c.dropLast := by
  by_cases hc : c = []
  · subst hc; exact h
  · rw [NoRepeat, ← List.dropLast_append_getLast hc] at h
    exact h.left_of_append

theorem clientGeometry_fields (t : Nat) (els : List Nat) (hne : els ≠ []) (hlt : ∀ e ∈ els, e < 2 ^ 64) (more : List PbfField)
    (hm : ∀ f ∈ more, ∀ v d, f ≠ .varint 3 v ∧ f ≠ .bytes 4 d) {parts : List MvtPart} (h : mvtParts els = some parts) :
    clientGeometry ((.varint 3 t :: packedField 4 els) ++ more) = some (t, parts) := by
  have e1 : more.filterMap typeField = [] := by
    rw [List.filterMap_eq_nil_iff]
    intro f hf
    cases f with
    | varint a b =>
      by_cases ha : a = 3
      · subst ha; exact absurd rfl (hm _ hf b []).1
      · simp [typeField, ha]
    | _ => rfl
  have e2 : more.filterMap geomField = [] := by
    rw [List.filterMap_eq_nil_iff]
    intro f hf
    cases f with
    | bytes a b =>
      by_cases ha : a = 4
      · subst ha; exact absurd rfl (hm _ hf 0 b).2
      · simp [geomField, ha]
    | _ => rfl
  rw [packedField, if_neg hne, clientGeometry]
  simp only [List.cons_append, List.nil_append, List.filterMap_cons, e1, e2, typeField, geomField, if_true]
  rw [decPacked_enc els hlt]
  simp [h]

/-- A client decodes the fields written for a drawable geometry (what `shift` produces) to exactly the geometry relative to the
tile's corner: points as points, lines as open parts, every ring as one closed part. -/
theorem C27_decodes (o : XY) (g : Geometry) (hw : WellFormed g) (hn : NearTile o g) (hnn : g ≠ .null) (more : List PbfField)
    (hm : ∀ f ∈ more, ∀ v d, f ≠ .varint 3 v ∧ f ≠ .bytes 4 d) :
    ∃ fs, encodeGeometryFields o g = .ok fs ∧ clientGeometry (fs ++ more) = some (typeOf g, partsOf o g) := by
  have hoo : Near o o := by unfold Near; norm_num
  have hrel : (⟨0, 0⟩ : XY) = rel o o := by simp [rel]
  cases g with
  | null => exact absurd rfl hnn
  | point p =>
    refine ⟨_, rfl, clientGeometry_fields _ _ (by simp) ?_ more hm ?_⟩
    · intro e he
      rcases List.mem_cons.1 he with rfl | he
      · exact encodeCommand_lt _ _
      · have : ∀ (ps : List XY) (c : XY), ∀ e ∈ encodePoints c ps, e < 2 ^ 64 := by
          intro ps
          induction ps with
          | nil => intro c e he; simp [encodePoints] at he
          | cons a ps ih =>
            intro c e he
            simp only [encodePoints, List.mem_cons] at he
            rcases he with rfl | rfl | he
            · exact zigzag32_lt _
            · exact zigzag32_lt _
            · exact ih a e he
        exact this p o e he
    · obtain ⟨h1, h2⟩ := hn p (by simp [allLines])
      obtain ⟨c1, c2⟩ := encodeCommand_eq (cmd := 1) (n := p.length) (by decide) h1
      have hpos : p.length ≠ 0 := by have := hw.1; cases p <;> simp_all
      have := run_points p o hoo (fun q hq => h2 q hq) []
      rw [mvtParts]
      cases hx : encodePoints o p with
      | nil => cases p <;> simp_all [encodePoints]
      | cons a r =>
        rw [hx] at this
        rw [mvtRun, if_neg (by rw [c1]; decide), if_pos (by rw [c1]; exact .inl rfl), c1, c2, if_neg hpos, hrel, this]
        simp [partsOf]
  | polyline ls =>
    obtain ⟨hne, hl⟩ := hw
    rcases encodePaths_cases false ls o with ⟨h1, ⟨a, b⟩, h2⟩ | ⟨h1, h2⟩
    · refine ⟨_, by simp only [encodeGeometryFields]; rw [h2, Res.ok_bind]; rfl, ?_⟩
      obtain ⟨g1, g2, g3⟩ := run_paths ls (fun c hc => ⟨by simpa using (hl c hc).1, hn c hc⟩) o hoo h2 []
      refine clientGeometry_fields _ _ (g2 hne) g1 more hm ?_
      rw [mvtParts, hrel, g3]
      simp [partsOf]
    · exact absurd (fun c hc => by simpa [written] using hl c hc) h1
  | polygon ps =>
    obtain ⟨hne, hl⟩ := hw
    have hl' : ∀ c ∈ allLines (.polygon ps), 3 ≤ c.length ∧ NoRepeat c := by
      intro c hc
      obtain ⟨p, hp, hc⟩ := List.mem_flatMap.1 hc
      rcases List.mem_cons.1 hc with rfl | hc
      · exact (hl p hp).1
      · exact (hl p hp).2 c hc
    have hne' : ps.isEmpty = false := by cases ps <;> simp_all
    rcases encodePaths_cases true (allLines (.polygon ps)) o with ⟨h1, ⟨a, b⟩, h2⟩ | ⟨h1, h2⟩
    · refine ⟨.varint 3 3 :: packedField 4 a, ?_, ?_⟩
      · simp only [encodeGeometryFields, hne']
        rw [show (ps.flatMap fun p => p.outer :: p.inners) = allLines (.polygon ps) from rfl, h2]; rfl
      obtain ⟨g1, g2, g3⟩ := run_paths (allLines (.polygon ps)) (fun c hc => ⟨by simpa using (hl' c hc).1, hn c hc⟩) o hoo h2 []
      refine clientGeometry_fields _ _ (g2 ?_) g1 more hm ?_
      · cases ps with
        | nil => exact absurd rfl hne
        | cons p ps => simp [allLines]
      · rw [mvtParts, hrel, g3]
        simp [partsOf, allLines]
    · refine absurd (fun c hc => ⟨by have := (hl' c hc).1; omega, ?_⟩) h1
      simp only [written, if_true]
      exact noRepeat_dropLast (hl' c hc).2

/-- After `shift` the encoder never throws, and what it writes decodes. -/
theorem C27_after_shift (o : XY) (g g' : Geometry) (z : Nat) (hz : z ≤ 20) (h : shiftGeometry g z = .ok g') (hnn : g' ≠ .null)
    (hn : NearTile o g') : ∃ fs, encodeGeometryFields o g' = .ok fs ∧ clientGeometry fs = some (typeOf g', partsOf o g') := by
  obtain ⟨fs, h1, h2⟩ := C27_decodes o g' (C26_shift_wellFormed g g' z hz h) hn hnn [] (by simp)
  exact ⟨fs, h1, by simpa using h2⟩

theorem destutter'_getLast (a : XY) (l : Line) : (List.destutter' (· ≠ ·) a l).getLast? = (a :: l).getLast? := by
  induction l generalizing a with
  | nil => simp
  | cons b l ih =>
    rw [List.destutter'_cons]
    by_cases h : a = b
    · subst h
      rw [if_neg (by simp), ih]
      simp
    · rw [if_pos h, List.getLast?_cons, ih]
      simp [List.getLast?_cons]

/-- A ring that is closed in the stored geometry is still closed when it is written, so the closed part the client sees is the ring. -/
theorem C27_rings_stay_closed (z : Nat) (r : Line) (h : r.head? = r.getLast?) : (lineAt z r).head? = (lineAt z r).getLast? := by
  cases r with
  | nil => rfl
  | cons a l =>
    simp only [lineAt, List.map_cons, List.destutter]
    rw [destutter'_getLast]
    have h1 : (List.destutter' (· ≠ ·) (floorTo z a) (l.map (floorTo z))).head? = some (floorTo z a) := by
      generalize l.map (floorTo z) = m
      induction m with
      | nil => simp
      | cons b m ih =>
        rw [List.destutter'_cons]
        split
        · rfl
        · exact ih
    rw [h1, ← List.map_cons, List.getLast?_map, ← h]
    rfl

/-- a ring of two distinct points survives shifting and is written with a single LineTo: the specification asks for at least two.
(finding; the decoder above accepts it) -/
theorem C27_two_point_rings_written :
    ∃ g', shiftGeometry (.polygon [⟨[⟨0, 0⟩, ⟨4, 0⟩, ⟨4, 1⟩, ⟨0, 0⟩], []⟩]) 18 = .ok g' ∧
      partsOf ⟨0, 0⟩ g' = [⟨[⟨0, 0⟩, ⟨1, 0⟩], true⟩] := ⟨_, rfl, by decide⟩

/-- hypotheses met -/
example : WellFormed (.polygon [⟨[⟨5, 5⟩, ⟨9, 5⟩, ⟨9, 9⟩, ⟨5, 5⟩], []⟩]) ∧ NearTile ⟨4096, 0⟩ (.polygon [⟨[⟨5, 5⟩, ⟨9, 5⟩, ⟨9, 9⟩, ⟨5, 5⟩], []⟩]) ∧
    partsOf ⟨4096, 0⟩ (.polygon [⟨[⟨5, 5⟩, ⟨9, 5⟩, ⟨9, 9⟩, ⟨5, 5⟩], []⟩]) = [⟨[⟨-4091, 5⟩, ⟨-4087, 5⟩, ⟨-4087, 9⟩], true⟩] := by
  refine ⟨?_, ?_, by decide⟩
  · simp [WellFormed, NoRepeat]
  · simp [NearTile, allLines]

end Tiles
