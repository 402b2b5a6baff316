import Verif.Proof.CoastSound
import Verif.Props.C30
/-! C34: when the loader does not throw; and a polygon library that works cell by cell. -/
namespace Tiles
open Spec

namespace Spec
/-- the polygon library does not fail, and builds well-formed trees -/
structure Works (lib : CoastLib) : Prop where
  inter : ∀ g b, ∃ r, lib.inter g b = .ok r
  tree : ∀ b gs, ∃ ps, toFixedPolygon [] (lib.diff b gs) = .ok ps
  correct : ∀ ps, ps ≠ [] → lib.correct ps ≠ []

/-- the intersection with a rectangle that is covered (at the points `S`, of which it has one) is the rectangle, as one path of four corners -/
def Fills (lib : CoastLib) (S : Set Pt) : Prop :=
  ∀ g b r, lib.inter g b = .ok r → (∃ p ∈ S, InBox b p) → (∀ p ∈ S, InBox b p → inPaths g p = true) → isFull r b = true

/-- there are points of `S` in each tile and in the margin around it -/
def Dense (S : Set Pt) : Prop :=
  ∀ t : Tile, t.Valid → t.z ≤ 10 → (∃ p ∈ S, InBox (insertBounds t) p) ∧ ∃ p ∈ S, InBox (drawBounds t) p ∧ ¬ InBox (insertBounds t) p
end Spec

theorem draw_child {t : Tile} (hz : t.z < 20) (i : Nat) {p : Pt} (hp : InBox (drawBounds (t.child i)) p) : InBox (drawBounds t) p := by
  have key : ∀ q : Pt, InBox (insertBounds (t.child i)) q → InBox (insertBounds t) q := fun q h => insert_child hz i h
  have hpos : (0 : ℚ) < 2 ^ (20 - (t.child i).z) := by positivity
  have h1 := key ((insertBounds (t.child i)).min.x, (insertBounds (t.child i)).min.y) (by
    simp only [InBox, insertBounds, pxBounds]; push_cast; refine ⟨le_refl _, ?_, le_refl _, ?_⟩ <;> nlinarith)
  have h2 := key ((insertBounds (t.child i)).max.x, (insertBounds (t.child i)).max.y) (by
    simp only [InBox, insertBounds, pxBounds]; push_cast; refine ⟨?_, le_refl _, ?_, le_refl _⟩ <;> nlinarith)
  have e : ∀ u : Tile, drawBounds u = ⟨⟨(insertBounds u).min.x - kOverdraw, (insertBounds u).min.y - kOverdraw⟩,
      ⟨(insertBounds u).max.x + kOverdraw, (insertBounds u).max.y + kOverdraw⟩⟩ := fun u => rfl
  rw [e] at hp ⊢
  obtain ⟨a1, a2, a3, a4⟩ := hp
  obtain ⟨b1, b2, b3, b4⟩ := h1
  obtain ⟨c1, c2, c3, c4⟩ := h2
  dsimp only at *
  push_cast at *
  refine ⟨?_, ?_, ?_, ?_⟩ <;> dsimp only <;> push_cast <;> linarith

theorem coast_draw_anc {t q : Tile} (h : AncOrSelf t q) (hz : q.z ≤ 20) {p : Pt} (hp : InBox (drawBounds q) p) : InBox (drawBounds t) p := by
  obtain ⟨n, hn⟩ : ∃ n, q.z - t.z = n := ⟨_, rfl⟩
  induction n generalizing t with
  | zero =>
    have := ancOrSelf_same_z h (by have := h.1; omega)
    subst this; exact hp
  | succ n ih =>
    obtain ⟨i, _, hi⟩ := ancOrSelf_child_of_lt h (by omega)
    have hzc : (t.child i).z = t.z + 1 := rfl
    exact draw_child (by omega) i (ih hi (by omega))

theorem coast_insert_anc {t q : Tile} (h : AncOrSelf t q) (hz : q.z ≤ 20) {p : Pt} (hp : InBox (insertBounds q) p) : InBox (insertBounds t) p := by
  obtain ⟨n, hn⟩ : ∃ n, q.z - t.z = n := ⟨_, rfl⟩
  induction n generalizing t with
  | zero =>
    have := ancOrSelf_same_z h (by have := h.1; omega)
    subst this; exact hp
  | succ n ih =>
    obtain ⟨i, _, hi⟩ := ancOrSelf_child_of_lt h (by omega)
    have hzc : (t.child i).z = t.z + 1 := rfl
    exact insert_child (by omega) i (ih hi (by omega))

/-- a coastline with land in the tile is not lost -/
theorem matchCoast_keeps {lib : CoastLib} {S : Set Pt} (hx : ExactAt lib S) {insert draw : Box} (hid : ∀ p, InBox insert p → InBox draw p) {cs : List Coast}
    {ms : List Coast} (h : matchCoast lib insert draw cs = .ok (some ms)) {c : Coast} (hc : c ∈ cs)
    (hb : ∀ p ∈ S, inPaths c.geo p = true → InBox c.box p) {p0 : Pt} (hp0 : p0 ∈ S) (hin : InBox insert p0) (hland : inPaths c.geo p0 = true) :
    ∃ c' ∈ ms, ∀ p ∈ S, InBox draw p → inPaths c'.geo p = inPaths c.geo p := by
  induction cs generalizing ms with
  | nil => cases hc
  | cons d cs ih =>
    unfold matchCoast at h
    rcases List.mem_cons.1 hc with rfl | hc
    · split at h
      · rename_i ht
        exact absurd (hb p0 hp0 hland) (touches_false (by simpa using ht) hin)
      · split at h
        · obtain ⟨r, hr, h⟩ := Res.bind_eq_ok.1 h
          injection h with h
          rw [Option.map_eq_some_iff] at h
          obtain ⟨ms', _, rfl⟩ := h
          exact ⟨c, by simp, fun _ _ _ => rfl⟩
        · obtain ⟨g, hg, h⟩ := Res.bind_eq_ok.1 h
          have hi := hx.inter _ _ _ hg
          split at h
          · rename_i he
            have he' : g = [] := by simpa using he
            subst he'
            have := hi p0 hp0
            rw [hland, decide_eq_true (hid p0 hin)] at this
            cases this
          · split at h
            · cases h
            · obtain ⟨r, hr, h⟩ := Res.bind_eq_ok.1 h
              injection h with h
              rw [Option.map_eq_some_iff] at h
              obtain ⟨ms', _, rfl⟩ := h
              exact ⟨⟨pathsBox g, g⟩, by simp, fun p hp hd => by
                show inPaths g p = _
                rw [hi p hp, decide_eq_true hd, Bool.and_true]⟩
    · have sub : ∀ r : Option (List Coast), matchCoast lib insert draw cs = .ok r → ∀ d', r.map (d' :: ·) = some ms →
          ∃ c' ∈ ms, ∀ p ∈ S, InBox draw p → inPaths c'.geo p = inPaths c.geo p := by
        intro r hr d' h
        rw [Option.map_eq_some_iff] at h
        obtain ⟨ms', rfl, rfl⟩ := h
        obtain ⟨c', h1, h2⟩ := ih hr hc
        exact ⟨c', by simp [h1], h2⟩
      split at h
      · exact ih h hc
      · split at h
        · obtain ⟨r, hr, h⟩ := Res.bind_eq_ok.1 h
          injection h with h
          exact sub r hr _ h
        · obtain ⟨g, hg, h⟩ := Res.bind_eq_ok.1 h
          split at h
          · exact ih h hc
          · split at h
            · cases h
            · obtain ⟨r, hr, h⟩ := Res.bind_eq_ok.1 h
              injection h with h
              exact sub r hr _ h

/-- a tile that one coastline covers is land -/
theorem matchCoast_covered {lib : CoastLib} {S : Set Pt} (hx : ExactAt lib S) (hfill : Fills lib S) {insert draw : Box} (hid : ∀ p, InBox insert p → InBox draw p)
    {cs : List Coast} {ms : List Coast} {c : Coast} (hc : c ∈ cs) (hb : ∀ p ∈ S, inPaths c.geo p = true → InBox c.box p) {p0 : Pt} (hp0 : p0 ∈ S)
    (hin : InBox insert p0) {p1 : Pt} (hp1 : p1 ∈ S) (hin1 : InBox draw p1) (hout1 : ¬ InBox insert p1)
    (hcov : ∀ p ∈ S, InBox draw p → inPaths c.geo p = true) : matchCoast lib insert draw cs ≠ .ok (some ms) := by
  intro h
  induction cs generalizing ms with
  | nil => cases hc
  | cons d cs ih =>
    unfold matchCoast at h
    rcases List.mem_cons.1 hc with rfl | hc
    · split at h
      · rename_i ht
        exact absurd (hb p0 hp0 (hcov p0 hp0 (hid _ hin))) (touches_false (by simpa using ht) hin)
      · split at h
        · rename_i hw
          obtain ⟨b1, b2, b3, b4⟩ := hb p1 hp1 (hcov p1 hp1 hin1)
          simp only [boxWithin, Bool.and_eq_true, decide_eq_true_eq] at hw
          obtain ⟨⟨⟨w1, w2⟩, w3⟩, w4⟩ := hw
          apply hout1
          refine ⟨le_trans ?_ b1, le_trans b2 ?_, le_trans ?_ b3, le_trans b4 ?_⟩ <;> exact_mod_cast (by assumption)
        · obtain ⟨g, hg, h⟩ := Res.bind_eq_ok.1 h
          have hfull := hfill _ _ _ hg ⟨p0, hp0, hid _ hin⟩ hcov
          split at h
          · rename_i he
            have he' : g = [] := by simpa using he
            subst he'
            cases hfull
          · cases h
    · have sub : ∀ r : Option (List Coast), matchCoast lib insert draw cs = .ok r → ∀ d', r.map (d' :: ·) = some ms → False := by
        intro r hr d' h
        rw [Option.map_eq_some_iff] at h
        obtain ⟨ms', rfl, rfl⟩ := h
        exact ih hc hr
      split at h
      · exact ih hc h
      · split at h
        · obtain ⟨r, hr, h⟩ := Res.bind_eq_ok.1 h
          injection h with h
          exact sub r hr _ h
        · obtain ⟨g, hg, h⟩ := Res.bind_eq_ok.1 h
          split at h
          · exact ih hc h
          · split at h
            · cases h
            · obtain ⟨r, hr, h⟩ := Res.bind_eq_ok.1 h
              injection h with h
              exact sub r hr _ h

theorem matchCoast_total {lib : CoastLib} (hw : Works lib) (insert draw : Box) (cs : List Coast) :
    ∃ m, matchCoast lib insert draw cs = .ok m := by
  induction cs with
  | nil => exact ⟨_, rfl⟩
  | cons c cs ih =>
    obtain ⟨m, hm⟩ := ih
    obtain ⟨g, hg⟩ := hw.inter c.geo draw
    unfold matchCoast
    rw [hm, hg]
    split
    · exact ⟨_, rfl⟩
    · split
      · exact ⟨_, rfl⟩
      · rw [Res.ok_bind]
        split
        · exact ⟨_, rfl⟩
        · split <;> exact ⟨_, rfl⟩

theorem finalizeTile_total {lib : CoastLib} (hw : Works lib) {S : Set Pt} (hx : ExactAt lib S) {n : Pt → Nat} {k : UInt64} {draw insert : Box}
    {ms : List Coast} (hm : ∀ p ∈ S, coastCount ms p ≤ n p) {p : Pt} (hp : p ∈ S) (hin : InBox draw p) (h0 : n p = 0) :
    ∃ f, finalizeTile lib k draw insert ms = .ok f := by
  have hd := hx.diff draw (ms.map (·.geo)) p hp
  have hc : coastCount ms p = 0 := by have := hm p hp; omega
  rw [decide_eq_true hin, inSets_count, hc] at hd
  simp only [Nat.zero_mod, Nat.zero_ne_one, decide_false, Bool.not_false, Bool.and_self] at hd
  have hne : (lib.diff draw (ms.map (·.geo))).length ≠ 0 := by
    intro h
    rw [List.length_eq_zero_iff.1 h] at hd; cases hd
  obtain ⟨i, hi⟩ := hw.inter (treePaths (lib.diff draw (ms.map (·.geo)))) insert
  obtain ⟨ps, hps⟩ := hw.tree draw (ms.map (·.geo))
  have ha := toFixedPolygon_area p _ [] ps hps
  have hps' : ps ≠ [] := by
    rintro rfl
    rw [hd] at ha; cases ha
  have hcr := hw.correct ps hps'
  unfold finalizeTile
  dsimp only
  rw [decide_eq_true hne, verify_true, Res.ok_bind, hi, Res.ok_bind]
  split
  · exact ⟨_, rfl⟩
  · rw [hps, Res.ok_bind]
    have : (lib.correct ps).isEmpty = false := by simpa using hcr
    simp [serializeFeature, serializeGeometry, serElements, this, Res.pure_eq, Res.ok_bind]

theorem coast_tileSpec_ok {t : Tile} (hz : t.z ≤ 20) (hv : t.Valid) :
    tileSpec t = .ok ⟨t, pxBounds t, insertBounds t, drawBounds t⟩ := by
  unfold tileSpec
  rw [decide_eq_true (show t.z ≤ kMaxZoomLevel from hz), verify_true, Res.ok_bind, decide_eq_true hv.1, decide_eq_true hv.2]
  rfl

/-- a point without land in the tile or its margin, or one coastline that covers both -/
def Settled (n : Pt → Nat) (S : Set Pt) (cs : List Coast) (t : Tile) : Prop :=
  (∃ p ∈ S, InBox (drawBounds t) p ∧ n p = 0) ∨ ∃ c ∈ cs, ∀ p ∈ S, InBox (drawBounds t) p → inPaths c.geo p = true

theorem coastTask_total {lib : CoastLib} (hw : Works lib) {S : Set Pt} (hx : ExactAt lib S) (hfill : Fills lib S) (hS : Dense S) {n : Pt → Nat}
    (d : Nat) (t : Tile) (cs : List Coast) (hz : t.z + (d + 1) = 10) (hv : t.Valid) (hc : AreaInv n S (insertBounds t) cs)
    (hsee : ∀ t' : Tile, t'.z = 10 → t'.Valid → AncOrSelf t t' → Settled n S cs t') :
    ∃ w, coastTask lib (d + 1) t cs = .ok w := by
  induction d generalizing t cs with
  | zero =>
    have key : ∀ i, ∃ es, coastChild lib (coastTask lib 0) (t.child i) cs = .ok es := by
      intro i
      have hzc : (t.child i).z = 10 := by show t.z + 1 = 10; omega
      have hvc : (t.child i).Valid := valid_below (ancOrSelf_child t i) hv
      unfold coastChild
      rw [coast_tileSpec_ok (by omega) hvc, Res.ok_bind]
      obtain ⟨m, hm⟩ := matchCoast_total hw (insertBounds (t.child i)) (drawBounds (t.child i)) cs
      obtain ⟨_, a2⟩ := matchCoast_area hx _ _ (fun p => insert_in_draw) cs hc.box m hm
      rw [hm, Res.ok_bind]
      match m, a2, hm with
      | none, _, _ => exact ⟨_, rfl⟩
      | some [], _, _ => exact ⟨_, rfl⟩
      | some (c :: ms), a2, hm =>
        dsimp only
        rw [if_neg (by omega)]
        have hx1 := hvc.1
        have hx2 := hvc.2
        rw [hzc] at hx1 hx2
        obtain ⟨k, hk, _⟩ := keyOfTile_ok (t := t.child i) ⟨by omega, by omega, by omega⟩
        rcases hsee (t.child i) hzc hvc (ancOrSelf_child t i) with ⟨p, hp, hin, h0⟩ | ⟨c0, hc0, hcov⟩
        · obtain ⟨f, hf⟩ := finalizeTile_total hw hx (k := k) (insert := insertBounds (t.child i))
            (fun p hp => le_trans ((a2 _ rfl).2.1 p hp) (hc.le p hp)) hp hin h0
          rw [hk, Res.ok_bind, hf, Res.ok_bind]
          cases f <;> exact ⟨_, rfl⟩
        · obtain ⟨⟨p0, s1, s2⟩, p1, s3, s4, s5⟩ := hS _ hvc (by omega)
          exact absurd hm (matchCoast_covered hx hfill (fun p => insert_in_draw) hc0 (hc.box c0 hc0) s1 s2 s3 s4 s5 hcov)
    obtain ⟨e0, h0⟩ := key 0
    obtain ⟨e1, h1⟩ := key 1
    obtain ⟨e2, h2⟩ := key 2
    obtain ⟨e3, h3⟩ := key 3
    exact ⟨_, by unfold coastTask; rw [h0, Res.ok_bind, h1, Res.ok_bind, h2, Res.ok_bind, h3, Res.ok_bind]; rfl⟩
  | succ d ih =>
    have key : ∀ i, ∃ es, coastChild lib (coastTask lib (d + 1)) (t.child i) cs = .ok es := by
      intro i
      have hzc : (t.child i).z = t.z + 1 := rfl
      have hvc : (t.child i).Valid := valid_below (ancOrSelf_child t i) hv
      unfold coastChild
      rw [coast_tileSpec_ok (by omega) hvc, Res.ok_bind]
      obtain ⟨m, hm⟩ := matchCoast_total hw (insertBounds (t.child i)) (drawBounds (t.child i)) cs
      obtain ⟨_, a2⟩ := matchCoast_area hx _ _ (fun p => insert_in_draw) cs hc.box m hm
      rw [hm, Res.ok_bind]
      match m, a2, hm with
      | none, _, _ => exact ⟨_, rfl⟩
      | some [], _, _ => exact ⟨_, rfl⟩
      | some (c :: ms), a2, hm =>
        dsimp only
        rw [if_pos (by omega)]
        obtain ⟨b1, b2, b3⟩ := a2 _ rfl
        obtain ⟨w, hw'⟩ := ih (t.child i) (c :: ms) (by omega) hvc ⟨b1, fun p hp => le_trans (b2 p hp) (hc.le p hp),
          fun p hp hin => by rw [b3 p hp hin, hc.eq p hp (insert_child (by omega) i hin)]⟩ (by
          intro t' hz' hv' ha'
          rcases hsee t' hz' hv' (ancOrSelf_trans (ancOrSelf_child t i) ha') with h | ⟨c0, hc0, hcov⟩
          · exact .inl h
          · obtain ⟨⟨p0, s1, s2⟩, _⟩ := hS t' hv' (by omega)
            obtain ⟨c', h1, h2⟩ := matchCoast_keeps hx (fun p => insert_in_draw) hm hc0 (hc.box c0 hc0) s1 (coast_insert_anc ha' (by omega) s2)
              (hcov p0 s1 (insert_in_draw s2))
            exact .inr ⟨c', h1, fun p hp hd => by rw [h2 p hp (coast_draw_anc ha' (by omega) hd), hcov p hp hd]⟩)
        exact ⟨_, by rw [hw', Res.ok_bind]; rfl⟩
    obtain ⟨e0, h0⟩ := key 0
    obtain ⟨e1, h1⟩ := key 1
    obtain ⟨e2, h2⟩ := key 2
    obtain ⟨e3, h3⟩ := key 3
    exact ⟨_, by unfold coastTask; rw [h0, Res.ok_bind, h1, Res.ok_bind, h2, Res.ok_bind, h3, Res.ok_bind]; rfl⟩

theorem coastTasks_total {lib : CoastLib} (hw : Works lib) {S : Set Pt} (hx : ExactAt lib S) (hfill : Fills lib S) (hS : Dense S) {n : Pt → Nat}
    (cs : List Coast) (hsee : ∀ t : Tile, t.z = 10 → t.Valid → Settled n S cs t)
    (hc : ∀ b, AreaInv n S b cs) (tiles : List Tile) (hz : ∀ t ∈ tiles, t.z < 10 ∧ t.Valid) :
    ∃ ws, coastTasks lib cs tiles = .ok ws := by
  induction tiles with
  | nil => exact ⟨_, rfl⟩
  | cons t ts ih =>
    obtain ⟨ws, hws⟩ := ih fun t ht => hz t (.tail _ ht)
    obtain ⟨h1, h2⟩ := hz t (.head _)
    obtain ⟨w, hw'⟩ := coastTask_total hw hx hfill hS (10 - t.z - 1) t cs (by omega) h2 (hc _) (fun t' a b _ => hsee t' a b)
    rw [show 10 - t.z - 1 + 1 = 10 - t.z by omega] at hw'
    exact ⟨_, by unfold coastTasks; rw [hw', Res.ok_bind, hws, Res.ok_bind]; rfl⟩

/-! ### a polygon library that works cell by cell, exact at the centres of the cells -/

/-- a unit square -/
def cellPath (c : Int × Int) : Line := boxToPath ⟨⟨c.1, c.2⟩, ⟨c.1 + 1, c.2 + 1⟩⟩

def cellCentre (c : Int × Int) : Pt := (c.1 + 1 / 2, c.2 + 1 / 2)

/-- the unit squares in a box -/
def cellsOf (b : Box) : List (Int × Int) :=
  (List.range (b.max.x - b.min.x).toNat).flatMap fun (i : Nat) =>
    (List.range (b.max.y - b.min.y).toNat).map fun (j : Nat) => (b.min.x + (i : Int), b.min.y + (j : Int))

def centres : Set Pt := {p | ∃ c, p = cellCentre c}

def rasterLib : CoastLib where
  inter g b := .ok (if cellsOf b ≠ [] ∧ (cellsOf b).all (fun c => inPaths g (cellCentre c)) then [boxToPath b]
    else ((cellsOf b).filter (fun c => inPaths g (cellCentre c))).map cellPath)
  diff b gs := ((cellsOf b).filter (fun c => !inSets gs (cellCentre c))).map (fun c => .mk (cellPath c) false [])
  correct := id
  mask _ := []

theorem half_lt {a b : Int} : ((a : ℚ) > (b : ℚ) + 1 / 2) ↔ b < a := by
  constructor
  · intro h
    have : (b : ℚ) < a := by linarith
    exact_mod_cast this
  · intro h
    have : (b : ℚ) + 1 ≤ a := by exact_mod_cast h
    linarith

theorem half_le {a b : Int} : ((a : ℚ) ≤ (b : ℚ) + 1 / 2) ↔ a ≤ b := by
  rw [← not_lt, ← gt_iff_lt, half_lt]; omega

theorem half_le' {a b : Int} : ((b : ℚ) + 1 / 2 ≤ a) ↔ b < a := by
  constructor
  · intro h
    have : (b : ℚ) < a := by linarith
    exact_mod_cast this
  · intro h
    have : (b : ℚ) + 1 ≤ a := by exact_mod_cast h
    linarith

theorem crosses_flat (p : Pt) (x x' y : Int) : crosses p ⟨x, y⟩ ⟨x', y⟩ = false := by simp [crosses]

theorem crosses_vert (i j x y y' : Int) :
    crosses (cellCentre (i, j)) ⟨x, y⟩ ⟨x, y'⟩ = ((decide (j < y) != decide (j < y')) && decide (i < x)) := by
  have e : ∀ u v : ℚ, (x : ℚ) + u * ((x : ℚ) - x) / v = x := by intro u v; ring
  unfold crosses cellCentre
  dsimp only
  rw [e]
  simp only [half_lt]

theorem inRing_cell (c d : Int × Int) : inRing (cellPath c) (cellCentre d) = decide (d = c) := by
  obtain ⟨i, j⟩ := c
  obtain ⟨i', j'⟩ := d
  show xor (crosses _ _ _) (xor (crosses _ _ _) (xor (crosses _ _ _) (crosses _ _ _))) = _
  rw [crosses_flat, crosses_flat, crosses_vert, crosses_vert, Bool.eq_iff_iff, decide_eq_true_eq, Prod.mk.injEq]
  by_cases h1 : j' < j <;> by_cases h2 : j' < j + 1 <;> by_cases h3 : i' < i <;> by_cases h4 : i' < i + 1 <;>
    simp only [h1, h2, h3, h4, decide_true, decide_false] <;> simp <;> omega

theorem inPaths_cells {cs : List (Int × Int)} (hn : cs.Nodup) (d : Int × Int) :
    inPaths (cs.map cellPath) (cellCentre d) = decide (d ∈ cs) := by
  induction cs with
  | nil => rfl
  | cons c cs ih =>
    rw [List.nodup_cons] at hn
    rw [List.map_cons, inPaths_cons, inRing_cell, ih hn.2]
    by_cases h : d = c
    · subst h; simp [hn.1]
    · simp [h]

theorem mem_cellsOf {b : Box} {c : Int × Int} : c ∈ cellsOf b ↔ InBox b (cellCentre c) := by
  obtain ⟨i, j⟩ := c
  simp only [cellsOf, List.mem_flatMap, List.mem_range, List.mem_map, Prod.mk.injEq, InBox, cellCentre, half_le, half_le']
  constructor
  · rintro ⟨a, ha, b', hb, rfl, rfl⟩; omega
  · rintro ⟨h1, h2, h3, h4⟩
    exact ⟨(i - b.min.x).toNat, by omega, (j - b.min.y).toNat, by omega, by omega, by omega⟩

theorem cellsOf_nodup (b : Box) : (cellsOf b).Nodup := by
  unfold cellsOf
  rw [List.nodup_flatMap]
  refine ⟨fun y _ => ?_, ?_⟩
  · exact List.Nodup.map (fun a b h => by injection h; omega) List.nodup_range
  · refine List.Pairwise.imp ?_ List.nodup_range
    intro a b hab
    simp only [List.disjoint_left, List.mem_map]
    rintro t ⟨x, _, rfl⟩ ⟨x', _, h⟩
    injection h with h; omega

theorem treePaths_cells (cs : List (Int × Int)) : treePaths (cs.map (fun c => .mk (cellPath c) false [])) = cs.map cellPath := by
  induction cs with
  | nil => rfl
  | cons c cs ih =>
    rw [List.map_cons, List.map_cons, treePaths, ih]
    rfl

theorem inRing_boxPath (b : Box) (h1 : b.min.x ≤ b.max.x) (h2 : b.min.y ≤ b.max.y) (d : Int × Int) :
    inRing (boxToPath b) (cellCentre d) = decide (InBox b (cellCentre d)) := by
  obtain ⟨⟨x0, y0⟩, ⟨x1, y1⟩⟩ := b
  obtain ⟨i, j⟩ := d
  show xor (crosses _ _ _) (xor (crosses _ _ _) (xor (crosses _ _ _) (crosses _ _ _))) = _
  dsimp only at h1 h2 ⊢
  rw [crosses_flat, crosses_flat, crosses_vert, crosses_vert, Bool.eq_iff_iff, decide_eq_true_eq]
  simp only [InBox, cellCentre, half_le, half_le']
  by_cases a1 : j < y0 <;> by_cases a2 : j < y1 <;> by_cases a3 : i < x0 <;> by_cases a4 : i < x1 <;>
    simp only [a1, a2, a3, a4, decide_true, decide_false] <;> simp <;> omega

theorem cellsOf_ne {b : Box} (h : cellsOf b ≠ []) : b.min.x ≤ b.max.x ∧ b.min.y ≤ b.max.y := by
  obtain ⟨c, hc⟩ := List.exists_mem_of_ne_nil _ h
  rw [mem_cellsOf] at hc
  obtain ⟨i, j⟩ := c
  simp only [InBox, cellCentre, half_le, half_le'] at hc
  omega

/-- a library with the assumed properties exists -/
theorem rasterLib_exact : ExactAt rasterLib centres := by
  refine ⟨?_, ?_, ?_, fun ps p _ => rfl⟩
  · rintro g b r h p ⟨c, rfl⟩
    injection h with h; subst h
    split
    · rename_i hall
      obtain ⟨e1, e2⟩ := cellsOf_ne hall.1
      show xor (inRing (boxToPath b) (cellCentre c)) false = _
      rw [Bool.xor_false, inRing_boxPath b e1 e2]
      by_cases hin : InBox b (cellCentre c)
      · rw [decide_eq_true hin, Bool.and_true, (List.all_eq_true.1 hall.2) c (mem_cellsOf.2 hin)]
      · rw [decide_eq_false hin, Bool.and_false]
    rw [inPaths_cells ((cellsOf_nodup b).filter _), Bool.eq_iff_iff, decide_eq_true_eq, List.mem_filter, mem_cellsOf]
    simp [and_comm]
  · rintro g b r h hf p ⟨c, rfl⟩ hin
    injection h with h; subst h
    split at hf
    · rename_i hall
      obtain ⟨e1, e2⟩ := cellsOf_ne hall.1
      rw [if_pos hall]
      show xor (inRing (boxToPath b) (cellCentre c)) false = _
      rw [Bool.xor_false, inRing_boxPath b e1 e2, decide_eq_true hin]
    rename_i hall
    rw [if_neg hall]
    clear hall
    have hnd := (cellsOf_nodup b).filter (fun c => inPaths g (cellCentre c))
    generalize hcs : (cellsOf b).filter (fun c => inPaths g (cellCentre c)) = cs at *
    match cs, hf with
    | [], hf => simp [isFull] at hf
    | _ :: _ :: _, hf => simp [isFull] at hf
    | [d], hf =>
      obtain ⟨i, j⟩ := d
      have hd : (i, j) ∈ cellsOf b := by
        have : (i, j) ∈ (cellsOf b).filter (fun c => inPaths g (cellCentre c)) := by rw [hcs]; simp
        exact (List.mem_filter.1 this).1
      rw [mem_cellsOf] at hd
      obtain ⟨bi, bj⟩ := b
      obtain ⟨x0, y0⟩ := bi
      obtain ⟨x1, y1⟩ := bj
      obtain ⟨i', j'⟩ := c
      rw [inPaths_cells hnd]
      simp only [InBox, cellCentre, half_le, half_le'] at hd hin
      have hall : ∀ q ∈ cellPath (i, j), q ∈ boxToPath ⟨⟨x0, y0⟩, ⟨x1, y1⟩⟩ := by
        simp only [isFull, List.map_cons, List.map_nil, Bool.and_eq_true, List.all_eq_true, decide_eq_true_eq] at hf
        exact hf.2
      have h1 := hall ⟨i, j⟩ (by simp [cellPath, boxToPath])
      have h3 := hall ⟨i + 1, j + 1⟩ (by simp [cellPath, boxToPath])
      simp only [boxToPath, List.mem_cons, XY.mk.injEq, List.not_mem_nil, or_false] at h1 h3
      simp only [List.mem_singleton, Prod.mk.injEq, decide_eq_true_eq]
      omega
  · rintro b gs p ⟨c, rfl⟩
    show inPaths (treePaths (((cellsOf b).filter (fun c => !inSets gs (cellCentre c))).map (fun c => .mk (cellPath c) false []))) _ = _
    rw [treePaths_cells, inPaths_cells ((cellsOf_nodup b).filter _), Bool.eq_iff_iff, decide_eq_true_eq, List.mem_filter, mem_cellsOf]
    simp

theorem rasterLib_works : Works rasterLib := by
  refine ⟨fun g b => ⟨_, rfl⟩, fun b gs => ?_, fun ps h => h⟩
  show ∃ ps, toFixedPolygon [] (((cellsOf b).filter (fun c => !inSets gs (cellCentre c))).map (fun c => .mk (cellPath c) false [])) = _
  generalize (cellsOf b).filter (fun c => !inSets gs (cellCentre c)) = cs
  generalize ([] : List Polygon) = acc
  induction cs generalizing acc with
  | nil => exact ⟨acc, by simp [toFixedPolygon]⟩
  | cons c cs ih =>
    obtain ⟨ps, h⟩ := ih (acc ++ [⟨cellPath c ++ [⟨c.1, c.2⟩], []⟩])
    refine ⟨ps, ?_⟩
    rw [List.map_cons, toFixedPolygon, ← h]
    simp only [Bool.not_false, verify_true, Res.ok_bind, toFixedInners]
    rfl

theorem rasterLib_fills : Fills rasterLib centres := by
  rintro g b r h ⟨p, ⟨c, rfl⟩, hin⟩ hcov
  injection h with h; subst h
  rw [if_pos ⟨List.ne_nil_of_mem (mem_cellsOf.2 hin), List.all_eq_true.2 (fun c hc => hcov _ ⟨c, rfl⟩ (mem_cellsOf.1 hc))⟩]
  simp [isFull, boxToPath]

theorem centres_dense : Dense centres := by
  intro t hv hz
  have hk : (1 : Int) ≤ 2 ^ (20 - t.z) := by exact_mod_cast Nat.one_le_two_pow
  refine ⟨⟨cellCentre ((t.x : Int) * 4096 * 2 ^ (20 - t.z), (t.y : Int) * 4096 * 2 ^ (20 - t.z)), ⟨_, rfl⟩, ?_⟩,
    cellCentre ((t.x : Int) * 4096 * 2 ^ (20 - t.z) - 1, (t.y : Int) * 4096 * 2 ^ (20 - t.z)), ⟨_, rfl⟩, ?_, ?_⟩
  · simp only [InBox, cellCentre, half_le, half_le', insertBounds, pxBounds]
    refine ⟨le_refl _, by nlinarith, le_refl _, by nlinarith⟩
  · simp only [InBox, cellCentre, half_le, half_le', drawBounds, pxBounds, kOverdraw]
    refine ⟨by linarith, by nlinarith, by linarith, by nlinarith⟩
  · simp only [InBox, cellCentre, half_le, half_le', insertBounds, pxBounds]
    rintro ⟨h, _⟩
    linarith

end Tiles
