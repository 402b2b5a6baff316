import Verif.Proof.CoastTotal
import Verif.Proof.CoastEnd
import Verif.Props.C08
/-! C34 — the coastline loader divides the map into land, sea and tiles with coast.

`coastTasks lib (polys.map coastOf) (tilesOfZoom 4)` are the tasks for the polygons `polys`, `coastInit ws workers` the start of the threads;
`.cExit ∈ s.2` says that the loop of the main thread has ended.  Then `s.1.log` is what was done to the shared variables and `s.1.q.handled`
are the features handed to the database. -/
namespace Tiles
open Spec

/-! ### helpers -/

theorem leaves_eq (es : List CoastEv) : leaves es = es.filterMap (fun e => match e with
    | .land t => some t | .sea t => some t | .db t _ => some t | .tick _ => none) := by
  induction es with
  | nil => rfl
  | cons e es ih => cases e <;> simp [leaves, ih]

theorem leaves_perm {a b : List CoastEv} (h : a.Perm b) : (leaves a).Perm (leaves b) := by
  rw [leaves_eq, leaves_eq]; exact h.filterMap _

theorem coastProgress_perm {a b : List CoastEv} (h : a.Perm b) : coastProgress a = coastProgress b :=
  (h.map _).sum_nat

theorem seaTiles_sublist (es : List CoastEv) : (seaTiles es).Sublist (leaves es) := by
  induction es with
  | nil => exact .slnil
  | cons e es ih => cases e <;> simp only [seaTiles, leaves, List.filterMap_cons] <;> first | exact ih | exact ih.cons₂ _ | exact ih.cons _

theorem mem_seaTiles {es : List CoastEv} {t : Tile} : t ∈ seaTiles es ↔ .sea t ∈ es := by
  simp only [seaTiles, List.mem_filterMap]
  constructor
  · rintro ⟨e, he, h⟩; cases e <;> simp at h; subst h; exact he
  · intro h; exact ⟨_, h, rfl⟩

theorem mem_leaves {es : List CoastEv} {t : Tile} : t ∈ leaves es ↔ .land t ∈ es ∨ .sea t ∈ es ∨ ∃ b, .db t b ∈ es := by
  rw [leaves_eq, List.mem_filterMap]
  constructor
  · rintro ⟨e, he, h⟩
    cases e <;> simp at h <;> subst h
    · exact .inl he
    · exact .inr (.inl he)
    · exact .inr (.inr ⟨_, he⟩)
  · rintro (h | h | ⟨b, h⟩) <;> exact ⟨_, h, rfl⟩

theorem insert_anc {t q : Tile} (h : AncOrSelf t q) (hz : q.z ≤ 20) {p : Pt} (hp : InBox (insertBounds q) p) : InBox (insertBounds t) p := by
  obtain ⟨n, hn⟩ : ∃ n, q.z - t.z = n := ⟨_, rfl⟩
  induction n generalizing t with
  | zero =>
    have := ancOrSelf_same_z h (by have := h.1; omega)
    subst this; exact hp
  | succ n ih =>
    obtain ⟨i, _, hi⟩ := ancOrSelf_child_of_lt h (by omega)
    have hzc : (t.child i).z = t.z + 1 := rfl
    exact insert_child (by omega) i (ih hi (by omega))

theorem pairwise_of_once {ts : List Tile} (hz : ∀ t ∈ ts, t.Valid ∧ t.z ≤ 10)
    (h : ∀ q : Tile, q.Valid → 10 ≤ q.z → timesCovered ts q = 1) : ts.Pairwise (fun a b => ¬ Meet a b) := by
  rw [List.pairwise_iff_forall_sublist]
  intro a b hs hm
  have ha := hs.subset (by simp : a ∈ [a, b])
  have hb := hs.subset (by simp : b ∈ [a, b])
  have two : ∀ q : Tile, q.Valid → 10 ≤ q.z → AncOrSelf a q → AncOrSelf b q → False := by
    intro q hv hz h1 h2
    have := hs.countP_le (p := fun t => decide (AncOrSelf t q))
    have e := h q hv hz
    unfold timesCovered at e
    simp [h1, h2] at this
    omega
  have deep : ∀ t : Tile, t.Valid → t.z ≤ 10 → ∃ q : Tile, q.Valid ∧ q.z = 10 ∧ AncOrSelf t q := by
    intro t hv hz
    have ha : AncOrSelf t ⟨t.x * 2 ^ (10 - t.z), t.y * 2 ^ (10 - t.z), 10⟩ :=
      ⟨hz, (Nat.mul_div_cancel _ (Nat.two_pow_pos _)).symm, (Nat.mul_div_cancel _ (Nat.two_pow_pos _)).symm⟩
    exact ⟨_, valid_below ha hv, rfl, ha⟩
  rcases hm with hm | hm
  · obtain ⟨q, h1, h2, h3⟩ := deep b (hz b hb).1 (hz b hb).2
    exact two q h1 (by omega) (ancOrSelf_trans hm h3) h3
  · obtain ⟨q, h1, h2, h3⟩ := deep a (hz a ha).1 (hz a ha).2
    exact two q h1 (by omega) h3 (ancOrSelf_trans hm h3)

theorem zoom4_z {t : Tile} (h : t ∈ tilesOfZoom 4) : t.z ≤ 10 := by rw [(mem_tilesOfZoom.1 h).1]; omega

theorem zoom4_total : ((tilesOfZoom 4).map (fun t => 4 ^ (10 - t.z))).sum = 2 ^ 20 := by
  have : (tilesOfZoom 4).map (fun t => 4 ^ (10 - t.z)) = (tilesOfZoom 4).map (fun _ => 4 ^ 6) := by
    refine List.map_congr_left fun t ht => ?_
    rw [(mem_tilesOfZoom.1 ht).1]
  rw [this, List.map_const', List.sum_replicate_nat, length_tilesOfZoom]; rfl

/-! ### the theorems -/

/-- When the loader has ended: every tile of zoom level 10 or more lies in exactly one decided tile (land, sea or with a feature); the
decided tiles are tiles of the map of levels 5 to 10, no two of them overlap, those with a feature are of level 10; the features were all
handed to the database and nothing else was; no task and no feature is left in the queues; the progress bar is at its maximum. -/
theorem C34_partition (lib : CoastLib) (polys : List Polygon) (ws : List (WTask CoastEv)) (workers : Nat)
    (hw : coastTasks lib (polys.map coastOf) (tilesOfZoom 4) = .ok ws)
    (s : CoastShared × List (DrainPc CoastEv)) (hr : Reach CoastStep (coastInit ws workers) s) (he : .cExit ∈ s.2) :
    (∀ q : Tile, q.Valid → 10 ≤ q.z → timesCovered (leaves (s.1.log ++ s.1.q.handled)) q = 1) ∧
    (∀ t ∈ leaves (s.1.log ++ s.1.q.handled), t.Valid ∧ 5 ≤ t.z ∧ t.z ≤ 10) ∧
    (leaves (s.1.log ++ s.1.q.handled)).Pairwise (fun a b => ¬ Meet a b) ∧
    (∀ e ∈ s.1.q.handled, ∃ t b, e = .db t b ∧ t.z = 10) ∧ (∀ e ∈ s.1.log, ∀ t b, e ≠ .db t b) ∧
    s.1.q.work.items = [] ∧ s.1.q.result.items = [] ∧ coastProgress s.1.log = 2 ^ 20 := by
  obtain ⟨hp, h1, h2, hlog, hhan⟩ := coast_end hr he
  obtain ⟨c1, c2, c3, c4, c5⟩ := coastTasks_all lib _ _ (fun t => zoom4_z) ws hw
  have hl := leaves_perm hp
  have once : ∀ q : Tile, q.Valid → 10 ≤ q.z → timesCovered (leaves (s.1.log ++ s.1.q.handled)) q = 1 := by
    intro q hv hz
    unfold timesCovered
    rw [hl.countP_eq]
    exact (c2 q hz).trans (tilesOfZoom_covers hv (by omega))
  have lv : ∀ t ∈ leaves (s.1.log ++ s.1.q.handled), t.Valid ∧ 5 ≤ t.z ∧ t.z ≤ 10 := by
    intro t ht
    obtain ⟨⟨t', ht', ha, hlt⟩, hle⟩ := c1 t (hl.mem_iff.1 ht)
    obtain ⟨hz', hv'⟩ := mem_tilesOfZoom.1 ht'
    exact ⟨valid_below ha hv', by omega, hle⟩
  refine ⟨once, lv, pairwise_of_once (fun t ht => ⟨(lv t ht).1, (lv t ht).2.2⟩) once, ?_, ?_, h1, h2, ?_⟩
  · intro e hm
    have := hhan e hm
    match e, this with
    | .db t b, _ => exact ⟨t, b, rfl, c4 t b (hp.mem_iff.1 (List.mem_append.2 (.inr hm)))⟩
  · rintro e hm t b rfl
    have := hlog _ hm
    cases this
  · have e := coastProgress_perm hp
    rw [coastProgress_append, c3, zoom4_total] at e
    have h0 : coastProgress s.1.q.handled = 0 := by
      unfold coastProgress
      rw [List.sum_eq_zero_iff_forall_eq_nat]
      intro x hx
      obtain ⟨ev, hm, rfl⟩ := List.mem_map.1 hx
      have := hhan ev hm
      cases ev <;> first | rfl | cases this
    omega

/-- At every moment the progress bar is at most at its maximum. -/
theorem C34_progress_bounded (lib : CoastLib) (polys : List Polygon) (ws : List (WTask CoastEv)) (workers : Nat)
    (hw : coastTasks lib (polys.map coastOf) (tilesOfZoom 4) = .ok ws)
    (s : CoastShared × List (DrainPc CoastEv)) (hr : Reach CoastStep (coastInit ws workers) s) : coastProgress s.1.log ≤ 2 ^ 20 := by
  obtain ⟨_, _, c3, _, _⟩ := coastTasks_all lib _ _ (fun t => zoom4_z) ws hw
  have hc := (coastInv_reach hr).drain.cons
  have e := coastProgress_perm hc
  rw [c3, zoom4_total] at e
  simp only [coastDrain, coastProgress_append] at e
  omega

/-- Land is land and sea is sea: if the polygon library is right at the points `S` and the polygons do not overlap there, a tile counted as
land has only land, a sea tile has no land, and the polygon of a feature is exactly the sea of its tile. -/
theorem C34_true (lib : CoastLib) (polys : List Polygon) (S : Set Pt) (hx : ExactAt lib S) (hg : GoodInput polys S)
    (ws : List (WTask CoastEv)) (workers : Nat) (hw : coastTasks lib (polys.map coastOf) (tilesOfZoom 4) = .ok ws)
    (s : CoastShared × List (DrainPc CoastEv)) (hr : Reach CoastStep (coastInit ws workers) s) :
    ∀ e ∈ s.1.log ++ s.1.q.handled, Right lib (Land polys) S e := by
  intro e hm
  have hall := coastTasks_area hx hg.disjoint _ (coastOf_inv hg) _ (fun t => zoom4_z) ws hw
  have hc := (coastInv_reach hr).drain.cons
  refine right_congr (fun p hp => land_iff hg hp) (hall e (hc.mem_iff.1 ?_))
  simp only [coastDrain, List.mem_append] at hm ⊢
  tauto

/-- Building the tree of the sea tiles succeeds, it has at most 2^24 nodes, and asking it for a tile of level at most 23 tells whether the tile lies in a sea tile.  A
tile of level 10 or more that does not lie in one lies in a land tile or in a tile with a feature. -/
theorem C34_seaside_tree (lib : CoastLib) (polys : List Polygon) (ws : List (WTask CoastEv)) (workers : Nat)
    (hw : coastTasks lib (polys.map coastOf) (tilesOfZoom 4) = .ok ws)
    (s : CoastShared × List (DrainPc CoastEv)) (hr : Reach CoastStep (coastInit ws workers) s) (he : .cExit ∈ s.2) :
    ∃ nodes, makeBqTree (seaTiles s.1.log) = .ok nodes ∧ nodes.length ≤ 2 ^ 24 ∧ ∀ q : Tile, q.Valid → q.z ≤ 23 → ∃ b, bqContains nodes q = .ok b ∧
      (b = true ↔ ∃ t, .sea t ∈ s.1.log ∧ AncOrSelf t q) ∧
      (10 ≤ q.z → b = false → ∃ t, AncOrSelf t q ∧ (.land t ∈ s.1.log ∨ ∃ f, .db t f ∈ s.1.q.handled)) := by
  obtain ⟨p1, p2, p3, p4, p5, _, _, p8⟩ := C34_partition lib polys ws workers hw s hr he
  obtain ⟨_, _, _, _, c5⟩ := coastTasks_all lib _ _ (fun t => zoom4_z) ws hw
  obtain ⟨hp, _, _, hlog, hhan⟩ := coast_end hr he
  have hsub : (seaTiles s.1.log).Sublist (leaves (s.1.log ++ s.1.q.handled)) := by
    rw [leaves_append]; exact (seaTiles_sublist _).trans (List.sublist_append_left _ _)
  have hv : ∀ t ∈ seaTiles s.1.log, t.Valid := fun t ht => (p2 t (hsub.subset ht)).1
  have hz : ∀ t ∈ seaTiles s.1.log, t.z ≤ 10 := fun t ht => (p2 t (hsub.subset ht)).2.2
  have hz' : ∀ t ∈ seaTiles s.1.log, t.z < 2 ^ 32 := fun t ht => by have := hz t ht; omega
  have hlen : (seaTiles s.1.log).length ≤ 2 ^ 20 := by
    have h1 := hsub.length_le
    have h2 := (leaves_perm hp).length_eq
    have h3 := coastProgress_perm hp
    have h4 : coastProgress s.1.q.handled = 0 := by
      unfold coastProgress
      rw [List.sum_eq_zero_iff_forall_eq_nat]
      intro x hx
      obtain ⟨ev, hm, rfl⟩ := List.mem_map.1 hx
      have := hhan ev hm
      cases ev <;> first | rfl | cases this
    rw [coastProgress_append, p8, h4] at h3
    omega
  have hsum : ((seaTiles s.1.log).map (·.z)).sum ≤ (seaTiles s.1.log).length * 10 := by
    have : ∀ l : List Tile, (∀ t ∈ l, t.z ≤ 10) → (l.map (·.z)).sum ≤ l.length * 10 := by
      intro l hl
      induction l with
      | nil => simp
      | cons t l ih =>
        have h1 := hl t (.head _)
        have h2 := ih fun t ht => hl t (.tail _ ht)
        simp; omega
    exact this _ hz
  obtain ⟨nodes, hm, hl⟩ := C08_build_total _ hv hz'
  refine ⟨nodes, hm, by omega, fun q hq hqz => ⟨_, C08_contains_exact _ hv hz' nodes hm (by omega) q hq hqz, ?_, ?_⟩⟩
  · rw [decide_eq_true_eq]
    exact ⟨fun ⟨t, h1, h2⟩ => ⟨t, mem_seaTiles.1 h1, h2⟩, fun ⟨t, h1, h2⟩ => ⟨t, mem_seaTiles.2 h1, h2⟩⟩
  · intro h10 hb
    rw [decide_eq_false_iff_not] at hb
    have h1 := p1 q hq h10
    have : 0 < timesCovered (leaves (s.1.log ++ s.1.q.handled)) q := by omega
    obtain ⟨t, ht, ha⟩ := List.countP_pos_iff.1 this
    have ha := of_decide_eq_true ha
    refine ⟨t, ha, ?_⟩
    have land' : ∀ e ∈ s.1.log ++ s.1.q.handled, e.direct = true → e ∈ s.1.log := by
      intro e hm hd
      rcases List.mem_append.1 hm with h | h
      · exact h
      · rw [hhan e h] at hd; cases hd
    rcases mem_leaves.1 ht with h | h | ⟨b, h⟩
    · exact .inl (land' _ h rfl)
    · exact absurd ⟨t, mem_seaTiles.2 (land' _ h rfl), ha⟩ hb
    · refine .inr ⟨b, ?_⟩
      rcases List.mem_append.1 h with h | h
      · exact absurd rfl (p5 _ h t b)
      · exact h

/-- What the server takes for sea has no land: if the tree contains a tile of the map, no point of the tile is land. -/
theorem C34_seaside_is_sea (lib : CoastLib) (polys : List Polygon) (S : Set Pt) (hx : ExactAt lib S) (hg : GoodInput polys S)
    (ws : List (WTask CoastEv)) (workers : Nat) (hw : coastTasks lib (polys.map coastOf) (tilesOfZoom 4) = .ok ws)
    (s : CoastShared × List (DrainPc CoastEv)) (hr : Reach CoastStep (coastInit ws workers) s) (he : .cExit ∈ s.2)
    (nodes : List Nat) (hm : makeBqTree (seaTiles s.1.log) = .ok nodes) (q : Tile) (hq : q.Valid) (hz : q.z ≤ 20)
    (hc : bqContains nodes q = .ok true) : ∀ p ∈ S, InBox (insertBounds q) p → ¬ Land polys p := by
  obtain ⟨nodes', hm', _, hall⟩ := C34_seaside_tree lib polys ws workers hw s hr he
  rw [hm] at hm'; injection hm' with hm'; subst hm'
  obtain ⟨b, hb, h1, _⟩ := hall q hq (by omega)
  rw [hc] at hb; injection hb with hb; subst hb
  obtain ⟨t, ht, ha⟩ := h1.1 rfl
  have := C34_true lib polys S hx hg ws workers hw s hr _ (List.mem_append.2 (.inl ht))
  exact fun p hp hin => this p hp (insert_anc ha hz hin)

/-- With at least one worker the loader can always come to its end, whatever happened so far: there is no deadlock. -/
theorem C34_can_end (ws : List (WTask CoastEv)) (workers : Nat) (hn : 0 < workers) (s : CoastShared × List (DrainPc CoastEv))
    (hr : Reach CoastStep (coastInit ws workers) s) : ∃ t, Reach CoastStep s t ∧ .cExit ∈ t.2 :=
  coast_can_end hn _ s hr (Nat.le_refl _)

/-- finding: when `hardware_concurrency()` is 0 (the standard allows it), no worker is started and the main thread loops forever -/
theorem C34_no_workers_never_ends (ws : List (WTask CoastEv)) (hne : ws ≠ []) (s : CoastShared × List (DrainPc CoastEv))
    (hr : Reach CoastStep (coastInit ws 0) s) : .cExit ∉ s.2 := by
  have hp : s.1.q.work.pending = ws.length := by
    induction hr with
    | refl => rfl
    | step h st ih =>
      obtain ⟨⟨c, us, hs, hc, _, hl⟩, _⟩ := shapeInv_reach h
      obtain ⟨k, quit, s, s', a, b, p, p', hp⟩ := st
      have hu : us = [] := List.eq_nil_of_length_eq_zero hl
      subst hu
      match a, hs with
      | [], hs =>
        injection hs with e1 _; subst e1
        dsimp only at ih ⊢
        rw [← ih]
        match p, hc, hp with
        | .cFirst, _, hp =>
          simp only [coastStep, drainStep, if_true] at hp
          split at hp <;> (simp only [Option.map_some] at hp; injection hp with hp; injection hp with e1 _; subst e1; rfl)
        | .cSecond, _, hp =>
          simp only [coastStep, drainStep, if_true] at hp
          split at hp <;> (simp only [Option.map_some] at hp; injection hp with hp; injection hp with e1 _; subst e1; rfl)
        | .cDequeue, _, hp =>
          simp only [coastStep, drainStep] at hp
          split at hp <;> (simp only [Option.map_some] at hp; injection hp with hp; injection hp with e1 _; subst e1; rfl)
        | .cGot r, _, hp =>
          simp only [coastStep, drainStep, Option.map_some] at hp; injection hp with hp; injection hp with e1 _; subst e1; rfl
        | .cExit, _, hp => simp [coastStep, drainStep] at hp
      | x :: a, hs =>
        injection hs with _ e2
        simp at e2
  intro he
  have := (coastInv_reach hr).drain.exit1 he
  have h2 : s.1.q.work.pending = 0 := this
  have := List.length_pos_iff.2 hne
  omega

/-- The tasks never fail if the library works and every tile of level 10 either shows (within its margins) a point that is not land or is
covered, with its margins, by one of the land polygons. -/
theorem C34_no_failure (lib : CoastLib) (hlib : Works lib) (polys : List Polygon) (S : Set Pt) (hx : ExactAt lib S) (hfill : Fills lib S)
    (hS : Dense S) (hg : GoodInput polys S)
    (hsee : ∀ t : Tile, t.z = 10 → t.Valid → (∃ p ∈ S, InBox (drawBounds t) p ∧ ¬ Land polys p) ∨
      ∃ q ∈ polys, ∀ p ∈ S, InBox (drawBounds t) p → inPaths (q.outer :: q.inners) p = true) :
    ∃ ws, coastTasks lib (polys.map coastOf) (tilesOfZoom 4) = .ok ws := by
  refine coastTasks_total hlib hx hfill hS (n := fun p => polys.countP (fun q => inPaths (q.outer :: q.inners) p)) _ ?_ (coastOf_inv hg) _ ?_
  · intro t hz hv
    rcases hsee t hz hv with ⟨p, hp, hin, hl⟩ | ⟨q, hq, hcov⟩
    · have h1 := hg.disjoint p hp
      have h2 := land_iff hg hp
      exact .inl ⟨p, hp, hin, by by_contra h; exact hl (h2.1 (by dsimp only at h ⊢; omega))⟩
    · exact .inr ⟨coastOf q, List.mem_map_of_mem hq, hcov⟩
  · intro t ht
    obtain ⟨h1, h2⟩ := mem_tilesOfZoom.1 ht
    exact ⟨by omega, h2⟩

/-- finding: where several land polygons together cover a tile of level 10 with its margin the difference is empty, and the loader throws -/
theorem C34_joint_land_throws (lib : CoastLib) (id : UInt64) (draw insert : Box) (ms : List Coast)
    (h : lib.diff draw (ms.map (·.geo)) = []) : finalizeTile lib id draw insert ms = .throw_ := by
  unfold finalizeTile
  rw [h]; rfl

/-! ### the hypotheses are met -/

/-- a small island -/
def island : Polygon := ⟨[⟨0, 0⟩, ⟨0, 5⟩, ⟨5, 5⟩, ⟨5, 0⟩, ⟨0, 0⟩], []⟩

/-- there is a library with the assumed properties, an input, tasks, and an execution that ends; in it land exists -/
example : ExactAt rasterLib centres ∧ GoodInput [island] centres ∧ (∃ p ∈ centres, Land [island] p) ∧
    ∃ ws s, coastTasks rasterLib ([island].map coastOf) (tilesOfZoom 4) = .ok ws ∧ Reach CoastStep (coastInit ws 3) s ∧ .cExit ∈ s.2 := by
  have hg : GoodInput [island] centres := by
    refine ⟨?_, ?_, fun p _ => List.countP_le_length⟩
    · intro q hq i hi; rw [List.mem_singleton.1 hq] at hi; simp [island] at hi
    · intro q hq; rw [List.mem_singleton.1 hq]; simp [island]
  refine ⟨rasterLib_exact, hg, ⟨cellCentre (2, 2), ⟨_, rfl⟩, island, by simp, by decide +kernel⟩, ?_⟩
  obtain ⟨ws, hw⟩ := C34_no_failure rasterLib rasterLib_works [island] centres rasterLib_exact rasterLib_fills
      centres_dense hg (by
    intro t hz hv
    refine .inl ⟨cellCentre ((t.x : Int) * 4096 * 2 ^ 10 + 9, (t.y : Int) * 4096 * 2 ^ 10 + 9), ⟨_, rfl⟩, ?_, ?_⟩
    · simp only [InBox, cellCentre, half_le, half_le', drawBounds, pxBounds, hz, kOverdraw]
      omega
    · rintro ⟨q, hq, hin⟩
      rw [List.mem_singleton.1 hq] at hin
      have := hull_inBox (ps := island.outer) (l := island.outer) (fun a h => h) (by
        simpa [island, inPaths] using hin) ⟨⟨0, 0⟩, ⟨0, 0⟩⟩
      have hb : island.outer.foldl expandBox ⟨⟨0, 0⟩, ⟨0, 0⟩⟩ = ⟨⟨0, 0⟩, ⟨5, 5⟩⟩ := by decide
      rw [hb] at this
      simp only [InBox, cellCentre, half_le, half_le'] at this
      have hxx : (0 : Int) ≤ t.x := by omega
      omega)
  obtain ⟨s, h1, h2⟩ := C34_can_end ws 3 (by omega) _ .refl
  exact ⟨ws, s, hw, h1, h2⟩

/-- a continent: a quarter of the map -/
def continentBox : Box := ⟨⟨0, 0⟩, ⟨2 ^ 31, 2 ^ 31⟩⟩
def continent : Polygon := ⟨boxToPath continentBox, []⟩

theorem continent_land (c : Int × Int) : inPaths (continent.outer :: continent.inners) (cellCentre c) = decide (InBox continentBox (cellCentre c)) := by
  show xor (inRing (boxToPath continentBox) (cellCentre c)) false = _
  rw [Bool.xor_false, inRing_boxPath _ (by decide) (by decide)]

/-- the same for land that covers whole tiles -/
example : GoodInput [continent] centres ∧ (∃ t : Tile, t.z = 10 ∧ t.Valid ∧ ∀ p ∈ centres, InBox (drawBounds t) p → Land [continent] p) ∧
    ∃ ws s, coastTasks rasterLib ([continent].map coastOf) (tilesOfZoom 4) = .ok ws ∧ Reach CoastStep (coastInit ws 3) s ∧ .cExit ∈ s.2 := by
  have hg : GoodInput [continent] centres := by
    refine ⟨?_, ?_, fun p _ => List.countP_le_length⟩
    · intro q hq i hi; rw [List.mem_singleton.1 hq] at hi; simp [continent] at hi
    · intro q hq; rw [List.mem_singleton.1 hq]; simp [continent, boxToPath]
  have hland : ∀ c, Land [continent] (cellCentre c) ↔ InBox continentBox (cellCentre c) := by
    intro c
    simp only [Land, List.mem_singleton, exists_eq_left]
    rw [continent_land c, decide_eq_true_eq]
  refine ⟨hg, ⟨⟨5, 7, 10⟩, rfl, by decide, ?_⟩, ?_⟩
  · rintro p ⟨c, rfl⟩ hin
    rw [hland]
    simp only [InBox, cellCentre, half_le, half_le', drawBounds, pxBounds, kOverdraw, continentBox] at hin ⊢
    omega
  obtain ⟨ws, hw⟩ := C34_no_failure rasterLib rasterLib_works [continent] centres rasterLib_exact rasterLib_fills centres_dense hg (by
    intro t hz hv
    by_cases hc : 1 ≤ t.x ∧ t.x ≤ 510 ∧ 1 ≤ t.y ∧ t.y ≤ 510
    · refine .inr ⟨continent, by simp, ?_⟩
      rintro p ⟨c, rfl⟩ hin
      rw [continent_land, decide_eq_true_eq]
      simp only [InBox, cellCentre, half_le, half_le', drawBounds, pxBounds, hz, kOverdraw, continentBox] at hin ⊢
      omega
    · refine .inl ⟨cellCentre (if t.x = 0 then -1 else (t.x : Int) * 4096 * 2 ^ 10 + 4096 * 2 ^ 10 + 4095,
        if t.y = 0 then -1 else (t.y : Int) * 4096 * 2 ^ 10 + 4096 * 2 ^ 10 + 4095), ⟨_, rfl⟩, ?_, ?_⟩
      · simp only [InBox, cellCentre, half_le, half_le', drawBounds, pxBounds, hz, kOverdraw]
        split <;> split <;> omega
      · rw [hland]
        simp only [InBox, cellCentre, half_le, half_le', continentBox]
        split <;> split <;> omega)
  obtain ⟨s, h1, h2⟩ := C34_can_end ws 3 (by omega) _ .refl
  exact ⟨ws, s, hw, h1, h2⟩

end Tiles
