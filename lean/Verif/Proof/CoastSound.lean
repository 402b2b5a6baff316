import Verif.Proof.CoastArea
/-! C34: every event of the coastline loader says the truth. -/
namespace Tiles
open Spec

/-- the coastlines of a task: they have no more than the input anywhere, and what the input has in the box -/
structure AreaInv (n : Pt → Nat) (S : Set Pt) (b : Box) (cs : List Coast) : Prop where
  box : ∀ c ∈ cs, ∀ p ∈ S, inPaths c.geo p = true → InBox c.box p
  le : ∀ p ∈ S, coastCount cs p ≤ n p
  eq : ∀ p ∈ S, InBox b p → coastCount cs p = n p

theorem coastCount_cons (c : Coast) (cs : List Coast) (p : Pt) :
    coastCount (c :: cs) p = coastCount cs p + if inPaths c.geo p then 1 else 0 := List.countP_cons ..

theorem matchCoast_area {lib : CoastLib} {S : Set Pt} (hx : ExactAt lib S) (insert draw : Box)
    (hid : ∀ p, InBox insert p → InBox draw p) (cs : List Coast)
    (hb : ∀ c ∈ cs, ∀ p ∈ S, inPaths c.geo p = true → InBox c.box p) (m : Option (List Coast))
    (h : matchCoast lib insert draw cs = .ok m) :
    (m = none → ∀ p ∈ S, InBox draw p → 1 ≤ coastCount cs p) ∧
    (∀ ms, m = some ms → (∀ c ∈ ms, ∀ p ∈ S, inPaths c.geo p = true → InBox c.box p) ∧
      (∀ p ∈ S, coastCount ms p ≤ coastCount cs p) ∧ (∀ p ∈ S, InBox insert p → coastCount ms p = coastCount cs p)) := by
  induction cs generalizing m with
  | nil =>
    injection h with h; subst h
    refine ⟨by simp, ?_⟩
    rintro ms ⟨⟩
    exact ⟨by simp, by simp, by simp⟩
  | cons c cs ih =>
    have hb' : ∀ c ∈ cs, ∀ p ∈ S, inPaths c.geo p = true → InBox c.box p := fun c hc => hb c (.tail _ hc)
    have skip : ∀ m, matchCoast lib insert draw cs = .ok m → (∀ p ∈ S, InBox insert p → inPaths c.geo p = false) →
        (m = none → ∀ p ∈ S, InBox draw p → 1 ≤ coastCount (c :: cs) p) ∧
        (∀ ms, m = some ms → (∀ c ∈ ms, ∀ p ∈ S, inPaths c.geo p = true → InBox c.box p) ∧
          (∀ p ∈ S, coastCount ms p ≤ coastCount (c :: cs) p) ∧
          (∀ p ∈ S, InBox insert p → coastCount ms p = coastCount (c :: cs) p)) := by
      intro m hm hf
      obtain ⟨i1, i2⟩ := ih hb' m hm
      refine ⟨fun e p hp hd => ?_, fun ms e => ?_⟩
      · rw [coastCount_cons]; have := i1 e p hp hd; omega
      · obtain ⟨j1, j2, j3⟩ := i2 ms e
        refine ⟨j1, fun p hp => ?_, fun p hp hi => ?_⟩
        · rw [coastCount_cons]; have := j2 p hp; omega
        · rw [coastCount_cons, hf p hp hi, j3 p hp hi]; simp
    have keep : ∀ (m : Option (List Coast)) (c' : Coast), matchCoast lib insert draw cs = .ok m →
        (∀ p ∈ S, inPaths c'.geo p = true → InBox c'.box p) →
        (∀ p ∈ S, inPaths c'.geo p = true → inPaths c.geo p = true) →
        (∀ p ∈ S, InBox insert p → inPaths c'.geo p = inPaths c.geo p) →
        (m.map (c' :: ·) = none → ∀ p ∈ S, InBox draw p → 1 ≤ coastCount (c :: cs) p) ∧
        (∀ ms, m.map (c' :: ·) = some ms → (∀ c ∈ ms, ∀ p ∈ S, inPaths c.geo p = true → InBox c.box p) ∧
          (∀ p ∈ S, coastCount ms p ≤ coastCount (c :: cs) p) ∧
          (∀ p ∈ S, InBox insert p → coastCount ms p = coastCount (c :: cs) p)) := by
      intro m c' hm g1 g2 g3
      obtain ⟨i1, i2⟩ := ih hb' m hm
      refine ⟨fun e p hp hd => ?_, fun ms e => ?_⟩
      · rw [Option.map_eq_none_iff] at e
        rw [coastCount_cons]; have := i1 e p hp hd; omega
      · rw [Option.map_eq_some_iff] at e
        obtain ⟨ms', e, rfl⟩ := e
        obtain ⟨j1, j2, j3⟩ := i2 ms' e
        refine ⟨?_, fun p hp => ?_, fun p hp hi => ?_⟩
        · intro d hd p hp
          rcases List.mem_cons.1 hd with rfl | hd
          · exact g1 p hp
          · exact j1 d hd p hp
        · rw [coastCount_cons, coastCount_cons]
          have := j2 p hp
          cases hc : inPaths c'.geo p
          · simp; omega
          · rw [g2 p hp hc]; simp; omega
        · rw [coastCount_cons, coastCount_cons, g3 p hp hi, j3 p hp hi]
    unfold matchCoast at h
    split at h
    · rename_i ht
      have ht' : boxTouches insert c.box = false := by simpa using ht
      refine skip m h fun p hp hi => ?_
      cases hc : inPaths c.geo p
      · rfl
      · exact absurd (hb c (.head _) p hp hc) (touches_false ht' hi)
    · split at h
      · obtain ⟨r, hr, h⟩ := Res.bind_eq_ok.1 h
        injection h with h; subst h
        exact keep r c hr (hb c (.head _)) (fun p _ h => h) (fun p _ _ => rfl)
      · obtain ⟨g, hg, h⟩ := Res.bind_eq_ok.1 h
        have hi := hx.inter _ _ _ hg
        split at h
        · rename_i he
          have he' : g = [] := by simpa using he
          subst he'
          refine skip m h fun p hp hin => ?_
          have := hi p hp
          rw [decide_eq_true (hid p hin), Bool.and_true] at this
          rw [← this]; rfl
        · split at h
          · rename_i hf
            injection h with h; subst h
            refine ⟨fun _ p hp hd => ?_, by simp⟩
            have h1 := hx.full _ _ _ hg hf p hp hd
            rw [hi p hp, Bool.and_eq_true] at h1
            rw [coastCount_cons, h1.1]; simp
          · obtain ⟨r, hr, h⟩ := Res.bind_eq_ok.1 h
            injection h with h; subst h
            refine keep r ⟨pathsBox g, g⟩ hr (fun p _ => inPaths_box) (fun p hp hc => ?_) (fun p hp hin => ?_)
            · have hc' : inPaths g p = true := hc
              rw [hi p hp, Bool.and_eq_true] at hc'; exact hc'.1
            · show inPaths g p = _
              rw [hi p hp, decide_eq_true (hid p hin), Bool.and_true]

theorem finalizeTile_area {lib : CoastLib} {S : Set Pt} (hx : ExactAt lib S) {n : Pt → Nat} (hn : ∀ p ∈ S, n p ≤ 1)
    {t : Tile} {k : UInt64} {ms : List Coast} (hk : keyOfTile t = .ok k) (hm : AreaInv n S (insertBounds t) ms) (f : Option Bytes)
    (h : finalizeTile lib k (drawBounds t) (insertBounds t) ms = .ok f) :
    match f with
    | none => Right lib (fun p => n p = 1) S (.land t)
    | some b => Right lib (fun p => n p = 1) S (.db t b) := by
  unfold finalizeTile at h
  dsimp only at h
  obtain ⟨_, _, h⟩ := Res.bind_eq_ok.1 h
  obtain ⟨i, hi, h⟩ := Res.bind_eq_ok.1 h
  have hd := hx.diff (drawBounds t) (ms.map (·.geo))
  have hi' := hx.inter _ _ _ hi
  split at h
  · rename_i he
    injection h with h; subst h
    have he' : i = [] := by simpa using he
    subst he'
    intro p hp hin
    have h1 := hi' p hp
    rw [hd p hp, decide_eq_true hin, decide_eq_true (insert_in_draw hin), inSets_count] at h1
    have h2 := hm.eq p hp hin
    have h3 := hn p hp
    simp only [Bool.true_and, Bool.and_true] at h1
    have h4 : coastCount ms p % 2 = 1 := by
      by_contra hc
      rw [decide_eq_false hc] at h1
      cases h1
    omega
  · rename_i hne
    obtain ⟨ps, hps, h⟩ := Res.bind_eq_ok.1 h
    obtain ⟨b, hbs, h⟩ := Res.bind_eq_ok.1 h
    injection h with h; subst h
    have area : ∀ p ∈ S, inPolygons (lib.correct ps) p = (decide (InBox (drawBounds t) p) && !decide (coastCount ms p % 2 = 1)) := by
      intro p hp
      rw [hx.correct ps p hp, toFixedPolygon_area p _ [] ps hps, hd p hp, inSets_count]
      show xor false _ = _
      rw [Bool.false_xor]
    refine ⟨k, lib.correct ps, hk, hbs, ⟨_, ps, i, hps, rfl, hi, by simpa using hne⟩, ?_, ?_, ?_⟩
    · intro p hp hin
      rw [area p hp, decide_eq_true (insert_in_draw hin), Bool.true_and, Bool.not_eq_true', decide_eq_false_iff_not]
      have h2 := hm.eq p hp hin
      have h3 := hn p hp
      dsimp only
      omega
    · intro p hp h
      rw [area p hp, Bool.and_eq_true] at h
      exact of_decide_eq_true h.1
    · intro p hp hin h
      rw [area p hp, decide_eq_true hin, Bool.true_and, Bool.not_eq_false', decide_eq_true_eq] at h
      have h2 := hm.le p hp
      have h3 := hn p hp
      omega

theorem coastChild_area {lib : CoastLib} {S : Set Pt} (hx : ExactAt lib S) {n : Pt → Nat} (hn : ∀ p ∈ S, n p ≤ 1)
    {sub : Tile → List Coast → Res (WTask CoastEv)} {t : Tile} (hz : t.z < 20) {i : Nat} {cs : List Coast}
    {es : List (WTask CoastEv ⊕ CoastEv)} (hc : AreaInv n S (insertBounds t) cs)
    (hsub : ∀ cs w, AreaInv n S (insertBounds (t.child i)) cs → sub (t.child i) cs = .ok w →
      ∀ e ∈ resultsOf w, Right lib (fun p => n p = 1) S e)
    (h : coastChild lib sub (t.child i) cs = .ok es) : ∀ e ∈ resultsOfEmits es, Right lib (fun p => n p = 1) S e := by
  unfold coastChild at h
  obtain ⟨s, hs, h⟩ := Res.bind_eq_ok.1 h
  have hs' : s = ⟨t.child i, pxBounds (t.child i), insertBounds (t.child i), drawBounds (t.child i)⟩ := by
    unfold tileSpec at hs
    obtain ⟨_, _, hs⟩ := Res.bind_eq_ok.1 hs
    obtain ⟨_, _, hs⟩ := Res.bind_eq_ok.1 hs
    injection hs with hs; exact hs.symm
  subst hs'
  obtain ⟨m, hm, h⟩ := Res.bind_eq_ok.1 h
  obtain ⟨a1, a2⟩ := matchCoast_area hx _ _ (fun p => insert_in_draw) cs hc.box m hm
  have inv : ∀ ms, m = some ms → AreaInv n S (insertBounds (t.child i)) ms := by
    intro ms e
    obtain ⟨b1, b2, b3⟩ := a2 ms e
    refine ⟨b1, fun p hp => le_trans (b2 p hp) (hc.le p hp), fun p hp hin => ?_⟩
    rw [b3 p hp hin, hc.eq p hp (insert_child hz i hin)]
  have two : ∀ (e : CoastEv) (z : Nat), Right lib (fun p => n p = 1) S e → ∀ e' ∈ [e, .tick z], Right lib (fun p => n p = 1) S e' := by
    intro e z he e' hm
    rcases List.mem_cons.1 hm with rfl | hm
    · exact he
    · rw [List.mem_singleton.1 hm]; trivial
  match m, h, a1, inv with
  | none, h, a1, _ =>
    injection h with h; subst h
    refine two _ _ fun p hp hin => ?_
    have h1 := a1 rfl p hp (insert_in_draw hin)
    have h2 := hc.le p hp
    have h3 := hn p hp
    dsimp only; omega
  | some [], h, _, inv =>
    injection h with h; subst h
    refine two _ _ fun p hp hin => ?_
    have h1 := (inv [] rfl).eq p hp hin
    have h2 : coastCount [] p = 0 := rfl
    dsimp only; omega
  | some (c :: ms), h, _, inv =>
    dsimp only at h
    split at h
    · obtain ⟨w, hw, h⟩ := Res.bind_eq_ok.1 h
      injection h with h; subst h
      have := hsub _ _ (inv _ rfl) hw
      simpa [resultsOfEmits] using this
    · obtain ⟨k, hk, h⟩ := Res.bind_eq_ok.1 h
      obtain ⟨f, hf, h⟩ := Res.bind_eq_ok.1 h
      match f, h, hf with
      | some b, h, hf => injection h with h; subst h; exact two _ _ (finalizeTile_area hx hn hk (inv _ rfl) (some b) hf)
      | none, h, hf => injection h with h; subst h; exact two _ _ (finalizeTile_area hx hn hk (inv _ rfl) none hf)

theorem coastTask_area {lib : CoastLib} {S : Set Pt} (hx : ExactAt lib S) {n : Pt → Nat} (hn : ∀ p ∈ S, n p ≤ 1) (d : Nat) (t : Tile)
    (cs : List Coast) (w : WTask CoastEv) (hz : t.z + d = 10) (hc : AreaInv n S (insertBounds t) cs)
    (h : coastTask lib d t cs = .ok w) : ∀ e ∈ resultsOf w, Right lib (fun p => n p = 1) S e := by
  induction d generalizing t cs w with
  | zero => cases h
  | succ d ih =>
    unfold coastTask at h
    obtain ⟨e0, h0, h⟩ := Res.bind_eq_ok.1 h
    obtain ⟨e1, h1, h⟩ := Res.bind_eq_ok.1 h
    obtain ⟨e2, h2, h⟩ := Res.bind_eq_ok.1 h
    obtain ⟨e3, h3, h⟩ := Res.bind_eq_ok.1 h
    injection h with h; subst h
    have key : ∀ i es, coastChild lib (coastTask lib d) (t.child i) cs = .ok es →
        ∀ e ∈ resultsOfEmits es, Right lib (fun p => n p = 1) S e := by
      intro i es hi
      have hzc : (t.child i).z = t.z + 1 := rfl
      exact coastChild_area hx hn (by omega) hc (fun cs w hc' hw => ih (t.child i) cs w (by omega) hc' hw) hi
    intro e he
    simp only [resultsOf, resultsOfEmits_append, List.mem_append] at he
    rcases he with ((he | he) | he) | he
    · exact key 0 e0 h0 e he
    · exact key 1 e1 h1 e he
    · exact key 2 e2 h2 e he
    · exact key 3 e3 h3 e he

theorem coastTasks_area {lib : CoastLib} {S : Set Pt} (hx : ExactAt lib S) {n : Pt → Nat} (hn : ∀ p ∈ S, n p ≤ 1) (cs : List Coast)
    (hc : ∀ b, AreaInv n S b cs) (tiles : List Tile) (hz : ∀ t ∈ tiles, t.z ≤ 10) (ws : List (WTask CoastEv))
    (h : coastTasks lib cs tiles = .ok ws) : ∀ e ∈ ws.flatMap resultsOf, Right lib (fun p => n p = 1) S e := by
  induction tiles generalizing ws with
  | nil => injection h with h; subst h; simp
  | cons t ts ih =>
    unfold coastTasks at h
    obtain ⟨w, hw, h⟩ := Res.bind_eq_ok.1 h
    obtain ⟨ws', hws, h⟩ := Res.bind_eq_ok.1 h
    injection h with h; subst h
    have := hz t (.head _)
    intro e he
    rw [List.flatMap_cons, List.mem_append] at he
    rcases he with he | he
    · exact coastTask_area hx hn (10 - t.z) t cs w (by omega) (hc _) hw e he
    · exact ih (fun t ht => hz t (.tail _ ht)) ws' hws e he

/-- the input -/
theorem coastOf_inv {polys : List Polygon} {S : Set Pt} (hg : GoodInput polys S) (b : Box) :
    AreaInv (fun p => polys.countP (fun q => inPaths (q.outer :: q.inners) p)) S b (polys.map coastOf) := by
  have e : ∀ p, coastCount (polys.map coastOf) p = polys.countP (fun q => inPaths (q.outer :: q.inners) p) := by
    intro p; rw [coastCount, List.countP_map]; rfl
  refine ⟨?_, fun p _ => le_of_eq (e p), fun p _ _ => e p⟩
  intro c hc p hp h
  obtain ⟨q, hq, rfl⟩ := List.mem_map.1 hc
  have ho : inRing q.outer p = true := by
    have h' : xor (inRing q.outer p) (inPaths q.inners p) = true := h
    cases hr : inRing q.outer p
    · rw [hr, Bool.false_xor] at h'
      obtain ⟨i, hi, hi'⟩ := inPaths_mem h'
      rw [hg.holes q hq i hi p hp hi'] at hr; cases hr
    · rfl
  have hne := hg.nonempty q hq
  have : q.outer.isEmpty = false := by simpa using hne
  refine hull_inBox (l := q.outer) (ps := envelopePoints (.polygon [q])) ?_ ho _
  intro a ha
  simp [envelopePoints, hne, ha]

theorem land_iff {polys : List Polygon} {S : Set Pt} (hg : GoodInput polys S) {p : Pt} (hp : p ∈ S) :
    polys.countP (fun q => inPaths (q.outer :: q.inners) p) = 1 ↔ Land polys p := by
  have h1 := hg.disjoint p hp
  have h2 : 0 < polys.countP (fun q => inPaths (q.outer :: q.inners) p) ↔ Land polys p := List.countP_pos_iff
  rw [← h2]; omega

theorem right_congr {lib : CoastLib} {S : Set Pt} {l l' : Pt → Prop} (h : ∀ p ∈ S, l p ↔ l' p) {e : CoastEv} (hr : Right lib l S e) :
    Right lib l' S e := by
  match e, hr with
  | .land t, hr => exact fun p hp hin => (h p hp).1 (hr p hp hin)
  | .sea t, hr => exact fun p hp hin hl => hr p hp hin ((h p hp).2 hl)
  | .tick _, _ => trivial
  | .db t b, ⟨k, ps, hk, hs, hm, h1, h2, h3⟩ =>
    refine ⟨k, ps, hk, hs, hm, fun p hp hin => ?_, h2, fun p hp hin hf => (h p hp).1 (h3 p hp hin hf)⟩
    rw [h1 p hp hin, h p hp]

end Tiles
