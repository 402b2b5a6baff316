import Verif.Props.C43
import Verif.Props.C19b
import Verif.Model.NodeStats
import Verif.Spec.NodeStats
/-! C76 — the statistics of the node index, and the locations of a single way. -/
namespace Tiles

open Spec

theorem zz_size {d : Int} (h : -2 ^ 32 < d) (h' : d < 2 ^ 32) : varintSize (zigzag d) = deltaBytes d := by
  unfold deltaBytes zigzag
  have key : ∀ v : Nat, v < 2 ^ 35 → varintSize v = if v < 2 ^ 7 then 1 else if v < 2 ^ 14 then 2 else if v < 2 ^ 21 then 3 else if v < 2 ^ 28 then 4 else 5 := by
    intro v hv
    rw [varintSize]; split
    · rw [if_pos (by omega)]
    · rw [if_neg (by omega), varintSize]; split
      · rw [if_pos (by omega)]
      · rw [if_neg (by omega), varintSize]; split
        · rw [if_pos (by omega)]
        · rw [if_neg (by omega), varintSize]; split
          · rw [if_pos (by omega)]
          · rw [if_neg (by omega), varintSize, if_pos (by omega)]
  rw [key _ (by split <;> omega)]
  repeat' split
  all_goals first | rfl | omega

/-- the counters of the differences -/
def charCounts (ds : List Int) : List Nat := (List.range 7).map (fun i => ds.countP (fun d => deltaBytes d = i))

/-- the statistics of these spans -/
def tally (n : Nat) (spans : List (List (Nat × XY))) : NodeStats :=
  ⟨n, spans.length, charCounts (spans.flatMap spanDeltas), [1, 64, 100, 1000, 10000].map (fun lim => spans.countP (fun s => decide (s.length ≤ lim)))⟩

theorem deltaBytes_range (d : Int) : 1 ≤ deltaBytes d ∧ deltaBytes d ≤ 5 := by
  unfold deltaBytes
  repeat' split
  all_goals omega

theorem bump_counts (ds : List Int) (d : Int) : bumpAt (charCounts ds) (if deltaBytes d < 10 then deltaBytes d else 0) = .ok (charCounts (ds ++ [d])) := by
  have h := deltaBytes_range d
  rw [if_pos (by omega), bumpAt, if_pos (by simp [charCounts]; omega)]
  congr 1
  apply List.ext_getElem
  · simp [charCounts]
  · intro i h1 h2
    simp only [charCounts, List.getElem_modify, List.getElem_map, List.getElem_range, List.countP_append, List.countP_singleton]
    split <;> simp_all

theorem U32.sub {p q : XY} (hp : p.U32) (hq : q.U32) : (-2 ^ 32 < q.x - p.x ∧ q.x - p.x < 2 ^ 32) ∧ (-2 ^ 32 < q.y - p.y ∧ q.y - p.y < 2 ^ 32) := by
  obtain ⟨a1, a2, a3, a4⟩ := hp
  obtain ⟨b1, b2, b3, b4⟩ := hq
  omega

theorem spanDeltas_cons (a b : Nat × XY) (l : List (Nat × XY)) : spanDeltas (a :: b :: l) = (b.2.x - a.2.x) :: (b.2.y - a.2.y) :: spanDeltas (b :: l) := rfl

theorem run_counts (a : Nat × XY) (rest : List (Nat × XY)) (hu : ∀ x ∈ a :: rest, x.2.U32) (ds : List Int) :
    countRun a.2 (rest.map (·.2)) (charCounts ds) = .ok (charCounts (ds ++ spanDeltas (a :: rest.take (spanRun a.2 (rest.map (·.2)))))) := by
  induction rest generalizing a ds with
  | nil => simp [countRun, spanDeltas]
  | cons b rest ih =>
    obtain ⟨hx, hy⟩ := U32.sub (hu a (by simp)) (hu b (by simp))
    rw [List.map_cons, countRun, spanRun]
    rw [zz_size hx.1 hx.2, zz_size hy.1 hy.2]
    by_cases h : deltaBytes (b.2.x - a.2.x) + deltaBytes (b.2.y - a.2.y) > 2 * 4 + 1
    · rw [if_pos h, if_pos h]; simp [spanDeltas]
    · rw [if_neg h, if_neg h, bump_counts, Res.ok_bind, bump_counts, Res.ok_bind, ih b (fun x hx => hu x (by simp at hx ⊢; tauto)), List.take_succ_cons, spanDeltas_cons]
      simp

theorem run_split (a : Nat × XY) (rest : List (Nat × XY)) (hu : ∀ x ∈ a :: rest, x.2.U32) (hc : (a :: rest).IsChain (fun x y => y.1 = x.1 + 1)) :
    (a :: rest).splitBy inOneSpan = (a :: rest.take (spanRun a.2 (rest.map (·.2)))) :: (rest.drop (spanRun a.2 (rest.map (·.2)))).splitBy inOneSpan := by
  have h1 : (a :: rest.take (spanRun a.2 (rest.map (·.2)))).IsChain (fun x y => inOneSpan x y) ∧
      ∀ x ∈ (a :: rest.take (spanRun a.2 (rest.map (·.2)))).getLast?, ∀ y ∈ (rest.drop (spanRun a.2 (rest.map (·.2)))).head?, inOneSpan x y = false := by
    induction rest generalizing a with
    | nil => simp
    | cons b rest ih =>
      obtain ⟨hx, hy⟩ := U32.sub (hu a (by simp)) (hu b (by simp))
      rw [List.isChain_cons_cons] at hc
      rw [List.map_cons, spanRun, zz_size hx.1 hx.2, zz_size hy.1 hy.2]
      by_cases h : deltaBytes (b.2.x - a.2.x) + deltaBytes (b.2.y - a.2.y) > 2 * 4 + 1
      · rw [if_pos h]
        refine ⟨by simp, ?_⟩
        simp [inOneSpan]; omega
      · rw [if_neg h, List.take_succ_cons, List.drop_succ_cons]
        obtain ⟨i1, i2⟩ := ih b (fun x hx => hu x (by simp at hx ⊢; tauto)) hc.2
        refine ⟨List.isChain_cons_cons.2 ⟨by simp [inOneSpan]; omega, i1⟩, ?_⟩
        rw [List.getLast?_cons_cons]
        exact i2
  conv_lhs => rw [← List.take_append_drop (spanRun a.2 (rest.map (·.2))) rest, ← List.cons_append, List.splitBy_append h1.2, List.splitBy_of_isChain (by simp) h1.1]
  rfl

theorem spans_counts (n : Nat) (opn : List (Nat × XY)) (hu : ∀ x ∈ opn, x.2.U32) (hc : opn.IsChain (fun x y => y.1 = x.1 + 1)) (sp : List (List (Nat × XY))) :
    countSpans (opn.map (·.2)) (tally n sp) = .ok (tally n (sp ++ opn.splitBy inOneSpan)) := by
  induction hl : opn.length using Nat.strongRecOn generalizing opn sp with
  | _ k ih =>
    cases opn with
    | nil => simp [countSpans]
    | cons a rest =>
      rw [List.map_cons, countSpans, run_split a rest hu hc]
      rw [show (tally n sp).chars = charCounts (sp.flatMap spanDeltas) from rfl, run_counts a rest hu, Res.ok_bind]
      dsimp only
      rw [← List.map_drop]
      have hlen : (rest.take (spanRun a.2 (rest.map (·.2)))).length = spanRun a.2 (rest.map (·.2)) := by
        rw [List.length_take]
        have : ∀ (c : XY) (l : List XY), spanRun c l ≤ l.length := by
          intro c l
          induction l generalizing c with
          | nil => simp [spanRun]
          | cons p l ih => rw [spanRun]; split; · simp
                           · have := ih p; simp; omega
        have := this a.2 (rest.map (·.2))
        simp at this; omega
      generalize spanRun a.2 (rest.map (·.2)) = r at *
      have hs : (⟨n, (tally n sp).spans + 1, charCounts (sp.flatMap spanDeltas ++ spanDeltas (a :: rest.take r)),
          List.zipWith (fun lim c => if r + 1 ≤ lim then c + 1 else c) spanLimits (tally n sp).cum⟩ : NodeStats) = tally n (sp ++ [a :: rest.take r]) := by
        simp only [tally, List.length_append, List.length_singleton, List.flatMap_append, List.flatMap_singleton, spanLimits, List.map_cons, List.map_nil, List.zipWith_cons_cons, List.zipWith_nil_left,
          List.countP_append, List.countP_singleton, List.length_cons, hlen, decide_eq_true_eq, NodeStats.mk.injEq, List.cons.injEq, true_and, and_true]
        refine ⟨rfl, ?_, ?_, ?_, ?_, ?_⟩ <;> split <;> rfl
      have := ih (rest.drop r).length (by subst hl; simp; omega) (rest.drop r) (fun x hx => hu x (List.mem_cons_of_mem _ (List.mem_of_mem_drop hx)))
        (List.IsChain.drop (List.IsChain.tail hc) r) (sp ++ [a :: rest.take r]) rfl
      rw [← hs] at this
      rw [List.append_cons, ← this]
      rfl

/-- the state of the builder after the nodes `S` were stored -/
structure CountInv (S : List (Nat × XY)) (s : CountedBuilder) : Prop where
  split : ∃ closed opn : List (Nat × XY), S = closed ++ opn ∧ s.b.span = opn.map (·.2) ∧ opn.IsChain (fun x y => y.1 = x.1 + 1) ∧
    (∀ x ∈ closed.getLast?, ∀ y ∈ opn.head?, inOneSpan x y = false) ∧ s.st = tally S.length (closed.splitBy inOneSpan) ∧ (∀ x ∈ opn, x.2.U32) ∧
    (opn = [] → S = [])
  last : ∀ x ∈ S.getLast?, ((x.1 : Int), x.2) = (s.b.lastId, s.b.lastPos)
  first : S = [] → s.b.lastId = -2 ^ 63
  below : ∀ x ∈ S, (x.1 : Int) ≤ s.b.lastId

theorem count_init : CountInv [] CountedBuilder.init :=
  ⟨⟨[], [], rfl, rfl, by simp, by simp, rfl, by simp, by simp⟩, by simp, fun _ => rfl, by simp⟩

theorem count_coords {S : List (Nat × XY)} {s : CountedBuilder} (h : CountInv S s) (n : Nat) :
    CountedBuilder.pushCoordSpan ⟨s.b, { s.st with nodes := n }⟩ = .ok ⟨s.b.pushCoordSpan, tally n (S.splitBy inOneSpan)⟩ := by
  obtain ⟨closed, opn, h1, h2, h3, h4, h5, h6, h7⟩ := h.split
  unfold CountedBuilder.pushCoordSpan
  dsimp only
  by_cases he : s.b.span.isEmpty = true
  · have ho : opn = [] := by
      rw [h2] at he; simpa using he
    have hS := h7 ho
    have hcl : closed = [] := by rw [hS] at h1; exact (List.append_eq_nil_iff.1 h1.symm).1
    rw [if_pos he, NodeBuilder.pushCoordSpan, if_pos he, h5, hS, hcl]
    rfl
  · rw [if_neg he, h2, h5, show ({ tally S.length (closed.splitBy inOneSpan) with nodes := n } : NodeStats) = tally n (closed.splitBy inOneSpan) from rfl,
      spans_counts n opn h6 h3, ← List.splitBy_append h4, ← h1]
    rfl

theorem count_push {S : List (Nat × XY)} {s : CountedBuilder} (h : CountInv S s) (id : Int) (pos : XY) :
    (∀ b', s.b.push id pos = .ok b' → ∃ st', s.push id pos = .ok ⟨b', st'⟩ ∧ CountInv (S ++ (if (id.natAbs, pos) ∈ S then [] else [(id.natAbs, pos)])) ⟨b', st'⟩) ∧
    (s.b.push id pos = .throw_ → s.push id pos = .throw_) ∧ (s.b.push id pos = .ub → s.push id pos = .ub) := by
  unfold NodeBuilder.push CountedBuilder.push
  by_cases hv : 0 ≤ pos.x ∧ 0 ≤ pos.y ∧ pos.x ≤ 2 ^ 32 - 1 ∧ pos.y ≤ 2 ^ 32 - 1
  swap
  · rw [decide_eq_false hv, verify_false, Res.throw_bind, Res.throw_bind]; simp
  rw [decide_eq_true hv, verify_true, Res.ok_bind, Res.ok_bind]
  by_cases ha : id ≤ -2 ^ 63
  · rw [show absId id = .ub from if_pos ha, Res.ub_bind, Res.ub_bind]; simp
  rw [show absId id = .ok (id.natAbs : Int) from if_neg ha, Res.ok_bind, Res.ok_bind]
  have hu : pos.U32 := by obtain ⟨a, b, c, d⟩ := hv; exact ⟨by omega, by omega, by omega, by omega⟩
  by_cases he : (id.natAbs : Int) = s.b.lastId
  · rw [if_pos he, if_pos he]
    by_cases hp : pos = s.b.lastPos
    swap
    · rw [decide_eq_false hp, verify_false, Res.throw_bind, Res.throw_bind]; simp
    rw [decide_eq_true hp, verify_true, Res.ok_bind, Res.ok_bind]
    refine ⟨?_, by simp, by simp⟩
    rintro b' hb
    injection hb with hb
    subst hb
    refine ⟨s.st, rfl, ?_⟩
    have hne : S ≠ [] := fun hS => by have := h.first hS; omega
    have hm : (id.natAbs, pos) ∈ S := by
      have hl := h.last (S.getLast hne) (by rw [List.getLast?_eq_getLast_of_ne_nil hne]; rfl)
      rw [Prod.mk.injEq, ← he, ← hp] at hl
      have : (id.natAbs, pos) = S.getLast hne := by
        rw [← hl.2, ← Int.ofNat_inj.1 hl.1]
      rw [this]; exact List.getLast_mem hne
    rw [if_pos hm, List.append_nil]
    exact h
  rw [if_neg he, if_neg he]
  by_cases hgt : (id.natAbs : Int) > s.b.lastId
  swap
  · rw [decide_eq_false hgt, verify_false, Res.throw_bind, Res.throw_bind]; simp
  rw [decide_eq_true hgt, verify_true, Res.ok_bind, Res.ok_bind]
  have hm : (id.natAbs, pos) ∉ S := fun hm => by have := h.below _ hm; simp only at this; omega
  rw [if_neg hm]
  dsimp only
  obtain ⟨closed, opn, h1, h2, h3, h4, h5, h6, h7⟩ := h.split
  by_cases hg : s.b.lastId + 1 ≠ (id.natAbs : Int) ∧ ¬ s.b.span.isEmpty = true
  · rw [if_pos hg, if_pos hg, count_coords h, Res.ok_bind]
    refine ⟨?_, by simp, by simp⟩
    rintro b' hb
    injection hb with hb
    subst hb
    refine ⟨_, rfl, ?_, ?_, ?_, ?_⟩
    · refine ⟨S, [(id.natAbs, pos)], rfl, ?_, by simp, ?_, ?_, by simpa using hu, by simp⟩
      · simp only [NodeBuilder.pushEmptySpan, NodeBuilder.pushCoordSpan, if_neg hg.2]; rfl
      · intro x hx y hy
        simp only [List.head?_cons, Option.mem_some_iff] at hy
        subst hy
        have := h.last x hx
        rw [Prod.mk.injEq] at this
        simp only [inOneSpan, decide_eq_false_iff_not, not_and]
        intro hc; omega
      · simp only [tally, List.length_append, List.length_singleton, h5]
    · simp
    · simp
    · intro x hx
      rcases List.mem_append.1 hx with hx | hx
      · have := h.below x hx; simp only; omega
      · simp only [List.mem_singleton] at hx; subst hx; simp
  · rw [if_neg hg, if_neg hg]
    refine ⟨?_, by simp, by simp⟩
    rintro b' hb
    injection hb with hb
    subst hb
    refine ⟨_, rfl, ?_, ?_, ?_, ?_⟩
    · refine ⟨closed, opn ++ [(id.natAbs, pos)], by rw [h1, List.append_assoc], by simp [h2], ?_, ?_, ?_, ?_, by simp⟩
      · rw [List.isChain_append]
        refine ⟨h3, by simp, ?_⟩
        intro x hx y hy
        simp only [List.head?_cons, Option.mem_some_iff] at hy
        subst hy
        have hne : opn ≠ [] := by rintro rfl; simp at hx
        have hx' : x ∈ S.getLast? := by rw [h1, List.getLast?_append_of_ne_nil _ hne]; exact hx
        have := h.last x hx'
        rw [Prod.mk.injEq] at this
        have hsp : ¬ s.b.span.isEmpty = true := by rw [h2]; simpa using hne
        have : s.b.lastId + 1 = (id.natAbs : Int) := by
          by_contra hc; exact hg ⟨hc, hsp⟩
        simp only; omega
      · intro x hx y hy
        by_cases ho : opn = []
        · have hS := h7 ho
          have hcl : closed = [] := by rw [hS] at h1; exact (List.append_eq_nil_iff.1 h1.symm).1
          rw [hcl] at hx; simp at hx
        · rw [List.head?_append_of_ne_nil _ ho] at hy
          exact h4 x hx y hy
      · simp only [tally, List.length_append, List.length_singleton, h5]
      · intro x hx
        rcases List.mem_append.1 hx with hx | hx
        · exact h6 x hx
        · simp only [List.mem_singleton] at hx; subst hx; exact hu
    · simp
    · simp
    · intro x hx
      rcases List.mem_append.1 hx with hx | hx
      · have := h.below x hx; simp only; omega
      · simp only [List.mem_singleton] at hx; subst hx; simp

theorem count_pushAll (pre ns : List (Int × XY)) {s : CountedBuilder} (h : CountInv (storedNodes pre) s) :
    (∀ b', s.b.pushAll ns = .ok b' → ∃ st', s.pushAll ns = .ok ⟨b', st'⟩ ∧ CountInv (storedNodes (pre ++ ns)) ⟨b', st'⟩) ∧
    (s.b.pushAll ns = .throw_ → s.pushAll ns = .throw_) ∧ (s.b.pushAll ns = .ub → s.pushAll ns = .ub) := by
  induction ns generalizing pre s with
  | nil =>
    refine ⟨?_, by simp [NodeBuilder.pushAll], by simp [NodeBuilder.pushAll]⟩
    rintro b' hb
    injection hb with hb
    subst hb
    exact ⟨s.st, rfl, by rw [List.append_nil]; exact h⟩
  | cons n ns ih =>
    obtain ⟨id, pos⟩ := n
    obtain ⟨p1, p2, p3⟩ := count_push h id pos
    rw [NodeBuilder.pushAll, CountedBuilder.pushAll]
    cases hb : s.b.push id pos with
    | throw_ => rw [p2 hb]; simp
    | ub => rw [p3 hb]; simp
    | ok b1 =>
      obtain ⟨st1, q1, q2⟩ := p1 b1 hb
      rw [q1, Res.ok_bind, Res.ok_bind]
      have hs : storedNodes pre ++ (if (id.natAbs, pos) ∈ storedNodes pre then [] else [(id.natAbs, pos)]) = storedNodes (pre ++ [(id, pos)]) := by
        simp only [storedNodes, List.map_append, List.map_cons, List.map_nil, List.eraseDups_append, List.mem_eraseDups]
        congr 1
        by_cases hm : (id.natAbs, pos) ∈ pre.map (fun n => (n.1.natAbs, n.2))
        · rw [if_pos hm]; simp [List.removeAll, hm]
        · rw [if_neg hm]; simp [List.removeAll, hm, List.eraseDups_cons]
      rw [hs] at q2
      have := ih (pre ++ [(id, pos)]) q2
      rw [List.append_assoc, List.singleton_append] at this
      exact this

/-- **the counters do not disturb the index, and count what is stored**: the builder with its statistics gives the same index as the one without — it refuses the same inputs, and never leaves the
bounds of its arrays — and at the end it has counted the distinct nodes, the spans, the spans of at most 1, 64, 100, 1000 and 10000 nodes, and for every number of bytes the differences that take so many -/
theorem C76_stats (nodes : List (Int × XY)) :
    (∀ n, buildNodeIdx nodes = .ok n → ∃ st, countedBuild nodes = .ok (n, st) ∧
      st.nodes = (storedNodes nodes).length ∧ st.spans = (nodeSpans nodes).length ∧
      st.chars = (List.range 7).map (fun i => ((nodeSpans nodes).flatMap spanDeltas).countP (fun d => deltaBytes d = i)) ∧
      st.cum = [1, 64, 100, 1000, 10000].map (fun lim => (nodeSpans nodes).countP (fun s => decide (s.length ≤ lim)))) ∧
    (buildNodeIdx nodes = .throw_ → countedBuild nodes = .throw_) ∧ (buildNodeIdx nodes = .ub → countedBuild nodes = .ub) := by
  obtain ⟨p1, p2, p3⟩ := count_pushAll [] nodes (s := CountedBuilder.init) count_init
  unfold buildNodeIdx countedBuild
  change (∀ b', NodeBuilder.init.pushAll nodes = .ok b' → _) at p1
  change NodeBuilder.init.pushAll nodes = .throw_ → _ at p2
  change NodeBuilder.init.pushAll nodes = .ub → _ at p3
  cases hb : NodeBuilder.init.pushAll nodes with
  | throw_ => rw [p2 hb]; simp
  | ub => rw [p3 hb]; simp
  | ok b =>
    obtain ⟨st, q1, q2⟩ := p1 b hb
    rw [List.nil_append] at q2
    rw [q1, Res.ok_bind, Res.ok_bind, NodeBuilder.finish]
    dsimp only
    by_cases hl : b.lastId = 2 ^ 63 - 1
    · rw [if_pos hl, if_pos hl]; simp
    · rw [if_neg hl, if_neg hl]
      have hc := count_coords q2 st.nodes
      dsimp only at hc
      rw [show ({ st with nodes := st.nodes } : NodeStats) = st from rfl] at hc
      rw [hc, Res.ok_bind]
      refine ⟨?_, by simp, by simp⟩
      rintro n hn
      injection hn with hn
      subst hn
      have hid : b.pushCoordSpan.lastId = b.lastId := by
        simp only [NodeBuilder.pushCoordSpan]; split <;> rfl
      refine ⟨tally st.nodes ((storedNodes nodes).splitBy inOneSpan), by dsimp only; rw [hid]; rfl, ?_, rfl, rfl, rfl⟩
      obtain ⟨closed, opn, _, _, _, _, h5, _⟩ := q2.split
      dsimp only at h5
      rw [h5]; rfl

/-- **the locations of a single way**: after the first pass over a valid file, the references of a way get the locations of the nodes, and the way is refused if a node is missing -/
theorem C76_way (nodes : List (Int × XY)) (hf : Spec.FileOk nodes) (refs : List Int) (hr : ∀ id ∈ refs, -2 ^ 63 < id) :
    ∃ n, fileIndex nodes = .ok n ∧
      ((∀ id ∈ refs, Spec.nodeAt nodes id ≠ none) → ∃ locs, wayLocations n refs = .ok locs ∧ locs.map some = refs.map (Spec.nodeAt nodes)) ∧
      ((∃ id ∈ refs, Spec.nodeAt nodes id = none) → wayLocations n refs = .throw_) := by
  obtain ⟨hok, hids⟩ := fileNodes_ok hf
  obtain ⟨n, hn, _, hg⟩ := C19_lookup _ hids hok
  refine ⟨n, hn, ?_⟩
  have hat : ∀ id, -2 ^ 63 < id → getCoords n id = .ok ((Spec.nodeAt nodes id).map nodePos) := fun id hid => by rw [hg id hid, nodeAt_map]
  clear hg hn
  induction refs with
  | nil => exact ⟨fun _ => ⟨[], rfl, rfl⟩, by simp⟩
  | cons r refs ih =>
    obtain ⟨i1, i2⟩ := ih (fun id h => hr id (by simp [h]))
    rw [wayLocations, hat r (hr r (by simp)), Res.ok_bind]
    cases hn : Spec.nodeAt nodes r with
    | none =>
      refine ⟨fun h => absurd hn (h r (by simp)), fun _ => rfl⟩
    | some p =>
      have hv : locValid p = true := by
        obtain ⟨m, hm, rfl⟩ := nodeAt_mem hn
        exact (hf.1 m hm).2.2
      rw [locValid_iff] at hv
      have hp : (⟨wrap32 ((nodePos p).x - xOffset), wrap32 ((nodePos p).y - yOffset)⟩ : XY) = p := by
        obtain ⟨x, y⟩ := p
        simp only [nodePos, xOffset, yOffset, wrap32] at hv ⊢
        congr 1 <;> omega
      constructor
      · intro h
        obtain ⟨locs, l1, l2⟩ := i1 (fun id hid => h id (by simp [hid]))
        refine ⟨p :: locs, ?_, by simp [l2, hn]⟩
        simp only [Option.map_some]
        rw [l1, Res.ok_bind, hp]; rfl
      · rintro ⟨id, hid, h⟩
        simp only [Option.map_some]
        rw [i2 ?_, Res.throw_bind]
        rcases List.mem_cons.1 hid with rfl | hid
        · rw [hn] at h; simp at h
        · exact ⟨id, hid, h⟩

/-- where every node is known, the single way gets the same locations as the ways of a whole buffer (C43) -/
theorem C76_agree (nodes : List (Int × XY)) (hf : Spec.FileOk nodes) (srt : List NodeQuery → List NodeQuery) (hsrt : Spec.SortsByAbsId srt) (refs : List Int) (hr : ∀ id ∈ refs, -2 ^ 63 < id)
    (locs : Nat → XY) (hl : ∀ i < refs.length, locs i = ⟨2147483647, 2147483647⟩) (hall : ∀ id ∈ refs, Spec.nodeAt nodes id ≠ none) :
    ∃ n l, fileIndex nodes = .ok n ∧ Spec.UpdateResult n srt false refs locs l ∧ wayLocations n refs = .ok ((List.range refs.length).map l) := by
  obtain ⟨n, l, h1, h2, h3, _⟩ := C43_locations nodes hf srt hsrt refs hr locs hl
  obtain ⟨n', h1', w, _⟩ := C76_way nodes hf refs hr
  rw [h1] at h1'
  injection h1' with h1'
  subst h1'
  obtain ⟨ls, w1, w2⟩ := w hall
  refine ⟨n, l, h1, h2, ?_⟩
  rw [w1]
  congr 1
  apply List.map_injective_iff.2 (Option.some_injective _)
  rw [w2, List.map_map]
  apply List.ext_getElem
  · simp
  · intro i a b
    simp only [List.length_map] at a
    have := h3 i refs[i] (List.getElem?_eq_getElem a)
    have hn := hall refs[i] (List.getElem_mem a)
    simp only [List.getElem_map, List.getElem_range, Function.comp]
    cases hq : Spec.nodeAt nodes refs[i] with
    | none => exact absurd hq hn
    | some p => rw [hq] at this; simp only at this; rw [this]

/-- four nodes: two of them close together with consecutive ids (one of them twice, with both signs), one far away with the next id, one after a gap -/
def statNodes : List (Int × XY) := [(1, ⟨100, 100⟩), (-2, ⟨110, 1100⟩), (2, ⟨110, 1100⟩), (3, ⟨4000000000, 4000000000⟩), (7, ⟨0, 0⟩)]

example : (match countedBuild statNodes with | .ok (_, st) => decide (st = ⟨4, 3, [0, 1, 1, 0, 0, 0, 0], [2, 3, 3, 3, 3]⟩) | _ => false) = true ∧ (nodeSpans statNodes).length = 3 ∧ (storedNodes statNodes).length = 4 ∧ (nodeSpans statNodes).flatMap spanDeltas = [10, 1000] := by
  decide +kernel

example : Spec.FileOk [(1, ⟨100, -100⟩), (-2, ⟨1800000000, 900000000⟩)] ∧ (∀ id ∈ [(2 : Int), 1, 2], Spec.nodeAt [(1, ⟨100, -100⟩), (-2, ⟨1800000000, 900000000⟩)] id ≠ none) := by
  refine ⟨⟨by decide, by decide⟩, by decide⟩

end Tiles
