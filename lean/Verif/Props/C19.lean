import Verif.Proof.NodeLookup
/-! C19 — the node index returns the stored coordinates of each node.

`buildNodeIdx nodes` pushes the nodes in order and finishes; `getCoords` is the lookup of one id.  `Spec.nodeAt nodes id` is the
position of the node with that absolute id in the input list, `Spec.NodesOk` the inputs the index promises to take. -/
namespace Tiles

/-- **for every accepted input, every lookup gives exactly the node's coordinates, and nothing for ids never pushed**; and the
index is sorted by id (what the binary search needs) -/
theorem C19_lookup (nodes : List (Int × XY)) (hids : ∀ n ∈ nodes, -(2 ^ 63 - 1) < n.1 ∧ n.1 < 2 ^ 63 - 1)
    (h : Spec.NodesOk nodes) :
    ∃ n, buildNodeIdx nodes = .ok n ∧ n.idx.Pairwise (fun a b => a.id < b.id) ∧
      ∀ id : Int, -2 ^ 63 < id → getCoords n id = .ok (Spec.nodeAt nodes id) := by
  by_cases hne : nodes = []
  · subst hne
    refine ⟨⟨[], encVarint 1⟩, ?_, by simp, fun id _ => by simp [getCoords, Spec.nodeAt]⟩
    simp [buildNodeIdx, NodeBuilder.pushAll, NodeBuilder.finish, NodeBuilder.init, NodeBuilder.pushCoordSpan,
      NodeBuilder.pushEmptySpan]
  · obtain ⟨n, start, ss, h1, h2⟩ := (build_spec hids hne).1 h
    exact ⟨n, h1, h2.sorted, fun id hid => getCoords_built h2 hid⟩

/-- the same, read off for a node that was pushed: it is found under its id and under the negated id, with its coordinates -/
theorem C19_pushed (nodes : List (Int × XY)) (hids : ∀ n ∈ nodes, -(2 ^ 63 - 1) < n.1 ∧ n.1 < 2 ^ 63 - 1)
    (h : Spec.NodesOk nodes) (n : NodeIdx) (hn : buildNodeIdx nodes = .ok n) (id : Int) (p : XY) (hp : (id, p) ∈ nodes) :
    getCoords n id = .ok (some p) ∧ getCoords n (-id) = .ok (some p) := by
  obtain ⟨n', h1, _, h3⟩ := C19_lookup nodes hids h
  rw [hn] at h1
  injection h1 with h1
  subst h1
  have hb := hids _ hp
  dsimp only at hb
  have hat : Spec.nodeAt nodes id = some p := by
    unfold Spec.nodeAt
    cases hf : nodes.find? (fun n => n.1.natAbs == id.natAbs) with
    | none =>
      rw [List.find?_eq_none] at hf
      have := hf _ hp
      simp at this
    | some m =>
      have hm := List.find?_some hf
      simp only [beq_iff_eq] at hm
      have hmem := List.mem_of_find?_eq_some hf
      obtain ⟨i, hi, e1⟩ := List.getElem_of_mem hmem
      obtain ⟨j, hj, e2⟩ := List.getElem_of_mem hp
      have hpw := List.pairwise_iff_getElem.mp h.2
      rcases Nat.lt_trichotomy i j with hlt | heq | hgt
      · have := (hpw i j hi hj hlt).2
        rw [e1, e2] at this
        simp only [Option.map_some, Option.some.injEq]
        exact this hm
      · subst heq
        rw [e1] at e2
        simp [e2]
      · have := (hpw j i hj hi hgt).2
        rw [e1, e2] at this
        simp only [Option.map_some, Option.some.injEq]
        exact (this hm.symm).symm
  refine ⟨by rw [h3 id (by omega), hat], ?_⟩
  rw [h3 (-id) (by omega), nodeAt_eq nodes (i := -id) (j := id) (by omega), hat]

/-- an id that was not pushed (with either sign) is not found -/
theorem C19_absent (nodes : List (Int × XY)) (hids : ∀ n ∈ nodes, -(2 ^ 63 - 1) < n.1 ∧ n.1 < 2 ^ 63 - 1)
    (h : Spec.NodesOk nodes) (n : NodeIdx) (hn : buildNodeIdx nodes = .ok n) (id : Int) (hid : -2 ^ 63 < id)
    (ha : ∀ m ∈ nodes, m.1.natAbs ≠ id.natAbs) : getCoords n id = .ok none := by
  obtain ⟨n', h1, _, h3⟩ := C19_lookup nodes hids h
  rw [hn] at h1
  injection h1 with h1
  subst h1
  rw [h3 id hid]
  congr 1
  simp only [Spec.nodeAt, Option.map_eq_none_iff, List.find?_eq_none]
  intro m hm
  simpa using ha m hm

/-- every other input is refused by an exception: coordinates out of range, ids out of order, a repeated id at another place -/
theorem C19_refused (nodes : List (Int × XY)) (hids : ∀ n ∈ nodes, -(2 ^ 63 - 1) < n.1 ∧ n.1 < 2 ^ 63 - 1)
    (h : ¬ Spec.NodesOk nodes) : buildNodeIdx nodes = .throw_ := by
  refine (build_spec hids ?_).2 h
  rintro rfl
  exact h ⟨by simp, by simp⟩

/-- closing the files and opening them again changes nothing, although the file layer drops zero bytes at the end of the data
file (the mark of the end of the data is not a zero) -/
theorem C19_reopen (nodes : List (Int × XY)) (hids : ∀ n ∈ nodes, -(2 ^ 63 - 1) < n.1 ∧ n.1 < 2 ^ 63 - 1)
    (h : Spec.NodesOk nodes) (n : NodeIdx) (hn : buildNodeIdx nodes = .ok n) : n.reopen = n := by
  have e1 : encVarint 1 = [1] := by rw [encVarint]; rfl
  have key : ∃ d, n.dat = d ++ [1] := by
    by_cases hne : nodes = []
    · subst hne
      have : buildNodeIdx [] = .ok ⟨[], encVarint 1⟩ := by
        simp [buildNodeIdx, NodeBuilder.pushAll, NodeBuilder.finish, NodeBuilder.init, NodeBuilder.pushCoordSpan,
          NodeBuilder.pushEmptySpan]
      rw [this] at hn
      injection hn with hn
      subst hn
      exact ⟨[], by rw [e1]; rfl⟩
    · obtain ⟨n', start, ss, h1, h2⟩ := (build_spec hids hne).1 h
      rw [hn] at h1
      injection h1 with h1
      subst h1
      exact ⟨encAll ss, by rw [h2.dat_eq, e1]⟩
  obtain ⟨d, hd⟩ := key
  obtain ⟨idx, dat⟩ := n
  simp only at hd
  subst hd
  simp [NodeIdx.reopen]

theorem varintSize_le {v : Nat} (h : v < 2 ^ 35) : varintSize v ≤ 5 := by
  have h1 : ∀ v, v < 2 ^ 7 → varintSize v ≤ 1 := fun v hv => by rw [varintSize, if_pos (by omega)]
  have step : ∀ k m, (∀ v, v < m → varintSize v ≤ k) → ∀ v, v < m * 128 → varintSize v ≤ k + 1 := by
    intro k m ih v hv
    rw [varintSize]
    split
    · omega
    · have := ih (v / 128) (by omega)
      omega
  have h2 := step 1 (2 ^ 7) h1
  have h3 := step 2 _ h2
  have h4 := step 3 _ h3
  have h5 := step 4 _ h4
  exact h5 v (by omega)

/-- the size statistics of a span (seven counters, indexed by the byte count of a coordinate delta) are never accessed out of
bounds: deltas of stored coordinates take at most five bytes -/
theorem C19_stat_counters (p q : XY) (hp : p.U32) (hq : q.U32) :
    varintSize (zigzag (q.x - p.x)) ≤ 5 ∧ varintSize (zigzag (q.y - p.y)) ≤ 5 := by
  obtain ⟨a1, a2, a3, a4⟩ := hp
  obtain ⟨b1, b2, b3, b4⟩ := hq
  constructor <;> apply varintSize_le <;> unfold zigzag <;> split <;> omega

/-- pushing the largest id is undefined behaviour (`last_id_ + 1` overflows when the index is finished): the bound on the ids in
the theorems above is needed -/
theorem C19_largest_id_ub (p : XY) (hp : p.U32) : buildNodeIdx [(2 ^ 63 - 1, p)] = .ub := by
  obtain ⟨b, e1, e2⟩ := push_first (id := 2 ^ 63 - 1) (pos := p) (by omega) (by omega) hp
  unfold buildNodeIdx
  simp only [NodeBuilder.pushAll]
  rw [e1, Res.ok_bind, Res.ok_bind]
  unfold NodeBuilder.finish
  obtain ⟨d, n, q1, q2, _⟩ := e2.last_node
  have : n = (2 ^ 63 - 1, p) := by
    cases d with
    | nil => simpa using q1.symm
    | cons a d => simp at q1
  rw [this] at q2
  rw [if_pos (by rw [← q2]; omega)]

/-- non-vacuous: consecutive ids, a gap, a repeated id (once negative), and a jump in the coordinates that splits the span -/
def exampleNodes : List (Int × XY) :=
  [(17, ⟨5, 6⟩), (18, ⟨4000000000, 4000000001⟩), (-18, ⟨4000000000, 4000000001⟩), (19, ⟨4000000000, 7⟩), (400, ⟨0, 0⟩)]

example : Spec.NodesOk exampleNodes ∧ (∀ n ∈ exampleNodes, -(2 ^ 63 - 1) < n.1 ∧ n.1 < 2 ^ 63 - 1) ∧
    Spec.nodeAt exampleNodes 18 = some ⟨4000000000, 4000000001⟩ ∧ Spec.nodeAt exampleNodes 20 = none ∧
    Spec.nodeAt exampleNodes (-400) = some ⟨0, 0⟩ := by
  refine ⟨⟨by decide, by decide⟩, by decide, by decide, by decide, by decide⟩

/-- non-vacuous: inputs that are refused -/
example : ¬ Spec.NodesOk [(5, ⟨1, 1⟩), (4, ⟨1, 1⟩)] ∧ ¬ Spec.NodesOk [(5, ⟨1, 1⟩), (-5, ⟨1, 2⟩)] ∧ ¬ Spec.NodesOk [(5, ⟨-1, 1⟩)] := by
  refine ⟨fun h => absurd h.2 (by decide), fun h => absurd h.2 (by decide), fun h => absurd h.1 (by decide)⟩

end Tiles
