import Verif.Props.C19
/-! C20 — the batch lookup gives every query the answer of a single lookup.

The batch lookup is a state machine that jumps between the index and the data; `getCoordsBatch … fuel …` runs it for `fuel`
rounds and gives `none` when it has not finished by then. -/
namespace Tiles

/-- `std::sort` by absolute id: a permutation, ordered; equal ids may come in any order -/
def Spec.SortsByAbsId (srt : List NodeQuery → List NodeQuery) : Prop :=
  ∀ l, (srt l).Perm l ∧ (srt l).Pairwise (fun a b => a.1.natAbs ≤ b.1.natAbs)

/-- `l` is what the batch lookup leaves in the locations: it finishes with `l`, and never with anything else or an error, however
long it is run -/
def Spec.BatchResult (n : NodeIdx) (srt : List NodeQuery → List NodeQuery) (qs : List NodeQuery) (locs l : Nat → XY) : Prop :=
  ∃ k, ∀ fuel, getCoordsBatch n srt fuel qs locs = .ok (if fuel < k then none else some l)

/-- more fuel does not change a result -/
theorem batchRun_mono {n : NodeIdx} {k : Nat} {s : BatchState} {l : Nat → XY} (h : batchRun n k s = .ok (some l)) :
    ∃ k0, ∀ fuel, batchRun n fuel s = .ok (if fuel < k0 then none else some l) := by
  induction k generalizing s with
  | zero => simp [batchRun] at h
  | succ k ih =>
    rw [batchRun] at h
    cases hb : batchStep n s with
    | throw_ => rw [hb] at h; simp at h
    | ub => rw [hb] at h; simp at h
    | ok o =>
      rw [hb, Res.ok_bind] at h
      cases o with
      | none =>
        simp only [Res.pure_eq, Res.ok.injEq, Option.some.injEq] at h
        refine ⟨1, fun fuel => ?_⟩
        cases fuel with
        | zero => rfl
        | succ f => rw [batchRun, hb, Res.ok_bind, h, if_neg (by omega)]; rfl
      | some s' =>
        obtain ⟨k0, hk⟩ := ih h
        refine ⟨k0 + 1, fun fuel => ?_⟩
        cases fuel with
        | zero => simp [batchRun]
        | succ f =>
          rw [batchRun, hb, Res.ok_bind]
          dsimp only
          rw [hk f]
          by_cases hf : f < k0
          · rw [if_pos hf, if_pos (by omega)]
          · rw [if_neg hf, if_neg (by omega)]

theorem applyAll_other (nodes : List (Int × XY)) (qs : List NodeQuery) (l : Nat → XY) {r : Nat} (h : r ∉ qs.map (·.2)) :
    applyAll nodes qs l r = l r := by
  induction qs generalizing l with
  | nil => rfl
  | cons q qs ih =>
    simp only [List.map_cons, List.mem_cons, not_or] at h
    simp only [applyAll, List.foldl_cons]
    refine (ih _ h.2).trans ?_
    cases Spec.nodeAt nodes q.1 with
    | none => rfl
    | some p => simp [setLoc, h.1]

theorem applyAll_query (nodes : List (Int × XY)) (qs : List NodeQuery) (l : Nat → XY) (hnd : (qs.map (·.2)).Nodup) {q : NodeQuery}
    (hq : q ∈ qs) :
    applyAll nodes qs l q.2 = match Spec.nodeAt nodes q.1 with | some p => ⟨wrap32 p.x, wrap32 p.y⟩ | none => l q.2 := by
  induction qs generalizing l with
  | nil => simp at hq
  | cons a qs ih =>
    simp only [List.map_cons, List.nodup_cons] at hnd
    simp only [applyAll, List.foldl_cons]
    rcases List.mem_cons.mp hq with rfl | hq
    · refine (applyAll_other nodes qs _ hnd.1).trans ?_
      cases Spec.nodeAt nodes q.1 with
      | none => rfl
      | some p => simp [setLoc]
    · have hne : q.2 ≠ a.2 := by
        intro he
        exact hnd.1 (he ▸ List.mem_map_of_mem hq)
      refine (ih _ hnd.2 hq).trans ?_
      cases Spec.nodeAt nodes q.1 with
      | some p => rfl
      | none =>
        cases Spec.nodeAt nodes a.1 with
        | none => rfl
        | some p => simp [setLoc, hne]

/-- **every batch, in any order, with any ids (repeated, missing, before the first or behind the last node), finishes and gives
each query's location what a single lookup of its id gives** (converted to the location's 32-bit integers), leaving it alone when
the single lookup finds nothing, and touching no other location -/
theorem C20_batch (nodes : List (Int × XY)) (hids : ∀ n ∈ nodes, -(2 ^ 63 - 1) < n.1 ∧ n.1 < 2 ^ 63 - 1)
    (n : NodeIdx) (hn : buildNodeIdx nodes = .ok n)
    (srt : List NodeQuery → List NodeQuery) (hsrt : Spec.SortsByAbsId srt)
    (qs : List NodeQuery) (hq : ∀ q ∈ qs, -2 ^ 63 < q.1) (hd : (qs.map (·.2)).Nodup) (locs : Nat → XY) :
    ∃ l, Spec.BatchResult n srt qs locs l ∧
      (∀ q ∈ qs, ∃ o, getCoords n q.1 = .ok o ∧
        l q.2 = match o with | some p => ⟨wrap32 p.x, wrap32 p.y⟩ | none => locs q.2) ∧
      (∀ r, r ∉ qs.map (·.2) → l r = locs r) := by
  have hok : Spec.NodesOk nodes := by
    by_contra hno
    rw [C19_refused nodes hids hno] at hn
    simp at hn
  by_cases hne : nodes = []
  · subst hne
    have : buildNodeIdx [] = .ok ⟨[], encVarint 1⟩ := by
      simp [buildNodeIdx, NodeBuilder.pushAll, NodeBuilder.finish, NodeBuilder.init, NodeBuilder.pushCoordSpan,
        NodeBuilder.pushEmptySpan]
    rw [this] at hn
    injection hn with hn
    subst hn
    refine ⟨locs, ⟨0, fun fuel => by simp [getCoordsBatch]⟩, fun q _ => ⟨none, by simp [getCoords], rfl⟩, fun _ _ => rfl⟩
  · obtain ⟨n', start, ss, h1, h2⟩ := (build_spec hids hne).1 hok
    rw [hn] at h1
    injection h1 with h1
    subst h1
    obtain ⟨hp, hs⟩ := hsrt qs
    obtain ⟨fuel, hf⟩ := batch_ends h2 (srt := srt) qs hs locs
    obtain ⟨k, hk⟩ := batchRun_mono hf
    obtain ⟨r, hr⟩ := h2.head
    have hperm : ((srt qs).map (·.2)).Perm (qs.map (·.2)) := hp.map _
    refine ⟨applyAll nodes (srt qs) locs, ⟨k, fun fuel => ?_⟩, fun q hqm => ⟨_, getCoords_built h2 (hq q hqm), ?_⟩, fun i hi => ?_⟩
    · unfold getCoordsBatch
      rw [hr]
      dsimp only
      have : qs.any (fun q => decide (q.1 ≤ -2 ^ 63)) = false := by
        rw [List.any_eq_false]
        intro q hqm
        have := hq q hqm
        simp only [decide_eq_true_eq]
        omega
      rw [this]
      exact hk fuel
    · exact applyAll_query nodes (srt qs) locs (hperm.nodup_iff.mpr hd) (hp.mem_iff.mpr hqm)
    · exact applyAll_other nodes (srt qs) locs (fun hm => hi (hperm.mem_iff.mp hm))

/-- non-vacuous: there is a sorting function, and a batch over the example input with a repeated, a missing and a far id -/
example : Spec.SortsByAbsId (fun l => l.mergeSort (fun a b => decide (a.1.natAbs ≤ b.1.natAbs))) := by
  intro l
  refine ⟨List.mergeSort_perm _ _, ?_⟩
  have := List.pairwise_mergeSort (le := fun a b : NodeQuery => decide (a.1.natAbs ≤ b.1.natAbs))
    (fun a b c h1 h2 => by simp at *; omega) (fun a b => by simp; omega) l
  exact this.imp (fun h => by simpa using h)

example : (∀ q ∈ ([(400, 0), (18, 1), (-18, 2), (20, 3), (5000, 4), (1, 5)] : List NodeQuery), -2 ^ 63 < q.1) ∧
    (([(400, 0), (18, 1), (-18, 2), (20, 3), (5000, 4), (1, 5)] : List NodeQuery).map (·.2)).Nodup := by
  refine ⟨by decide, by decide⟩

end Tiles
