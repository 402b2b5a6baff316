import Verif.Proof.CoastRun
import Verif.Proof.Threads
/-! C34: the loader can always come to an end. -/
namespace Tiles
open Spec

mutual
/-- how much a task has to do -/
def taskWeight : WTask CoastEv → Nat
  | .mk es => 2 + emitWeight es
def emitWeight : List (WTask CoastEv ⊕ CoastEv) → Nat
  | [] => 0
  | .inl t :: es => taskWeight t + 2 + emitWeight es
  | .inr _ :: es => 4 + emitWeight es
end

def pcWeight : DrainPc CoastEv → Nat
  | .wRun es => 1 + emitWeight es
  | .wPutWork t es => 2 + taskWeight t + emitWeight es
  | .wPutResult _ es => 4 + emitWeight es
  | .cGot _ => 1
  | _ => 0

/-- steps of the collector to its next useful move -/
def pcDist (empty : Bool) : DrainPc CoastEv → Nat
  | .cDequeue => if empty then 3 else 1
  | .cFirst => if empty then 2 else 3
  | .cSecond => if empty then 1 else 2
  | _ => 0

def mainWeight (s : CoastShared × List (DrainPc CoastEv)) : Nat :=
  (s.1.q.work.items.map taskWeight).sum + 2 * s.1.q.result.items.length + (s.2.map pcWeight).sum

def isWorker : DrainPc CoastEv → Bool
  | .wIdle => true
  | .wRun _ => true
  | .wPutWork _ _ => true
  | .wPutResult _ _ => true
  | .wExit => true
  | _ => false

def isActive : DrainPc CoastEv → Bool
  | .wRun _ => true
  | .wPutWork _ _ => true
  | .wPutResult _ _ => true
  | _ => false

structure ShapeInv (n : Nat) (s : CoastShared × List (DrainPc CoastEv)) : Prop where
  shape : ∃ c ws, s.2 = c :: ws ∧ isWorker c = false ∧ (∀ w ∈ ws, isWorker w = true) ∧ ws.length = n
  gone : .wExit ∈ s.2 → s.1.q.work.pending = 0

theorem coastStep_kind {k : Option Nat} {quit : Bool} {s s' : CoastShared} {p p' : DrainPc CoastEv}
    (h : coastStep k quit s p = some (s', p')) :
    isWorker p' = isWorker p ∧ (p' = .wExit → s'.q.work.pending = 0) ∧
      (s.q.work.pending = 0 → (∀ es, p ≠ .wRun es) → s'.q.work.pending = 0) := by
  match p with
  | .wIdle =>
    simp only [coastStep, drainStep] at h
    split at h
    · split at h
      · rename_i hz
        simp only [Option.map_some] at h
        injection h with h; injection h with e1 e2; subst e1; subst e2; exact ⟨rfl, fun _ => hz, fun h _ => h⟩
      · cases h
    · split at h
      · simp only [Option.map_some] at h
        injection h with h; injection h with e1 e2; subst e1; subst e2; exact ⟨rfl, by simp, fun h _ => h⟩
      · rename_i ht
        simp only [Option.map_some] at h
        injection h with h; injection h with e1 e2; subst e1; subst e2
        exact ⟨rfl, by simp, fun h _ => by dsimp only; rw [(take_spec ht).1]; exact h⟩
  | .wRun (.inl t :: es) =>
    simp only [coastStep, drainStep, Option.map_some] at h; injection h with h; injection h with e1 e2; subst e1; subst e2
    exact ⟨rfl, by simp, fun _ h => absurd rfl (h _)⟩
  | .wRun (.inr r :: es) =>
    simp only [coastStep, drainStep, Option.map_some] at h
    split at h <;> (injection h with h; injection h with e1 e2; subst e1; subst e2; exact ⟨rfl, by simp, fun _ h => absurd rfl (h _)⟩)
  | .wRun [] =>
    simp only [coastStep, drainStep, Option.map_some] at h; injection h with h; injection h with e1 e2; subst e1; subst e2
    exact ⟨rfl, by simp, fun _ h => absurd rfl (h _)⟩
  | .wPutWork t es =>
    simp only [coastStep, drainStep, Option.map_some] at h; injection h with h; injection h with e1 e2; subst e1; subst e2
    exact ⟨rfl, by simp, fun h _ => h⟩
  | .wPutResult r es =>
    simp only [coastStep, drainStep, Option.map_some] at h; injection h with h; injection h with e1 e2; subst e1; subst e2
    exact ⟨rfl, by simp, fun h _ => h⟩
  | .wExit => simp [coastStep, drainStep] at h
  | .cExit => simp [coastStep, drainStep] at h
  | .cFirst =>
    simp only [coastStep, drainStep, if_true] at h
    split at h <;> (simp only [Option.map_some] at h; injection h with h; injection h with e1 e2; subst e1; subst e2; exact ⟨rfl, by simp, fun h _ => h⟩)
  | .cSecond =>
    simp only [coastStep, drainStep, if_true] at h
    split at h <;> (simp only [Option.map_some] at h; injection h with h; injection h with e1 e2; subst e1; subst e2; exact ⟨rfl, by simp, fun h _ => h⟩)
  | .cDequeue =>
    simp only [coastStep, drainStep] at h
    split at h <;> (simp only [Option.map_some] at h; injection h with h; injection h with e1 e2; subst e1; subst e2; exact ⟨rfl, by simp, fun h _ => h⟩)
  | .cGot r =>
    simp only [coastStep, drainStep, Option.map_some] at h; injection h with h; injection h with e1 e2; subst e1; subst e2
    exact ⟨rfl, by simp, fun h _ => h⟩

theorem shapeInv_step {tasks : List (WTask CoastEv)} {n : Nat} {s t : CoastShared × List (DrainPc CoastEv)} (hi : CoastInv tasks s)
    (h : ShapeInv n s) (st : CoastStep s t) : ShapeInv n t := by
  obtain ⟨k, quit, s, s', a, b, p, p', hp⟩ := st
  obtain ⟨⟨c, ws, hs, hc, hw, hl⟩, hg⟩ := h
  obtain ⟨k1, k2, k3⟩ := coastStep_kind hp
  refine ⟨?_, ?_⟩
  · match a, hs with
    | [], hs =>
      injection hs with e1 e2; subst e1; subst e2
      exact ⟨p', b, rfl, by rw [k1]; exact hc, hw, hl⟩
    | x :: a, hs =>
      injection hs with e1 e2; subst e1; subst e2
      refine ⟨x, a ++ p' :: b, rfl, hc, ?_, by simpa using hl⟩
      intro w hm
      rcases List.mem_append.1 hm with hm | hm
      · exact hw w (List.mem_append.2 (.inl hm))
      · rcases List.mem_cons.1 hm with rfl | hm
        · rw [k1]; exact hw p (by simp)
        · exact hw w (List.mem_append.2 (.inr (.tail _ hm)))
  · intro hm
    by_cases he : p' = .wExit
    · exact k2 he
    · have hm' : DrainPc.wExit ∈ a ++ p :: b := mem_mid (fun h => he h.symm) hm
      have hz := hg hm'
      have hz' : s.q.work.pending = 0 := hz
      refine k3 hz' ?_
      rintro es rfl
      have hwk : s.q.work.pending = s.q.work.items.length + ((a ++ DrainPc.wRun es :: b).map DrainPc.work).sum := hi.drain.work
      simp only [List.map_append, List.map_cons, List.sum_append, List.sum_cons, DrainPc.work] at hwk
      omega

theorem shapeInv_reach {tasks : List (WTask CoastEv)} {n : Nat} {s : CoastShared × List (DrainPc CoastEv)}
    (h : Reach CoastStep (coastInit tasks n) s) : ShapeInv n s := by
  induction h with
  | refl =>
    refine ⟨⟨.cFirst, List.replicate n .wIdle, rfl, rfl, ?_, by simp⟩, ?_⟩
    · intro w hw; rw [(List.mem_replicate.1 hw).2]; rfl
    · intro hm; simp [coastInit, drainInit, List.mem_replicate] at hm
  | step hr st ih => exact shapeInv_step (coastInv_reach hr) ih st

theorem active_step {k : Option Nat} {quit : Bool} (s : CoastShared) {p : DrainPc CoastEv} (hp : isActive p = true) :
    ∃ s' p', coastStep k quit s p = some (s', p') ∧
      (s'.q.work.items.map taskWeight).sum + 2 * s'.q.result.items.length + pcWeight p' <
      (s.q.work.items.map taskWeight).sum + 2 * s.q.result.items.length + pcWeight p := by
  match p with
  | .wRun (.inl t :: es) => exact ⟨_, _, rfl, by simp [pcWeight, emitWeight]; omega⟩
  | .wRun (.inr r :: es) =>
    by_cases hr : r.direct = true
    · exact ⟨_, _, by simp only [coastStep, if_pos hr]; exact rfl, by simp [pcWeight, emitWeight]⟩
    · exact ⟨_, _, by simp only [coastStep, if_neg hr]; exact rfl, by simp [pcWeight, emitWeight]⟩
  | .wRun [] => exact ⟨_, _, rfl, by simp [pcWeight, emitWeight]⟩
  | .wPutWork t es => exact ⟨_, _, rfl, by simp [pcWeight]; omega⟩
  | .wPutResult r es => exact ⟨_, _, rfl, by simp [pcWeight]; omega⟩
  | .wIdle => cases hp
  | .wExit => cases hp
  | .cExit => cases hp
  | .cFirst => cases hp
  | .cSecond => cases hp
  | .cDequeue => cases hp
  | .cGot r => cases hp

theorem sum_mid {P : Type} (f : P → Nat) (a b : List P) (p : P) : ((a ++ p :: b).map f).sum = f p + ((a ++ b).map f).sum := by
  simp; omega

theorem worker_idle {w : DrainPc CoastEv} (h1 : isWorker w = true) (h2 : isActive w = false) (h3 : w ≠ .wExit) : w = .wIdle := by
  cases w <;> simp_all [isWorker, isActive]

theorem inactive_counts {w : DrainPc CoastEv} (h1 : isWorker w = true) (h2 : isActive w = false) : w.work = 0 ∧ w.result = 0 := by
  cases w <;> simp_all [isWorker, isActive, DrainPc.work, DrainPc.result]

/-- one useful move -/
theorem coast_move {tasks : List (WTask CoastEv)} {n : Nat} (hn : 0 < n) {s : CoastShared × List (DrainPc CoastEv)}
    (hr : Reach CoastStep (coastInit tasks n) s) (he : .cExit ∉ s.2) :
    ∃ t, CoastStep s t ∧ (.cExit ∈ t.2 ∨
      4 * mainWeight t + (t.2.map (pcDist t.1.q.result.items.isEmpty)).sum <
      4 * mainWeight s + (s.2.map (pcDist s.1.q.result.items.isEmpty)).sum) := by
  obtain ⟨⟨c, ws, hs, hc, hw, hl⟩, hg⟩ := shapeInv_reach hr
  have hi := coastInv_reach hr
  obtain ⟨s, ps⟩ := s
  dsimp only at hs hg; subst hs
  have hwk : s.q.work.pending = s.q.work.items.length + ((c :: ws).map DrainPc.work).sum := hi.drain.work
  have hrk : s.q.result.pending = s.q.result.items.length + ((c :: ws).map DrainPc.result).sum := hi.drain.result
  have hwd : ∀ b, (ws.map (pcDist b)).sum = 0 := by
    intro b
    rw [List.sum_eq_zero_iff_forall_eq_nat]
    intro x hx
    obtain ⟨w, hm, rfl⟩ := List.mem_map.1 hx
    have := hw w hm
    cases w <;> simp_all [isWorker, pcDist]
  have hcd : ∀ b, pcDist b c ≤ 3 := by intro b; cases c <;> cases b <;> simp [pcDist]
  by_cases ha : ∃ w ∈ ws, isActive w = true
  · obtain ⟨w, hm, ha⟩ := ha
    obtain ⟨a, b, rfl⟩ := List.append_of_mem hm
    obtain ⟨s', p', hst, hlt⟩ := active_step (k := none) (quit := false) s ha
    refine ⟨(s', (c :: a) ++ p' :: b), ⟨none, false, .mk s s' (c :: a) b w p' hst⟩, .inr ?_⟩
    have hk := coastStep_kind hst
    have hp' : isWorker p' = true := by rw [hk.1]; exact hw w (by simp)
    have hd' : ∀ b', pcDist b' p' = 0 := by intro b'; cases p' <;> simp_all [isWorker, pcDist]
    have := hwd s.q.result.items.isEmpty
    have hx := hwd s'.q.result.items.isEmpty
    rw [sum_mid] at this hx
    simp only [mainWeight, List.cons_append, List.map_cons, List.sum_cons]
    rw [sum_mid, sum_mid, sum_mid, sum_mid, hd']
    have h1 := hcd s'.q.result.items.isEmpty
    omega
  · have hna : ∀ w ∈ ws, isActive w = false := by
      intro w hm
      cases h : isActive w
      · rfl
      · exact absurd ⟨w, hm, h⟩ ha
    have w0 : (ws.map DrainPc.work).sum = 0 := by
      rw [List.sum_eq_zero_iff_forall_eq_nat]
      intro x hx
      obtain ⟨w, hm, rfl⟩ := List.mem_map.1 hx
      exact (inactive_counts (hw w hm) (hna w hm)).1
    have r0 : (ws.map DrainPc.result).sum = 0 := by
      rw [List.sum_eq_zero_iff_forall_eq_nat]
      intro x hx
      obtain ⟨w, hm, rfl⟩ := List.mem_map.1 hx
      exact (inactive_counts (hw w hm) (hna w hm)).2
    have cw : c.work = 0 := by cases c <;> simp_all [isWorker, DrainPc.work]
    rw [List.map_cons, List.sum_cons, w0, cw] at hwk
    rw [List.map_cons, List.sum_cons, r0] at hrk
    match hit : s.q.work.items with
    | (.mk es) :: rest =>
      rw [hit, List.length_cons] at hwk
      match ws, hl with
      | [], hl => simp at hl; omega
      | w :: ws, _ =>
        have hwi : w = .wIdle := worker_idle (hw w (by simp)) (hna w (by simp)) (by
          rintro rfl
          have := hg (by simp)
          omega)
        subst hwi
        refine ⟨({ s with q := { s.q with work := ⟨s.q.work.pending, rest⟩ } }, [c] ++ .wRun es :: ws),
          ⟨some 0, false, .mk _ _ [c] ws .wIdle _ ?_⟩, .inr ?_⟩
        · simp [coastStep, drainStep, WQueue.take, hit]
        · have := hwd s.q.result.items.isEmpty
          simp [mainWeight, hit, pcWeight, taskWeight, pcDist] at this ⊢
          omega
    | [] =>
      rw [hit] at hwk
      have hz : s.q.work.pending = 0 := by simpa using hwk
      match c, hc, he, hcd, hrk with
      | .cGot r, _, _, _, _ =>
        refine ⟨(_, [] ++ .cFirst :: ws), ⟨none, false, .mk _ _ [] ws (.cGot r) _ rfl⟩, .inr ?_⟩
        simp only [mainWeight, List.nil_append, List.map_cons, List.sum_cons, pcWeight, hwd]
        have : pcDist s.q.result.items.isEmpty (.cFirst) ≤ 3 := by cases s.q.result.items.isEmpty <;> simp [pcDist]
        have h0 : pcDist s.q.result.items.isEmpty (.cGot r) = 0 := rfl
        omega
      | .cFirst, _, _, _, _ =>
        refine ⟨(s, [] ++ .cSecond :: ws), ⟨none, false, .mk _ _ [] ws .cFirst _ (by simp [coastStep, drainStep, hz])⟩, .inr ?_⟩
        simp only [mainWeight, List.nil_append, List.map_cons, List.sum_cons, pcWeight, hwd]
        cases s.q.result.items.isEmpty <;> simp [pcDist]
      | .cSecond, _, _, _, hrk =>
        by_cases hre : s.q.result.items = []
        · have : s.q.result.pending = 0 := by rw [hre] at hrk; simpa [DrainPc.result] using hrk
          exact ⟨(s, [] ++ .cExit :: ws), ⟨none, false, .mk _ _ [] ws .cSecond _ (by simp [coastStep, drainStep, this])⟩, .inl (by simp)⟩
        · have hp : s.q.result.pending ≠ 0 := by
            have := List.length_pos_iff.2 hre; omega
          refine ⟨(s, [] ++ .cDequeue :: ws), ⟨none, false, .mk _ _ [] ws .cSecond _ (by simp [coastStep, drainStep, hp])⟩, .inr ?_⟩
          simp only [mainWeight, List.nil_append, List.map_cons, List.sum_cons, pcWeight, hwd]
          have : s.q.result.items.isEmpty = false := by simpa using hre
          rw [this]; simp [pcDist]
      | .cDequeue, _, _, _, _ =>
        match hri : s.q.result.items with
        | [] =>
          refine ⟨(s, [] ++ .cFirst :: ws), ⟨none, false, .mk _ _ [] ws .cDequeue _ (by simp [coastStep, drainStep, WQueue.take])⟩, .inr ?_⟩
          simp only [mainWeight, List.nil_append, List.map_cons, List.sum_cons, pcWeight, hwd, hri]
          simp [pcDist]
        | r :: rs =>
          refine ⟨({ s with q := { s.q with result := ⟨s.q.result.pending, rs⟩ } }, [] ++ .cGot r :: ws),
            ⟨some 0, false, .mk _ _ [] ws .cDequeue _ (by simp [coastStep, drainStep, WQueue.take, hri])⟩, .inr ?_⟩
          simp only [mainWeight, List.nil_append, List.map_cons, List.sum_cons, pcWeight, hwd, hri, List.length_cons]
          simp [pcDist]; omega
      | .cExit, _, he, _, _ => simp at he
      | .wIdle, hc, _, _, _ => cases hc
      | .wRun _, hc, _, _, _ => cases hc
      | .wPutWork _ _, hc, _, _, _ => cases hc
      | .wPutResult _ _, hc, _, _, _ => cases hc
      | .wExit, hc, _, _, _ => cases hc

theorem coast_can_end {tasks : List (WTask CoastEv)} {n : Nat} (hn : 0 < n) (m : Nat) (s : CoastShared × List (DrainPc CoastEv))
    (hr : Reach CoastStep (coastInit tasks n) s)
    (hm : 4 * mainWeight s + (s.2.map (pcDist s.1.q.result.items.isEmpty)).sum ≤ m) :
    ∃ t, Reach CoastStep s t ∧ .cExit ∈ t.2 := by
  induction m generalizing s with
  | zero =>
    by_cases he : .cExit ∈ s.2
    · exact ⟨s, .refl, he⟩
    · obtain ⟨t, st, h | h⟩ := coast_move hn hr he
      · exact ⟨t, .step .refl st, h⟩
      · omega
  | succ m ih =>
    by_cases he : .cExit ∈ s.2
    · exact ⟨s, .refl, he⟩
    · obtain ⟨t, st, h | h⟩ := coast_move hn hr he
      · exact ⟨t, .step .refl st, h⟩
      · obtain ⟨u, h1, h2⟩ := ih t (.step hr st) (by omega)
        exact ⟨u, reach_trans (.step .refl st) h1, h2⟩

end Tiles
