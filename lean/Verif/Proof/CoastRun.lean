import Mathlib.Data.List.Nodup
import Verif.Proof.Coastline
/-! C34: all tasks together, and the threads. -/
namespace Tiles
open Spec

theorem valid_below {t l : Tile} (h : AncOrSelf t l) (hv : t.Valid) : l.Valid :=
  valid_of_root (ancOrSelf_trans (root_ancOrSelf hv) h)

/-- all that happens to the tiles -/
structure CoastAll (tiles : List Tile) (es : List CoastEv) : Prop where
  below : ∀ l ∈ leaves es, (∃ t ∈ tiles, AncOrSelf t l ∧ t.z < l.z) ∧ l.z ≤ 10
  once : ∀ q, 10 ≤ q.z → timesCovered (leaves es) q = timesCovered tiles q
  progress : coastProgress es = (tiles.map (fun t => 4 ^ (10 - t.z))).sum
  db : ∀ l b, .db l b ∈ es → l.z = 10
  count : (leaves es).length ≤ coastProgress es

theorem coastTasks_all (lib : CoastLib) (cs : List Coast) (tiles : List Tile) (hz : ∀ t ∈ tiles, t.z ≤ 10) (ws : List (WTask CoastEv))
    (h : coastTasks lib cs tiles = .ok ws) : CoastAll tiles (ws.flatMap resultsOf) := by
  induction tiles generalizing ws with
  | nil => injection h with h; subst h; exact ⟨by simp [leaves], by simp [leaves], rfl, by simp, by simp [leaves]⟩
  | cons t ts ih =>
    unfold coastTasks at h
    obtain ⟨w, hw, h⟩ := Res.bind_eq_ok.1 h
    obtain ⟨ws', hws, h⟩ := Res.bind_eq_ok.1 h
    injection h with h; subst h
    obtain ⟨b1, o1, p1, d1, c1⟩ := ih (fun t ht => hz t (.tail _ ht)) ws' hws
    have hzt := hz t (.head _)
    obtain ⟨k, hk⟩ := coastTask_ok lib (10 - t.z) t cs w (by omega) hw
    refine ⟨?_, ?_, ?_, ?_, ?_⟩
    · intro l hl
      rw [List.flatMap_cons, leaves_append, List.mem_append] at hl
      rcases hl with hl | hl
      · exact ⟨⟨t, .head _, (k.below l hl).1, hk l hl⟩, (k.below l hl).2⟩
      · obtain ⟨⟨t', ht', h1⟩, h2⟩ := b1 l hl
        exact ⟨⟨t', .tail _ ht', h1⟩, h2⟩
    · intro q hq
      rw [List.flatMap_cons, leaves_append, timesCovered_append, o1 q hq]
      by_cases ha : AncOrSelf t q
      · rw [k.once q hq ha]; simp [timesCovered, ha]; omega
      · rw [k.none ha]; simp [timesCovered, ha]
    · rw [List.flatMap_cons, coastProgress_append, p1, k.progress]; simp
    · intro l b hm
      rw [List.flatMap_cons, List.mem_append] at hm
      rcases hm with hm | hm
      · exact k.db l b hm
      · exact d1 l b hm
    · rw [List.flatMap_cons, coastProgress_append, leaves_append, List.length_append]
      have := k.count
      omega

theorem mem_tilesOfZoom {z : Nat} {t : Tile} : t ∈ tilesOfZoom z ↔ t.z = z ∧ t.Valid := by
  obtain ⟨x, y, z'⟩ := t
  simp only [tilesOfZoom, List.mem_flatMap, List.mem_range, List.mem_map, Tile.mk.injEq, Tile.Valid]
  constructor
  · rintro ⟨b, hb, a, ha, rfl, rfl, rfl⟩; exact ⟨rfl, ha, hb⟩
  · rintro ⟨rfl, ha, hb⟩; exact ⟨y, hb, x, ha, rfl, rfl, rfl⟩

theorem tilesOfZoom_nodup (z : Nat) : (tilesOfZoom z).Nodup := by
  unfold tilesOfZoom
  rw [List.nodup_flatMap]
  refine ⟨fun y _ => ?_, ?_⟩
  · exact List.Nodup.map (fun a b h => by injection h) List.nodup_range
  · refine List.Pairwise.imp ?_ List.nodup_range
    intro a b hab
    simp only [List.disjoint_left, List.mem_map]
    rintro t ⟨x, _, rfl⟩ ⟨x', _, h⟩
    injection h with _ h; exact hab h.symm

theorem tilesOfZoom_covers {z : Nat} {q : Tile} (hq : q.Valid) (hz : z ≤ q.z) : timesCovered (tilesOfZoom z) q = 1 := by
  let t0 : Tile := ⟨q.x / 2 ^ (q.z - z), q.y / 2 ^ (q.z - z), z⟩
  have h0 : AncOrSelf t0 q := ⟨hz, rfl, rfl⟩
  have hm : t0 ∈ tilesOfZoom z := mem_tilesOfZoom.2 ⟨rfl, valid_anc h0 hq⟩
  have e : timesCovered (tilesOfZoom z) q = (tilesOfZoom z).count t0 := by
    refine List.countP_congr fun t ht => ?_
    have hz' := (mem_tilesOfZoom.1 ht).1
    simp only [decide_eq_true_eq, beq_iff_eq]
    constructor
    · intro ha
      exact ancOrSelf_same_z (ancOrSelf_linear ha h0 (by rw [hz'])) hz'
    · rintro rfl; exact h0
  rw [e, (tilesOfZoom_nodup z).count, if_pos hm]

theorem length_tilesOfZoom (z : Nat) : (tilesOfZoom z).length = 4 ^ z := by
  simp [tilesOfZoom, List.length_flatMap, ← Nat.mul_pow]

/-! ### threads -/

/-- a state of the loader as a state of the plain loops: what was done directly counts as handled -/
def coastDrain (s : CoastShared × List (DrainPc CoastEv)) : DrainShared CoastEv × List (DrainPc CoastEv) :=
  ({ s.1.q with handled := s.1.log ++ s.1.q.handled }, s.2)

/-- what a thread holds for the database is no direct event -/
def coastPcOk : DrainPc CoastEv → Prop
  | .wPutResult r _ => r.direct = false
  | .cGot r => r.direct = false
  | _ => True

structure CoastInv (tasks : List (WTask CoastEv)) (s : CoastShared × List (DrainPc CoastEv)) : Prop where
  drain : DrainInv true tasks (coastDrain s)
  log : ∀ e ∈ s.1.log, e.direct = true
  handled : ∀ e ∈ s.1.q.handled, e.direct = false
  queue : ∀ e ∈ s.1.q.result.items, e.direct = false
  pcs : ∀ p ∈ s.2, coastPcOk p

theorem coastInv_init (tasks : List (WTask CoastEv)) (n : Nat) : CoastInv tasks (coastInit tasks n) := by
  refine ⟨drainInv_init true tasks n, by simp [coastInit], by simp [coastInit, drainInit], by simp [coastInit, drainInit], ?_⟩
  intro p hp
  simp only [coastInit, drainInit, List.mem_cons, List.mem_replicate] at hp
  rcases hp with rfl | ⟨_, rfl⟩ <;> trivial

/-- a move that is also one of the plain loops commutes with `coastDrain` -/
theorem drainStep_pre {k : Option Nat} {quit : Bool} {s s' : DrainShared CoastEv} {p p' : DrainPc CoastEv} (l : List CoastEv)
    (h : drainStep true k quit s p = some (s', p')) :
    drainStep true k quit { s with handled := l ++ s.handled } p = some ({ s' with handled := l ++ s'.handled }, p') := by
  match p with
  | .wIdle =>
    simp only [drainStep] at h ⊢
    split at h
    · rename_i hq; rw [if_pos hq]
      split at h
      · rename_i hz; rw [if_pos hz]; injection h with h; injection h with h1 h2; subst h1; subst h2; rfl
      · cases h
    · rename_i hq; rw [if_neg hq]
      split at h
      · injection h with h; injection h with h1 h2; subst h1; subst h2; rfl
      · injection h with h; injection h with h1 h2; subst h1; subst h2; rfl
  | .wRun (.inl t :: es) => simp only [drainStep] at h ⊢; injection h with h; injection h with h1 h2; subst h1; subst h2; rfl
  | .wRun (.inr r :: es) => simp only [drainStep] at h ⊢; injection h with h; injection h with h1 h2; subst h1; subst h2; rfl
  | .wRun [] => simp only [drainStep] at h ⊢; injection h with h; injection h with h1 h2; subst h1; subst h2; rfl
  | .wPutWork t es => simp only [drainStep] at h ⊢; injection h with h; injection h with h1 h2; subst h1; subst h2; rfl
  | .wPutResult r es => simp only [drainStep] at h ⊢; injection h with h; injection h with h1 h2; subst h1; subst h2; rfl
  | .wExit => simp [drainStep] at h
  | .cExit => simp [drainStep] at h
  | .cFirst =>
    simp only [drainStep, if_true] at h ⊢
    split at h <;> (rename_i hz; first | rw [if_pos hz] | rw [if_neg hz]) <;>
      (injection h with h; injection h with h1 h2; subst h1; subst h2; rfl)
  | .cSecond =>
    simp only [drainStep, if_true] at h ⊢
    split at h <;> (rename_i hz; first | rw [if_pos hz] | rw [if_neg hz]) <;>
      (injection h with h; injection h with h1 h2; subst h1; subst h2; rfl)
  | .cDequeue =>
    simp only [drainStep] at h ⊢
    split at h
    · injection h with h; injection h with h1 h2; subst h1; subst h2; rfl
    · injection h with h; injection h with h1 h2; subst h1; subst h2; rfl
  | .cGot r =>
    simp only [drainStep] at h ⊢; injection h with h; injection h with h1 h2; subst h1; subst h2
    simp

theorem take_mem {A : Type} {q q' : WQueue A} {k : Option Nat} {a : A} (h : q.take k = some (a, q')) :
    a ∈ q.items ∧ ∀ b ∈ q'.items, b ∈ q.items := by
  obtain ⟨_, hp⟩ := take_spec h
  exact ⟨hp.mem_iff.2 (.head _), fun b hb => hp.mem_iff.2 (.tail _ hb)⟩

/-- what goes through the queues is not direct -/
theorem drainStep_direct {k : Option Nat} {quit : Bool} {s s' : DrainShared CoastEv} {p p' : DrainPc CoastEv}
    (h : drainStep true k quit s p = some (s', p')) (hnd : ∀ r es, p = .wRun (.inr r :: es) → r.direct = false)
    (h1 : ∀ e ∈ s.handled, e.direct = false) (h2 : ∀ e ∈ s.result.items, e.direct = false) (h3 : coastPcOk p) :
    (∀ e ∈ s'.handled, e.direct = false) ∧ (∀ e ∈ s'.result.items, e.direct = false) ∧ coastPcOk p' := by
  match p with
  | .wIdle =>
    simp only [drainStep] at h
    split at h
    · split at h
      · injection h with h; injection h with e1 e2; subst e1; subst e2; exact ⟨h1, h2, trivial⟩
      · cases h
    · split at h
      · injection h with h; injection h with e1 e2; subst e1; subst e2; exact ⟨h1, h2, trivial⟩
      · injection h with h; injection h with e1 e2; subst e1; subst e2; exact ⟨h1, h2, trivial⟩
  | .wRun (.inl t :: es) => simp only [drainStep] at h; injection h with h; injection h with e1 e2; subst e1; subst e2; exact ⟨h1, h2, trivial⟩
  | .wRun (.inr r :: es) =>
    simp only [drainStep] at h; injection h with h; injection h with e1 e2; subst e1; subst e2; exact ⟨h1, h2, hnd r es rfl⟩
  | .wRun [] => simp only [drainStep] at h; injection h with h; injection h with e1 e2; subst e1; subst e2; exact ⟨h1, h2, trivial⟩
  | .wPutWork t es => simp only [drainStep] at h; injection h with h; injection h with e1 e2; subst e1; subst e2; exact ⟨h1, h2, trivial⟩
  | .wPutResult r es =>
    simp only [drainStep] at h; injection h with h; injection h with e1 e2; subst e1; subst e2
    refine ⟨h1, ?_, trivial⟩
    intro e he
    rcases List.mem_append.1 he with he | he
    · exact h2 e he
    · rw [List.mem_singleton.1 he]; exact h3
  | .wExit => simp [drainStep] at h
  | .cExit => simp [drainStep] at h
  | .cFirst =>
    simp only [drainStep, if_true] at h
    split at h <;> (injection h with h; injection h with e1 e2; subst e1; subst e2; exact ⟨h1, h2, trivial⟩)
  | .cSecond =>
    simp only [drainStep, if_true] at h
    split at h <;> (injection h with h; injection h with e1 e2; subst e1; subst e2; exact ⟨h1, h2, trivial⟩)
  | .cDequeue =>
    simp only [drainStep] at h
    split at h
    · injection h with h; injection h with e1 e2; subst e1; subst e2; exact ⟨h1, h2, trivial⟩
    · rename_i ht
      injection h with h; injection h with e1 e2; subst e1; subst e2
      obtain ⟨m1, m2⟩ := take_mem ht
      exact ⟨h1, fun e he => h2 e (m2 e he), h2 _ m1⟩
  | .cGot r =>
    simp only [drainStep] at h; injection h with h; injection h with e1 e2; subst e1; subst e2
    refine ⟨?_, h2, trivial⟩
    intro e he
    rcases List.mem_append.1 he with he | he
    · exact h1 e he
    · rw [List.mem_singleton.1 he]; exact h3

/-- a direct event -/
theorem drainInv_direct {tasks : List (WTask CoastEv)} {s : DrainShared CoastEv} {a b : List (DrainPc CoastEv)} {r : CoastEv}
    {es : List (WTask CoastEv ⊕ CoastEv)} {l : List CoastEv}
    (h : DrainInv true tasks ({ s with handled := l ++ s.handled }, a ++ .wRun (.inr r :: es) :: b)) :
    DrainInv true tasks ({ s with handled := (l ++ [r]) ++ s.handled }, a ++ .wRun es :: b) := by
  classical
  obtain ⟨hw, hr, hc, h2, h3, h4⟩ := h
  refine ⟨?_, ?_, ?_, ?_, ?_, ?_⟩
  · simpa [DrainPc.work] using hw
  · simpa [DrainPc.result] using hr
  · refine perm_of_count fun x => ?_
    have hx := List.perm_iff_count.1 hc x
    simp only [List.flatMap_append, List.flatMap_cons, List.count_append, DrainPc.held, resultsOfEmits, List.count_cons, List.count_nil] at hx ⊢
    omega
  · exact fun e hm => h2 e (mem_mid (by simp) hm)
  · exact fun hm => h3 (mem_mid (by simp) hm)
  · exact fun e hm => h4 e (mem_mid (by simp) hm)

theorem coastInv_step {tasks : List (WTask CoastEv)} {s t : CoastShared × List (DrainPc CoastEv)} (h : CoastInv tasks s)
    (st : CoastStep s t) : CoastInv tasks t := by
  obtain ⟨k, quit, s, s', a, b, p, p', hp⟩ := st
  obtain ⟨i1, i2, i3, i4, i5⟩ := h
  have gen : ∀ q', drainStep true k quit s.q p = some (q', p') → (∀ r es, p = .wRun (.inr r :: es) → r.direct = false) →
      s' = { s with q := q' } → CoastInv tasks (s', a ++ p' :: b) := by
    intro q' hq hnd hs'
    subst hs'
    obtain ⟨d1, d2, d3⟩ := drainStep_direct hq hnd i3 i4 (i5 p (by simp))
    refine ⟨drainInv_step true tasks i1 ⟨k, quit, .mk _ _ a b p p' (drainStep_pre s.log hq)⟩, i2, d1, d2, ?_⟩
    intro x hx
    rcases List.mem_append.1 hx with hx | hx
    · exact i5 x (List.mem_append.2 (.inl hx))
    · rcases List.mem_cons.1 hx with rfl | hx
      · exact d3
      · exact i5 x (List.mem_append.2 (.inr (.tail _ hx)))
  by_cases hd : ∃ r es, p = .wRun (.inr r :: es) ∧ r.direct = true
  · obtain ⟨r, es, rfl, hr⟩ := hd
    simp only [coastStep, if_pos hr] at hp
    injection hp with hp; injection hp with e1 e2; subst e1; subst e2
    refine ⟨drainInv_direct i1, ?_, i3, i4, ?_⟩
    · intro e he
      rcases List.mem_append.1 he with he | he
      · exact i2 e he
      · rw [List.mem_singleton.1 he]; exact hr
    · intro x hx
      rcases List.mem_append.1 hx with hx | hx
      · exact i5 x (List.mem_append.2 (.inl hx))
      · rcases List.mem_cons.1 hx with rfl | hx
        · trivial
        · exact i5 x (List.mem_append.2 (.inr (.tail _ hx)))
  · have hnd : ∀ r es, p = .wRun (.inr r :: es) → r.direct = false := by
      intro r es hpe
      cases hr : r.direct
      · rfl
      · exact absurd ⟨r, es, hpe, hr⟩ hd
    have hp' : (drainStep true k quit s.q p).map (fun r => (({ s with q := r.1 } : CoastShared), r.2)) = some (s', p') := by
      match p, hp, hnd with
      | .wRun (.inr r :: es), hp, hnd =>
        simp only [coastStep, hnd r es rfl] at hp; exact hp
      | .wIdle, hp, _ => exact hp
      | .wRun (.inl t :: es), hp, _ => exact hp
      | .wRun [], hp, _ => exact hp
      | .wPutWork t es, hp, _ => exact hp
      | .wPutResult r es, hp, _ => exact hp
      | .wExit, hp, _ => exact hp
      | .cExit, hp, _ => exact hp
      | .cFirst, hp, _ => exact hp
      | .cSecond, hp, _ => exact hp
      | .cDequeue, hp, _ => exact hp
      | .cGot r, hp, _ => exact hp
    rw [Option.map_eq_some_iff] at hp'
    obtain ⟨⟨q', p''⟩, hq, he⟩ := hp'
    injection he with e1 e2; subst e1; subst e2
    exact gen q' hq hnd rfl

theorem coastInv_reach {tasks : List (WTask CoastEv)} {n : Nat} {s : CoastShared × List (DrainPc CoastEv)}
    (h : Reach CoastStep (coastInit tasks n) s) : CoastInv tasks s := by
  induction h with
  | refl => exact coastInv_init tasks n
  | step _ st ih => exact coastInv_step ih st

/-- at the end of the loop -/
theorem coast_end {tasks : List (WTask CoastEv)} {n : Nat} {s : CoastShared × List (DrainPc CoastEv)}
    (h : Reach CoastStep (coastInit tasks n) s) (he : .cExit ∈ s.2) :
    (s.1.log ++ s.1.q.handled).Perm (tasks.flatMap resultsOf) ∧ s.1.q.work.items = [] ∧ s.1.q.result.items = [] ∧
    (∀ e ∈ s.1.log, e.direct = true) ∧ (∀ e ∈ s.1.q.handled, e.direct = false) := by
  obtain ⟨⟨hw, hr, hc, h2, h3, h4⟩, i2, i3, _, _⟩ := coastInv_reach h
  have e1 := h3 he
  have e2 := h4 rfl he
  have w1 : s.1.q.work.items = [] := List.eq_nil_of_length_eq_zero (by
    have : (coastDrain s).1.work.items.length = 0 := by omega
    exact this)
  have w2 : s.1.q.result.items = [] := List.eq_nil_of_length_eq_zero (by
    have : (coastDrain s).1.result.items.length = 0 := by omega
    exact this)
  have w3 := no_work_held (s := (coastDrain s).2) (by omega) (by omega)
  rw [show (coastDrain s).1.work.items = [] from w1, show (coastDrain s).1.result.items = [] from w2, w3] at hc
  exact ⟨by simpa [coastDrain] using hc, w1, w2, i2, i3⟩

end Tiles
