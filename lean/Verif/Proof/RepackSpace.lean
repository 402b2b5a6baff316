import Verif.Props.C15
import Verif.Proof.FileGrowth
/-! How large the rewriting makes the pack file. -/
namespace Tiles
open Spec

def recBytes (os : List (Tile × PackRecord)) : Nat := (os.map (fun o => o.2.size)).sum

/-- the bytes of all results so far -/
def Repack.out (s : Repack) : Nat := recBytes s.table + recBytes s.updates + recBytes s.stash

/-- `n` is the size at the start, `d` the size of the file on disk -/
structure RSpace (n d : Nat) (s : Repack) : Prop where
  ins : s.insOff + recBytes s.stash ≤ s.out
  size : s.pf.size ≤ n + s.out
  data : s.pf.data.length ≤ max d (n + s.out)

theorem recBytes_append (a b : List (Tile × PackRecord)) : recBytes (a ++ b) = recBytes a + recBytes b := by simp [recBytes]
theorem recBytes_cons (a : Tile × PackRecord) (b : List (Tile × PackRecord)) : recBytes (a :: b) = a.2.size + recBytes b := by simp [recBytes]
theorem recBytes_nil : recBytes [] = 0 := rfl

theorem enqueue_space {n d : Nat} {s s' : Repack} {k : Nat} (h : RSpace n d s) (he : s.enqueue = .ok (s', k)) : RSpace n d s' := by
  rw [Repack.enqueue] at he
  obtain ⟨_, _, he⟩ := Res.bind_eq_ok.1 he
  split at he
  · cases he
  · obtain ⟨_, _, he⟩ := Res.bind_eq_ok.1 he
    injection he with he
    injection he with he _
    subst he
    exact ⟨h.ins, h.size, h.data⟩

theorem insertResult_space {n d : Nat} {s s' : Repack} {t : Tile} {b : Bytes} (h : RSpace n d s) (he : s.insertResult t b = .ok s') : RSpace n d s' := by
  obtain ⟨h1, h2, h3⟩ := h
  unfold Repack.out at h1 h2 h3
  have app : (s.pf.append b).1.size = max s.pf.size (s.pf.size + b.length) ∧ (s.pf.append b).2.size = b.length ∧ Grows s.pf (s.pf.append b).1 :=
    ⟨PackFile.insert_size .., rfl, insert_grows ..⟩
  have ins : (s.pf.insert s.insOff b).1.size = max s.pf.size (s.insOff + b.length) ∧ (s.pf.insert s.insOff b).2.size = b.length ∧ Grows s.pf (s.pf.insert s.insOff b).1 :=
    ⟨PackFile.insert_size .., rfl, insert_grows ..⟩
  rw [Repack.insertResult] at he
  generalize s.pf.append b = x at app he
  generalize s.pf.insert s.insOff b = y at ins he
  obtain ⟨xp, xr⟩ := x
  obtain ⟨yp, yr⟩ := y
  dsimp only at app ins
  split at he
  · injection he with he
    subst he
    obtain ⟨a1, a2, a3⟩ := app
    have := a3.data
    constructor <;> simp only [Repack.out, recBytes_append, recBytes_cons, recBytes_nil] <;> omega
  · split at he
    · cases he
    · obtain ⟨_, _, he⟩ := Res.bind_eq_ok.1 he
      split at he
      · injection he with he
        subst he
        obtain ⟨a1, a2, a3⟩ := app
        have := a3.data
        constructor <;> simp only [Repack.out, recBytes_append, recBytes_cons, recBytes_nil] <;> omega
      · injection he with he
        subst he
        obtain ⟨a1, a2, a3⟩ := ins
        have := a3.data
        constructor <;> simp only [Repack.out, recBytes_append, recBytes_cons, recBytes_nil] <;> omega

theorem flushed_space {n d : Nat} {s : Repack} (h : RSpace n d s) : RSpace n d s.flushed := by
  obtain ⟨h1, h2, h3⟩ := h
  constructor <;> simp only [Repack.flushed, Repack.out, recBytes_append, recBytes_nil] at * <;> omega

theorem goto_space {n d : Nat} {s : Repack} (h : RSpace n d s) (pc : RepackPc) : RSpace n d (s.goto pc) := ⟨h.ins, h.size, h.data⟩

theorem dequeue_space {f : Tile → List Bytes → Bytes} {n d : Nat} {s s' : Repack} {i : Nat} (h : RSpace n d s) (he : s.dequeue f i = some (.ok s')) : RSpace n d s' := by
  rw [Repack.dequeue] at he
  split at he
  · cases he
  · injection he with he
    exact insertResult_space (s := { s with inflight := s.inflight.eraseIdx i }) ⟨h.ins, h.size, h.data⟩ he

theorem rspace_step {f : Tile → List Bytes → Bytes} {pf0 : PackFile} {T0 : List TileRecord} {s s' : Repack} {mem batch : Nat} {c : RepackChoice}
    (hi : RInv f pf0 T0 s) (hl : Layout pf0 (T0.flatMap (·.records))) (h : RSpace pf0.size pf0.data.length s) (hr : repackStep f mem batch c s = some (.ok s')) :
    RSpace pf0.size pf0.data.length s' := by
  have hgeo := hi.geo
  rw [repackStep.eq_def] at hr
  split at hr
  · split at hr
    · injection hr with hr
      obtain ⟨⟨s1, k⟩, h1, hr⟩ := Res.bind_eq_ok.1 hr
      injection hr with hr
      subst hr
      exact goto_space (enqueue_space h h1) _
    · injection hr with hr; injection hr with hr; subst hr; exact goto_space h _
  · -- defrag
    rename_i fuel hpc
    rw [RGeo, hpc] at hgeo
    dsimp only at hgeo
    obtain ⟨g1, g2, g3, g4, g5, g6⟩ := hgeo
    split at hr
    · cases hr
    · rename_i r' hd
      injection hr with hr
      have hlay : Layout s.pf (s.tasks.flatMap (·.records)) := by
        have hsub : (s.tasks.flatMap (·.records)).Sublist (T0.flatMap (·.records)) := by
          conv_rhs => rw [← List.take_append_drop s.tasks.length T0]
          rw [List.flatMap_append, ← g6]
          exact List.sublist_append_left _ _
        rw [g5]
        exact ⟨hl.wf, fun r hr => hl.inside r (hsub.subset hr), hl.apart.sublist hsub⟩
      rcases C16_every_run s.pf s.tasks hlay fuel r' hd with ⟨rfl, hn⟩ | ⟨pf', tasks', rfl, b1, b2, b3, b4⟩
      · cases hr
      · injection hr with hr
        subst hr
        have hg := (defrag_grows hd).data
        have h2 := h.size
        have h3 := h.data
        exact ⟨h.ins, by show pf'.size ≤ _; rw [b2]; exact h.size, by show pf'.data.length ≤ max _ (_ + s.out); omega⟩
  · split at hr <;> (injection hr with hr; injection hr with hr; subst hr; exact goto_space h _)
  · split at hr
    · injection hr with hr; injection hr with hr; subst hr; exact goto_space h _
    · cases hr
  · injection hr with hr; injection hr with hr; subst hr; exact goto_space h _
  · split at hr
    · cases hr
    · injection hr with hr; injection hr with hr; subst hr; exact goto_space h _
  · split at hr
    · cases hr
    · split at hr
      · cases hr
      · rename_i r hd
        injection hr with hr
        obtain ⟨s1, h1, hr⟩ := Res.bind_eq_ok.1 hr
        injection hr with hr
        subst hr h1
        exact goto_space (dequeue_space h hd) _
  · injection hr with hr; injection hr with hr; subst hr; exact goto_space (flushed_space h) _
  · split at hr
    · injection hr with hr
      obtain ⟨⟨s1, k⟩, h1, hr⟩ := Res.bind_eq_ok.1 hr
      injection hr with hr
      subst hr
      exact goto_space (enqueue_space h h1) _
    · injection hr with hr; injection hr with hr; subst hr; exact goto_space h _
  · split at hr
    · injection hr with hr
      obtain ⟨_, _, hr⟩ := Res.bind_eq_ok.1 hr
      injection hr with hr; subst hr; exact goto_space h _
    · rename_i tile r rest hst
      injection hr with hr
      obtain ⟨_, _, hr⟩ := Res.bind_eq_ok.1 hr
      obtain ⟨⟨pf, r'⟩, hm, hr⟩ := Res.bind_eq_ok.1 hr
      injection hr with hr
      subst hr
      have hg := (move_grows hm).data
      rw [PackFile.move] at hm
      split at hm
      · injection hm with hm
        injection hm with hm1 hm2
        subst hm1 hm2
        obtain ⟨h1, h2, h3⟩ := h
        unfold Repack.out at h1 h2 h3
        rw [hst] at h1 h2 h3
        simp only [recBytes_cons] at h1 h2 h3
        simp only [PackFile.resize_size] at hg
        constructor <;> simp only [Repack.out, recBytes_append, recBytes_cons, recBytes_nil, PackFile.resize_size] <;> omega
      · cases hm
  · injection hr with hr; injection hr with hr; subst hr
    have h1 := h.ins
    have h3 := h.data
    have h4 := resize_le s.pf s.insOff
    refine ⟨h.ins, ?_, ?_⟩
    · show (s.pf.resize s.insOff).size ≤ _ + s.out
      rw [PackFile.resize_size]
      omega
    · show (s.pf.resize s.insOff).data.length ≤ max _ (_ + s.out)
      omega
  · injection hr with hr; injection hr with hr; subst hr; exact goto_space (flushed_space h) _
  · injection hr with hr; injection hr with hr; subst hr; exact goto_space h _
  · injection hr with hr; injection hr with hr; subst hr; exact h
  · split at hr
    · cases hr
    · rename_i r hd
      injection hr with hr
      subst hr
      exact dequeue_space h hd
  · injection hr with hr; injection hr with hr; subst hr; exact goto_space (flushed_space h) _
  · injection hr with hr
    obtain ⟨_, _, hr⟩ := Res.bind_eq_ok.1 hr
    obtain ⟨_, _, hr⟩ := Res.bind_eq_ok.1 hr
    injection hr with hr; subst hr; exact goto_space h _
  · cases hr

theorem rspace_reach {f : Tile → List Bytes → Bytes} {mem batch : Nat} {pf : PackFile} {tasks : List TileRecord} (hl : Layout pf (tasks.flatMap (·.records)))
    (hf : ∀ tile packs, f tile packs ≠ []) {s : Repack} (h : RepackReach f mem batch (repackInit pf tasks) s) : RSpace pf.size pf.data.length s := by
  induction h with
  | init => exact ⟨Nat.le_refl _, Nat.le_add_right _ _, Nat.le_max_left ..⟩
  | step c h0 hs ih => exact rspace_step (rinv_reach hl hf h0) (Layout.perm hl (repackTasks_perm tasks)) ih hs

theorem sum_perm_le {α : Type} (L : α → Nat) {a b : List α} (h : ∃ c, (c ++ a).Perm b) : (a.map L).sum ≤ (b.map L).sum := by
  obtain ⟨c, h⟩ := h
  have := (h.map L).sum_nat
  rw [List.map_append, List.sum_append] at this
  omega

/-- The rewriting needs at most the space of the old packs and of the new ones. -/
theorem repack_space {f : Tile → List Bytes → Bytes} {mem batch : Nat} {pf : PackFile} {tasks : List TileRecord} (hl : Layout pf (tasks.flatMap (·.records)))
    (hf : ∀ tile packs, f tile packs ≠ []) {s : Repack} (h : RepackReach f mem batch (repackInit pf tasks) s) (L : Tile → Nat)
    (hL : ∀ tile packs, TaskInput pf tasks tile packs → (f tile packs).length ≤ L tile) : s.pf.size ≤ pf.size + ((tilesOf tasks).map L).sum ∧
    s.pf.data.length ≤ max pf.data.length (pf.size + ((tilesOf tasks).map L).sum) := by
  have h1 := (rspace_reach hl hf h).size
  have h2 := (rspace_reach hl hf h).data
  obtain ⟨_, _, h3, h4⟩ := C15_safe hl hf h
  have h5 : s.out = recBytes (s.table ++ s.updates ++ s.stash) := by simp only [Repack.out, recBytes_append]
  have h6 : recBytes (s.table ++ s.updates ++ s.stash) ≤ (((s.table ++ s.updates ++ s.stash).map (·.1)).map L).sum := by
    generalize s.table ++ s.updates ++ s.stash = os at h3
    clear h5 h4
    induction os with
    | nil => exact Nat.le_refl _
    | cons o os ih =>
      have := ih (fun o ho => h3 o (by simp [ho]))
      obtain ⟨packs, p1, p2⟩ := h3 o (by simp)
      have p3 := hL _ _ p1
      have p4 : o.2.size = (f o.1 packs).length := by
        obtain ⟨a, b, c⟩ := (PackFile.get_eq_ok_iff ..).1 p2
        rw [← c]
        have := (rinv_reach hl hf h).wf
        unfold PackFile.WF at this
        unfold PackRecord.endOffset at b
        simp only [slice, List.length_take, List.length_drop]
        omega
      simp only [recBytes_cons, List.map_cons, List.sum_cons]
      omega
  have h7 := sum_perm_le L ⟨_, h4⟩
  omega

end Tiles
