import Verif.Model.Defrag
import Verif.Proof.PackFileOps
/-! How large a file gets on disk: `data` is the file, `size` the part that is used. -/
namespace Tiles
open PackFile

/-- the file is extended only for what is used -/
structure Grows (a b : PackFile) : Prop where
  size : a.size ≤ b.size
  data : b.data.length ≤ max a.data.length b.size

theorem grows_refl (a : PackFile) : Grows a a := ⟨Nat.le_refl _, Nat.le_max_left ..⟩

theorem grows_trans {a b c : PackFile} (h : Grows a b) (h' : Grows b c) : Grows a c := by
  obtain ⟨h1, h2⟩ := h
  obtain ⟨h3, h4⟩ := h'
  exact ⟨by omega, by omega⟩

theorem overwrite_le (d : Bytes) (off : Nat) (b : Bytes) : (overwrite d off b).length ≤ max d.length (off + b.length) := by
  simp only [overwrite, List.length_append, List.length_take, List.length_drop]; omega

theorem resize_le (f : PackFile) (n : Nat) : (f.resize n).data.length ≤ max f.data.length n := by
  unfold PackFile.resize
  split
  · exact Nat.le_max_left ..
  · rename_i h
    dsimp only
    have := overwrite_le (f.data ++ zeros (n - f.data.length)) f.size (zeros (n - f.size))
    simp only [List.length_append, zeros, List.length_replicate] at this ⊢
    omega

theorem insert_grows (f : PackFile) (off : Nat) (b : Bytes) : Grows f (f.insert off b).1 := by
  have h1 := insert_size f off b
  refine ⟨by omega, ?_⟩
  rw [h1]
  have h2 := resize_le f (max f.size (off + b.length))
  have h3 := overwrite_le (f.resize (max f.size (off + b.length))).data off b
  simp only [PackFile.insert]
  omega

theorem move_grows {f f' : PackFile} {off : Nat} {r r' : PackRecord} (h : f.move off r = .ok (f', r')) : Grows f f' := by
  rw [PackFile.move] at h
  split at h
  · injection h with h
    injection h with h _
    subst h
    have h2 := resize_le f (max f.size (off + r.size))
    have h3 := overwrite_le (f.resize (max f.size (off + r.size))).data off (((f.resize (max f.size (off + r.size))).data.drop r.offset).take r.size)
    have h4 : (((f.resize (max f.size (off + r.size))).data.drop r.offset).take r.size).length ≤ r.size := by rw [List.length_take]; omega
    refine ⟨?_, ?_⟩ <;> dsimp only <;> rw [resize_size] <;> omega
  · cases h

/-! ### the defragmentation -/
namespace Defrag

theorem refresh_pf {s s' : Defrag} (h : s.refresh = .ok s') : s'.pf = s.pf := by
  rw [refresh] at h
  obtain ⟨q, _, h⟩ := Res.bind_eq_ok.1 h
  injection h with h; subst h; rfl

theorem peekLast_pf {s s' : Defrag} {e : Nat} (h : s.peekLast = .ok (e, s')) : s'.pf = s.pf := by
  rw [peekLast] at h
  obtain ⟨s1, h1, h⟩ := Res.bind_eq_ok.1 h
  obtain ⟨_, _, h⟩ := Res.bind_eq_ok.1 h
  obtain ⟨_, _, h⟩ := Res.bind_eq_ok.1 h
  injection h with h; injection h with _ h; subst h; exact refresh_pf h1

theorem peekNext_pf {s s' : Defrag} {e : Nat} (h : s.peekNext = .ok (e, s')) : s'.pf = s.pf := by
  rw [peekNext] at h
  obtain ⟨s1, h1, h⟩ := Res.bind_eq_ok.1 h
  obtain ⟨_, _, h⟩ := Res.bind_eq_ok.1 h
  obtain ⟨_, _, h⟩ := Res.bind_eq_ok.1 h
  injection h with h; injection h with _ h; subst h; exact refresh_pf h1

theorem getLast_pf {s s' : Defrag} {e : Nat} (h : s.getLast = .ok (e, s')) : s'.pf = s.pf := by
  rw [getLast] at h
  obtain ⟨s1, h1, h⟩ := Res.bind_eq_ok.1 h
  obtain ⟨_, _, h⟩ := Res.bind_eq_ok.1 h
  obtain ⟨_, _, h⟩ := Res.bind_eq_ok.1 h
  injection h with h; injection h with _ h; subst h; exact (show s1.pf = s.pf from refresh_pf h1)

theorem getNext_pf {s s' : Defrag} {e : Nat} (h : s.getNext = .ok (e, s')) : s'.pf = s.pf := by
  rw [getNext] at h
  obtain ⟨s1, h1, h⟩ := Res.bind_eq_ok.1 h
  obtain ⟨_, _, h⟩ := Res.bind_eq_ok.1 h
  obtain ⟨_, _, h⟩ := Res.bind_eq_ok.1 h
  injection h with h; injection h with _ h; subst h; exact (show s1.pf = s.pf from refresh_pf h1)

theorem insertOffset_pf {s s' : Defrag} {e : Nat} (h : s.insertOffset = .ok (e, s')) : s'.pf = s.pf := by
  rw [insertOffset] at h
  obtain ⟨s1, h1, h⟩ := Res.bind_eq_ok.1 h
  split at h
  · injection h with h; injection h with _ h; subst h; exact refresh_pf h1
  · obtain ⟨_, _, h⟩ := Res.bind_eq_ok.1 h
    injection h with h; injection h with _ h; subst h; exact refresh_pf h1

theorem endSpace_pf {s s' : Defrag} {e : Nat} (h : s.endSpace = .ok (e, s')) : s'.pf = s.pf := by
  rw [endSpace] at h
  obtain ⟨s1, h1, h⟩ := Res.bind_eq_ok.1 h
  split at h
  · injection h with h; injection h with _ h; subst h; exact refresh_pf h1
  · obtain ⟨_, _, h⟩ := Res.bind_eq_ok.1 h
    obtain ⟨_, _, h⟩ := Res.bind_eq_ok.1 h
    obtain ⟨_, _, h⟩ := Res.bind_eq_ok.1 h
    injection h with h; injection h with _ h; subst h; exact refresh_pf h1

theorem beginSpace_pf {s s' : Defrag} {e : Nat} (h : s.beginSpace = .ok (e, s')) : s'.pf = s.pf := by
  rw [beginSpace] at h
  obtain ⟨s1, h1, h⟩ := Res.bind_eq_ok.1 h
  split at h
  · injection h with h; injection h with _ h; subst h; exact refresh_pf h1
  · split at h
    · obtain ⟨⟨e, s2⟩, h2, h⟩ := Res.bind_eq_ok.1 h
      obtain ⟨_, _, h⟩ := Res.bind_eq_ok.1 h
      injection h with h; injection h with _ h; subst h; exact (peekNext_pf h2).trans (refresh_pf h1)
    · split at h
      · split at h
        · cases h
        · obtain ⟨_, _, h⟩ := Res.bind_eq_ok.1 h
          obtain ⟨_, _, h⟩ := Res.bind_eq_ok.1 h
          injection h with h; injection h with _ h; subst h; exact refresh_pf h1
      · obtain ⟨⟨e, s2⟩, h2, h⟩ := Res.bind_eq_ok.1 h
        obtain ⟨_, _, h⟩ := Res.bind_eq_ok.1 h
        split at h
        · cases h
        · obtain ⟨_, _, h⟩ := Res.bind_eq_ok.1 h
          obtain ⟨_, _, h⟩ := Res.bind_eq_ok.1 h
          injection h with h; injection h with _ h; subst h; exact (peekNext_pf h2).trans (refresh_pf h1)

theorem place_grows {s s' : Defrag} (h : s.place = .ok s') : Grows s.pf s'.pf := by
  rw [place] at h
  obtain ⟨_, _, h⟩ := Res.bind_eq_ok.1 h
  obtain ⟨_, _, h⟩ := Res.bind_eq_ok.1 h
  obtain ⟨⟨pf, r'⟩, hm, h⟩ := Res.bind_eq_ok.1 h
  obtain ⟨_, _, h⟩ := Res.bind_eq_ok.1 h
  injection h with h; subst h; exact move_grows hm

theorem moveDown_grows {s s' : Defrag} {off e : Nat} (h : s.moveDown off e = .ok s') : Grows s.pf s'.pf := by
  rw [moveDown] at h
  obtain ⟨_, _, h⟩ := Res.bind_eq_ok.1 h
  obtain ⟨_, _, h⟩ := Res.bind_eq_ok.1 h
  obtain ⟨⟨pf, r'⟩, hm, h⟩ := Res.bind_eq_ok.1 h
  injection h with h; subst h; exact move_grows hm

end Defrag
open Defrag

theorem defragStep_grows {s s' : Defrag} {pc pc' : DefragPc} (h : defragStep s pc = .ok (some (s', pc'))) : Grows s.pf s'.pf := by
  cases pc with
  | record =>
    rw [defragStep] at h
    split at h
    · obtain ⟨_, _, h⟩ := Res.bind_eq_ok.1 h
      obtain ⟨⟨b, s1⟩, h1, h⟩ := Res.bind_eq_ok.1 h
      dsimp only at h
      split at h
      · obtain ⟨s2, h2, h⟩ := Res.bind_eq_ok.1 h
        injection h with h; injection h with h; injection h with h _; subst h
        rw [← peekLast_pf h1]; exact place_grows h2
      · injection h with h; injection h with h; injection h with h _; subst h
        rw [peekLast_pf h1]; exact grows_refl _
    · cases h
  | outer =>
    rw [defragStep] at h
    obtain ⟨⟨b, s1⟩, h1, h⟩ := Res.bind_eq_ok.1 h
    obtain ⟨_, _, h⟩ := Res.bind_eq_ok.1 h
    split at h
    · injection h with h; injection h with h; injection h with h _; subst h
      rw [endSpace_pf h1]; exact grows_refl _
    · obtain ⟨s2, h2, h⟩ := Res.bind_eq_ok.1 h
      injection h with h; injection h with h; injection h with h _; subst h
      rw [← endSpace_pf h1]; exact place_grows h2
  | inner =>
    rw [defragStep] at h
    obtain ⟨⟨b, s1⟩, h1, h⟩ := Res.bind_eq_ok.1 h
    obtain ⟨⟨c, s2⟩, h2, h⟩ := Res.bind_eq_ok.1 h
    obtain ⟨_, _, h⟩ := Res.bind_eq_ok.1 h
    split at h
    · obtain ⟨⟨_, s3⟩, h3, h⟩ := Res.bind_eq_ok.1 h
      obtain ⟨⟨_, s4⟩, h4, h⟩ := Res.bind_eq_ok.1 h
      obtain ⟨s5, h5, h⟩ := Res.bind_eq_ok.1 h
      injection h with h; injection h with h; injection h with h _; subst h
      rw [← beginSpace_pf h1, ← peekLast_pf h2, ← insertOffset_pf h3, ← getNext_pf h4]
      exact moveDown_grows h5
    · obtain ⟨⟨_, s3⟩, h3, h⟩ := Res.bind_eq_ok.1 h
      obtain ⟨⟨_, s4⟩, h4, h⟩ := Res.bind_eq_ok.1 h
      obtain ⟨s5, h5, h⟩ := Res.bind_eq_ok.1 h
      injection h with h; injection h with h; injection h with h _; subst h
      rw [← beginSpace_pf h1, ← peekLast_pf h2, ← insertOffset_pf h3, ← getLast_pf h4]
      exact moveDown_grows h5

theorem defragRun_grows : ∀ {fuel : Nat} {s s' : Defrag} {pc : DefragPc}, defragRun fuel s pc = some (.ok s') → Grows s.pf s'.pf := by
  intro fuel
  induction fuel with
  | zero => intro s s' pc h; cases h
  | succ n ih =>
    intro s s' pc h
    rw [defragRun] at h
    split at h
    · injection h with h; injection h with h; subst h; exact grows_refl _
    · rename_i s1 pc1 h1
      exact grows_trans (defragStep_grows h1) (ih h)
    · cases h
    · cases h

theorem defrag_grows {fuel : Nat} {pf pf' : PackFile} {tasks tasks' : List TileRecord} (h : defragmentPackFile fuel pf tasks = some (.ok (pf', tasks'))) : Grows pf pf' := by
  rw [defragmentPackFile] at h
  split at h
  · rename_i s hi
    split at h
    · rename_i s1 h1
      injection h with h; injection h with h; injection h with h _
      subst h
      rw [defragInit] at hi
      obtain ⟨_, _, hi⟩ := Res.bind_eq_ok.1 hi
      obtain ⟨_, _, hi⟩ := Res.bind_eq_ok.1 hi
      injection hi with hi
      have := defragRun_grows h1
      rw [← hi] at this
      exact this
    all_goals cases h
  all_goals cases h

end Tiles
