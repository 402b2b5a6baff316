import Verif.Model.Basic
/-! `HasAt buf pos bs`: the bytes `bs` lie at position `pos` of `buf`. -/
namespace Tiles

def HasAt {α : Type} (buf : List α) (pos : Nat) (bs : List α) : Prop := ∃ pre post, buf = pre ++ bs ++ post ∧ pre.length = pos

theorem HasAt.append {α : Type} {buf : List α} {pos : Nat} {a b : List α} (h : HasAt buf pos (a ++ b)) :
    HasAt buf pos a ∧ HasAt buf (pos + a.length) b := by
  obtain ⟨pre, post, rfl, rfl⟩ := h
  exact ⟨⟨pre, b ++ post, by simp, rfl⟩, ⟨pre ++ a, post, by simp, by simp⟩⟩

theorem HasAt.le {α : Type} {buf : List α} {pos : Nat} {bs : List α} (h : HasAt buf pos bs) :
    pos + bs.length ≤ buf.length := by
  obtain ⟨pre, post, rfl, rfl⟩ := h; simp

theorem HasAt.take {α : Type} {buf : List α} {pos : Nat} {bs : List α} (h : HasAt buf pos bs) :
    (buf.drop pos).take bs.length = bs := by
  obtain ⟨pre, post, rfl, rfl⟩ := h
  simp

theorem hasAt_of {α : Type} (pre bs post : List α) : HasAt (pre ++ bs ++ post) pre.length bs := ⟨pre, post, rfl, rfl⟩

theorem HasAt.flatMap {α β : Type} {buf : List α} {f : β → List α} {n : Nat} (hn : ∀ b, (f b).length = n)
    {l : List β} {pos : Nat} (h : HasAt buf pos (l.flatMap f)) (i : Nat) (hi : i < l.length) :
    HasAt buf (pos + n * i) (f l[i]) := by
  induction l generalizing pos i with
  | nil => simp at hi
  | cons b l ih =>
    rw [List.flatMap_cons] at h
    cases i with
    | zero => simpa using h.append.1
    | succ i =>
      have := ih h.append.2 i (by simpa using hi)
      rw [hn] at this
      have e : pos + n * (i + 1) = pos + n + n * i := by rw [Nat.mul_add]; omega
      rw [e]; simpa using this

theorem length_flatMap_const {α β : Type} (f : β → List α) (n : Nat) (hn : ∀ b, (f b).length = n) (l : List β) :
    (l.flatMap f).length = n * l.length := by
  induction l with
  | nil => simp
  | cons b l ih => simp [hn, ih, Nat.mul_add]; omega

end Tiles
