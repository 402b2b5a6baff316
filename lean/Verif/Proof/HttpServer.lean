import Verif.Model.HttpServer
/-! The invariant of the connections of the HTTP server (C59). -/
namespace Tiles

namespace Spec
/-- the events of connection `k` -/
def eventsOf (k : Nat) (log : List (Nat × ConnEv)) : List ConnEv := (log.filter (fun e => e.1 = k)).map (·.2)

/-- without the closing by the deadline -/
def talk (evs : List ConnEv) : List ConnEv := evs.filter (fun e => match e with | .closed => false | _ => true)

/-- the closings by the deadline -/
def closings (evs : List ConnEv) : List ConnEv := evs.filter (fun e => match e with | .closed => true | _ => false)
end Spec
open Spec

theorem eventsOf_append (k : Nat) (l l' : List (Nat × ConnEv)) : eventsOf k (l ++ l') = eventsOf k l ++ eventsOf k l' := by
  simp [eventsOf]

theorem eventsOf_same (k : Nat) (evs : List ConnEv) : eventsOf k (evs.map (k, ·)) = evs := by
  induction evs with
  | nil => rfl
  | cons e evs ih => simpa [eventsOf] using ih

theorem eventsOf_other {j k : Nat} (h : j ≠ k) (evs : List ConnEv) : eventsOf k (evs.map (j, ·)) = [] := by
  induction evs with
  | nil => rfl
  | cons e evs ih => simpa [eventsOf, h] using ih

/-- how far the exchange on a connection is -/
def HttpTrack (env : ServerEnv) (c : Conn) (evs : List ConnEv) : Prop :=
  match c.read, c.write with
  | .idle, .idle | .waiting, .idle | .ready none, .idle | .done, .idle => evs = [] ∧ c.response = none
  | .ready (some r), .idle => evs = [.request r] ∧ c.response = none
  | .done, .waiting => ∃ r x, handleRequest env r = .ok x ∧ c.response = some x ∧ evs = [.request r, .response x]
  | .done, .ready b => ∃ r x, handleRequest env r = .ok x ∧ c.response = some x ∧
      evs = [.request r, .response x] ++ (if b then [.sent] else [])
  | .done, .done => ∃ r x, ∃ b f : Bool, handleRequest env r = .ok x ∧ c.response = some x ∧
      evs = [.request r, .response x] ++ (if b then [.sent] else []) ++ (if f then [.finished] else [])
  | _, _ => False

structure ConnInv (env : ServerEnv) (now : Nat) (c : Conn) (evs : List ConnEv) : Prop where
  track : HttpTrack env c (talk evs)
  soon : c.expiry ≤ now + 60
  due : c.wait = .ready true → c.expiry ≤ now
  shut : c.isOpen = false → c.wait = .done ∧ c.expiry ≤ now
  cancel : (c.wait = .ready false ∨ (c.wait = .done ∧ c.isOpen = true)) → c.write = .done
  closed : (closings evs).length = if c.isOpen then 0 else 1

theorem connInv_new (env : ServerEnv) (client now : Nat) : ConnInv env now (newConn client now) [] := by
  constructor <;> simp [newConn, HttpTrack, talk, closings]

theorem talk_append (a b : List ConnEv) : talk (a ++ b) = talk a ++ talk b := by simp [talk]

theorem connInv_step {env : ServerEnv} {now : Nat} {c c' : Conn} {evs new : List ConnEv} {a : ConnAct} (hi : ConnInv env now c evs)
    (h : connStep env now c a = some (c', new)) : ConnInv env now c' (evs ++ new) := by
  obtain ⟨cl, ex, rd, wr, wt, rs, op⟩ := c
  obtain ⟨h1, h2, h3, h4, h5, h6⟩ := hi
  simp only at h1 h2 h3 h4 h5 h6
  cases a with
  | arrive r =>
    simp only [connStep] at h
    split at h
    · skip
      simp only [Option.some.injEq, Prod.mk.injEq] at h; obtain ⟨rfl, rfl⟩ := h
      refine ⟨?_, h2, h3, h4, h5, by simpa [closings] using h6⟩
      rw [talk_append]
      cases wr <;> simp_all [HttpTrack, talk]
    · cases h
  | readFail =>
    simp only [connStep] at h
    split at h
    · skip
      simp only [Option.some.injEq, Prod.mk.injEq] at h; obtain ⟨rfl, rfl⟩ := h
      refine ⟨?_, h2, h3, h4, h5, by simpa [closings] using h6⟩
      rw [talk_append]
      cases wr <;> simp_all [HttpTrack, talk]
    · cases h
  | onRead =>
    simp only [connStep] at h
    split at h
    · rename_i _ r
      split at h
      · rename_i x hx
        simp only [Option.some.injEq, Prod.mk.injEq] at h; obtain ⟨rfl, rfl⟩ := h
        have hw : wr = .idle := by cases wr <;> simp_all [HttpTrack]
        subst hw
        refine ⟨?_, h2, h3, h4, ?_, by simpa [closings] using h6⟩
        · rw [talk_append]
          simp only [HttpTrack] at h1
          refine ⟨r, x, hx, rfl, ?_⟩
          rw [h1.1]; rfl
        · intro h; exact absurd (h5 h) (by simp)
      · cases h
    · skip
      simp only [Option.some.injEq, Prod.mk.injEq] at h; obtain ⟨rfl, rfl⟩ := h
      refine ⟨?_, h2, h3, h4, h5, by simpa [closings] using h6⟩
      rw [talk_append]
      cases wr <;> simp_all [HttpTrack, talk]
    · cases h
  | writeOk =>
    simp only [connStep] at h
    split at h
    · skip
      simp only [Option.some.injEq, Prod.mk.injEq] at h; obtain ⟨rfl, rfl⟩ := h
      refine ⟨?_, h2, h3, h4, ?_, by simpa [closings] using h6⟩
      · rw [talk_append]
        have hr : rd = .done := by rcases rd with _ | _ | (_ | _) | _ <;> simp_all [HttpTrack]
        subst hr
        simp only [HttpTrack] at h1 ⊢
        obtain ⟨r, x, e1, e2, e3⟩ := h1
        exact ⟨r, x, e1, e2, by rw [e3]; rfl⟩
      · intro h; exact absurd (h5 h) (by simp)
    · cases h
  | writeFail =>
    simp only [connStep] at h
    split at h
    · skip
      simp only [Option.some.injEq, Prod.mk.injEq] at h; obtain ⟨rfl, rfl⟩ := h
      refine ⟨?_, h2, h3, h4, ?_, by simpa [closings] using h6⟩
      · rw [talk_append]
        rcases rd with _ | _ | (_ | _) | _ <;> simp_all [HttpTrack, talk]
      · intro h; exact absurd (h5 h) (by simp)
    · cases h
  | onWrite =>
    simp only [connStep] at h
    split at h
    · rename_i _ b
      simp only [Option.some.injEq, Prod.mk.injEq] at h; obtain ⟨rfl, rfl⟩ := h
      refine ⟨?_, h2, ?_, ?_, fun _ => rfl, ?_⟩
      · rw [talk_append]
        have hr : rd = .done := by rcases rd with _ | _ | (_ | _) | _ <;> simp_all [HttpTrack]
        subst hr
        simp only [HttpTrack] at h1 ⊢
        obtain ⟨r, x, e1, e2, e3⟩ := h1
        refine ⟨r, x, b, op, e1, e2, ?_⟩
        rw [e3]; cases op <;> rfl
      · intro h; apply h3; cases wt <;> simp_all [cancelWait]
      · intro h
        have := h4 h
        refine ⟨?_, this.2⟩
        show cancelWait wt = _
        rw [this.1]; rfl
      · cases op <;> simpa [closings] using h6
    · cases h
  | expire =>
    simp only [connStep] at h
    split at h
    · skip
      split at h
      · rename_i hle
        simp only [Option.some.injEq, Prod.mk.injEq] at h; obtain ⟨rfl, rfl⟩ := h
        refine ⟨by simpa [HttpTrack] using h1, h2, fun _ => hle, ?_, ?_, by simpa [closings] using h6⟩
        · intro h; exact absurd (h4 h).1 (by simp)
        · simp
      · cases h
    · cases h
  | onWait =>
    simp only [connStep] at h
    split at h
    · skip
      simp only [Option.some.injEq, Prod.mk.injEq] at h; obtain ⟨rfl, rfl⟩ := h
      refine ⟨?_, h2, by simp, fun _ => ⟨rfl, h3 rfl⟩, by simp, ?_⟩
      · rw [talk_append]
        simpa [HttpTrack, talk] using h1
      · simp only [closings] at h6 ⊢
        have : op = true := by
          cases op with
          | true => rfl
          | false => exact absurd (h4 rfl).1 (by simp)
        subst this
        simp only [List.filter_append, List.length_append, h6]; rfl
    · skip
      simp only [Option.some.injEq, Prod.mk.injEq] at h; obtain ⟨rfl, rfl⟩ := h
      refine ⟨by simpa [HttpTrack] using h1, h2, by simp, ?_, ?_, by simpa [closings] using h6⟩
      · intro h; exact absurd (h4 h).1 (by simp)
      · intro _; exact h5 (Or.inl rfl)
    · cases h

structure HttpInv (env : ServerEnv) (s : Http) : Prop where
  inv : ∀ k c, s.conns[k]? = some c → ConnInv env s.now c (eventsOf k s.log)
  readIdle : ∀ k c, s.conns[k]? = some c → (c.read = .idle ↔ s.accept = .starting k)
  waitIdle : ∀ k c, s.conns[k]? = some c → (c.wait = .idle ↔ s.accept = .starting k ∨ s.accept = .reading k)
  known : ∀ e ∈ s.log, e.1 < s.conns.length
  acc : ∀ k, (s.accept = .starting k ∨ s.accept = .reading k) → k < s.conns.length

theorem httpInv_init (env : ServerEnv) : HttpInv env httpInit := by
  constructor <;> simp [httpInit]

theorem connStep_idle {env : ServerEnv} {now : Nat} {c c' : Conn} {new : List ConnEv} {a : ConnAct}
    (h : connStep env now c a = some (c', new)) :
    (c'.read = .idle ↔ c.read = .idle) ∧ (c'.wait = .idle ↔ c.wait = .idle) ∧ c'.expiry = c.expiry ∧ c'.client = c.client := by
  obtain ⟨cl, ex, rd, wr, wt, rs, op⟩ := c
  cases a <;> simp only [connStep] at h <;> (repeat' split at h) <;> (try cases h) <;> simp_all [cancelWait]
  all_goals (cases wt <;> simp)

theorem get_set {α : Type} {l : List α} {k j : Nat} {c d : α} (h : (l.set k c)[j]? = some d) :
    (j = k ∧ d = c ∧ k < l.length) ∨ (j ≠ k ∧ l[j]? = some d) := by
  rw [List.getElem?_set] at h
  split at h
  · rename_i e
    split at h
    · injection h with h; exact Or.inl ⟨e.symm, h.symm, by omega⟩
    · cases h
  · rename_i e; exact Or.inr ⟨fun h' => e h'.symm, h⟩

theorem connInv_later {env : ServerEnv} {now now' : Nat} {c : Conn} {evs : List ConnEv} (h : ConnInv env now c evs) (hle : now ≤ now') :
    ConnInv env now' c evs :=
  ⟨h.track, by have := h.soon; omega, fun h' => by have := h.due h'; omega, fun h' => ⟨(h.shut h').1, by have := (h.shut h').2; omega⟩,
    h.cancel, h.closed⟩

theorem httpInv_step {env : ServerEnv} {s t : Http} {a : HttpAct} (hi : HttpInv env s) (h : httpStep env s a = some t) :
    HttpInv env t := by
  obtain ⟨i1, i2, i3, i4, i5⟩ := hi
  cases a with
  | tick =>
    simp only [httpStep, Option.some.injEq] at h; subst h
    exact ⟨fun k c hk => connInv_later (i1 k c hk) (Nat.le_succ _), i2, i3, i4, i5⟩
  | connect client =>
    simp only [httpStep] at h
    split at h
    · rename_i e
      simp only [Option.some.injEq] at h; subst h
      refine ⟨i1, ?_, ?_, i4, ?_⟩ <;> simp_all <;> assumption
    · cases h
  | acceptFail =>
    simp only [httpStep] at h
    split at h
    · rename_i e
      simp only [Option.some.injEq] at h; subst h
      refine ⟨i1, ?_, ?_, i4, ?_⟩ <;> simp_all <;> assumption
    · cases h
  | onAccept =>
    simp only [httpStep] at h
    split at h
    · rename_i client e
      simp only [Option.some.injEq] at h; subst h
      have key : ∀ k c, (s.conns ++ [newConn client s.now])[k]? = some c →
          (k < s.conns.length ∧ s.conns[k]? = some c) ∨ (k = s.conns.length ∧ c = newConn client s.now) := by
        intro k c hk
        rw [List.getElem?_append] at hk
        split at hk
        · exact Or.inl ⟨by assumption, hk⟩
        · rename_i hge
          have : k - s.conns.length = 0 := by
            refine Classical.byContradiction fun hne => ?_
            have : k - s.conns.length ≥ 1 := by omega
            rw [List.getElem?_eq_none (by simpa using this)] at hk; cases hk
          rw [this] at hk
          simp only [List.getElem?_cons_zero, Option.some.injEq] at hk
          exact Or.inr ⟨by omega, hk.symm⟩
      refine ⟨?_, ?_, ?_, ?_, ?_⟩
      · intro k c hk
        rcases key k c hk with ⟨_, hk⟩ | ⟨rfl, rfl⟩
        · exact i1 k c hk
        · have : eventsOf s.conns.length s.log = [] := by
            simp only [eventsOf, List.map_eq_nil_iff, List.filter_eq_nil_iff]
            intro e he h
            have := i4 e he
            simp at h; omega
          simp only [this]
          exact connInv_new env client s.now
      · intro k c hk
        rcases key k c hk with ⟨hlt, hk⟩ | ⟨rfl, rfl⟩
        · have := (i2 k c hk)
          simp only [e, reduceCtorEq, iff_false] at this
          simp only [Accept.starting.injEq, this, false_iff]; omega
        · simp [newConn]
      · intro k c hk
        rcases key k c hk with ⟨hlt, hk⟩ | ⟨rfl, rfl⟩
        · have := (i3 k c hk)
          simp only [e, reduceCtorEq, or_self, iff_false] at this
          simp only [Accept.starting.injEq, reduceCtorEq, or_false, this, false_iff]; omega
        · simp [newConn]
      · intro e he; simp only [List.length_append, List.length_singleton]; have := i4 e he; omega
      · intro k hk
        rcases hk with hk | hk
        · injection hk with hk; simp [← hk]
        · cases hk
    · rename_i e
      simp only [Option.some.injEq] at h; subst h
      refine ⟨i1, ?_, ?_, i4, ?_⟩ <;> simp_all <;> assumption
    · cases h
  | startRead =>
    simp only [httpStep] at h
    split at h
    · rename_i k e
      split at h
      · rename_i c hc
        simp only [Option.some.injEq] at h; subst h
        refine ⟨?_, ?_, ?_, ?_, ?_⟩
        · intro j d hd
          rcases get_set hd with ⟨rfl, rfl, _⟩ | ⟨_, hd⟩
          · have hci := i1 _ _ hc
            have hr := (i2 _ _ hc).2 e
            obtain ⟨cl, ex, rd, wr, wt, rs, op⟩ := c
            simp only at hr; subst hr
            obtain ⟨h1, h2, h3, h4, h5, h6⟩ := hci
            refine ⟨?_, h2, h3, h4, h5, h6⟩
            cases wr <;> simp_all [HttpTrack]
          · exact i1 j d hd
        · intro j d hd
          rcases get_set hd with ⟨rfl, rfl, _⟩ | ⟨hne, hd⟩
          · simp
          · have := i2 j d hd
            rw [e] at this
            simp only [Accept.starting.injEq] at this
            simp only [reduceCtorEq, iff_false]
            rw [this]; exact fun h => hne h.symm
        · intro j d hd
          rcases get_set hd with ⟨rfl, rfl, _⟩ | ⟨hne, hd⟩
          · have := i3 _ _ hc
            simp only [e, reduceCtorEq, true_or, iff_true] at this
            simp [this]
          · have := i3 j d hd
            simp only [e, Accept.starting.injEq, reduceCtorEq, or_false] at this
            simp [this]
        · simpa using i4
        · intro j hj
          simp only [reduceCtorEq, Accept.reading.injEq, false_or] at hj
          subst hj
          simpa using i5 k (Or.inl e)
      · cases h
    · cases h
  | startWait =>
    simp only [httpStep] at h
    split at h
    · rename_i k e
      split at h
      · rename_i c hc
        simp only [Option.some.injEq] at h; subst h
        refine ⟨?_, ?_, ?_, ?_, ?_⟩
        · intro j d hd
          rcases get_set hd with ⟨rfl, rfl, _⟩ | ⟨_, hd⟩
          · have hci := i1 _ _ hc
            have hr := (i3 _ _ hc).2 (Or.inr e)
            obtain ⟨cl, ex, rd, wr, wt, rs, op⟩ := c
            simp only at hr; subst hr
            obtain ⟨h1, h2, h3, h4, h5, h6⟩ := hci
            refine ⟨h1, h2, by simp, ?_, by simp, h6⟩
            intro h; exact absurd (h4 h).1 (by simp)
          · exact i1 j d hd
        · intro j d hd
          rcases get_set hd with ⟨rfl, rfl, _⟩ | ⟨hne, hd⟩
          · have := i2 _ _ hc
            simp only [e, reduceCtorEq, iff_false] at this
            simp [this]
          · have := i2 j d hd
            simp only [e, reduceCtorEq, iff_false] at this
            simp [this]
        · intro j d hd
          rcases get_set hd with ⟨rfl, rfl, _⟩ | ⟨hne, hd⟩
          · simp
          · have := i3 j d hd
            simp only [e, Accept.reading.injEq, reduceCtorEq, false_or] at this
            simp only [reduceCtorEq, or_self, iff_false, this]
            exact fun h => hne h.symm
        · simpa using i4
        · intro j hj; simp at hj
      · cases h
    · cases h
  | conn k a =>
    simp only [httpStep] at h
    split at h
    · rename_i c hc
      split at h
      · rename_i c' evs hs
        simp only [Option.some.injEq] at h; subst h
        have hk : k < s.conns.length := (List.getElem?_eq_some_iff.1 hc).1
        have hid := connStep_idle hs
        refine ⟨?_, ?_, ?_, ?_, ?_⟩
        · intro j d hd
          simp only [eventsOf_append]
          rcases get_set hd with ⟨rfl, rfl, _⟩ | ⟨hne, hd⟩
          · rw [eventsOf_same]; exact connInv_step (i1 _ _ hc) hs
          · rw [eventsOf_other (Ne.symm hne), List.append_nil]; exact i1 j d hd
        · intro j d hd
          rcases get_set hd with ⟨rfl, rfl, _⟩ | ⟨hne, hd⟩
          · rw [hid.1]; exact i2 _ _ hc
          · exact i2 j d hd
        · intro j d hd
          rcases get_set hd with ⟨rfl, rfl, _⟩ | ⟨hne, hd⟩
          · rw [hid.2.1]; exact i3 _ _ hc
          · exact i3 j d hd
        · intro e he
          simp only [List.mem_append, List.mem_map] at he
          simp only [List.length_set]
          rcases he with he | ⟨x, _, rfl⟩
          · exact i4 e he
          · exact hk
        · intro j hj; simpa using i5 j hj
      · cases h
    · cases h

theorem httpInv_reach {env : ServerEnv} {s t : Http} (hi : HttpInv env s) (h : HttpReach env s t) : HttpInv env t := by
  induction h with
  | refl => exact hi
  | step a _ hs ih => exact httpInv_step ih hs

end Tiles
