import Verif.Proof.HttpServer
import Verif.Props.C45
/-! C59 — the life of a connection to the HTTP server: one answer per connection, to the request that came in on it; every
connection is released; no client can keep others from being served; which handlers of a connection can run at the same time. -/
namespace Tiles
open Spec

namespace Spec
/-- what can be seen on one connection: nothing; a request; or a request, the answer to it, and then possibly that it was sent
completely and that the sending side was shut down -/
inductive Exchange (env : ServerEnv) : List ConnEv → Prop
  | nothing : Exchange env []
  | asked (r : Req) : Exchange env [.request r]
  | answered (r : Req) (x : Resp) : handleRequest env r = .ok x → Exchange env [.request r, .response x]
  | sent (r : Req) (x : Resp) : handleRequest env r = .ok x → Exchange env [.request r, .response x, .sent]
  | complete (r : Req) (x : Resp) : handleRequest env r = .ok x → Exchange env [.request r, .response x, .sent, .finished]
  | broken (r : Req) (x : Resp) : handleRequest env r = .ok x → Exchange env [.request r, .response x, .finished]

/-- a run: the actions one after the other -/
def runHttp (env : ServerEnv) : Http → List HttpAct → Option Http
  | s, [] => some s
  | s, a :: as => (httpStep env s a).bind (fun t => runHttp env t as)

/-- the clients that connected in a run -/
def clientsOf (acts : List HttpAct) : List Nat := acts.filterMap (fun a => match a with | .connect c => some c | _ => none)

/-- no operation of connection `k` is under way: the last `shared_ptr` to it is gone, the object is destroyed, its socket closed -/
def Released (s : Http) (k : Nat) : Prop := k < s.conns.length ∧ s.holders k = 0

/-- the action belongs to connection `k` -/
def Concerns (s : Http) (k : Nat) : HttpAct → Prop
  | .conn j _ => j = k
  | .startRead | .startWait => s.accept = .starting k ∨ s.accept = .reading k
  | _ => False

/-- the server can do something for connection `k` -/
def CanServe (env : ServerEnv) (s : Http) (k : Nat) : Prop :=
  ∃ a, Concerns s k a ∧ s.isServer a = true ∧ (httpStep env s a).isSome = true
end Spec

theorem runHttp_reach {env : ServerEnv} {acts : List HttpAct} : ∀ {s t u : Http}, HttpReach env s t → runHttp env t acts = some u →
    HttpReach env s u := by
  induction acts with
  | nil => intro s t u h hr; simp only [runHttp, Option.some.injEq] at hr; subst hr; exact h
  | cons a as ih =>
    intro s t u h hr
    simp only [runHttp, Option.bind_eq_some_iff] at hr
    obtain ⟨t', h1, h2⟩ := hr
    exact ih (h.step a h1) h2

theorem runHttp_append {env : ServerEnv} (as bs : List HttpAct) : ∀ (s : Http),
    runHttp env s (as ++ bs) = (runHttp env s as).bind (fun t => runHttp env t bs) := by
  induction as with
  | nil => intro s; rfl
  | cons a as ih =>
    intro s
    simp only [List.cons_append, runHttp]
    cases httpStep env s a with
    | none => rfl
    | some t => simpa using ih t

/-- On every connection: at most one request is read, it gets exactly the answer the request handler (C45) gives, this is all that
is ever sent, and the sending side is shut down only after that. -/
theorem C59_exchange {env : ServerEnv} {s : Http} (h : HttpReach env httpInit s) (k : Nat) :
    Exchange env (talk (eventsOf k s.log)) := by
  have hi := httpInv_reach (httpInv_init env) h
  by_cases hk : k < s.conns.length
  · have ht := (hi.inv k _ (List.getElem?_eq_getElem hk)).track
    revert ht
    generalize talk (eventsOf k s.log) = evs
    generalize s.conns[k] = c
    obtain ⟨cl, ex, rd, wr, wt, rs, op⟩ := c
    intro ht
    rcases rd with _ | _ | (_ | r) | _ <;> rcases wr with _ | _ | b | _ <;> simp only [HttpTrack] at ht
    · rw [ht.1]; exact .nothing
    · rw [ht.1]; exact .nothing
    · rw [ht.1]; exact .nothing
    · rw [ht.1]; exact .asked r
    · rw [ht.1]; exact .nothing
    · obtain ⟨r, x, h1, _, rfl⟩ := ht; exact .answered r x h1
    · obtain ⟨r, x, h1, _, rfl⟩ := ht
      cases b
      · exact .answered r x h1
      · exact .sent r x h1
    · obtain ⟨r, x, b, f, h1, _, rfl⟩ := ht
      cases b <;> cases f
      · exact .answered r x h1
      · exact .broken r x h1
      · exact .sent r x h1
      · exact .complete r x h1
  · have : eventsOf k s.log = [] := by
      simp only [eventsOf, List.map_eq_nil_iff, List.filter_eq_nil_iff]
      intro e he h
      have := hi.known e he
      simp at h; omega
    rw [this]; exact .nothing

/-- Every client that connected has exactly one connection of its own, in the order in which they connected (the last one may not
have been handled yet). -/
theorem C59_clients {env : ServerEnv} {acts : List HttpAct} {s : Http} (h : runHttp env httpInit acts = some s) :
    s.conns.map (·.client) ++ (match s.accept with | .ready (some c) => [c] | _ => []) = clientsOf acts := by
  suffices H : ∀ (acts : List HttpAct) (s t : Http), HttpReach env httpInit s → runHttp env s acts = some t →
      t.conns.map (·.client) ++ (match t.accept with | .ready (some c) => [c] | _ => []) =
      s.conns.map (·.client) ++ (match s.accept with | .ready (some c) => [c] | _ => []) ++ clientsOf acts by
    have := H acts _ _ (.refl _) h
    simpa [httpInit] using this
  intro acts
  induction acts with
  | nil => intro s t _ h; simp only [runHttp, Option.some.injEq] at h; subst h; simp [clientsOf]
  | cons a as ih =>
    intro s t hr h
    simp only [runHttp, Option.bind_eq_some_iff] at h
    obtain ⟨s', h1, h2⟩ := h
    rw [ih s' t (hr.step a h1) h2]
    have hset : ∀ (l : List Conn) (k : Nat) (c c' : Conn), l[k]? = some c → c'.client = c.client →
        (l.set k c').map (·.client) = l.map (·.client) := by
      intro l k c c' hc he
      rw [List.map_set, he]
      apply List.ext_getElem?
      intro j
      rw [List.getElem?_set]
      obtain ⟨hk, rfl⟩ := List.getElem?_eq_some_iff.1 hc
      split
      · rename_i e; subst e; simp [hk]
      · rfl
    cases a <;> simp only [httpStep] at h1 <;> (repeat' split at h1) <;> (try cases h1)
    all_goals (try (simp_all [clientsOf, newConn]; done))
    · rename_i k hacc _ c hc
      dsimp only
      rw [hset _ _ c _ hc (by rfl), hacc]
      simp [clientsOf]
    · rename_i k hacc _ c hc
      dsimp only
      rw [hset _ _ c _ hc (by rfl), hacc]
      simp [clientsOf]
    · rename_i k a _ c hc _ c' evs hs
      dsimp only
      rw [hset _ _ _ _ hc (connStep_idle hs).2.2.2]
      simp [clientsOf]

theorem http_conn_persists {env : ServerEnv} {s t : Http} (h : HttpReach env s t) {k : Nat} {c : Conn} (hc : s.conns[k]? = some c) :
    s.now ≤ t.now ∧ ∃ d, t.conns[k]? = some d ∧ d.expiry = c.expiry ∧ d.client = c.client := by
  induction h with
  | refl => exact ⟨Nat.le_refl _, c, hc, rfl, rfl⟩
  | step a hr hs ih =>
    rename_i t u
    obtain ⟨hn, d, hd, he, hcl⟩ := ih
    have hset : ∀ (j : Nat) (x y : Conn), t.conns[j]? = some x → y.expiry = x.expiry → y.client = x.client →
        ∃ d, (t.conns.set j y)[k]? = some d ∧ d.expiry = c.expiry ∧ d.client = c.client := by
      intro j x y hx h1 h2
      rw [List.getElem?_set]
      have hj := (List.getElem?_eq_some_iff.1 hx).1
      split
      · rename_i e; subst e
        rw [hd] at hx; injection hx with hx; subst hx
        exact ⟨y, by simp [hj], by rw [h1, he], by rw [h2, hcl]⟩
      · exact ⟨d, hd, he, hcl⟩
    cases a <;> simp only [httpStep] at hs <;> (repeat' split at hs) <;> (try cases hs)
    · exact ⟨by show s.now ≤ t.now + 1; omega, d, hd, he, hcl⟩
    · exact ⟨hn, d, hd, he, hcl⟩
    · exact ⟨hn, d, hd, he, hcl⟩
    · refine ⟨hn, d, ?_, he, hcl⟩
      show (t.conns ++ _)[k]? = some d
      rw [List.getElem?_append_left (List.getElem?_eq_some_iff.1 hd).1]; exact hd
    · exact ⟨hn, d, hd, he, hcl⟩
    · rename_i j _ _ x hx
      exact ⟨hn, hset j x _ hx rfl rfl⟩
    · rename_i j _ _ x hx
      exact ⟨hn, hset j x _ hx rfl rfl⟩
    · rename_i j a _ x hx _ x' evs hs
      exact ⟨hn, hset j x _ hx (connStep_idle hs).2.2.1 (connStep_idle hs).2.2.2⟩

theorem http_reach_trans {env : ServerEnv} {s t u : Http} (h1 : HttpReach env s t) (h2 : HttpReach env t u) : HttpReach env s u := by
  induction h2 with
  | refl => exact h1
  | step a _ hs ih => exact ih.step a hs

/-- A connection is closed by the deadline at most once, and never less than 60 seconds after it was accepted. -/
theorem C59_not_closed_early {env : ServerEnv} {s s' t : Http} (hs : HttpReach env httpInit s) {client : Nat}
    (ha : s.accept = .ready (some client)) (hs' : httpStep env s .onAccept = some s') (ht : HttpReach env s' t) :
    (closings (eventsOf s.conns.length t.log)).length ≤ 1 ∧
    (.closed ∈ eventsOf s.conns.length t.log → s.now + 60 ≤ t.now) := by
  have hi := httpInv_reach (httpInv_init env) (http_reach_trans (hs.step _ hs') ht)
  simp only [httpStep, ha, Option.some.injEq] at hs'
  have hc : s'.conns[s.conns.length]? = some (newConn client s.now) := by subst hs'; simp
  obtain ⟨_, d, hd, he, _⟩ := http_conn_persists ht hc
  have hcl := (hi.inv _ _ hd).closed
  refine ⟨by rw [hcl]; split <;> omega, fun hm => ?_⟩
  have : d.isOpen = false := by
    cases ho : d.isOpen with
    | false => rfl
    | true =>
      rw [ho] at hcl
      have := List.length_eq_zero_iff.1 hcl
      rw [closings, List.filter_eq_nil_iff] at this
      exact absurd rfl (this _ hm)
  have := ((hi.inv _ _ hd).shut this).2
  rw [he] at this; exact this

/-! ### release -/

def opWeight {α : Type} : Op α → Nat
  | .idle => 3
  | .waiting => 2
  | .ready _ => 1
  | .done => 0

/-- a bound on the number of actions connection `k` can still take -/
def httpWeight (s : Http) (k : Nat) : Nat := match s.conns[k]? with
  | some c => opWeight c.read + opWeight c.write + opWeight c.wait
  | none => 0

theorem connStep_weight {env : ServerEnv} {now : Nat} {c c' : Conn} {new : List ConnEv} {a : ConnAct}
    (hw : c.read = .ready none ∨ (∃ r, c.read = .ready (some r)) → c.write = .idle)
    (h : connStep env now c a = some (c', new)) :
    opWeight c'.read + opWeight c'.write + opWeight c'.wait < opWeight c.read + opWeight c.write + opWeight c.wait ∧
    0 < c.read.holds + c.write.holds + c.wait.holds := by
  obtain ⟨cl, ex, rd, wr, wt, rs, op⟩ := c
  cases a <;> simp only [connStep] at h <;> (repeat' split at h) <;> (try cases h) <;>
    simp_all [opWeight, Op.holds] <;> (try omega)
  all_goals (cases wt <;> simp [cancelWait] <;> omega)

theorem track_ready {env : ServerEnv} {c : Conn} {evs : List ConnEv} (h : HttpTrack env c evs) :
    (c.read = .ready none ∨ (∃ r, c.read = .ready (some r)) → c.write = .idle) := by
  obtain ⟨cl, ex, rd, wr, wt, rs, op⟩ := c
  rcases rd with _ | _ | (_ | r) | _ <;> rcases wr with _ | _ | b | _ <;> simp_all [HttpTrack]

theorem track_write {env : ServerEnv} {c : Conn} {evs : List ConnEv} (h : HttpTrack env c evs) (hw : ∀ _ : c.write = .idle, False) :
    c.read = .done := by
  obtain ⟨cl, ex, rd, wr, wt, rs, op⟩ := c
  rcases rd with _ | _ | (_ | r) | _ <;> rcases wr with _ | _ | b | _ <;> simp_all [HttpTrack]

/-- every action of connection `k` makes its weight smaller, other actions leave it -/
theorem http_weight_step {env : ServerEnv} {s t : Http} {a : HttpAct} (hi : HttpInv env s) (h : httpStep env s a = some t) {k : Nat}
    (hk : k < s.conns.length) :
    (Concerns s k a → httpWeight t k < httpWeight s k) ∧
    (¬ Concerns s k a → t.conns[k]? = s.conns[k]? ∧ eventsOf k t.log = eventsOf k s.log) := by
  have hset : ∀ (j : Nat) (y : Conn), j ≠ k → (s.conns.set j y)[k]? = s.conns[k]? := by
    intro j y hj; rw [List.getElem?_set, if_neg hj]
  have hsame : ∀ (y : Conn), (s.conns.set k y)[k]? = some y := by
    intro y; rw [List.getElem?_set]; simp [hk]
  cases a with
  | tick =>
    simp only [httpStep, Option.some.injEq] at h; subst h
    exact ⟨fun h => h.elim, fun _ => ⟨rfl, rfl⟩⟩
  | connect client =>
    simp only [httpStep] at h
    split at h <;> cases h
    exact ⟨fun h => h.elim, fun _ => ⟨rfl, rfl⟩⟩
  | acceptFail =>
    simp only [httpStep] at h
    split at h <;> cases h
    exact ⟨fun h => h.elim, fun _ => ⟨rfl, rfl⟩⟩
  | onAccept =>
    simp only [httpStep] at h
    split at h <;> cases h
    · exact ⟨fun h => h.elim, fun _ => ⟨List.getElem?_append_left hk, rfl⟩⟩
    · exact ⟨fun h => h.elim, fun _ => ⟨rfl, rfl⟩⟩
  | startRead =>
    simp only [httpStep] at h
    split at h
    · rename_i j e
      split at h
      · rename_i c hc
        simp only [Option.some.injEq] at h; subst h
        refine ⟨fun hcn => ?_, fun hn => ⟨hset _ _ ?_, rfl⟩⟩
        · simp only [Concerns, e, Accept.starting.injEq, reduceCtorEq, or_false] at hcn
          subst hcn
          have hr := (hi.readIdle _ _ hc).2 e
          simp only [httpWeight, hsame, hc, hr, opWeight]; omega
        · intro e'; subst e'; exact hn (Or.inl e)
      · cases h
    · cases h
  | startWait =>
    simp only [httpStep] at h
    split at h
    · rename_i j e
      split at h
      · rename_i c hc
        simp only [Option.some.injEq] at h; subst h
        refine ⟨fun hcn => ?_, fun hn => ⟨hset _ _ ?_, rfl⟩⟩
        · simp only [Concerns, e, Accept.reading.injEq, reduceCtorEq, false_or] at hcn
          subst hcn
          have hr := (hi.waitIdle _ _ hc).2 (Or.inr e)
          simp only [httpWeight, hsame, hc, hr, opWeight]; omega
        · intro e'; subst e'; exact hn (Or.inr e)
      · cases h
    · cases h
  | conn j a =>
    simp only [httpStep] at h
    split at h
    · rename_i c hc
      split at h
      · rename_i c' evs hs
        simp only [Option.some.injEq] at h; subst h
        refine ⟨fun hcn => ?_, fun hn => ⟨hset _ _ hn, ?_⟩⟩
        · simp only [Concerns] at hcn; subst hcn
          have := (connStep_weight (track_ready (hi.inv _ _ hc).track) hs).1
          simp only [httpWeight, hsame, hc]; exact this
        · simp only [eventsOf_append]
          rw [eventsOf_other hn, List.append_nil]
      · cases h
    · cases h

/-- An action that does not belong to a connection changes neither it nor what is seen on it: connections do not influence each
other. -/
theorem C59_isolated {env : ServerEnv} {s t : Http} (hs : HttpReach env httpInit s) {a : HttpAct} (h : httpStep env s a = some t)
    {k : Nat} (hk : k < s.conns.length) (hn : ¬ Concerns s k a) :
    t.conns[k]? = s.conns[k]? ∧ eventsOf k t.log = eventsOf k s.log :=
  (http_weight_step (httpInv_reach (httpInv_init env) hs) h hk).2 hn

/-- the number of actions of connection `k` in a run -/
def actionsOf (k : Nat) (acts : List HttpAct) : Nat := (acts.filter (fun a => match a with | .conn j _ => j == k | _ => false)).length

/-- A connection cannot keep the server busy: all that ever happens on it are at most nine actions. -/
theorem C59_few_actions {env : ServerEnv} {s t : Http} (hs : HttpReach env httpInit s) {k : Nat} (hk : k < s.conns.length)
    {acts : List HttpAct} (h : runHttp env s acts = some t) : actionsOf k acts ≤ 9 := by
  suffices H : ∀ (acts : List HttpAct) (s : Http), HttpReach env httpInit s → k < s.conns.length → runHttp env s acts = some t →
      actionsOf k acts + httpWeight t k ≤ httpWeight s k by
    have h1 := H acts s hs hk h
    have h2 : httpWeight s k ≤ 9 := by
      have ho : ∀ {α : Type} (o : Op α), opWeight o ≤ 3 := by intro α o; cases o <;> simp [opWeight]
      simp only [httpWeight, List.getElem?_eq_getElem hk]
      have a1 := ho s.conns[k].read
      have a2 := ho s.conns[k].write
      have a3 := ho s.conns[k].wait
      omega
    omega
  intro acts
  induction acts with
  | nil => intro s _ _ h; simp only [runHttp, Option.some.injEq] at h; subst h; simp [actionsOf]
  | cons a as ih =>
    intro s hr hk h
    simp only [runHttp, Option.bind_eq_some_iff] at h
    obtain ⟨s', h1, h2⟩ := h
    have hk' : k < s'.conns.length := by
      obtain ⟨_, d, hd, _⟩ := http_conn_persists ((HttpReach.refl s).step a h1) (List.getElem?_eq_getElem hk)
      exact (List.getElem?_eq_some_iff.1 hd).1
    have h3 := ih s' (hr.step a h1) hk' h2
    have hw := http_weight_step (httpInv_reach (httpInv_init env) hr) h1 hk
    have hle : httpWeight s' k ≤ httpWeight s k := by
      by_cases hc : Concerns s k a
      · exact Nat.le_of_lt (hw.1 hc)
      · exact Nat.le_of_eq (by simp only [httpWeight, (hw.2 hc).1])
    by_cases he : ∃ b, a = .conn k b
    · obtain ⟨b, rfl⟩ := he
      have := hw.1 rfl
      simp only [actionsOf, List.filter_cons, beq_self_eq_true, if_true, List.length_cons] at h3 ⊢
      omega
    · have : actionsOf k (a :: as) = actionsOf k as := by
        unfold actionsOf
        rw [List.filter_cons, if_neg]
        cases a <;> simp_all
      omega

theorem http_released_stays {env : ServerEnv} {s t : Http} (hi : HttpInv env s) {a : HttpAct} (h : httpStep env s a = some t) {k : Nat}
    (hr : Released s k) : Released t k := by
  obtain ⟨hk, h0⟩ := hr
  have hc := List.getElem?_eq_getElem hk
  simp only [Http.holders, hc] at h0
  have hz := (Nat.add_eq_zero_iff.1 h0).1
  have hacc : s.accept ≠ .starting k ∧ s.accept ≠ .reading k := by
    constructor <;> intro e <;> rw [e] at h0 <;> simp at h0
  have hlen : s.conns.length ≤ t.conns.length := by
    cases a <;> simp only [httpStep] at h <;> (repeat' split at h) <;> (try cases h) <;> simp
  have hcn : ¬ Concerns s k a := by
    cases a with
    | conn j a =>
      intro e; simp only [Concerns] at e; subst e
      simp only [httpStep, hc] at h
      split at h
      · rename_i c' evs hs
        have := (connStep_weight (track_ready (hi.inv _ _ hc).track) hs).2
        rw [hz] at this; exact absurd this (Nat.lt_irrefl 0)
      · cases h
    | startRead => simp [Concerns, hacc.1, hacc.2]
    | startWait => simp [Concerns, hacc.1, hacc.2]
    | _ => exact fun h => h
  have hsame := ((http_weight_step hi h hk).2 hcn).1
  refine ⟨by omega, ?_⟩
  simp only [Http.holders, hsame, hc]
  rw [hz]
  have hacc' : t.accept ≠ .starting k ∧ t.accept ≠ .reading k := by
    cases a <;> simp only [httpStep] at h <;> (repeat' split at h) <;> (try cases h) <;> simp_all
    omega
  cases e : t.accept <;> simp_all

/-- The server is never stuck with a connection whose deadline has passed: as long as the connection is not released there is
something the server itself can do for it, whatever the client does or does not do. -/
theorem C59_no_leak {env : ServerEnv} (hub : ∀ t, env.getTile t ≠ .ub) {s : Http} (hs : HttpReach env httpInit s) {k : Nat} {c : Conn}
    (hc : s.conns[k]? = some c) (hd : c.expiry ≤ s.now) (hr : ¬ Released s k) : CanServe env s k := by
  have hi := httpInv_reach (httpInv_init env) hs
  have hk : k < s.conns.length := (List.getElem?_eq_some_iff.1 hc).1
  have hinv := hi.inv k c hc
  by_cases ha : s.accept = .starting k
  · exact ⟨.startRead, Or.inl ha, rfl, by simp [httpStep, ha, hc]⟩
  by_cases ha' : s.accept = .reading k
  · exact ⟨.startWait, Or.inr ha', rfl, by simp [httpStep, ha', hc]⟩
  have hwi : c.wait ≠ .idle := fun h => ((hi.waitIdle k c hc).1 h).elim ha ha'
  have hri : c.read ≠ .idle := fun h => ha ((hi.readIdle k c hc).1 h)
  have go : ∀ a r, connStep env s.now c a = some r → (httpStep env s (.conn k a)).isSome = true := by
    intro a r h; simp [httpStep, hc, h]
  cases hw : c.wait with
  | idle => exact absurd hw hwi
  | waiting => exact ⟨.conn k .expire, rfl, rfl, go _ _ (by simp only [connStep, hw, if_pos hd]; rfl)⟩
  | ready b =>
    cases b
    · exact ⟨.conn k .onWait, rfl, rfl, go _ _ (by simp only [connStep, hw]; rfl)⟩
    · exact ⟨.conn k .onWait, rfl, rfl, go _ _ (by simp only [connStep, hw]; rfl)⟩
  | done =>
    have hold : c.read.holds + c.write.holds ≠ 0 := by
      intro h0
      apply hr
      refine ⟨hk, ?_⟩
      simp only [Http.holders, hc, hw]
      rw [h0]
      cases e : s.accept <;> simp_all [Op.holds]
    cases ho : c.isOpen with
    | true =>
      have hwd := hinv.cancel (Or.inr ⟨hw, ho⟩)
      have := track_write hinv.track (by rw [hwd]; exact fun h => by cases h)
      rw [hwd, this] at hold
      exact absurd rfl hold
    | false =>
      cases hrd : c.read with
      | idle => exact absurd hrd hri
      | waiting =>
        exact ⟨.conn k .readFail, rfl, by simp [Http.isServer, hc, ho], go _ _ (by simp only [connStep, hrd]; rfl)⟩
      | ready o =>
        cases o with
        | none => exact ⟨.conn k .onRead, rfl, rfl, go _ _ (by simp only [connStep, hrd]; rfl)⟩
        | some r =>
          obtain ⟨x, hx, _⟩ := C45_total env hub r
          exact ⟨.conn k .onRead, rfl, rfl, go _ _ (by simp only [connStep, hrd, hx]; rfl)⟩
      | done =>
        cases hwr : c.write with
        | idle => rw [hrd, hwr] at hold; exact absurd rfl hold
        | waiting =>
          exact ⟨.conn k .writeFail, rfl, by simp [Http.isServer, hc, ho], go _ _ (by simp only [connStep, hwr]; rfl)⟩
        | ready b => exact ⟨.conn k .onWrite, rfl, rfl, go _ _ (by simp only [connStep, hwr]; rfl)⟩
        | done => rw [hrd, hwr] at hold; exact absurd rfl hold

/-- Every connection is released, for good: in every infinite run in which the clock goes on and the server does not put off for
ever what it could always do for the connection (a fair scheduler). -/
theorem C59_released {env : ServerEnv} (hub : ∀ t, env.getTile t ≠ .ub) (run : Nat → Http) (act : Nat → HttpAct)
    (h0 : run 0 = httpInit) (hstep : ∀ n, httpStep env (run n) (act n) = some (run (n + 1)))
    (hclock : ∀ T, ∃ n, T ≤ (run n).now)
    (hfair : ∀ k n, (∀ m, n ≤ m → CanServe env (run m) k) → ∃ m, n ≤ m ∧ Concerns (run m) k (act m)) :
    ∀ n k, k < (run n).conns.length → ∃ N, ∀ m, N ≤ m → Released (run m) k := by
  intro n k hk
  have hreach : ∀ n, HttpReach env httpInit (run n) := by
    intro n
    induction n with
    | zero => rw [h0]; exact .refl _
    | succ n ih => exact ih.step _ (hstep n)
  have hinv : ∀ n, HttpInv env (run n) := fun n => httpInv_reach (httpInv_init env) (hreach n)
  have hfrom : ∀ n d, HttpReach env (run n) (run (n + d)) := by
    intro n d
    induction d with
    | zero => exact .refl _
    | succ d ih => exact ih.step _ (hstep _)
  have hc := List.getElem?_eq_getElem hk
  generalize (run n).conns[k] = c at hc
  have hkeep : ∀ m, n ≤ m → ∃ d, (run m).conns[k]? = some d ∧ d.expiry = c.expiry := by
    intro m hm
    obtain ⟨d, rfl⟩ := Nat.exists_eq_add_of_le hm
    obtain ⟨_, d, h1, h2, _⟩ := http_conn_persists (hfrom n d) hc
    exact ⟨d, h1, h2⟩
  have hlt : ∀ m, n ≤ m → k < (run m).conns.length := by
    intro m hm; obtain ⟨d, h1, _⟩ := hkeep m hm; exact (List.getElem?_eq_some_iff.1 h1).1
  have hmono : ∀ m d, (run m).now ≤ (run (m + d)).now := by
    intro m d
    induction d with
    | zero => exact Nat.le_refl _
    | succ d ih =>
      have h := hstep (m + d)
      have : (run (m + d)).now ≤ (run (m + d + 1)).now := by
        revert h; generalize run (m + d + 1) = t; generalize act (m + d) = a; intro h
        cases a <;> simp only [httpStep] at h <;> (repeat' split at h) <;> (try cases h) <;> simp
      exact Nat.le_trans ih this
  have hwle : ∀ m d, n ≤ m → httpWeight (run (m + d)) k ≤ httpWeight (run m) k := by
    intro m d hm
    induction d with
    | zero => exact Nat.le_refl _
    | succ d ih =>
      have := http_weight_step (hinv (m + d)) (hstep (m + d)) (hlt (m + d) (by omega))
      by_cases hcn : Concerns (run (m + d)) k (act (m + d))
      · exact Nat.le_trans (Nat.le_of_lt (this.1 hcn)) ih
      · have h2 := (this.2 hcn).1
        refine Nat.le_trans (Nat.le_of_eq ?_) ih
        simp only [httpWeight, ← Nat.add_assoc, h2]
  have hstay : ∀ m d, Released (run m) k → Released (run (m + d)) k := by
    intro m d hr
    induction d with
    | zero => exact hr
    | succ d ih => exact http_released_stays (hinv _) (hstep _) ih
  obtain ⟨n1, hn1⟩ := hclock c.expiry
  suffices H : ∀ w m, n ≤ m → n1 ≤ m → httpWeight (run m) k ≤ w → ∃ N, Released (run N) k by
    obtain ⟨N, hN⟩ := H _ (n + n1) (by omega) (by omega) (Nat.le_refl _)
    refine ⟨N, fun m hm => ?_⟩
    obtain ⟨d, rfl⟩ := Nat.exists_eq_add_of_le hm
    exact hstay N d hN
  intro w
  induction w with
  | zero =>
    intro m hm hm1 hw
    refine Classical.byContradiction fun hne => ?_
    have hall : ∀ j, m ≤ j → CanServe env (run j) k := by
      intro j hj
      obtain ⟨d, hd, he⟩ := hkeep j (by omega)
      refine C59_no_leak hub (hreach j) hd ?_ (fun hr => hne ⟨j, hr⟩)
      obtain ⟨e, rfl⟩ := Nat.exists_eq_add_of_le (show n1 ≤ j by omega)
      have := hmono n1 e
      omega
    obtain ⟨j, hj, hcn⟩ := hfair k m hall
    have h1 := (http_weight_step (hinv j) (hstep j) (hlt j (by omega))).1 hcn
    obtain ⟨e, rfl⟩ := Nat.exists_eq_add_of_le hj
    have := hwle m e hm
    omega
  | succ w ih =>
    intro m hm hm1 hw
    refine Classical.byContradiction fun hne => ?_
    have hall : ∀ j, m ≤ j → CanServe env (run j) k := by
      intro j hj
      obtain ⟨d, hd, he⟩ := hkeep j (by omega)
      refine C59_no_leak hub (hreach j) hd ?_ (fun hr => hne ⟨j, hr⟩)
      obtain ⟨e, rfl⟩ := Nat.exists_eq_add_of_le (show n1 ≤ j by omega)
      have := hmono n1 e
      omega
    obtain ⟨j, hj, hcn⟩ := hfair k m hall
    have h1 := (http_weight_step (hinv j) (hstep j) (hlt j (by omega))).1 hcn
    obtain ⟨e, rfl⟩ := Nat.exists_eq_add_of_le hj
    have h2 := hwle m e hm
    exact hne (ih (m + e + 1) (by omega) (by omega) (by omega))

/-! ### service -/

/-- The server goes on accepting: whatever has happened, after at most three of its own actions (and none of a client) it waits for
the next client again, and no connection that was started before is touched. -/
theorem C59_keeps_accepting {env : ServerEnv} {s : Http} (hs : HttpReach env httpInit s) :
    ∃ acts t, acts.length ≤ 3 ∧ (∀ a ∈ acts, a = .onAccept ∨ a = .startRead ∨ a = .startWait) ∧
      runHttp env s acts = some t ∧ t.accept = .waiting ∧ t.now = s.now ∧ t.log = s.log ∧
      ∀ k, k < s.conns.length → s.accept ≠ .starting k → s.accept ≠ .reading k → t.conns[k]? = s.conns[k]? := by
  have hi := httpInv_reach (httpInv_init env) hs
  cases ha : s.accept with
  | waiting => exact ⟨[], s, by simp, by simp, rfl, ha, rfl, rfl, fun _ _ _ _ => rfl⟩
  | ready o =>
    cases o with
    | none =>
      exact ⟨[.onAccept], { s with accept := .waiting }, by simp, by simp, by simp [runHttp, httpStep, ha], rfl, rfl, rfl,
        fun _ _ _ _ => rfl⟩
    | some client =>
      refine ⟨[.onAccept, .startRead, .startWait], { s with accept := .waiting, conns := s.conns ++ [{ newConn client s.now with read := .waiting, wait := .waiting }] }, by simp, by simp, ?_, ?_⟩
      · simp [runHttp, httpStep, ha, List.set_append]
      · refine ⟨rfl, rfl, rfl, fun k hk _ _ => ?_⟩
        exact List.getElem?_append_left hk
  | starting k =>
    have hk := hi.acc k (Or.inl ha)
    have hc := List.getElem?_eq_getElem hk
    refine ⟨[.startRead, .startWait], { s with accept := .waiting, conns := s.conns.set k { s.conns[k] with read := .waiting, wait := .waiting } }, by simp, by simp, ?_, ?_⟩
    · simp [runHttp, httpStep, ha, hc, hk]
    · refine ⟨rfl, rfl, rfl, fun j hj h1 h2 => ?_⟩
      show (s.conns.set k _)[j]? = _
      rw [List.getElem?_set, if_neg (fun e => h1 (by rw [e]))]
  | reading k =>
    have hk := hi.acc k (Or.inr ha)
    have hc := List.getElem?_eq_getElem hk
    refine ⟨[.startWait], { s with accept := .waiting, conns := s.conns.set k { s.conns[k] with wait := .waiting } }, by simp, by simp, ?_, ?_⟩
    · simp [runHttp, httpStep, ha, hc]
    · refine ⟨rfl, rfl, rfl, fun j hj h1 h2 => ?_⟩
      show (s.conns.set k _)[j]? = _
      rw [List.getElem?_set, if_neg (fun e => h2 (by rw [e]))]

theorem httpStep_last {env : ServerEnv} {now : Nat} {acc : Accept} {cs : List Conn} {log : List (Nat × ConnEv)} {c c' : Conn}
    {evs : List ConnEv} {a : ConnAct} (h : connStep env now c a = some (c', evs)) :
    httpStep env ⟨now, acc, cs ++ [c], log⟩ (.conn cs.length a) =
      some ⟨now, acc, cs ++ [c'], log ++ evs.map (cs.length, ·)⟩ := by
  simp [httpStep, h, List.set_append]

/-- No client can keep another one from being served: from every state of the server in which it waits for a client (see
`C59_keeps_accepting`), a client that connects and sends a request gets the complete answer to it and its connection is released,
without any action of another connection and with the others left as they are. -/
theorem C59_served {env : ServerEnv} {s : Http} (ha : s.accept = .waiting) (hs : HttpReach env httpInit s)
    (client : Nat) (r : Req) (x : Resp) (hx : handleRequest env r = .ok x) :
    ∃ acts t, runHttp env s acts = some t ∧ t.accept = .waiting ∧ t.conns.length = s.conns.length + 1 ∧
      (∀ a ∈ acts, ∀ k, k < s.conns.length → ∀ b, a ≠ .conn k b) ∧ .tick ∉ acts ∧
      (∀ k, k < s.conns.length → t.conns[k]? = s.conns[k]?) ∧
      eventsOf s.conns.length t.log = [.request r, .response x, .sent, .finished] ∧ Released t s.conns.length := by
  have hi := httpInv_reach (httpInv_init env) hs
  obtain ⟨now, acc, cs, log⟩ := s
  simp only at ha; subst ha
  refine ⟨[.connect client, .onAccept, .startRead, .startWait, .conn cs.length (.arrive r), .conn cs.length .onRead,
    .conn cs.length .writeOk, .conn cs.length .onWrite, .conn cs.length .onWait],
    ⟨now, .waiting, cs ++ [⟨client, now + 60, .done, .done, .done, some x, true⟩],
      log ++ [.request r, .response x, .sent, .finished].map (cs.length, ·)⟩, ?_, rfl, by simp, ?_, by simp, ?_, ?_, ?_⟩
  · have h1 : runHttp env ⟨now, .waiting, cs, log⟩ [.connect client, .onAccept, .startRead, .startWait] =
        some ⟨now, .waiting, cs ++ [⟨client, now + 60, .waiting, .idle, .waiting, none, true⟩], log⟩ := by
      simp [runHttp, httpStep, newConn, List.set_append]
    rw [show ∀ a b c d e f g h i : HttpAct, [a, b, c, d, e, f, g, h, i] = [a, b, c, d] ++ [e, f, g, h, i] from fun _ _ _ _ _ _ _ _ _ => rfl,
      runHttp_append, h1]
    simp only [Option.bind_some, runHttp]
    rw [httpStep_last (a := .arrive r) (by rfl)]
    simp only [Option.bind_some]
    rw [httpStep_last (a := .onRead) (c' := ⟨client, now + 60, .done, .waiting, .waiting, some x, true⟩) (evs := [.response x])
      (by simp [connStep, hx])]
    simp only [Option.bind_some]
    rw [httpStep_last (a := .writeOk) (by rfl)]
    simp only [Option.bind_some]
    rw [httpStep_last (a := .onWrite) (by rfl)]
    simp only [Option.bind_some, cancelWait]
    rw [httpStep_last (a := .onWait) (by rfl)]
    simp
  · intro a ha k hk b e
    subst e
    simp only at hk
    simp only [List.mem_cons, HttpAct.conn.injEq, reduceCtorEq, List.not_mem_nil, or_false, false_or] at ha
    omega
  · intro k hk
    exact List.getElem?_append_left hk
  · have : eventsOf cs.length log = [] := by
      simp only [eventsOf, List.map_eq_nil_iff, List.filter_eq_nil_iff]
      intro e he h
      have := hi.known e he
      simp at h this; omega
    show eventsOf cs.length (log ++ _) = _
    rw [eventsOf_append, this, eventsOf_same]; rfl
  · refine ⟨by simp, ?_⟩
    simp [Http.holders, Op.holds]

/-- A request that came in is answered: when the server has nothing left to do for the connection, the answer was handed out. -/
theorem C59_answered {env : ServerEnv} (hub : ∀ t, env.getTile t ≠ .ub) {s : Http} (hs : HttpReach env httpInit s) {k : Nat} {r : Req}
    (hr : .request r ∈ eventsOf k s.log) (hq : ¬ CanServe env s k) :
    ∃ x, handleRequest env r = .ok x ∧ .response x ∈ eventsOf k s.log := by
  have hi := httpInv_reach (httpInv_init env) hs
  have hex := C59_exchange hs k
  have hr' : .request r ∈ talk (eventsOf k s.log) := by simp [talk, hr]
  have hsub : ∀ x, .response x ∈ talk (eventsOf k s.log) → .response x ∈ eventsOf k s.log := fun x h => (List.mem_filter.1 h).1
  generalize htk : talk (eventsOf k s.log) = evs at hex hr' hsub
  cases hex with
  | nothing => cases hr'
  | asked r' =>
    exfalso
    apply hq
    have hk : k < s.conns.length := by
      simp only [eventsOf, List.mem_map, List.mem_filter] at hr
      obtain ⟨e, ⟨he, h⟩, _⟩ := hr
      have := hi.known e he
      simp at h; omega
    have hc := List.getElem?_eq_getElem hk
    have ht := (hi.inv k _ hc).track
    rw [htk] at ht
    obtain ⟨x, hx, _⟩ := C45_total env hub r'
    have hrd : s.conns[k].read = .ready (some r') := by
      revert ht
      generalize s.conns[k] = c
      obtain ⟨cl, ex, rd, wr, wt, rs, op⟩ := c
      intro ht
      rcases rd with _ | _ | (_ | r0) | _ <;> rcases wr with _ | _ | b | _ <;> simp only [HttpTrack] at ht
      · cases ht.1
      · cases ht.1
      · cases ht.1
      · obtain ⟨h, _⟩ := ht; injection h with h; injection h with h; rw [h]
      · cases ht.1
      · obtain ⟨_, _, _, _, h⟩ := ht; simp at h
      · obtain ⟨_, _, _, _, h⟩ := ht; simp at h
      · obtain ⟨_, _, _, _, _, _, h⟩ := ht; simp at h
    exact ⟨.conn k .onRead, rfl, rfl, by simp [httpStep, hc, connStep, hrd, hx]⟩
  | answered r' x hx =>
    have : r = r' := by simpa using hr'
    subst this
    exact ⟨x, hx, hsub x (by simp)⟩
  | sent r' x hx =>
    have : r = r' := by simpa using hr'
    subst this
    exact ⟨x, hx, hsub x (by simp)⟩
  | complete r' x hx =>
    have : r = r' := by simpa using hr'
    subst this
    exact ⟨x, hx, hsub x (by simp)⟩
  | broken r' x hx =>
    have : r = r' := by simpa using hr'
    subst this
    exact ⟨x, hx, hsub x (by simp)⟩

/-! ### how long a connection is held -/

/-- Finding: a connection that is not answered (the client went away, or its request could not be read) is held for the whole 60
seconds, open socket included: the handler of the read returns without cancelling the deadline (server.cc:72). -/
theorem C59_lingers {env : ServerEnv} {s : Http} (hs : HttpReach env httpInit s) {k : Nat} {c : Conn} (hc : s.conns[k]? = some c)
    (hr : c.response = none) (hd : s.now < c.expiry) : ¬ Released s k ∧ c.isOpen = true := by
  have hi := httpInv_reach (httpInv_init env) hs
  have hinv := hi.inv k c hc
  have hopen : c.isOpen = true := by
    cases ho : c.isOpen with
    | true => rfl
    | false => have := (hinv.shut ho).2; omega
  refine ⟨fun hrel => ?_, hopen⟩
  obtain ⟨hk, h0⟩ := hrel
  simp only [Http.holders, hc] at h0
  obtain ⟨h1, h2⟩ := Nat.add_eq_zero_iff.1 h0
  have hw0 : c.wait.holds = 0 := (Nat.add_eq_zero_iff.1 h1).2
  have hna : s.accept ≠ .starting k ∧ s.accept ≠ .reading k := by
    constructor <;> intro e <;> rw [e] at h2 <;> simp at h2
  have hwd : c.wait = .done := by
    cases hw : c.wait with
    | idle => exact absurd ((hi.waitIdle k c hc).1 hw) (by simp [hna])
    | waiting => rw [hw] at hw0; cases hw0
    | ready b => rw [hw] at hw0; cases hw0
    | done => rfl
  have hwr := hinv.cancel (Or.inr ⟨hwd, hopen⟩)
  have ht := hinv.track
  have hrd := track_write ht (by rw [hwr]; exact fun h => by cases h)
  simp only [HttpTrack, hrd, hwr] at ht
  obtain ⟨_, _, _, _, _, h, _⟩ := ht
  rw [hr] at h; cases h

/-- a connection whose `start()` has returned is not started again -/
theorem http_started_stays {env : ServerEnv} {s t : Http} (h : HttpReach env s t) {k : Nat} (hk : k < s.conns.length)
    (h1 : s.accept ≠ .starting k) (h2 : s.accept ≠ .reading k) : t.accept ≠ .starting k ∧ t.accept ≠ .reading k := by
  have hlen : s.conns.length ≤ t.conns.length ∧ t.accept ≠ .starting k ∧ t.accept ≠ .reading k := by
    induction h with
    | refl => exact ⟨Nat.le_refl _, h1, h2⟩
    | step a hr hs ih =>
      obtain ⟨i0, i1, i2⟩ := ih
      cases a <;> simp only [httpStep] at hs <;> (repeat' split at hs) <;> (try cases hs) <;>
        simp_all <;> omega
  exact hlen.2

/-- If `start()` had returned when the answer was sent, the connection is released as soon as the server has run its handlers, at
any time: it does not wait for the deadline. -/
theorem C59_prompt {env : ServerEnv} {s t u : Http} (hs : HttpReach env httpInit s) {k : Nat}
    (h1 : s.accept ≠ .starting k) (h2 : s.accept ≠ .reading k)
    (hw : httpStep env s (.conn k .onWrite) = some t) (hu : HttpReach env t u) (hq : ¬ CanServe env u k) : Released u k := by
  have hi := httpInv_reach (httpInv_init env) hs
  have hreach := http_reach_trans (hs.step _ hw) hu
  have hi' := httpInv_reach (httpInv_init env) hreach
  have key : ∃ c, t.conns[k]? = some c ∧ c.write = .done ∧ c.wait ≠ .waiting ∧ c.wait ≠ .idle := by
    simp only [httpStep] at hw
    split at hw
    · rename_i c hc
      split at hw
      · rename_i c' evs hcs
        simp only [Option.some.injEq] at hw; subst hw
        have hk : k < s.conns.length := (List.getElem?_eq_some_iff.1 hc).1
        refine ⟨c', by simp [hk], ?_⟩
        have hwi : c.wait ≠ .idle := fun h => ((hi.waitIdle k c hc).1 h).elim h1 h2
        obtain ⟨cl, ex, rd, wr, wt, rs, op⟩ := c
        simp only [connStep] at hcs
        split at hcs
        · simp only [Option.some.injEq, Prod.mk.injEq] at hcs
          obtain ⟨rfl, _⟩ := hcs
          cases wt <;> simp_all [cancelWait]
        · cases hcs
      · cases hw
    · cases hw
  obtain ⟨c, hc, k1, k2, k3⟩ := key
  have hk : k < t.conns.length := (List.getElem?_eq_some_iff.1 hc).1
  have hacc : t.accept ≠ .starting k ∧ t.accept ≠ .reading k := by
    have hk' : k < s.conns.length := by
      simp only [httpStep] at hw
      split at hw
      · rename_i c hc; exact (List.getElem?_eq_some_iff.1 hc).1
      · cases hw
    exact http_started_stays ((HttpReach.refl s).step _ hw) hk' h1 h2
  have hpers : ∃ d, u.conns[k]? = some d ∧ d.write = .done ∧ d.wait ≠ .waiting ∧ d.wait ≠ .idle := by
    clear hi' hreach hq hi
    have hcat : HttpReach env httpInit t := hs.step _ hw
    induction hu with
    | refl => exact ⟨c, hc, k1, k2, k3⟩
    | step a hr hst ih =>
      rename_i v w
      obtain ⟨d, hd, e1, e2, e3⟩ := ih
      have hv := httpInv_reach (httpInv_init env) (http_reach_trans hcat hr)
      have hkv : k < v.conns.length := (List.getElem?_eq_some_iff.1 hd).1
      have hav := http_started_stays hr hk hacc.1 hacc.2
      by_cases hcn : Concerns v k a
      · cases a with
        | conn j a =>
          simp only [Concerns] at hcn; subst hcn
          simp only [httpStep, hd] at hst
          split at hst
          · rename_i c' evs hcs
            simp only [Option.some.injEq] at hst; subst hst
            refine ⟨c', by simp [hkv], ?_⟩
            have hrd := track_write (hv.inv _ _ hd).track (by rw [e1]; exact fun h => by cases h)
            obtain ⟨cl, ex, rd, wr, wt, rs, op⟩ := d
            simp only at e1 e2 e3 hrd; subst e1; subst hrd
            cases a <;> simp only [connStep] at hcs <;> (repeat' split at hcs) <;> simp_all
            all_goals (obtain ⟨rfl, _⟩ := hcs; simp)
          · cases hst
        | startRead => exact absurd hcn (by simp [Concerns, hav])
        | startWait => exact absurd hcn (by simp [Concerns, hav])
        | _ => exact absurd hcn (fun h => h)
      · have := ((http_weight_step hv hst hkv).2 hcn).1
        exact ⟨d, by rw [this, hd], e1, e2, e3⟩
  obtain ⟨d, hd, e1, e2, e3⟩ := hpers
  have hau := http_started_stays hu hk hacc.1 hacc.2
  have hrd := track_write (hi'.inv _ _ hd).track (by rw [e1]; exact fun h => by cases h)
  have hwd : d.wait = .done := by
    cases hwt : d.wait with
    | idle => exact absurd hwt e3
    | waiting => exact absurd hwt e2
    | done => rfl
    | ready b =>
      exfalso; apply hq
      refine ⟨.conn k .onWait, rfl, rfl, ?_⟩
      cases b <;> simp [httpStep, hd, connStep, hwt]
  refine ⟨(List.getElem?_eq_some_iff.1 hd).1, ?_⟩
  simp only [Http.holders, hd, e1, hrd, hwd, Op.holds]
  cases e : u.accept <;> simp_all

/-! ### threads -/

/-- code of connection `k` that a thread can run now: `start()` (inside of the accept handler) and the three handlers -/
inductive Code where
  | start | onRead | onWrite | onWait
  deriving DecidableEq

/-- the code can run now (or is running: `start()`) -/
def Runnable (s : Http) (k : Nat) : Code → Prop
  | .start => s.accept = .starting k ∨ s.accept = .reading k
  | .onRead => ∃ c o, s.conns[k]? = some c ∧ c.read = .ready o
  | .onWrite => ∃ c b, s.conns[k]? = some c ∧ c.write = .ready b
  | .onWait => ∃ c b, s.conns[k]? = some c ∧ c.wait = .ready b

/-- Two threads can be in the code of the same connection at the same time only if `start()` has not returned yet, or if the
deadline has passed (then the handler of the deadline may run beside one of the others).  There is no lock or strand: these
are data races on the socket and the timer (`C59_races`). -/
theorem C59_exclusive {env : ServerEnv} {s : Http} (hs : HttpReach env httpInit s) {k : Nat} {p q : Code} (hne : p ≠ q)
    (hp : Runnable s k p) (hq : Runnable s k q) :
    (p = .start ∨ q = .start) ∨ ((p = .onWait ∨ q = .onWait) ∧ ∃ c, s.conns[k]? = some c ∧ c.expiry ≤ s.now) := by
  have hi := httpInv_reach (httpInv_init env) hs
  have rw_ : ∀ c o b, s.conns[k]? = some c → c.read = .ready o → c.write = .ready b → False := by
    intro c o b hc h1 h2
    have := track_write (hi.inv k c hc).track (by rw [h2]; exact fun h => by cases h)
    rw [h1] at this; cases this
  have rt : ∀ c o b, s.conns[k]? = some c → c.read = .ready o → c.wait = .ready b → c.expiry ≤ s.now := by
    intro c o b hc h1 h2
    cases b with
    | true => exact (hi.inv k c hc).due h2
    | false =>
      have hw := (hi.inv k c hc).cancel (Or.inl h2)
      have := track_write (hi.inv k c hc).track (by rw [hw]; exact fun h => by cases h)
      rw [h1] at this; cases this
  have wt : ∀ c b' b, s.conns[k]? = some c → c.write = .ready b' → c.wait = .ready b → c.expiry ≤ s.now := by
    intro c b' b hc h1 h2
    cases b with
    | true => exact (hi.inv k c hc).due h2
    | false =>
      have hw := (hi.inv k c hc).cancel (Or.inl h2)
      rw [h1] at hw; cases hw
  cases p <;> cases q <;> first
    | exact absurd rfl hne
    | exact Or.inl (Or.inl rfl)
    | exact Or.inl (Or.inr rfl)
    | (obtain ⟨c, o, hc, h1⟩ := hp
       obtain ⟨c', o', hc', h2⟩ := hq
       rw [hc] at hc'; injection hc' with hc'; subst hc'
       first
         | exact (rw_ c _ _ hc h1 h2).elim
         | exact (rw_ c _ _ hc h2 h1).elim
         | exact Or.inr ⟨Or.inr rfl, c, hc, rt c _ _ hc h1 h2⟩
         | exact Or.inr ⟨Or.inl rfl, c, hc, rt c _ _ hc h2 h1⟩
         | exact Or.inr ⟨Or.inr rfl, c, hc, wt c _ _ hc h1 h2⟩
         | exact Or.inr ⟨Or.inl rfl, c, hc, wt c _ _ hc h2 h1⟩)

/-- an OPTIONS request -/
def C59_req : Req := ⟨.options, [kSlash], []⟩

/-- Finding: both cases happen.  (a) The answer has been sent and its handler, which cancels the timer, can run while `start()` is
still about to start the wait on that timer.  (b) The handler of the deadline closes the socket while the handler of the read can
start writing to it. -/
theorem C59_races (env : ServerEnv) :
    (∃ s, HttpReach env httpInit s ∧ Runnable s 0 .start ∧ Runnable s 0 .onWrite) ∧
    (∃ s, HttpReach env httpInit s ∧ Runnable s 0 .onWait ∧ Runnable s 0 .onRead ∧ s.accept = .waiting) := by
  constructor
  · refine ⟨_, runHttp_reach (acts := [.connect 7, .onAccept, .startRead, .conn 0 (.arrive C59_req), .conn 0 .onRead,
      .conn 0 .writeOk]) (.refl _) rfl, Or.inr rfl, ?_⟩
    exact ⟨_, _, rfl, rfl⟩
  · refine ⟨_, runHttp_reach (acts := [.connect 7, .onAccept, .startRead, .startWait] ++ List.replicate 60 .tick ++
      [.conn 0 (.arrive C59_req), .conn 0 .expire]) (.refl _) rfl, ?_, ?_, rfl⟩
    · exact ⟨_, _, rfl, rfl⟩
    · exact ⟨_, _, rfl, rfl⟩

/-- Finding: in case (a) the cancellation comes before the wait and has no effect: the answer is sent and the connection finished at
once, the server has nothing left to do for it, but it is held until the deadline. -/
theorem C59_late_wait (env : ServerEnv) :
    ∃ s c, HttpReach env httpInit s ∧ s.conns[0]? = some c ∧ s.accept = .waiting ∧ s.now = 0 ∧ c.expiry = 60 ∧
      eventsOf 0 s.log = [.request C59_req, .response ⟨204, [], false⟩, .sent, .finished] ∧
      ¬ Released s 0 ∧ ¬ CanServe env s 0 := by
  refine ⟨_, _, runHttp_reach (acts := [.connect 7, .onAccept, .startRead, .conn 0 (.arrive C59_req), .conn 0 .onRead,
      .conn 0 .writeOk, .conn 0 .onWrite, .startWait]) (.refl _) rfl, rfl, rfl, rfl, rfl, rfl, ?_, ?_⟩
  · intro h; exact absurd h.2 (by decide)
  · rintro ⟨a, h1, h2, h3⟩
    cases a with
    | conn j a =>
      simp only [Concerns] at h1; subst h1
      cases a <;> first | exact absurd h3 (by decide) | exact absurd h3 (by simp [httpStep, connStep, httpInit, newConn, cancelWait])
    | startRead => exact absurd h1 (by simp [Concerns])
    | startWait => exact absurd h1 (by simp [Concerns])
    | _ => exact h1

/-- Finding: if the system refuses to accept (for instance because no file descriptor is left), the handler asks again at once;
nothing changes and no time passes, as often as the system refuses. -/
theorem C59_busy_loop (env : ServerEnv) (s : Http) (ha : s.accept = .waiting) (n : Nat) :
    runHttp env s (List.replicate n [.acceptFail, .onAccept]).flatten = some s := by
  induction n with
  | zero => rfl
  | succ n ih =>
    rw [List.replicate_succ, List.flatten_cons, runHttp_append]
    have : runHttp env s [.acceptFail, .onAccept] = some s := by
      obtain ⟨now, acc, cs, log⟩ := s
      simp only at ha; subst ha
      rfl
    rw [this]; exact ih

/-! ### a concrete run -/

/-- two clients: the first sends nothing, the second is answered and released; a minute later the first is closed and released -/
example (env : ServerEnv) : ∃ s, HttpReach env httpInit s ∧ s.conns.map (·.client) = [1, 2] ∧
    eventsOf 0 s.log = [.closed] ∧ eventsOf 1 s.log = [.request C59_req, .response ⟨204, [], false⟩, .sent, .finished] ∧
    Released s 0 ∧ Released s 1 := by
  refine ⟨_, runHttp_reach (acts := [.connect 1, .onAccept, .startRead, .startWait, .connect 2, .onAccept, .startRead, .startWait,
    .conn 1 (.arrive C59_req), .conn 1 .onRead, .conn 1 .writeOk, .conn 1 .onWrite, .conn 1 .onWait] ++ List.replicate 60 .tick ++
    [.conn 0 .expire, .conn 0 .onWait, .conn 0 .readFail, .conn 0 .onRead]) (.refl _) rfl, rfl, rfl, rfl, ?_, ?_⟩
  · exact ⟨by decide, by decide⟩
  · exact ⟨by decide, by decide⟩

end Tiles
