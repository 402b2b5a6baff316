import Verif.Proof.Inserter
/-! How much the inserter holds in memory. -/
namespace Tiles

/-- the bytes that one call puts into the buckets -/
def Spec.callBytes (c : InsCall) : Nat := match c.plan with | .ok (ts, v) => ts.length * v.length | _ => 0

/-- the bytes in the buckets -/
def Spec.bucketBytes (cache : List Tile) (s : InsShared) : Nat := ((cache.flatMap s.mem).map List.length).sum

open Spec

/-- a call that finds its buckets, of at most `B` bytes -/
def Spec.SmallCall (cache : List Tile) (B : Nat) (c : InsCall) : Prop := callBytes c ≤ B ∧ ∀ ts v, c.plan = .ok (ts, v) → ∀ t ∈ ts, t ∈ cache

def contSmall (cache : List Tile) (B : Nat) : InsCont → Prop
  | some todo => ∀ c ∈ todo, SmallCall cache B c
  | none => True

def InsPc.BoundOk (cache : List Tile) (upper B : Nat) : InsPc → Prop
  | .idle todo => contSmall cache B (some todo)
  | .bump v ts todo => ts.length * v.length ≤ B ∧ (∀ t ∈ ts, t ∈ cache) ∧ contSmall cache B (some todo)
  | .add v t ts todo => (ts.length + 1) * v.length ≤ B ∧ (∀ u ∈ t :: ts, u ∈ cache) ∧ contSmall cache B (some todo)
  | .check up lo k => up ≤ upper ∧ lo ≤ upper ∧ contSmall cache B k
  | .lock up lo k => up ≤ upper ∧ lo ≤ upper ∧ contSmall cache B k
  | .recheck up lo k => up ≤ upper ∧ lo ≤ upper ∧ contSmall cache B k
  | .scan lo rest found k => lo ≤ upper ∧ (rest ++ found.map (·.2)).Nodup ∧ contSmall cache B k
  | .take lo rest _ k => lo ≤ upper ∧ rest.Nodup ∧ contSmall cache B k
  | .begin _ k => contSmall cache B k
  | .write _ k => contSmall cache B k
  | _ => True

def contSlack (B : Nat) : InsCont → Nat
  | some _ => B
  | none => 0

/-- what the thread may have put into the buckets since it last found them small enough -/
def InsPc.slack (B : Nat) : InsPc → Nat
  | .bump v ts _ => B - ts.length * v.length
  | .add v _ ts _ => B - ts.length * v.length
  | .check _ _ k => contSlack B k
  | .lock _ _ k => contSlack B k
  | .recheck _ _ k => contSlack B k
  | .scan _ _ _ k => contSlack B k
  | .take _ _ _ k => contSlack B k
  | _ => 0

/-- the buckets that a flush is going to empty -/
def InsPc.flushes : InsPc → Option (List Tile)
  | .scan _ rest found _ => some (rest ++ found.map (·.2))
  | .take _ rest _ _ => some rest
  | _ => none

structure InsBound (cache : List Tile) (upper B : Nat) (s : InsShared) (ps : List InsPc) : Prop where
  ok : ∀ p ∈ ps, p.BoundOk cache upper B
  size : ∀ t, s.memSize t = ((s.mem t).map List.length).sum
  total : s.cacheSize = (cache.map s.memSize).sum + (ps.map InsPc.bumped).sum
  small : s.cacheSize ≤ upper + (ps.map (InsPc.slack B)).sum
  rest : ∀ p ∈ ps, ∀ l, p.flushes = some l → s.cacheSize + p.slack B ≤ (l.map s.memSize).sum + upper + (ps.map (InsPc.slack B)).sum

theorem slack_insNext (B : Nat) (k : InsCont) : (insNext k).slack B = 0 ∧ (insNext k).flushes = none ∧ (insThrow k).slack B = 0 ∧ (insThrow k).flushes = none := by
  cases k <;> exact ⟨rfl, rfl, rfl, rfl⟩

theorem boundOk_insNext {cache : List Tile} {upper B : Nat} {k : InsCont} (h : contSmall cache B k) :
    (insNext k).BoundOk cache upper B ∧ (insThrow k).BoundOk cache upper B := by
  cases k <;> exact ⟨h, h⟩

theorem sum_map_mono {l : List Tile} {f g : Tile → Nat} (h : ∀ t, f t ≤ g t) : (l.map f).sum ≤ (l.map g).sum := by
  induction l with
  | nil => simp
  | cons a l ih => have := h a; simp only [List.map_cons, List.sum_cons]; omega

theorem bumped_le_slack {cache : List Tile} {upper B : Nat} {p : InsPc} (h : p.BoundOk cache upper B) : p.bumped ≤ p.slack B := by
  cases p <;> try exact Nat.zero_le _
  case add v t ts todo =>
    obtain ⟨h, _⟩ := h
    rw [Nat.add_mul] at h
    show v.length ≤ B - ts.length * v.length
    omega

theorem insBound_step {crc : Bytes → UInt32} {cache : List Tile} {upper lower B : Nat} (hlow : lower ≤ upper) {s s' : InsShared} {a b : List InsPc} {p p' : InsPc}
    (hnd : cache.Nodup) (hsh : InsShape cache s (a ++ p :: b)) (h : InsBound cache upper B s (a ++ p :: b)) (st : InsTr crc cache upper lower s p s' p') :
    InsBound cache upper B s' (a ++ p' :: b) := by
  have hp := h.ok p (by simp)
  have hoth : ∀ q ∈ a ++ b, q ∈ a ++ p :: b := by
    intro q hq; rcases List.mem_append.1 hq with h | h <;> simp [h]
  have htot := h.total
  have hsm := h.small
  -- the sums
  obtain ⟨S, hS⟩ : ∃ S, S = ((a ++ b).map (InsPc.slack B)).sum := ⟨_, rfl⟩
  obtain ⟨U, hU⟩ : ∃ U, U = ((a ++ b).map InsPc.bumped).sum := ⟨_, rfl⟩
  have sumS : ∀ q : InsPc, ((a ++ q :: b).map (InsPc.slack B)).sum = S + q.slack B := by
    intro q; rw [hS]; simp only [List.map_append, List.map_cons, List.sum_append, List.sum_cons]; omega
  have sumU : ∀ q : InsPc, ((a ++ q :: b).map InsPc.bumped).sum = U + q.bumped := by
    intro q; rw [hU]; simp only [List.map_append, List.map_cons, List.sum_append, List.sum_cons]; omega
  have hle : U ≤ S := by
    rw [hS, hU]
    have : ∀ l : List InsPc, (∀ q ∈ l, q.BoundOk cache upper B) → (l.map InsPc.bumped).sum ≤ (l.map (InsPc.slack B)).sum := by
      intro l hl
      induction l with
      | nil => simp
      | cons q l ih =>
        have h1 := bumped_le_slack (hl q (by simp))
        have h2 := ih (fun q hq => hl q (by simp [hq]))
        simp only [List.map_cons, List.sum_cons]; omega
    exact this _ (fun q hq => h.ok q (hoth q hq))
  have slack_le : ∀ q ∈ a ++ b, q.slack B ≤ S := by
    intro q hq
    rw [hS]
    have : ∀ l : List InsPc, q ∈ l → q.slack B ≤ (l.map (InsPc.slack B)).sum := by
      intro l hl
      induction l with
      | nil => cases hl
      | cons x l ih =>
        simp only [List.map_cons, List.sum_cons]
        rcases List.mem_cons.1 hl with rfl | hl
        · omega
        · have := ih hl; omega
    exact this _ hq
  rw [sumU] at htot
  rw [sumS] at hsm
  have hrest := h.rest
  have key : p'.BoundOk cache upper B → (∀ t, s'.memSize t = ((s'.mem t).map List.length).sum) →
      s'.cacheSize = (cache.map s'.memSize).sum + (U + p'.bumped) → s'.cacheSize ≤ upper + (S + p'.slack B) →
      (∀ q ∈ a ++ b, ∀ l, q.flushes = some l → s'.cacheSize + q.slack B ≤ (l.map s'.memSize).sum + upper + (S + p'.slack B)) →
      (∀ l, p'.flushes = some l → s'.cacheSize ≤ (l.map s'.memSize).sum + upper + S) → InsBound cache upper B s' (a ++ p' :: b) := by
    intro k1 k2 k3 k4 k5 k6
    refine ⟨?_, k2, by rw [sumU]; exact k3, by rw [sumS]; exact k4, ?_⟩
    · intro q hq
      rcases List.mem_append.1 hq with hq | hq
      · exact h.ok q (by simp [hq])
      · rcases List.mem_cons.1 hq with rfl | hq
        · exact k1
        · exact h.ok q (by simp [hq])
    · intro q hq l hl
      rw [sumS]
      rcases List.mem_append.1 hq with hq | hq
      · exact k5 q (by simp [hq]) l hl
      · rcases List.mem_cons.1 hq with rfl | hq
        · have := k6 l hl; omega
        · exact k5 q (by simp [hq]) l hl
  -- nothing about the sizes changes and the slack does not fall
  have same : s'.cacheSize = s.cacheSize → s'.memSize = s.memSize → s'.mem = s.mem → p'.bumped = p.bumped → p.slack B ≤ p'.slack B → p'.BoundOk cache upper B →
      (∀ l, p'.flushes = some l → s.cacheSize ≤ (l.map s.memSize).sum + upper + S) → InsBound cache upper B s' (a ++ p' :: b) := by
    intro e1 e2 e3 e4 e5 e6 e7
    refine key e6 ?_ ?_ ?_ ?_ ?_
    · rw [e2, e3]; exact h.size
    · rw [e1, e2, e4]; exact htot
    · rw [e1]; omega
    · intro q hq l hl
      have := hrest q (hoth q hq) l hl
      rw [sumS] at this
      rw [e1, e2]; omega
    · rw [e1, e2]; exact e7
  -- the cache is small enough
  have passed : s'.cacheSize = s.cacheSize → s'.memSize = s.memSize → s'.mem = s.mem → p'.bumped = 0 → p.bumped = 0 → p'.BoundOk cache upper B → p'.flushes = none →
      s.cacheSize ≤ upper → InsBound cache upper B s' (a ++ p' :: b) := by
    intro e1 e2 e3 e4 e5 e6 e7 e8
    refine key e6 ?_ ?_ ?_ ?_ ?_
    · rw [e2, e3]; exact h.size
    · rw [e1, e2, e4]; rw [e5] at htot; exact htot
    · rw [e1]; omega
    · intro q hq l hl
      have := slack_le q hq
      rw [e1, e2]; omega
    · rw [e7]; intro l hl; cases hl
  -- only one thread flushes
  have only : p.locking = true → ∀ q ∈ a ++ b, q.flushes = none := by
    intro hl q hq
    have hc := hsh.lockers
    by_contra hf
    have hql : q.locking = true := by
      cases q <;> first | rfl | exact absurd rfl hf
    have : 0 < (a ++ b).countP InsPc.locking := List.countP_pos_iff.2 ⟨q, hq, hql⟩
    simp only [List.countP_append, List.countP_cons, hl, if_true] at hc this
    split at hc <;> omega
  -- the flush has ended
  have done : p.locking = true → s'.cacheSize = s.cacheSize → s'.memSize = s.memSize → s'.mem = s.mem → p'.bumped = 0 → p.bumped = 0 → p'.BoundOk cache upper B →
      p'.flushes = none → s.cacheSize ≤ upper + S → InsBound cache upper B s' (a ++ p' :: b) := by
    intro e0 e1 e2 e3 e4 e5 e6 e7 e8
    refine key e6 ?_ ?_ ?_ ?_ ?_
    · rw [e2, e3]; exact h.size
    · rw [e1, e2, e4]; rw [e5] at htot; exact htot
    · rw [e1]; omega
    · intro q hq l hl; rw [only e0 q hq] at hl; cases hl
    · rw [e7]; intro l hl; cases hl
  have hself := hrest p (by simp)
  cases st with
  | stop => exact same rfl rfl rfl rfl (Nat.le_refl _) trivial (by intro l hl; cases hl)
  | plan c todo tiles v hc =>
    have hc' := hp c (by simp)
    refine same rfl rfl rfl rfl (Nat.zero_le _) ⟨?_, hc'.2 _ _ hc, fun c hc => hp c (by simp [hc])⟩ (by intro l hl; cases hl)
    have := hc'.1
    rw [callBytes, hc] at this
    exact this
  | refuse c todo hc => exact same rfl rfl rfl rfl (Nat.le_refl _) (fun c hc => hp c (by simp [hc])) (by intro l hl; cases hl)
  | placed v todo =>
    refine same rfl rfl rfl rfl ?_ ⟨Nat.le_refl _, hlow, hp.2.2⟩ (by intro l hl; cases hl)
    show B - _ ≤ B
    omega
  | bump v t tiles todo =>
    obtain ⟨p1, p2, p3⟩ := hp
    have h1 : (InsPc.bump v (t :: tiles) todo).slack B = B - (tiles.length + 1) * v.length := rfl
    have h2 : (InsPc.add v t tiles todo).slack B = B - tiles.length * v.length := rfl
    have h3 : (tiles.length + 1) * v.length ≤ B := p1
    have h4 : (tiles.length + 1) * v.length = tiles.length * v.length + v.length := by rw [Nat.add_mul]; omega
    refine key ⟨p1, p2, p3⟩ h.size ?_ ?_ ?_ (by intro l hl; cases hl)
    · show s.cacheSize + v.length = (cache.map s.memSize).sum + (U + v.length)
      have : (InsPc.bump v (t :: tiles) todo).bumped = 0 := rfl
      omega
    · show s.cacheSize + v.length ≤ _
      omega
    · intro q hq l hl
      have := hrest q (hoth q hq) l hl
      rw [sumS] at this
      show s.cacheSize + v.length + _ ≤ (l.map s.memSize).sum + _ + _
      omega
  | add v t tiles todo ht =>
    obtain ⟨p1, p2, p3⟩ := hp
    have hs := sum_update hnd ht s.memSize (s.memSize t + v.length)
    have h1 : (InsPc.bump v tiles todo).slack B = (InsPc.add v t tiles todo).slack B := rfl
    refine key ⟨?_, fun u hu => p2 u (by simp [hu]), p3⟩ ?_ ?_ ?_ ?_ (by intro l hl; cases hl)
    · rw [Nat.add_mul] at p1; omega
    · intro u
      dsimp only
      split
      · rename_i hu; subst hu; rw [h.size, List.map_append, List.sum_append]; simp
      · exact h.size u
    · dsimp only
      have h1 : (InsPc.add v t tiles todo).bumped = v.length := rfl
      have h2 : (InsPc.bump v tiles todo).bumped = 0 := rfl
      omega
    · rw [h1]; exact hsm
    · intro q hq l hl
      have := hrest q (hoth q hq) l hl
      rw [sumS] at this
      have hm : (l.map s.memSize).sum ≤ (l.map (fun t' => if t' = t then s.memSize t + v.length else s.memSize t')).sum := by
        apply sum_map_mono
        intro u
        split
        · rename_i hu; rw [hu]; omega
        · exact Nat.le_refl _
      rw [h1]
      dsimp only
      omega
  | nobucket v t tiles todo ht => exact absurd (hp.2.1 t (by simp)) ht
  | small up lo k hk =>
    exact passed rfl rfl rfl (insNext_simps cache k).2.1 rfl (boundOk_insNext hp.2.2).1 (slack_insNext B k).2.1 (Nat.le_trans hk hp.1)
  | big up lo k hk => exact same rfl rfl rfl rfl (Nat.le_refl _) hp (by intro l hl; cases hl)
  | lock up lo k hk => exact same rfl rfl rfl rfl (Nat.le_refl _) hp (by intro l hl; cases hl)
  | resmall up lo k hk =>
    exact passed rfl rfl rfl (insNext_simps cache k).2.1 rfl (boundOk_insNext hp.2.2).1 (slack_insNext B k).2.1 (Nat.le_trans hk hp.1)
  | rebig up lo k hk =>
    refine same rfl rfl rfl rfl (Nat.le_refl _) ⟨hp.2.1, by simpa using hnd, hp.2.2⟩ ?_
    intro l hl
    injection hl with hl
    subst hl
    have h1 : (InsPc.recheck up lo k).bumped = 0 := rfl
    simp only [List.map_nil, List.append_nil]
    omega
  | scan lo t rest found k =>
    obtain ⟨p1, p2, p3⟩ := hp
    have hr := hself _ rfl
    rw [sumS] at hr
    rw [List.cons_append, List.nodup_cons] at p2
    by_cases hz : s.memSize t > 0
    · rw [if_pos hz] at same ⊢
      have hperm : (rest ++ ((s.memSize t, t) :: found).map (·.2)).Perm (t :: (rest ++ found.map (·.2))) := List.perm_middle
      refine same rfl rfl rfl rfl (Nat.le_refl _) ⟨p1, hperm.nodup_iff.2 (List.nodup_cons.2 p2), p3⟩ ?_
      intro l hl
      injection hl with hl
      subst hl
      have e1 : ((rest ++ ((s.memSize t, t) :: found).map (·.2)).map s.memSize).sum = ((t :: (rest ++ found.map (·.2))).map s.memSize).sum := (hperm.map _).sum_nat
      rw [e1]
      have : (InsPc.scan lo (t :: rest) found k).slack B = contSlack B k := rfl
      rw [List.cons_append] at hr
      omega
    · rw [if_neg hz] at same ⊢
      refine same rfl rfl rfl rfl (Nat.le_refl _) ⟨p1, p2.2, p3⟩ ?_
      intro l hl
      injection hl with hl
      subst hl
      rw [List.cons_append, List.map_cons, List.sum_cons] at hr
      omega
  | scanEmpty lo k =>
    have hr := hself _ rfl
    rw [sumS] at hr
    simp only [List.map_nil, List.append_nil, List.sum_nil] at hr
    exact done rfl rfl rfl rfl (insNext_simps cache k).2.1 rfl (boundOk_insNext hp.2.2).1 (slack_insNext B k).2.1 (by omega)
  | scanDone lo found k hf =>
    obtain ⟨p1, p2, p3⟩ := hp
    have hr := hself _ rfl
    rw [sumS] at hr
    have hperm : ((sortBy bucketLe found.reverse).map (·.2)).Perm (found.map (·.2)) := ((sortBy_perm _ _).trans (List.reverse_perm _)).map _
    refine same rfl rfl rfl rfl (Nat.le_refl _) ⟨p1, hperm.nodup_iff.2 (by simpa using p2), p3⟩ ?_
    intro l hl
    injection hl with hl
    subst hl
    rw [(hperm.map s.memSize).sum_nat]
    simp only [List.nil_append] at hr
    omega
  | takeDone lo rest queue k hd =>
    obtain ⟨p1, p2, p3⟩ := hp
    have hr := hself _ rfl
    rw [sumS] at hr
    refine done rfl rfl rfl rfl rfl rfl p3 rfl ?_
    rcases hd with rfl | hd
    · simp only [List.map_nil, List.sum_nil] at hr
      omega
    · omega
  | take lo t rest queue k hd =>
    obtain ⟨p1, p2, p3⟩ := hp
    have htc := (hsh.tiles _ (by simp : InsPc.take lo (t :: rest) queue k ∈ a ++ InsPc.take lo (t :: rest) queue k :: b)).1 t (by simp)
    rw [List.nodup_cons] at p2
    have hs := sum_update hnd htc s.memSize 0
    have hr := hself _ rfl
    rw [sumS] at hr
    rw [List.map_cons, List.sum_cons] at hr
    have h1 : (InsPc.take lo (t :: rest) queue k).bumped = 0 := rfl
    have h2 : (InsPc.take lo rest (queue ++ [(t, s.mem t)]) k).bumped = 0 := rfl
    have h3 : (InsPc.take lo rest (queue ++ [(t, s.mem t)]) k).slack B = (InsPc.take lo (t :: rest) queue k).slack B := rfl
    refine key ⟨p1, p2.2, p3⟩ ?_ ?_ ?_ ?_ ?_
    · intro u
      dsimp only
      split
      · simp
      · exact h.size u
    · dsimp only
      omega
    · dsimp only
      omega
    · intro q hq l hl; rw [only rfl q hq] at hl; cases hl
    · intro l hl
      injection hl with hl
      subst hl
      have hm : (rest.map (fun t' => if t' = t then 0 else s.memSize t')) = rest.map s.memSize := by
        apply List.map_congr_left
        intro u hu
        rw [if_neg]
        rintro rfl
        exact p2.1 hu
      dsimp only
      rw [hm]
      omega
  | begin queue k ht => exact same rfl rfl rfl rfl (Nat.le_refl _) hp (by intro l hl; cases hl)
  | write t fs queue k view view' pf' ht hw => exact same rfl rfl rfl rfl (Nat.le_refl _) hp (by intro l hl; cases hl)
  | fail t fs queue k view ht hw =>
    exact same rfl rfl rfl (insThrow_simps cache k).2.1 (by rw [(slack_insNext B k).2.2.1]; exact Nat.le_refl _) (boundOk_insNext hp).2
      (by rw [(slack_insNext B k).2.2.2]; intro l hl; cases hl)
  | commit k view ht =>
    exact same rfl rfl rfl (insNext_simps cache k).2.1 (by rw [(slack_insNext B k).1]; exact Nat.le_refl _) (boundOk_insNext hp).1
      (by rw [(slack_insNext B k).2.1]; intro l hl; cases hl)
  | join hk => exact same rfl rfl rfl rfl (Nat.le_refl _) ⟨Nat.zero_le _, Nat.zero_le _, trivial⟩ (by intro l hl; cases hl)

end Tiles
