import Verif.Proof.Inserter
import Verif.Proof.Varint
/-! How large the inserter makes the pack file. -/
namespace Tiles

/-- a feature in a pack: its size, its bytes, and its share of what every pack has (header, end mark, checksum: 10 bytes) -/
def featCost (v : Bytes) : Nat := (encVarint v.length).length + v.length + 10

def listCost (vs : List Bytes) : Nat := (vs.map featCost).sum

/-- one call: a copy of the feature for each of its index tiles -/
def callCost (c : InsCall) : Nat := match c.plan with | .ok (ts, v) => ts.length * featCost v | _ => 0

def contCost : InsCont → Nat
  | some todo => (todo.map callCost).sum
  | none => 0

def queueCost (q : List (Tile × List Bytes)) : Nat := (q.map (fun e => listCost e.2)).sum

/-- what a thread may still add to the file, without the buckets -/
def InsPc.owed : InsPc → Nat
  | .idle todo => contCost (some todo)
  | .bump v ts todo => ts.length * featCost v + contCost (some todo)
  | .add v _ ts todo => (ts.length + 1) * featCost v + contCost (some todo)
  | .check _ _ k => contCost k
  | .lock _ _ k => contCost k
  | .recheck _ _ k => contCost k
  | .scan _ _ _ k => contCost k
  | .take _ _ q k => queueCost q + contCost k
  | .begin q k => queueCost q + contCost k
  | .write q k => queueCost q + contCost k
  | _ => 0

/-- no empty bucket is packed -/
def InsPc.Filled (mem : Tile → List Bytes) : InsPc → Prop
  | .scan _ rest found _ => (rest ++ found.map (·.2)).Nodup ∧ ∀ e ∈ found, mem e.2 ≠ []
  | .take _ rest q _ => rest.Nodup ∧ (∀ t ∈ rest, mem t ≠ []) ∧ ∀ e ∈ q, e.2 ≠ []
  | .begin q _ => ∀ e ∈ q, e.2 ≠ []
  | .write q _ => ∀ e ∈ q, e.2 ≠ []
  | _ => True

structure InsSpace (cache : List Tile) (B : Nat) (s : InsShared) (ps : List InsPc) : Prop where
  size : ∀ t, s.memSize t = ((s.mem t).map List.length).sum
  filled : ∀ p ∈ ps, p.Filled s.mem
  total : s.pf.size + (cache.map (fun t => listCost (s.mem t))).sum + (ps.map InsPc.owed).sum ≤ B

theorem appendFeatureList_cost : ∀ (fs : List Bytes) {b : Bytes}, appendFeatureList fs = .ok b → b.length + 10 * fs.length = listCost fs := by
  intro fs
  induction fs with
  | nil => intro b h; cases h; rfl
  | cons v fs ih =>
    intro b h
    rw [appendFeatureList] at h
    obtain ⟨x, hx, h⟩ := Res.bind_eq_ok.1 h
    obtain ⟨y, hy, h⟩ := Res.bind_eq_ok.1 h
    injection h with h
    subst h
    rw [appendFeature] at hx
    obtain ⟨_, _, hx⟩ := Res.bind_eq_ok.1 hx
    injection hx with hx
    subst hx
    have := ih hy
    simp only [listCost, featCost, List.map_cons, List.sum_cons, List.length_append, List.length_cons] at this ⊢
    omega

theorem packPlain_cost {crc : Bytes → UInt32} {fs : List Bytes} {p : Bytes} (h : packFeaturesPlain crc fs = .ok p) (hne : fs ≠ []) : p.length ≤ listCost fs := by
  rw [packFeaturesPlain] at h
  obtain ⟨x, hx, h⟩ := Res.bind_eq_ok.1 h
  obtain ⟨y, hy, h⟩ := Res.bind_eq_ok.1 h
  injection h with h
  subst h
  rw [finishHeader] at hx
  obtain ⟨_, _, hx⟩ := Res.bind_eq_ok.1 hx
  injection hx with hx
  subst hx
  rw [appendFeatures] at hy
  obtain ⟨z, hz, hy⟩ := Res.bind_eq_ok.1 hy
  injection hy with hy
  subst hy
  have h1 := appendFeatureList_cost fs hz
  have h2 : 0 < fs.length := List.length_pos_iff.2 hne
  have h3 : spanEnd.length = 1 := by simp [spanEnd, encVarint]
  simp only [finishPack, List.length_append, leBytes_length, List.flatMap_nil, List.length_nil, h3]
  omega

theorem writeBucket_cost {crc : Bytes → UInt32} {view view' : UInt64 → Option Bytes} {pf pf' : PackFile} {t : Tile} {fs : List Bytes}
    (h : writeBucket crc view pf t fs = .ok (view', pf')) (hne : fs ≠ []) : pf'.size ≤ pf.size + listCost fs := by
  rw [writeBucket] at h
  obtain ⟨k, _, h⟩ := Res.bind_eq_ok.1 h
  obtain ⟨p, hp, h⟩ := Res.bind_eq_ok.1 h
  dsimp only at h
  have hc := packPlain_cost hp hne
  have hs : pf'.size = pf.size + p.length := by
    split at h
    · obtain ⟨v, _, h⟩ := Res.bind_eq_ok.1 h
      injection h with h
      injection h with _ h
      rw [← h, append_size]
    · injection h with h
      injection h with _ h
      rw [← h, append_size]
  omega

theorem insNext_owed (k : InsCont) : (insNext k).owed = contCost k ∧ (insThrow k).owed = contCost k ∧
    (∀ mem, (insNext k).Filled mem) ∧ (∀ mem, (insThrow k).Filled mem) := by
  cases k <;> exact ⟨rfl, rfl, fun _ => trivial, fun _ => trivial⟩

theorem filled_mono {mem mem' : Tile → List Bytes} (h : ∀ t, mem t ≠ [] → mem' t ≠ []) {p : InsPc} (hp : p.Filled mem) : p.Filled mem' := by
  cases p with
  | scan lo rest found k => exact ⟨hp.1, fun e he => h _ (hp.2 e he)⟩
  | take lo rest q k => exact ⟨hp.1, fun t ht => h t (hp.2.1 t ht), hp.2.2⟩
  | _ => exact hp

/-- what is not flushing now does not look at the buckets -/
theorem filled_idle {mem mem' : Tile → List Bytes} {p : InsPc} (hp : p.Filled mem) (hl : p.locking = false) : p.Filled mem' := by
  cases p with
  | scan lo rest found k => cases hl
  | take lo rest q k => cases hl
  | _ => exact hp

theorem insSpace_step {crc : Bytes → UInt32} {cache : List Tile} {upper lower B : Nat} {s s' : InsShared} {a b : List InsPc} {p p' : InsPc}
    (hnd : cache.Nodup) (hsh : InsShape cache s (a ++ p :: b)) (h : InsSpace cache B s (a ++ p :: b)) (st : InsTr crc cache upper lower s p s' p') :
    InsSpace cache B s' (a ++ p' :: b) := by
  obtain ⟨U, hU⟩ : ∃ U, U = ((a ++ b).map InsPc.owed).sum := ⟨_, rfl⟩
  have sumU : ∀ q : InsPc, ((a ++ q :: b).map InsPc.owed).sum = U + q.owed := by
    intro q; rw [hU]; simp only [List.map_append, List.map_cons, List.sum_append, List.sum_cons]; omega
  have htot := h.total
  rw [sumU] at htot
  have hp := h.filled p (by simp)
  have hoth : ∀ q ∈ a ++ b, q.Filled s.mem := by
    intro q hq; exact h.filled q (by rcases List.mem_append.1 hq with h | h <;> simp [h])
  have key : (∀ t, s'.memSize t = ((s'.mem t).map List.length).sum) → p'.Filled s'.mem → (∀ q ∈ a ++ b, q.Filled s'.mem) →
      s'.pf.size + (cache.map (fun t => listCost (s'.mem t))).sum + (U + p'.owed) ≤ B → InsSpace cache B s' (a ++ p' :: b) := by
    intro k1 k2 k3 k4
    refine ⟨k1, ?_, by rw [sumU]; exact k4⟩
    intro q hq
    rcases List.mem_append.1 hq with hq | hq
    · exact k3 q (by simp [hq])
    · rcases List.mem_cons.1 hq with rfl | hq
      · exact k2
      · exact k3 q (by simp [hq])
  have same : s'.memSize = s.memSize → s'.mem = s.mem → s'.pf = s.pf → p'.owed ≤ p.owed → p'.Filled s.mem → InsSpace cache B s' (a ++ p' :: b) := by
    intro e1 e2 e3 e4 e5
    refine key ?_ (by rw [e2]; exact e5) (by rw [e2]; exact hoth) ?_
    · rw [e1, e2]; exact h.size
    · rw [e2, e3]; omega
  have only : p.locking = true → ∀ q ∈ a ++ b, q.locking = false := by
    intro hl q hq
    have hc := hsh.lockers
    by_contra hf
    have hql : q.locking = true := by simpa using hf
    have : 0 < (a ++ b).countP InsPc.locking := List.countP_pos_iff.2 ⟨q, hq, hql⟩
    simp only [List.countP_append, List.countP_cons, hl, if_true] at hc this
    split at hc <;> omega
  have hcons : ∀ c todo, contCost (some (c :: todo)) = callCost c + contCost (some todo) := by
    intro c todo; simp [contCost]
  cases st with
  | stop => exact same rfl rfl rfl (Nat.zero_le _) trivial
  | plan c todo ts v hc =>
    refine same rfl rfl rfl ?_ trivial
    have : callCost c = ts.length * featCost v := by rw [callCost, hc]
    simp only [InsPc.owed, hcons, this]
    exact Nat.le_refl _
  | refuse c todo hc => refine same rfl rfl rfl ?_ trivial; simp only [InsPc.owed, hcons]; omega
  | placed v todo => refine same rfl rfl rfl ?_ trivial; simp only [InsPc.owed, List.length_nil]; omega
  | bump v t ts todo => refine same rfl rfl rfl ?_ trivial; simp only [InsPc.owed, List.length_cons]; omega
  | add v t ts todo ht =>
    refine key ?_ trivial (fun q hq => filled_mono ?_ (hoth q hq)) ?_
    · intro u
      by_cases hu : u = t
      · subst hu; simp [h.size]
      · simp [hu, h.size]
    · intro u hu
      by_cases hut : u = t
      · subst hut; simp
      · simpa [hut] using hu
    · have e : (fun u => listCost (if u = t then s.mem t ++ [v] else s.mem u)) = fun u => if u = t then listCost (s.mem t) + featCost v else listCost (s.mem u) := by
        funext u; split <;> simp [listCost]
      have := sum_update hnd ht (fun u => listCost (s.mem u)) (listCost (s.mem t) + featCost v)
      dsimp only at this ⊢
      rw [e]
      simp only [InsPc.owed, Nat.add_mul] at htot ⊢
      omega
  | nobucket v t ts todo ht => refine same rfl rfl rfl ?_ trivial; simp only [InsPc.owed]; omega
  | small up lo k => exact same rfl rfl rfl (by rw [(insNext_owed k).1]; exact Nat.le_refl _) ((insNext_owed k).2.2.1 _)
  | big up lo k => exact same rfl rfl rfl (Nat.le_refl _) trivial
  | lock up lo k => exact same rfl rfl rfl (Nat.le_refl _) trivial
  | resmall up lo k => exact same rfl rfl rfl (by rw [(insNext_owed k).1]; exact Nat.le_refl _) ((insNext_owed k).2.2.1 _)
  | rebig up lo k => exact same rfl rfl rfl (Nat.le_refl _) ⟨by simpa using hnd, by intro e he; cases he⟩
  | scan lo t rest found k =>
    refine same rfl rfl rfl (Nat.le_refl _) ?_
    obtain ⟨h1, h2⟩ := hp
    split
    · rename_i hpos
      refine ⟨?_, ?_⟩
      · rw [List.cons_append] at h1
        refine (List.Perm.nodup_iff ?_).1 h1
        simp only [List.map_cons]
        exact List.perm_middle.symm
      · intro e he
        rcases List.mem_cons.1 he with rfl | he
        · intro hc
          have := h.size t
          have hc' : s.mem t = [] := hc
          rw [hc'] at this
          simp only [List.map_nil, List.sum_nil] at this
          omega
        · exact h2 e he
    · exact ⟨(List.nodup_cons.1 h1).2, h2⟩
  | scanEmpty lo k => exact same rfl rfl rfl (by rw [(insNext_owed k).1]; exact Nat.le_refl _) ((insNext_owed k).2.2.1 _)
  | scanDone lo found k hne =>
    refine same rfl rfl rfl ?_ ?_
    · simp [InsPc.owed, queueCost]
    · obtain ⟨h1, h2⟩ := hp
      have hperm : (sortBy bucketLe found.reverse).Perm found := (sortBy_perm _ _).trans (List.reverse_perm _)
      refine ⟨?_, ?_, by intro e he; cases he⟩
      · refine ((hperm.map _).nodup_iff).2 (by simpa using h1)
      · intro t ht
        obtain ⟨e, he, rfl⟩ := List.mem_map.1 ht
        exact h2 e (hperm.mem_iff.1 he)
  | takeDone lo rest q k hd => exact same rfl rfl rfl (Nat.le_refl _) hp.2.2
  | take lo t rest q k hlo =>
    obtain ⟨h1, h2, h3⟩ := hp
    have htc : t ∈ cache := (hsh.tiles _ (by simp : InsPc.take lo (t :: rest) q k ∈ a ++ InsPc.take lo (t :: rest) q k :: b)).1 t (by simp)
    rw [List.nodup_cons] at h1
    refine key ?_ ⟨h1.2, ?_, ?_⟩ (fun q' hq' => filled_idle (hoth q' hq') (only rfl q' hq')) ?_
    · intro u
      by_cases hu : u = t
      · subst hu; simp
      · simp [hu, h.size]
    · intro u hu
      have : u ≠ t := by rintro rfl; exact h1.1 hu
      dsimp only
      rw [if_neg this]
      exact h2 u (by simp [hu])
    · intro e he
      rcases List.mem_append.1 he with he | he
      · exact h3 e he
      · rw [List.mem_singleton] at he
        subst he
        exact h2 t (by simp)
    · have e : (fun u => listCost (if u = t then [] else s.mem u)) = fun u => if u = t then 0 else listCost (s.mem u) := by
        funext u; split <;> simp [listCost]
      have := sum_update hnd htc (fun u => listCost (s.mem u)) 0
      dsimp only at this ⊢
      rw [e]
      simp only [InsPc.owed, queueCost, List.map_append, List.sum_append, List.map_cons, List.map_nil, List.sum_cons, List.sum_nil] at htot ⊢
      omega
  | begin q k => exact same rfl rfl rfl (Nat.le_refl _) hp
  | write t fs q k view view' pf' hv hw =>
    have hne : fs ≠ [] := hp (t, fs) (by simp)
    have hc := writeBucket_cost hw hne
    refine key h.size (fun e he => hp e (by simp [he])) hoth ?_
    simp only [InsPc.owed, queueCost, List.map_cons, List.sum_cons] at htot ⊢
    omega
  | fail t fs q k view hv hw =>
    refine same rfl rfl rfl ?_ ((insNext_owed k).2.2.2 _)
    rw [(insNext_owed k).2.1]; simp only [InsPc.owed]; omega
  | commit k view hv =>
    refine same rfl rfl rfl ?_ ((insNext_owed k).2.2.1 _)
    rw [(insNext_owed k).1]; simp only [InsPc.owed]; omega
  | join hr => exact same rfl rfl rfl (Nat.le_refl _) trivial

end Tiles
