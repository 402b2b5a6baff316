import Verif.Model.PrepStats
import Verif.Props.C30
import Mathlib.Tactic.Linarith
/-! C83 — the log of `prepare_tiles`. -/
namespace Tiles
open Spec

/-! ### one batch -/

/-- the tiles that are left of a level are tiles of that level -/
def PrepMgr.Level (m : PrepMgr) : Prop := ∀ t ∈ m.rest, t.z = m.curZ

theorem range_level {b : BaseRange} (hx : b.minx ≤ b.maxx) (hy : b.miny ≤ b.maxy) (z : Nat) : ∀ t ∈ tileRangeOnZ b z, t.z = z :=
  fun t ht => ((mem_tileRangeOnZ b hx hy z t).1 ht).1

theorem batch_levels {b : BaseRange} (hx : b.minx ≤ b.maxx) (hy : b.miny ≤ b.maxy) (n : Nat) (m : PrepMgr) (hb : m.base = b) (hm : m.Level) {ts : List Tile} {m' : PrepMgr}
    (h : PrepMgr.batchLoop n m = .ok (ts, m')) : m'.Level ∧ m.rounds n = ts.map (·.z) ∧ m.curZ ≤ m'.curZ ∧ (∀ t ∈ ts, m.curZ ≤ t.z ∧ t.z ≤ m'.curZ) ∧
      ∀ w, m.curZ ≤ w → w < m'.curZ → ∃ t ∈ ts, t.z = w := by
  induction n generalizing m ts m' with
  | zero =>
    rw [PrepMgr.batchLoop] at h
    injection h with h; injection h with h1 h2; subst h1; subst h2
    exact ⟨hm, rfl, Nat.le_refl _, by simp, fun w h1 h2 => by omega⟩
  | succ n ih =>
    rw [PrepMgr.batchLoop] at h
    rw [PrepMgr.rounds]
    by_cases hc : m.curZ > m.maxZ
    · rw [if_pos hc] at h ⊢
      injection h with h; injection h with h1 h2; subst h1; subst h2
      exact ⟨hm, rfl, Nat.le_refl _, by simp, fun w h1 h2 => by omega⟩
    · rw [if_neg hc] at h ⊢
      cases hrest : m.rest with
      | nil => rw [hrest] at h; cases h
      | cons t r =>
        rw [hrest] at h
        dsimp only at h ⊢
        obtain ⟨⟨us, m2⟩, h1, h2⟩ := Res.bind_eq_ok.1 h
        rw [Res.pure_eq] at h2
        injection h2 with h2; injection h2 with h3 h4
        dsimp only at h3 h4
        subst h3; subst h4
        have ht : t.z = m.curZ := hm t (by rw [hrest]; simp)
        by_cases hr : r = []
        · rw [if_pos hr] at h1 ⊢
          obtain ⟨i1, i2, i3, i4, i5⟩ := ih { m with curZ := m.curZ + 1, rest := tileRangeOnZ m.base (m.curZ + 1) } hb (fun u hu => range_level hx hy (m.curZ + 1) u (by rw [← hb]; exact hu)) h1
          dsimp only at i3 i4 i5
          refine ⟨i1, by rw [i2, List.map_cons, ht], by omega, fun u hu => ?_, fun w w1 w2 => ?_⟩
          · rcases List.mem_cons.1 hu with rfl | hu
            · omega
            · have := i4 u hu; omega
          · by_cases hw : w = m.curZ
            · exact ⟨t, by simp, by omega⟩
            · obtain ⟨u, hu, e⟩ := i5 w (by omega) w2
              exact ⟨u, by simp [hu], e⟩
        · rw [if_neg hr] at h1 ⊢
          obtain ⟨i1, i2, i3, i4, i5⟩ := ih { m with rest := r } hb (fun u hu => hm u (by rw [hrest]; exact List.mem_cons_of_mem _ hu)) h1
          dsimp only at i3 i4 i5
          refine ⟨i1, by rw [i2, List.map_cons, ht], i3, fun u hu => ?_, fun w w1 w2 => ?_⟩
          · rcases List.mem_cons.1 hu with rfl | hu
            · omega
            · exact i4 u hu
          · obtain ⟨u, hu, e⟩ := i5 w w1 w2
            exact ⟨u, by simp [hu], e⟩

theorem handOut_spec (zs : List Nat) (l : PrepLedger) : (l.handOut zs).log = l.log ∧ (l.handOut zs).counted = l.counted ∧
    ∀ w, (l.handOut zs).stats w = { l.stats w with total := (l.stats w).total + zs.count w } := by
  induction zs generalizing l with
  | nil => exact ⟨rfl, rfl, fun w => rfl⟩
  | cons z zs ih =>
    obtain ⟨h1, h2, h3⟩ := ih { l with stats := fun w => if w = z then { l.stats w with total := (l.stats w).total + 1 } else l.stats w }
    refine ⟨h1, h2, fun w => ?_⟩
    rw [PrepLedger.handOut, h3]
    dsimp only
    by_cases h : w = z
    · subst h; rw [if_pos rfl, List.count_cons_self]; simp; omega
    · rw [if_neg h, List.count_cons_of_ne (Ne.symm h)]

/-! ### the figures -/

/-- the length of what is stored for a tile -/
def lengthOf (render : Tile → Res (Option Bytes)) (t : Tile) : Nat := match render t with
  | .ok (some b) => b.length
  | _ => 0

/-- the figures of a level, for the tiles that were counted -/
def figures (render : Tile → Res (Option Bytes)) (dur : Tile → Nat) (total : Nat) (ts : List Tile) : LevelStats :=
  ⟨total, ts.length, ts.countP (fun t => lengthOf render t ≠ 0), (ts.map (lengthOf render)).sum, (ts.map dur).sum⟩

theorem figures_perm {render : Tile → Res (Option Bytes)} {dur : Tile → Nat} {total : Nat} {ts us : List Tile} (h : ts.Perm us) : figures render dur total ts = figures render dur total us := by
  rw [figures, figures, h.length_eq, h.countP_eq, (h.map _).sum_nat, (h.map _).sum_nat]

abbrev atLevel (l : List Tile) (z : Nat) : List Tile := l.filter (fun t => t.z = z)

/-- tiles a worker has not called `finish` for -/
def openTiles (p : PrepPc × PrepCall) : List Tile :=
  (match p.2 with | some (t, _, _) => [t] | none => []) ++ (match p.1 with | .render todo _ => todo | _ => [])

structure LedgerInv (render : Tile → Res (Option Bytes)) (dur : Tile → Nat) (b : BaseRange) (maxZ : Nat) (s : PrepShared) (l : PrepLedger) (ps : List (PrepPc × PrepCall)) : Prop where
  level : s.mgr.Level
  handed : ∀ t ∈ s.handed, t.z ≤ s.mgr.curZ
  stats : ∀ z, l.stats z = figures render dur (atLevel s.handed z).length (atLevel l.counted z)
  perm : s.aborted = false → s.handed.Perm (l.counted ++ ps.flatMap openTiles)
  call : ∀ p ∈ ps, ∀ t n d, p.2 = some (t, n, d) → n = lengthOf render t ∧ d = dur t ∧ (∃ r, render t = .ok r) ∧ ∃ todo done, p.1 = .render todo done
  okay : ∀ t ∈ l.counted, ∃ r, render t = .ok r
  once : (l.log.map (·.z)).Nodup
  lines : ∀ x ∈ l.log, x.z ≤ maxZ ∧ (∀ t ∈ tileRangeOnZ b x.z, ∃ r, render t = .ok r) ∧ x = prepLine x.z (figures render dur (tileRangeOnZ b x.z).length (tileRangeOnZ b x.z))
  logged : ∀ z, z ∈ l.log.map (·.z) ↔ z < s.mgr.curZ ∧ (atLevel l.counted z).length = (atLevel s.handed z).length

theorem left_level {b : BaseRange} (hx : b.minx ≤ b.maxx) (hy : b.miny ≤ b.maxy) {m : PrepMgr} (hb : m.base = b) (hm : m.Level) : ∀ t ∈ m.left, m.curZ ≤ t.z := by
  intro t ht
  rw [PrepMgr.left] at ht
  split at ht
  · cases ht
  · rcases List.mem_append.1 ht with ht | ht
    · rw [hm t ht]
    · rw [tilesFrom, List.mem_flatMap] at ht
      obtain ⟨z, h1, h2⟩ := ht
      rw [hb] at h2
      have h3 := range_level hx hy z t h2
      have := (List.mem_range'_1.1 h1).1
      omega

theorem tilesFrom_level {b : BaseRange} (hx : b.minx ≤ b.maxx) (hy : b.miny ≤ b.maxy) {maxZ z : Nat} (hz : z ≤ maxZ) : (atLevel (tilesFrom b 0 maxZ) z).Perm (tileRangeOnZ b z) := by
  refine (List.perm_ext_iff_of_nodup ((nodup_tilesFrom b hx hy 0 maxZ).filter _) (nodup_tileRangeOnZ b z)).2 fun t => ?_
  rw [List.mem_filter, mem_tilesFrom hx hy, mem_tileRangeOnZ b hx hy]
  simp only [decide_eq_true_eq]
  constructor
  · rintro ⟨⟨_, h⟩, e⟩; exact ⟨e, h⟩
  · rintro ⟨e, h⟩; exact ⟨⟨by omega, h⟩, e⟩

theorem counted_le {l h r : List Tile} (hp : h.Perm (l ++ r)) (z : Nat) : (atLevel l z).length + (atLevel r z).length = (atLevel h z).length := by
  have := (hp.filter (fun t => decide (t.z = z))).length_eq
  rw [List.filter_append, List.length_append] at this
  exact this.symm

theorem full_level {l h r : List Tile} (hp : h.Perm (l ++ r)) {z : Nat} (he : (atLevel l z).length = (atLevel h z).length) : (atLevel l z).Perm (atLevel h z) := by
  have h1 := counted_le hp z
  have h2 : atLevel r z = [] := List.length_eq_zero_iff.1 (by omega)
  have := hp.filter (fun t => decide (t.z = z))
  rw [List.filter_append, show r.filter _ = [] from h2, List.append_nil] at this
  exact this.symm

theorem resultSize_length {render : Tile → Res (Option Bytes)} {t : Tile} {r : Option Bytes} (h : render t = .ok r) : resultSize r = lengthOf render t := by
  rw [lengthOf, h]
  cases r <;> rfl

theorem figures_snoc (render : Tile → Res (Option Bytes)) (dur : Tile → Nat) (total : Nat) (ts : List Tile) (t : Tile) :
    figures render dur total (ts ++ [t]) = (let s := figures render dur total ts
      ⟨s.total, s.finished + 1, if lengthOf render t ≠ 0 then s.empty + 1 else s.empty, s.size + lengthOf render t, s.dur + dur t⟩) := by
  simp only [figures, List.length_append, List.length_singleton, List.countP_append, List.map_append, List.sum_append, List.map_cons, List.map_nil, List.sum_cons, List.sum_nil,
    List.countP_cons, List.countP_nil, decide_eq_true_eq]
  by_cases h : lengthOf render t = 0 <;> simp [h]

/-- the base run moves or stands still, and the ledger stays right -/
theorem ledger_step {render : Tile → Res (Option Bytes)} {dur : Tile → Nat} {b : BaseRange} (hx : b.minx ≤ b.maxx) (hy : b.miny ≤ b.maxy) {maxZ : Nat}
    {old : UInt64 → Option Bytes} {oldMax : Option Nat} {s t : (PrepShared × PrepLedger) × List (PrepPc × PrepCall)}
    (hbase : PrepInv render b maxZ old oldMax s.1.1 (s.2.map (·.1))) (h : LedgerInv render dur b maxZ s.1.1 s.1.2 s.2) (st : ThreadStep (prepStatStep render dur) s t) :
    ((s.1.1, s.2.map (·.1)) = (t.1.1, t.2.map (·.1)) ∨ ThreadStep (prepStep render) (s.1.1, s.2.map (·.1)) (t.1.1, t.2.map (·.1))) ∧ LedgerInv render dur b maxZ t.1.1 t.1.2 t.2 := by
  obtain ⟨⟨s, l⟩, ⟨s', l'⟩, x, y, ⟨p, c⟩, ⟨p', c'⟩, hp⟩ := st
  dsimp only at hbase h ⊢
  rw [prepStatStep] at hp
  cases hab : s.aborted with
  | true => simp [hab] at hp
  | false =>
  simp only [hab, Bool.false_eq_true, if_false] at hp
  have hperm := h.perm hab
  rw [List.flatMap_append, List.flatMap_cons] at hperm
  have hcall : ∀ q ∈ x ++ y, ∀ t n d, q.2 = some (t, n, d) → n = lengthOf render t ∧ d = dur t ∧ (∃ r, render t = .ok r) ∧ ∃ todo done, q.1 = .render todo done := fun q hq => h.call q (by
    simp only [List.mem_append, List.mem_cons] at hq ⊢; tauto)
  have hcall' : ∀ {q' : PrepPc × PrepCall}, (∀ t n d, q'.2 = some (t, n, d) → n = lengthOf render t ∧ d = dur t ∧ (∃ r, render t = .ok r) ∧ ∃ todo done, q'.1 = .render todo done) →
      ∀ q ∈ x ++ q' :: y, ∀ t n d, q.2 = some (t, n, d) → n = lengthOf render t ∧ d = dur t ∧ (∃ r, render t = .ok r) ∧ ∃ todo done, q.1 = .render todo done := by
    intro q' hq' q hq
    simp only [List.mem_append, List.mem_cons] at hq
    rcases hq with hq | rfl | hq
    · exact hcall q (by simp [hq])
    · exact hq'
    · exact hcall q (by simp [hq])
  cases hc : c with
  | some v =>
    -- a call of `finish`
    obtain ⟨u, n, d⟩ := v
    subst hc
    dsimp only at hp
    obtain ⟨rfl, rfl, hok, todo, done, hpr⟩ := h.call (p, some (u, n, d)) (by simp) u n d rfl
    dsimp only at hpr
    subst hpr
    have hmem : u ∈ s.handed := hperm.mem_iff.2 (by simp [openTiles])
    have huz : u.z ≤ maxZ := ((mem_tilesFrom hx hy).1 (by rw [← hbase.all]; exact List.mem_append_left _ hmem)).1
    rw [if_pos (by rw [hbase.mgr.2.1]; exact huz)] at hp
    injection hp with hp; injection hp with h1 h2; injection h1 with h3 h4; injection h2 with h5 h6
    subst h3; subst h4; subst h5; subst h6
    refine ⟨.inl (by simp), ?_⟩
    have hp2 : s.handed.Perm ((l.counted ++ [u]) ++ (x ++ (PrepPc.render todo done, (none : PrepCall)) :: y).flatMap openTiles) := by
      refine hperm.trans ?_
      rw [List.flatMap_append, List.flatMap_cons]
      simp only [openTiles, List.nil_append, List.append_assoc, List.singleton_append]
      refine List.Perm.append_left _ ?_
      exact List.perm_middle
    have hstats : ∀ z, (l.finish s.mgr.curZ u (lengthOf render u) (dur u)).stats z = figures render dur (atLevel s.handed z).length (atLevel (l.counted ++ [u]) z) := by
      intro z
      have e : (l.finish s.mgr.curZ u (lengthOf render u) (dur u)).stats z = if z = u.z then
          (let s := l.stats u.z; ⟨s.total, s.finished + 1, if lengthOf render u ≠ 0 then s.empty + 1 else s.empty, s.size + lengthOf render u, s.dur + dur u⟩) else l.stats z := by
        rw [PrepLedger.finish]; dsimp only; split <;> rfl
      rw [e]
      by_cases hz : z = u.z
      · subst hz
        rw [if_pos rfl, h.stats]
        rw [show atLevel (l.counted ++ [u]) u.z = atLevel l.counted u.z ++ [u] by simp [atLevel, List.filter_append], figures_snoc]
      · rw [if_neg hz, h.stats, show atLevel (l.counted ++ [u]) z = atLevel l.counted z by simp [atLevel, List.filter_append, Ne.symm hz]]
    have hcounted : (l.finish s.mgr.curZ u (lengthOf render u) (dur u)).counted = l.counted ++ [u] := by
      rw [PrepLedger.finish]; dsimp only; split <;> rfl
    have hlog : (l.finish s.mgr.curZ u (lengthOf render u) (dur u)).log = if u.z = s.mgr.curZ ∨ (atLevel (l.counted ++ [u]) u.z).length < (atLevel s.handed u.z).length then l.log else
        l.log ++ [prepLine u.z (figures render dur (atLevel s.handed u.z).length (atLevel (l.counted ++ [u]) u.z))] := by
      have e := hstats u.z
      rw [PrepLedger.finish] at e ⊢
      dsimp only at e ⊢
      have e2 : (if u.z = u.z then (⟨(l.stats u.z).total, (l.stats u.z).finished + 1, if lengthOf render u ≠ 0 then (l.stats u.z).empty + 1 else (l.stats u.z).empty,
          (l.stats u.z).size + lengthOf render u, (l.stats u.z).dur + dur u⟩ : LevelStats) else l.stats u.z) = figures render dur (atLevel s.handed u.z).length (atLevel (l.counted ++ [u]) u.z) := by
        split at e <;> exact e
      rw [if_pos rfl] at e2
      have e3 : (l.stats u.z).finished + 1 = (atLevel (l.counted ++ [u]) u.z).length := congrArg LevelStats.finished e2
      have e4 : (l.stats u.z).total = (atLevel s.handed u.z).length := congrArg LevelStats.total e2
      by_cases hcond : u.z = s.mgr.curZ ∨ (l.stats u.z).finished + 1 < (l.stats u.z).total
      · refine (congrArg PrepLedger.log (if_pos hcond)).trans ?_
        rw [e3, e4] at hcond
        rw [if_pos hcond]
      · refine (congrArg PrepLedger.log (if_neg hcond)).trans ?_
        rw [e3, e4] at hcond
        rw [if_neg hcond]
        exact congrArg (fun v => l.log ++ [prepLine u.z v]) e2
    have hlt : (atLevel l.counted u.z).length < (atLevel s.handed u.z).length := by
      have e1 := counted_le hp2 u.z
      have e2 : (atLevel (l.counted ++ [u]) u.z).length = (atLevel l.counted u.z).length + 1 := by simp [atLevel, List.filter_append]
      omega
    have hle : (atLevel (l.counted ++ [u]) u.z).length ≤ (atLevel s.handed u.z).length := by
      have e1 := counted_le hp2 u.z
      omega
    have hnot : u.z ∉ l.log.map (·.z) := fun hh => by have := ((h.logged u.z).1 hh).2; omega
    have hne : ∀ z, z ≠ u.z → atLevel (l.counted ++ [u]) z = atLevel l.counted z := fun z hz => by simp [atLevel, List.filter_append, Ne.symm hz]
    have hokay : ∀ t ∈ l.counted ++ [u], ∃ r, render t = .ok r := by
      intro t ht
      rcases List.mem_append.1 ht with ht | ht
      · exact h.okay t ht
      · rw [List.mem_singleton.1 ht]; exact hok
    refine ⟨h.level, h.handed, by rw [hcounted]; exact hstats, fun _ => by rw [hcounted]; exact hp2, hcall' (by intro t n d hh; cases hh), by rw [hcounted]; exact hokay, ?_, ?_, ?_⟩
    · rw [hlog]
      split
      · exact h.once
      · rw [List.map_append, List.nodup_append]
        refine ⟨h.once, by simp, ?_⟩
        intro a ha b' hb' e
        simp only [List.map_cons, List.map_nil, List.mem_singleton] at hb'
        subst hb'; subst e
        exact hnot ha
    · rw [hlog]
      split
      · exact h.lines
      · rename_i hh
        simp only [not_or, not_lt] at hh
        intro ln hln
        rcases List.mem_append.1 hln with hln | hln
        · exact h.lines ln hln
        · rw [List.mem_singleton] at hln
          have hz : ln.z = u.z := by rw [hln, prepLine]
          refine ⟨by omega, ?_⟩
          have hcur := h.handed u hmem
          have he : (atLevel (l.counted ++ [u]) u.z).length = (atLevel s.handed u.z).length := Nat.le_antisymm hle hh.2
          have q1 := full_level hp2 he
          have q2 : (atLevel s.handed u.z).Perm (tileRangeOnZ b u.z) := by
            have := tilesFrom_level hx hy huz
            rw [← hbase.all, atLevel, List.filter_append] at this
            have e0 : s.mgr.left.filter (fun t => decide (t.z = u.z)) = [] := by
              rw [List.filter_eq_nil_iff]
              intro w hw
              have := left_level hx hy hbase.mgr.1 h.level w hw
              simp only [decide_eq_true_eq]
              omega
            rwa [e0, List.append_nil] at this
          rw [hz]
          refine ⟨fun t ht => hokay t (List.mem_of_mem_filter ((q1.trans q2).mem_iff.2 ht)), ?_⟩
          rw [hln, ← q2.length_eq, figures_perm (q1.trans q2)]
    · intro z
      rw [hcounted, hlog]
      by_cases hz : z = u.z
      · subst hz
        split
        · rename_i hh
          refine iff_of_false hnot ?_
          rintro ⟨a1, a2⟩
          rcases hh with hh | hh <;> omega
        · rename_i hh
          simp only [not_or, not_lt] at hh
          refine iff_of_true (by simp [prepLine]) ⟨?_, Nat.le_antisymm hle hh.2⟩
          have := h.handed u hmem
          omega
      · rw [hne z hz, ← h.logged z]
        split
        · rfl
        · simp [prepLine, hz]
  | none =>
    subst hc
    dsimp only at hp
    cases hb : prepStep render s p with
    | none => rw [hb] at hp; cases hp
    | some v =>
      obtain ⟨s2, p2⟩ := v
      rw [hb] at hp
      dsimp only at hp
      have hbstep : ThreadStep (prepStep render) (s, (x ++ (p, (none : PrepCall)) :: y).map (·.1)) (s2, (x.map (·.1)) ++ p2 :: y.map (·.1)) := by
        rw [List.map_append, List.map_cons]
        exact .mk s s2 _ _ p p2 hb
      rw [prepStep.eq_def] at hb
      simp only [hab, Bool.false_eq_true, if_false] at hb
      -- steps that leave the ledger alone
      have hquiet : ∀ {c2 : PrepCall}, (s', l') = (s2, l) → (p', c') = (p2, c2) → s2.mgr = s.mgr → s2.handed = s.handed →
          (s2.aborted = false → (openTiles (p2, c2)).Perm (openTiles (p, none))) →
          (∀ t n d, c2 = some (t, n, d) → n = lengthOf render t ∧ d = dur t ∧ (∃ r, render t = .ok r) ∧ ∃ todo done, p2 = .render todo done) →
          ((s, (x ++ (p, (none : PrepCall)) :: y).map (·.1)) = (s', (x ++ (p', c') :: y).map (·.1)) ∨
            ThreadStep (prepStep render) (s, (x ++ (p, (none : PrepCall)) :: y).map (·.1)) (s', (x ++ (p', c') :: y).map (·.1))) ∧ LedgerInv render dur b maxZ s' l' (x ++ (p', c') :: y) := by
        intro c2 e1 e2 hmgr hhanded hopen hc2
        injection e1 with e1 e3; injection e2 with e2 e4
        subst e1; subst e2; subst e3; subst e4
        refine ⟨.inr (by simpa using hbstep), by rw [hmgr]; exact h.level, by rw [hhanded, hmgr]; exact h.handed,
          by rw [hhanded]; exact h.stats, fun hh => ?_, hcall' hc2, h.okay, h.once, h.lines, by rw [hhanded, hmgr]; exact h.logged⟩
        rw [hhanded]
        refine hperm.trans ?_
        rw [List.flatMap_append, List.flatMap_cons]
        exact List.Perm.append_left _ (List.Perm.append_left _ (List.Perm.append_right _ (hopen hh).symm))
      cases p with
      | fetch =>
        dsimp only at hp hb
        obtain ⟨ts, m', g1, g2, g3, g4⟩ := getBatch_spec hx hy s.mgr hbase.mgr
        rw [g1] at hb
        obtain ⟨k1, k2, k3, k4, k5⟩ := batch_levels hx hy _ s.mgr hbase.mgr.1 h.level g1
        injection hp with hp; injection hp with e1 e2; injection e1 with e3 e4; injection e2 with e5 e6
        subst e3; subst e4; subst e5; subst e6
        obtain ⟨o1, o2, o3⟩ := handOut_spec (s.mgr.rounds (2 ^ 9 / 2 ^ (9 - s.mgr.curZ))) l
        have hs2 : s2.mgr = m' ∧ s2.handed = s.handed ++ ts ∧ s2.aborted = false ∧ openTiles (p2, none) = ts := by
          cases ts with
          | nil => dsimp only at hb; injection hb with hb; injection hb with e1 e2; subst e1; subst e2; exact ⟨rfl, by simp, rfl, rfl⟩
          | cons a as => dsimp only at hb; injection hb with hb; injection hb with e1 e2; subst e1; subst e2; exact ⟨rfl, rfl, rfl, rfl⟩
        obtain ⟨q1, q2, q3, q4⟩ := hs2
        refine ⟨.inr (by simpa using hbstep), by rw [q1]; exact k1, ?_, ?_, ?_, hcall' (by intro t n d hh; cases hh), by rw [o2]; exact h.okay, ?_, ?_, ?_⟩
        · rw [q1, q2]
          intro w hw
          rcases List.mem_append.1 hw with hw | hw
          · have := h.handed w hw; omega
          · exact (k4 w hw).2
        · intro z
          rw [o3, o2, h.stats, k2, q2, show atLevel (s.handed ++ ts) z = atLevel s.handed z ++ atLevel ts z from List.filter_append _ _, List.length_append]
          have : (ts.map (·.z)).count z = (ts.filter (fun t => decide (t.z = z))).length := by
            rw [List.count, List.countP_map, List.countP_eq_length_filter]
            congr 1
          rw [this]
          rfl
        · intro _
          rw [q2, o2, List.flatMap_append, List.flatMap_cons, q4]
          have hperm2 : s.handed.Perm (l.counted ++ (x.flatMap openTiles ++ y.flatMap openTiles)) := hperm
          refine (hperm2.append_right ts).trans ?_
          rw [List.append_assoc, List.append_assoc]
          refine List.Perm.append_left _ (List.Perm.append_left _ ?_)
          exact List.perm_append_comm
        · rw [o1]; exact h.once
        · rw [o1]; exact h.lines
        · intro z
          rw [o1, o2, q1, q2, h.logged z]
          have hle := counted_le hperm z
          have hlen : (atLevel (s.handed ++ ts) z).length = (atLevel s.handed z).length + (atLevel ts z).length := by rw [atLevel, List.filter_append, List.length_append]
          by_cases hz : z < s.mgr.curZ
          · have : atLevel ts z = [] := by
              rw [atLevel, List.filter_eq_nil_iff]
              intro w hw
              have := (k4 w hw).1
              simp only [decide_eq_true_eq]
              omega
            rw [hlen, this, List.length_nil]
            constructor
            · rintro ⟨_, e⟩; exact ⟨by omega, by omega⟩
            · rintro ⟨_, e⟩; exact ⟨hz, by omega⟩
          · refine iff_of_false (fun hh => hz hh.1) ?_
            rintro ⟨a1, a2⟩
            obtain ⟨w, hw, hwz⟩ := k5 z (by omega) a1
            have : 0 < (atLevel ts z).length := List.length_pos_of_mem (a := w) (List.mem_filter.2 ⟨hw, by simpa using hwz⟩)
            omega
      | render todo done =>
        cases todo with
        | nil =>
          dsimp only at hp hb
          injection hb with hb; injection hb with e1 e2; subst e1; subst e2
          injection hp with hp; injection hp with e1 e2
          exact hquiet e1.symm e2.symm rfl rfl (fun _ => .refl _) (by intro t n d hh; cases hh)
        | cons u todo =>
          dsimp only at hp hb
          cases hr : render u with
          | ok r =>
            rw [hr] at hp hb
            dsimp only at hp hb
            injection hb with hb; injection hb with e1 e2; subst e1; subst e2
            injection hp with hp; injection hp with e1 e2
            refine hquiet e1.symm e2.symm rfl rfl (fun _ => .refl _) ?_
            intro t n d hh
            injection hh with hh; injection hh with h1 hh; injection hh with h2 h3
            subst h1; subst h2; subst h3
            exact ⟨resultSize_length hr, rfl, ⟨r, hr⟩, _, _, rfl⟩
          | throw_ =>
            rw [hr] at hp hb
            dsimp only at hp hb
            injection hb with hb; injection hb with e1 e2; subst e1; subst e2
            injection hp with hp; injection hp with e1 e2
            exact hquiet e1.symm e2.symm rfl rfl (fun hh => by cases hh) (by intro t n d hh; cases hh)
          | ub =>
            rw [hr] at hp hb
            dsimp only at hp hb
            injection hb with hb; injection hb with e1 e2; subst e1; subst e2
            injection hp with hp; injection hp with e1 e2
            exact hquiet e1.symm e2.symm rfl rfl (fun hh => by cases hh) (by intro t n d hh; cases hh)
      | store done =>
        dsimp only at hp hb
        split at hb
        · injection hb with hb; injection hb with e1 e2; subst e1; subst e2; injection hp with hp; injection hp with e1 e2
          exact hquiet e1.symm e2.symm rfl rfl (fun _ => .refl _) (by intro t n d hh; cases hh)
        · injection hb with hb; injection hb with e1 e2; subst e1; subst e2; injection hp with hp; injection hp with e1 e2
          exact hquiet e1.symm e2.symm rfl rfl (fun _ => .refl _) (by intro t n d hh; cases hh)
      | stop => cases hb
      | join =>
        dsimp only at hp hb
        split at hb
        · injection hb with hb; injection hb with e1 e2; subst e1; subst e2; injection hp with hp; injection hp with e1 e2
          exact hquiet e1.symm e2.symm rfl rfl (fun _ => .refl _) (by intro t n d hh; cases hh)
        · cases hb
      | finished => cases hb

/-! ### all runs -/

/-- the run of `prepare_tiles` with its statistics -/
abbrev PrepStatRun (render : Tile → Res (Option Bytes)) (dur : Tile → Nat) (keys : List UInt64) (maxZ workers : Nat) (old : UInt64 → Option Bytes) (oldMax : Option Nat)
    (s : (PrepShared × PrepLedger) × List (PrepPc × PrepCall)) : Prop :=
  ∃ m, makePrepMgr keys maxZ = .ok m ∧ Reach (ThreadStep (prepStatStep render dur)) (prepStatInit m old oldMax workers) s

section
variable {render : Tile → Res (Option Bytes)} {dur : Tile → Nat} {keys : List UInt64} {maxZ workers : Nat} {old : UInt64 → Option Bytes} {oldMax : Option Nat}
  {s : (PrepShared × PrepLedger) × List (PrepPc × PrepCall)}

theorem ledger_init {b : BaseRange} (hx : b.minx ≤ b.maxx) (hy : b.miny ≤ b.maxy) (maxZ workers : Nat) (old : UInt64 → Option Bytes) (oldMax : Option Nat) :
    LedgerInv render dur b maxZ (prepStatInit (.init b maxZ) old oldMax workers).1.1 (prepStatInit (.init b maxZ) old oldMax workers).1.2 (prepStatInit (.init b maxZ) old oldMax workers).2 := by
  have hopen : ((prepInit (.init b maxZ) old oldMax workers).2.map (fun p => (p, (none : PrepCall)))).flatMap openTiles = [] := by
    rw [List.flatMap_eq_nil_iff]
    intro q hq
    simp only [prepInit, List.map_cons, List.map_replicate, List.mem_cons, List.mem_replicate] at hq
    rcases hq with rfl | ⟨_, rfl⟩ <;> rfl
  refine ⟨fun t ht => range_level hx hy 0 t ht, (by intro t ht; cases ht), fun z => rfl, fun _ => ?_, ?_, (by intro t ht; cases ht), List.nodup_nil, (by intro x hx; cases hx), fun z => ?_⟩
  · show ([] : List Tile).Perm _
    rw [prepStatInit]
    dsimp only
    rw [hopen]
    exact .refl _
  · intro q hq t n d hh
    simp only [prepStatInit, prepInit, List.map_cons, List.map_replicate, List.mem_cons, List.mem_replicate] at hq
    rcases hq with rfl | ⟨_, rfl⟩ <;> cases hh
  · refine iff_of_false (by simp [prepStatInit, PrepLedger.init]) ?_
    rintro ⟨h, _⟩
    exact absurd h (Nat.not_lt_zero z)

theorem stat_run (hk : ∀ k ∈ keys, (keyToTile k).Valid ∧ (keyToTile k).z = 10) (hz : maxZ ≤ 20) (h : PrepStatRun render dur keys maxZ workers old oldMax s) :
    PrepRun render keys maxZ workers old oldMax (s.1.1, s.2.map (·.1)) ∧ LedgerInv render dur (dbBounds keys) maxZ s.1.1 s.1.2 s.2 := by
  obtain ⟨m, hm, h⟩ := h
  have hm' := hm
  rw [C30_accepts] at hm'
  split at hm'
  · cases hm'
  rename_i hne
  injection hm' with hm'
  subst hm'
  obtain ⟨hx, hy⟩ := dbBounds_le hne
  induction h with
  | refl => exact ⟨⟨_, hm, by simpa [prepStatInit, Function.comp_def] using Reach.refl⟩, ledger_init hx hy maxZ workers old oldMax⟩
  | step r st ih =>
    obtain ⟨h1, h2⟩ := ih
    obtain ⟨h3, h4⟩ := ledger_step hx hy (prepInv_run hk hz h1).2 h2 st
    refine ⟨?_, h4⟩
    rcases h3 with h3 | h3
    · rwa [← h3]
    · obtain ⟨m, q1, q2⟩ := h1
      exact ⟨m, q1, .step q2 h3⟩

/-- Counting changes nothing: without its statistics every run is a run of C30. -/
theorem C83_same (hk : ∀ k ∈ keys, (keyToTile k).Valid ∧ (keyToTile k).z = 10) (hz : maxZ ≤ 20) (h : PrepStatRun render dur keys maxZ workers old oldMax s) :
    PrepRun render keys maxZ workers old oldMax (s.1.1, s.2.map (·.1)) := (stat_run hk hz h).1

/-- and every run of C30 is a run with statistics. -/
theorem C83_lifts (dur : Tile → Nat) (hk : ∀ k ∈ keys, (keyToTile k).Valid ∧ (keyToTile k).z = 10) (hz : maxZ ≤ 20) {t : PrepShared × List PrepPc}
    (h : PrepRun render keys maxZ workers old oldMax t) : ∃ l, PrepStatRun render dur keys maxZ workers old oldMax ((t.1, l), t.2.map (fun p => (p, none))) := by
  have hne := (prepInv_run hk hz h).1
  obtain ⟨hx, hy⟩ := dbBounds_le hne
  obtain ⟨m, hm, h⟩ := h
  induction h with
  | refl => exact ⟨.init, m, hm, .refl⟩
  | step r st ih =>
    obtain ⟨l, m', hm', hr⟩ := ih
    have hmm : m' = m := by rw [hm] at hm'; injection hm' with e; exact e.symm
    subst hmm
    obtain ⟨s, s', x, y, p, p', hp⟩ := st
    have hab : s.aborted = false := by
      cases hc : s.aborted with
      | false => rfl
      | true => rw [prepStep.eq_def] at hp; simp [hc] at hp
    simp only [List.map_append, List.map_cons] at hr ⊢
    have hstep : ∀ {v}, prepStatStep render dur (s, l) (p, none) = some v → Reach (ThreadStep (prepStatStep render dur)) (prepStatInit m' old oldMax workers)
        (v.1, x.map (fun p => (p, none)) ++ v.2 :: y.map (fun p => (p, none))) := fun {v} hv => .step hr (.mk _ _ _ _ _ _ (by rw [hv]))
    have hdone : ∀ {l' : PrepLedger}, prepStatStep render dur (s, l) (p, none) = some ((s', l'), (p', none)) →
        ∃ l, PrepStatRun render dur keys maxZ workers old oldMax ((s', l), x.map (fun p => (p, none)) ++ (p', none) :: y.map (fun p => (p, none))) := fun {l'} hv => ⟨l', m', hm, hstep hv⟩
    have heq := hp
    rw [prepStep.eq_def] at heq
    simp only [hab, Bool.false_eq_true, if_false] at heq
    cases p with
    | fetch => exact hdone (by rw [prepStatStep]; simp only [hab, Bool.false_eq_true, if_false]; rw [hp])
    | render todo done =>
      cases todo with
      | nil => exact hdone (by rw [prepStatStep]; simp only [hab, Bool.false_eq_true, if_false]; rw [hp])
      | cons u todo =>
        dsimp only at heq
        cases hu : render u with
        | throw_ => exact hdone (by rw [prepStatStep]; simp only [hab, Bool.false_eq_true, if_false]; rw [hp]; dsimp only; rw [hu])
        | ub => exact hdone (by rw [prepStatStep]; simp only [hab, Bool.false_eq_true, if_false]; rw [hp]; dsimp only; rw [hu])
        | ok o =>
          rw [hu] at heq
          injection heq with heq; injection heq with e1 e2
          subst e1; subst e2
          have h1 := hstep (v := ((s, l), (.render todo ((u, o) :: done), some (u, resultSize o, dur u))))
            (by rw [prepStatStep]; simp only [hab, Bool.false_eq_true, if_false]; rw [hp]; dsimp only; rw [hu])
          have hinv := stat_run (dur := dur) hk hz ⟨m', hm, h1⟩
          have hbase := (prepInv_run hk hz hinv.1).2
          have hmem : u ∈ s.handed := by
            refine (hinv.2.perm hab).mem_iff.2 ?_
            simp [openTiles]
          have huz : u.z ≤ s.mgr.maxZ := by
            have h2 : u.z ≤ maxZ := ((mem_tilesFrom hx hy).1 (by rw [← hbase.all]; exact List.mem_append_left _ hmem)).1
            have h3 : s.mgr.maxZ = maxZ := hbase.mgr.2.1
            omega
          refine ⟨_, m', hm, .step h1 (.mk _ (s, l.finish s.mgr.curZ u (resultSize o) (dur u)) _ _ _ _ ?_)⟩
          rw [prepStatStep]
          simp only [hab, Bool.false_eq_true, if_false]
          rw [if_pos huz]
    | store done => exact hdone (by rw [prepStatStep]; simp only [hab, Bool.false_eq_true, if_false]; rw [hp])
    | stop => cases heq
    | join => exact hdone (by rw [prepStatStep]; simp only [hab, Bool.false_eq_true, if_false]; rw [hp])
    | finished => cases heq

/-- At every moment of every run, also after an exception: no level has two lines in the log, and a line is final: it is written after all tiles of its level were drawn without exception, and
its figures are those of all the tiles of its level in the area. -/
theorem C83_lines (hk : ∀ k ∈ keys, (keyToTile k).Valid ∧ (keyToTile k).z = 10) (hz : maxZ ≤ 20) (h : PrepStatRun render dur keys maxZ workers old oldMax s) :
    (s.1.2.log.map (·.z)).Nodup ∧ ∀ x ∈ s.1.2.log, x.z ≤ maxZ ∧ ∀ ts : List Tile, ts.Nodup → (∀ t, t ∈ ts ↔ t.z = x.z ∧ InArea (dbBounds keys) t) →
      (∀ t ∈ ts, ∃ r, render t = .ok r) ∧ x.total = ts.length ∧ x.dur = (ts.map dur).sum ∧ x.empty = ts.countP (fun t => lengthOf render t ≠ 0) ∧
      x.avg = if ts.countP (fun t => lengthOf render t = 0) = 0 then 0 else ((ts.map (lengthOf render)).sum : ℚ) / (ts.countP (fun t => lengthOf render t = 0) : ℚ) := by
  obtain ⟨h1, h2⟩ := stat_run hk hz h
  obtain ⟨hne, _⟩ := prepInv_run hk hz h1
  obtain ⟨hx, hy⟩ := dbBounds_le hne
  refine ⟨h2.once, fun x hxl => ⟨(h2.lines x hxl).1, fun ts hnd hts => ?_⟩⟩
  obtain ⟨_, h3, h4⟩ := h2.lines x hxl
  have hp : (tileRangeOnZ (dbBounds keys) x.z).Perm ts := (List.perm_ext_iff_of_nodup (nodup_tileRangeOnZ _ _) hnd).2 fun t => by rw [hts, mem_tileRangeOnZ _ hx hy]
  rw [figures_perm hp, hp.length_eq] at h4
  have hsplit : ts.length = ts.countP (fun t => lengthOf render t ≠ 0) + ts.countP (fun t => lengthOf render t = 0) := by
    rw [List.length_eq_countP_add_countP (fun t => decide (lengthOf render t ≠ 0))]
    congr 1
    refine List.countP_congr fun t _ => ?_
    simp
  refine ⟨fun t ht => h3 t (hp.mem_iff.2 ht), ?_, ?_, ?_, ?_⟩
  · rw [h4]; rfl
  · rw [h4]; rfl
  · rw [h4]; rfl
  · rw [h4]
    by_cases he : ts.countP (fun t => decide (lengthOf render t = 0)) = 0
    · rw [if_pos he]
      exact if_pos (show ts.length = ts.countP (fun t => lengthOf render t ≠ 0) by omega)
    · rw [if_neg he]
      refine (if_neg (show ¬ ts.length = ts.countP (fun t => lengthOf render t ≠ 0) by omega)).trans ?_
      show ((ts.map (lengthOf render)).sum : ℚ) / ((ts.length - ts.countP (fun t => lengthOf render t ≠ 0) : Nat) : ℚ) = _
      rw [show ts.length - ts.countP (fun t => decide (lengthOf render t ≠ 0)) = ts.countP (fun t => decide (lengthOf render t = 0)) by omega]

/-- When the run has ended, the log has exactly one line for each level. -/
theorem C83_complete (hk : ∀ k ∈ keys, (keyToTile k).Valid ∧ (keyToTile k).z = 10) (hz : maxZ ≤ 20) (hw : 0 < workers) (h : PrepStatRun render dur keys maxZ workers old oldMax s)
    (hfin : PrepPc.finished ∈ s.2.map (·.1)) : (s.1.2.log.map (·.z)).Perm (List.range (maxZ + 1)) := by
  obtain ⟨h1, h2⟩ := stat_run hk hz h
  obtain ⟨hne, hi⟩ := prepInv_run hk hz h1
  obtain ⟨hx, hy⟩ := dbBounds_le hne
  obtain ⟨k1, k2, _⟩ := C30_complete render keys hk maxZ workers hz hw old oldMax _ h1 hfin
  have hab : s.1.1.aborted = false := by
    cases hc : s.1.1.aborted with
    | false => rfl
    | true => exact absurd hfin (hi.aborted hc)
  have hcount := hi.running hab
  rw [(hi.fin hfin).1] at hcount
  have hact : ∀ p ∈ s.2, p.1.active = false := by
    intro p hp
    have := List.countP_eq_zero.1 hcount.symm p.1 (List.mem_map_of_mem hp)
    simpa using this
  have hopen : s.2.flatMap openTiles = [] := by
    rw [List.flatMap_eq_nil_iff]
    rintro ⟨p, c⟩ hp
    have ha := hact _ hp
    cases c with
    | some v =>
      obtain ⟨u, n, d⟩ := v
      obtain ⟨_, _, _, todo, done, e⟩ := h2.call _ hp u n d rfl
      dsimp only at e ha
      rw [e] at ha
      cases ha
    | none => cases p <;> first | rfl | (simp [PrepPc.active] at ha)
  have hperm := h2.perm hab
  rw [hopen, List.append_nil] at hperm
  have hleft : s.1.1.mgr.left = [] := by
    have hall := hi.all
    have hn := nodup_tilesFrom (dbBounds keys) hx hy 0 maxZ
    rw [← hall] at hn
    by_contra hc
    obtain ⟨t, ht⟩ := List.exists_mem_of_ne_nil _ hc
    have h3 : t ∈ s.1.1.handed := (k2 t).2 ((mem_tilesFrom hx hy).1 (by rw [← hall]; exact List.mem_append_right _ ht))
    exact (List.nodup_append.1 hn).2.2 t h3 t ht rfl
  have hcur : maxZ < s.1.1.mgr.curZ := by
    by_contra hc
    have hmz : s.1.1.mgr.maxZ = maxZ := hi.mgr.2.1
    rw [PrepMgr.left, if_neg (by omega)] at hleft
    exact hi.mgr.2.2 (show s.1.1.mgr.curZ ≤ s.1.1.mgr.maxZ by omega) (List.append_eq_nil_iff.1 hleft).1
  refine (List.perm_ext_iff_of_nodup h2.once List.nodup_range).2 fun z => ?_
  rw [List.mem_range]
  constructor
  · intro hzl
    obtain ⟨x, hxl, rfl⟩ := List.mem_map.1 hzl
    have := (h2.lines x hxl).1
    omega
  · intro hzm
    exact (h2.logged z).2 ⟨by omega, ((hperm.filter _).length_eq).symm⟩

/-- What the line calls empty are the tiles that are not: if no tile of a level is empty, the line says that all are, with an average of 0; and if all are empty, that none is. -/
theorem C83_inverted (hk : ∀ k ∈ keys, (keyToTile k).Valid ∧ (keyToTile k).z = 10) (hz : maxZ ≤ 20) (h : PrepStatRun render dur keys maxZ workers old oldMax s) (x : PrepLine)
    (hxl : x ∈ s.1.2.log) :
    ((∀ t, t.z = x.z → InArea (dbBounds keys) t → lengthOf render t ≠ 0) → x.empty = x.total ∧ x.avg = 0) ∧
    ((∀ t, t.z = x.z → InArea (dbBounds keys) t → lengthOf render t = 0) → x.empty = 0 ∧ x.avg = 0) := by
  obtain ⟨hne, _⟩ := prepInv_run hk hz (stat_run hk hz h).1
  obtain ⟨hx, hy⟩ := dbBounds_le hne
  have hm := mem_tileRangeOnZ (dbBounds keys) hx hy x.z
  obtain ⟨_, h1, _, h2, h3⟩ := ((C83_lines hk hz h).2 x hxl).2 (tileRangeOnZ (dbBounds keys) x.z) (nodup_tileRangeOnZ _ _) hm
  constructor
  · intro hall
    have e0 : (tileRangeOnZ (dbBounds keys) x.z).countP (fun t => lengthOf render t = 0) = 0 := List.countP_eq_zero.2 fun t ht => by
      have := hall t ((hm t).1 ht).1 ((hm t).1 ht).2
      simpa using this
    have e1 : (tileRangeOnZ (dbBounds keys) x.z).countP (fun t => lengthOf render t ≠ 0) = (tileRangeOnZ (dbBounds keys) x.z).length := List.countP_eq_length.2 fun t ht => by
      have := hall t ((hm t).1 ht).1 ((hm t).1 ht).2
      simpa using this
    rw [e0, if_pos rfl] at h3
    exact ⟨by rw [h2, e1, h1], h3⟩
  · intro hall
    have e1 : (tileRangeOnZ (dbBounds keys) x.z).countP (fun t => lengthOf render t ≠ 0) = 0 := List.countP_eq_zero.2 fun t ht => by
      have := hall t ((hm t).1 ht).1 ((hm t).1 ht).2
      simpa using this
    have e2 : ((tileRangeOnZ (dbBounds keys) x.z).map (lengthOf render)).sum = 0 := by
      rw [List.sum_eq_zero_iff_forall_eq_nat]
      intro n hn
      obtain ⟨t, ht, rfl⟩ := List.mem_map.1 hn
      exact hall t ((hm t).1 ht).1 ((hm t).1 ht).2
    refine ⟨by rw [h2, e1], ?_⟩
    rw [h3, e2]
    split
    · rfl
    · exact zero_div _
end
/-- two workers prepare the levels 0 and 1 of C30: the tile of level 1 is counted before that of level 0, so its line comes first; both tiles have content, and are counted as empty -/
example : (runSched (prepStatStep C30_render (fun _ => 5)) (prepStatInit (.init (dbBounds C30_keys) 1) (fun _ => none) none 2) [1, 2, 2, 2, 1, 1, 2, 1, 2, 1, 2, 1, 0]).map
    (fun s => (s.1.2.log, s.2.map (·.1))) =
    some ([⟨1, 5, 1, 0, 1⟩, ⟨0, 5, 1, 0, 1⟩], [.finished, .stop, .stop]) := by decide +kernel

end Tiles
