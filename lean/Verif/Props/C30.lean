import Verif.Model.Prepare
import Verif.Proof.Threads
import Verif.Proof.BqTree
import Verif.Props.C01
import Verif.Props.C03
/-! C30 — tile preparation covers every tile of the indexed area exactly once, for every interleaving of the workers. -/
namespace Tiles

/-- the tile shares area with one of the index tiles (zoom level 10) of the rectangle -/
def Spec.InArea (b : BaseRange) (t : Tile) : Prop :=
  ∃ i : Tile, i.z = 10 ∧ b.minx ≤ i.x ∧ i.x ≤ b.maxx ∧ b.miny ≤ i.y ∧ i.y ≤ b.maxy ∧ Spec.Meet i t
open Spec

/-! ### one zoom level -/

theorem div_between {a b c d : Nat} (hd : 0 < d) : (a / d ≤ c ∧ c ≤ b / d) ↔ (a < (c + 1) * d ∧ c * d ≤ b) := by
  rw [Nat.le_div_iff_mul_le hd, ← Nat.lt_succ_iff, Nat.div_lt_iff_lt_mul hd]

theorem mem_tileRangeOnZ (b : BaseRange) (hx : b.minx ≤ b.maxx) (hy : b.miny ≤ b.maxy) (z : Nat) (t : Tile) :
    t ∈ tileRangeOnZ b z ↔ t.z = z ∧ InArea b t := by
  unfold tileRangeOnZ
  split
  · rename_i hz
    have hz' : z ≤ 10 := hz
    rw [show kTileDefaultIndexZoomLvl = 10 from rfl, mem_geoTileRange]
    refine and_congr_right fun hzt => ?_
    have hd : 0 < 2 ^ (10 - z) := Nat.pow_pos (by decide)
    constructor
    · rintro ⟨h1, h2, h3, h4⟩
      have hX := (div_between hd).1 ⟨h1, h2⟩
      have hY := (div_between hd).1 ⟨h3, h4⟩
      -- a point of the rectangle in the tile
      refine ⟨⟨max b.minx (t.x * 2 ^ (10 - z)), max b.miny (t.y * 2 ^ (10 - z)), 10⟩, rfl, Nat.le_max_left .., Nat.max_le.2 ⟨hx, hX.2⟩,
        Nat.le_max_left .., Nat.max_le.2 ⟨hy, hY.2⟩, .inr ⟨by rw [hzt]; exact hz', ?_, ?_⟩⟩
      · rw [hzt]
        show t.x = max b.minx (t.x * 2 ^ (10 - z)) / 2 ^ (10 - z)
        symm
        rw [div_eq_iff_bounds _ _ _ hd]
        exact ⟨Nat.le_max_right .., Nat.max_lt.2 ⟨hX.1, Nat.mul_lt_mul_of_pos_right (Nat.lt_succ_self _) hd⟩⟩
      · rw [hzt]
        show t.y = max b.miny (t.y * 2 ^ (10 - z)) / 2 ^ (10 - z)
        symm
        rw [div_eq_iff_bounds _ _ _ hd]
        exact ⟨Nat.le_max_right .., Nat.max_lt.2 ⟨hY.1, Nat.mul_lt_mul_of_pos_right (Nat.lt_succ_self _) hd⟩⟩
    · rintro ⟨i, hiz, h1, h2, h3, h4, hm⟩
      have ha : t.x = i.x / 2 ^ (10 - z) ∧ t.y = i.y / 2 ^ (10 - z) := by
        rcases hm with ⟨m1, m2, m3⟩ | ⟨m1, m2, m3⟩
        · have : z = 10 := by omega
          subst this
          rw [hzt, hiz] at m2 m3
          simp only [Nat.sub_self, Nat.pow_zero, Nat.div_one] at m2 m3 ⊢
          exact ⟨m2.symm, m3.symm⟩
        · rw [hiz, hzt] at m2 m3
          exact ⟨m2, m3⟩
      rw [ha.1, ha.2]
      exact ⟨Nat.div_le_div_right h1, Nat.div_le_div_right h2, Nat.div_le_div_right h3, Nat.div_le_div_right h4⟩
  · rename_i hz
    have hz' : 10 < z := by
      have : ¬ z ≤ 10 := hz
      omega
    rw [show kTileDefaultIndexZoomLvl = 10 from rfl, mem_geoTileRange]
    refine and_congr_right fun hzt => ?_
    have hd : 0 < 2 ^ (z - 10) := Nat.pow_pos (by decide)
    have key : ∀ a b c : Nat, (a * 2 ^ (z - 10) ≤ c ∧ c ≤ (b + 1) * 2 ^ (z - 10) - 1) ↔ (a ≤ c / 2 ^ (z - 10) ∧ c / 2 ^ (z - 10) ≤ b) := by
      intro a b c
      rw [Nat.le_div_iff_mul_le hd, ← Nat.lt_succ_iff (m := c / 2 ^ (z - 10)), Nat.div_lt_iff_lt_mul hd]
      have : 0 < (b + 1) * 2 ^ (z - 10) := Nat.mul_pos (by omega) hd
      have e : b.succ = b + 1 := rfl
      rw [e]
      omega
    constructor
    · rintro ⟨h1, h2, h3, h4⟩
      have hX := (key _ _ _).1 ⟨h1, h2⟩
      have hY := (key _ _ _).1 ⟨h3, h4⟩
      refine ⟨⟨t.x / 2 ^ (z - 10), t.y / 2 ^ (z - 10), 10⟩, rfl, hX.1, hX.2, hY.1, hY.2, .inl ⟨?_, ?_, ?_⟩⟩
      · show 10 ≤ t.z; omega
      · rw [hzt]
      · rw [hzt]
    · rintro ⟨i, hiz, h1, h2, h3, h4, hm⟩
      have ha : i.x = t.x / 2 ^ (z - 10) ∧ i.y = t.y / 2 ^ (z - 10) := by
        rcases hm with ⟨m1, m2, m3⟩ | ⟨m1, m2, m3⟩
        · rw [hzt, hiz] at m2 m3
          exact ⟨m2, m3⟩
        · omega
      rw [ha.1] at h1 h2
      rw [ha.2] at h3 h4
      have hX := (key _ _ _).2 ⟨h1, h2⟩
      have hY := (key _ _ _).2 ⟨h3, h4⟩
      exact ⟨hX.1, hX.2, hY.1, hY.2⟩

theorem nodup_tileRangeOnZ (b : BaseRange) (z : Nat) : (tileRangeOnZ b z).Nodup := by
  unfold tileRangeOnZ; split <;> exact nodup_geoTileRange ..

theorem tileRangeOnZ_ne (b : BaseRange) (hx : b.minx ≤ b.maxx) (hy : b.miny ≤ b.maxy) (z : Nat) : tileRangeOnZ b z ≠ [] := by
  have : ∃ t, t ∈ tileRangeOnZ b z := by
    by_cases hz : z ≤ 10
    · refine ⟨⟨b.minx / 2 ^ (10 - z), b.miny / 2 ^ (10 - z), z⟩, ?_⟩
      rw [mem_tileRangeOnZ b hx hy]
      exact ⟨rfl, ⟨b.minx, b.miny, 10⟩, rfl, Nat.le_refl _, hx, Nat.le_refl _, hy, .inr ⟨hz, rfl, rfl⟩⟩
    · refine ⟨⟨b.minx * 2 ^ (z - 10), b.miny * 2 ^ (z - 10), z⟩, ?_⟩
      rw [mem_tileRangeOnZ b hx hy]
      refine ⟨rfl, ⟨b.minx, b.miny, 10⟩, rfl, Nat.le_refl _, hx, Nat.le_refl _, hy, .inl ⟨by show 10 ≤ z; omega, ?_, ?_⟩⟩
      · exact (Nat.mul_div_cancel _ (Nat.pow_pos (by decide))).symm
      · exact (Nat.mul_div_cancel _ (Nat.pow_pos (by decide))).symm
  rintro h
  rw [h] at this
  simp at this

/-! ### the list of all tiles -/

/-- the tiles of the zoom levels `z .. maxZ` -/
def tilesFrom (b : BaseRange) (z maxZ : Nat) : List Tile := (List.range' z (maxZ + 1 - z)).flatMap (tileRangeOnZ b)

theorem mem_tilesFrom {b : BaseRange} (hx : b.minx ≤ b.maxx) (hy : b.miny ≤ b.maxy) {maxZ : Nat} {t : Tile} :
    t ∈ tilesFrom b 0 maxZ ↔ t.z ≤ maxZ ∧ InArea b t := by
  simp only [tilesFrom, List.mem_flatMap, mem_tileRangeOnZ b hx hy, List.mem_range'_1]
  constructor
  · rintro ⟨z, h1, rfl, h2⟩; exact ⟨by omega, h2⟩
  · rintro ⟨h1, h2⟩; exact ⟨t.z, by omega, rfl, h2⟩

theorem nodup_tilesFrom (b : BaseRange) (hx : b.minx ≤ b.maxx) (hy : b.miny ≤ b.maxy) (z maxZ : Nat) : (tilesFrom b z maxZ).Nodup := by
  unfold tilesFrom
  rw [List.nodup_flatMap]
  refine ⟨fun z _ => nodup_tileRangeOnZ b z, (List.nodup_range' (s := z) (n := maxZ + 1 - z)).imp ?_⟩
  intro a c hac
  simp only [Function.onFun, List.disjoint_left]
  intro t h1 h2
  rw [mem_tileRangeOnZ b hx hy] at h1 h2
  exact hac (h1.1.symm.trans h2.1)

/-- what the manager has still to hand out -/
def PrepMgr.left (m : PrepMgr) : List Tile := if m.curZ > m.maxZ then [] else m.rest ++ tilesFrom m.base (m.curZ + 1) m.maxZ

def PrepMgr.Ok (b : BaseRange) (maxZ : Nat) (m : PrepMgr) : Prop :=
  m.base = b ∧ m.maxZ = maxZ ∧ (m.curZ ≤ m.maxZ → m.rest ≠ [])

theorem batchLoop_spec {b : BaseRange} (hx : b.minx ≤ b.maxx) (hy : b.miny ≤ b.maxy) {maxZ : Nat} (n : Nat) (m : PrepMgr)
    (hm : m.Ok b maxZ) : ∃ ts m', PrepMgr.batchLoop n m = .ok (ts, m') ∧ m'.Ok b maxZ ∧ ts ++ m'.left = m.left ∧
      (0 < n → ts = [] → m.left = []) := by
  induction n generalizing m with
  | zero => exact ⟨[], m, rfl, hm, rfl, by simp⟩
  | succ n ih =>
    obtain ⟨hb, hz, hr⟩ := hm
    unfold PrepMgr.batchLoop
    by_cases hc : m.curZ > m.maxZ
    · rw [if_pos hc]
      exact ⟨[], m, rfl, ⟨hb, hz, hr⟩, rfl, fun _ _ => by rw [PrepMgr.left, if_pos hc]⟩
    · rw [if_neg hc]
      cases hrest : m.rest with
      | nil => exact absurd hrest (hr (by omega))
      | cons t r =>
        dsimp only
        have hleft : ∃ m1 : PrepMgr, m1 = (if r = [] then { m with curZ := m.curZ + 1, rest := tileRangeOnZ m.base (m.curZ + 1) } else { m with rest := r }) ∧
            m1.Ok b maxZ ∧ t :: m1.left = m.left := by
          refine ⟨_, rfl, ?_, ?_⟩
          · split
            · exact ⟨hb, hz, fun _ => by rw [hb]; exact tileRangeOnZ_ne b hx hy _⟩
            · rename_i hne
              exact ⟨hb, hz, fun _ => hne⟩
          · rw [PrepMgr.left, PrepMgr.left, if_neg hc, hrest]
            split
            · rename_i he
              subst he
              dsimp only
              by_cases hl : m.curZ + 1 > m.maxZ
              · rw [if_pos hl, tilesFrom, show m.maxZ + 1 - (m.curZ + 1) = 0 by omega]; rfl
              · rw [if_neg hl]
                conv => rhs; rw [tilesFrom, show m.maxZ + 1 - (m.curZ + 1) = (m.maxZ + 1 - (m.curZ + 1 + 1)) + 1 by omega, List.range'_succ, List.flatMap_cons]
                rfl
            · rename_i hne
              rfl
        obtain ⟨m1, e1, ok1, l1⟩ := hleft
        rw [← e1]
        obtain ⟨ts, m', h1, h2, h3, _⟩ := ih m1 ok1
        rw [h1, Res.ok_bind]
        exact ⟨t :: ts, m', rfl, h2, by rw [← l1, ← h3]; rfl, fun _ h => by cases h⟩

theorem getBatch_spec {b : BaseRange} (hx : b.minx ≤ b.maxx) (hy : b.miny ≤ b.maxy) {maxZ : Nat} (m : PrepMgr)
    (hm : m.Ok b maxZ) : ∃ ts m', m.getBatch = .ok (ts, m') ∧ m'.Ok b maxZ ∧ ts ++ m'.left = m.left ∧ (ts = [] → m.left = []) := by
  obtain ⟨ts, m', h1, h2, h3, h4⟩ := batchLoop_spec hx hy (2 ^ 9 / 2 ^ (9 - m.curZ)) m hm
  refine ⟨ts, m', h1, h2, h3, h4 ?_⟩
  apply Nat.div_pos
  · exact Nat.pow_le_pow_right (by decide) (by omega)
  · exact Nat.pow_pos (by decide)

/-! ### the tiles table -/

/-- every tile of `l` with a rendered result has it in the table; keys of no such tile have the old value -/
def TableOk (render : Tile → Res (Option Bytes)) (old tiles : UInt64 → Option Bytes) (l : List Tile) : Prop :=
  (∀ t ∈ l, ∀ v k, render t = .ok (some v) → keyOfTile t = .ok k → tiles k = some v) ∧
  (∀ k, (∀ t ∈ l, keyOfTile t = .ok k → ∀ v, render t ≠ .ok (some v)) → tiles k = old k)

/-- the tile's coordinates fit into a key -/
def Spec.KeyFits (t : Tile) : Prop := t.x < 2 ^ 21 ∧ t.y < 2 ^ 21 ∧ t.z < 2 ^ 5

theorem keyOfTile_ok {t : Tile} (h : KeyFits t) : ∃ k, keyOfTile t = .ok k ∧ k.toNat = keyNat t.x t.y t.z 0 :=
  tileToKey_nat h.1 h.2.1 h.2.2

theorem keyOfTile_inj {t u : Tile} {k : UInt64} (ht : KeyFits t) (hu : KeyFits u) (h1 : keyOfTile t = .ok k) (h2 : keyOfTile u = .ok k) : t = u := by
  obtain ⟨k1, e1, n1⟩ := keyOfTile_ok ht
  obtain ⟨k2, e2, n2⟩ := keyOfTile_ok hu
  rw [h1] at e1; rw [h2] at e2
  injection e1 with e1; injection e2 with e2
  subst e1; subst e2
  rw [n1] at n2
  obtain ⟨a1, a2, a3⟩ := ht
  obtain ⟨b1, b2, b3⟩ := hu
  obtain ⟨x, y, z⟩ := t
  obtain ⟨x', y', z'⟩ := u
  simp only [keyNat] at *
  simp only [Tile.mk.injEq]
  omega

theorem putTiles_spec {render : Tile → Res (Option Bytes)} {old : UInt64 → Option Bytes} (done : List (Tile × Option Bytes))
    (hfit : ∀ e ∈ done, KeyFits e.1) (hr : ∀ e ∈ done, render e.1 = .ok e.2) (tiles : UInt64 → Option Bytes) (l : List Tile)
    (hl : ∀ t ∈ l, KeyFits t) (ht : TableOk render old tiles l) :
    ∃ tb, putTiles tiles done = .ok tb ∧ TableOk render old tb (l ++ done.map (·.1)) := by
  induction done generalizing tiles l with
  | nil => exact ⟨tiles, rfl, by simpa using ht⟩
  | cons e done ih =>
    obtain ⟨t, r⟩ := e
    have hft : KeyFits t := hfit (t, r) (by simp)
    have hrt : render t = .ok r := hr (t, r) (by simp)
    have hfit' : ∀ e ∈ done, KeyFits e.1 := fun e he => hfit e (by simp [he])
    have hr' : ∀ e ∈ done, render e.1 = .ok e.2 := fun e he => hr e (by simp [he])
    have hl' : ∀ u ∈ l ++ [t], KeyFits u := by
      intro u hu
      rcases List.mem_append.1 hu with hu | hu
      · exact hl u hu
      · rw [List.mem_singleton.1 hu]; exact hft
    have key : ∀ tiles', TableOk render old tiles' (l ++ [t]) → ∃ tb, putTiles tiles' done = .ok tb ∧ TableOk render old tb (l ++ t :: done.map (·.1)) := by
      intro tiles' h
      obtain ⟨tb, h1, h2⟩ := ih hfit' hr' tiles' (l ++ [t]) hl' h
      exact ⟨tb, h1, by simpa using h2⟩
    cases r with
    | none =>
      rw [putTiles]
      refine key tiles ⟨?_, ?_⟩
      · intro u hu v k hv hk
        rcases List.mem_append.1 hu with hu | hu
        · exact ht.1 u hu v k hv hk
        · rw [List.mem_singleton.1 hu, hrt] at hv; cases hv
      · intro k hk
        exact ht.2 k (fun u hu => hk u (by simp [hu]))
    | some v =>
      obtain ⟨k, hk, _⟩ := keyOfTile_ok hft
      rw [putTiles, hk, Res.ok_bind]
      refine key _ ⟨?_, ?_⟩
      · intro u hu w k' hw hk'
        by_cases hut : u = t
        · subst hut
          rw [hrt] at hw; injection hw with hw; injection hw with hw; subst hw
          rw [hk] at hk'; injection hk' with hk'; subst hk'
          simp
        · have hu' : u ∈ l := by
            rcases List.mem_append.1 hu with hu | hu
            · exact hu
            · exact absurd (List.mem_singleton.1 hu) hut
          have hne : k' ≠ k := by
            rintro rfl
            exact hut (keyOfTile_inj (hl u hu') hft hk' hk)
          show (if k' = k then some v else tiles k') = some w
          rw [if_neg hne]
          exact ht.1 u hu' w k' hw hk'
      · intro k' hk'
        have hne : k' ≠ k := by
          rintro rfl
          exact hk' t (by simp) hk v hrt
        show (if k' = k then some v else tiles k') = old k'
        rw [if_neg hne]
        exact ht.2 k' (fun u hu => hk' u (by simp [hu]))

/-! ### the invariant -/

/-- tiles a worker is busy with -/
def PrepPc.tiles : PrepPc → List Tile
  | .render todo done => todo ++ done.map (·.1)
  | .store done => done.map (·.1)
  | _ => []

/-- a worker that has not returned -/
def PrepPc.active : PrepPc → Bool
  | .fetch | .render _ _ | .store _ => true
  | _ => false

/-- results a worker holds were rendered -/
def PrepPc.Rendered (render : Tile → Res (Option Bytes)) : PrepPc → Prop
  | .render _ done => ∀ e ∈ done, render e.1 = .ok e.2
  | .store done => ∀ e ∈ done, render e.1 = .ok e.2
  | _ => True

structure PrepInv (render : Tile → Res (Option Bytes)) (b : BaseRange) (maxZ : Nat) (old : UInt64 → Option Bytes) (oldMax : Option Nat)
    (s : PrepShared) (ps : List PrepPc) : Prop where
  mgr : s.mgr.Ok b maxZ
  all : s.handed ++ s.mgr.left = tilesFrom b 0 maxZ
  table : TableOk render old s.tiles s.stored
  stored : ∀ t ∈ s.stored, t ∈ s.handed
  meta_ : PrepPc.finished ∉ ps → s.maxPrepared = oldMax
  aborted : s.aborted = true → PrepPc.finished ∉ ps
  perm : s.aborted = false → s.handed.Perm (s.stored ++ ps.flatMap PrepPc.tiles)
  running : s.aborted = false → s.running = ps.countP PrepPc.active
  stop : s.aborted = false → PrepPc.stop ∈ ps → s.mgr.left = []
  fin : PrepPc.finished ∈ ps → s.running = 0 ∧ s.maxPrepared = some maxZ
  rendered : ∀ p ∈ ps, p.Rendered render

theorem prepInv_step {render : Tile → Res (Option Bytes)} {b : BaseRange} (hx : b.minx ≤ b.maxx) (hy : b.miny ≤ b.maxy) {maxZ : Nat}
    (hfit : ∀ t ∈ tilesFrom b 0 maxZ, KeyFits t) {old : UInt64 → Option Bytes} {oldMax : Option Nat}
    {s t : PrepShared × List PrepPc} (h : PrepInv render b maxZ old oldMax s.1 s.2) (st : ThreadStep (prepStep render) s t) :
    PrepInv render b maxZ old oldMax t.1 t.2 := by
  obtain ⟨s, s', x, y, p, p', hp⟩ := st
  dsimp only at h ⊢
  rw [prepStep.eq_def] at hp
  cases hab : s.aborted with
  | true => rw [hab] at hp; cases hp
  | false =>
  simp only [hab, Bool.false_eq_true, if_false] at hp
  have hrun := h.running hab
  have hperm := h.perm hab
  simp only [List.countP_append, List.countP_cons, List.flatMap_append, List.flatMap_cons] at hrun hperm
  have hmemne : ∀ q, q ≠ p → (q ∈ x ++ p :: y ↔ q ∈ x ++ y) := by
    intro q hq; simp [hq]
  have hren : ∀ q ∈ x ++ y, q.Rendered render := fun q hq => h.rendered q (by
    simp only [List.mem_append, List.mem_cons] at hq ⊢; tauto)
  have hrenp : p.Rendered render := h.rendered p (by simp)
  have hren' : p'.Rendered render → ∀ q ∈ x ++ p' :: y, q.Rendered render := by
    intro hp' q hq
    simp only [List.mem_append, List.mem_cons] at hq
    rcases hq with hq | rfl | hq
    · exact hren q (by simp [hq])
    · exact hp'
    · exact hren q (by simp [hq])
  -- an active worker excludes a finished main thread
  have hnofin : p.active = true → PrepPc.finished ∉ x ++ p :: y := by
    intro ha hf
    have := (h.fin hf).1
    rw [hrun] at this
    simp [ha] at this
  cases p with
  | stop => cases hp
  | finished => cases hp
  | join =>
    dsimp only at hp
    split at hp
    · rename_i hr0
      injection hp with hp; injection hp with e1 e2; subst e1; subst e2
      refine ⟨h.mgr, h.all, h.table, h.stored, ?_, ?_, ?_, ?_, ?_, ?_, hren' trivial⟩
      · intro hc; simp at hc
      · intro hc; cases hc
      · intro _; simpa [PrepPc.tiles] using hperm
      · intro _; simp only [List.countP_append, List.countP_cons]; simpa [PrepPc.active] using hrun
      · intro _ hs
        refine h.stop hab ?_
        rw [hmemne _ (by simp)]
        simp only [List.mem_append, List.mem_cons] at hs ⊢
        rcases hs with hs | hs | hs
        · exact .inl hs
        · cases hs
        · exact .inr hs
      · intro _; exact ⟨hr0, by show some s.mgr.maxZ = _; rw [h.mgr.2.1]⟩
    · cases hp
  | fetch =>
    have hnf := hnofin rfl
    obtain ⟨ts, m', hb, hok, hl, he⟩ := getBatch_spec hx hy s.mgr h.mgr
    dsimp only at hp
    rw [hb] at hp
    cases ts with
    | nil =>
      dsimp only at hp
      injection hp with hp; injection hp with e1 e2; subst e1; subst e2
      have hnil := he rfl
      have hnil' : m'.left = [] := by rw [List.nil_append] at hl; rw [hl, hnil]
      refine ⟨hok, by show s.handed ++ m'.left = _; rw [← h.all, hnil, hnil'], h.table, h.stored, ?_, ?_, ?_, ?_, ?_, ?_, hren' trivial⟩
      · intro _; exact h.meta_ hnf
      · intro hc; cases hc
      · intro _; simpa [PrepPc.tiles] using hperm
      · intro _
        show s.running - 1 = _
        simp only [PrepPc.active, if_true] at hrun
        simp only [List.countP_append, List.countP_cons, PrepPc.active, Bool.false_eq_true, if_false]
        omega
      · intro _ _; exact hnil'
      · intro hf
        have : PrepPc.finished ∈ x ++ y := by simpa using hf
        exact absurd (by simp only [List.mem_append, List.mem_cons] at this ⊢; tauto) hnf
    | cons u us =>
      dsimp only at hp
      injection hp with hp; injection hp with e1 e2; subst e1; subst e2
      refine ⟨hok, ?_, h.table, ?_, ?_, ?_, ?_, ?_, ?_, ?_, hren' (by intro e he; cases he)⟩
      · show (s.handed ++ u :: us) ++ m'.left = _
        rw [List.append_assoc, hl, h.all]
      · intro t ht
        exact List.mem_append.2 (.inl (h.stored t ht))
      · intro _; exact h.meta_ hnf
      · intro hc; cases hc
      · intro _
        simp only [List.flatMap_append, List.flatMap_cons, PrepPc.tiles, List.map_nil, List.append_nil, List.nil_append] at hperm ⊢
        refine (hperm.append_right (u :: us)).trans ?_
        rw [List.append_assoc, List.append_assoc]
        refine List.Perm.append_left _ (List.Perm.append_left _ ?_)
        exact List.perm_append_comm
      · intro _; simp only [List.countP_append, List.countP_cons]; simpa [PrepPc.active] using hrun
      · intro _ hs
        have : PrepPc.stop ∈ x ++ y := by simpa using hs
        have h0 := h.stop hab (by simp only [List.mem_append, List.mem_cons] at this ⊢; tauto)
        rw [h0] at hl
        simp at hl
      · intro hf
        have : PrepPc.finished ∈ x ++ y := by simpa using hf
        exact absurd (by simp only [List.mem_append, List.mem_cons] at this ⊢; tauto) hnf
  | render todo done =>
    have hnf := hnofin rfl
    have hnf' : ∀ q : PrepPc, q ≠ .finished → PrepPc.finished ∉ x ++ q :: y := by
      intro q hq hf
      simp only [List.mem_append, List.mem_cons] at hf hnf
      rcases hf with hf | hf | hf
      · exact hnf (.inl hf)
      · exact hq hf.symm
      · exact hnf (.inr (.inr hf))
    have hst : ∀ q : PrepPc, q ≠ .stop → PrepPc.stop ∈ x ++ q :: y → s.mgr.left = [] := by
      intro q hq hs
      refine h.stop hab ?_
      simp only [List.mem_append, List.mem_cons] at hs ⊢
      rcases hs with hs | hs | hs
      · exact .inl hs
      · exact absurd hs.symm hq
      · exact .inr (.inr hs)
    cases todo with
    | cons u us =>
      dsimp only at hp
      split at hp
      · rename_i r hr
        injection hp with hp; injection hp with e1 e2; subst e1; subst e2
        refine ⟨h.mgr, h.all, h.table, h.stored, fun _ => h.meta_ hnf, (fun _ => hnf' _ (by simp)), ?_, ?_,
          fun _ hs => hst _ (by simp) hs, fun hf => absurd hf (hnf' _ (by simp)), hren' ?_⟩
        · intro _
          refine hperm.trans ?_
          simp only [List.flatMap_append, List.flatMap_cons, PrepPc.tiles, List.map_cons]
          refine List.Perm.append_left _ (List.Perm.append_left _ (List.Perm.append_right _ ?_))
          exact (List.perm_middle (a := u) (l₁ := us)).symm
        · intro _; simp only [List.countP_append, List.countP_cons]; simpa [PrepPc.active] using hrun
        · intro e he
          rcases List.mem_cons.1 he with rfl | he
          · exact hr
          · exact hrenp e he
      · injection hp with hp; injection hp with e1 e2; subst e1; subst e2
        refine ⟨h.mgr, h.all, h.table, h.stored, fun _ => h.meta_ hnf, fun _ => hnf' _ (by simp), ?_, ?_,
          ?_, fun hf => absurd hf (hnf' _ (by simp)), hren' trivial⟩
        · intro hc; cases hc
        · intro hc; cases hc
        · intro hc; cases hc
    | nil =>
      dsimp only at hp
      injection hp with hp; injection hp with e1 e2; subst e1; subst e2
      refine ⟨h.mgr, h.all, h.table, h.stored, fun _ => h.meta_ hnf, (fun _ => hnf' _ (by simp)), ?_, ?_,
        fun _ hs => hst _ (by simp) hs, fun hf => absurd hf (hnf' _ (by simp)), hren' ?_⟩
      · intro _
        refine hperm.trans ?_
        simp only [List.flatMap_append, List.flatMap_cons, PrepPc.tiles, List.map_reverse, List.nil_append]
        refine List.Perm.append_left _ (List.Perm.append_left _ (List.Perm.append_right _ ?_))
        exact (List.reverse_perm _).symm
      · intro _; simp only [List.countP_append, List.countP_cons]; simpa [PrepPc.active] using hrun
      · intro e he
        exact hrenp e (List.mem_reverse.1 he)
  | store done =>
    have hnf := hnofin rfl
    have hnf' : ∀ q : PrepPc, q ≠ .finished → PrepPc.finished ∉ x ++ q :: y := by
      intro q hq hf
      simp only [List.mem_append, List.mem_cons] at hf hnf
      rcases hf with hf | hf | hf
      · exact hnf (.inl hf)
      · exact hq hf.symm
      · exact hnf (.inr (.inr hf))
    have hst : ∀ q : PrepPc, q ≠ .stop → PrepPc.stop ∈ x ++ q :: y → s.mgr.left = [] := by
      intro q hq hs
      refine h.stop hab ?_
      simp only [List.mem_append, List.mem_cons] at hs ⊢
      rcases hs with hs | hs | hs
      · exact .inl hs
      · exact absurd hs.symm hq
      · exact .inr (.inr hs)
    have hsub : ∀ t ∈ s.handed, KeyFits t := fun t ht => hfit t (by rw [← h.all]; simp [ht])
    have hdone : ∀ e ∈ done, e.1 ∈ s.handed := by
      intro e he
      rw [hperm.mem_iff]
      simp only [List.mem_append, PrepPc.tiles, List.mem_map]
      exact .inr (.inr (.inl ⟨e, he, rfl⟩))
    obtain ⟨tb, h1, h2⟩ := putTiles_spec (render := render) (old := old) done (fun e he => hsub _ (hdone e he)) hrenp s.tiles s.stored
      (fun t ht => hsub t (h.stored t ht)) h.table
    dsimp only at hp
    rw [h1] at hp
    dsimp only at hp
    injection hp with hp; injection hp with e1 e2; subst e1; subst e2
    refine ⟨h.mgr, h.all, h2, ?_, fun _ => h.meta_ hnf, (fun _ => hnf' _ (by simp)), ?_, ?_,
      fun _ hs => hst _ (by simp) hs, fun hf => absurd hf (hnf' _ (by simp)), hren' trivial⟩
    · intro t ht
      rcases List.mem_append.1 ht with ht | ht
      · exact h.stored t ht
      · obtain ⟨e, he, rfl⟩ := List.mem_map.1 ht
        exact hdone e he
    · intro _
      refine hperm.trans ?_
      simp only [List.flatMap_append, List.flatMap_cons, PrepPc.tiles, List.nil_append]
      rw [List.append_assoc]
      refine List.Perm.append_left _ ?_
      rw [← List.append_assoc]
      refine ((List.perm_append_comm (l₁ := x.flatMap PrepPc.tiles)).append_right _).trans ?_
      rw [List.append_assoc]
    · intro _; simp only [List.countP_append, List.countP_cons]; simpa [PrepPc.active] using hrun

theorem prepInv_init {render : Tile → Res (Option Bytes)} {b : BaseRange} (hx : b.minx ≤ b.maxx) (hy : b.miny ≤ b.maxy) (maxZ workers : Nat)
    (old : UInt64 → Option Bytes) (oldMax : Option Nat) :
    PrepInv render b maxZ old oldMax (prepInit (.init b maxZ) old oldMax workers).1 (prepInit (.init b maxZ) old oldMax workers).2 := by
  refine ⟨⟨rfl, rfl, fun _ => tileRangeOnZ_ne b hx hy 0⟩, ?_, ⟨(by intro t ht; cases ht), fun _ _ => rfl⟩, (by intro t ht; cases ht), fun _ => rfl,
    (fun h => by cases h), fun _ => ?_, fun _ => ?_, ?_, ?_, ?_⟩
  · show [] ++ PrepMgr.left _ = _
    rw [PrepMgr.left, if_neg (by simp [prepInit, PrepMgr.init])]
    show tileRangeOnZ b 0 ++ tilesFrom b 1 maxZ = _
    conv => rhs; rw [tilesFrom, Nat.sub_zero, List.range'_succ, List.flatMap_cons]
    rfl
  · have : (List.replicate workers PrepPc.fetch).flatMap PrepPc.tiles = [] := by
      rw [List.flatMap_eq_nil_iff]; intro p hp; rw [List.eq_of_mem_replicate hp]; rfl
    simp [prepInit, this, PrepPc.tiles]
  · have : (List.replicate workers PrepPc.fetch).countP PrepPc.active = workers := by
      rw [List.countP_replicate]; simp [PrepPc.active]
    simp [prepInit, this, PrepPc.active]
  · intro _ h; simp [prepInit, List.mem_replicate] at h
  · intro h; simp [prepInit, List.mem_replicate] at h
  · intro p hp
    simp only [prepInit, List.mem_cons, List.mem_replicate] at hp
    rcases hp with rfl | ⟨_, rfl⟩ <;> trivial

/-! ### the rectangle -/

theorem dbBounds_go (keys : List UInt64) (b : BaseRange) :
    let r := keys.foldl (fun b k => let t := keyToTile k
      ⟨min b.minx t.x, min b.miny t.y, max b.maxx t.x, max b.maxy t.y⟩) b
    (r.minx ≤ b.minx ∧ r.miny ≤ b.miny ∧ b.maxx ≤ r.maxx ∧ b.maxy ≤ r.maxy) ∧
    (∀ k ∈ keys, r.minx ≤ (keyToTile k).x ∧ (keyToTile k).x ≤ r.maxx ∧ r.miny ≤ (keyToTile k).y ∧ (keyToTile k).y ≤ r.maxy) ∧
    (r.minx = b.minx ∨ ∃ k ∈ keys, r.minx = (keyToTile k).x) ∧ (r.maxx = b.maxx ∨ ∃ k ∈ keys, r.maxx = (keyToTile k).x) ∧
    (r.miny = b.miny ∨ ∃ k ∈ keys, r.miny = (keyToTile k).y) ∧ (r.maxy = b.maxy ∨ ∃ k ∈ keys, r.maxy = (keyToTile k).y) := by
  induction keys generalizing b with
  | nil => simp
  | cons k ks ih =>
    dsimp only
    rw [List.foldl_cons]
    have h := ih ⟨min b.minx (keyToTile k).x, min b.miny (keyToTile k).y, max b.maxx (keyToTile k).x, max b.maxy (keyToTile k).y⟩
    dsimp only at h
    generalize ks.foldl _ _ = r at h ⊢
    obtain ⟨⟨h1, h2, h3, h4⟩, h5, h6, h7, h8, h9⟩ := h
    have key : ∀ {c d e : Nat} {g : UInt64 → Nat}, (e = min c d ∨ e = max c d ∨ ∃ k ∈ ks, e = g k) → d = g k → e = c ∨ ∃ k' ∈ k :: ks, e = g k' := by
      rintro c d e g (h | h | ⟨k', h, h'⟩) hd
      · rcases Nat.le_total c d with hcd | hcd
        · exact .inl (by rw [h, Nat.min_eq_left hcd])
        · exact .inr ⟨k, by simp, by rw [h, Nat.min_eq_right hcd, hd]⟩
      · rcases Nat.le_total c d with hcd | hcd
        · exact .inr ⟨k, by simp, by rw [h, Nat.max_eq_right hcd, hd]⟩
        · exact .inl (by rw [h, Nat.max_eq_left hcd])
      · exact .inr ⟨k', by simp [h], h'⟩
    refine ⟨by clear h6 h7 h8 h9 key h5; omega, ?_, key (g := fun k => (keyToTile k).x) (h6.imp_right .inr) rfl, key (g := fun k => (keyToTile k).x) (.inr h7) rfl,
      key (g := fun k => (keyToTile k).y) (h8.imp_right .inr) rfl, key (g := fun k => (keyToTile k).y) (.inr h9) rfl⟩
    intro k' hk'
    rcases List.mem_cons.1 hk' with rfl | hk'
    · clear h6 h7 h8 h9 key h5; omega
    · exact h5 k' hk'

/-- The rectangle is the smallest one that contains all index tiles of the database. -/
theorem C30_area (keys : List UInt64) (hne : keys ≠ []) :
    (∀ k ∈ keys, (dbBounds keys).minx ≤ (keyToTile k).x ∧ (keyToTile k).x ≤ (dbBounds keys).maxx ∧
      (dbBounds keys).miny ≤ (keyToTile k).y ∧ (keyToTile k).y ≤ (dbBounds keys).maxy) ∧
    (∃ k ∈ keys, (dbBounds keys).minx = (keyToTile k).x) ∧ (∃ k ∈ keys, (dbBounds keys).maxx = (keyToTile k).x) ∧
    (∃ k ∈ keys, (dbBounds keys).miny = (keyToTile k).y) ∧ (∃ k ∈ keys, (dbBounds keys).maxy = (keyToTile k).y) := by
  have h := dbBounds_go keys ⟨2 ^ 32 - 1, 2 ^ 32 - 1, 0, 0⟩
  dsimp only at h
  rw [show keys.foldl (fun b k => let t := keyToTile k
      (⟨min b.minx t.x, min b.miny t.y, max b.maxx t.x, max b.maxy t.y⟩ : BaseRange)) ⟨2 ^ 32 - 1, 2 ^ 32 - 1, 0, 0⟩ = dbBounds keys from rfl] at h
  obtain ⟨_, h1, h2, h3, h4, h5⟩ := h
  obtain ⟨k, ks, rfl⟩ := List.exists_cons_of_ne_nil hne
  have hk := h1 k (by simp)
  have hb : (keyToTile k).x < 2 ^ 21 ∧ (keyToTile k).y < 2 ^ 21 := by
    rw [keyToTile_nat]; dsimp only; omega
  refine ⟨h1, ?_, ?_, ?_, ?_⟩
  · rcases h2 with h2 | h2
    · omega
    · exact h2
  · rcases h3 with h3 | h3
    · exact ⟨k, by simp, by omega⟩
    · exact h3
  · rcases h4 with h4 | h4
    · omega
    · exact h4
  · rcases h5 with h5 | h5
    · exact ⟨k, by simp, by omega⟩
    · exact h5

theorem dbBounds_le {keys : List UInt64} (hne : keys ≠ []) :
    (dbBounds keys).minx ≤ (dbBounds keys).maxx ∧ (dbBounds keys).miny ≤ (dbBounds keys).maxy := by
  obtain ⟨k, ks, rfl⟩ := List.exists_cons_of_ne_nil hne
  have := (C30_area (k :: ks) hne).1 k (by simp)
  omega

/-- A database with features is accepted, one without is refused. -/
theorem C30_accepts (keys : List UInt64) (maxZ : Nat) :
    makePrepMgr keys maxZ = if keys = [] then .throw_ else .ok (.init (dbBounds keys) maxZ) := by
  split
  · rename_i h; subst h; rfl
  · rename_i hne
    obtain ⟨h1, ⟨k, hk, e1⟩, _, ⟨k', hk', e2⟩, _⟩ := C30_area keys hne
    have hb : ∀ k : UInt64, (keyToTile k).x < 2 ^ 21 ∧ (keyToTile k).y < 2 ^ 21 := by
      intro k; rw [keyToTile_nat]; dsimp only; omega
    have a1 := hb k
    have a2 := hb k'
    rw [makePrepMgr, decide_eq_true (show (dbBounds keys).minx ≠ 2 ^ 32 - 1 by omega), decide_eq_true (show (dbBounds keys).miny ≠ 2 ^ 32 - 1 by omega)]
    rfl

/-- tiles of the area have keys -/
theorem area_fits {keys : List UInt64} (hne : keys ≠ []) (hk : ∀ k ∈ keys, (keyToTile k).Valid ∧ (keyToTile k).z = 10) {maxZ : Nat} (hz : maxZ ≤ 20) :
    ∀ t ∈ tilesFrom (dbBounds keys) 0 maxZ, t.Valid ∧ KeyFits t := by
  intro t ht
  obtain ⟨hx, hy⟩ := dbBounds_le hne
  obtain ⟨htz, i, hi, h1, h2, h3, h4, hm⟩ := (mem_tilesFrom hx hy).1 ht
  obtain ⟨_, _, ⟨k, hk1, e1⟩, _, ⟨k', hk2, e2⟩⟩ := C30_area keys hne
  have v1 := hk k hk1
  have v2 := hk k' hk2
  have hiv : i.Valid := by
    obtain ⟨⟨a1, _⟩, a3⟩ := v1
    obtain ⟨⟨_, b2⟩, b3⟩ := v2
    rw [a3] at a1; rw [b3] at b2
    constructor
    · rw [hi]; omega
    · rw [hi]; omega
  have htv : t.Valid := by
    rcases hm with hm | hm
    · obtain ⟨m1, m2, m3⟩ := hm
      obtain ⟨i1, i2⟩ := hiv
      have e : 2 ^ t.z = 2 ^ i.z * 2 ^ (t.z - i.z) := by rw [← Nat.pow_add]; congr 1; omega
      have hd : 0 < 2 ^ (t.z - i.z) := Nat.pow_pos (by decide)
      constructor
      · rw [e]; exact (Nat.div_lt_iff_lt_mul hd).1 (by rw [← m2]; exact i1)
      · rw [e]; exact (Nat.div_lt_iff_lt_mul hd).1 (by rw [← m3]; exact i2)
    · exact valid_anc hm hiv
  refine ⟨htv, ?_⟩
  obtain ⟨a, b⟩ := htv
  have : 2 ^ t.z ≤ 2 ^ 20 := Nat.pow_le_pow_right (by decide) (by omega)
  exact ⟨by omega, by omega, by omega⟩

/-! ### the theorems -/

/-- the run of `prepare_tiles` on a database with the features table's keys `keys` -/
abbrev PrepRun (render : Tile → Res (Option Bytes)) (keys : List UInt64) (maxZ workers : Nat) (old : UInt64 → Option Bytes) (oldMax : Option Nat)
    (s : PrepShared × List PrepPc) : Prop :=
  ∃ m, makePrepMgr keys maxZ = .ok m ∧ Reach (ThreadStep (prepStep render)) (prepInit m old oldMax workers) s

theorem prepInv_run {render : Tile → Res (Option Bytes)} {keys : List UInt64} (hk : ∀ k ∈ keys, (keyToTile k).Valid ∧ (keyToTile k).z = 10)
    {maxZ workers : Nat} (hz : maxZ ≤ 20) {old : UInt64 → Option Bytes} {oldMax : Option Nat} {s : PrepShared × List PrepPc}
    (h : PrepRun render keys maxZ workers old oldMax s) : keys ≠ [] ∧ PrepInv render (dbBounds keys) maxZ old oldMax s.1 s.2 := by
  obtain ⟨m, hm, h⟩ := h
  rw [C30_accepts] at hm
  split at hm
  · cases hm
  rename_i hne
  injection hm with hm
  subst hm
  obtain ⟨hx, hy⟩ := dbBounds_le hne
  refine ⟨hne, ?_⟩
  induction h with
  | refl => exact prepInv_init hx hy maxZ workers old oldMax
  | step _ st ih => exact prepInv_step hx hy (fun t ht => (area_fits hne hk hz t ht).2) ih st

/-- At every moment of every run, the tiles handed out are different tiles of the indexed area with zoom level at most `maxZ`; they
are a beginning of one fixed list. -/
theorem C30_handed_out (render : Tile → Res (Option Bytes)) (keys : List UInt64) (hk : ∀ k ∈ keys, (keyToTile k).Valid ∧ (keyToTile k).z = 10)
    (maxZ workers : Nat) (hz : maxZ ≤ 20) (old : UInt64 → Option Bytes) (oldMax : Option Nat) (s : PrepShared × List PrepPc)
    (h : PrepRun render keys maxZ workers old oldMax s) :
    s.1.handed.Nodup ∧ ∀ t ∈ s.1.handed, t.z ≤ maxZ ∧ InArea (dbBounds keys) t := by
  obtain ⟨hne, hi⟩ := prepInv_run hk hz h
  obtain ⟨hx, hy⟩ := dbBounds_le hne
  have hn := nodup_tilesFrom (dbBounds keys) hx hy 0 maxZ
  rw [← hi.all] at hn
  refine ⟨(List.nodup_append.1 hn).1, fun t ht => (mem_tilesFrom hx hy).1 ?_⟩
  rw [← hi.all]; simp [ht]

/-- When the run has ended (with at least one worker), every tile of the area up to zoom level `maxZ` was handed out, once, and no other;
each one with a rendered result is stored with exactly this result, all other keys of the table are as before; and only now the highest
prepared zoom level is `maxZ`. -/
theorem C30_complete (render : Tile → Res (Option Bytes)) (keys : List UInt64) (hk : ∀ k ∈ keys, (keyToTile k).Valid ∧ (keyToTile k).z = 10)
    (maxZ workers : Nat) (hz : maxZ ≤ 20) (hw : 0 < workers) (old : UInt64 → Option Bytes) (oldMax : Option Nat) (s : PrepShared × List PrepPc)
    (h : PrepRun render keys maxZ workers old oldMax s) (hfin : PrepPc.finished ∈ s.2) :
    s.1.handed.Nodup ∧ (∀ t, t ∈ s.1.handed ↔ t.z ≤ maxZ ∧ InArea (dbBounds keys) t) ∧ s.1.maxPrepared = some maxZ ∧
    (∀ t v k, t.z ≤ maxZ → InArea (dbBounds keys) t → render t = .ok (some v) → keyOfTile t = .ok k → s.1.tiles k = some v) ∧
    (∀ k, (∀ t, t.z ≤ maxZ → InArea (dbBounds keys) t → keyOfTile t = .ok k → ∀ v, render t ≠ .ok (some v)) → s.1.tiles k = old k) := by
  obtain ⟨hne, hi⟩ := prepInv_run hk hz h
  obtain ⟨hx, hy⟩ := dbBounds_le hne
  obtain ⟨hr, hmax⟩ := hi.fin hfin
  have hab : s.1.aborted = false := by
    cases hc : s.1.aborted with
    | false => rfl
    | true => exact absurd hfin (hi.aborted hc)
  have hcount := hi.running hab
  rw [hr] at hcount
  -- there is a worker, and it has stopped
  have hlen : ∀ s, Reach (ThreadStep (prepStep render)) (prepInit (.init (dbBounds keys) maxZ) old oldMax workers) s →
      s.2.length = workers + 1 ∧ s.2.countP (fun p => p = .join ∨ p = .finished) = 1 := by
    intro s hs
    induction hs with
    | refl => simp [prepInit, List.countP_cons, List.countP_replicate]
    | step _ st ih =>
      obtain ⟨s, s', x, y, p, p', hp⟩ := st
      simp only [List.length_append, List.length_cons, List.countP_append, List.countP_cons] at ih ⊢
      refine ⟨ih.1, ?_⟩
      have : (decide (p' = .join ∨ p' = .finished)) = decide (p = .join ∨ p = .finished) := by
        rw [prepStep.eq_def] at hp
        split at hp
        · cases hp
        · split at hp
          · split at hp <;> (injection hp with hp; injection hp with _ e; subst e; rfl)
          · split at hp <;> (injection hp with hp; injection hp with _ e; subst e; rfl)
          · injection hp with hp; injection hp with _ e; subst e; rfl
          · split at hp <;> (injection hp with hp; injection hp with _ e; subst e; rfl)
          · cases hp
          · split at hp
            · injection hp with hp; injection hp with _ e; subst e; rfl
            · cases hp
          · cases hp
      rw [this]
      exact ih.2
  obtain ⟨m, hm, hreach⟩ := h
  rw [C30_accepts, if_neg hne] at hm
  injection hm with hm
  subst hm
  obtain ⟨l1, l2⟩ := hlen s hreach
  have hstop : PrepPc.stop ∈ s.2 := by
    by_contra hns
    have key : ∀ l : List PrepPc, PrepPc.stop ∉ l → l.length = l.countP PrepPc.active + l.countP (fun p => p = .join ∨ p = .finished) := by
      intro l hl
      induction l with
      | nil => rfl
      | cons p l ih =>
        simp only [List.mem_cons, not_or] at hl
        rw [List.length_cons, List.countP_cons, List.countP_cons, ih hl.2]
        cases p with
        | stop => exact absurd rfl hl.1
        | _ => simp [PrepPc.active]; try omega
    have := key s.2 hns
    omega
  have hleft := hi.stop hab hstop
  have hall := hi.all
  rw [hleft, List.append_nil] at hall
  have hact : ∀ p ∈ s.2, p.active = false := by
    intro p hp
    have := List.countP_eq_zero.1 hcount.symm p hp
    simpa using this
  have hpend : s.2.flatMap PrepPc.tiles = [] := by
    rw [List.flatMap_eq_nil_iff]
    intro p hp
    have := hact p hp
    cases p <;> first | rfl | simp [PrepPc.active] at this
  have hperm := hi.perm hab
  rw [hpend, List.append_nil] at hperm
  have hmem : ∀ t, t ∈ s.1.stored ↔ t.z ≤ maxZ ∧ InArea (dbBounds keys) t := by
    intro t
    rw [← hperm.mem_iff, hall, mem_tilesFrom hx hy]
  refine ⟨by rw [hall]; exact nodup_tilesFrom _ hx hy 0 maxZ, fun t => by rw [hall, mem_tilesFrom hx hy], hmax, ?_, ?_⟩
  · intro t v k h1 h2 h3 h4
    exact hi.table.1 t ((hmem t).2 ⟨h1, h2⟩) v k h3 h4
  · intro k hk'
    exact hi.table.2 k (fun t ht => hk' t ((hmem t).1 ht).1 ((hmem t).1 ht).2)

/-- Stopped anywhere before its end, the run leaves the highest prepared zoom level untouched, and the table holds only old entries and
entries rendered in this run. -/
theorem C30_interrupted (render : Tile → Res (Option Bytes)) (keys : List UInt64) (hk : ∀ k ∈ keys, (keyToTile k).Valid ∧ (keyToTile k).z = 10)
    (maxZ workers : Nat) (hz : maxZ ≤ 20) (old : UInt64 → Option Bytes) (oldMax : Option Nat) (s : PrepShared × List PrepPc)
    (h : PrepRun render keys maxZ workers old oldMax s) :
    (PrepPc.finished ∉ s.2 → s.1.maxPrepared = oldMax) ∧
    ∀ k, s.1.tiles k = old k ∨ ∃ t v, t.z ≤ maxZ ∧ InArea (dbBounds keys) t ∧ keyOfTile t = .ok k ∧ render t = .ok (some v) ∧ s.1.tiles k = some v := by
  obtain ⟨hne, hi⟩ := prepInv_run hk hz h
  refine ⟨hi.meta_, fun k => ?_⟩
  by_cases hc : ∃ t ∈ s.1.stored, keyOfTile t = .ok k ∧ ∃ v, render t = .ok (some v)
  · obtain ⟨t, ht, hkt, v, hv⟩ := hc
    obtain ⟨_, h2⟩ := C30_handed_out render keys hk maxZ workers hz old oldMax s h
    have := h2 t (hi.stored t ht)
    exact .inr ⟨t, v, this.1, this.2, hkt, hv, hi.table.1 t ht v k hv hkt⟩
  · refine .inl (hi.table.2 k ?_)
    intro t ht hkt v hv
    exact hc ⟨t, ht, hkt, v, hv⟩

/-- how much a thread has still to do -/
def PrepPc.weight : PrepPc → Nat
  | .fetch => 1
  | .render todo _ => todo.length + 3
  | .store _ => 2
  | .stop => 0
  | .join => 1
  | .finished => 0

def prepWeight (s : PrepShared × List PrepPc) : Nat := 4 * s.1.mgr.left.length + (s.2.map PrepPc.weight).sum

theorem prepWeight_step {render : Tile → Res (Option Bytes)} {b : BaseRange} (hx : b.minx ≤ b.maxx) (hy : b.miny ≤ b.maxy) {maxZ : Nat}
    {s t : PrepShared × List PrepPc} (h : s.1.mgr.Ok b maxZ) (st : ThreadStep (prepStep render) s t) : prepWeight t < prepWeight s := by
  obtain ⟨s, s', x, y, p, p', hp⟩ := st
  simp only [prepWeight, List.map_append, List.map_cons, List.sum_append, List.sum_cons]
  dsimp only at h
  suffices hh : 4 * s'.mgr.left.length + p'.weight < 4 * s.mgr.left.length + p.weight by omega
  rw [prepStep.eq_def] at hp
  split at hp
  · cases hp
  · split at hp
    · obtain ⟨ts, m', hb, hok, hl, he⟩ := getBatch_spec hx hy s.mgr h
      rw [hb] at hp
      have hlen := congrArg List.length hl
      rw [List.length_append] at hlen
      cases ts with
      | nil =>
        injection hp with hp; injection hp with e1 e2; subst e1; subst e2
        simp only [List.length_nil] at hlen
        simp only [PrepPc.weight]; omega
      | cons u us =>
        injection hp with hp; injection hp with e1 e2; subst e1; subst e2
        simp only [List.length_cons] at hlen
        simp only [PrepPc.weight, List.length_cons]; omega
    · split at hp <;> (injection hp with hp; injection hp with e1 e2; subst e1; subst e2; simp only [PrepPc.weight, List.length_cons]; omega)
    · injection hp with hp; injection hp with e1 e2; subst e1; subst e2; simp only [PrepPc.weight, List.length_nil]; omega
    · split at hp <;> (injection hp with hp; injection hp with e1 e2; subst e1; subst e2; simp only [PrepPc.weight]; omega)
    · cases hp
    · split at hp
      · injection hp with hp; injection hp with e1 e2; subst e1; subst e2; simp only [PrepPc.weight]; omega
      · cases hp
    · cases hp

/-- Every run ends: there is no infinite run; and where rendering does not fail on the area, a run that cannot be continued has ended
properly. -/
theorem C30_terminates (render : Tile → Res (Option Bytes)) (keys : List UInt64) (hk : ∀ k ∈ keys, (keyToTile k).Valid ∧ (keyToTile k).z = 10)
    (maxZ workers : Nat) (hz : maxZ ≤ 20) (old : UInt64 → Option Bytes) (oldMax : Option Nat) :
    (¬ ∃ run : Nat → PrepShared × List PrepPc, PrepRun render keys maxZ workers old oldMax (run 0) ∧ ∀ n, ThreadStep (prepStep render) (run n) (run (n + 1))) ∧
    ((∀ t, t.z ≤ maxZ → InArea (dbBounds keys) t → ∃ r, render t = .ok r) →
      ∀ s, PrepRun render keys maxZ workers old oldMax s → (¬ ∃ t, ThreadStep (prepStep render) s t) → PrepPc.finished ∈ s.2) := by
  constructor
  · rintro ⟨run, h0, hstep⟩
    have hrun : ∀ n, PrepRun render keys maxZ workers old oldMax (run n) := by
      intro n
      induction n with
      | zero => exact h0
      | succ n ih =>
        obtain ⟨m, hm, hr⟩ := ih
        exact ⟨m, hm, .step hr (hstep n)⟩
    have hdec : ∀ n, prepWeight (run n) + n ≤ prepWeight (run 0) := by
      intro n
      induction n with
      | zero => exact Nat.le_refl _
      | succ n ih =>
        obtain ⟨hne, hi⟩ := prepInv_run hk hz (hrun n)
        obtain ⟨hx, hy⟩ := dbBounds_le hne
        have := prepWeight_step hx hy hi.mgr (hstep n)
        omega
    have := hdec (prepWeight (run 0) + 1)
    omega
  · intro hren s h hstuck
    obtain ⟨hne, hi⟩ := prepInv_run hk hz h
    obtain ⟨hx, hy⟩ := dbBounds_le hne
    -- no failure
    have hinv : s.1.aborted = false ∧ (PrepPc.join ∈ s.2 ∨ PrepPc.finished ∈ s.2) := by
      obtain ⟨m, hm, hr⟩ := h
      rw [C30_accepts, if_neg hne] at hm
      injection hm with hm
      subst hm
      clear hi hstuck
      induction hr with
      | refl => exact ⟨rfl, .inl (by simp [prepInit])⟩
      | step hr st ih =>
        have hi := (prepInv_run (render := render) hk hz (s := _) ⟨_, by rw [C30_accepts, if_neg hne], hr⟩).2
        obtain ⟨s, s', x, y, p, p', hp⟩ := st
        obtain ⟨ha, hj⟩ := ih
        dsimp only at hi ha hj
        have hperm := hi.perm ha
        rw [prepStep.eq_def] at hp
        simp only [ha, Bool.false_eq_true, if_false] at hp
        have hkeep : p ≠ .join → p ≠ .finished → (PrepPc.join ∈ x ++ p' :: y ∨ PrepPc.finished ∈ x ++ p' :: y) := by
          intro h1 h2
          simp only [List.mem_append, List.mem_cons] at hj ⊢
          rcases hj with (hj | hj | hj) | (hj | hj | hj)
          · exact .inl (.inl hj)
          · exact absurd hj.symm h1
          · exact .inl (.inr (.inr hj))
          · exact .inr (.inl hj)
          · exact absurd hj.symm h2
          · exact .inr (.inr (.inr hj))
        cases p with
        | stop => cases hp
        | finished => cases hp
        | join =>
          dsimp only at hp
          split at hp
          · injection hp with hp; injection hp with e1 e2; subst e1; subst e2
            exact ⟨rfl, .inr (by simp)⟩
          · cases hp
        | fetch =>
          obtain ⟨ts, m', hb, -, -, -⟩ := getBatch_spec hx hy s.mgr hi.mgr
          dsimp only at hp
          rw [hb] at hp
          cases ts <;> (injection hp with hp; injection hp with e1 e2; subst e1; subst e2; exact ⟨rfl, hkeep (by simp) (by simp)⟩)
        | render todo done =>
          cases todo with
          | nil => dsimp only at hp; injection hp with hp; injection hp with e1 e2; subst e1; subst e2; exact ⟨ha, hkeep (by simp) (by simp)⟩
          | cons u us =>
            have hu : u ∈ tilesFrom (dbBounds keys) 0 maxZ := by
              rw [← hi.all, List.mem_append, hperm.mem_iff]
              simp [PrepPc.tiles]
            obtain ⟨hu1, hu2⟩ := (mem_tilesFrom hx hy).1 hu
            obtain ⟨r, hr⟩ := hren u hu1 hu2
            dsimp only at hp
            rw [hr] at hp
            injection hp with hp; injection hp with e1 e2; subst e1; subst e2
            exact ⟨ha, hkeep (by simp) (by simp)⟩
        | store done =>
          have hsub : ∀ t ∈ s.handed, KeyFits t := fun t ht => (area_fits hne hk hz t (by rw [← hi.all]; simp [ht])).2
          obtain ⟨tb, h1, _⟩ := putTiles_spec (render := render) (old := old) done (fun e he => hsub _ (by
            rw [hperm.mem_iff]
            simp only [List.flatMap_append, List.flatMap_cons, List.mem_append, PrepPc.tiles, List.mem_map]
            exact .inr (.inr (.inl ⟨e, he, rfl⟩)))) (hi.rendered (.store done) (by simp)) s.tiles s.stored
            (fun t ht => hsub t (hi.stored t ht)) hi.table
          dsimp only at hp
          rw [h1] at hp
          injection hp with hp; injection hp with e1 e2; subst e1; subst e2
          exact ⟨rfl, hkeep (by simp) (by simp)⟩
    obtain ⟨ha, hj⟩ := hinv
    rcases hj with hj | hj
    · exfalso
      obtain ⟨s, ps⟩ := s
      dsimp only at ha hj hi
      have hmove : ∀ p ∈ ps, (∃ r, prepStep render s p = some r) → False := by
        rintro p hp ⟨⟨s', p'⟩, hr⟩
        obtain ⟨x, y, rfl⟩ := List.append_of_mem hp
        exact hstuck ⟨_, .mk s s' x y p p' hr⟩
      have hact : ∀ p ∈ ps, p.active = false := by
        intro p hp
        by_contra hne'
        refine hmove p hp ?_
        rw [prepStep.eq_def]
        simp only [ha, Bool.false_eq_true, if_false]
        cases p with
        | stop => simp [PrepPc.active] at hne'
        | join => simp [PrepPc.active] at hne'
        | finished => simp [PrepPc.active] at hne'
        | fetch => dsimp only; split <;> exact ⟨_, rfl⟩
        | store d => dsimp only; split <;> exact ⟨_, rfl⟩
        | render t d =>
          cases t with
          | nil => exact ⟨_, rfl⟩
          | cons u us => dsimp only; split <;> exact ⟨_, rfl⟩
      have h0 : s.running = 0 := by
        rw [hi.running ha, List.countP_eq_zero]
        intro p hp
        simp [hact p hp]
      refine hmove .join hj ?_
      rw [prepStep.eq_def]
      simp [ha, h0]
    · exact hj

/-- On a machine where `hardware_concurrency()` returns 0 (the standard allows it) nothing is prepared, but the zoom level is recorded as
prepared. -/
theorem C30_no_workers (render : Tile → Res (Option Bytes)) (m : PrepMgr) (old : UInt64 → Option Bytes) (oldMax : Option Nat) :
    Reach (ThreadStep (prepStep render)) (prepInit m old oldMax 0) (⟨m, old, some m.maxZ, 0, false, [], []⟩, [.finished]) :=
  .step .refl (.mk _ _ [] [] PrepPc.join PrepPc.finished rfl)

/-! ### the hypotheses are met: a database with two index tiles, two workers, up to zoom level 1 -/

def C30_keys : List UInt64 := [10 * 2 ^ 59 + 1 * 2 ^ 38 + 3 * 2 ^ 17, 10 * 2 ^ 59 + 1 * 2 ^ 38 + 4 * 2 ^ 17]

example : C30_keys ≠ [] ∧ (∀ k ∈ C30_keys, (keyToTile k).Valid ∧ (keyToTile k).z = 10) := by decide +kernel

def C30_render (t : Tile) : Res (Option Bytes) := .ok (if t.x = 0 then some [UInt8.ofNat t.z] else none)

/-- a complete run in which the workers take turns -/
example : (runSched (prepStep C30_render) (prepInit (.init (dbBounds C30_keys) 1) (fun _ => none) none 2) [1, 2, 1, 2, 1, 2, 2, 1, 2, 1, 0]).map
    (fun s => (s.1.handed, s.1.maxPrepared, s.2)) =
    some ([⟨0, 0, 0⟩, ⟨0, 0, 1⟩], some 1, [.finished, .stop, .stop]) := by decide +kernel

end Tiles
