import Verif.Props.C45
import Verif.Props.C54
import Verif.Props.C65
/-!
C74 — requests for tiles that do not exist.

A tile of level z has columns and rows 0 … 2^z-1, and the levels end at 20; but the path of a request can carry any three 32-bit numbers (C35), and
`get_tile` is called with them as they are.  `TileCall.run` is `get_tile` with its statements in the order of the code (Model/GetTileSeq).
-/
namespace Tiles
open Spec

/-- the tile exists: it is a cell of the map, of one of the levels 0 to 20 -/
def Spec.TileExists (t : Tile) : Prop := t.z ≤ 20 ∧ t.x < 2 ^ t.z ∧ t.y < 2 ^ t.z

instance (t : Tile) : Decidable (TileExists t) := by unfold TileExists; infer_instance

/-- everything in the table of the prepared tiles is stored under the key of a tile that exists -/
def Spec.MapTable (tiles : UInt64 → Option Bytes) : Prop := ∀ k v, tiles k = some v → ∃ t, TileExists t ∧ keyOfTile t = .ok k

/-- The bounds of a tile are computed exactly for the tiles that exist, and refused with an exception for all others. -/
theorem C74_bounds (t : Tile) : tileSpec t = if TileExists t then .ok ⟨t, pxBounds t, insertBounds t, drawBounds t⟩ else .throw_ := by
  unfold tileSpec
  by_cases h : TileExists t
  · rw [if_pos h]
    obtain ⟨h1, h2, h3⟩ := h
    simp [kMaxZoomLevel, h1, h2, h3]
  · rw [if_neg h]
    by_cases h1 : t.z ≤ 20
    · have h2 : ¬ (t.x < 2 ^ t.z ∧ t.y < 2 ^ t.z) := fun h2 => h ⟨h1, h2⟩
      have : (decide (t.x < 2 ^ t.z) && decide (t.y < 2 ^ t.z)) = false := by
        rw [← Bool.not_eq_true, Bool.and_eq_true, decide_eq_true_eq, decide_eq_true_eq]; exact h2
      simp [kMaxZoomLevel, h1, this]
    · simp [kMaxZoomLevel, h1]

/-- the walk to the root does not arrive there -/
theorem outside_trace (fuel : Nat) (hf : fuel ≤ 22) (b : Tile) (l : List Tile)
    (h : (b.z ≤ 20 ∧ ¬ (b.x < 2 ^ b.z ∧ b.y < 2 ^ b.z)) ∨ (fuel + 100 ≤ b.z ∧ b.z < 2 ^ 32)) : bqTrace fuel (b :: l) = .throw_ := by
  induction fuel generalizing b l with
  | zero =>
    rw [bqTrace, if_neg]
    intro hr
    rw [Tile.parent, Tile.root, Tile.mk.injEq] at hr
    obtain ⟨hx, hy, hz⟩ := hr
    rcases h with ⟨h1, h2⟩ | ⟨h1, h2⟩
    · have : b.z = 1 := by omega
      rw [this] at h2
      omega
    · omega
  | succ n ih =>
    rw [bqTrace, if_neg]
    · refine ih (by omega) _ _ ?_
      rcases h with ⟨h1, h2⟩ | ⟨h1, h2⟩
      · by_cases hz : b.z = 0
        · right
          simp only [Tile.parent, hz]
          omega
        · left
          have hz' : b.z = (b.z - 1) + 1 := by omega
          have e : (b.z + (2 ^ 32 - 1)) % 2 ^ 32 = b.z - 1 := by omega
          simp only [Tile.parent, e]
          refine ⟨by omega, fun h3 => h2 ?_⟩
          rw [hz', pow_succ]
          omega
      · right
        simp only [Tile.parent]
        omega
    · intro hr
      rw [Tile.parent, Tile.root, Tile.mk.injEq] at hr
      obtain ⟨hx, hy, hz⟩ := hr
      rcases h with ⟨h1, h2⟩ | ⟨h1, h2⟩
      · have : b.z = 1 := by omega
        rw [this] at h2
        omega
      · omega

/-- asking the seaside tree for a tile that does not exist -/
theorem outside_contains {sea : List Tile} {nodes : List Nat} (h : SeaTree sea nodes) {q : Tile} (hz : q.z ≤ 20) (hq : ¬ TileExists q) :
    (sea = [] ∧ bqContains nodes q = .ok false) ∨ (sea ≠ [] ∧ (bqContains nodes q = .ok true ∨ bqContains nodes q = .throw_)) := by
  by_cases hs : sea = []
  · left
    refine ⟨hs, ?_⟩
    have hb := h.build
    rw [hs, makeBqTree, if_pos (by rfl)] at hb
    injection hb with hb
    rw [← hb]
    rfl
  · right
    refine ⟨hs, ?_⟩
    rcases makeBqTree_cases (fun t ht => (h.tiles t ht).1) (fun t ht => by have := (h.tiles t ht).2; omega) hs with ⟨_, h1⟩ | ⟨_, h1, vec, h2, _, h3⟩
    · left
      have hb := h.build
      rw [h1] at hb
      injection hb with hb
      rw [← hb]
      rfl
    · right
      have hb := h.build
      rw [h2] at hb
      injection hb with hb
      subst hb
      obtain ⟨w, e1, e2, e3⟩ := repr_root_word (h3 h.small) h1
      have hroot : q ≠ Tile.root := fun hr => hq (by rw [hr]; decide)
      rw [bqContains, bqFindParentLeaf, at_, e1]
      dsimp only [Res.ok_bind]
      rw [if_neg e2, if_neg e3, if_neg hroot, outside_trace 22 (by omega) q [] (.inl ⟨hz, fun h => hq ⟨hz, h⟩⟩)]
      rfl

/-- A call of `get_tile` for a tile that does not exist returns no tile.  It ends with an exception — except that no tile is returned if the level is a
prepared one, the numbers of the tile fit into a key (less than 2^21), and there is no sea in the database. -/
theorem C74_lookup (c : TileCall) (ht : MapTable c.tiles) (sea : List Tile) (hs : SeaTree sea c.ctx.seaside) (hx : c.tile.x < 2 ^ 32) (hy : c.tile.y < 2 ^ 32)
    (hq : ¬ TileExists c.tile) :
    c.run.res = if c.ctx.ignorePrepared = false ∧ c.tile.z ≤ 20 ∧ (c.tile.z : Int) ≤ c.ctx.maxPrepared ∧ c.tile.x < 2 ^ 21 ∧ c.tile.y < 2 ^ 21 ∧ sea = []
      then .ok none else .throw_ := by
  have hrender : ∀ p, (renderTileSeq c.ctx c.tile p).res = .throw_ := by
    intro p
    rw [renderTileSeq, Traced.res_bind, Traced.res_tick, Res.ok_bind, Traced.res_bind, Traced.res_lift, C74_bounds, if_neg hq]
    rfl
  rw [TileCall.run, getTileSeq, Traced.res_bind, Traced.res_lift]
  by_cases hz : c.tile.z ≤ 20
  case neg =>
    rw [if_neg (fun h => hz h.2.1), show decide (c.tile.z ≤ kMaxZoomLevel) = false from decide_eq_false hz, verify_false]
    rfl
  rw [show decide (c.tile.z ≤ kMaxZoomLevel) = true from decide_eq_true hz, verify_true, Res.ok_bind, Traced.res_inScope, getTileBody]
  by_cases hp : c.ctx.ignorePrepared = false ∧ (c.tile.z : Int) ≤ c.ctx.maxPrepared
  case neg =>
    rw [if_neg hp, if_neg (fun h => hp ⟨h.1, h.2.2.1⟩), hrender]
  rw [if_pos hp, Traced.res_bind, Traced.res_tick, Res.ok_bind, Traced.res_bind, Traced.res_lift]
  by_cases hk : c.tile.x < 2 ^ 21 ∧ c.tile.y < 2 ^ 21
  case neg =>
    rw [if_neg (fun h => hk ⟨h.2.2.2.1, h.2.2.2.2.1⟩), keyOfTile, tileToKey_throw]
    · rfl
    · rintro ⟨h1, h2, _⟩
      rw [UInt64.toNat_ofNat'] at h1 h2
      rw [Nat.mod_eq_of_lt (by omega)] at h1 h2
      exact hk ⟨h1, h2⟩
  have hfits : KeyFits c.tile := ⟨hk.1, hk.2, by omega⟩
  obtain ⟨k, hkey, _⟩ := keyOfTile_ok hfits
  have hnone : c.tiles k = none := by
    cases hv : c.tiles k with
    | none => rfl
    | some v =>
      obtain ⟨t, h1, h2⟩ := ht k v hv
      have : t = c.tile := keyOfTile_inj (keyFits_of_valid h1.2 h1.1) hfits h2 hkey
      exact absurd (this ▸ h1) hq
  rw [hkey, Res.ok_bind]
  dsimp only
  rw [Traced.res_bind, Traced.res_tick, Res.ok_bind, hnone]
  dsimp only
  rw [Traced.res_bind, Traced.res_lift]
  rcases outside_contains hs hz hq with ⟨h1, h2⟩ | ⟨h1, h2 | h2⟩
  · rw [h2, Res.ok_bind, if_neg (by simp), if_pos ⟨hp.1, hz, hp.2, hk.1, hk.2, h1⟩]
    rfl
  · rw [h2, Res.ok_bind, if_pos rfl, hrender, if_neg (fun h => h1 h.2.2.2.2.2)]
  · rw [h2, if_neg (fun h => h1 h.2.2.2.2.2)]
    rfl

/-- At every moment of every preparation, finished or interrupted, the table holds tiles that exist, and what it held before. -/
theorem C74_prepared (render : Tile → Res (Option Bytes)) (keys : List UInt64) (hk : ∀ k ∈ keys, (keyToTile k).Valid ∧ (keyToTile k).z = 10)
    (maxZ workers : Nat) (hz : maxZ ≤ 20) (old : UInt64 → Option Bytes) (oldMax : Option Nat) (s : PrepShared × List PrepPc)
    (h : PrepRun render keys maxZ workers old oldMax s) (ho : MapTable old) : MapTable s.1.tiles := by
  obtain ⟨hne, _⟩ := prepInv_run hk hz h
  obtain ⟨hx, hy⟩ := dbBounds_le hne
  intro k v hv
  rcases (C30_interrupted render keys hk maxZ workers hz old oldMax s h).2 k with h1 | ⟨t, _, h1, h2, h3, _, _⟩
  · exact ho k v (h1 ▸ hv)
  · have := (area_fits hne hk hz t ((mem_tilesFrom hx hy).2 ⟨h1, h2⟩)).1
    exact ⟨t, ⟨by omega, this⟩, h3⟩

/-- So after a complete import (C54) the table of the prepared tiles holds only tiles that exist. -/
theorem C74_imported {ι : Type} (en : ImportEnv ι) (coast osm : Bool)
    (hin : ∀ fs i, en.loads coast osm fs i → (∀ x ∈ fs.flatten, Importable en.mkMask (en.decOf i) plainOf x) ∧ fs.flatten.length < 2 ^ 32)
    (runs : List (List String)) (hacts : changes runs = [.load coast osm, .pack, .tiles]) (a b : TileDb ι) (hr : Imports (importParts en) runs a b)
    (hsmall : SmallPacks b.features) : MapTable b.tiles := by
  have hready : Ready en coast osm { b with pf := b.pf.reopen } [] := by
    refine ready_imports en coast osm (rest := []) ?_ hr
    rw [hacts]; exact .start
  cases hready with
  | prepared h =>
  obtain ⟨h0, fs, entries, pf, s, h1, h2, h3, h4, h5, h6, h7, h8⟩ := h
  dsimp only at h0 h1 h2 h3 h4 h5 h7 h8
  obtain ⟨i2, i3⟩ := hin _ _ h1
  obtain ⟨hsort, hk⟩ := imported_keys en.crc en.srt en.mkMask en.rd (en.decOf b.info) en.upper en.lower fs plainOf i2 i3 entries pf (h3 hsmall)
  rw [h7]
  refine C74_prepared _ _ ?_ 10 en.workers (by omega) _ _ s h5 (fun k v hv => by simp at hv)
  intro k hk''
  obtain ⟨x, hx, rfl⟩ := List.mem_map.1 hk''
  exact hk x hx

/-- What the client sees: GET or HEAD of the path of a tile that does not exist is answered with the status 500 (or 501, if the client does not accept
deflate); 204 is possible only for a database without sea, at a prepared level.  The answer has no body; it is never a tile. -/
theorem C74_http (env : ServerEnv) (tiles : UInt64 → Option Bytes) (features : List (UInt64 × Bytes)) (pf : PackFile) (ctx : GetCtx)
    (henv : ∀ t, env.getTile t = (TileCall.run ⟨tiles, features, pf, ctx, t⟩).res) (ht : MapTable tiles) (sea : List Tile) (hs : SeaTree sea ctx.seaside)
    (req : Req) (hm : req.method = .get ∨ req.method = .head) (t : Tile) (hp : TilePath req.target t) (hq : ¬ TileExists t) :
    (¬ AcceptsDeflate req → handleRequest env req = .ok ⟨501, [], false⟩) ∧
    (AcceptsDeflate req → sea ≠ [] ∨ ctx.maxPrepared < t.z ∨ 20 < t.z → handleRequest env req = .ok ⟨500, [], false⟩) ∧
    (AcceptsDeflate req → handleRequest env req = .ok ⟨500, [], false⟩ ∨ handleRequest env req = .ok ⟨204, [], false⟩) := by
  obtain ⟨h1, h2⟩ := C45_tile env req hm t hp
  have hb : t.x < 2 ^ 32 ∧ t.y < 2 ^ 32 := by
    obtain ⟨_, _, _, _, _, _, _, _, _, _, _, _, b1, b2, _⟩ := hp
    exact ⟨b1, b2⟩
  have hl := C74_lookup ⟨tiles, features, pf, ctx, t⟩ ht sea hs hb.1 hb.2 hq
  dsimp only at hl
  rw [← henv] at hl
  refine ⟨h1, fun hd hn => ?_, fun hd => ?_⟩
  · rw [if_neg] at hl
    · exact (h2 hd).2.2 hl
    · rintro ⟨_, k1, k2, _, _, k3⟩
      rcases hn with hn | hn | hn
      · exact hn k3
      · omega
      · omega
  · split at hl
    · exact .inr ((h2 hd).2.1 hl)
    · exact .inl ((h2 hd).2.2 hl)

/-! ### the hypotheses are met -/

/-- column 2 of level 1 -/
example : ¬ TileExists ⟨2, 0, 1⟩ ∧ ¬ TileExists ⟨0, 0, 21⟩ ∧ TileExists ⟨1, 1, 1⟩ := by decide

/-- a database with sea, level 1 is prepared -/
def outsideCall (t : Tile) : TileCall := ⟨fun _ => none, C29_features, C29_pack, C29_ctx, t⟩
example : MapTable (outsideCall ⟨2, 0, 1⟩).tiles ∧ SeaTree C29_sea (outsideCall ⟨2, 0, 1⟩).ctx.seaside := ⟨fun k v h => by simp [outsideCall] at h, C29_sea_tree⟩
example : (outsideCall ⟨2, 0, 1⟩).run.res = .throw_ := by decide +kernel
example : (outsideCall ⟨4, 0, 2⟩).run.res = .throw_ := by decide +kernel
/-- the neighbour exists -/
example : (outsideCall ⟨1, 0, 1⟩).run.res = .ok none := by decide +kernel

/-- a database without sea -/
def outsideLand (t : Tile) : TileCall := { outsideCall t with ctx := { C29_ctx with seaside := [0] } }
theorem outside_land_tree : SeaTree [] [0] := ⟨rfl, by decide, by simp⟩
example : (outsideLand ⟨2, 0, 1⟩).run.res = .ok none := by decide +kernel
example : (outsideLand ⟨2 ^ 21, 0, 1⟩).run.res = .throw_ := by decide +kernel
example : (outsideLand ⟨4, 0, 2⟩).run.res = .throw_ := by decide +kernel

/-- GET /1/2/0.mvt -/
example : TilePath [47, 49, 47, 50, 47, 48, 46, 109, 118, 116] ⟨2, 0, 1⟩ := by
  refine ⟨[], [49], [50], [48], ?_, by decide, by decide, by decide, by decide, by decide, by decide, by decide, by decide, by decide, by decide⟩
  refine .raw ?_ ?_ (.raw ?_ ?_ (.raw ?_ ?_ (.raw ?_ ?_ (.raw ?_ ?_ (.raw ?_ ?_ (.raw ?_ ?_ (.raw ?_ ?_ (.raw ?_ ?_ (.raw ?_ ?_ .nil))))))))) <;> decide

/-- a preparation that stores something (of C30: two index tiles, two workers) -/
example : ∃ s, runSched (prepStep C30_render) (prepInit (.init (dbBounds C30_keys) 1) (fun _ => none) none 2) [1, 2, 1, 2, 1, 2, 2, 1, 2, 1, 0] = some s ∧
    PrepRun C30_render C30_keys 1 2 (fun _ => none) none s ∧ MapTable s.1.tiles ∧ s.1.tiles 0 = some [0] := by
  have h : ((runSched (prepStep C30_render) (prepInit (.init (dbBounds C30_keys) 1) (fun _ => none) none 2) [1, 2, 1, 2, 1, 2, 2, 1, 2, 1, 0]).map
    (fun s => s.1.tiles 0)) = some (some [0]) := by decide +kernel
  cases hs : runSched (prepStep C30_render) (prepInit (.init (dbBounds C30_keys) 1) (fun _ => none) none 2) [1, 2, 1, 2, 1, 2, 2, 1, 2, 1, 0] with
  | none => rw [hs] at h; cases h
  | some s =>
    rw [hs] at h
    have hr : PrepRun C30_render C30_keys 1 2 (fun _ => none) none s := ⟨.init (dbBounds C30_keys) 1, by rw [C30_accepts, if_neg (by decide)], runSched_reach .refl hs⟩
    exact ⟨s, rfl, hr, C74_prepared C30_render C30_keys (by decide +kernel) 1 2 (by omega) _ _ s hr (fun k v h => by simp at h), by simpa using h⟩

end Tiles
