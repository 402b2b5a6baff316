import Verif.Proof.CoastSea
import Verif.Props.C68
/-
C69: the sea on the map: from land polygons, through the coastline loader and the import, to what is drawn of every tile.
-/
namespace Tiles
open Spec

theorem coast_importable {lib : CoastLib} {polys : List Polygon} {S : Set Pt} {xs : List Inserted} {sea : List Tile} (hs : GoodShapes lib S) (h : CoastFacts lib polys S xs sea)
    {mk : Line → Bytes} {dec : List Meta} {x : Inserted} (hx : x ∈ xs)
    (hsize : ∀ b, serializeFeature (fun _ => []) [] true x.feature = .ok b ∨ serializeFeature mk dec false x.feature = .ok b → b.length < 2 ^ 32) :
    Importable mk dec plainOf x := by
  obtain ⟨t, ps, h1, h2, h3, h4, _⟩ := h.shows x hx
  obtain ⟨k, hk, hf⟩ := h1.feature
  have hpts := h4.points
  have hid := coast_key h1.level.1 h1.level.2 hk
  have hlong : ∀ {mk dec fast b}, serializeFeature mk dec fast x.feature = .ok b → 32 ≤ b.length := by
    intro mk dec fast b hb
    rw [hf] at hb
    exact coast_long hid (fun q hq => (hs.rings t ps h2 q hq q.outer (by simp)).1) hb
  obtain ⟨bp, hbp⟩ := serialize_some (mk := fun _ => []) (dec := []) (fast := true) hpts
  obtain ⟨bi, hbi⟩ := serialize_some (mk := mk) (dec := dec) (fast := false) hpts
  refine ⟨⟨h4, by rw [hf]; exact Nat.zero_le _, ?_, bi, hbi, hlong hbi, hsize bi (.inr hbi)⟩, ?_, ?_⟩
  · rw [plainOf_eq hbp]
    exact ⟨hbp, hlong hbp, hsize bp (.inl hbp)⟩
  · obtain ⟨f, o⟩ := x
    have : o = some t := h1.tile
    subst this
    exact h1.level
  · intro u hu
    rw [h1.tile] at hu
    injection hu with hu
    subst hu
    rw [hf]
    exact hs.near t ps h2

/-- a point of a polygon of the feature lies in the box of the feature -/
theorem coast_meets {lib : CoastLib} {S : Set Pt} (hs : GoodShapes lib S) {t : Tile} {ps : List Polygon} (hm : CoastCut lib t ps) {f : Feature} (hf : f.geometry = .polygon ps)
    {p : Pt} (hp : p ∈ S) (hin : inPolygons ps p = true) {q : Tile} (hq : InTile q p) : boxMeets f q := by
  obtain ⟨l, hl, hr⟩ := inPaths_mem hin
  obtain ⟨g, hg, hl⟩ := List.mem_flatMap.1 hl
  have ho : inRing g.outer p = true := by
    rcases List.mem_cons.1 hl with rfl | hl
    · exact hr
    · exact hs.holes t ps hm g hg l hl p hp hr
  have hbox : InBox (boundingBox f.geometry) p := by
    rw [hf]
    refine hull_inBox (l := g.outer) (ps := envelopePoints (.polygon ps)) ?_ ho _
    intro a ha
    refine List.mem_flatMap.2 ⟨g, hg, ?_⟩
    have : g.outer ≠ [] := List.ne_nil_of_mem ha
    simp [this, ha]
  obtain ⟨a, b, c, d⟩ := hbox
  obtain ⟨e1, e2, e3, e4⟩ := hq
  have lo : ∀ (m : Int) (n : Nat) (s : Nat) (M : Int) (v : ℚ), (m : ℚ) ≤ v → v ≤ M → (n : ℚ) * s ≤ v → v < ((n : ℚ) + 1) * s →
      ∃ k : Nat, m ≤ k ∧ (k : Int) ≤ M ∧ n * s ≤ k ∧ k < (n + 1) * s := by
    intro m n s M v h1 h2 h3 h4
    refine ⟨max m.toNat (n * s), ?_⟩
    have k1 : m < ((n : Int) + 1) * s := by
      have : (m : ℚ) < ((n : ℚ) + 1) * s := lt_of_le_of_lt h1 h4
      exact_mod_cast this
    have k2 : (n : Int) * s ≤ M := by
      have : (n : ℚ) * s ≤ M := le_trans h3 h2
      exact_mod_cast this
    have k3 : m ≤ M := by
      have : (m : ℚ) ≤ M := le_trans h1 h2
      exact_mod_cast this
    have k4 : (n : ℚ) * s < ((n : ℚ) + 1) * s := lt_of_le_of_lt h3 h4
    have k5 : (n : Int) * s < ((n : Int) + 1) * s := by exact_mod_cast k4
    have k6 : (0 : Int) ≤ (n : Int) * s := by positivity
    refine ⟨?_, ?_, le_max_right _ _, ?_⟩
    · omega
    · push_cast; omega
    · have : ((max m.toNat (n * s) : Nat) : Int) < (n + 1) * s := by push_cast; omega
      exact_mod_cast this
  obtain ⟨x, x1, x2, x3, x4⟩ := lo _ q.x (side q.z) _ _ a b e1 e2
  obtain ⟨y, y1, y2, y3, y4⟩ := lo _ q.y (side q.z) _ _ c d e3 e4
  exact ⟨x, y, ⟨x1, x2, y1, y2⟩, ⟨x3, x4, y3, y4⟩⟩

/-- what is assumed of the coastline and the libraries -/
structure Spec.CoastlineOk (lib : CoastLib) (polys : List Polygon) (S : Set Pt) : Prop where
  exact : ExactAt lib S
  input : GoodInput polys S
  shapes : GoodShapes lib S

/-- Where there is sea, sea is drawn; where there is land, none — but for a margin of 4096 units around the tiles of which a tile of a level below 10 is made up.
`xs` are the features of the coastline; `leafs` (squares) and `gs` (read features) are what a tile is drawn from. -/
structure Spec.SeaDrawn (polys : List Polygon) (S : Set Pt) (simp : Line → List Bool) (xs : List Inserted) (q : Tile) (leafs : List Tile) (gs : List Feature) : Prop where
  /-- each point of the tile that is not land lies in a square of sea, or in the polygon of a feature that was read for this tile (unless nothing of it is left
  when it is simplified for the zoom level) -/
  sea : ∀ p ∈ S, InTile q p → ¬ Land polys p → (∃ t ∈ leafs, InTile t p) ∨
    ∃ x ∈ xs, ∃ t ps, ShowsSea (Land polys) S x t ps ∧ InTile t p ∧ inPolygons ps p = true ∧
      (withoutSmallRings (simplified simp x.feature.geometry) ≠ .null → ∃ g ∈ gs, StoredAs simp x.feature g)
  /-- the squares are the tile itself or tiles in it -/
  within : ∀ t ∈ leafs, t = q ∨ AncOrSelf q t ∧ t.z ≤ 10
  /-- a point of land lies in no square of sea, except in its margin -/
  squares : ∀ p ∈ S, InTile q p → Land polys p → ∀ t ∈ leafs, InBox (drawBounds t) p → q.z < 10 ∧ ¬ InBox (insertBounds t) p
  /-- ... and in no polygon of the coastline, except in its margin -/
  polygons : ∀ p ∈ S, InTile q p → Land polys p → ∀ x ∈ xs, x.Indexed q → ∃ t ps, ShowsSea (Land polys) S x t ps ∧
    (inPolygons ps p = true → q.z < 10 ∧ InBox (drawBounds t) p ∧ ¬ InBox (insertBounds t) p)

theorem sea_where {lib : CoastLib} {polys : List Polygon} {S : Set Pt} {xs : List Inserted} {sea : List Tile} (hfacts : CoastFacts lib polys S xs sea) {q : Tile} {P : Prop}
    (hwhere : 10 ≤ q.z ∨ P ∨ (∃ t ∈ sea, AncOrSelf t q) ∨ (∀ t ∈ sea, ¬ AncOrSelf q t)) : 10 < q.z ∨ P ∨ (∃ t ∈ sea, AncOrSelf t q) ∨ (∀ t ∈ sea, ¬ AncOrSelf q t) := by
  rcases hwhere with h | h
  · rcases Nat.lt_or_ge 10 q.z with h' | h'
    · exact .inl h'
    · by_cases hc : ∃ t ∈ sea, AncOrSelf t q
      · exact .inr (.inr (.inl hc))
      · refine .inr (.inr (.inr fun t ht ha => hc ⟨t, ht, ?_⟩))
        have := (hfacts.tiles t ht).2.2.1
        have hle := ha.1
        rw [ancOrSelf_same_z ha (by omega)]
        exact ⟨Nat.le_refl _, by simp, by simp⟩
  · exact .inr h

theorem sea_drawn {lib : CoastLib} {polys : List Polygon} {S : Set Pt} {xs : List Inserted} {sea : List Tile} (hok : CoastlineOk lib polys S) (hfacts : CoastFacts lib polys S xs sea)
    {nodes : List Nat} (htree : SeaTree sea nodes) {simp : Line → List Bool} {q : Tile} (hv : q.Valid) (hz : q.z ≤ 20) {leafs : List Tile} {gs : List Feature}
    (k1 : bqAllLeafs nodes q = .ok leafs)
    (k3 : ∀ x ∈ xs, x.feature.zmin ≤ q.z → q.z ≤ x.feature.zmax → boxMeets x.feature q → x.Reaches q →
      withoutSmallRings (simplified simp x.feature.geometry) ≠ .null → ∃ g ∈ gs, StoredAs simp x.feature g) : SeaDrawn polys S simp xs q leafs gs := by
  obtain ⟨leafs', k5, _, k6, k7, k8⟩ := htree.leafs hv hz
  rw [k1] at k5
  injection k5 with k5
  subst k5
  refine ⟨?_, ?_, ?_, ?_⟩
  · intro p hp hit hland
    rcases hfacts.total q hv hz p hp hit hland with ⟨t, ht, htp⟩ | ⟨x, hx, t, ht, htp⟩
    · left
      have hmeet := sea_meet (by have := (hfacts.tiles t ht).2.2.1; omega) hz htp hit
      by_cases hc : ∃ t ∈ sea, AncOrSelf t q
      · rw [k7 hc]
        exact ⟨q, by simp, hit⟩
      · have hqt : AncOrSelf q t := hmeet.resolve_left (fun h => hc ⟨t, ht, h⟩)
        refine ⟨t, (k8 hc t).2 ⟨?_, hqt, ?_⟩, htp⟩
        · refine ⟨ht, fun u hu hut => ?_⟩
          by_contra hne
          have : Std.Symm (fun a b : Tile => ¬ Meet a b) := ⟨fun _ _ h hc => h (Or.symm hc)⟩
          exact hfacts.apart.forall hu ht hne (.inl hut)
        · rintro rfl; exact hc ⟨t, ht, hqt⟩
    · right
      obtain ⟨t', ps, j1, j2, j3, j4, _⟩ := hfacts.shows x hx
      have : t = t' := by rw [j1.tile] at ht; injection ht with ht; exact ht.symm
      subst this
      have hps := (j1.sea p hp (sea_inTile_box htp)).2 hland
      obtain ⟨k, _, hf⟩ := j1.feature
      refine ⟨x, hx, t, ps, j1, htp, hps, fun hne => ?_⟩
      refine k3 x hx (by rw [hf]; exact Nat.zero_le _) (by rw [hf]; dsimp only; omega)
        (coast_meets hok.shapes j2 (by rw [hf]) hp hps hit) ?_ hne
      intro u hu
      rw [ht] at hu
      injection hu with hu
      subst hu
      exact sea_meet (by rw [j1.level.2]; omega) hz htp hit
  · intro t ht
    by_cases hc : ∃ t ∈ sea, AncOrSelf t q
    · rw [k7 hc, List.mem_singleton] at ht
      exact .inl ht
    · obtain ⟨m1, m2, _⟩ := (k8 hc t).1 ht
      exact .inr ⟨m2, (hfacts.tiles t m1.1).2.2.1⟩
  · intro p hp hit hland t ht hd
    by_cases hc : ∃ t ∈ sea, AncOrSelf t q
    · rw [k7 hc, List.mem_singleton] at ht
      obtain ⟨u, hu, huq⟩ := hc
      exact absurd hland ((hfacts.tiles u hu).2.2.2 p hp (insert_anc huq hz (sea_inTile_box hit)))
    · obtain ⟨m1, m2, m3⟩ := (k8 hc t).1 ht
      have ht' : t ∈ sea := m1.1
      refine ⟨?_, fun hin => (hfacts.tiles t ht').2.2.2 p hp hin hland⟩
      have := (hfacts.tiles t ht').2.2.1
      by_contra hq
      exact m3 (ancOrSelf_same_z m2 (by have := m2.1; omega)).symm
  · intro p hp hit hland x hx hidx
    obtain ⟨t, ps, j1, j2, j3, j4, _⟩ := hfacts.shows x hx
    refine ⟨t, ps, j1, fun hps => ?_⟩
    have hnot : ¬ InBox (insertBounds t) p := fun hin => (j1.sea p hp hin).1 hps hland
    refine ⟨?_, j1.margin p hp hps, hnot⟩
    by_contra hq
    obtain ⟨u, _, hu10, hmeet, hat⟩ := hidx
    have hut : u = t := by
      obtain ⟨f, o⟩ := x
      have : o = some t := j1.tile
      subst this
      exact hat.symm
    subst hut
    have hanc : AncOrSelf u q := by
      rcases hmeet with h | h
      · exact h
      · rw [ancOrSelf_same_z h (by have := h.1; omega)]
        exact ⟨Nat.le_refl _, by simp, by simp⟩
    exact hnot (insert_anc hanc hz (sea_inTile_box hit))

section
variable {ι : Type} (e : ImportEnv ι) (osm : Bool) (lib : CoastLib) (polys : List Polygon) (S : Set Pt) (workers : Nat)

/-- After an import with a coastline, in any number of runs, with any number of threads and in any order of events: what the server draws of a tile (C54) shows the
sea, and exactly the sea. -/
theorem C69_sea (hsrt : SortsByKey e.srt) (hm : ∀ l z, (e.rd (e.mkMask l) z).length = l.length) (hw : 0 < e.workers)
    (hin : ∀ fs i, e.loads true osm fs i → (e.decOf i).length ≤ 2 ^ 64 ∧ (∀ x ∈ fs.flatten, Importable e.mkMask (e.decOf i) plainOf x) ∧ fs.flatten.length < 2 ^ 32)
    (hok : CoastlineOk lib polys S)
    -- the first features are those of the coastline, and the settings hold the tree of the sea tiles
    (hcoast : ∀ fs i, e.loads true osm fs i → ∃ xs rest sea, fs = xs :: rest ∧ CoastLoads lib polys workers xs sea ∧ makeBqTree sea = .ok (e.ctxOf i).seaside)
    (runs : List (List String)) (hacts : changes runs = [.load true osm, .pack, .tiles]) (a b : TileDb ι) (hr : Imports (importParts e) runs a b)
    (hsmall : SmallPacks b.features) (hsize : b.pf.reopen.size < 2 ^ 64) (features : List (UInt64 × Bytes)) (hdb : EntriesOf b.features features)
    (ctx : GetCtx) (hctx : ∃ m, e.ctxOf b.info = { ctx with maxPrepared := m }) (hrd : ctx.rd = e.rd) (hdec : ctx.dec = e.decOf b.info) (hc : Serving ctx 10) :
    ∃ xs rest sea, e.loads true osm (xs :: rest) b.info ∧ CoastLoads lib polys workers xs sea ∧
      ((∀ x ∈ (xs :: rest).flatten, x.feature.layer < ctx.layerNames.length) → 0 < ctx.layerNames.length → ∀ q : Tile, q.Valid → q.z ≤ 20 →
        10 ≤ q.z ∨ InArea (dbBounds (features.map (·.1))) q ∨ (∃ t ∈ sea, AncOrSelf t q) ∨ (∀ t ∈ sea, ¬ AncOrSelf q t) →
        ∃ leafs gs,
          ((∀ i, LayerOk (drawing ctx 10 q).toRenderCtx (specOf q) (ofLayer (leafs.map seaSquare ++ gs) i)) →
            ∃ bytes, getTile b.tiles features b.pf.reopen ctx q = .ok (if bytes = [] then none else some (ctx.encode bytes)) ∧
              (bytes.length < 2 ^ 32 → clientTile bytes = some (tileContent (drawing ctx 10 q).toRenderCtx (specOf q) (leafs.map seaSquare ++ gs)))) ∧
          (∀ g ∈ gs, ∃ x ∈ (xs :: rest).flatten, Shows q x.feature ∧ x.Indexed q ∧ StoredAs (fun l => e.rd (e.mkMask l) q.z) x.feature g) ∧
          SeaDrawn polys S (fun l => e.rd (e.mkMask l) q.z) xs q leafs gs) := by
  obtain ⟨_, fs, h1, h2⟩ := C54_served e true osm hsrt hm hw hin runs hacts a b hr hsmall hsize features hdb ctx hctx hrd hdec hc
  obtain ⟨xs, rest, sea, rfl, hload, hbuild⟩ := hcoast _ _ h1
  obtain ⟨_, himp, _⟩ := hin _ _ h1
  have himp' : ∀ x ∈ xs, Importable e.mkMask (e.decOf b.info) plainOf x := fun x hx => himp x (by simp [hx])
  have hfacts := coast_facts hok.exact hok.input hok.shapes hload (fun x hx b' hb => by
    have := (himp' x hx).plain
    rw [hb] at this
    obtain ⟨k1, _, k2⟩ := this
    injection k1 with k1
    rw [k1]; exact k2)
  have hseaside : (e.ctxOf b.info).seaside = ctx.seaside := by obtain ⟨m, hctx⟩ := hctx; rw [hctx]
  have htree : SeaTree sea ctx.seaside := by
    obtain ⟨nodes, n1, n2⟩ := hfacts.tree
    rw [hseaside] at hbuild
    refine ⟨hbuild, ?_, fun t ht => ⟨(hfacts.tiles t ht).1, by have := (hfacts.tiles t ht).2.2.1; omega⟩⟩
    rw [n1] at hbuild
    injection hbuild with hbuild
    rw [← hbuild]; exact n2
  refine ⟨xs, rest, sea, h1, hload, fun hlay hpos q hv hz hwhere => ?_⟩
  obtain ⟨leafs, gs, k1, k2, k3, k4⟩ := h2 hlay hpos sea htree q hv hz (sea_where hfacts hwhere)
  refine ⟨leafs, gs, fun hl => ?_, k2, sea_drawn hok hfacts htree hv hz k1 (fun x hx => k3 x (by simp [hx]))⟩
  obtain ⟨bytes, m1, m2⟩ := k4 hl
  exact ⟨bytes, m1, fun hb => (m2 hb).1⟩

end

/-! ### the world: coastline and OSM file -/

/-- an import of land polygons and an OSM file -/
structure Spec.WorldSetting extends OsmSetting where
  lib : CoastLib
  polys : List Polygon
  coastWorkers : Nat

/-- what loading leaves: first the coastline, its tree is written to the meta table; then the objects of the file -/
def Spec.WorldSetting.Loads (W : WorldSetting) (data : List Datum) (xs : List (List Inserted)) (m : MetaTable) (cs : List Inserted) (sea : List Tile) (fs : List (List Feature))
    (m0 : MetaTable) : Prop :=
  xs = cs :: fs.map (List.map whole) ∧ CoastLoads W.lib W.polys W.coastWorkers cs sea ∧ OsmLoads W.prof W.profile W.numeral data fs m0 ∧
    ∃ nodes, makeBqTree sea = .ok nodes ∧ m = { m0 with seaside := some (bqStringView nodes) }

/-- the import of both; preparation and server read their settings from the meta table -/
def Spec.WorldSetting.env (W : WorldSetting) (data : List Datum) : ImportEnv MetaTable :=
  { W.toOsmSetting.env data with loads := fun coast osm xs m => coast = true ∧ osm = true ∧ ∃ cs sea fs m0, W.Loads data xs m cs sea fs m0 }

/-- what is assumed of the coastline besides `CoastlineOk`: sizes of records, and its polygons do not collapse when they are simplified -/
structure Spec.WorldSetting.CoastFits (W : WorldSetting) (pts : Set Pt) : Prop extends CoastlineOk W.lib W.polys pts where
  records : ∀ t ps, CoastCut W.lib t ps → ∀ (k : UInt64) (dec : List Meta) b, serializeFeature (fun _ => []) [] true ⟨k.toNat, 0, 0, 21, [], .polygon ps⟩ = .ok b ∨
    serializeFeature W.mkMask dec false ⟨k.toNat, 0, 0, 21, [], .polygon ps⟩ = .ok b → b.length < 2 ^ 32
  areas : ∀ t ps, CoastCut W.lib t ps → ∀ z ≤ 20, ∀ qs, withoutSmallRings (simplified (fun l => W.rd (W.mkMask l) z) (.polygon ps)) = .polygon qs → ∃ r ∈ ringsOf qs, area2 r.dropLast ≠ 0

/-- no line that is drawn of a tile has 2^29 points (C62) -/
def Spec.WorldSetting.ShortLines (W : WorldSetting) (data : List Datum) (ctx : GetCtx) (q : Tile) : Prop :=
  ∀ xs m cs sea fs m0, W.Loads data xs m cs sea fs m0 → ∀ gs i, (∀ y ∈ gs, (∃ t, y = seaSquare t) ∨ ∃ x ∈ xs.flatten, StoredAs (fun l => W.rd (W.mkMask l) q.z) x.feature y) →
    ∀ f ∈ candidates (drawing ctx 10 q).toRenderCtx (specOf q) (ofLayer gs i), NoLongLine (drawing ctx 10 q).toRenderCtx q f

/-- the settings that are read from the meta table -/
theorem ctx_sea {base : GetCtx} {pr : Option Bytes} {mx : Int} (hmx : (match pr with | some s => stoi s | none => .ok (-1)) = .ok mx) {sea b1 b2 : Bytes} {nodes : List Nat}
    {names : List Bytes} {tbl : List Meta} (h0 : bqFromString sea = .ok nodes) (h1 : loadLayerNames (some b1) = .ok names) (h2 : loadSharedMetadata (some b2) = .ok tbl) :
    makeRenderCtx base pr ⟨some sea, some b1, some b2⟩ =
      .ok { base with maxPrepared := mx, seaside := nodes, layerNames := names, dec := tbl, ignorePrepared := false, ignoreSeaside := false,
                      label := none, aggLines := false, aggPolygons := false, dropSubpixel := true } := by
  unfold makeRenderCtx
  dsimp only
  rw [h0, h1, h2]
  cases pr with
  | none =>
    injection hmx with hmx
    subst hmx
    simp only [Res.ok_bind]
    rfl
  | some s =>
    dsimp only at hmx ⊢
    rw [hmx]
    simp only [Res.ok_bind]
    rfl

section
variable {W : WorldSetting} {t : Tables} {e : Int} {g : ℝ} {data : List Datum} {pts : Set Pt}

/-- what was loaded of the coastline and of the file can be packed and drawn -/
structure WorldFacts (W : WorldSetting) (t : Tables) (data : List Datum) (pts : Set Pt) (xs : List (List Inserted)) (m : MetaTable) (cs : List Inserted) (sea : List Tile)
    (fs : List (List Feature)) (names : List Bytes) (tbl : List Meta) (nodes : List Nat) : Prop where
  list : xs = cs :: fs.map (List.map whole)
  coast : CoastFacts W.lib W.polys pts cs sea
  tree : makeBqTree sea = .ok nodes ∧ SeaTree sea nodes
  osm : ∃ m0, OsmLoads W.prof W.profile W.numeral data fs m0 ∧ OsmLoaded W.prof W.profile t W.numeral data fs m0 names tbl
  dec : (W.env data).decOf m = tbl ∧ tbl.length ≤ 2 ^ 64
  settings : ∀ pr mx, (match pr with | some s => stoi s | none => .ok (-1)) = .ok mx → makeRenderCtx W.base pr m = .ok { W.base with
    maxPrepared := mx, seaside := nodes, layerNames := names, dec := tbl, ignorePrepared := false, ignoreSeaside := false, label := none, aggLines := false, aggPolygons := false, dropSubpixel := true }
  count : xs.flatten.length < 2 ^ 32
  each : ∀ x ∈ xs.flatten, Importable W.mkMask tbl plainOf x ∧ x.feature.layer < names.length ∧ ∀ z ≤ 20, Drawable (fun l => W.rd (W.mkMask l) z) x.feature

theorem world_facts (hS : W.Ok t e g) (hD : W.Fits data) (hmany : data.length < 2 ^ 31) (hC : W.CoastFits pts) {xs : List (List Inserted)} {m : MetaTable} {cs : List Inserted}
    {sea : List Tile} {fs : List (List Feature)} {m0 : MetaTable} (h : W.Loads data xs m cs sea fs m0) :
    ∃ names tbl nodes, WorldFacts W t data pts xs m cs sea fs names tbl nodes := by
  obtain ⟨rfl, hc, ho, nodes, hn, rfl⟩ := h
  obtain ⟨names, tbl, hl⟩ := osm_loaded hS.shipped hS.numerals hD.toGoodData ho
  obtain ⟨d1, d2, d3, d4⟩ := osm_importable hS hD ho hl
  have hcf := coast_facts hC.exact hC.input hC.shapes hc (fun x hx b hb => by
    obtain ⟨u, ps, id, b', h1, h2, h3⟩ := coast_bytes hC.exact hC.input hc x hx
    rw [hb] at h3
    injection h3 with h3
    rw [h3]
    exact hC.records u ps h1 id [] b' (.inl h2))
  have hmade : ∀ x ∈ cs, ∃ t ps, CoastCut W.lib t ps ∧ ∃ k : UInt64, x.feature = ⟨k.toNat, 0, 0, 21, [], .polygon ps⟩ := by
    intro x hx
    obtain ⟨u, ps, h1, h2, _⟩ := hcf.shows x hx
    obtain ⟨k, _, h3⟩ := h1.feature
    exact ⟨u, ps, h2, _, h3⟩
  have hsize : ∀ x ∈ cs, ∀ dec b, serializeFeature (fun _ => []) [] true x.feature = .ok b ∨ serializeFeature W.mkMask dec false x.feature = .ok b → b.length < 2 ^ 32 := by
    intro x hx dec b hb
    obtain ⟨u, ps, h1, id, h2⟩ := hmade x hx
    rw [h2] at hb
    exact hC.records u ps h1 id dec b hb
  obtain ⟨b1, b2, t1, t2, t3⟩ := hl.table
  refine ⟨names, tbl, nodes, rfl, hcf, ⟨hn, hn, ?_, fun u hu => ⟨(hcf.tiles u hu).1, by have := (hcf.tiles u hu).2.2.1; omega⟩⟩, ⟨m0, ho, hl⟩, ⟨?_, d2⟩, ?_, ?_, ?_⟩
  · obtain ⟨nodes', n1, n2⟩ := hcf.tree
    rw [hn] at n1
    injection n1 with n1
    rw [n1]; exact n2
  · rw [← d1]; rfl
  · intro pr mx hmx
    rw [t1]
    exact ctx_sea hmx (C08_store_load sea nodes hn) t2 t3
  · rw [List.flatten_cons, List.length_append, whole_length]
    have h1 := hcf.few
    have h2 := hl.count
    omega
  · intro x hx
    rw [List.flatten_cons, List.mem_append] at hx
    rcases hx with hx | hx
    · obtain ⟨u, ps, h1, id, h2⟩ := hmade x hx
      refine ⟨coast_importable hC.shapes hcf hx (fun b hb => hsize x hx tbl b hb), by rw [h2]; exact hl.few.1, fun z hz => ?_⟩
      refine ⟨by rw [h2]; simp [exported], fun ps' qs h3 h4 => ?_, fun ls h3 => by rw [h2] at h3; cases h3⟩
      rw [h2] at h4
      exact hC.areas u ps h1 z hz qs h4
    · obtain ⟨f, hf, rfl⟩ := mem_whole.1 hx
      have := d4 f hf
      rw [d1] at this
      exact this

theorem world_in (hS : W.Ok t e g) (hD : W.Fits data) (hmany : data.length < 2 ^ 31) (hC : W.CoastFits pts) (xs : List (List Inserted)) (m : MetaTable)
    (h : (W.env data).loads true true xs m) :
    ((W.env data).decOf m).length ≤ 2 ^ 64 ∧ (∀ x ∈ xs.flatten, Importable (W.env data).mkMask ((W.env data).decOf m) plainOf x) ∧ xs.flatten.length < 2 ^ 32 := by
  obtain ⟨_, _, cs, sea, fs, m0, h⟩ := h
  obtain ⟨names, tbl, nodes, hf⟩ := world_facts hS hD hmany hC h
  rw [hf.dec.1]
  exact ⟨hf.dec.2, fun x hx => (hf.each x hx).1, hf.count⟩

/-- After an import of coastline and OSM file the server starts. -/
theorem C69_starts (hS : W.Ok t e g) (hD : W.Fits data) (hmany : data.length < 2 ^ 31) (hC : W.CoastFits pts) (runs : List (List String))
    (hacts : changes runs = [.load true true, .pack, .tiles]) (a b : TileDb MetaTable) (hr : Imports (importParts (W.env data)) runs a b) (hsmall : SmallPacks b.features) :
    ∃ ctx, makeRenderCtx W.base (preparedString b.maxPrepared) b.info = .ok ctx ∧ ctx.maxPrepared = 10 := by
  obtain ⟨h1, xs, _, _, cs, sea, fs, m0, h2⟩ := imports_loaded (W.env data) true true hS.work (fun fs m h => (world_in hS hD hmany hC fs m h).2) runs hacts a b hr hsmall
  obtain ⟨names, tbl, nodes, hf⟩ := world_facts hS hD hmany hC h2
  rw [h1]
  exact ⟨_, hf.settings (preparedString (some 10)) 10 (stoi_toDec (by norm_num)), rfl⟩

theorem client_empty : clientTile [] = some [] := by decide +kernel

theorem content_empty (ctx : RenderCtx) (s : TileSpec) : tileContent ctx s (List.map seaSquare [] ++ []) = [] := by
  have : ∀ i, layerContent ctx s (ofLayer (List.map seaSquare [] ++ []) i) = [] := by
    intro i
    simp [layerContent, ofLayer, direct, bufferedPolys, joinedLines, bufferedLines, unique, firsts]
  rw [tileContent]
  simpa using fun a _ => this a

/-- `world_served`; and what is drawn of any tile of the prepared levels -/
theorem world_served_all (hS : W.Ok t e g) (hD : W.Fits data) (hmany : data.length < 2 ^ 31) (hC : W.CoastFits pts) (runs : List (List String))
    (hacts : changes runs = [.load true true, .pack, .tiles]) (a b : TileDb MetaTable) (hr : Imports (importParts (W.env data)) runs a b) (hsmall : SmallPacks b.features)
    (hsize : b.pf.reopen.size < 2 ^ 64) (features : List (UInt64 × Bytes)) (hdb : EntriesOf b.features features) (ctx : GetCtx)
    (hctx : makeRenderCtx W.base (preparedString b.maxPrepared) b.info = .ok ctx) :
    ∃ cs sea fs m0 names tbl, CoastLoads W.lib W.polys W.coastWorkers cs sea ∧ OsmLoads W.prof W.profile W.numeral data fs m0 ∧ OsmLoaded W.prof W.profile t W.numeral data fs m0 names tbl ∧
      (ctx.layerNames = names ∧ ctx.aggLines = false ∧ ctx.clip = W.base.clip ∧ ctx.aggregate = W.base.aggregate) ∧ CoastFacts W.lib W.polys pts cs sea ∧ SeaTree sea ctx.seaside ∧
      (∀ x ∈ (cs :: fs.map (List.map whole)).flatten, Importable W.mkMask tbl plainOf x ∧ ∀ z ≤ 20, Drawable (fun l => W.rd (W.mkMask l) z) x.feature) ∧
      (∀ q : Tile, q.Valid → q.z ≤ 10 → W.ShortLines data ctx q →
        ∃ (bytes : Bytes) (layers : List ClientLayer) (leafs : List Tile) (gs : List Feature), (∀ g ∈ gs, ∃ x ∈ (cs :: fs.map (List.map whole)).flatten, Shows q x.feature ∧ x.Found q ∧ StoredAs (fun l => W.rd (W.mkMask l) q.z) x.feature g) ∧
        (∀ x ∈ (cs :: fs.map (List.map whole)).flatten, Shows q x.feature → x.Found q →
          withoutSmallRings (simplified (fun l => W.rd (W.mkMask l) q.z) x.feature.geometry) ≠ .null → ∃ g ∈ gs, StoredAs (fun l => W.rd (W.mkMask l) q.z) x.feature g) ∧
        getTile b.tiles features b.pf.reopen ctx q = .ok (if bytes = [] then none else some (ctx.encode bytes)) ∧
        (bytes.length < 2 ^ 32 → clientTile bytes = some layers ∧ (bytes = [] ↔ layers = [])) ∧
        layers = tileContent (drawing ctx 10 q).toRenderCtx (specOf q) (leafs.map seaSquare ++ gs)) ∧ ∀ q : Tile, q.Valid → q.z ≤ 20 → W.ShortLines data ctx q →
      10 ≤ q.z ∨ InArea (dbBounds (features.map (·.1))) q ∨ (∃ t ∈ sea, AncOrSelf t q) ∨ (∀ t ∈ sea, ¬ AncOrSelf q t) →
      ∃ bytes layers leafs gs, bqAllLeafs ctx.seaside q = .ok leafs ∧
        (∀ g ∈ gs, ∃ x ∈ (cs :: fs.map (List.map whole)).flatten, Shows q x.feature ∧ x.Found q ∧ StoredAs (fun l => W.rd (W.mkMask l) q.z) x.feature g) ∧
        (∀ x ∈ (cs :: fs.map (List.map whole)).flatten, Shows q x.feature → x.Found q →
          withoutSmallRings (simplified (fun l => W.rd (W.mkMask l) q.z) x.feature.geometry) ≠ .null → ∃ g ∈ gs, StoredAs (fun l => W.rd (W.mkMask l) q.z) x.feature g) ∧ getTile b.tiles features b.pf.reopen ctx q = .ok (if bytes = [] then none else some (ctx.encode bytes)) ∧
        (bytes.length < 2 ^ 32 → clientTile bytes = some layers ∧ (bytes = [] ↔ layers = [])) ∧
        layers = tileContent (drawing ctx 10 q).toRenderCtx (specOf q) (leafs.map seaSquare ++ gs) ∧
        SeaDrawn W.polys pts (fun l => W.rd (W.mkMask l) q.z) cs q leafs gs ∧
        (∀ L ∈ layers, L.version = 2 ∧ L.extent = 4096 ∧ L.features ≠ [] ∧ ∀ c ∈ L.features, (∀ part ∈ c.parts, ∀ p ∈ part.points, InMargin e q.z p) ∧
          ((L.name = kLayerCoastlineName ∧ c.type = 3 ∧ c.tags = [] ∧ ((∃ t ∈ sea, AncOrSelf t q ∨ AncOrSelf q t) ∨ ∃ x ∈ cs, Shows q x.feature ∧ c.id = x.feature.id)) ∨
          ∃ d ∈ data, ∃ r, d.rule t = some r ∧ L.name = r.layer ∧ (c.id : Int) = d.id % 2 ^ 64 ∧ c.type = d.type ∧
            c.tags.Perm (r.shown W.numeral W.prof.toDouble (tagValue d.tags)) ∧
            ∃ z, levelFor (areaOf W.prof (d.obj W.profile W.numeral)) r.zoom = some z ∧ z ≤ q.z)) ∧
        ∀ d ∈ data, ∀ l, d.shape = .node (some l) → ∀ r, d.rule t = some r →
          ∀ z, levelFor (areaOf W.prof (d.obj W.profile W.numeral)) r.zoom = some z → z ≤ q.z → WellInside g q l →
          (∀ d' ∈ data, d'.id % 2 ^ 64 = d.id % 2 ^ 64 → d'.type = 1 → d' = d) →
          slippyTile q.z l = q ∧ ∃ L ∈ layers, L.name = r.layer ∧ ∃ c ∈ L.features, (c.id : Int) = d.id % 2 ^ 64 ∧ c.type = 1 ∧
            c.tags.Perm (r.shown W.numeral W.prof.toDouble (tagValue d.tags)) ∧
            ∃ cx cy : Int, ⟨[⟨cx, cy⟩], false⟩ ∈ c.parts ∧ |(cx : ℝ) - (mapX l * 2 ^ q.z - q.x) * 4096| ≤ g / 2 ^ (20 - q.z) + 1 ∧
              |(cy : ℝ) - (mapY l * 2 ^ q.z - q.y) * 4096| ≤ g / 2 ^ (20 - q.z) + 1 := by
  obtain ⟨px, hgeo, hconv⟩ := hS.places
  obtain ⟨inter, clipper, correct, hlib, hclip⟩ := hS.clip
  obtain ⟨simplify, hagg⟩ := hS.joins
  obtain ⟨g1, g2, g3⟩ := hS.error
  have hin := world_in hS hD hmany hC
  obtain ⟨hmax, xs0, _, _, cs0, sea0, fs0, m0, hload0⟩ := imports_loaded (W.env data) true true hS.work (fun fs m h => (hin fs m h).2) runs hacts a b hr hsmall
  obtain ⟨names0, tbl0, nodes0, hf0⟩ := world_facts hS hD hmany hC hload0
  have hset := fun pr mx => hf0.settings pr mx
  rw [hmax, hset (preparedString (some 10)) 10 (stoi_toDec (by norm_num))] at hctx
  injection hctx with hctx
  have hctxOf : (W.env data).ctxOf b.info = { ctx with maxPrepared := -1 } := by
    show (match makeRenderCtx W.base none b.info with | .ok c => c | _ => W.base) = _
    rw [hset none (-1) rfl, ← hctx]
  obtain ⟨xs, ⟨_, _, cs, sea, fs, m1, hload⟩, hout, hserve⟩ := served_drawn_all (W.env data) true true hS.sorts hS.masks hS.work hin runs hacts a b hr hsmall hsize features hdb
    ctx ⟨-1, hctxOf⟩ (by rw [← hctx]; exact hS.reads) (by rw [hf0.dec.1, ← hctx]) ⟨by rw [← hctx]; rfl, by rw [← hctx], by rw [← hctx], by rw [← hctx]⟩
    e g1 g2 inter clipper correct hlib (by rw [← hctx]; exact hclip) simplify (by intro z fs out h; rw [← hctx]; exact hagg z fs out h)
  obtain ⟨names, tbl, nodes, hf⟩ := world_facts hS hD hmany hC hload
  have hsame : names0 = names ∧ nodes0 = nodes := by
    have h1 := hf0.settings none (-1) rfl
    rw [hf.settings none (-1) rfl] at h1
    injection h1 with h1
    exact ⟨(congrArg (fun c : GetCtx => c.layerNames) h1).symm, (congrArg (fun c : GetCtx => c.seaside) h1).symm⟩
  have hnames : ctx.layerNames = names := by rw [← hctx]; exact hsame.1
  have hsea : ctx.seaside = nodes := by rw [← hctx]; exact hsame.2
  obtain ⟨m2, ho, hl⟩ := hf.osm
  have hlist := hf.list
  subst hlist
  refine ⟨cs, sea, fs, m2, names, tbl, hload.2.1, ho, hl, ⟨hnames, by rw [← hctx], by rw [← hctx], by rw [← hctx]⟩, hf.coast, by rw [hsea]; exact hf.tree.2,
    fun x hx => ⟨(hf.each x hx).1, (hf.each x hx).2.2⟩, fun q hv hz hshort => ?_, fun q hv hz hshort hwhere => ?_⟩
  · have htree : SeaTree sea ctx.seaside := by rw [hsea]; exact hf.tree.2
    by_cases hcov : ∃ t ∈ sea, AncOrSelf t q
    · obtain ⟨leafs, gs, bytes, layers, k1, k2, k3, k4, n1, n2, _⟩ := hserve (fun x hx => by rw [hnames]; exact (hf.each x hx).2.1) (by rw [hnames]; exact hl.few.1) sea
        htree q hv (by omega) (.inr (.inr (.inl hcov))) (fun x hx => (hf.each x hx).2.2 q.z (by omega)) (fun gs i h => hshort _ b.info cs sea fs m1 hload gs i h)
      exact ⟨bytes, layers, leafs, gs, k2, k3, n1, n2, k4⟩
    by_cases ha : InArea (dbBounds (features.map (·.1))) q
    · obtain ⟨leafs, gs, bytes, layers, k1, k2, k3, k4, n1, n2, _⟩ := hserve (fun x hx => by rw [hnames]; exact (hf.each x hx).2.1) (by rw [hnames]; exact hl.few.1) sea
        htree q hv (by omega) (.inr (.inl ha)) (fun x hx => (hf.each x hx).2.2 q.z (by omega)) (fun gs i h => hshort _ b.info cs sea fs m1 hload gs i h)
      exact ⟨bytes, layers, leafs, gs, k2, k3, n1, n2, k4⟩
    obtain ⟨o1, o2⟩ := hout sea htree q hv hz ha hcov
    exact ⟨[], [], [], [], by simp, fun x hx m1 m2 m5 => absurd (o2 x hx m1 m2) m5, by rw [o1]; rfl, fun _ => ⟨client_empty, by simp⟩, (content_empty _ _).symm⟩
  obtain ⟨leafs, gs, bytes, layers, k1, k2, k3, k4, n1, n2, n3, n4⟩ := hserve (fun x hx => by rw [hnames]; exact (hf.each x hx).2.1) (by rw [hnames]; exact hl.few.1) sea
    (by rw [hsea]; exact hf.tree.2) q hv hz (sea_where hf.coast hwhere) (fun x hx => (hf.each x hx).2.2 q.z hz) (fun gs i h => hshort _ b.info cs sea fs m1 hload gs i h)
  have hmem : ∀ {x : Inserted}, x ∈ (cs :: fs.map (List.map whole)).flatten ↔ x ∈ cs ∨ ∃ f ∈ fs.flatten, x = whole f := by
    intro x
    rw [List.flatten_cons, List.mem_append, mem_whole]
  have hcoast : ∀ x ∈ cs, ∃ k ps, x.feature = ⟨k, 0, 0, 21, [], .polygon ps⟩ := by
    intro x hx
    obtain ⟨_, ps, h1, _⟩ := hf.coast.shows x hx
    obtain ⟨k, _, h2⟩ := h1.feature
    exact ⟨_, ps, h2⟩
  have htype : ∀ f ∈ fs.flatten, ∀ d : Datum, readOsm W.prof.conv d.shape = .ok f.geometry → f.geometry ≠ .null → typeOf f.geometry = d.type := by
    intro f _ d hread hne
    rcases (readOsm_from W.prof.conv hread).2.2 with h | h
    · exact absurd h hne
    · cases hsh : d.shape with
      | node _ => rw [hsh] at h; obtain ⟨x, h⟩ := h; simp [h, Datum.type, hsh, typeOf]
      | way _ => rw [hsh] at h; obtain ⟨x, _, h⟩ := h; simp [h, Datum.type, hsh, typeOf]
      | area _ => rw [hsh] at h; obtain ⟨x, y, h⟩ := h; simp [h, Datum.type, hsh, typeOf]
  refine ⟨bytes, layers, leafs, gs, k1, k2, k3, n1, n2, k4, sea_drawn hC.toCoastlineOk hf.coast hf.tree.2 hv hz (by rw [← hsea]; exact k1) (fun x hx o1 o2 o3 o4 => k3 x (hmem.2 (.inl hx)) (shows_found (hf.each x (hmem.2 (.inl hx))).1 hv hz o1 o2 o3 o4).1 (shows_found (hf.each x (hmem.2 (.inl hx))).1 hv hz o1 o2 o3 o4).2), fun L hL => ?_,
    fun d hd l hsh r hrule z hzl hzq hwell hone => ?_⟩
  · obtain ⟨k1, k2, k3, i, k4, k5⟩ := n3 L hL
    refine ⟨k1, k2, k3, fun c hc => ?_⟩
    obtain ⟨k6, k7⟩ := k5 c hc
    refine ⟨k7, ?_⟩
    rcases k6 with ⟨rfl, h1, h2, h3⟩ | ⟨y, hy, hshow, hi, hid, hty, htags⟩
    · left
      rw [hnames, hl.coast] at k4
      injection k4 with k4
      exact ⟨k4.symm, h1, h2, .inl h3⟩
    · rcases hmem.1 hy with hy | ⟨f, hf', rfl⟩
      · left
        obtain ⟨k, ps, he⟩ := hcoast y hy
        have hi' : i = 0 := by rw [← hi, he]
        rw [hi', hnames, hl.coast] at k4
        injection k4 with k4
        refine ⟨k4.symm, by rw [hty, he]; rfl, ?_, .inr ⟨y, hy, hshow, hid⟩⟩
        rw [he] at htags
        exact htags.eq_nil
      · right
        dsimp only [whole] at hshow hi hid hty htags
        obtain ⟨d, hd, r, hr', hst, hne, _⟩ := hl.from_data f hf'
        refine ⟨d, hd, r, hr', ?_, by rw [hid]; exact hst.id, ?_, ?_, ⟨f.zmin, hst.first, hshow.1⟩⟩
        · have := hst.layer
          rw [hi, ← hnames, k4] at this
          injection this
        · rw [hty]; exact htype f hf' d hst.geometry hne
        · exact htags.trans (tags_perm hS.shipped hS.numerals hS.doubles (hD.texts d hd) hr' hst).1
  · have hp : OnMap l := hD.places d hd l (by rw [hsh]; simp [shapeNodes])
    have hread : readOsm W.prof.conv d.shape = .ok (.point [latlngToFixed px l]) := by rw [hsh, hconv]; rfl
    obtain ⟨f, hf', hst, hde⟩ := hl.all_data d hd r _ hrule hread (by simp)
    have hgf : f.geometry = .point [latlngToFixed px l] := by
      have := hst.geometry
      rw [show (d.obj W.profile W.numeral).shape = d.shape from rfl, hread] at this
      injection this with this
      exact this.symm
    obtain ⟨t1, x, y, t2, t3⟩ := C64_tile g3 hgeo l hp q hz hwell
    obtain ⟨x', y', t2', _, _, t4, t5⟩ := C64_near g3 hgeo l hp
    rw [t2] at t2'
    injection t2' with hx hy
    have hx : x = x' := by exact_mod_cast hx
    have hy : y = y' := by exact_mod_cast hy
    subst x' y'
    have hz1 : f.zmin = z := by
      have := hst.first
      rw [hzl] at this
      injection this with this
      exact this.symm
    have huniq : ∀ x ∈ (cs :: fs.map (List.map whole)).flatten, x.feature.layer = f.layer → x.feature.id = f.id → typeOf x.feature.geometry = 1 → x.feature = f := by
      intro x hx _ hid hty
      rcases hmem.1 hx with hx | ⟨f', hf', rfl⟩
      · obtain ⟨k, ps, he⟩ := hcoast x hx
        rw [he] at hty
        cases hty
      · dsimp only [whole] at hid hty ⊢
        obtain ⟨d', hd', r', hr', hst', hne', hde'⟩ := hl.from_data f' hf'
        have e1 : d'.type = 1 := by rw [← htype f' hf' d' hst'.geometry hne', hty]
        have e2 : d'.id % 2 ^ 64 = d.id % 2 ^ 64 := by
          have a1 : (f'.id : Int) = d'.id % 2 ^ 64 := hst'.id
          have a2 : (f.id : Int) = d.id % 2 ^ 64 := hst.id
          rw [← a1, ← a2, hid]
        rw [hone d' hd' e2 e1] at hde'
        exact describes_unique hl.nodup hde' hde
    obtain ⟨L, p1, p2, c, p3, p4, p5, p6, p7⟩ := n4 f (hmem.2 (.inr ⟨f, hf', rfl⟩)) (by omega) (by rw [hst.last]; omega) huniq _ hgf x y (by rw [t2]; simp) t3
    refine ⟨t1, L, p1, ?_, c, p3, by rw [p4]; exact hst.id, p5, p6.trans (tags_perm hS.shipped hS.numerals hS.doubles (hD.texts d hd) hrule hst).1, _, _, p7, rel_near hz t4, rel_near hz t5⟩
    have := hst.layer
    rw [← hnames, p2] at this
    injection this

/-- the following, with more about what is drawn of a tile -/
theorem world_served (hS : W.Ok t e g) (hD : W.Fits data) (hmany : data.length < 2 ^ 31) (hC : W.CoastFits pts) (runs : List (List String))
    (hacts : changes runs = [.load true true, .pack, .tiles]) (a b : TileDb MetaTable) (hr : Imports (importParts (W.env data)) runs a b) (hsmall : SmallPacks b.features)
    (hsize : b.pf.reopen.size < 2 ^ 64) (features : List (UInt64 × Bytes)) (hdb : EntriesOf b.features features) (ctx : GetCtx)
    (hctx : makeRenderCtx W.base (preparedString b.maxPrepared) b.info = .ok ctx) :
    ∃ cs sea fs m0 names tbl, CoastLoads W.lib W.polys W.coastWorkers cs sea ∧ OsmLoads W.prof W.profile W.numeral data fs m0 ∧ OsmLoaded W.prof W.profile t W.numeral data fs m0 names tbl ∧
      (ctx.layerNames = names ∧ ctx.aggLines = false ∧ ctx.clip = W.base.clip ∧ ctx.aggregate = W.base.aggregate) ∧ CoastFacts W.lib W.polys pts cs sea ∧ SeaTree sea ctx.seaside ∧
      (∀ x ∈ (cs :: fs.map (List.map whole)).flatten, Importable W.mkMask tbl plainOf x ∧ ∀ z ≤ 20, Drawable (fun l => W.rd (W.mkMask l) z) x.feature) ∧ ∀ q : Tile, q.Valid → q.z ≤ 20 → W.ShortLines data ctx q →
      10 ≤ q.z ∨ InArea (dbBounds (features.map (·.1))) q ∨ (∃ t ∈ sea, AncOrSelf t q) ∨ (∀ t ∈ sea, ¬ AncOrSelf q t) →
      ∃ bytes layers leafs gs, bqAllLeafs ctx.seaside q = .ok leafs ∧
        (∀ g ∈ gs, ∃ x ∈ (cs :: fs.map (List.map whole)).flatten, Shows q x.feature ∧ x.Indexed q ∧ StoredAs (fun l => W.rd (W.mkMask l) q.z) x.feature g) ∧
        (∀ x ∈ (cs :: fs.map (List.map whole)).flatten, x.feature.zmin ≤ q.z → q.z ≤ x.feature.zmax → boxMeets x.feature q → x.Reaches q →
          withoutSmallRings (simplified (fun l => W.rd (W.mkMask l) q.z) x.feature.geometry) ≠ .null → ∃ g ∈ gs, StoredAs (fun l => W.rd (W.mkMask l) q.z) x.feature g) ∧ getTile b.tiles features b.pf.reopen ctx q = .ok (if bytes = [] then none else some (ctx.encode bytes)) ∧
        (bytes.length < 2 ^ 32 → clientTile bytes = some layers ∧ (bytes = [] ↔ layers = [])) ∧
        layers = tileContent (drawing ctx 10 q).toRenderCtx (specOf q) (leafs.map seaSquare ++ gs) ∧
        SeaDrawn W.polys pts (fun l => W.rd (W.mkMask l) q.z) cs q leafs gs ∧
        (∀ L ∈ layers, L.version = 2 ∧ L.extent = 4096 ∧ L.features ≠ [] ∧ ∀ c ∈ L.features, (∀ part ∈ c.parts, ∀ p ∈ part.points, InMargin e q.z p) ∧
          ((L.name = kLayerCoastlineName ∧ c.type = 3 ∧ c.tags = [] ∧ ((∃ t ∈ sea, AncOrSelf t q ∨ AncOrSelf q t) ∨ ∃ x ∈ cs, Shows q x.feature ∧ c.id = x.feature.id)) ∨
          ∃ d ∈ data, ∃ r, d.rule t = some r ∧ L.name = r.layer ∧ (c.id : Int) = d.id % 2 ^ 64 ∧ c.type = d.type ∧
            c.tags.Perm (r.shown W.numeral W.prof.toDouble (tagValue d.tags)) ∧
            ∃ z, levelFor (areaOf W.prof (d.obj W.profile W.numeral)) r.zoom = some z ∧ z ≤ q.z)) ∧
        ∀ d ∈ data, ∀ l, d.shape = .node (some l) → ∀ r, d.rule t = some r →
          ∀ z, levelFor (areaOf W.prof (d.obj W.profile W.numeral)) r.zoom = some z → z ≤ q.z → WellInside g q l →
          (∀ d' ∈ data, d'.id % 2 ^ 64 = d.id % 2 ^ 64 → d'.type = 1 → d' = d) →
          slippyTile q.z l = q ∧ ∃ L ∈ layers, L.name = r.layer ∧ ∃ c ∈ L.features, (c.id : Int) = d.id % 2 ^ 64 ∧ c.type = 1 ∧
            c.tags.Perm (r.shown W.numeral W.prof.toDouble (tagValue d.tags)) ∧
            ∃ cx cy : Int, ⟨[⟨cx, cy⟩], false⟩ ∈ c.parts ∧ |(cx : ℝ) - (mapX l * 2 ^ q.z - q.x) * 4096| ≤ g / 2 ^ (20 - q.z) + 1 ∧
              |(cy : ℝ) - (mapY l * 2 ^ q.z - q.y) * 4096| ≤ g / 2 ^ (20 - q.z) + 1 := by
  obtain ⟨cs, sea, fs, m0, names, tbl, h1, h2, h3, h4, h5, h6, h7, _, h8⟩ := world_served_all hS hD hmany hC runs hacts a b hr hsmall hsize features hdb ctx hctx
  refine ⟨cs, sea, fs, m0, names, tbl, h1, h2, h3, h4, h5, h6, h7, fun q hv hz hshort hwhere => ?_⟩
  obtain ⟨bytes, layers, leafs, gs, k1, k2, k3, k4⟩ := h8 q hv hz hshort hwhere
  refine ⟨bytes, layers, leafs, gs, k1, fun g hg => ?_, fun x hx n1 n2 n3 n4 => k3 x hx (shows_found (h7 x hx).1 hv hz n1 n2 n3 n4).1 (shows_found (h7 x hx).1 hv hz n1 n2 n3 n4).2, k4⟩
  obtain ⟨x, m1, m2, m3, m4⟩ := k2 g hg
  exact ⟨x, m1, m2, found_indexed m3, m4⟩

/-- Whatever coastline and OSM file are imported with a shipped profile, in any number of runs of the import program that load, pack and prepare, with any number
of threads: the server answers every request for a tile (except for tiles of levels below 10 outside of the area of the features, which have sea on a part of
them only), and
* the tile is drawn from squares and polygons that show the sea, and exactly the sea;
* everything that a client sees is sea, in the layer of the coastline, or an object of the file, as in C68;
* every node that the table gives a layer for is seen, as in C68. -/
theorem C69_served (hS : W.Ok t e g) (hD : W.Fits data) (hmany : data.length < 2 ^ 31) (hC : W.CoastFits pts) (runs : List (List String))
    (hacts : changes runs = [.load true true, .pack, .tiles]) (a b : TileDb MetaTable) (hr : Imports (importParts (W.env data)) runs a b) (hsmall : SmallPacks b.features)
    (hsize : b.pf.reopen.size < 2 ^ 64) (features : List (UInt64 × Bytes)) (hdb : EntriesOf b.features features) (ctx : GetCtx)
    (hctx : makeRenderCtx W.base (preparedString b.maxPrepared) b.info = .ok ctx) :
    ∃ cs sea, CoastLoads W.lib W.polys W.coastWorkers cs sea ∧ ∀ q : Tile, q.Valid → q.z ≤ 20 → W.ShortLines data ctx q →
      10 ≤ q.z ∨ InArea (dbBounds (features.map (·.1))) q ∨ (∃ t ∈ sea, AncOrSelf t q) ∨ (∀ t ∈ sea, ¬ AncOrSelf q t) →
      ∃ bytes layers leafs gs, getTile b.tiles features b.pf.reopen ctx q = .ok (if bytes = [] then none else some (ctx.encode bytes)) ∧
        (bytes.length < 2 ^ 32 → clientTile bytes = some layers ∧ (bytes = [] ↔ layers = [])) ∧
        layers = tileContent (drawing ctx 10 q).toRenderCtx (specOf q) (leafs.map seaSquare ++ gs) ∧
        SeaDrawn W.polys pts (fun l => W.rd (W.mkMask l) q.z) cs q leafs gs ∧
        (∀ L ∈ layers, L.version = 2 ∧ L.extent = 4096 ∧ L.features ≠ [] ∧ ∀ c ∈ L.features, (∀ part ∈ c.parts, ∀ p ∈ part.points, InMargin e q.z p) ∧
          ((L.name = kLayerCoastlineName ∧ c.type = 3 ∧ c.tags = [] ∧ ((∃ t ∈ sea, AncOrSelf t q ∨ AncOrSelf q t) ∨ ∃ x ∈ cs, Shows q x.feature ∧ c.id = x.feature.id)) ∨
          ∃ d ∈ data, ∃ r, d.rule t = some r ∧ L.name = r.layer ∧ (c.id : Int) = d.id % 2 ^ 64 ∧ c.type = d.type ∧
            c.tags.Perm (r.shown W.numeral W.prof.toDouble (tagValue d.tags)) ∧
            ∃ z, levelFor (areaOf W.prof (d.obj W.profile W.numeral)) r.zoom = some z ∧ z ≤ q.z)) ∧
        ∀ d ∈ data, ∀ l, d.shape = .node (some l) → ∀ r, d.rule t = some r →
          ∀ z, levelFor (areaOf W.prof (d.obj W.profile W.numeral)) r.zoom = some z → z ≤ q.z → WellInside g q l →
          (∀ d' ∈ data, d'.id % 2 ^ 64 = d.id % 2 ^ 64 → d'.type = 1 → d' = d) →
          slippyTile q.z l = q ∧ ∃ L ∈ layers, L.name = r.layer ∧ ∃ c ∈ L.features, (c.id : Int) = d.id % 2 ^ 64 ∧ c.type = 1 ∧
            c.tags.Perm (r.shown W.numeral W.prof.toDouble (tagValue d.tags)) ∧
            ∃ cx cy : Int, ⟨[⟨cx, cy⟩], false⟩ ∈ c.parts ∧ |(cx : ℝ) - (mapX l * 2 ^ q.z - q.x) * 4096| ≤ g / 2 ^ (20 - q.z) + 1 ∧
              |(cy : ℝ) - (mapY l * 2 ^ q.z - q.y) * 4096| ≤ g / 2 ^ (20 - q.z) + 1 := by
  obtain ⟨cs, sea, _, _, _, _, h1, _, _, _, _, _, _, h2⟩ := world_served hS hD hmany hC runs hacts a b hr hsmall hsize features hdb ctx hctx
  refine ⟨cs, sea, h1, fun q hv hz hshort hwhere => ?_⟩
  obtain ⟨bytes, layers, leafs, gs, _, _, _, h3⟩ := h2 q hv hz hshort hwhere
  exact ⟨bytes, layers, leafs, gs, h3⟩

/-- Loading the coastline can come to its end, whatever happened so far; then the features that were handed over are as assumed above. -/
theorem C69_coast_ends (lib : CoastLib) (polys : List Polygon) (S : Set Pt) (hok : CoastlineOk lib polys S) (ws : List (WTask CoastEv)) (workers : Nat) (hn : 0 < workers)
    (hw : coastTasks lib (polys.map coastOf) (tilesOfZoom 4) = .ok ws) (s : CoastShared × List (DrainPc CoastEv)) (hr : Reach CoastStep (coastInit ws workers) s) :
    ∃ s' cs, Reach CoastStep s s' ∧ .cExit ∈ s'.2 ∧ CoastLoads lib polys workers cs (seaTiles s'.1.log) := by
  obtain ⟨s', h1, h2⟩ := C34_can_end ws workers hn s hr
  have hr' := reach_trans hr h1
  obtain ⟨_, p2, _, p4, _⟩ := C34_partition lib polys ws workers hw s' hr' h2
  have hright := C34_true lib polys S hok.exact hok.input ws workers hw s' hr'
  have hex : ∀ es : List CoastEv, (∀ ev ∈ es, ev ∈ s'.1.q.handled) → ∃ cs : List Inserted, List.Forall₂ (fun (e : CoastEv) (x : Inserted) => ∃ t b, e = .db t b ∧ x.tile = some t ∧ Storable x.feature ∧
      serializeFeature (fun _ => []) [] true x.feature = .ok b) es cs := by
    intro es
    induction es with
    | nil => exact fun _ => ⟨[], .nil⟩
    | cons ev es ih =>
      intro h
      obtain ⟨cs, hcs⟩ := ih (fun e he => h e (.tail _ he))
      have hm := h ev (.head _)
      obtain ⟨t, b, rfl, hz⟩ := p4 ev hm
      obtain ⟨k, ps, _, k2, k3, _⟩ := hright _ (List.mem_append.2 (.inr hm))
      obtain ⟨hv, _⟩ := p2 t (mem_leaves.2 (.inr (.inr ⟨b, List.mem_append.2 (.inr hm)⟩)))
      have hne : ps ≠ [] := by
        rintro rfl
        unfold serializeFeature serializeGeometry at k2
        cases k2
      rw [serialize_fast lib.mask (fun _ => []) [] []] at k2
      exact ⟨⟨_, some t⟩ :: cs, .cons ⟨t, b, rfl, rfl, made_storable hok.shapes hv hz hne k3, k2⟩ hcs⟩
  obtain ⟨cs, hcs⟩ := hex _ (fun _ h => h)
  exact ⟨s', cs, h1, h2, ws, s', hw, hr', h2, rfl, hcs⟩

/-- the import completes with any result of the loading -/
theorem world_completes (hS : W.Ok t e g) (hD : W.Fits data) (hmany : data.length < 2 ^ 31) (hC : W.CoastFits pts)
    (tasks : List String) (hf : Asked tasks "features") (hp : Asked tasks "pack") (ht : Asked tasks "tiles") (hc : Asked tasks "coastlines")
    (hbatch : 0 < W.batch) (hmem : W.mem < 2 ^ 62) {xs : List (List Inserted)} {m : MetaTable} {cs : List Inserted} {sea : List Tile} {fs : List (List Feature)} {m0 : MetaTable}
    (hload : W.Loads data xs m cs sea fs m0) (hne : xs.flatten ≠ [])
    (hroom : insertBytes xs ≤ W.mem ∧
      (∀ u : Tile, u.Valid → u.z = 10 → tileBytes W.mkMask ((W.env data).decOf m) xs u ≤ 2 ^ 30) ∧ packBytes W.mkMask ((W.env data).decOf m) xs < 2 ^ 62)
    (hshort : ∀ m ctx, makeRenderCtx W.base none m = .ok ctx → ∀ q : Tile, q.Valid → q.z ≤ 10 → W.ShortLines data ctx q) (a : TileDb MetaTable) :
    ∃ b, runImport (importParts { W.env data with loads := fun coast osm xs' m' => coast = true ∧ osm = true ∧ xs' = xs ∧ m' = m }) tasks a true b ∧
      b.maxPrepared = some 10 ∧ SmallPacks b.features ∧ b.pf.reopen.size < 2 ^ 63 := by
  obtain ⟨r1, r2, r3⟩ := hroom
  obtain ⟨names, tbl, nodes', hfa⟩ := world_facts hS hD hmany hC hload
  have hset := hfa.settings none (-1) rfl
  have hctxOf : (W.env data).ctxOf m = { W.base with maxPrepared := -1, seaside := nodes', layerNames := names, dec := tbl, ignorePrepared := false, ignoreSeaside := false, label := none, aggLines := false, aggPolygons := false, dropSubpixel := true } := by
    show (match makeRenderCtx W.base none m with | .ok c => c | _ => W.base) = _
    rw [hset]
  obtain ⟨m2, ho, hl⟩ := hfa.osm
  obtain ⟨inter, clipper, correct, hlib, hclip⟩ := hS.clip
  obtain ⟨simplify, hagg⟩ := hS.joins
  obtain ⟨b, c1, c2, c3, c4, c5⟩ := C67_completes { W.env data with loads := fun coast osm xs' m' => coast = true ∧ osm = true ∧ xs' = xs ∧ m' = m } tasks hf hp ht rfl hS.sorts hS.masks hbatch hmem true (by simp [hc]) xs m
    ⟨rfl, rfl, rfl, rfl⟩ (by rw [hfa.dec.1]; exact hfa.dec.2) (by rw [hfa.dec.1]; exact fun x hx => (hfa.each x hx).1) hfa.count hne r1 r2 r3
    { label := by rw [hctxOf]
      rd := by rw [hctxOf]; exact hS.reads
      dec := by rw [hctxOf, hfa.dec.1]
      layers := fun x hx => by rw [hctxOf]; exact (hfa.each x hx).2.1
      some := by rw [hctxOf]; exact hl.few.1
      sea := ⟨sea, by rw [hctxOf]; exact hfa.tree.2⟩
      lib := ⟨e, inter, clipper, correct, hS.error.1, hS.error.2.1, hlib, by rw [hctxOf]; exact hclip⟩
      agg := ⟨simplify, by rw [hctxOf]; exact hagg⟩
      draw := fun z hz x hx => (hfa.each x hx).2.2 z (by omega)
      short := by
        intro q hv hz gs j hgs f hf
        have := hshort m _ hset q hv hz _ m cs sea fs m0 hload gs j hgs f
        rw [drawing, if_pos hz] at this
        rw [hctxOf] at hf ⊢
        exact this hf } a
  refine ⟨b, c1, c3, c4, ?_⟩
  have r1' : insertBytes xs ≤ W.mem := r1
  have r3' : packBytes W.mkMask ((W.env data).decOf m) xs < 2 ^ 62 := r3
  have r5 : b.pf.reopen.size ≤ insertBytes xs + packBytes W.mkMask ((W.env data).decOf m) xs + 1 := c5
  omega

/-- The import of coastline and OSM file can end with exit code 0, on top of any database, if memory and file sizes suffice. -/
theorem C69_completes (hS : W.Ok t e g) (hD : W.Fits data) (hmany : data.length < 2 ^ 31) (hC : W.CoastFits pts) (hcw : 0 < W.coastWorkers)
    -- the tasks of the coastline do not fail (C34_no_failure)
    (hws : ∃ ws, coastTasks W.lib (W.polys.map coastOf) (tilesOfZoom 4) = .ok ws)
    (tasks : List String) (hf : Asked tasks "features") (hp : Asked tasks "pack") (ht : Asked tasks "tiles") (hc : Asked tasks "coastlines")
    (hbatch : 0 < W.batch) (hmem : W.mem < 2 ^ 62)
    -- something is imported
    (hsome : ∀ xs m cs sea fs m0, W.Loads data xs m cs sea fs m0 → xs.flatten ≠ [])
    -- memory and sizes (C67)
    (hroom : ∀ xs m cs sea fs m0, W.Loads data xs m cs sea fs m0 → insertBytes xs ≤ W.mem ∧
      (∀ u : Tile, u.Valid → u.z = 10 → tileBytes W.mkMask ((W.env data).decOf m) xs u ≤ 2 ^ 30) ∧ packBytes W.mkMask ((W.env data).decOf m) xs < 2 ^ 62)
    (hshort : ∀ m ctx, makeRenderCtx W.base none m = .ok ctx → ∀ q : Tile, q.Valid → q.z ≤ 10 → W.ShortLines data ctx q) (a : TileDb MetaTable) :
    ∃ b, runImport (importParts (W.env data)) tasks a true b ∧ b.maxPrepared = some 10 ∧ SmallPacks b.features ∧ b.pf.reopen.size < 2 ^ 63 := by
  obtain ⟨ws, hws⟩ := hws
  obtain ⟨_, cs, _, _, hcoast⟩ := C69_coast_ends W.lib W.polys pts hC.toCoastlineOk ws W.coastWorkers hcw hws _ .refl
  generalize seaTiles _ = sea at hcoast
  obtain ⟨_, s', fs, m0, _, _, hload0⟩ := C68_load_ends hS hD [data.map (Datum.obj W.profile W.numeral)] (by simp) _ .refl
  have hcf := coast_facts hC.exact hC.input hC.shapes hcoast (fun x hx b hb => by
    obtain ⟨u, ps, id, b', h1, h2, h3⟩ := coast_bytes hC.exact hC.input hcoast x hx
    rw [hb] at h3
    injection h3 with h3
    rw [h3]
    exact hC.records u ps h1 id [] b' (.inl h2))
  obtain ⟨nodes, hn, _⟩ := hcf.tree
  have hload : W.Loads data (cs :: fs.map (List.map whole)) { m0 with seaside := some (bqStringView nodes) } cs sea fs m0 := ⟨rfl, hcoast, hload0, nodes, hn, rfl⟩
  obtain ⟨b, k1, k2⟩ := world_completes hS hD hmany hC tasks hf hp ht hc hbatch hmem hload (hsome _ _ _ _ _ _ hload) (hroom _ _ _ _ _ _ hload) hshort a
  refine ⟨b, loads_mono (en := { W.env data with loads := fun coast osm xs' m' => coast = true ∧ osm = true ∧ xs' = _ ∧ m' = _ }) (loads := (W.env data).loads) ?_ k1, k2⟩
  rintro c o xs m ⟨h7, h8, rfl, rfl⟩
  exact ⟨h7, h8, _, _, _, _, hload⟩

end

end Tiles
