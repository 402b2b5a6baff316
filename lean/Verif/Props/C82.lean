import Verif.Props.C72
import Verif.Props.C74
import Verif.Props.C81
/-!
C82 — the map over HTTP: from the data to the answer of the web server.

`ServerEnv.getTile` is the call of `get_tile` in server.cc:204-210; here it is the model of it (`TileCall.run`, get_tile.h with its statements in the order of the code) on an imported
database.  `inflate` is the client's decompressor.
-/
namespace Tiles
open Spec

/-- the server answers with the tiles of this database -/
def Spec.ServesFrom (env : ServerEnv) (b : TileDb MetaTable) (features : List (UInt64 × Bytes)) (ctx : GetCtx) : Prop :=
  ∀ t, env.getTile t = (TileCall.run ⟨b.tiles, features, b.pf.reopen, ctx, t⟩).res

/-- What a client sees that requests a tile: an answer without body if there is nothing to see; otherwise a compressed body with these layers, as said in the header. -/
def Spec.HttpShows (env : ServerEnv) (inflate : Bytes → Bytes) (req : Req) (layers : List ClientLayer) : Prop :=
  ∃ resp, handleRequest env req = .ok resp ∧
    ((layers = [] ∧ resp = ⟨204, [], false⟩) ∨ (layers ≠ [] ∧ resp.status = 200 ∧ resp.deflate = true ∧ clientTile (inflate resp.body) = some layers))

/-- a request for the tile that a browser makes: GET or HEAD, it takes compressed answers -/
structure Spec.TileRequest (req : Req) (q : Tile) : Prop where
  method : req.method = .get ∨ req.method = .head
  path : TilePath req.target q
  deflate : AcceptsDeflate req

section
variable {env : ServerEnv} {inflate z : Bytes → Bytes} {b : TileDb MetaTable} {features : List (UInt64 × Bytes)} {ctx : GetCtx} {q : Tile} {req : Req} {layers : List ClientLayer}

/-- Whatever is seen in a tile (C62, C64, C68 – C72, C77 – C79, C81) is seen over HTTP. -/
theorem C82_shows (henv : ServesFrom env b features ctx) (hz : ctx.deflate = some z) (hinf : ∀ x, inflate (z x) = x) (hreq : TileRequest req q) (hseen : Seen b features ctx q layers)
    (hsize : ∀ body, env.getTile q = .ok (some body) → (inflate body).length < 2 ^ 32) : HttpShows env inflate req layers := by
  obtain ⟨bytes, h1, h2⟩ := hseen
  obtain ⟨_, h3⟩ := C45_tile env req hreq.method q hreq.path
  obtain ⟨h4, h5, _⟩ := h3 hreq.deflate
  have hget : env.getTile q = .ok (if bytes = [] then none else some (ctx.encode bytes)) := by
    rw [henv]
    exact (C65_same ⟨b.tiles, features, b.pf.reopen, ctx, q⟩ _).2 h1
  have henc : ctx.encode bytes = z bytes := by rw [GetCtx.encode, hz]
  by_cases hb : bytes = []
  · rw [if_pos hb] at hget
    refine ⟨_, h5 hget, .inl ⟨(h2 (by rw [hb]; decide)).2.1 hb, rfl⟩⟩
  · rw [if_neg hb, henc] at hget
    have hl := hsize _ hget
    rw [hinf] at hl
    obtain ⟨h6, h7⟩ := h2 hl
    exact ⟨_, h4 _ hget, .inr ⟨fun h => hb (h7.2 h), rfl, rfl, by rw [hinf]; exact h6⟩⟩
end

/-! ### nothing that is asked ends the server -/

section
variable {S S' : OsmSetting} {t : Tables} {e e' : Int} {g g' : ℝ} {data data' : List Datum} {q : Tile} {b b' : TileDb MetaTable} {features features' : List (UInt64 × Bytes)} {ctx ctx' : GetCtx}

theorem ctx_noSea {base ctx : GetCtx} {pr : Option Bytes} {m : MetaTable} (h : makeRenderCtx base pr m = .ok ctx) (hm : m.seaside = none) : ctx.seaside = [kEmptyRoot] := by
  unfold makeRenderCtx at h
  rw [hm] at h
  dsimp only at h
  have key : ∀ {mx : Int} {sea : List Nat}, (loadLayerNames m.names >>= fun names => loadSharedMetadata m.coding >>= fun dec =>
      (pure { base with maxPrepared := mx, seaside := sea, layerNames := names, dec := dec, ignorePrepared := false, ignoreSeaside := false,
                        label := none, aggLines := false, aggPolygons := false, dropSubpixel := true } : Res GetCtx)) = .ok ctx → ctx.seaside = sea := by
    intro mx sea h
    obtain ⟨n, _, h⟩ := Res.bind_eq_ok.1 h
    obtain ⟨d, _, h⟩ := Res.bind_eq_ok.1 h
    rw [Res.pure_eq] at h
    injection h with h
    rw [← h]
  split at h
  · obtain ⟨x, _, h⟩ := Res.bind_eq_ok.1 h
    obtain ⟨y, hy, h⟩ := Res.bind_eq_ok.1 h
    injection hy with hy
    rw [hy]
    exact key h
  · obtain ⟨x, _, h⟩ := Res.bind_eq_ok.1 h
    obtain ⟨y, hy, h⟩ := Res.bind_eq_ok.1 h
    injection hy with hy
    rw [hy]
    exact key h

theorem ctx_deflate {base ctx : GetCtx} {pr : Option Bytes} {m : MetaTable} (h : makeRenderCtx base pr m = .ok ctx) : ctx.deflate = base.deflate := by
  unfold makeRenderCtx at h
  dsimp only at h
  have key : ∀ {mx : Int} {sea : List Nat}, (loadLayerNames m.names >>= fun names => loadSharedMetadata m.coding >>= fun dec =>
      (pure { base with maxPrepared := mx, seaside := sea, layerNames := names, dec := dec, ignorePrepared := false, ignoreSeaside := false,
                        label := none, aggLines := false, aggPolygons := false, dropSubpixel := true } : Res GetCtx)) = .ok ctx → ctx.deflate = base.deflate := by
    intro mx sea h
    obtain ⟨n, _, h⟩ := Res.bind_eq_ok.1 h
    obtain ⟨d, _, h⟩ := Res.bind_eq_ok.1 h
    rw [Res.pure_eq] at h
    injection h with h
    rw [← h]
  split at h
  · obtain ⟨x, _, h⟩ := Res.bind_eq_ok.1 h
    split at h
    · obtain ⟨y, _, h⟩ := Res.bind_eq_ok.1 h; exact key h
    · obtain ⟨y, _, h⟩ := Res.bind_eq_ok.1 h; exact key h
  · obtain ⟨x, _, h⟩ := Res.bind_eq_ok.1 h
    split at h
    · obtain ⟨y, _, h⟩ := Res.bind_eq_ok.1 h; exact key h
    · obtain ⟨y, _, h⟩ := Res.bind_eq_ok.1 h; exact key h

theorem map_sea (h : MapOf t e g q S data b features ctx) : MapTable b.tiles ∧ ∃ sea, SeaTree sea ctx.seaside := by
  cases h with
  | osm h1 h2 runs h3 h4 h5 h6 h7 h8 h9 =>
    have hin := osm_in h1 h2
    refine ⟨C74_imported (S.env data) false true (fun fs m h => ⟨(hin fs m h).2.1, (hin fs m h).2.2⟩) runs h3 _ _ h4 h5, [], ?_⟩
    obtain ⟨_, _, _, _, fs, _, h10⟩ := imports_loaded (S.env data) false true h1.work (fun fs m h => (hin fs m h).2) runs h3 _ _ h4 h5
    obtain ⟨names, tbl, hl⟩ := osm_loaded h1.shipped h1.numerals h2.toGoodData h10
    obtain ⟨b1, b2, k1, _, _⟩ := hl.table
    rw [ctx_noSea h8 (by rw [k1])]
    exact ⟨by decide +kernel, by decide, by simp⟩
  | world h1 h2 hm hc runs h3 h4 h5 h6 h7 h8 h9 =>
    obtain ⟨_, sea, _, _, _, _, _, _, _, _, _, htree, _⟩ := world_served_all h1 h2 hm hc runs h3 _ _ h4 h5 h6 features h7 ctx h8
    exact ⟨C74_imported _ true true (fun fs m h => ⟨(world_in h1 h2 hm hc fs m h).2.1, (world_in h1 h2 hm hc fs m h).2.2⟩) runs h3 _ _ h4 h5, sea, htree⟩

theorem url_numbers {v : CstrRules} {url : Bytes} {t : Tile} (h : parseTileUrl v url = .ok (some t)) : t.x < 2 ^ 32 ∧ t.y < 2 ^ 32 := by
  have hp : ∀ s, parseU32 s < 2 ^ 32 := fun s => by rw [parseU32_eq]; exact Nat.mod_lt _ (by norm_num)
  unfold parseTileUrl at h
  dsimp only at h
  split at h
  · cases h
  · obtain ⟨c0, _, h⟩ := Res.bind_eq_ok.1 h
    obtain ⟨c1, _, h⟩ := Res.bind_eq_ok.1 h
    obtain ⟨c2, _, h⟩ := Res.bind_eq_ok.1 h
    rw [Res.pure_eq] at h
    injection h with h
    injection h with h
    rw [← h]
    exact ⟨hp _, hp _⟩

/-- a request only asks for tiles with 32-bit numbers -/
theorem handle_congr {env : ServerEnv} {f : Tile → Res (Option Bytes)} (h : ∀ t : Tile, t.x < 2 ^ 32 → t.y < 2 ^ 32 → f t = env.getTile t) (req : Req) :
    handleRequest { env with getTile := f } req = handleRequest env req := by
  have h1 : maybeServeTile { env with getTile := f } req = maybeServeTile env req := by
    unfold maybeServeTile
    cases hu : urlDecode req.target with
    | throw_ => rfl
    | ub => rfl
    | ok url =>
      simp only [Res.ok_bind]
      cases hp : parseTileUrl env.rules url with
      | throw_ => rfl
      | ub => rfl
      | ok m =>
        simp only [Res.ok_bind]
        cases m with
        | none => rfl
        | some t =>
          obtain ⟨b1, b2⟩ := url_numbers hp
          dsimp only
          rw [h t b1 b2]
  have h2 : maybeServeGlyphs { env with getTile := f } req = maybeServeGlyphs env req := rfl
  have h3 : maybeServeFile { env with getTile := f } req = maybeServeFile env req := rfl
  unfold handleRequest serverCallback
  rw [h1, h2, h3]

/-- Nothing that can be requested ends the server: with a map, every request gets an answer with one of the documented codes — whatever its method, path (tiles that do not exist, numbers
of any length, malformed escapes), and header. -/
theorem C82_answers {env : ServerEnv} (henv : ServesFrom env b features ctx) (hmap : ∀ q : Tile, q.Valid → q.z ≤ 20 → MapOf t e g q S data b features ctx) (req : Req) :
    ∃ resp, handleRequest env req = .ok resp ∧ resp.status ∈ [200, 204, 404, 405, 500, 501] := by
  rw [← handle_congr (f := fun t => if t.x < 2 ^ 32 ∧ t.y < 2 ^ 32 then env.getTile t else .throw_) (fun t h1 h2 => if_pos ⟨h1, h2⟩)]
  refine C45_total _ (fun q => ?_) req
  dsimp only
  split
  · rename_i hb
    obtain ⟨htab, sea, hsea⟩ := map_sea (hmap ⟨0, 0, 0⟩ (by decide) (by decide))
    rw [henv]
    by_cases hq : TileExists q
    · obtain ⟨layers, ⟨bytes, h1, _⟩, _⟩ := map_painted (hmap q ⟨hq.2.1, hq.2.2⟩ hq.1) ⟨hq.2.1, hq.2.2⟩ hq.1
      rw [(C65_same ⟨b.tiles, features, b.pf.reopen, ctx, q⟩ _).2 h1]
      simp
    · rw [C74_lookup ⟨b.tiles, features, b.pf.reopen, ctx, q⟩ htab sea hsea hb.1 hb.2 hq]
      split <;> simp
  · simp

/-- GET or HEAD of the path of a tile: the map is answered for every tile that exists, and no tile for one that does not. -/
theorem C82_tile {env : ServerEnv} {inflate z : Bytes → Bytes} (henv : ServesFrom env b features ctx) (hmap : ∀ q : Tile, q.Valid → q.z ≤ 20 → MapOf t e g q S data b features ctx)
    (hz : S.base.deflate = some z) (hinf : ∀ x, inflate (z x) = x) (req : Req) (hreq : TileRequest req q)
    (hsize : ∀ body, env.getTile q = .ok (some body) → (inflate body).length < 2 ^ 32) :
    (TileExists q → ∃ layers, HttpShows env inflate req layers ∧ Seen b features ctx q layers) ∧
    (¬ TileExists q → handleRequest env req = .ok ⟨500, [], false⟩ ∨ handleRequest env req = .ok ⟨204, [], false⟩) := by
  have hd : ctx.deflate = some z := by
    have := hmap ⟨0, 0, 0⟩ (by decide) (by decide)
    cases this with
    | osm _ _ _ _ _ _ _ _ h => rw [ctx_deflate h, hz]
    | world _ _ _ _ _ _ _ _ _ _ h => rw [ctx_deflate h]; exact hz
  refine ⟨fun hq => ?_, fun hq => ?_⟩
  · obtain ⟨layers, h1, _⟩ := map_painted (hmap q ⟨hq.2.1, hq.2.2⟩ hq.1) ⟨hq.2.1, hq.2.2⟩ hq.1
    exact ⟨layers, C82_shows henv hd hinf hreq h1 hsize, h1⟩
  · obtain ⟨htab, sea, hsea⟩ := map_sea (hmap ⟨0, 0, 0⟩ (by decide) (by decide))
    exact (C74_http env b.tiles features b.pf.reopen ctx henv htab sea hsea req hreq.method q hreq.path hq).2.2 hreq.deflate

/-- Two servers with maps of the same objects, made in different ways, show the same to the same requests (C81). -/
theorem C82_same {env env' : ServerEnv} {inflate z z' : Bytes → Bytes} (henv : ServesFrom env b features ctx) (henv' : ServesFrom env' b' features' ctx')
    (h : MapOf t e g q S data b features ctx) (h' : MapOf t e' g' q S' data' b' features' ctx') (hrules : SameRules S S') (hsame : ∀ d, d ∈ data ↔ d ∈ data')
    (hz : ctx.deflate = some z) (hz' : ctx'.deflate = some z') (hinf : ∀ x, inflate (z x) = x) (hinf' : ∀ x, inflate (z' x) = x) (req : Req) (hreq : TileRequest req q) (hq : TileExists q)
    (hsize : ∀ body, env.getTile q = .ok (some body) → (inflate body).length < 2 ^ 32) (hsize' : ∀ body, env'.getTile q = .ok (some body) → (inflate body).length < 2 ^ 32) :
    ∃ layers layers', HttpShows env inflate req layers ∧ HttpShows env' inflate req layers' ∧ StillSeen data data' q layers layers' ∧ StillSeen data' data q layers' layers := by
  obtain ⟨layers, layers', h1, h2, h3, h4⟩ := C81_same h h' hrules hsame ⟨hq.2.1, hq.2.2⟩ hq.1
  exact ⟨layers, layers', C82_shows henv hz hinf hreq h1 hsize, C82_shows henv' hz' hinf' hreq h2 hsize', h3, h4⟩
end

section
variable {R : Type} {asm : List (List (LocatedEntity R)) → List (LocatedEntity R) → List (OsmItem LatLng)} {file : List (List (OsmEntity R))} {srt : List NodeQuery → List NodeQuery}
  {strict : Bool} {threads : Nat} {S : OsmSetting} {t : Tables} {e : Int} {g : ℝ}

/-- From the file to the browser: after the import of an OSM file, who requests the tile of a node that the profile wants gets an answer that shows the node: in the layer of its rule, with
its number, its attributes, and at its place. -/
theorem C82_nodes (hf : GoodFile file) (hsrt : SortsByAbsId srt) (hwrap : strict = true → ∀ m ∈ nodesIn file, m.2.x ≤ 347483647) (hasm : MakesAreas asm)
    (hS : S.Ok t e g) (hD : S.Fits (fileData asm file)) (runs : List (List String)) (hacts : changes runs = [.load false true, .pack, .tiles]) (a b : TileDb MetaTable)
    (hr : Imports (importParts (S.fileEnv srt strict threads asm file)) runs a b) (hsmall : SmallPacks b.features) (hsize : b.pf.reopen.size < 2 ^ 64) (features : List (UInt64 × Bytes))
    (hdb : EntriesOf b.features features) (ctx : GetCtx) (hctx : makeRenderCtx S.base (preparedString b.maxPrepared) b.info = .ok ctx)
    (env : ServerEnv) (henv : ServesFrom env b features ctx) (inflate z : Bytes → Bytes) (hz : S.base.deflate = some z) (hinf : ∀ x, inflate (z x) = x)
    (id : Int) (tags : List (Bytes × Bytes)) (loc : XY) (hnode : .node id tags loc ∈ file.flatten) (hone : ∀ tags' loc', .node id tags' loc' ∈ file.flatten → tags' = tags)
    (r : RuleOut) (hrule : decideBy t.nodes (tagValue tags) = some r) (q : Tile) (hq : TileExists q) (hshort : S.ShortLines (fileData asm file) ctx q)
    (l : Nat) (hl : levelFor (areaOf S.prof (S.profile.object S.numeral id tags (.node (some (degrees loc))))) r.zoom = some l) (hlq : l ≤ q.z) (hin : WellInside g q (degrees loc))
    (req : Req) (hreq : TileRequest req q) (hbody : ∀ body, env.getTile q = .ok (some body) → (inflate body).length < 2 ^ 32) :
    ∃ resp layers, handleRequest env req = .ok resp ∧ resp.status = 200 ∧ resp.deflate = true ∧ clientTile (inflate resp.body) = some layers ∧
      ∃ L ∈ layers, L.name = r.layer ∧ ∃ c ∈ L.features, (c.id : Int) = id % 2 ^ 64 ∧ c.type = 1 ∧ c.tags.Perm (r.shown S.numeral S.prof.toDouble (tagValue tags)) ∧
        ∃ cx cy : Int, ⟨[⟨cx, cy⟩], false⟩ ∈ c.parts ∧ |(cx : ℝ) - (mapX (degrees loc) * 2 ^ q.z - q.x) * 4096| ≤ g / 2 ^ (20 - q.z) + 1 ∧
          |(cy : ℝ) - (mapY (degrees loc) * 2 ^ q.z - q.y) * 4096| ≤ g / 2 ^ (20 - q.z) + 1 := by
  obtain ⟨bytes, layers, h1, h2, h3⟩ := C72_nodes hf hsrt hwrap hasm hS hD runs hacts a b hr hsmall hsize features hdb ctx hctx q ⟨hq.2.1, hq.2.2⟩ hq.1 hshort
  obtain ⟨_, L, k1, k2⟩ := h3 id tags loc hnode hone r hrule l hl hlq hin
  obtain ⟨resp, h4, h5⟩ := C82_shows henv (by rw [ctx_deflate hctx, hz]) hinf hreq ⟨bytes, h1, h2⟩ hbody
  rcases h5 with ⟨h5, _⟩ | ⟨_, h6, h7, h8⟩
  · rw [h5] at k1; cases k1
  · exact ⟨resp, layers, h4, h6, h7, h8, L, k1, k2⟩
end
end Tiles
