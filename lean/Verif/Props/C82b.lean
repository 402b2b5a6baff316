import Verif.Props.C81
import Verif.Props.C82
/-! The hypotheses of C82 are met. -/
namespace Tiles
open Spec

/-- a server with a compressor (here one that puts a letter before) -/
noncomputable def httpDemo : OsmSetting := { osmDemo with base := { C62_ctx with deflate := some (fun x => 120 :: x) } }

def httpDemoServer (b : TileDb MetaTable) (features : List (UInt64 × Bytes)) (ctx : GetCtx) : ServerEnv :=
  { C45_env with getTile := fun t => (TileCall.run ⟨b.tiles, features, b.pf.reopen, ctx, t⟩).res }

/-- what a browser asks: "/12/2560/2560.mvt", "gzip, deflate" -/
def httpDemoAsk : Req := ⟨.get, b!"/12/2560/2560.mvt", b!"gzip, deflate"⟩

theorem httpDemo_ask : TileRequest httpDemoAsk ⟨2560, 2560, 12⟩ where
  method := .inl rfl
  path := by
    refine ⟨[], [49, 50], [50, 53, 54, 48], [50, 53, 54, 48], ?_, by decide, by decide, by decide, by decide, by decide, by decide, by decide, by decide, by decide, by decide⟩
    show PctEncodes [47, 49, 50, 47, 50, 53, 54, 48, 47, 50, 53, 54, 48, 46, 109, 118, 116] [47, 49, 50, 47, 50, 53, 54, 48, 47, 50, 53, 54, 48, 46, 109, 118, 116]
    repeat' (first | exact .nil | refine .raw (by decide) (by decide) ?_)
  deflate := ⟨b!"gzip, ", [], by decide⟩

theorem httpDemo_ok : httpDemo.Ok fullTables 0 1 := { osmDemo_ok with clip := osmDemo_ok.clip, joins := osmDemo_ok.joins, reads := osmDemo_ok.reads }

theorem httpDemo_fits : httpDemo.Fits osmDemoData := ⟨osmDemo_fits.toGoodData, osmDemo_fits.records, osmDemo_fits.areas⟩

/-- All conditions are met: after the import of the city and the bench a server with this database answers everything, and the answer to "/12/2560/2560.mvt" shows the city in its layer. -/
example (a : TileDb MetaTable) : ∃ (b : TileDb MetaTable) (ctx : GetCtx), ∀ features, EntriesOf b.features features →
    (∀ q : Tile, q.Valid → q.z ≤ 20 → MapOf fullTables 0 1 q httpDemo osmDemoData b features ctx) ∧ ServesFrom (httpDemoServer b features ctx) b features ctx ∧
    (∀ req, ∃ resp, handleRequest (httpDemoServer b features ctx) req = .ok resp ∧ resp.status ∈ [200, 204, 404, 405, 500, 501]) ∧
    ((∀ body, (httpDemoServer b features ctx).getTile ⟨2560, 2560, 12⟩ = .ok (some body) → body.tail.length < 2 ^ 32) →
      ∃ resp layers, handleRequest (httpDemoServer b features ctx) httpDemoAsk = .ok resp ∧ resp.status = 200 ∧ resp.deflate = true ∧ clientTile resp.body.tail = some layers ∧
        ∃ L ∈ layers, L.name = b!"cities" ∧ ∃ c ∈ L.features, c.id = 7 ∧ c.type = 1) := by
  obtain ⟨b, h1, h2, h3, h4⟩ := C68_completes httpDemo_ok httpDemo_fits ["features", "pack", "tiles"] (.inr (by simp)) (.inr (by simp)) (.inr (by simp))
    (by simp [Asked]) (by decide) (by norm_num [httpDemo, osmDemo]) ⟨osmDemoCity, by simp [osmDemoData], _, _, osmDemo_rule, rfl, by simp [readOsmNode]⟩
    (fun fs m h => osmDemo_room h) (fun m ctx h q _ _ => osmDemo_short ctx (Eq.trans (ctx_clip (base := httpDemo.base) h) (by rfl)) q) a
  have himp : Imports (importParts (httpDemo.env osmDemoData)) [["features", "pack", "tiles"]] a b := ⟨b, h1, rfl⟩
  have hacts : changes [["features", "pack", "tiles"]] = [.load false true, .pack, .tiles] := by simp [changes, actsOf, Asked]
  obtain ⟨ctx, h5, _⟩ := C68_starts httpDemo_ok httpDemo_fits _ hacts a b himp h3
  refine ⟨b, ctx, fun features hdb => ?_⟩
  have hmap : ∀ q : Tile, q.Valid → q.z ≤ 20 → MapOf fullTables 0 1 q httpDemo osmDemoData b features ctx := fun q _ _ =>
    .osm httpDemo_ok httpDemo_fits _ hacts himp h3 (by omega) hdb h5 (osmDemo_short ctx (Eq.trans (ctx_clip (base := httpDemo.base) h5) (by rfl)) q)
  have henv : ServesFrom (httpDemoServer b features ctx) b features ctx := fun t => rfl
  refine ⟨hmap, henv, C82_answers henv hmap, fun hbody => ?_⟩
  obtain ⟨bytes, layers, k1, k2, _, k4⟩ := C68_served httpDemo_ok httpDemo_fits _ hacts a b himp h3 (by omega) features hdb ctx h5 ⟨2560, 2560, 12⟩ (by decide) (by decide)
    (osmDemo_short ctx (Eq.trans (ctx_clip (base := httpDemo.base) h5) (by rfl)) _)
  obtain ⟨p1, p2⟩ := C64_place_at (2684616704 / 2 ^ 32) (2684616704 / 2 ^ 32)
  have hw : WellInside 1 ⟨2560, 2560, 12⟩ osmDemoPlace := by
    rw [WellInside, osmDemoPlace, p1, p2]
    norm_num [side]
  obtain ⟨_, L, m1, m2, c, m3, m4, m5, _⟩ := k4 osmDemoCity (by simp [osmDemoData]) osmDemoPlace rfl _ osmDemo_rule 5 rfl (by decide) hw (by
    intro d' hd' hid _
    simp only [osmDemoData, List.mem_cons, List.not_mem_nil, or_false] at hd'
    rcases hd' with rfl | rfl
    · rfl
    · exact absurd hid (by decide))
  obtain ⟨resp, h6, h7⟩ := C82_shows (inflate := List.tail) henv (by rw [ctx_deflate h5]; rfl) (fun x => rfl) httpDemo_ask ⟨bytes, k1, k2⟩ hbody
  rcases h7 with ⟨h7, _⟩ | ⟨_, n1, n2, n3⟩
  · rw [h7] at m1; cases m1
  · exact ⟨resp, layers, h6, n1, n2, n3, L, m1, m2, c, m3, by have : (c.id : Int) = 7 % 2 ^ 64 := m4; omega, m5⟩

end Tiles
