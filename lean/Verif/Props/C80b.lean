import Verif.Props.C78b
import Verif.Props.C80
/-
The hypotheses of C80 are met.
-/
namespace Tiles
open Spec

/-- all tiles of a level, in the order of the library -/
def demoLevel (z : Nat) : List Tile := geoTileRange 0 0 (2 ^ z - 1) (2 ^ z - 1) z

theorem demo_level (z : Nat) : WholeLevel (demoLevel z) z := by
  refine ⟨nodup_geoTileRange .., fun q => ?_⟩
  have : 0 < 2 ^ z := by positivity
  rw [demoLevel, mem_geoTileRange]
  constructor
  · rintro ⟨h1, h2, h3, h4, h5⟩
    exact ⟨⟨by rw [h1]; omega, by rw [h1]; omega⟩, h1⟩
  · rintro ⟨h1, rfl⟩
    obtain ⟨k1, k2⟩ := h1
    refine ⟨?_, ?_, ?_, ?_, ?_⟩ <;> omega

theorem mway_bench {ctx : GetCtx} (hctx : ctx.clip = streetDemo.base.clip) (hagg : ctx.aggregate = C62_agg) (q : Tile) (compress single : Bool) :
    streetDemo.BenchShort mwayData ctx q compress single :=
  fun fs m h gs i hgs f hf => mway_rc (benchSettings ctx compress single).toRenderCtx hctx hagg q fs m h gs i hgs f hf

/-- All conditions are met: a file with a motorway is imported with full.lua, on top of anything; then the program measures the prepared tile 10/640/640, all tiles of level 12, and
some tiles of level 9 to 17. -/
example (a : TileDb MetaTable) : ∃ (b : TileDb MetaTable) (ctx : GetCtx), Imports (importParts (streetDemo.env mwayData)) [["features", "pack", "tiles"]] a b ∧
    makeRenderCtx streetDemo.base (preparedString b.maxPrepared) b.info = .ok ctx ∧ ∀ features, EntriesOf b.features features →
    Measured (tilesBenchmark streetDemo.base (fun z => [⟨7, 9, z⟩]) demoLevel true [640, 640, 10] b features) [[⟨640, 640, 10⟩]] (answerSize b.tiles features b.pf.reopen ctx) ∧
    Measured (tilesBenchmark streetDemo.base (fun z => [⟨7, 9, z⟩]) demoLevel true [12] b features) [demoLevel 12] (answerSize b.tiles features b.pf.reopen ctx) ∧
    Measured (tilesBenchmark streetDemo.base (fun z => [⟨7, 9, z⟩]) demoLevel false [] b features) [[⟨7, 9, 9⟩], [⟨7, 9, 11⟩], [⟨7, 9, 13⟩], [⟨7, 9, 15⟩], [⟨7, 9, 17⟩]]
      (answerSize b.tiles features b.pf.reopen (benchSettings ctx false false)) ∧
    tilesBenchmark streetDemo.base (fun z => [⟨7, 9, z⟩]) demoLevel true [640, 640] b features = ⟨.ok 1, []⟩ := by
  obtain ⟨b, h1, h2, h3, h4⟩ := C68_completes street_ok mway_fits ["features", "pack", "tiles"] (.inr (by simp)) (.inr (by simp)) (.inr (by simp))
    (by simp [Asked]) (by decide) (by norm_num [streetDemo, osmDemo]) ⟨mway, by simp [mwayData], _, _, mway_rule, mway_read, by simp⟩
    (fun fs m h => mway_room h) (fun m ctx h q _ _ => mway_short ctx (ctx_clip h) (ctx_aggregate h) q) a
  have himp : Imports (importParts (streetDemo.env mwayData)) [["features", "pack", "tiles"]] a b := ⟨b, h1, rfl⟩
  have hacts : changes [["features", "pack", "tiles"]] = [.load false true, .pack, .tiles] := by simp [changes, actsOf, Asked]
  obtain ⟨ctx, h5, _⟩ := C68_starts street_ok mway_fits _ hacts a b himp h3
  have hb := mway_bench (ctx_clip h5) (ctx_aggregate h5)
  refine ⟨b, ctx, himp, h5, fun features hdb => ⟨?_, ?_, ?_, ?_⟩⟩
  · exact C80_tile street_ok mway_fits _ hacts a b himp h3 (by omega) features hdb ctx h5 _ _ ⟨640, 640, 10⟩ (by decide) (by decide) (hb _ _ _)
  · exact (C80_level_imported street_ok mway_fits _ hacts a b himp h3 (by omega) features hdb ctx h5 _ _ 12 (by decide) (by decide) (demo_level 12) (fun q _ _ => hb q _ _)).2
  · refine C80_imported street_ok mway_fits _ hacts a b himp h3 (by omega) features hdb ctx h5 _ _ false [] _ false rfl (fun ts hts q hq => ?_)
    simp only [List.map_cons, List.map_nil, List.mem_cons, List.not_mem_nil, or_false] at hts
    rcases hts with rfl | rfl | rfl | rfl | rfl <;> rw [List.mem_singleton.1 hq] <;> exact ⟨by decide, by decide, hb _ _ _⟩
  · exact C80_refuses _ _ _ _ _ _ _ (.inl rfl) (by rw [h5]; exact fun h => by cases h)

end Tiles
