import Verif.Model.GetTileSeq
import Verif.Model.RenderCtx
import Verif.Model.Import
/-
Model of /repo/src/benchmark.cc (the program `tiles-benchmark`).

Left out: option parsing, the log, the statistics `tb_print_stats_` prints.  The shuffled copy of the sample (lines 66-71) is never used and left out.
`sample` and `level` are `geo::make_tile_range` of the library geo: the tiles between the two corners of lines 61-62 at a level, and all tiles of a level.
What the counter's report prints is a function of the calls on the counter and their times (Model/PerfCounter), so the calls are recorded.
-/
namespace Tiles

/-- benchmark.cc:56-58 and, for a single tile, 115-118: the settings from the database, changed -/
def benchSettings (ctx : GetCtx) (compress single : Bool) : GetCtx :=
  { ctx with
    ignorePrepared := true
    deflate := if compress then ctx.deflate else none
    aggLines := if single then true else ctx.aggLines
    aggPolygons := if single then true else ctx.aggPolygons
    dropSubpixel := if single then true else ctx.dropSubpixel }

/-- benchmark.cc:60-110: the tiles by the option `tile`, in groups that are measured and reported together, and whether it is a single tile.
`for (auto z = 9; z < 18; z += 2)`; otherwise one level, or x, y and z; any other number of values throws. -/
def benchPlan (sample level : Nat → List Tile) : List Nat → Res (List (List Tile) × Bool)
  | [] => .ok ([9, 11, 13, 15, 17].map sample, false)
  | [z] => .ok ([level z], false)
  | [x, y, z] => .ok ([[⟨x, y, z⟩]], true)
  | _ => .throw_

/-- benchmark.cc:79-83 / 92-102 / 120-122: one tile after the other, with one counter; an exception ends it -/
def measureTiles (run : Tile → Traced (Option Bytes)) : List Tile → Traced Unit
  | [] => pure ()
  | t :: ts => do
    let _ ← run t
    measureTiles run ts

/-- the exit code and, for each group that was finished, the calls on the counter that is reported -/
structure BenchOut where
  exit : Res Nat
  reports : List (List PerfOp)
  deriving DecidableEq

/-- benchmark.cc:84 / 103 / 123: the report is printed when all tiles of the group are done; 127-139: exceptions end the program with 1 -/
def benchGroups (run : Tile → Traced (Option Bytes)) : List (List Tile) → BenchOut
  | [] => ⟨.ok 0, []⟩
  | g :: gs => match (measureTiles run g).res with
    | .ok _ => ⟨(benchGroups run gs).exit, (measureTiles run g).ops :: (benchGroups run gs).reports⟩
    | .throw_ => ⟨.ok 1, []⟩
    | .ub => ⟨.ub, []⟩

/-- benchmark.cc:52-126 and 130-139.  `features` is the table of the features in the order of its keys. -/
def tilesBenchmark (base : GetCtx) (sample level : Nat → List Tile) (compress : Bool) (args : List Nat) (d : TileDb MetaTable) (features : List (UInt64 × Bytes)) : BenchOut :=
  match makeRenderCtx base (preparedString d.maxPrepared) d.info with
  | .throw_ => ⟨.ok 1, []⟩
  | .ub => ⟨.ub, []⟩
  | .ok ctx => match benchPlan sample level args with
    | .ok (groups, single) => benchGroups (fun t => getTileSeq d.tiles features d.pf.reopen (benchSettings ctx compress single) t) groups
    | _ => ⟨.ok 1, []⟩

/-- benchmark.cc:52-54: the files when the program ends: the transactions (lines 74, 89, 110) are never committed; the pack file was opened and is closed
(pack_file.h:114-120), which writes a byte if the last one is zero -/
def benchFiles (d : TileDb MetaTable) : TileDb MetaTable := { d with pf := d.pf.reopen.close }

end Tiles
