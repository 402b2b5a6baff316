import Verif.Model.Inserter
import Verif.Model.PackDb
import Verif.Model.Prepare
import Verif.Model.Stats
import Verif.Model.GetTile
/-
Model of /repo/src/import.cc (the program `tiles-import`) and of the functions it calls to clear and to open the files
(/repo/include/tiles/db/clear_database.h, /repo/include/tiles/db/pack_file.h:75-120).

A stage can end in several ways (threads): a stage is the relation between the files before, whether it ended normally, and the files after.
"Not normally" is an exception (exit code 1) or a crash, at any point.
Simplifications: the options are already parsed; the tables exist; the meta table is `info` (an arbitrary type) and the highest prepared level.
-/
namespace Tiles

/-- pack_file.h:75-83 `pack_file_name`: `.mdb` is replaced by `.pck`, or `.pck` is appended -/
def packFileName (db : Bytes) : Bytes :=
  if 4 ≤ db.length ∧ (db.drop (db.length - 4)).take 4 = [46, 109, 100, 98] then db.take (db.length - 4) ++ [46, 112, 99, 107]
  else db ++ [46, 112, 99, 107]

/-- import.cc:31-36 `has_any_task` -/
def hasAnyTask (tasks query : List String) : Bool := tasks.contains "all" || query.any (fun q => tasks.contains q)

/-- the files of a database: tables meta (`info`, `maxPrepared`), features and tiles, and the pack file -/
structure TileDb (ι : Type) where
  info : ι
  maxPrepared : Option Nat
  features : UInt64 → Option Bytes
  tiles : UInt64 → Option Bytes
  pf : PackFile

/-- from these files, ends normally or not, with these files -/
abbrev ImportStage (ι : Type) := TileDb ι → Bool → TileDb ι → Prop

namespace ImportStage
variable {ι : Type}

/-- nothing to do -/
def skip : ImportStage ι := fun a ok b => ok = true ∧ b = a

/-- `if (c) …` -/
def guard (c : Bool) (s : ImportStage ι) : ImportStage ι := if c then s else skip

/-- one after the other; if the first does not end normally then the second is not started -/
def seq (s t : ImportStage ι) : ImportStage ι := fun a ok c => (ok = false ∧ s a false c) ∨ ∃ b, s a true b ∧ t b ok c

/-- clear_database.h:7-25 (one transaction) and then pack_file.h:85-94 `clear_pack_file`: an interruption leaves nothing done, or the tables empty
and the pack file as it was -/
def clear (noInfo : ι) : ImportStage ι := fun a ok b =>
  (ok = false ∧ (b = a ∨ b = { a with info := noInfo, maxPrepared := none, features := fun _ => none, tiles := fun _ => none })) ∨
  (ok = true ∧ b = ⟨noInfo, none, fun _ => none, fun _ => none, ⟨[], 0⟩⟩)

/-- pack_file.h:97-112: the pack file is opened (`pack_handle`); a file has less than 2^64 bytes -/
def opened : ImportStage ι := fun a ok b => (ok = false ∧ b = a) ∨ (ok = true ∧ b = { a with pf := a.pf.reopen } ∧ b.pf.size < 2 ^ 64)

/-- pack_file.h:114-120: the pack file is closed when the function ends and when an exception leaves it, but not in a crash -/
def closing (s : ImportStage ι) : ImportStage ι := fun a ok c => ∃ b, s a ok b ∧ ((ok = false ∧ c = b) ∨ c = { b with pf := b.pf.close })

/-- import.cc:66-68 `check_profile` -/
def checkProfile (good : Bool) : ImportStage ι := fun a ok b => ok = good ∧ b = a

end ImportStage

/-- the parts of the program that import.cc calls -/
structure ImportParts (ι : Type) where
  profileGood : Bool
  noInfo : ι
  load : (coast osm : Bool) → ImportStage ι
  stats : ImportStage ι
  pack : ImportStage ι
  tiles : ImportStage ι

open ImportStage in
/-- import.cc:66-111 `run_tiles_import`.  The block of lines 80-94 is `load`; without a loading task it constructs and destroys an inserter
that has nothing to write (left out). -/
def runImport {ι : Type} (p : ImportParts ι) (tasks : List String) : ImportStage ι :=
  seq (guard (hasAnyTask tasks ["features"]) (checkProfile p.profileGood)) <|
  seq (guard (hasAnyTask tasks ["coastlines", "features"]) (clear p.noInfo)) <|
  seq opened <| closing <|
  seq (guard (hasAnyTask tasks ["coastlines"] || hasAnyTask tasks ["features"]) (p.load (hasAnyTask tasks ["coastlines"]) (hasAnyTask tasks ["features"]))) <|
  seq (guard (hasAnyTask tasks ["stats"]) p.stats) <|
  seq (guard (hasAnyTask tasks ["pack"]) p.pack) (guard (hasAnyTask tasks ["tiles"]) p.tiles)

/-- import.cc:110-111, 116-126: the exit code -/
def importExit (ok : Bool) : Nat := if ok then 0 else 1

end Tiles
