import Verif.Model.BqTree
import Verif.Model.GetTile
import Verif.Model.HttpFields
import Verif.Model.LayerNames
import Verif.Model.Metadata
import Verif.Model.SharedMetadata
/-
Model of `make_render_ctx` (/repo/include/tiles/get_tile.h:23-52): the settings of the server, and of the preparation before it changes some of
them, from the meta table of the database.
-/
namespace Tiles

/-- what the meta table holds besides the prepared levels: `kMetaKeyFullySeasideTree`, `kMetaKeyLayerNames` (layer_names.h), and the table of the
shared metadata (shared_metadata.h) -/
structure MetaTable where
  seaside : Option Bytes
  names : Option Bytes
  coding : Option Bytes
  deriving DecidableEq, Repr

/-- `std::stoi`, base 10: white space, a sign, digits; what follows is ignored; without digits or out of the range of int an exception -/
def stoi (s : Bytes) : Res Int :=
  let r := s.dropWhile isSpaceC
  let neg := r.head? = some 45
  let ds := (if neg ∨ r.head? = some 43 then r.drop 1 else r).takeWhile (fun c => 48 ≤ c.toNat && c.toNat ≤ 57)
  let n : Int := if neg then -(digitVal ds : Int) else digitVal ds
  if ds = [] then .throw_
  else if -(2 : Int) ^ 31 ≤ n ∧ n < (2 : Int) ^ 31 then .ok n else .throw_

/-- get_tile.h:41-52 `make_render_ctx`; `prepared` is the stored string.  `base` holds what does not come from the database: the functions of the
libraries; its other fields are overwritten by the defaults of get_tile.h:30-38. -/
def makeRenderCtx (base : GetCtx) (prepared : Option Bytes) (m : MetaTable) : Res GetCtx := do
  let max ← match prepared with | some s => stoi s | none => .ok (-1)
  let seaside ← match m.seaside with | some s => bqFromString s | none => .ok [kEmptyRoot]
  let names ← loadLayerNames m.names
  let dec ← loadSharedMetadata m.coding
  return { base with maxPrepared := max, seaside := seaside, layerNames := names, dec := dec, ignorePrepared := false, ignoreSeaside := false,
                     label := none, aggLines := false, aggPolygons := false, dropSubpixel := true }

/-- prepare_tiles.cc: the stored string, `std::to_string` of the highest prepared level -/
def preparedString (maxPrepared : Option Nat) : Option Bytes := maxPrepared.map toDec

end Tiles
