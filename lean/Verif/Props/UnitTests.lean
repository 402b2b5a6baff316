import Verif.Model.QuadTree
import Verif.Model.BqTree
import Verif.Model.PackFile
import Verif.Model.LayerNames
import Verif.Model.TileKey
import Verif.Model.NodeIdx
import Verif.Model.NodeStats
import Verif.Model.Clip
import Verif.Model.Aggregate
import Verif.Model.GeometryIO
import Verif.Model.Crc
import Verif.Model.IndexedPack
/-!
The unit tests of /repo/test, carried over to the model: what they expect of the program, the model does.  These examples check the model against the
code; they are no proofs of properties.
-/
namespace Tiles.UnitTests
open Tiles

/-- the call succeeds and its result satisfies `p` -/
def holds {α : Type} (r : Res α) (p : α → Bool) : Bool := match r with
  | .ok a => p a
  | _ => false

/-- EXPECT_ANY_THROW -/
def throws {α : Type} (r : Res α) : Bool := match r with
  | .throw_ => true
  | _ => false

/-! ### quad_tree_test.cc -/

/-- quad_tree_test.cc:28-38 `collect`, without the order -/
def collect (root query : Tile) (input : List QInput) : Res (List (Nat × Nat)) := do
  let tree ← makeQuadTree root input
  walkQuadTree (readNth tree 0) root query

/-- two lists with the same elements -/
def sameElems {α : Type} [BEq α] (a b : List α) : Bool := a.length == b.length && a.all b.contains && b.all a.contains

/-- quad_tree, empty_tree -/
example : holds (makeQuadTree ⟨0, 0, 0⟩ []) (fun t => t.length == 16) && holds (collect ⟨0, 0, 0⟩ ⟨0, 0, 0⟩ []) (· == []) &&
    holds (collect ⟨0, 0, 0⟩ ⟨1, 1, 2⟩ []) (· == []) := by decide +kernel

/-- quad_tree, broken_tree_input -/
example : throws (makeQuadTree ⟨0, 0, 1⟩ [⟨⟨0, 1, 1⟩, 0, 0⟩]) && throws (makeQuadTree ⟨0, 0, 1⟩ [⟨⟨0, 0, 0⟩, 0, 0⟩]) &&
    throws (makeQuadTree ⟨0, 0, 1⟩ [⟨⟨2, 2, 2⟩, 0, 0⟩]) := by decide +kernel

/-- quad_tree, root_tree -/
example : holds (makeQuadTree ⟨4, 5, 6⟩ [⟨⟨4, 5, 6⟩, 42, 23⟩]) (fun t => t.length == 16) &&
    [(⟨8, 8, 6⟩, []), (⟨8, 8, 5⟩, []), (⟨0, 0, 2⟩, [(42, 23)]), (⟨4, 5, 6⟩, [(42, 23)]), (⟨8, 10, 7⟩, [(42, 23)])].all
      (fun q => holds (collect ⟨4, 5, 6⟩ q.1 [⟨⟨4, 5, 6⟩, 42, 23⟩]) (· == q.2)) := by decide +kernel

/-- quad_tree, child_tree -/
example : [(⟨0, 0, 0⟩, [(1, 5)]), (⟨0, 0, 1⟩, [(1, 5)]), (⟨0, 0, 2⟩, [(1, 5)]), (⟨0, 0, 3⟩, [(1, 3), (4, 1)]), (⟨0, 2, 4⟩, [(1, 3), (5, 1)]),
    (⟨0, 4, 5⟩, [(1, 3), (5, 1)])].all
      (fun q => holds (collect ⟨0, 0, 1⟩ q.1 [⟨⟨0, 0, 2⟩, 1, 3⟩, ⟨⟨0, 2, 4⟩, 5, 1⟩, ⟨⟨0, 0, 4⟩, 4, 1⟩]) (sameElems · q.2)) := by decide +kernel

/-- quad_tree_real_world, problem_1 -/
example : holds (collect ⟨534, 362, 10⟩ ⟨17097, 11585, 15⟩
    [⟨⟨534, 362, 10⟩, 1703394, 1⟩, ⟨⟨17099, 11600, 15⟩, 1704003, 1⟩, ⟨⟨8546, 5807, 14⟩, 1704193, 1⟩, ⟨⟨34185, 23231, 16⟩, 1704499, 1⟩,
     ⟨⟨136744, 92925, 18⟩, 1704727, 1⟩, ⟨⟨2137, 1451, 12⟩, 1704785, 1⟩, ⟨⟨4275, 2903, 13⟩, 1705392, 1⟩, ⟨⟨547239, 371607, 20⟩, 1706102, 1⟩,
     ⟨⟨17101, 11613, 15⟩, 1706160, 1⟩, ⟨⟨547241, 371633, 20⟩, 1706233, 1⟩, ⟨⟨547241, 371634, 20⟩, 1706291, 1⟩, ⟨⟨547216, 371700, 20⟩, 1706349, 1⟩,
     ⟨⟨17101, 11615, 15⟩, 1706464, 1⟩, ⟨⟨1069, 725, 11⟩, 1706666, 1⟩, ⟨⟨8552, 5807, 14⟩, 1706732, 1⟩, ⟨⟨2139, 1451, 12⟩, 1706992, 1⟩,
     ⟨⟨34229, 23221, 16⟩, 1707667, 1⟩, ⟨⟨547671, 371550, 20⟩, 1707754, 1⟩, ⟨⟨4278, 2903, 13⟩, 1707812, 1⟩, ⟨⟨8556, 5806, 14⟩, 1707938, 1⟩,
     ⟨⟨17112, 11612, 15⟩, 1708308, 1⟩, ⟨⟨34224, 23224, 16⟩, 1708378, 1⟩, ⟨⟨68448, 46449, 17⟩, 1708513, 1⟩, ⟨⟨273794, 185797, 19⟩, 1708571, 1⟩,
     ⟨⟨17113, 11612, 15⟩, 1708638, 1⟩, ⟨⟨68452, 46450, 17⟩, 1708914, 1⟩, ⟨⟨34226, 23228, 16⟩, 1708974, 1⟩]) (· == [(1703394, 1)]) := by decide +kernel

/-! ### bq_tree_test.cc -/

/-- `contains` on the tree of the tiles -/
def contains (tiles : List Tile) (q : Tile) : Res Bool := do
  let t ← makeBqTree tiles
  bqContains t q

/-- `all_leafs` on the tree of the tiles -/
def allLeafs (tiles : List Tile) (q : Tile) : Res (List Tile) := do
  let t ← makeBqTree tiles
  bqAllLeafs t q

/-- bq_tree_contains, root_tree -/
example : holds (makeBqTree []) (·.length == 1) && holds (contains [] ⟨0, 0, 0⟩) (!·) && holds (makeBqTree [⟨0, 0, 0⟩]) (·.length == 1) &&
    holds (contains [⟨0, 0, 0⟩] ⟨0, 0, 0⟩) id := by decide +kernel

/-- bq_tree_contains, l1_tree -/
example : holds (makeBqTree [⟨0, 0, 1⟩]) (·.length == 1) &&
    [(⟨0, 0, 1⟩, true), (⟨0, 0, 0⟩, false), (⟨0, 1, 1⟩, false), (⟨1, 0, 1⟩, false), (⟨1, 1, 1⟩, false), (⟨0, 0, 2⟩, true)].all
      (fun q => holds (contains [⟨0, 0, 1⟩] q.1) (· == q.2)) := by decide +kernel

/-- bq_tree_contains, l2_tree -/
example : holds (makeBqTree [⟨0, 1, 2⟩, ⟨3, 3, 2⟩]) (·.length == 3) &&
    [(⟨0, 1, 2⟩, true), (⟨3, 3, 2⟩, true), (⟨0, 0, 0⟩, false), (⟨0, 0, 1⟩, false), (⟨0, 1, 1⟩, false), (⟨1, 0, 1⟩, false), (⟨1, 1, 1⟩, false),
     (⟨0, 0, 2⟩, false), (⟨42, 48, 8⟩, false)].all (fun q => holds (contains [⟨0, 1, 2⟩, ⟨3, 3, 2⟩] q.1) (· == q.2)) := by decide +kernel

/-- bq_tree_all_leafs, root_tree -/
example : holds (allLeafs [] ⟨0, 0, 0⟩) (· == []) && holds (allLeafs [⟨0, 0, 0⟩] ⟨0, 0, 0⟩) (· == [⟨0, 0, 0⟩]) := by decide +kernel

/-- bq_tree_all_leafs, l1_tree -/
example : [(⟨0, 0, 0⟩, [⟨1, 1, 1⟩]), (⟨1, 1, 1⟩, [⟨1, 1, 1⟩]), (⟨0, 0, 1⟩, []), (⟨0, 1, 1⟩, []), (⟨1, 0, 1⟩, []), (⟨2, 2, 2⟩, [⟨2, 2, 2⟩]), (⟨0, 0, 2⟩, [])].all
    (fun q => holds (allLeafs [⟨1, 1, 1⟩] q.1) (· == q.2)) := by decide +kernel

/-- bq_tree_all_leafs, l2_tree -/
example : [(⟨0, 0, 0⟩, [⟨0, 1, 2⟩, ⟨3, 3, 2⟩]), (⟨0, 0, 1⟩, [⟨0, 1, 2⟩]), (⟨0, 0, 8⟩, []), (⟨42, 48, 8⟩, [])].all
    (fun q => holds (allLeafs [⟨0, 1, 2⟩, ⟨3, 3, 2⟩] q.1) (sameElems · q.2)) := by decide +kernel

/-- bq_tree_all_leafs, l3_tree -/
example : holds (allLeafs [⟨0, 0, 3⟩, ⟨0, 1, 3⟩, ⟨0, 2, 3⟩, ⟨1, 0, 3⟩, ⟨1, 1, 3⟩, ⟨1, 2, 3⟩, ⟨2, 0, 3⟩, ⟨2, 1, 3⟩, ⟨2, 2, 3⟩] ⟨0, 0, 0⟩)
    (sameElems · [⟨0, 0, 3⟩, ⟨0, 1, 3⟩, ⟨0, 2, 3⟩, ⟨1, 0, 3⟩, ⟨1, 1, 3⟩, ⟨1, 2, 3⟩, ⟨2, 0, 3⟩, ⟨2, 1, 3⟩, ⟨2, 2, 3⟩]) := by decide +kernel

/-- bq_tree_all_leafs, l1_fuzzy: one, two and three different tiles, in every order -/
example :
    let ts : List Tile := [⟨0, 0, 1⟩, ⟨0, 1, 1⟩, ⟨1, 0, 1⟩, ⟨1, 1, 1⟩]
    (ts.all fun a => holds (allLeafs [a] ⟨0, 0, 0⟩) (· == [a])) &&
    (ts.all fun a => ts.all fun b => a == b || holds (allLeafs [a, b] ⟨0, 0, 0⟩) (sameElems · [a, b])) &&
    (ts.all fun a => ts.all fun b => ts.all fun c => a == b || a == c || b == c || holds (allLeafs [a, b, c] ⟨0, 0, 0⟩) (sameElems · [a, b, c])) := by decide +kernel

/-! ### tile_index_test.cc -/

/-- tile_index: the round trip at the limits of the fields -/
example : [((0 : UInt64), (0 : UInt64), (31 : UInt64), (0 : UInt64)), (2097151, 0, 0, 0), (0, 2097151, 0, 0), (31, 17, 5, 131071), (0, 0, 0, 1)].all
    (fun t => holds (tileToKey t.1 t.2.1 t.2.2.1 t.2.2.2) (fun k => keyToTile k == ⟨t.1.toNat, t.2.1.toNat, t.2.2.1.toNat⟩ && keyToN k == t.2.2.2)) := by decide +kernel

/-! ### pack_file_test.cc -/

/-- pack_record, empty -/
example : packRecordsSerialize [] == [] && holds (packRecordsDeserialize (packRecordsSerialize [])) (· == []) &&
    holds (do let s ← packRecordsUpdate (packRecordsSerialize []) ⟨1, 2⟩; packRecordsDeserialize s) (· == [⟨1, 2⟩]) := by decide +kernel

/-- pack_record, buildup_deserialize and buildup_foreach -/
example : holds (packRecordsDeserialize (packRecordsSerialize [⟨8, 9⟩])) (· == [⟨8, 9⟩]) &&
    holds (do let s ← packRecordsUpdate (packRecordsSerialize [⟨8, 9⟩]) ⟨42, 43⟩; packRecordsDeserialize s) (· == [⟨8, 9⟩, ⟨42, 43⟩]) &&
    holds (do
      let s ← packRecordsUpdate (packRecordsSerialize [⟨8, 9⟩]) ⟨42, 43⟩
      let s ← packRecordsUpdate s ⟨88, 99⟩
      packRecordsDeserialize s) (· == [⟨8, 9⟩, ⟨42, 43⟩, ⟨88, 99⟩]) := by decide +kernel

/-! ### layer_names_test.cc -/

/-- layer_names, empty, one, two -/
example : [[], ["yolo".toUTF8.data.toList], ["road".toUTF8.data.toList, "rail".toUTF8.data.toList]].all
    (fun ns => holds (loadLayerNames (some (writeLayerNames ns))) (· == ns)) := by decide +kernel

/-! ### hybrid_node_idx_test.cc -/

/-- the positions of some nodes in the index of the pushed nodes -/
def lookups (nodes : List (Int × XY)) (ids : List Int) : Res (List (Option XY)) := do
  let n ← buildNodeIdx nodes
  ids.mapM (getCoords n.reopen)

/-- insertion sort by absolute id -/
def sortQueries : List NodeQuery → List NodeQuery
  | [] => []
  | q :: qs => insert q (sortQueries qs)
where insert (q : NodeQuery) : List NodeQuery → List NodeQuery
  | [] => [q]
  | r :: rs => if q.1.natAbs ≤ r.1.natAbs then q :: r :: rs else r :: insert q rs

/-- a batch query: the positions, `undef` where nothing was written -/
def batch (nodes : List (Int × XY)) (ids : List Int) : Res (Option (List XY)) := do
  let n ← buildNodeIdx nodes
  let r ← getCoordsBatch n.reopen sortQueries 100 ids.zipIdx (fun _ => ⟨2147483647, 2147483647⟩)
  return r.map fun l => (List.range ids.length).map l

/-- hybrid_node_idx, null and empty_idx -/
example : holds (getCoords ⟨[], []⟩ 0) (· == none) && holds (lookups [] [0]) (· == [none]) := by decide +kernel

/-- hybrid_node_idx, entry_single -/
example : holds (lookups [(42, ⟨2, 3⟩)] [0, 100, 42]) (· == [none, none, some ⟨2, 3⟩]) && holds (batch [(42, ⟨2, 3⟩)] [42]) (· == some [⟨2, 3⟩]) := by decide +kernel

/-- hybrid_node_idx, entries_consecutive -/
example :
    let ns : List (Int × XY) := [(42, ⟨2, 3⟩), (43, ⟨5, 6⟩), (44, ⟨8, 9⟩)]
    holds (lookups ns [0, 100, 42, 43, 44]) (· == [none, none, some ⟨2, 3⟩, some ⟨5, 6⟩, some ⟨8, 9⟩]) &&
    holds (batch ns [42, 43, 44]) (· == some [⟨2, 3⟩, ⟨5, 6⟩, ⟨8, 9⟩]) && holds (batch ns [44, 42]) (· == some [⟨8, 9⟩, ⟨2, 3⟩]) &&
    holds (batch ns [43, 44]) (· == some [⟨5, 6⟩, ⟨8, 9⟩]) && holds (batch ns [43, 44, 43]) (· == some [⟨5, 6⟩, ⟨8, 9⟩, ⟨5, 6⟩]) &&
    holds (batch ns [44]) (· == some [⟨8, 9⟩]) := by decide +kernel

/-- hybrid_node_idx, entries_gap -/
example :
    let ns : List (Int × XY) := [(42, ⟨2, 3⟩), (44, ⟨8, 9⟩), (45, ⟨1, 2⟩), (46, ⟨4, 5⟩)]
    holds (lookups ns [0, 100, 41, 43, 47, 42, 44, 45, 46]) (· == [none, none, none, none, none, some ⟨2, 3⟩, some ⟨8, 9⟩, some ⟨1, 2⟩, some ⟨4, 5⟩]) &&
    holds (batch ns [42, 45, 44]) (· == some [⟨2, 3⟩, ⟨1, 2⟩, ⟨8, 9⟩]) && holds (batch ns [42, 45]) (· == some [⟨2, 3⟩, ⟨1, 2⟩]) &&
    holds (batch ns [45]) (· == some [⟨1, 2⟩]) && holds (batch ns [44]) (· == some [⟨8, 9⟩]) && holds (batch ns [44, 46]) (· == some [⟨8, 9⟩, ⟨4, 5⟩]) &&
    holds (batch ns [46]) (· == some [⟨4, 5⟩]) := by decide +kernel

/-- hybrid_node_idx, artificial_splits -/
example :
    let ns : List (Int × XY) := [(42, ⟨2, 3⟩), (43, ⟨2, 7⟩), (44, ⟨268435470, 268435471⟩), (45, ⟨268435472, 268435473⟩)]
    holds (countedBuild ns) (fun r => r.2.spans == 2) &&
    holds (lookups ns [0, 100, 41, 46, 42, 43, 44, 45]) (· == [none, none, none, none, some ⟨2, 3⟩, some ⟨2, 7⟩, some ⟨268435470, 268435471⟩, some ⟨268435472, 268435473⟩]) &&
    holds (batch ns [44]) (· == some [⟨268435470, 268435471⟩]) := by decide +kernel

/-- hybrid_node_idx, large_numbers -/
example : holds (lookups [(42, ⟨2251065056, 1454559573⟩)] [0, 100, 41, 42, 43]) (· == [none, none, none, some ⟨2251065056, 1454559573⟩, none]) := by decide +kernel

/-- hybrid_node_idx, limits -/
example : throws (NodeBuilder.init.push 42 ⟨-2, 3⟩) && throws (NodeBuilder.init.push 42 ⟨2, -3⟩) &&
    holds (NodeBuilder.init.push 42 ⟨2, 3⟩) (fun b => throws (b.push 43 ⟨4294967296, 3⟩) && throws (b.push 43 ⟨2, 4294967296⟩)) := by decide +kernel

/-- hybrid_node_idx, missing_nodes -/
example : holds (batch [(42, ⟨1, 1⟩), (43, ⟨2, 2⟩), (45, ⟨4, 4⟩), (46, ⟨5, 5⟩)] [41, 42, 43, 44, 45, 46, 47])
    (· == some [⟨2147483647, 2147483647⟩, ⟨1, 1⟩, ⟨2, 2⟩, ⟨2147483647, 2147483647⟩, ⟨4, 4⟩, ⟨5, 5⟩, ⟨2147483647, 2147483647⟩]) := by decide +kernel

/-- hybrid_node_idx, negative_nodes -/
example :
    let ns : List (Int × XY) := [(-42, ⟨1, 1⟩), (-43, ⟨2, 2⟩)]
    holds (batch ns [42]) (· == some [⟨1, 1⟩]) && holds (batch ns [43]) (· == some [⟨2, 2⟩]) && holds (batch ns [-42, -43]) (· == some [⟨1, 1⟩, ⟨2, 2⟩]) := by
  decide +kernel

/-- hybrid_node_idx, duplicates and duplicates_mismatch -/
example : holds (batch [(-42, ⟨1, 1⟩), (-42, ⟨1, 1⟩), (42, ⟨1, 1⟩), (42, ⟨1, 1⟩), (-42, ⟨1, 1⟩)] [42]) (· == some [⟨1, 1⟩]) &&
    throws (buildNodeIdx [(-42, ⟨1, 1⟩), (-42, ⟨2, 2⟩)]) && throws (buildNodeIdx [(-42, ⟨1, 1⟩), (42, ⟨2, 2⟩)]) := by decide +kernel

/-! ### clip_test.cc -/

/-- clip, fixed_point_clip -/
example :
    let box : Box := ⟨⟨10, 10⟩, ⟨20, 20⟩⟩
    clipPoint [⟨42, 23⟩] box = .null ∧ clipPoint [⟨15, 15⟩] box = .point [⟨15, 15⟩] ∧ clipPoint [⟨10, 10⟩] box = .null ∧ clipPoint [⟨20, 12⟩] box = .null := by decide +kernel

/-! ### fixed_geometry_test.cc -/

/-- fixed_geometry_test, fixed_point_io and fixed_polyline_io, at the limits -/
example : [Geometry.point [⟨0, 0⟩], .point [⟨kFixedCoordMax, kFixedCoordMax⟩], .polyline [[⟨10, 10⟩, ⟨20, 20⟩]], .polyline [[⟨10, 10⟩, ⟨10, 10⟩]],
    .polyline [[⟨0, 0⟩, ⟨kFixedCoordMax, kFixedCoordMax⟩]], .polyline [[⟨kFixedCoordMax, kFixedCoordMax⟩, ⟨0, 0⟩]]].all
    (fun g => holds (do let s ← serializeGeometry g; deserializeGeometry s) (fun h => decide (h = g))) := by decide +kernel

/-! ### aggregate_line_features_test.cc -/

/-- aggregate_line_features, to_from, to_to, from_to, from_from, to_from_to_from -/
example : holds (joinGroup [[⟨10, 10⟩, ⟨11, 11⟩], [⟨11, 11⟩, ⟨12, 12⟩]]) (· == [[⟨10, 10⟩, ⟨11, 11⟩, ⟨12, 12⟩]]) &&
    holds (joinGroup [[⟨10, 10⟩, ⟨11, 11⟩], [⟨12, 12⟩, ⟨11, 11⟩]]) (· == [[⟨10, 10⟩, ⟨11, 11⟩, ⟨12, 12⟩]]) &&
    holds (joinGroup [[⟨10, 10⟩, ⟨11, 11⟩], [⟨12, 12⟩, ⟨10, 10⟩]]) (· == [[⟨12, 12⟩, ⟨10, 10⟩, ⟨11, 11⟩]]) &&
    holds (joinGroup [[⟨10, 10⟩, ⟨11, 11⟩], [⟨10, 10⟩, ⟨12, 12⟩]]) (· == [[⟨12, 12⟩, ⟨10, 10⟩, ⟨11, 11⟩]]) &&
    holds (joinGroup [[⟨10, 10⟩, ⟨11, 11⟩], [⟨11, 11⟩, ⟨12, 12⟩], [⟨12, 12⟩, ⟨13, 13⟩]]) (· == [[⟨10, 10⟩, ⟨11, 11⟩, ⟨12, 12⟩, ⟨13, 13⟩]]) := by decide +kernel

/-! ### feature_pack_test.cc and strange_geometry_test.cc -/

/-- feature_pack, empty -/
example : holds (packFeaturesPlain crc32 []) (fun p => p.length == 10 && featurePackValid crc32 p && leNat (p.take 4) == 0 && p[4]? == some 0 && p[5]? == some 0 &&
    holds (unpackFeatures p) (fun r => r.1.length == 0) && holds (unpackTile ⟨0, 0, 0⟩ p ⟨0, 0, 0⟩) (fun r => r.length == 0)) := by decide +kernel

/-- a line with id 42 in layer 1, for all zoom levels -/
def road (l : Line) : Feature := ⟨42, 1, 0, 20, [], .polyline [l]⟩

/-- stands for the checksum, which is too slow here on longer inputs -/
def check (b : Bytes) : UInt32 := UInt32.ofNat (b.foldl (fun a c => (a * 31 + c.toNat) % 65521) 1)

/-- `serialize_feature` with empty masks, and `pack_features` of the one feature, at once and into an index
(without reading it back from the first pack) -/
def packs (root : Tile) (f : Feature) : Res (Bytes × Bytes) := do
  let s ← serializeFeature (fun _ => []) [] false f
  let quick ← packFeaturesPlain check [s]
  let opt ← packIndexedFeatures check id (serializeFeature (fun _ => []) [] false) root [f]
  return (quick, opt)

/-- feature_pack, one; the coordinates are those of the two points of the test (what is read back from packs: theorems of C11 to C14) -/
example : holds (packs ⟨536, 347, 10⟩ (road [⟨2250736256, 1458876160⟩, ⟨2250775936, 1458918912⟩])) (fun r =>
    [(r.1, (0 : UInt8)), (r.2, 1)].all fun q => featurePackValid check q.1 && decide (5 < q.1.length) && leNat (q.1.take 4) == 1 && q.1[4]? == some q.2) := by
  decide +kernel

/-- geometry, at_antimeridian: the first point is at the limit of the coordinates -/
example : holds (packs ⟨1023, 560, 10⟩ (road [⟨4294967295, 2350770521⟩, ⟨4294964667, 2350771346⟩])) (fun r => decide (r.2 ≠ [])) := by decide +kernel

end Tiles.UnitTests
