import Verif.Model.FeaturePack
import Verif.Model.FeatureIO
import Verif.Model.QuadTree
import Verif.Model.TileSpec
import Verif.Model.Ranges
/-
Model of the quadtree-indexed feature pack: /repo/src/db/feature_pack_quadtree.cc,
/repo/include/tiles/db/feature_pack_quadtree.h and the readers of /repo/include/tiles/db/feature_pack.h:129-193.

`std::sort` inside `utl::equal_ranges` leaves the order of equivalent elements open: the sort is a parameter `srt`, the theorems hold
for every function that returns a sorted permutation.  `crc` as in Model/FeaturePack.
-/
namespace Tiles

/-- feature_pack_quadtree.h:12-27 `quadtree_feature` -/
structure QFeature where
  key : List Nat
  best : Tile
  feature : Feature
  deriving DecidableEq, Repr

/-- feature_pack_quadtree.cc:71-74: the boxes have no point in common -/
def boxesApart (f t : Box) : Bool :=
  (decide (f.max.x < t.min.x) || decide (f.min.x > t.max.x)) || (decide (f.max.y < t.min.y) || decide (f.min.y > t.max.y))

/-- feature_pack_quadtree.cc:69-81, the loop over the children; `none` = second match (return the previous best),
`some nb` = value of `next_best` after the loop -/
def bestChild (box : Box) : List Tile → Option Tile → Res (Option (Option Tile))
  | [], nb => .ok (some nb)
  | c :: cs, nb => do
    let s ← tileSpec c
    if boxesApart box s.insert then bestChild box cs nb
    else match nb with
      | some _ => return none
      | none => bestChild box cs (some c)

/-- feature_pack_quadtree.cc:66-87; `fuel` = 20 - best.z -/
def findBestLoop (box : Box) : Nat → Tile → Res Tile
  | 0, best => .ok best
  | fuel + 1, best => do
    match ← bestChild box [best.child 0, best.child 1, best.child 2, best.child 3] none with
    | none => return best
    | some none => .throw_
    | some (some c) => findBestLoop box fuel c

/-- feature_pack_quadtree.cc:62-88 `find_best_tile` -/
def findBestTile (root : Tile) (f : Feature) : Res Tile :=
  findBestLoop (boundingBox f.geometry) (kMaxZoomLevel - root.z) root

/-- feature_pack_quadtree.cc:97-102: the trace, its back at the head; `fuel` ≥ zoom of the tile -/
def keyTrace (root : Tile) : Nat → Tile → List Tile → Res (List Tile)
  | fuel, back, trace =>
    if back.parent = root then .ok (root :: back :: trace)
    else if ¬ back.z > root.z then .throw_
    else match fuel with
      | 0 => .ub
      | fuel + 1 => keyTrace root fuel back.parent (back :: trace)

/-- feature_pack_quadtree.cc:90-106 `make_quad_key` -/
def makeQuadKey (root tile : Tile) : Res (List Nat) :=
  if tile = root then .ok [] else do
  let trace ← keyTrace root tile.z tile []
  return trace.map Tile.quadPos

/-- `operator<` of `std::vector<uint8_t>` -/
def keyLt : List Nat → List Nat → Bool
  | _, [] => false
  | [], _ :: _ => true
  | a :: l, b :: m => if a < b then true else if b < a then false else keyLt l m

/-- feature_pack_quadtree.cc:24, the bucket of a feature (uint32_t, no wrap: the maximum is not below root.z) -/
def bucketOf (root : Tile) (f : Feature) : Nat := max root.z f.zmin - root.z

/-- feature_pack_quadtree.cc:23-27 for one feature; `.at(z)` throws for zoom levels above 20 -/
def locate (root : Tile) (f : Feature) : Res QFeature := do
  let best ← findBestTile root f
  verify (decide (bucketOf root f < kMaxZoomLevel + 1 - root.z))
  let key ← makeQuadKey root best
  return ⟨key, best, f⟩

def locateAll (root : Tile) : List Feature → Res (List QFeature)
  | [] => .ok []
  | f :: fs => do
    let q ← locate root f
    let qs ← locateAll root fs
    return q :: qs

/-- feature_pack_quadtree.cc:111-114 -/
def serializeAll (ser : Feature → Res Bytes) : List Feature → Res (List Bytes)
  | [] => .ok []
  | f :: fs => do
    let s ← ser f
    let ss ← serializeAll ser fs
    return s :: ss

/-- feature_pack_quadtree.cc:108-117 `serialize_and_append_span` (the bytes) -/
def spanOf (ser : Feature → Res Bytes) (g : List QFeature) : Res Bytes := do
  let ss ← serializeAll ser (g.map (·.feature))
  appendFeatures ss

/-- feature_pack_quadtree.cc:40-47: append one span for every group of equal keys; the buffer and the index entries.
Offsets are truncated to 32 bit. -/
def packGroups (ser : Feature → Res Bytes) : Bytes → List (List QFeature) → Res (Bytes × List QInput)
  | buf, [] => .ok (buf, [])
  | buf, g :: gs => do
    let b ← spanOf ser g
    let (buf', es) ← packGroups ser (buf ++ b) gs
    return (buf', ⟨(g.head?.map (·.best)).getD default, buf.length % 2 ^ 32, 1⟩ :: es)

/-- feature_pack_quadtree.cc:33-50: all buckets; the buffer and the quad trees (empty string for an empty bucket) -/
def packBuckets (srt : List QFeature → List QFeature) (ser : Feature → Res Bytes) (root : Tile) :
    Bytes → List (List QFeature) → Res (Bytes × List Bytes)
  | buf, [] => .ok (buf, [])
  | buf, b :: bs =>
    if b.isEmpty then do
      let (buf', ts) ← packBuckets srt ser root buf bs
      return (buf', [] :: ts)
    else do
      let (buf', es) ← packGroups ser buf (equalRanges (fun x y => decide (x.key = y.key)) (srt b))
      let t ← makeQuadTree root es
      let (buf'', ts) ← packBuckets srt ser root buf' bs
      return (buf'', t :: ts)

/-- feature_pack_quadtree.cc:57-59: append the trees; the buffer and their offsets (0 for an empty one) -/
def appendTrees : Bytes → List Bytes → Bytes × List Nat
  | buf, [] => (buf, [])
  | buf, t :: ts =>
    let r := appendTrees (buf ++ t) ts
    (r.1, (if t.isEmpty then 0 else buf.length % 2 ^ 32) :: r.2)

/-- feature_pack_quadtree.cc:12-60 and feature_pack.cc:57-64 behind the reading of the input packs: the buckets, the header with one segment,
the spans, the trees, the array of tree offsets (feature_pack.h:106-112), its offset in the header (feature_pack.h:81-83; the
segment's offset field is at position 6), the checksum.  A root deeper than zoom 21 would wrap the number of buckets: not modelled (throws). -/
def packIndexedFeatures (crc : Bytes → UInt32) (srt : List QFeature → List QFeature) (ser : Feature → Res Bytes) (root : Tile)
    (fs : List Feature) : Res Bytes := do
  verify (decide (root.z ≤ kMaxZoomLevel + 1))
  let qs ← locateAll root fs
  let buckets := (List.range (kMaxZoomLevel + 1 - root.z)).map (fun i => qs.filter (fun q => bucketOf root q.feature = i))
  let header ← finishHeader (fs.length % 2 ^ 32) [0]
  let (buf, trees) ← packBuckets srt ser root header buckets
  let (buf, offsets) := appendTrees buf trees
  let idx := buf.length
  let buf := buf ++ offsets.flatMap encVarint
  let buf := buf.take 6 ++ leBytes 4 (idx % 2 ^ 32) ++ buf.drop 10
  return finishPack crc buf

/-- feature_pack_quadtree.cc:19-21: read the features of one input pack -/
def readFeatures (rd : Bytes → Nat → List Bool) (dec : List Meta) : List Bytes → Res (List Feature)
  | [] => .ok []
  | s :: ss => do
    match ← deserializeFeature rd dec s with
    | none => .throw_
    | some f => do
      let fs ← readFeatures rd dec ss
      return f :: fs

/-- feature_pack_quadtree.cc:18-29 -/
def readPacks (rd : Bytes → Nat → List Bool) (dec : List Meta) : List Bytes → Res (List Feature)
  | [] => .ok []
  | p :: ps => do
    let (ss, _) ← unpackFeatures p
    let fs ← readFeatures rd dec ss
    let gs ← readPacks rd dec ps
    return fs ++ gs

/-- feature_pack.cc:57-64 `pack_features(tile, metadata_coder, packs)` -/
def packIndexed (crc : Bytes → UInt32) (srt : List QFeature → List QFeature) (mk : Line → Bytes) (rd : Bytes → Nat → List Bool)
    (dec : List Meta) (root : Tile) (packs : List Bytes) : Res Bytes := do
  let fs ← readPacks rd dec packs
  packIndexedFeatures crc srt (serializeFeature mk dec false) root fs

/-- feature_pack.h:129-140 `find_segment_offset` (the last matching segment wins) -/
def findSegmentOffset (s : Bytes) (id : UInt8) : Res (Option Nat) :=
  if s.length < 5 then .ub else
  let count := leNat ((s.drop 4).take 1)
  if (count + 1) * 5 ≤ s.length then
    .ok ((List.range count).foldl (fun o i =>
      if (s.drop ((1 + i) * 5)).head? = some id then some (leNat ((s.drop ((1 + i) * 5 + 1)).take 4)) else o) none)
  else .ub

/-- feature_pack.h:185-189: one span up to its zero; yields the features and the rest -/
def readSpan (bs : Bytes) : Res (List Bytes × Bytes) :=
  match h : decVarint bs with
  | .ok (0, rest) => .ok ([], rest)
  | .ok (n + 1, rest) =>
    if n + 1 ≤ rest.length then do
      let (fs, r) ← readSpan (rest.drop (n + 1))
      return (rest.take (n + 1) :: fs, r)
    else .ub
  | .throw_ => .throw_
  | .ub => .ub
  termination_by bs.length
  decreasing_by
    have := decVarint_rest_lt h
    simp only [List.length_drop]; omega

/-- feature_pack.h:184-190: `span_count` spans one after the other -/
def readSpans : Nat → Bytes → Res (List Bytes)
  | 0, _ => .ok []
  | n + 1, bs => do
    let (fs, r) ← readSpan bs
    let gs ← readSpans n r
    return fs ++ gs

/-- feature_pack.h:182-191, the callback for every reported pair; a position behind the string is `ub`
(for no spans at all nothing is read) -/
def readHits (s : Bytes) : List (Nat × Nat) → Res (List Bytes)
  | [] => .ok []
  | (off, n) :: hs =>
    if n ≠ 0 ∧ s.length < off then .ub else do
    let fs ← readSpans n (s.drop off)
    let gs ← readHits s hs
    return fs ++ gs

/-- feature_pack.h:174-192: `n` further levels; `idx` is the rest of the string from `idx_ptr` -/
def readLevels (s : Bytes) (root q : Tile) : Nat → Bytes → Res (List Bytes)
  | 0, _ => .ok []
  | n + 1, idx => do
    let (off, idx) ← decVarint idx
    if off = 0 then readLevels s root q n idx
    else do
      let hits ← walkQuadTree (readNth s off) root q
      let fs ← readHits s hits
      let gs ← readLevels s root q n idx
      return fs ++ gs

/-- feature_pack.h:161-193 `unpack_features(root, string, tile, fn)`: the strings passed to `fn` -/
def unpackTile (root : Tile) (s : Bytes) (q : Tile) : Res (List Bytes) := do
  verify (decide (s.length ≥ 5))
  match ← findSegmentOffset s 0 with
  | none => do
    let (fs, _) ← unpackFeatures s
    return fs
  | some off => do
    verify (decide (s.length ≥ off))
    readLevels s root q (max root.z q.z - root.z + 1) (s.drop off)

end Tiles
