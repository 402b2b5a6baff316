# Formal model of motis-project/tiles — design

## Layout

* `properties.jsonl` – the English properties C01…
* `lean/Verif/Model/*.lean` – executable model; each definition cites the file and lines of /repo it models.
* `lean/Verif/Spec/*.lean` – small specification vocabulary, independent of the model's helpers.
* `lean/Verif/Proof/*.lean` – helper lemmas.
* `lean/Verif/Props/Cxx.lean` – the property theorems (named `Cxx_…`), each with concrete non-vacuity examples.
* `MANIFEST.json` – property → theorems; `seeded/LOG.jsonl` – wrong-program experiments.

* `lean/Verif/Props/UnitTests.lean`: the unit tests of /repo/test, carried over to the model as examples that the kernel evaluates: quad_tree (with the real-world
  case), bq_tree, tile_index, pack_file, layer_names, hybrid_node_idx (single and batch queries, limits, duplicates), clip (points), fixed_geometry (the
  limits; the random cases are theorems), aggregate_line_features, feature_pack, strange_geometry. They check the model against the code and prove no property.
  Not carried over: the fuzz tests, repack_features_test (random; C15, C33), compress_deflate and clipping of polylines and polygons (libraries), the
  tests that need files.

## Modelling conventions

* `Res α = ok | throw_ | ub`: exceptions and undefined behaviour are distinct outcomes.
* `std::string`/`string_view` are `List UInt8`; fixed-width integers are `UInt64`/`UInt32`, or `Nat`/`Int` with
  explicit wrap-around or explicit range hypotheses where the width matters.
* `std::map`/LMDB tables are key-ordered lists or finite functions; a loop is structural recursion or fuel-free well-founded
  recursion; threads are interleavings of atomic steps (`step` relations), a crash is the set of prefixes of the step list.
* Host is little-endian, `size_t` is 64 bit.

## Trusted base

1. Lean 4.33.0's kernel; axioms at most `propext`, `Classical.choice`, `Quot.sound` (checked by `#print axioms`).
2. The reading of /repo into the model (no code is executed here).
3. External libraries, modelled from their documented behaviour (not in the sandbox): `geo` (tile, tile ranges,
   webmercator bounds, simplify masks), `protozero` (varint, zigzag, pbf writer/reader), `utl` (verify, equal_ranges, erase_if,
   to_vec), `osmium` mmap vector (zero-filled growth, zero-trim on open), LMDB (ordered map, atomic commit), `boost`
   (containers, crc_32 as an abstract function, in C58 concretely; envelope), zlib (opaque function), Clipper (its three operations are
   parameters; C34 assumes of them only the area contract `Spec.ExactAt`, and a raster implementation is proved to meet it; C69 assumes besides of the shapes `Spec.GoodShapes`, and `coarseLib` is proved to meet both; C48 assumes nothing).
4. Not modelled: floating point (projection, area, Lua profile), the inside of Clipper, zlib contents, the Lua bindings,
   memory allocation failure, OS/page-cache behaviour on power loss, progress bars, the command-line front ends
   (option parsing; `import.cc` and `benchmark.cc` are modelled, C54 and C80).  `std::sort` is any function whose result is sorted and a permutation;
   `std::hash`/unordered iteration order, where it is visible, is a parameter or irrelevant to the statement.

## Which code is modelled where

| module | code |
|---|---|
| `Model/Tile`, `TileKey`, `TileSpec` | `geo::tile`, `db/tile_index.h`, `mvt/tile_spec.h` |
| `Model/Varint`, `Pbf`, `GeometryIO`, `FeatureIO` | protozero subset, `fixed/io/*`, `feature/{serialize,deserialize}.h` |
| `Model/Metadata`, `SharedMetadata`, `LayerNames` | `feature/metadata.h`, `db/shared_metadata.h`, `db/layer_names.h`, `osm/pending_feature.h` |
| `Model/PackFile`, `FeaturePack`, `QuadTree`, `IndexedPack` | `db/pack_file.h`, `db/feature_pack*.{h,cc}`, `db/quad_tree.*` |
| `Model/Inserter`, `RecordScan` | `db/feature_inserter_mt.h`, `db/tile_index.h` cursor scans |
| `Model/Defrag`, `Repack`, `PackDb`, `Parallel` | `db/repack_features.h`, `db/feature_pack.cc` (`pack_features(db)`), `util_parallel.h`, the two drain loops |
| `Model/BqTree`, `GetTile`, `Prepare` | `db/bq_tree.*`, `get_tile.h`, `db/prepare_tiles.*` |
| `Model/Mvt`, `TileBuilder`, `Aggregate`, `Fixed`, `Clip` | `mvt/*`, `feature/aggregate_line_features.*`, `fixed/algo/*` |
| `Model/NodeIdx`, `OsmGeometry`, `Shapefile`, `ShapeZip`, `Coastline` | `osm/hybrid_node_idx.*`, `osm/read_osm_geometry.*`, `osm/load_shapefile.*`, `osm/load_coastlines.*` |
| `Model/FeatureHandler` | `osm/pending_feature.h`, `osm/feature_handler.cc`, the handler threads and the final store of `osm/load_osm.cc` |
| `Model/LoadOsm` | `osm/load_osm.cc:52-137` (both passes; not: progress, statistics, the limit on buffers in flight; the work on one buffer is one step; the osmium reader gives the objects, the osmium multipolygon manager is a parameter, any function of the buffers it got before and the one it gets) |
| `Model/HttpServer`, `HttpFields` | `server.cc` connections, accept loop, response object |
| `Model/Url`, `Server` | `parse_tile_url.h`, `util.*` url decoding, `server.cc` dispatch and static files |
| `Model/SharedFile` | the pack file as seen by two processes (`db/pack_file.h`, `server.cc`, `import.cc`) |
| `Model/Area`, `Spec/Area` | area.h and boost's area of rings, with a rounding function for `double`; what is assumed about it (C63) |
| `Model/Convert`, `Spec/Mercator` | convert.h; the map over the reals, the numbering of tiles, what is assumed about the library `geo` (C64) |
| `Model/PerfCounter`, `Model/GetTileSeq`, `Spec/Perf` | perf_counter.h/.cc; get_tile.h statement by statement, with the calls on the counter (C65) |
| `Model/PrepStats` | prepare_tiles.cc:25-32, 54-59, 75-98: the statistics of the preparation and its log (C83) |
| `Model/Report`, `Spec/Report` | util.h:105-207, perf_counter.cc:15-57, database_stats.cc:33-49, 105-138: the text of figures, lines and reports; the spec is a reader of figures (C84) |
| `Model/ClientStyle` | client/style-default.js, client/style-background.js as data (source-layers, minzoom, filters, kinds, label texts, the colours of land use); the filters by the specification of styles (C85). Widths, colours, fonts, the collision of labels and the map library itself are not modelled |
| `Model/Benchmark` | benchmark.cc (C80) |
| `Model/LuaProfile`, `Spec/ProfileTable` | profile/full.lua and profile/background.lua, statement by statement, in a small language (conditions on tags, `if`, calls, the block that reads levels) with its meaning as a list of calls on the pending feature; the tables of what is stored (C66) |
| `Spec/ClipLib` | what is assumed about boost::geometry and Clipper (C62 and what is built on it) |
| `Spec/LineLib` | what is assumed besides about the clipping of lines (C70 only): `boost::geometry::intersection` keeps what lies in the box, to an error `e` |
| `Spec/FaithLib` | what is assumed besides about the positions (C71 only): the results of `boost::geometry::intersection`, of Clipper and of `geo::simplify` lie along their input (and the border of the box), to the errors `e` and `τ`; the stored masks keep rings closed (they keep the ends of lines, C41) |
| `Spec/PolyLib` | what is assumed besides about the clipping of areas (C77 only): Clipper leaves an edge along each edge of proper outlines that comes into the box by more than the distance at which other edges may come close, to an error `e`; holes of the result lie in the box of their outer contour, to `e`. `Props/C77b` gives a function that meets it |
| `Spec/CoverLib` | what is assumed besides about the simplification of joined lines (C78 only): from every point of the line it is not further than `τ` units to the simplified line (that is what Douglas-Peucker with a threshold does). `Props/C78b` shows that removing nothing meets it with `τ = 0`, and that a function which removes the inner points of short lines meets it with `τ = 1` |
| `Model/Sort`, `Ranges`, `Basic` | `std::sort` instance used for evaluation, `utl::equal_ranges`, the `Res` monad |

## Plan per property

| id | property | model and proof |
|---|---|---|
| C01 | Tile keys round-trip and reject out-of-range input | `tileToKey`/`keyToTile` over UInt64; arithmetic normal form of the key, then omega. |
| C02 | Key order is (z,y,x,n) order, so one cursor scan visits exactly one tile row range | LMDB table = key-sorted list, SET_RANGE = dropWhile, NEXT = tail; scan = filter by area, by induction over rows. |
| C03 | A feature is indexed in exactly the index tiles its bounding box meets | `makeTileRange` with arithmetic shift and truncating division; membership ⇔ a point of the box lies in the tile square. |
| C04 | Varint and zigzag codecs round-trip and consume exactly their own bytes | varint writer/reader of protozero as byte functions with throw on truncation; induction on the value. |
| C05 | Pack-record lists stored in the database round-trip | byte-level model of append/read of 16-byte records; induction on the list. |
| C06 | Pack file reads return what was written and writes do not disturb other records | pack file = (mapped bytes, size) with resize/memcpy/memmove; invariant over operation histories. |
| C07 | Pack file survives close and reopen | close = push 'a' when last byte zero or empty; open = trim zeros over the whole mapping. |
| C08 | Seaside tree answers coverage exactly | level maps → tree → serialized words; representation predicate, induction on trees. |
| C09 | Seaside tree enumerates the covered area below a tile | same representation predicate, stack traversal. |
| C10 | Quad-tree index returns exactly the spans relevant for a query tile | level maps with offset/size aggregation → serialized nodes; preorder contiguity invariant. |
| C11 | Feature packs round-trip | byte-level pack/unpack; induction on the feature list. |
| C12 | Produced packs are accepted by the validity check, and a damaged checksum is not | crc32 an arbitrary function of the bytes; header and trailer at byte level. |
| C13 | Indexed packs lose and duplicate nothing on whole-pack reads | full packer model (bucket, sort, group, append); permutation argument. |
| C14 | Indexed lookups return every feature a tile needs, each once | packer (best tile, bucket, sort, quad tree) composed with the C10 walk; coverage lemma for find_best_tile; exact set of features read. |
| C15 | Repacking never overwrites data that is still needed | memory manager and worker pool as a state machine over a real file of bytes; invariant: pending records above the write head, results below; final file = new packs, byte for byte. |
| C16 | Defragmentation always finishes with a usable layout | defragmentation as a step machine on the file and the task list; terminates; ends contiguous or throws; throws only when space is short; witnesses where it stalls. |
| C17 | The feature inserter neither loses nor duplicates features | inserter as state machine over insert/flush; refinement to a multiset per tile. |
| C18 | Committed records never dangle | crash = prefix of steps of the same machine; invariant on committed records. |
| C19 | Node index returns the last stored coordinates of each node | builder and reader at byte level (var-int spans); span invariants, history of updates → last stored value. |
| C20 | Batch lookup in the node index equals single lookups | batch reader as state machine vs pointwise lookup. |
| C21 | Fixed geometries round-trip through their binary form | pbf-level model of serialize/deserialize with delta coders; induction on parts. |
| C22 | Features round-trip through their stored form | composition of C21 with metadata coding and header. |
| C23 | Early filtering on deserialization is exact | header decode, exact condition of the early return. |
| C24 | Shared metadata table encodes and decodes consistently, also after reload | builder/coder/decoder model; sortedness and uniqueness. |
| C25 | Layer names keep their index across store and load | map-of-names state machine; store/load round trip. |
| C26 | Shifting to a zoom level never produces degenerate output | shift/transform_erase model; equality with destutter of rounded points. |
| C27 | MVT geometry commands decode to the tile-local geometry | encoder and an independent MVT decoder; round trip with cursor. |
| C28 | Tiles contain each feature once and its tags resolve | layer builder state machine, invariant on tables and id sets. |
| C29 | Requests are answered from the right source | decision logic over the database, the seaside tree and the rendering of the read packs, down to bytes. |
| C30 | Tile preparation covers every tile exactly once | batch iterator under a mutex: interleavings = permutations of batches; coverage by induction. |
| C31 | In-order queue processes items in index order exactly once | step relation for threads, ghost history; invariant by induction over all interleavings. |
| C32 | Sequential producer hands out consecutive unique indices | step relation as in C31. |
| C33 | Drain loops terminate only when all results were handled | step relation with counters read non-atomically; invariant for load_coastlines, counterexample schedule for repack. |
| C34 | The coastline loader partitions the map into land, sea and coast tiles | task tree and worker/main interleavings; even-odd area semantics of every clipped polygon under the contract `ExactAt` of Clipper; leaves cover each deepest tile once and carry exactly the land there; the seaside tree is exactly the sea; a run can always end; no task fails (contract `Fills`: a covered rectangle clips to itself) unless a level-10 tile with its margin is all land but covered by no single polygon. |
| C35 | Tile URLs parse exactly | parser over characters. |
| C36 | URL decoding inverts percent encoding | decoder over characters, inverse of an encoder given in the spec. |
| C37 | Tags keep their meaning when exported as typed metadata | encoders of typed tags; violated parts proved as negations with witness. |
| C38 | Line aggregation preserves geometry and does not merge different features | joining lines by shared end points: model of the matching and of the emission loop; multiset of segments is preserved, only features that agree on everything compared are joined; composed with tile building. |
| C39 | Shapefile polygons are read with the rings stored in the file | byte-level ring reader; negation with witness plus single-ring partial theorem. |
| C40 | OSM multipolygons convert ring by ring | ring-wise conversion; negation with witness plus partial theorem. |
| C41 | Simplification masks keep end points and produce a subsequence of points | mask reader as bit function; subsequence theorem. |
| C42 | Typed metadata values round-trip | byte encoders and decoder of values. |
| C43 | Node locations applied to ways are the stored ones, absent ones stay invalid | offset arithmetic with 32-bit wrap; way-node update through the batch reader. |
| C44 | Rewriting the index is atomic with respect to crashes | crash points of pack_features(db): state machine over the database and the file; full property refuted with a witness; the proved parts say when every record is right. |
| C45 | HTTP requests get the documented status | dispatch decision logic. |
| C46 | Clipping points and lines keeps exactly what is inside | points: filter by strict interior; lines: pieces inside the box. |
| C47 | Static files: the file named by the path is served | path join and lookup over an abstract file system; traversal refuted/recorded. |
| C48 | Polygon clipping copies the clipper's solution completely, rings closed | Clipper's PolyTree as data; conversion proved complete, ring by ring. |
| C49 | An inserted feature is read for every tile that shows it | composition of C03, C17, C11/C22, C02 and C23. |
| C50 | What is loaded from OSM is what the profile says | profile = arbitrary list of calls on the pending feature; handler threads interleave on the two builders; invariant per thread; composed with C24, C25, C49. |
| C51 | Polygon aggregation keeps every polygon and merges only features with equal metadata | the (currently not called) polygon aggregation, function by function: grouping by metadata, concatenation of the polygons; independent spec `PolygonsAggregated`. |
| C52 | insert → pack → (prepare) → serve shows what was inserted | composition of C17 (inserter), C44 (rewriting of the index), C13/C14 (spatial index), C23 (reading), C28/C29/C30 (rendering, preparation): `Imported` is the state left by complete runs under any schedule; invariant `LaidOut` (records of the table never overlap) along the inserter; `C44_ends` by induction on the measure of C15. |
| C53 | Each OSM loading thread has its own handler | small-step model of `get_handler` (scan, fetch_add, write) for any number of threads; invariant: slots below the counter are owned or about to be written by exactly one thread; data race as a reachable state (`C53_race`). |
| C54 | `tiles-import`: tasks, what it starts from, what is served afterwards | each stage is a relation (files before, ended normally or not, files after); `run_tiles_import` is their sequence with guards; the stages are instantiated with the models of C17/C52 (loading), C55 (statistics), C44 (packing), C30 (preparation); induction over the list of imports with the state `Ready` (what is still to come). |
| C55 | `database_stats` never fails on what the import produced, with exact numbers | the reader loop over raw fields, packs, records and tiles; composed with C17/C52 (after inserting and after packing) and C30 (after preparing). |
| C56 | damaged stored bytes give exceptions | the decoders of C12/C13/C24/C25 on arbitrary bytes: by cases on every reader, induction on the bytes left (each field takes at least one); the unchecked accessors of protozero and the missing length check of packs are findings. Signed overflow of decoded coordinates is not modelled (the integers are unbounded), nor is the memory asked for by `reserve` of a declared size (an exception in the code, `bad_alloc` or `length_error`). |
| C57 | bounds on the memory held by inserting and packing | invariant over the threads of C17's model: bytes in the buckets + slack of each thread ≤ upper threshold (a flush only ends below the lower threshold, each thread past `bump` owes at most its call); for packing, an invariant over the steps of C15's model relating tasks under way to the position in the round; the finding is a constructed run, by induction over the tasks. |
| C58 | damage a pack's checksum detects | bitwise CRC-32 (the definition boost's table implementation computes); all valid packs leave the same remainder; the register is injective per bit and a difference climbs one position per step back, hence bursts; it is linear, and its period 2^32-1 is computed with powers of its matrix (generated literals, checked by the kernel), hence two-bit errors and zeros. |
| C59 | life of an HTTP connection | step function over the pending asynchronous operations of all connections (asio and beast by what they promise; handlers atomic, `start()` in two steps), environment actions for clients, network and clock; invariant per connection; a weight that each of its actions lowers, hence release under fairness; findings as concrete runs. |
| C61 | server next to an import | one file, one size per process (Model/SharedFile); what the index refers to is kept by inserting (C18) and by packing (C44_kept), so a process with any other size reads the same or throws; lifted to `getTile`. Exit of the server as a write to the shared file. |
| C60 | header fields of every answer | the response object as a mutable message, statement by statement, exceptions keep what was set; related to the answers of C45 handler by handler. |
| C62 | from the imported features to the coordinates a client sees | the libraries that clip (boost::geometry, Clipper) by a small specification (`Spec/ClipLib`: results near the box, an alternating tree, paths with an area are accepted); with it the hypothesis `LayerOk` of C28/C29 is proved from the features alone; composed with C54, C29, C28, C38 up to the decoded answer. Refused polygons: invariants over the buffers of the builder. |
| C63 | areas decide exactly what is drawn, and how far they are off otherwise | `double` as rationals with a rounding function `fl` that is exact on integers and halves up to 2^53 and has a relative error of 2^-53; partial sums of a ring are bounded by its size (the sum telescopes), so in a tile everything is exact; composed with C28/C62 to "which polygons a client sees". Error bound for large polygons by induction over the weighted sums. |
| C64 | places, tiles and coordinates agree with the usual map | the Mercator projection over Mathlib's reals (`arsinh`, `tan`, with the wiki's formula as a theorem), the library by its error `e`; the clamp of convert.h keeps the error; floor arithmetic for tiles; composed with C62 to the client's coordinates; the way back by the Lipschitz constant of the Gudermann function. |
| C65 | measuring changes nothing; what the counters count | get_tile as a computation that yields its calls on the counter and its outcome (`Traced`); outcome equal to `getTile` by induction over packs and features; counts by a fold over the trace that is insensitive to what was running before; times by an automaton that keeps recorded intervals disjoint (Hoare-style composition over the statements, exceptions included) |
| C66 | what the two profiles that come with the program make of OSM objects: the first row of a table decides | the six functions of the profiles are shown to agree with the tables (`Proof/ProfileCases`: case splits on the tags they look at), the calls are then put through C50; `numeral` (LuaJIT's `tonumber`, sol's conversion to int64) is a parameter; a Lua error in it ends the script. Pattern matching (`-?[%d]+`, `;`) is modelled on octets and specified by `C66_level_*`. |
| C67 | how large an import makes the pack file; an import can be completed | a potential over all states of the inserter (bytes in the buckets and in the threads pay for what is written; `Proof/InsSpace`), of the packer (`Proof/RepackSpace`: old records are only counted until their tile is rewritten), `Proof/FileGrowth` for the length of the file on disk, `Proof/PackSize` for the size of an indexed pack (levels of the quad tree); then existence of a complete run from C17/C44/C30 termination, C55 and C62. The memory bound of the packing must hold the inserted file (otherwise C44 has the counterexample), so large imports are covered by the bounds only. |
| C68 | from an OSM file and a shipped profile to what a client reads of a tile; the server starts; the import can end | `Model/RenderCtx` (`make_render_ctx`: `std::stoi` of the stored level, layer names, shared metadata), `Spec/OsmData` (objects of the file; `OsmLoads`: a finished run of the loading threads of C50), `Proof/OsmShape` (what `read_osm_geometry` gives lies on the map and has counts that the formats hold), `Proof/OsmLoaded` (the features handed over are those of the table of C66, once each); then composed with C62 (import to client), C64 (places), C67 (completion). `OsmSetting.Ok` states what is assumed of the libraries, `OsmSetting.Fits` what of the data: places on the map, rings of four points, record sizes (32 bytes to 4 GiB), polygons that do not collapse when simplified
| C69 | the sea on the map: from land polygons through the coastline threads, the import and the server to every point of every tile | `Spec/Sea` (`CoastLoads`: a finished run of the threads of C34; `GoodShapes`: what is assumed of the shapes Clipper makes: closed rings within the rectangle, holes inside of outer rings, the box of what is left of a tile touches the tile), `Proof/CoastSea` (the features inserted are those of the handled results, known by their bytes (C22), at most one for each tile of level 10, apart from the sea tiles; each point that is not land is in a sea tile or in the tile of a feature), `Props/C69`: `SeaDrawn` for the leaves of the tree and the features read (C29, C52, C54), composed with C62 and C68; `C69_coast_ends`, `C69_completes`. `Proof/CoarseLib`: a polygon library that meets all assumptions, with sizes; `Props/C69b`: a continent and a city, imported on top of anything: all hypotheses are met. |
| C70 | streets are drawn: every line of the file is seen where it runs through a tile (levels 11 to 20) | `Spec/LineLib` (`LineLib`: what is assumed of the clipping of lines: segments inside of the box stay, of a segment that crosses it by more than twice the error there is a segment along it; `SegmentSeen`, `LineSeen`), `Props/C70`: `C70_line` (one tile: clip, floor to the level, drop of repeated points keeps neighbours apart from equal ones, encode, decode), `C70_served` (after any import; C52, C54, C62), `C70_streets` (from the OSM objects; C64, C66, C68; positions on the Mercator map). `Proof/ClipLine`: a clipping library that meets `ClipLib` and `LineLib` together; `Props/C70b`: a street imported on top of anything and seen by a client, inside of the tile and up to its border. |
| C71 | nothing is drawn out of place (soundness of positions, all levels) | `Spec/FaithLib` (`FaithLib`: what is assumed of the results of the libraries: they follow what they got; `Follows`, `Piece`, `OnShape`, `OnFrame`), `Props/C71`: `C71_content` (one tile: clipped, floored, joined and simplified lines follow the lines of features of the same layer and metadata; outlines follow the rings and the border of the box; by induction over `destutter`, glued lines and the polygon tree), `C71_served` (after any import and preparation), `C71_osm` (from the file by the shipped profiles and the Mercator projection: rings of areas are the closed node lists, masks drop nodes only). `Props/C71b`: a library that meets `FaithLib`, and the whole way for a street: what is in the tile is the street and lies on it |
| C72 | from the OSM file to the client | `Model/LoadOsm` (both passes of `load_osm`: node index, then the pipeline reading / locating and handling / assembling with threads in any order; the osmium assembler is the parameter `asm`), `Spec/OsmFile` (what a file says: `nodesIn`, `itemOf`, `FromFile`, `GoodFile`), `Props/C72`: invariant over all runs of the pipeline (`PipeInv`: which buffers are where, what was given to the handlers), `C72_objects`, `C72_can_end` (measure), `C72_refused` (C19), `C72_loads` (refinement: every result of loading the file is a result of loading its data in the sense of C68), `C72_completes` (C67/C68), `C72_nodes` (C68), `C72_streets` (C70), `C72_in_place` (C71); examples in `Props/C72b` with a map library that is linear near the equator (`Proof/LinearLib`) |
| C73 | from the two input files to the client | `Model/ShapeZip` (`load_buffer`, `load_shapefile`: load_shapefile.cc:106-143; miniz is a parameter: which entries it lists and extracts), `Spec/WorldFiles` (the value of a double from its bits, what an archive says, `LandArchive`), `Props/C73`: `C73_land`/`C73_refused` (induction over the entries, C39), `C73_places` (C64), `filesEnv` (coastline from the archive, then the OSM file), `files_imports` (refinement into the environment of C69, using C72_loads), `C73_starts`, `C73_served` (C69's `world_served` with the street and in-place parts of C70, C71 and C72 on top: coastline features are polygons in layer 0, so they do not disturb ways), `C73_completes` (C69_coast_ends, C72_can_end, C67). Examples in `Props/C73b`: an archive with a strip of land and a street on it. Multi-ring polygons: see C39 (the code is wrong there) |
| C74 | requests for tiles that do not exist | `Model/GetTileSeq`, `TileSpec`, `BqTree`, `Server`. `Props/C74`: `C74_bounds` (exactly the existing tiles have bounds), `C74_lookup` (the exact result of `get_tile`; the walk of `find_parent_leaf` from a tile that does not exist wraps to level 2^32-1 and is stopped by the check of its length), `C74_prepared`/`C74_imported` (the table holds existing tiles only, from C30 and C54), `C74_http` (C45) |
| C75 | a shapefile that was cut off | `Model/Shapefile`. `Props/C75`: `C75_cut` (a reader of a shorter buffer gives the same or undefined behaviour, `CutRes`; a record of one ring that is read lies in the buffer; induction over the records; at a record boundary the cut file is the file of the first records, C39), `C75_never_refused` |
| C76 | statistics of the node index, `way` | `Model/NodeStats` (builder with counters), `Spec/NodeStats` (own byte sizes, spans by `List.splitBy`). `Props/C76`: `C76_stats` (invariant `CountInv` over the pushes; the inner run against `splitBy`), `C76_way`, `C76_agree` (with C43) |
| C77 | areas are drawn: of every area of the file, every edge of its outlines is seen where it runs through a tile (levels 11 to 20) | `Spec/PolyLib` (`Outlines`: proper outlines, `PolyLib`: what is assumed of Clipper besides C62, `EdgeSeen`, `ProperArea`), `Props/C77`: `C77_area` (one tile: clip, floor to the level, drop of repeated points, rings of three points or more, deduplication), `C77_served` (through the import, the packs and the selection by bounding boxes, levels and layers; no ring is dropped), `C77_areas` (from the file with a shipped profile). `Props/C77b`: a library that meets the assumptions, and a residential area with a hole, from the data to the client, meets all hypotheses. `Props/C77c`: the same with a coastline (`C77_world`, on `world_served` of C69), from an OSM file (`C77_file`, C72) and from the two files (`C77_files`, C73); their further hypotheses are those of C69, C72 and C73, which C69b, C72b and C73b show to be met |
| C78 | streets are drawn at the prepared levels (up to 10), where lines are joined and simplified | `Spec/CoverLib` (assumption on the simplification; `NearBy`). `Props/C78`: `C78_line` (one tile: the joined line of C38 has the points of every line that went into it; simplification, clip, floor to the level and drop of repeated points leave a line near each point, unless the whole way falls on about a point), `C78_served` (through the import, the packs, the prepared or rendered tile), `C78_streets` (from the file with a shipped profile). `Props/C78b`: a motorway, with a node without a place, at 10/640/640, meets all hypotheses. `Props/C78c`: the same with a coastline (`C78_world`, on `world_served` of C69), from an OSM file (`C78_file`, C72) and from the two files (`C78_files`, C73); their further hypotheses are those of C69, C72 and C73, which are met there |
| C79 | areas of which a pixel is left are drawn at the prepared levels (up to 10) | `Spec.LargeHere` states the pixel directly (256 square units of the clipped, rounded rings by the shoelace sum). `Props/C79`: `C79_area` (one tile; on the generalized lemmas of C77 and on C63 for the pixel test), `C79_served` (through the import and the prepared or rendered tile), `C79_areas` (from the data with a shipped profile), `C79_world` (with a coastline, C69), `C79_file` (C72), `C79_files` (C73); the further hypotheses of the last three are those of C69, C72 and C73. `Props/C79b`: a block, at 10/640/640, meets all hypotheses |
| C80 | the benchmark program measures what the server sends | `Model/Benchmark` (benchmark.cc; the ranges of tiles of the library geo are parameters, `WholeLevel` says what is assumed of a whole level). `Spec.Measured`: exit code 0, one report per group, TOTAL counts every tile, RESULT SIZE are the given sizes. `Props/C80`: `C80_measures` (any database; on C65), `C80_refuses`, `C80_level` (any database: beyond the prepared levels the sizes are the server's), `C80_imported` (after an import nothing fails), `C80_tile` (a prepared tile: on C29_prepared_equals_live and C54), `C80_level_imported`, `C80_files`. `Props/C80b`: a motorway, all modes |
| C81 | the map depends on the data only; more data hides nothing | no new model. `Spec.MapOf`: a database made by any import of the data (C68, or with a coastline C69), and the settings of the server; `Spec.Seen`: the answer and what the client reads in it; `Spec.SameRules`: what the two imports share (profile, projection, masks, clipping, test for small areas; not: threads, memory, checksums, sorting, joining). `Props/C81`: `content_origin` / `content_has` (a drawn feature that is not joined comes of one stored feature, and a stored feature that is alone with its id is drawn), `Painted` (what a tile was drawn of: the exact reading of C52/C54 through `Found`), `C81_more`, `C81_same`, `C81_files`. `Props/C81b`: a city with five threads and without coastline, and with a coastline, two threads and another memory bound |
| C82 | the map over HTTP | no new model: `ServerEnv.getTile` (the call in server.cc:204-210) is the model of `get_tile` with its statements in the order of the code (`TileCall.run`, C65) on the imported database (`Spec.ServesFrom`). `C82_shows`: whatever is seen in a tile (`Spec.Seen`, the conclusion of C62, C64, C68 – C73, C77 – C79, C81) is what the client of the request sees (C45 for the server, C65 for the call). `C82_answers`: every request has an answer, with a documented status (C45_total; tiles of the pyramid by C81, others by C74, numbers beyond 32 bits are never asked for, `handle_congr`). `C82_tile`: each path of a tile; `C82_nodes`: from the OSM file (C72) to the answer; `C82_same`: two servers (C81). Assumed: inflating is the inverse of deflating (zlib, external), tiles below 4 GiB. `C82b`: a server on the city and the bench of C68, asked for `/12/2560/2560.mvt`. |
| C83 | the log of preparing | `Model/PrepStats`: prepare_tiles.cc:25-32, 54-59, 75-98 on top of `Model/Prepare`: the same threads, with the counting in `get_batch` and each call of `finish` a step of its own between the drawing of two tiles, so another worker may raise the level in between. `C83_same` / `C83_lifts`: a refinement in both directions with the runs of C30. Invariant (`LedgerInv`): the stored figures are those of the tiles counted so far, tiles handed out are counted or with a worker, a level is logged iff it was handed out entirely and counted entirely. `C83_lines`, `C83_complete`; `C83_inverted`: what is called empty is not. Example: two workers, the line of level 1 comes first. Sums are unbounded (64 bits in the code); the text of the line (fmt) is not modelled. |
| C84 | the figures of the reports | `Model/Report`: the three formats, a line, both reports, as text. Doubles are rationals with a rounding `fl` (exact on whole numbers to 2^53, relative error 2^-53, monotone, idempotent), decimals are rounded by any `near` to a nearest whole number, `{}` of a small count by any text that can be read. The spec is a reader of figures (`readFigure`: blanks, number, unit), independent of the printing. Proof: the unit that is chosen is the least `i ≤ 3` with `fl (n / B^i) < B`; error and order for all three formats from one lemma each (`shownIn_good`, `shownIn_mono`: at a change of the unit the left figure is at most `B`, the right one at least 1 after rounding). `C84_bytes`, `C84_ns`, `C84_num` and `_order`, `C84_bytes_width`; lines: `sumDoubles_exact`, then `LineSays`; `C84_perf`, `C84_stats`, `C84_stats_unprepared`, `C84_label`. |
| C85 | the profiles and the styles fit together | `Model/ClientStyle`: both styles as lists of layers; `paintedBy` is the list of the ids of the layers that take a feature, given what a client reads of it (layer, type, tags). The hypotheses are the rule of the table that decides (C66) and that the tags are those of the rule (which C68 proves of every feature a client reads). One decidable check per table (`nodeFits`, `wayFits`, `areaFits`), lifted to all tags by lemmas on copied and constant attributes (`text_copy`, `text_const`, `text_no`). The exact list of layers in terms of the OSM tags: `C85_plain`, `C85_rail`, `C85_road`, `C85_place`, `C85_hidden`, `C85_kind` (areas are filled, lines are drawn or labelled along, places are labels); `C85_landuse`, `C85_colour`: what has no colour; `C85_fits`: all together; `C85_client`: with C68, from the OSM file to what is painted of every feature in an answer of the server; `C85_coast` and `C85_world` (with C69): the same with a coastline: what is no object of the file is sea, and painted by the layer for the sea alone. `C85_order`: what is painted over what. The last example is the run of C68; the hypotheses of `C85_world` are those of C69, met by the run in `Props/C73b` |

## Findings (behaviour of the code the model exhibits; theorem or comment at the named property)

* C74: a request for a tile that does not exist is answered 500 (not 404), or 204 at a prepared level of a database without sea.
* C75: a shapefile that was cut off is never refused: between two records the rest is silently missing, elsewhere the program reads beyond the buffer.
* C08 `bq_tree`: the comment "aggregate full nodes" is not implemented: four covered children do not make the parent covered.
* C14: an indexed pack is queried without the overdraw margin; a feature with zmin > 20 or outside the pack's root aborts packing;
  a query at z > 20 reads past the offset array.
* C16 `repack_features`: the guard `largest < free` does not guarantee that defragmentation succeeds (size 29,
  `[[(0,1),(15,9)],[(6,9)]]`; not even when free = 5 × largest); it then throws. An empty pack file is refused.
* C17: a feature of fewer than 32 bytes is accepted by insert and makes a later flush throw, losing what that flush had taken;
  an out-of-range feature is inserted partially and leaks `cache_size_`; `mem_size_` is read without synchronisation;
  a failing record update leaks the bytes already appended.
* C18/C07: a pack that ends in zero bytes loses them after a crash and reopen (zero trimming).
* C19: node ids INT64_MIN/INT64_MAX are undefined behaviour. C43: signed overflow east of 34.748°; missing nodes become
  "defined" but invalid; `load_osm`'s handler lookup is a data race.
* C24: `flush_threshold` 0. C27: two-point rings are written.
* C29: prepared tiles are never invalidated; tiles partly seaside outside the prepared range are lost; prepared tiles use the
  aggregate flags while the server's default is off, so that one and the same tile is drawn differently by the preparation (lines joined and
  simplified, polygons below a pixel dropped) and live: `C29_prepared_equals_live` and the theorems on top of it (C52, C54, C62, C64) say which
  settings a tile is drawn with (`Spec.drawing`), for a server with any settings. C30: `hardware_concurrency() == 0` marks the tiles as prepared with nothing
  prepared; `n_empty_` counts non-empty tiles (`C83_inverted`); an empty database throws.
* C33: the drain loop of `repack_features` reads the two "finished" flags in the wrong order and can leave early; the final check
  then throws and the tiles are missing from the index.
* C34: land polygons that only together cover a tile make a worker throw ("difference empty") → terminate; overlapping land polygons
  cancel (even-odd); coastlines touching only the draw margin are skipped; with `hardware_concurrency() == 0` the main loop never ends.
  `geo::tile_range_on_z` is modelled from its intent.
* C84: database_stats.cc:44 begins with "mean:" without a blank, so the line reads `sum:    3.00KBmean:    1.50KB` (last example of `Props/C84`);
* C85: with `full.lua`, platforms and stop areas are stored as landuse `public_transport`, which no style has a colour for: they are magenta (style-default.js:110) or red (`C85_colour`); building sites go to a layer `construction` (full.lua:248, and background.lua) while both styles look for `construction` among the values of `landuse`: never painted (`C85_hidden`, `C85_landuse`); the shields of `primary` roads appear later (above level 11) than those of `secondary` ones (level 6): the filter names `secondary` where `primary` is likely meant (`C85_road`);
  perf_counter.cc:24 has the blank. A figure may read `1024.00B ` (an amount just below the next unit).
* C35: unsigned wrap of numbers in URLs, `isdigit` on negative chars (UB). C36: malformed escapes such as "%4G" are accepted.
* C37: `add_tag_as_bool` is inverted; `add_tag_as_integer` stores a double. C38: an aggregated feature loses its layer and zoom levels; an empty line is UB.
* C39: all rings of a shapefile polygon are read from the first ring's points. C40: a short inner ring removes a point instead of
  the ring; UB on an empty ring. C48: an empty inner path is UB.
* C44 `pack_features(db)`: the features table is cleared and committed before the new records exist: a crash or a throw leaves the index empty; two packs of 1 GiB
  each are always lost.
* C47: a static-file path may leave the served directory.
* C49: a feature visible only through the overdraw margin of a tile in another index tile is not read.
* C51 `aggregate_polygon_features` is never called (commented out in tile_builder.cc:113-115); its output loses the layer, and a feature above zoom 20 is UB.
* C52 a polygon with rings of fewer than four points is accepted by the inserter; the reader drops these rings, so the packer may find the rest of it (or nothing) outside of the index tile: `find_best_tile` throws in a worker thread, the process terminates, and the index was already emptied (`C52_small_rings_throw`, `C52_triangle_throws`).
* C53 `get_handler`: the ids of the handlers are plain variables that one thread reads while another writes them (`C53_race`).
* C55 `database_stats` throws if the tiles table still holds a tile above the recorded highest level (`C55_stale_tile_throws`), e.g. after preparing again with a smaller level.
* C54 `tiles-import`: importing `coastlines` and afterwards `features` loses the coastlines (`C54_forgets`: every loading import clears the database first); misspelt tasks are ignored and the exit code is 0 (`C54_unknown`); databases `x` and `x.mdb` share the pack file `x.pck` (`C54_pack_name_shared`); the task `tiles` on an empty database throws (`C30_accepts`).
* C56: a known protobuf tag with another wire type reaches protozero's unchecked accessors (`C56_wrong_type`); `unpack_features` passes a feature that reaches beyond the end of the pack (`C56_pack_overrun`); `feature_pack_valid` is called by `database_stats` and tests only.
* C19: consecutive ids make a single index entry (`C19_dense_ids`), the index then gives no start inside of the run and lookups read linearly.
* C58: four zero bytes are a valid pack for `feature_pack_valid` (`C58_zeros`). C36: exactly which malformed escapes are accepted (`C36_escapes`: "%4G", "% 4", "%+4", "%-1").
* C57 `kRepackInFlightMemory` is no limit: each round reads a batch of 32 tasks whether or not 32 results were received (waiting for a result can time out), so with slow workers all packs are read into memory (`C57_unbounded`). A flush of the inserter writes the smallest buckets first (`C57_smallest_first`), hence many small packs. The feature bytes a flush has taken out of the buckets but not yet written are not counted against the threshold.
* C50: an object is stored although its profile script failed, if it had been approved before; negative ids wrap to 64 bits.
* `pack_handle`: the defaulted move constructor closes the file twice.
* C59: a client that goes away without a request holds its connection, socket included, for 60 seconds (`C59_lingers`); the answer can be sent before `start()` has started the wait for the deadline: the cancellation then has no effect and the connection is held until the deadline (`C59_late_wait`), and it is a data race on the timer; the handler of the deadline closes the socket without a strand while another thread may start writing to it (`C59_races`); a failing accept (no file descriptors left) is repeated at once, without pause (`C59_busy_loop`).
* C61: requests with a view of the database from before the packing read other bytes (`C61_stale_pack`), from before a new import other bytes or behind the end of the file (`C61_stale_import`, `C61_truncated`); a server that ends can write one byte into the packs another process has written since (`C61_exit_writes`, `C61_damages`); two imports overwrite each other's packs (`C61_two_imports`).
* C60: HEAD is answered with the body of GET (`C60_head`); answers with status 204 carry a Content-Length.
* C62: the margin drawn around a tile is 4096 units of level 20 at every zoom level (the code's own remark: "overdraw should be determined at lvl z"): a whole tile at level 20, less than one pixel below level 8 (`InMargin`). A polygon all of whose rings are flat is refused by Clipper, and then no tile it is drawn in can be served at all (`C62_refused`).
* C63: `area.h` has an overload for `fixed_xy` but none for `fixed_point`: `area` of a point converts it to a `fixed_geometry` and calls itself without end, so a profile that calls `set_approved_min_by_area` on a node crashes the import (`C63_point`). The area of a polygon of more than half of the map does not fit into 64 bits; converting it is undefined (`C63_overflow`). Areas are signed: a ring in the wrong direction is smaller than any limit (`C63_direction`).
* C69: squares of sea and coastline polygons are drawn with the overdraw margin of 4096 units around each index tile, so for tiles below level 10 they cover land next to a sea tile (`SeaDrawn.squares`, `.polygons` give exactly this margin). Tiles below level 10 outside of the area of the features which consist of several sea tiles, and always those of levels 0 to 4 (the loader makes no sea tile above level 5), are answered with nothing although they are all sea (`C69_served` excludes them).
* C64: `latlng_to_fixed` limits coordinates upwards only; that they are not negative, and what happens beyond 85.05 degrees, is left to the library (`GeoLib.nonneg` is an assumption).
* C65: ITER_FEATURE is left running at the end of a tile, so the next tile's first pack records an interval that contains everything in between (`C65_iter_gap`; the sum can exceed TOTAL); RENDER has no value for tiles that return early because they are fully sea; `high_resolution_clock` may go back, a negative duration is then recorded as a number near 2^64. benchmark.cc shuffles a list of tiles that it never uses (the tiles are requested in row order); dump.cc prints the points of the outer ring in place of those of inner rings; `tmp_file` (osm/tmp_file.h) can be copied and then closes its file twice.
* C81: of several objects with the same id and type in a layer (a file with two versions of an object, or ids that differ by 2^64) a tile shows one, and which one depends on the order in which the threads inserted them.
* C80: `tiles-benchmark z` for a prepared level draws its tiles with the settings for the levels beyond (lines are not joined, areas not dropped), and `tiles-benchmark x y z` beyond the prepared levels with those of the preparation: there the sizes are not those of the server's answers. The option text says "xyz": the level is the third number.
* C66: the limits for water areas are in the wrong order (10^6 before 10^4), level 10 is never used and water of 10^6 units² (some 90 m² at the equator) or more is stored from level 0 on (`C66_water`); the branch for disused and abandoned railways cannot be reached, since it is inside a test for railways in use, although client/style-default.js has a layer for it (`C66_no_old_rail`); full.lua drops light_rail and narrow_gauge, which background.lua shows (`C66_light_rail`); an elevator with `level=0;1;2` gets the levels 0 and 1, with `level=0-2` only 0 (`C66_level_two`); an `indoor` area whose rings cannot be read ends the import, every other one is silently left out (`C66_unreadable`). client/style-default.js has no layers for `indoor` and `construction`.
* C08: `make_bq_tree` throws exactly if two tiles have different level-0 ancestors; tiles outside of the pyramid (x, y ≥ 2^z) under one common ancestor are accepted (`C08_invalid`).
