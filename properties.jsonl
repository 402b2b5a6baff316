{"id": "C01", "title": "Tile keys round-trip and reject out-of-range input", "statement": "tile_to_key(x,y,z,n) either throws, exactly when x>=2^21, y>=2^21, z>=32 or n>=2^17, or returns a 64-bit key from which key_to_tile and key_to_n give back exactly (x,y,z) and n. Two different (x,y,z,n) never share a database key.", "quantifier": "all 64-bit x, y, z, n", "why_tests_cant": "2^64 keys; a wrong mask or shift shows up only on particular high bits that no sampled tile has.", "anchors": ["include/tiles/db/tile_index.h: tile_to_key, key_to_tile, key_to_n"]}
{"id": "C02", "title": "Key order is (z,y,x,n) order, so one cursor scan visits exactly one tile row range", "statement": "The integer order of database keys is the lexicographic order of (z,y,x,n); hence a cursor scan from key(x_lo,y,z,0) up to key(x_hi,y,z,2^17-1) meets every record of the tiles x_lo..x_hi in row y at zoom z, and no record of any other tile.", "quantifier": "all pairs of valid tiles and record numbers, all database contents", "why_tests_cant": "The scan's correctness depends on the relative order of every pair of keys, a quadratic number of 64-bit pairs.", "anchors": ["include/tiles/db/tile_index.h: tile_to_key", "include/tiles/get_tile.h: pack_records_foreach"]}
{"id": "C03", "title": "A feature is indexed in exactly the index tiles its bounding box meets", "statement": "make_tile_range(box) enumerates, without repetition, exactly the zoom-10 tiles (or the tiles of the given zoom level) whose fixed-coordinate square contains a point of the box: none is missed, none is added.", "quantifier": "all boxes with corners in the fixed coordinate range and every zoom level 0..20", "why_tests_cant": "2^128 boxes; boundary errors need corners at exact multiples of the tile size.", "anchors": ["include/tiles/db/tile_index.h: make_tile_range", "include/tiles/fixed/algo/shift.h: shift"]}
{"id": "C04", "title": "Varint and zigzag codecs round-trip and consume exactly their own bytes", "statement": "Writing any unsigned 64-bit value as a varint (or any signed value as a zigzag varint) and reading it back from the front of any longer buffer returns the value and leaves the reader at the first byte after it; a truncated varint is reported by an exception and never read past the end; a buffer whose varint is longer than ten bytes is refused.", "quantifier": "all 64-bit values, all following byte strings, all truncations", "why_tests_cant": "2^64 values times all continuations.", "anchors": ["src/db/feature_pack.cc: append_feature", "include/tiles/db/feature_pack.h: unpack_features", "src/osm/hybrid_node_idx.cc: get_coords", "src/mvt/encode_geometry.cc: encode_geometry"]}
{"id": "C05", "title": "Pack-record lists stored in the database round-trip", "statement": "A list of pack records stored as the value of a tile and read back is the same list in the same order; adding a record to a stored value appends exactly that record; a value whose size is not a multiple of sixteen bytes is refused rather than misread, and any accepted value is the serialization of what was read.", "quantifier": "all record lists of any length, all byte strings", "why_tests_cant": "Unbounded number of records and 128-bit contents.", "anchors": ["include/tiles/db/pack_file.h: pack_records_serialize, pack_records_deserialize, pack_records_update, pack_records_foreach"]}
{"id": "C06", "title": "Pack file reads return what was written and writes do not disturb other records", "statement": "After any sequence of append, insert, move and resize operations on a pack file, a record returned by append or insert reads back exactly the bytes written, as long as no later operation wrote into its range; get throws exactly when the record is not completely inside the file.", "quantifier": "all histories of pack file operations", "why_tests_cant": "Histories are unbounded and aliasing only appears with particular offset/size combinations.", "anchors": ["include/tiles/db/pack_file.h: pack_handle::append, insert, move, get, resize"]}
{"id": "C07", "title": "Pack file survives close and reopen", "statement": "Closing a pack file and opening it again leaves every record that could be read before readable with the same bytes, even when the file ends in zero bytes or is empty. (After a crash without the orderly close a record that ends in zero bytes can become unreadable; every record whose last byte is not zero stays readable.)", "quantifier": "all file contents and all crash points between writes and close", "why_tests_cant": "Depends on the very last byte of the file and on whether the destructor ran; tests write short non-zero contents.", "anchors": ["include/tiles/db/pack_file.h: pack_handle::~pack_handle"]}
{"id": "C08", "title": "Seaside tree answers coverage exactly", "statement": "For a tree built from any set of tiles, contains(q) is true exactly when q itself or one of its ancestors was among the tiles; in particular no tile below a stored tile is missed and no other tile is reported.", "quantifier": "all finite sets of tiles up to the maximum zoom level (any duplicates, nesting and order) and all query tiles", "why_tests_cant": "Number of tile sets is doubly exponential; errors need particular shapes such as nested or duplicate input tiles.", "anchors": ["include/tiles/db/bq_tree.h: bq_tree::contains", "src/db/bq_tree.cc: make_bq_tree, bq_tree::find_parent_leaf"]}
{"id": "C09", "title": "Seaside tree enumerates the covered area below a tile", "statement": "all_leafs(q) returns q alone when q is covered; otherwise it returns exactly the maximal input tiles strictly below q, each once; their union is exactly the covered part of q.", "quantifier": "all finite sets of tiles and all query tiles", "why_tests_cant": "As C08, plus the traversal order and depth are unbounded.", "anchors": ["src/db/bq_tree.cc: bq_tree::all_leafs"]}
{"id": "C10", "title": "Quad-tree index returns exactly the spans relevant for a query tile", "statement": "For a quad tree built over tiles that carry contiguous spans of entries in depth-first order, walking it with a query tile yields spans covering exactly the entries of the tiles that are an ancestor of the query, the query itself or below it; each such entry exactly once, and no other entry.", "quantifier": "all finite sets of (tile, span) inputs below a root, all query tiles (above, inside and outside the root)", "why_tests_cant": "Unbounded trees and queries; offsets are accumulated over a whole subtree.", "anchors": ["include/tiles/db/quad_tree.h: walk_quad_tree, quad_tree_node", "src/db/quad_tree.cc: make_quad_tree"]}
{"id": "C11", "title": "Feature packs round-trip", "statement": "Packing any list of serialized features and unpacking the pack yields exactly these features in the same order; a feature shorter than the minimum size is refused at packing time.", "quantifier": "all lists of byte strings of any length and count", "why_tests_cant": "Unbounded count and sizes, varint size boundaries.", "anchors": ["src/db/feature_pack.cc: pack_features, append_feature", "include/tiles/db/feature_pack.h: unpack_features"]}
{"id": "C12", "title": "Produced packs are accepted by the validity check, and a damaged checksum is not", "statement": "Every pack produced by the packing functions passes feature_pack_valid; a pack whose checksum field does not equal the checksum of its remaining bytes, or which is too short to hold one, is rejected.", "quantifier": "all packs and all byte strings", "why_tests_cant": "Unbounded contents.", "anchors": ["src/db/feature_pack.cc: finish_pack, feature_pack_valid"]}
{"id": "C13", "title": "Indexed packs lose and duplicate nothing on whole-pack reads", "statement": "Reading all features of a quadtree-indexed pack yields a permutation of the features that were packed, with multiplicity.", "quantifier": "all feature lists and all root tiles that contain them", "why_tests_cant": "Features are bucketed by zoom level, sorted by quad key and grouped; loss needs a particular combination of these.", "anchors": ["src/db/feature_pack_quadtree.cc: pack_features, make_quad_key", "include/tiles/db/feature_pack.h: unpack_features"]}
{"id": "C14", "title": "Indexed lookups return every feature a tile needs, each once", "statement": "A lookup of an indexed pack for a tile returns every packed feature whose minimum zoom level does not exceed the tile's zoom level and whose bounding box meets the tile, never returns the same packed entry twice, and returns nothing that was not packed.", "quantifier": "all feature lists, root tiles and query tiles", "why_tests_cant": "Interaction of bucket, quad key, index walk and span encoding over unbounded inputs.", "anchors": ["include/tiles/db/feature_pack.h: unpack_features(tile)", "include/tiles/db/feature_pack_quadtree.h", "src/db/feature_pack_quadtree.cc"]}
{"id": "C15", "title": "Repacking never overwrites data that is still needed", "statement": "While the pack file is rewritten in place, each pending record of a tile that has not yet been read keeps its bytes, and each result already written keeps its bytes, whatever the order in which results arrive and whatever their sizes; when it ends the file holds exactly the results, contiguously, and each tile's new record points to its result. The run throws only when the defragmentation does not find enough space or when the collecting loop stopped with results left; it never has undefined behaviour.", "quantifier": "all initial layouts (fragmented, overlapping-free), all result sizes and arrival orders", "why_tests_cant": "The space of layouts and schedules is unbounded; overwriting happens only for tight combinations of free space.", "anchors": ["include/tiles/db/repack_features.h: repack_memory_manager, repack_features"]}
{"id": "C16", "title": "Defragmentation always finishes with a usable layout", "statement": "Defragmentation of the pack file before repacking either leaves every record's bytes readable at its updated offset, the records stacked without gaps from the end of the file downwards in task order, or throws; it always terminates, and it succeeds on every layout of a non-empty file that has space for all pending records once more plus the largest of them. (The code's own test, that the largest record is smaller than the free space, does not suffice.)", "quantifier": "all initial layouts", "why_tests_cant": "The two-queue swap only stalls on particular gap patterns.", "anchors": ["include/tiles/db/repack_features.h: repack_memory_manager::defragment_pack_file"]}
{"id": "C17", "title": "The feature inserter neither loses nor duplicates features", "statement": "After any sequence of inserts with flushes whenever the cache limit is hit and the final flush on destruction, the packs recorded for each index tile contain exactly the features inserted whose box meets the tile, each as often as inserted; whatever the cache limits.", "quantifier": "all insertion histories and cache size limits, all flush points", "why_tests_cant": "Flush selection depends on the sizes of all buckets; unbounded histories.", "anchors": ["include/tiles/db/feature_inserter_mt.h: feature_inserter_mt::insert, flush"]}
{"id": "C18", "title": "Committed records never dangle", "statement": "At every crash point of the inserter, each record in the committed database points into bytes already appended to the pack file.", "quantifier": "all histories and all crash points", "why_tests_cant": "Requires a crash between every two steps.", "anchors": ["include/tiles/db/feature_inserter_mt.h: flush", "include/tiles/db/pack_file.h: append"]}
{"id": "C19", "title": "Node index returns the last stored coordinates of each node", "statement": "For every sequence of nodes pushed with non-decreasing absolute ids and 32-bit unsigned coordinates, looking up an id that was pushed (with either sign) returns exactly its coordinates, and looking up an id never pushed returns none; independent of gaps, coordinate deltas and span boundaries, also after closing and reopening the files. Out-of-order ids, repeated ids at another place and out-of-range coordinates are refused by an exception.", "quantifier": "all id/coordinate sequences, all query ids", "why_tests_cant": "The on-disk format switches representation at gap and delta thresholds and every 1024 coordinates; unbounded input.", "anchors": ["src/osm/hybrid_node_idx.cc: hybrid_node_idx_builder::push, finish, get_coords", "include/tiles/osm/hybrid_node_idx.h"]}
{"id": "C20", "title": "Batch lookup in the node index equals single lookups", "statement": "Resolving a sorted batch of node ids gives each id the same answer as a single lookup of that id, whatever the batch.", "quantifier": "all indexes and all sorted batches, including duplicates and absent ids", "why_tests_cant": "The batch reader is a state machine that sometimes skips ahead; errors need particular distances between ids.", "anchors": ["src/osm/hybrid_node_idx.cc: get_coords(idx, query vector)"]}
{"id": "C21", "title": "Fixed geometries round-trip through their binary form", "statement": "Serializing a point set, polyline set or polygon set and deserializing it gives back the same geometry, for every geometry the code accepts (rings of at least four points); null geometries are refused at serialization.", "quantifier": "all geometries with any number of parts, rings and points, coordinates in the fixed range", "why_tests_cant": "Unbounded nested structure with delta coding across parts.", "anchors": ["src/fixed/io/serialize.cc", "src/fixed/io/deserialize.cc", "include/tiles/fixed/algo/delta.h"]}
{"id": "C22", "title": "Features round-trip through their stored form", "statement": "A feature written by the serializer and read by the deserializer has the same id, layer, zoom range and geometry and the same metadata entries, whether metadata is stored inline or through the shared metadata table.", "quantifier": "all features with valid layer and geometry, all shared metadata tables", "why_tests_cant": "Unbounded metadata and geometry; two encodings of metadata interact.", "anchors": ["include/tiles/feature/serialize.h: serialize_feature", "include/tiles/feature/deserialize.h: deserialize_feature"]}
{"id": "C23", "title": "Early filtering on deserialization is exact", "statement": "Deserializing with a zoom level and box hint drops a stored feature exactly when the zoom level lies outside the feature's zoom range or the box is disjoint from the feature's bounding box (or, when simplification masks are stored, the mask of that zoom level leaves no outer ring of four points); without hints nothing is dropped.", "quantifier": "all features, zoom hints and box hints", "why_tests_cant": "Comparisons at all boundaries of 32-bit coordinates stored as deltas.", "anchors": ["include/tiles/feature/deserialize.h: deserialize_feature", "include/tiles/feature/serialize.h"]}
{"id": "C24", "title": "Shared metadata table encodes and decodes consistently, also after reload", "statement": "Every metadata pair that the coder maps to an index is decoded by that index to the same pair, also after the table was stored in and loaded from the database; exactly the pairs counted at least twice are in the table, the more frequent first; unknown pairs are not encoded; unknown indices throw.", "quantifier": "all multisets of metadata pairs, all merge schedules of the counting", "why_tests_cant": "Unbounded tables; duplicates and ties in counts.", "anchors": ["include/tiles/db/shared_metadata.h: shared_metadata_builder, shared_metadata_coder"]}
{"id": "C25", "title": "Layer names keep their index across store and load", "statement": "Each layer name gets the same index every time it is requested, different names get different indices, the coastline layer is always index 0, and after storing and loading, the name at each index is the one it was given to.", "quantifier": "all request sequences", "why_tests_cant": "Unbounded sequences of names.", "anchors": ["include/tiles/db/layer_names.h", "include/tiles/osm/feature_handler.h", "src/osm/feature_handler.cc: get_or_create_index"]}
{"id": "C26", "title": "Shifting to a zoom level never produces degenerate output", "statement": "After shifting a geometry to a zoom level, no two consecutive points of a line are equal, every remaining polyline has at least two points and every remaining ring at least three, every coordinate is the original coordinate divided by 2^(20-z) rounded down, and order is kept.", "quantifier": "all geometries and zoom levels", "why_tests_cant": "Unbounded geometry; duplicates appear only after rounding.", "anchors": ["include/tiles/fixed/algo/shift.h"]}
{"id": "C27", "title": "MVT geometry commands decode to the tile-local geometry", "statement": "Decoding the geometry of an encoded feature by the vector tile specification gives back its parts relative to the tile's corner (rings without their repeated last point, closed); encoding fails (throws) exactly for a line with fewer than two points, a ring with fewer than two points, two equal consecutive written points, or an empty polygon set.", "quantifier": "all geometries and tile bounds", "why_tests_cant": "Unbounded paths; delta/cursor state is carried across parts.", "anchors": ["src/mvt/encode_geometry.cc: encode_geometry"]}
{"id": "C28", "title": "Tiles contain each feature once and its tags resolve", "statement": "Within a rendered layer, features with the same id and geometry type appear once (the first added); each feature's tag indices refer to the key and value the feature had; keys and values occur once in the layer's tables; keys 'layer' and those starting with '__' are not exported; a layer is emitted only when something was drawn in it.", "quantifier": "all sequences of added features", "why_tests_cant": "Caches and index tables grow with unbounded input sequences.", "anchors": ["src/mvt/tile_builder.cc: layer_builder, tile_builder"]}
{"id": "C29", "title": "Requests are answered from the right source", "statement": "get_tile throws above zoom 20; at or below the highest prepared zoom level it returns the stored tile, otherwise a seaside tile when the tile is covered by the seaside tree, otherwise nothing; above, or when prepared tiles are ignored, the tile is rendered live; when a tile was prepared the answer equals what live rendering returned at preparation time.", "quantifier": "all database contents and all requested tiles", "why_tests_cant": "All combinations of prepared state, seaside coverage and zoom.", "anchors": ["include/tiles/get_tile.h: get_tile, render_tile", "src/db/prepare_tiles.cc: prepare_tiles"]}
{"id": "C30", "title": "Tile preparation covers every tile exactly once", "statement": "The batches handed out to the preparation workers, over all worker interleavings, together contain every tile of zoom 0..max_zoom that overlaps the indexed area exactly once, and nothing else.", "quantifier": "all index areas, max zoom levels, numbers of workers and interleavings", "why_tests_cant": "Interleavings and areas are unbounded; a skipped remainder appears only for certain counts modulo the batch size.", "anchors": ["src/db/prepare_tiles.cc: get_batch, prepare_manager"]}
{"id": "C31", "title": "In-order queue processes items in index order exactly once", "statement": "Whatever the interleaving of worker threads, items handed to in_order_queue are processed exactly once and in increasing index order, and all items are processed when the queue drains.", "quantifier": "all interleavings of any number of threads and items", "why_tests_cant": "Thread schedules are not enumerable by tests.", "anchors": ["include/tiles/util_parallel.h: in_order_queue"]}
{"id": "C32", "title": "Sequential producer hands out consecutive unique indices", "statement": "sequential_until_finish gives each produced item a distinct index, consecutive from 0, equal to the production order, and produces nothing after the producer reported the end, for every interleaving.", "quantifier": "all interleavings", "why_tests_cant": "Thread schedules.", "anchors": ["include/tiles/util_parallel.h: sequential_until_finish"]}
{"id": "C33", "title": "Drain loops terminate only when all results were handled", "statement": "The loop collecting results of parallel workers ends only when every submitted item was processed and every result was consumed, whatever the schedule.", "quantifier": "all schedules of workers and of the collecting thread", "why_tests_cant": "A premature exit requires a precise interleaving between two reads.", "anchors": ["src/osm/load_coastlines.cc: load_coastlines", "include/tiles/db/repack_features.h: repack_features", "include/tiles/util_parallel.h: queue_wrapper"]}
{"id": "C34", "title": "The coastline loader partitions the map into land, sea and coast tiles", "statement": "When the coastline loader has ended, under every schedule of its threads, every tile of zoom 10 or more lies in exactly one decided tile: land, sea, or a zoom-10 tile with one feature handed to the database; decided tiles have levels 5 to 10 and do not overlap, no task or feature is left, and the progress counter is exactly at its maximum (and never above it). At all points where the polygon library is exact and the land polygons do not overlap, a land tile has only land, a sea tile no land, and the feature polygon of a coast tile is exactly its sea. The stored seaside tree answers exactly for these sea tiles. With at least one worker the loader can always reach its end.", "quantifier": "all land polygon sets, all schedules and numbers of workers, all tiles and points", "why_tests_cant": "The recursion tree depends on the geometry and the result on the interleaving of the workers; both are unbounded.", "anchors": ["src/osm/load_coastlines.cc: process_coastline, finalize_tile, coastline_stats, load_coastlines"]}
{"id": "C35", "title": "Tile URLs parse exactly", "statement": "parse_tile_url on any path ending in /z/x/y.mvt with decimal numbers returns that tile; on a path not ending in .mvt returns nothing; otherwise it throws; no other tile is ever returned.", "quantifier": "all strings", "why_tests_cant": "Infinite input set.", "anchors": ["include/tiles/parse_tile_url.h: parse_tile_url"]}
{"id": "C36", "title": "URL decoding inverts percent encoding", "statement": "Decoding a percent-encoded string gives back the original bytes; strings without '%' and '+' are unchanged; a truncated escape is refused and never read out of bounds.", "quantifier": "all strings", "why_tests_cant": "Infinite input set.", "anchors": ["src/server.cc: url_decode"]}
{"id": "C37", "title": "Tags keep their meaning when exported as typed metadata", "statement": "A tag exported as string, integer, number or boolean decodes to the value it had: the boolean export of value \"true\" is true and of others false, the integer export is an integer value; duplicate keys keep one entry.", "quantifier": "all tag values", "why_tests_cant": "All strings; the encoding is opaque until a client decodes it.", "anchors": ["include/tiles/osm/pending_feature.h", "include/tiles/feature/metadata.h"]}
{"id": "C38", "title": "Line aggregation preserves geometry and does not merge different features", "statement": "Aggregating the line features of a tile writes one feature for every set of metadata, with the smallest id of its parts; its lines are the lines of exactly the features with these metadata, joined wherever exactly two open lines (and nothing else) end in a point and nowhere else; every input line is used exactly once, forwards or backwards, so the multiset of undirected segments of every group stays the same (before simplification). An empty line is undefined behaviour, other geometries throw, and the aggregated feature has no layer.", "quantifier": "all lists of line features, all zoom levels", "why_tests_cant": "Graph joining over unbounded sets; reversal flags.", "anchors": ["src/feature/aggregate_line_features.cc: aggregate_line_features"]}
{"id": "C39", "title": "Shapefile polygons are read with the rings stored in the file", "statement": "A polygon record with several rings is read as the rings' own points.", "quantifier": "all polygon records", "why_tests_cant": "Offsets depend on ring count and sizes; single-ring test files do not show it.", "anchors": ["src/osm/load_shapefile.cc: read_polygon/read_ring"]}
{"id": "C40", "title": "OSM multipolygons convert ring by ring", "statement": "Reading an OSM area gives the outer rings with at least three points together with their inner rings with at least three points, in order; degenerate inner rings are dropped and nothing else changes.", "quantifier": "all areas with any number of outer and inner rings", "why_tests_cant": "Degenerate rings are rare; ring structure is unbounded.", "anchors": ["src/osm/read_osm_geometry.cc: read_osm_geometry(area)"]}
{"id": "C41", "title": "Simplification masks keep end points and produce a subsequence of points", "statement": "Reading a geometry with a stored simplification mask for a zoom level gives, per line, a subsequence of its points including first and last; the masks of lower zoom levels are included in those of higher levels' reading rule, and without a mask nothing is lost.", "quantifier": "all geometries, masks and zoom levels", "why_tests_cant": "Unbounded point counts; bit positions.", "anchors": ["include/tiles/fixed/algo/make_simplify_mask.h", "include/tiles/fixed/algo/simplify.h", "src/fixed/io/deserialize.cc"]}
{"id": "C42", "title": "Typed metadata values round-trip", "statement": "encode_bool, encode_string, encode_integer and encode_numeric produce values that the tile builder decodes to the same typed value; a value with an unknown type tag is refused.", "quantifier": "all values", "why_tests_cant": "All bit patterns.", "anchors": ["include/tiles/feature/metadata.h", "src/mvt/tile_builder.cc: layer_builder::finish"]}
{"id": "C43", "title": "Node locations applied to ways are the stored ones, absent ones stay invalid", "statement": "After updating the locations of ways from the node index, each node reference whose id is in the index has exactly the location the node had in the file, each other reference (undefined before) has an invalid location, and no other location changes. (The shift back is a 32-bit subtraction that overflows for every node east of 34.7483647 degrees: undefined in strict C++, right with the wrapping arithmetic compilers use.)", "quantifier": "all indexes and way node lists", "why_tests_cant": "Offset arithmetic is near the 32-bit limits.", "anchors": ["src/osm/hybrid_node_idx.cc: update_locations"]}
{"id": "C44", "title": "Rewriting the index is atomic with respect to crashes", "statement": "At every crash point of the packing run the database still resolves each tile to its features. (False of the code; what holds: the index never shows a wrong or unreadable record, an entry once shown stays with the same bytes, and a run that ends restores every tile.)", "quantifier": "all crash points of pack_features", "why_tests_cant": "A test would have to kill the process at every step.", "anchors": ["src/db/feature_pack.cc: pack_features(tile_db_handle&, pack_handle&, ...)", "include/tiles/db/repack_features.h: repack_features"]}
{"id": "C45", "title": "HTTP requests get the documented status", "statement": "OPTIONS is answered 204; GET and HEAD of a tile path 200 with a tile or 204 without; 501 if the client does not accept deflate; other methods 405; any exception while handling gives 500 and no exception escapes.", "quantifier": "all requests", "why_tests_cant": "All combinations of method, path and headers.", "anchors": ["src/server.cc"]}
{"id": "C46", "title": "Clipping points and lines keeps exactly what is inside", "statement": "Clipping a point set to a box keeps exactly the points strictly inside the box, in order, and reports null when none remains. Clipping lines returns exactly the pieces of the geometric intersection that have at least two points, null when there is none. The kind of geometry never changes.", "quantifier": "all point sets, line sets and boxes", "why_tests_cant": "All boundary coordinates.", "anchors": ["src/fixed/algo/clip.cc: clip(fixed_point), clip(fixed_polyline)"]}
{"id": "C47", "title": "Static files: the file named by the path is served", "statement": "A GET of a path that is neither a tile nor a glyph path is answered with the file at that path below the resource directory if it exists, else with the compiled-in resource of that name, else 404. (A path with '..' is followed out of the resource directory: the code does not confine it.)", "quantifier": "all requests, resource directories and file systems", "why_tests_cant": "ranges over all paths and file system contents", "anchors": ["src/server.cc: maybe_serve_file, maybe_serve_glyphs"]}
{"id": "C48", "title": "Polygon clipping copies the clipper's solution completely, rings closed", "statement": "Clipping a polygon set hands every outer and inner ring (without its repeated last point) to the polygon clipper and returns exactly the polygons of its solution, with holes attached to their outer ring and islands inside holes as polygons of their own, each ring closed; null exactly when the solution is empty. (An empty inner ring, which the OSM reader can produce, is undefined behaviour.)", "quantifier": "all polygon sets, boxes and clipper solutions", "why_tests_cant": "solution trees nest to any depth; rings of all shapes", "anchors": ["src/fixed/algo/clip.cc: clip(fixed_polygon), to_fixed_polygon, path_to_ring"]}
{"id": "C49", "title": "An inserted feature is read for every tile that shows it", "statement": "After features were inserted into an empty database by any number of threads and the inserter was destroyed, rendering any tile up to zoom level 20 reads exactly the inserted features whose zoom range contains the tile's zoom level, whose bounding box meets the tile with its margin, and whose bounding box meets an index tile (zoom level 10) that shares area with the tile; in particular every feature whose bounding box meets the tile itself. The rendered tile shows exactly these features and the sea squares.", "quantifier": "all sets of features, all thread schedules and cache limits, all tiles", "why_tests_cant": "it composes the inserter's schedules, the pack file, the key scan, unpacking, deserialization and the tile builder for all features and tiles", "anchors": ["include/tiles/db/feature_inserter_mt.h", "include/tiles/get_tile.h: get_tile, render_features, pack_records_foreach", "include/tiles/db/feature_pack.h: unpack_features", "include/tiles/feature/deserialize.h"]}
{"id": "C50", "title": "What is loaded from OSM is what the profile says", "statement": "For every profile script and every set of OSM objects handled by any number of threads in any order: for each object the profile approves and that has a geometry, exactly one feature is inserted, with the object's id, the zoom levels of the last approval (by area: the first limit above the object's area), the last target layer, all metadata added or exported by the calls, one entry per key, and the object's geometry; nothing is inserted for any other object. The layer index of every inserted feature is the position of its layer name in the list stored at the end, and the stored shared-metadata table holds exactly the metadata that occurs at least twice. An approved object without a layer is an error. Rendering a tile from the database reads exactly the features of such objects the tile shows.", "quantifier": "all profiles (sequences of calls), all objects, all assignments of objects to threads, all interleavings of the handlers and of metadata flushes, all tiles", "why_tests_cant": "the layer numbering and the metadata counts depend on the thread schedule, and the profile is arbitrary", "anchors": ["include/tiles/osm/pending_feature.h", "src/osm/feature_handler.cc: handle_feature", "src/osm/load_osm.cc: load_osm", "include/tiles/db/layer_names.h", "include/tiles/db/shared_metadata.h"]}
{"id": "C51", "title": "Aggregating polygon features loses no polygon and merges only features with equal metadata", "statement": "aggregate_polygon_features returns one feature for every set of metadata in its input, with that metadata, the smallest id of the features that have it, and the polygons of exactly these features in the order of their ids; over all features every polygon is there exactly once, unchanged. (Layer and zoom levels are not kept; a feature of another geometry throws; above zoom level 20 the call is undefined.)", "quantifier": "all lists of polygon features, all zoom levels", "why_tests_cant": "any number of features, any metadata, ids and orders", "anchors": ["src/feature/aggregate_polygon_features.cc: aggregate_polygon_features", "include/tiles/fixed/algo/simplify.h"]}
{"id": "C52", "title": "After features are imported and packed, a rendered tile shows what was inserted", "statement": "After a complete import (inserting features from any number of threads, packing them with the spatial index, optionally preparing the tiles), every tile the server answers, prepared or live, is rendered from inserted features only, each of them visible at the zoom level with a bounding box that meets the tile's draw bounds; and every inserted feature that is visible at the zoom level, whose bounding box has a point in the tile and that is not simplified away is among them. The packing step never throws in a worker for such features, it can always run to its end if the pack file is at most 1 GiB, and at every crash point the records of the committed table do not overlap.", "quantifier": "all lists of features per thread, all schedules of the inserter, the packing workers and the preparation, all tiles", "why_tests_cant": "composition of all import steps over every feature set, interleaving and tile", "anchors": ["include/tiles/db/feature_inserter_mt.h: feature_inserter_mt", "src/db/feature_pack.cc: pack_features", "src/db/feature_pack_quadtree.cc: quadtree_feature_packer", "include/tiles/db/repack_features.h: repack_features", "include/tiles/get_tile.h: get_tile, render_tile"]}
{"id": "C53", "title": "Each thread that loads OSM data has a feature handler of its own", "statement": "Loading OSM data with any number of threads: a thread is given the same handler on every call, no handler is given to two threads, no two threads use one at the same time; a call returns after at most (number of handlers + 3) steps of its own; no call throws if there are at most max(2, hardware threads) calling threads, and with more threads one of them throws. (The ids are read and written without synchronisation: a data race.)", "quantifier": "all numbers of handlers and threads, all interleavings, any number of calls", "why_tests_cant": "depends on the schedule of the threads", "anchors": ["src/osm/load_osm.cc: load_osm (get_handler)"]}
{"id": "C55", "title": "database_stats never fails on a database that the import produced, and its numbers are exact", "statement": "At every point at which import calls database_stats (after features are inserted; also after packing and after preparing tiles into an empty tiles table) it does not throw, reads nothing out of bounds, and counts one pack per stored record with its size, one header and one geometry per feature and index tile that its box meets, with the size of its stored geometry, and each prepared tile once, at its zoom level. The quantile is an element of the list. (It throws if the tiles table has a tile above the recorded highest level.)", "quantifier": "all sets of features, all schedules of inserting, packing and preparing", "why_tests_cant": "every feature set and every interleaving; the byte-level reader has to agree with the writer for all of them", "anchors": ["src/db/database_stats.cc: database_stats"]}
{"id": "C54", "title": "tiles-import: which tasks it runs, on what, and what the server serves afterwards", "statement": "Which tasks an import performs depends only on the set of known tasks asked for (`all` asks for all; order, repetitions and unknown names do not matter). An import that loads coastlines or features starts from nothing: what it leaves does not depend on what the files held before, nor on how the last import ended. An import without loading and packing leaves the features, their pack file and the meta information as they were, however it ends. If loading, packing and preparing are done in this order by one or several imports that end with exit code 0, the server that then opens the files answers every tile from the loaded features, as in C52. A profile that cannot be loaded is noticed before anything is cleared; the exit code is 0 only if everything asked for was done to its end; an interrupted loading import never mixes old and new features. The pack file never is the database file; two databases share a pack file only if their names differ just by `.mdb`.", "quantifier": "all task lists, all sequences of imports, all previous contents of the files, all schedules, all ends of an import (normal, exception, crash)", "why_tests_cant": "every history of imports and crash points, every schedule of the threads of each stage", "anchors": ["src/import.cc: run_tiles_import, has_any_task, main", "include/tiles/db/clear_database.h: clear_database", "include/tiles/db/pack_file.h: pack_file_name, clear_pack_file, pack_handle"]}
{"id": "C56", "title": "Damaged stored bytes: exceptions, not reads outside of the buffer", "statement": "Splitting any bytes into protobuf fields, and reading a stored geometry (with any simplification masks), a stored feature (with any box and zoom hint), the table of shared metadata or the table of layer names from any bytes ends with a value or an exception, never with undefined behaviour, provided that the known fields have their wire types; keys with tag 0, a reserved tag or an unknown wire type are refused; a metadata key without value is refused. A geometry that was read has at most half as many points as there were bytes. Without hints no feature is skipped. What was read can be clipped without undefined behaviour, whatever the clipping library returns. (Findings: a known field with another wire type is undefined behaviour in release builds; a pack whose declared feature size exceeds the pack is read beyond its end, since readers never call feature_pack_valid.)", "quantifier": "all byte strings, boxes, zoom levels, masks, metadata tables, clipping libraries", "why_tests_cant": "all byte strings, of any length; fuzzing samples some", "anchors": ["include/tiles/feature/deserialize.h: deserialize_feature", "src/fixed/io/deserialize.cc: deserialize", "include/tiles/db/shared_metadata.h: load_shared_metadata", "include/tiles/db/layer_names.h: get_layer_names", "include/tiles/db/feature_pack.h: unpack_features", "src/fixed/algo/clip.cc: clip"]}
{"id": "C57", "title": "Bounds on the memory held while features are inserted and packed", "statement": "While features are inserted by any number of threads, the features that wait in memory never take more than the upper threshold (1 GiB) plus one call per inserting thread (its feature, once for each index tile it is placed in); whenever no call is under way they take at most the upper threshold. A flush takes the smallest buckets first. While packing, the first filling stops reading when the limit is reached (without the task read last it is below the limit), and as long as the main thread never waits in vain for a result, there never are more tasks under way than after the first filling or than one batch. (Finding: with slow workers there is no limit: every round reads a further batch, and all tasks can be in memory at once.)", "quantifier": "all sets of features and threads, all schedules, all pack files and task lists, all orders in which workers finish", "why_tests_cant": "peak memory depends on the schedule of many threads; a test sees only some of them", "anchors": ["include/tiles/db/feature_inserter_mt.h: insert, persist, flush", "include/tiles/db/repack_features.h: repack_features, kRepackInFlightMemory, kRepackBatchSize"]}
{"id": "C58", "title": "Which damage of a pack the checksum detects", "statement": "With the checksum the code uses (CRC-32), a valid pack that is damaged within any 32 consecutive bits - in particular within four consecutive bytes - is no longer valid, wherever the damage is (features, index, checksum or across); a pack with any two bits flipped less than 512 MiB apart is not valid; a pack of zero bytes (never written) of up to 512 MiB is not valid, except for exactly four zero bytes.", "quantifier": "all packs of all lengths, all positions, all damaged values", "why_tests_cant": "all pairs of packs and damages of unbounded length", "anchors": ["src/db/feature_pack.cc: feature_pack_valid, packer::finish"]}
{"id": "C59", "title": "The life of an HTTP connection", "statement": "Every client that connects gets exactly one connection; on each connection at most one request is read, and exactly the answer to it is sent, then the sending side is shut down; a connection is not closed by the deadline before 60 seconds have passed; with a fair scheduler every connection is released, whatever its client does; connections do not influence each other: from every state a new client can be accepted and answered completely without any action of another connection. Two threads are in the code of one connection at the same time only while it is being started or after its deadline has passed (findings: both happen and are data races; a client that goes away without a request, and an answer sent before start() returned, hold the connection and its socket for the whole 60 seconds; a failing accept is repeated without pause).", "quantifier": "all histories of clients, requests, network failures, clock and thread schedules", "why_tests_cant": "all interleavings of handlers of any number of connections, timers and failures; liveness", "anchors": ["src/server.cc: http_connection, http_server"]}
{"id": "C60", "title": "The header fields of every answer", "statement": "Every answer, errors included, allows all origins, carries exactly one Content-Length with the length of its body, the version of the request and announces the closing of the connection; an answer other than 200 has an empty body, also when an exception left a handler half way; Content-Encoding deflate is only sent to clients that accept it; static files have the content type their name asks for. (Finding: HEAD is answered with a body, 204 with a length.)", "quantifier": "all requests, all databases, file systems and resources", "why_tests_cant": "all combinations of methods, paths, headers and failures in the handlers", "anchors": ["src/server.cc: http_connection::start, run_tiles_server"]}
{"id": "C61", "title": "A server that runs while the data is imported", "statement": "While another process inserts features, or rewrites the packs, a request is answered exactly as by a process that sees the whole pack file, or fails with an exception; never with other packs. It does not fail if its records lie inside of the size the server had when it opened the file. A server that was started and ends while features are inserted leaves the pack file as it is. (Findings: this needs a view of the database that was taken after the index was emptied: older views read other bytes or run behind the end of the file; a server that was started on an empty database, or before the data was imported anew, can write into the new pack file when it ends; two imports at the same time overwrite each other's packs.)", "quantifier": "all schedules of the import's threads, all times of the request's view and reads, all sizes the server may know, all tiles", "why_tests_cant": "two processes on one shared mapping, all interleavings", "anchors": ["include/tiles/db/pack_file.h: pack_handle, clear_pack_file", "src/server.cc: run_tiles_server", "src/import.cc: run_tiles_import"]}
{"id": "C62", "title": "What a client sees of the imported features", "statement": "After a complete import every tile is answered and the answer decodes. Every feature in it is a sea square or has the id, the type and the tags of an imported feature of the layer of that name, visible at that zoom level and near the tile; every coordinate lies in the tile or in a margin of 4096 units of level 20 (plus the rounding error of the clipping libraries) around it. Every imported point that lies in the tile is there at its place, with its id and tags, in its layer. (Finding: a polygon without area makes every tile it is drawn in fail.)", "quantifier": "all imports, schedules, feature sets, tiles; all clipping libraries that satisfy the specification Spec/ClipLib", "why_tests_cant": "a composition of the whole pipeline over all data and tiles", "anchors": ["src/fixed/algo/clip.cc: clip", "src/mvt/tile_builder.cc: tile_builder", "include/tiles/get_tile.h: get_tile", "include/tiles/mvt/tile_spec.h: tile_spec", "src/import.cc: run_tiles_import"]}
{"id": "C63", "title": "Areas: which polygons are shown, and from which zoom level on", "statement": "The area of a polygon is computed in floating point; nevertheless, for a polygon drawn in a tile, whether it is smaller than a pixel of the screen (and then left out, unless it is in the coastline layer) is decided exactly by the shoelace formula on its coordinates in the tile: a client sees a polygon in its layer if and only if something of it is drawn and it is coastline or has an area of at least 256 units. For areas that a profile uses to select the zoom level, the result is exact for polygons of a few kilometres and differs from the shoelace formula by no more than 14 N^2 D / 2^20 (N points and rings, D height) otherwise. (Findings: asking for the area of a node never returns; the area of a polygon of more than half of the map is undefined; rings in the wrong direction have negative areas.)", "quantifier": "all polygons, tiles and layers; all floating-point arithmetics that are exact on integers (and halves) up to 2^53 and accurate to 2^-53", "why_tests_cant": "rounding errors depend on the data; no sample of polygons bounds them", "anchors": ["include/tiles/fixed/algo/area.h: area", "src/mvt/tile_builder.cc: layer_builder::finish, kScreenPixelArea", "include/tiles/osm/pending_feature.h: set_approved_min_by_area"]}
{"id": "C64", "title": "Places are where maps expect them", "statement": "A place on the map (up to about 85.05 degrees north and south) gets fixed coordinates in 0..2^32-1 that differ from its position in the spherical Mercator projection by no more than the error e of the projection library; order is kept beyond 2e; the tile of a zoom level in which it is put is the one of the usual numbering (OpenStreetMap wiki: x = (lng+180)/360 * 2^z, y = (1 - ln(tan phi + 1/cos phi)/pi)/2 * 2^z), unless the place is within e units of the border of a tile; places at 180 degrees east are in the last column at every level. After a complete import a client that asks for that tile sees a node with its id and tags at its place in the tile, to one unit and e/2^(20-z). Converting back gives the place up to e * 360/2^32 degrees and the library's error.", "quantifier": "all places on the map, all zoom levels, all imports and schedules; all projection libraries with an error of at most e units", "why_tests_cant": "a real function over a continuum of places, composed with the whole pipeline", "anchors": ["include/tiles/fixed/convert.h: latlng_to_fixed, fixed_to_latlng", "include/tiles/constants.h: proj, kMaxZoomLevel", "include/tiles/fixed/fixed_geometry.h: kFixedCoordMax", "include/tiles/mvt/tile_spec.h: tile_spec"]}
{"id": "C65", "title": "Measuring a request changes nothing, and the numbers mean what they say", "statement": "get_tile takes a performance counter. The answer of a request does not depend on it (nor on packs being fetched and read one after the other). Over any session of requests on one counter, failing ones included: TOTAL has one value per request with zoom level <= 20; RESULT_SIZE has exactly the sizes of the answers that were drawn, in order; if all requests are answered, DESER_OKAY and ADD have one value per stored feature that was drawn and DESER_SKIP one per skipped feature. With a clock that never goes back the recorded times of FETCH + RENDER + COMPRESS, and the times of all steps except ITER, add up to at most TOTAL. ITER is left running between requests and also records the pauses between them. The report reads its 95% value within the list, and it is a measured value with (almost) 95% of the values up to it.", "quantifier": "all sessions of requests (any databases, contexts and tiles, failing or not), all clock readings, all accurate roundings", "why_tests_cant": "counts and sums over sessions of any length with exceptions at any point, and arbitrary times", "anchors": ["include/tiles/perf_counter.h: perf_counter, scoped_perf_counter", "src/perf_counter.cc: print, perf_report_get_tile", "include/tiles/get_tile.h: get_tile, render_seaside, render_features", "src/benchmark.cc: run_tiles_benchmark"]}
{"id": "C66", "title": "The profiles that come with the program store what their tables say, whatever the tags", "statement": "For profile/full.lua and profile/background.lua and every OSM object: the first row of a fixed table that holds for the tags of the object decides whether it is stored, on which layer, from which zoom level on (for areas: depending on the area), up to the last level, and with exactly which attributes. No tags make the import fail. Only 19 named tags matter, and not their order. Of two areas with the same tags the larger is shown from the same or a lower level. The layer is one of twelve and the first level at most 18. The levels of an elevator are the first two numbers with a semicolon between them, or the first number. (Findings: the middle level for water is never used; old railways are never stored; an indoor area with unreadable rings ends the import.)", "quantifier": "all lists of tags, all geometries, all objects; order and irrelevance of tags for every profile in the same language", "why_tests_cant": "tags are arbitrary strings in arbitrary combinations; that no combination is stored otherwise or fails needs a case analysis over all of them", "anchors": ["profile/full.lua: process_node, process_way, process_area, split_level", "profile/background.lua: process_node, process_way, process_area", "include/tiles/osm/pending_feature.h: has_tag, has_any_tag, set_approved_min_by_area", "src/osm/feature_handler.cc: handle_feature"]}
{"id": "C67", "title": "How large an import makes the pack file, and that an import can be completed", "statement": "At every point of the insertion of features, by any threads in any schedule, the pack file and the file on disk are at most as large as before plus the size of all copies of the features (one for each index tile, zoom level 10, that the box of the feature meets) and 15 bytes for each copy. The indexed pack of a tile has at most the size of its features, 182 bytes for each and 69 bytes. At every point of the packing, whatever the workers do and in whatever order results arrive, the file has grown by at most the sizes of the new packs of the tiles: old and new packs are never kept twice. For acceptable features (of a size the formats hold, packs up to 1 GiB, all inserted bytes within the memory bound of the packing) the insertion never fails, never gets stuck and can be completed from every point, every tile of the levels 0 to 10 can be rendered, and so, whatever the files held before, an import with the tasks features, pack and tiles can end with exit code 0 and leaves a pack file of at most these sizes.", "quantifier": "all features, all numbers of threads, all schedules of inserter, packer and preparation, all points of a run, all files before", "why_tests_cant": "bounds must hold at every point of every schedule and for inputs larger than any test; completability from every point is about all histories", "anchors": ["include/tiles/db/feature_inserter_mt.h: insert, flush, persist", "include/tiles/db/repack_features.h: repack_features", "include/tiles/db/pack_file.h: append, insert, move, resize", "src/db/feature_pack_quadtree.cc: make_quad_tree, pack_features", "src/db/quad_tree.cc: make_quad_tree", "src/import.cc: run_tiles_import"]}
{"id": "C68", "title": "From an OSM file to the client: what is shown is what the profile says about the file, and every place it wants is shown", "statement": "Import any OSM objects with one of the two shipped profiles (tasks features, pack, tiles, in any number of runs of the import program, on top of any database, with any number of threads in any schedule). No tags and no schedule stop the loading, and with enough memory the import can end with exit code 0. Then the server starts (it can read the prepared levels, the layer names and the shared metadata), answers every valid tile up to level 20, and: every feature that a client reads in it is an object of the file, in the layer that the table of the profile gives for its tags, with its id (modulo 2^64), its geometry type, exactly the attributes of the table with their typed values, not below the zoom level of the table, with all points within the margin of the tile; and every node that the table gives a layer for is there, in the tile in which the Mercator projection puts it, at its place to one unit of the tile.", "quantifier": "all OSM objects with places on the map, all tags, all ids, all numbers of threads and schedules, all sequences of runs, all databases before, all tiles, all libraries within the stated accuracy", "why_tests_cant": "it composes every stage (profile, loading threads, inserter, packing, preparation, server, vector tile format); a test sees one file, one schedule and a few tiles", "anchors": ["src/osm/load_osm.cc: load_osm", "src/osm/feature_handler.cc: feature_handler::handle", "profile/full.lua", "profile/background.lua", "src/import.cc: run_tiles_import", "include/tiles/get_tile.h: make_render_ctx, get_tile", "include/tiles/db/layer_names.h", "include/tiles/db/shared_metadata.h", "src/mvt/tile_builder.cc"]}
{"id": "C69", "title": "The sea on the map: where there is no land, sea is drawn; where there is land, none", "statement": "Import any land polygons (coastline) and any OSM objects with a shipped profile, in any number of runs of the import program, with any number of threads in any schedule. Loading the coastline can always come to its end and with enough memory the import can end with exit code 0; the server then starts and answers every valid tile up to level 20 (of the tiles below level 10 that have only some sea tiles in them, those in the area of the features). Each answer is drawn from squares of sea and coastline polygons such that every point of the tile that is not land lies in a square of sea or in a coastline polygon stored for the index tile of the point (and this polygon is drawn, unless simplification for the zoom level leaves nothing of it), and no point of land lies in one of them, except, for tiles below level 10, in the overdraw margin of 4096 units around the index tiles. Everything a client reads of the tile is either in the coastline layer, with the id of an index tile and no attributes, or an object of the OSM file as the profile says (C68).", "quantifier": "all land polygons, all OSM objects, all tiles, all points the polygon library is exact at, all numbers of threads, all schedules, all databases before", "why_tests_cant": "it is about every point of every tile for every coastline and composes the coastline threads, the tree of sea tiles, insertion, packing, preparation and the server", "anchors": ["src/osm/load_coastlines.cc: load_coastlines", "include/tiles/bin_utils.h", "include/tiles/db/bq_tree.h: make_bq_tree, all_leafs", "include/tiles/get_tile.h: make_render_ctx, get_tile, render", "src/import.cc: run_tiles_import"]}
{"id": "C70", "title": "Streets are drawn: every line of the file is seen where it runs through a tile", "statement": "Import any OSM objects with one of the two shipped profiles (as in C68) and ask the server for a tile of level 11 to 20. Every way that the table of the profile gives a layer for (at a zoom level not above the one of the tile) is seen in that layer, with its id and exactly its attributes, wherever it runs through the tile: for any two nodes that follow each other in the way (leaving out nodes without a place and nodes removed by simplification for the level), if both are inside of the tile and not at the same place of it, a client finds a line of that way with two successive points at the places of the nodes, to one unit of the tile and the error of the projection; and if the straight line between them only crosses the tile, in any direction, the client finds a line of that way from which no point of the crossing is further away than one unit and the errors of the libraries, unless the crossing is shorter than that.", "quantifier": "all OSM objects with places on the map, all tags and ids, all ways and pairs of successive nodes, all tiles of levels 11 to 20, all numbers of threads and schedules, all sequences of runs, all databases before, all libraries within the stated accuracy", "why_tests_cant": "a line lost at a border, by the clipping, the shift to tile coordinates, the duplicate filter or the packing shows only for special positions; it composes every stage of the import and of the server", "anchors": ["src/fixed/algo/clip.cc: clip(fixed_polyline)", "include/tiles/fixed/algo/shift.h: shift", "include/tiles/mvt/tile_builder.h", "src/mvt/tile_builder.cc: layer_builder::impl::add_feature, render", "src/osm/read_osm_geometry.cc: nodes_to_fixed, read_osm_geometry", "include/tiles/get_tile.h: make_render_ctx, get_tile", "src/mvt/encode_geometry.cc"]}
{"id": "C71", "title": "Nothing is drawn out of place", "statement": "Import any OSM objects with one of the two shipped profiles (as in C68) and ask the server for any tile of level 0 to 20. Everything a client finds in the answer comes from an object of the file for which the table of the profile gives the layer, the id and exactly the attributes that the client sees, and it lies where that object lies on the Mercator map, to one unit of the tile and the errors of the libraries: a point lies at the place of the node; no point of a line, also between the ends of its segments, is further away from the straight lines between successive nodes of the way (leaving out nodes without a place and those removed by simplification for the level), where up to level 10, because ways are joined there, it may be another way of the same layer with the same attributes; and no point of the outline of an area is further away from the outlines of the area or from the frame around the tile (4096 units of level 20 outside of it) at which areas are cut off. Lines and outlines have at least two points.", "quantifier": "all OSM objects with places on the map, all tags and ids, all tiles of levels 0 to 20, everything in the answers, all numbers of threads and schedules, all sequences of runs, all databases before, all libraries within the stated accuracy", "why_tests_cant": "a point moved, swapped, taken from a neighbouring ring or joined across a gap shows only for special data; it composes every stage of the import and of the server", "anchors": ["src/fixed/algo/clip.cc: clip", "include/tiles/fixed/algo/shift.h: shift", "src/mvt/encode_geometry.cc: encode_geometry", "src/feature/aggregate_line_features.cc", "src/osm/read_osm_geometry.cc: read_osm_geometry", "src/mvt/tile_builder.cc: layer_builder::impl::add_feature, render", "include/tiles/get_tile.h: make_render_ctx, get_tile"]}
{"id": "C72", "title": "From the OSM file to the client", "statement": "Load an OSM file (nodes, ways and relations in any division into buffers) with any number of threads: if the nodes are sorted by the absolute value of their ids and every place is valid, then the handlers together get exactly the objects of the file, whatever the order in which the threads read, work on and pass on the buffers: every node once, with its place, every way once, each of its nodes at the place that the file gives to the id of the node (without a place if the node is not in the file), and the areas that the assembler makes when it is given the buffers in the order of the file. The loading can always come to its end, and a file whose nodes are not sorted, or with two places for one node, is refused. Hence after the import of such a file, which can complete, with one of the two shipped profiles: every node with a layer is seen in the tile where the Mercator projection puts the place in the file; above level 10 every way with a layer is seen along the places that the file gives to its nodes; and everything that is seen is an object of the file, in its place.", "quantifier": "all files with sorted nodes (any objects, tags, ids, buffers), all numbers of threads and schedules, all assemblers of areas, all sequences of runs, all databases before, all tiles of levels 0 to 20, all libraries within the stated accuracy", "why_tests_cant": "the pipeline is parallel and its schedules cannot be enumerated; a location put into the wrong way, a buffer lost or handled twice shows only for special files", "anchors": ["src/osm/load_osm.cc: load_osm", "src/osm/hybrid_node_idx.cc: update_locations", "include/tiles/osm/hybrid_node_idx.h: hybrid_node_idx_builder", "include/tiles/osm/feature_handler.h", "src/import.cc: run_tiles_import", "include/tiles/get_tile.h: get_tile"]}
{"id": "C73", "title": "From the two input files to the client", "statement": "Import an archive with land polygons and an OSM file: the archive is refused if it cannot be read, if no entry before an unreadable one has a name ending in .shp, or if that entry cannot be extracted; otherwise exactly the polygons of the first such entry become the coastline, each vertex where the map library puts its place, which is where the Mercator projection puts it, to the error of the library. The import of both files, in any runs of the program that load, pack and prepare, with any number of threads and in any order of events, can end with success on top of any database; then the server starts and answers every request for a tile (below level 10: in the area of the features, or where the tile is all sea or has none), and the tile shows the sea that the polygons of the archive leave, and exactly the sea; every node of the OSM file with a layer where it is; above level 10 every way with a layer along its nodes; and everything a client sees is sea, in the layer of the coastline, or an object of the file, with its attributes, in its place.", "quantifier": "all archives whose shapefile has polygons of one ring, all OSM files with sorted nodes, all numbers of threads and schedules, all sequences of runs, all databases before, all tiles of levels 0 to 20, all libraries within the stated accuracy", "why_tests_cant": "the property joins two parallel loaders, the database, the packing and the rendering of every tile; the combinations of archives, files, schedules and tiles cannot be enumerated", "anchors": ["src/osm/load_shapefile.cc: load_buffer, load_shapefile, read_shapefile", "src/osm/load_coastlines.cc: load_coastlines", "src/osm/load_osm.cc: load_osm", "src/import.cc: run_tiles_import", "include/tiles/get_tile.h: get_tile"]}
{"id": "C74", "title": "Requests for tiles that do not exist get no tile", "statement": "A request names a tile by three 32-bit numbers; the tile exists if the level z is at most 20 and column and row are below 2^z. For every other tile the bounds are refused with an exception, the lookup returns no tile whatever the database holds, and the client gets status 500 without a body (501 without deflate), except 204 for a database without sea at a prepared level when the numbers are below 2^21. The table of prepared tiles never holds a tile that does not exist, at any moment of any preparation and after any complete import.", "quantifier": "all triples of 32-bit numbers, all database contents with in-map tables, all contexts, all seaside sets, all requests, all schedules of the preparation", "why_tests_cant": "the tiles that do not exist are almost all of the 2^96 triples, and the path to the refusal depends on the prepared levels, the seaside tree (whose walk to the root wraps around below level 0) and the key range", "anchors": ["include/tiles/get_tile.h: get_tile", "include/tiles/mvt/tile_spec.h: tile_spec", "src/db/bq_tree.cc: find_parent_leaf", "include/tiles/db/tile_index.h: tile_to_key", "src/server.cc: maybe_serve_tile"]}
{"id": "C75", "title": "What a land-polygon shapefile that was cut off leads to", "statement": "Reading the first m bytes of a polygon shapefile with polygons of one ring: if they end exactly after the header or a record, exactly the polygons of the complete records are read and nothing reports the loss; if they end in the unused part of the header, no polygon is read; in all other cases the program reads beyond the end of its buffer (undefined behaviour). In no case is the cut file refused with an exception.", "quantifier": "all polygon shapefiles with polygons of one ring, all lengths m", "why_tests_cant": "every length of every file is a case, and reading beyond a buffer need not fail in a test", "anchors": ["src/osm/load_shapefile.cc: read_shapefile, read_int_big, read_int_little, read_double_little"]}
{"id": "C76", "title": "The statistics of the node index count what it stores; the locations of a single way are those of the nodes", "statement": "Keeping statistics does not change the node index that is built nor which inputs are refused, and never leaves the bounds of the counter arrays. After the nodes of a file were pushed, the numbers reported are: the number of distinct absolute node ids; the number of spans (the stored nodes cut wherever ids are not consecutive or the step to the next node takes more than nine bytes); how many spans have at most 1, 64, 100, 1000 and 10000 nodes; and for each i < 7 how many of the stored coordinate differences take i bytes. Applying the index to a single way writes exactly the node locations to its references, or throws if a node is missing, and agrees with the update of a whole buffer.", "quantifier": "all node sequences; all ways", "why_tests_cant": "the counters are updated in a speculative pass that may stop at any point of any span; the array index depends on the data", "anchors": ["src/osm/hybrid_node_idx.cc: hybrid_node_idx_builder::impl::push, push_coord_span, dump_stats, get_stat_spans; hybrid_node_idx::way"]}
{"id": "C77", "title": "Areas are drawn", "statement": "Whatever is imported with a shipped profile, in every tile above level 10 where the server draws areas one by one, a client sees the outline of every area (buildings, lakes, land use, with holes) that the profile's table gives a layer for at the tile's level and whose outlines are proper after simplification (three corners or more, no corner twice, edges meet in joint corners only): of every edge, as far as it lies in the tile and is longer than a unit and the library errors, there is an edge of an area feature in the layer of the table, with the id of the area and exactly the attributes of the table, from which no point of it in the tile is further away than the errors and one unit. Assumed about Clipper: an edge that comes well into the box leaves an edge along it; holes lie inside of their outer ring.", "quantifier": "all data, thread schedules, import runs, tiles above level 10, areas with any number of rings", "why_tests_cant": "depends on every area, every tile border and every clipping case; passes through reading, insertion, repacking, selection by bounding box, simplification, clipping, rounding and encoding", "anchors": ["include/tiles/feature/deserialize.h", "src/fixed/algo/clip.cc: clip(fixed_polygon)", "include/tiles/fixed/algo/shift.h", "src/mvt/tile_builder.cc", "src/osm/read_osm_geometry.cc", "include/tiles/get_tile.h"]}
{"id": "C78", "title": "Streets are drawn at the prepared levels, too", "statement": "Whatever is imported with a shipped profile, in every tile up to level 10, where the server joins lines with the same tags end to end and simplifies the result, a client sees every way that the profile's table gives a layer for at the level: around each point of it (of the straight lines between consecutive nodes with a place that the level keeps) that lies in the tile, two units and the library errors off its border, there is a line in the layer of the table with exactly the attributes of the table, not further away than two units and the errors; its id is that of a way of the data with the same layer and attributes. Only a way all of which is within about a unit of the point may be missing. Assumed of the line simplification: the simplified line comes within a bounded distance of every point of the line.", "quantifier": "all data, thread schedules, import runs, tiles up to level 10, ways of any length, any number of ways joined in any order and direction", "why_tests_cant": "depends on every set of ways that meet, every order of joining, every tile border; passes through reading, insertion, repacking, preparation, selection, joining, simplification, clipping, rounding and encoding", "anchors": ["src/feature/aggregate_line_features.cc: aggregate_line_features", "src/mvt/tile_builder.cc", "src/fixed/algo/clip.cc: clip(fixed_polyline)", "include/tiles/fixed/algo/shift.h", "src/db/prepare_tiles.cc", "include/tiles/get_tile.h", "src/osm/read_osm_geometry.cc"]}
{"id": "C79", "title": "Areas are drawn at the prepared levels, too, unless less than a pixel is left", "statement": "Whatever is imported with a shipped profile, in every tile up to level 10, where the server draws areas last and leaves out those below a pixel of the screen, a client sees every area that the profile's table gives a layer for at the level and of which at least a pixel (16 x 16 units) is left in the tile after its rings were clipped to the tile and rounded to the units of the level: around each point of each of its edges that lies in the tile, off its border, there is an outline in the layer of the table with exactly the attributes of the table, not further away than two units and the library errors. Nothing else is a reason to leave an area out.", "quantifier": "all data, thread schedules, import runs, tiles up to level 10, areas with any number of rings of any length", "why_tests_cant": "depends on every shape of an area, every tile border and level; passes through reading, insertion, repacking, preparation, selection, clipping, rounding, the pixel test, the postponed drawing and encoding", "anchors": ["src/mvt/tile_builder.cc", "src/fixed/algo/clip.cc: clip(fixed_polygon)", "include/tiles/fixed/algo/area.h", "include/tiles/fixed/algo/shift.h", "src/db/prepare_tiles.cc", "include/tiles/get_tile.h", "src/osm/read_osm_geometry.cc"]}
{"id": "C80", "title": "The benchmark program measures what the server sends and changes nothing", "statement": "tiles-benchmark renders exactly the tiles it is asked for (the sample, all 4^z tiles of a level, or one tile), each once and in order, and ends with exit code 0 and one report per group; after any import with a shipped profile it never fails on tiles of levels up to 20. With compression, the sizes reported for a single tile of the prepared levels, and for a whole level beyond them, are the sizes of the server's answers to the same requests, although the program ignores the prepared tiles and draws everything anew. Two or more than three numbers, or a level beyond 20, end it with exit code 1 and without a report. The tables are unchanged and every pack that could be read is read as before.", "quantifier": "all databases, imports, option values, clocks, tiles and levels", "why_tests_cant": "sizes must agree for every tile of every database; passes through preparation, selection, drawing, compression and the counters", "anchors": ["src/benchmark.cc: run_tiles_benchmark, main", "include/tiles/get_tile.h", "src/db/prepare_tiles.cc", "include/tiles/perf_counter.h", "src/perf_counter.cc", "include/tiles/db/pack_file.h"]}
{"id": "C81", "title": "The map depends on the data only, and more data hides nothing", "statement": "Take two maps made with the same profile, projection, simplification and clipping, in any way: any number of threads and any schedule, any memory bounds, any order and division of the input into buffers, any number of runs of the import program, on top of any database, with any coastline or none. If all objects of the first are objects of the second, then in every tile up to level 20, prepared or not, everything seen in the first is seen in the second, in the same layer, with the same id, type and tags, and the same shape coordinate by coordinate. With the same objects both tiles show the same. Except: the layer of the coastline, lines at the prepared levels (which are joined with others), and features of objects that share their id and type with another object of the second data. The same holds for two OSM files, the second of which has more objects.", "quantifier": "all OSM data and files, coastlines, schedules, thread counts, memory bounds, previous databases, runs, and tiles", "why_tests_cant": "quantifies over pairs of executions of the whole program: import, selection, index, packs, preparation and drawing", "anchors": ["src/import.cc: main", "include/tiles/osm/load_osm.h", "src/osm/load_osm.cc", "include/tiles/osm/feature_handler.h", "include/tiles/db/feature_inserter_mt.h", "include/tiles/db/pack_file.h", "include/tiles/db/repack_features.h", "include/tiles/get_tile.h", "src/db/prepare_tiles.cc", "include/tiles/mvt/tile_builder.h"]}
{"id": "C82", "title": "The map over HTTP: from the data to the browser", "statement": "A server that runs on an imported database answers every request, whatever its method, path and header, with one of the documented status codes; no request ends it. A GET or HEAD of the path of a tile that exists (levels 0 to 20), from a client that accepts deflate, is answered with 204 and no body if the tile shows nothing, and otherwise with 200, the header for deflate, and a body that inflates to a vector tile with exactly the layers that the map shows there. So a node of the OSM file that the profile wants is in the answer, in its layer, with its number, attributes and place. The path of a tile that does not exist is answered with 500 or 204, never with a tile. Two servers with maps of the same objects, made in different ways, show the same to the same request.", "quantifier": "all requests, OSM files and data, coastlines, schedules, thread counts, memory bounds, previous databases, runs of the import, and tiles", "why_tests_cant": "quantifies over all requests and over all executions of the whole program from the file to the response", "anchors": ["src/server.cc: maybe_serve_tile, maybe_serve_glyphs, maybe_serve_file, main", "include/tiles/parse_tile_url.h", "include/tiles/get_tile.h: get_tile", "src/import.cc: main", "include/tiles/osm/load_osm.h", "src/db/prepare_tiles.cc"]}
{"id": "C83", "title": "The log of preparing tiles: one final line per level", "statement": "While tiles are prepared the program logs a line for each zoom level. In every run, for any number of threads and any schedule, no level has two lines; a line is written only after all tiles of its level in the area were drawn without exception, and its figures are final and exact: the number of tiles of the level, the sum of the drawing times, the count of tiles with content, and the average. When the program ends every level has exactly one line (the lines may come in any order). The count that is labelled empty is the number of the tiles that are not empty, and the average is the size of all tiles divided by the number of the empty ones (0 if there is none). Counting changes nothing: the runs with and without the statistics are the same.", "quantifier": "all databases, highest levels up to 20, thread counts, schedules, drawing times, exceptions, and moments of the run", "why_tests_cant": "quantifies over all interleavings of the workers and all points at which the process may end", "anchors": ["src/db/prepare_tiles.cc: prepare_stats, prepare_manager::get_batch, prepare_manager::finish, prepare_tiles"]}
{"id": "C84", "title": "The figures in the reports can be trusted", "statement": "Counts, sizes and durations are printed with a unit. For every amount, the text of the figure can be read back as a number and a unit; the error is at most half of the last digit shown (plus what the conversion to a double loses, one part in 2^53); the unit is not larger than the amount (or is the smallest), and the number is below 1024 resp. 1000 unless the unit is the largest one. A larger amount never shows as a smaller one, also when the units differ. Sizes up to 9999 GB have nine characters, so columns are straight. The report of the performance counter and the report of the database never fail: they consist of one line per task resp. one line per kind of payload and zoom level and the total, in a fixed order, and each line shows the number of values, their sum, and if there are values also their mean, a value that at least 94% do not exceed, and the maximum; what is shown as mean and 95% value never exceeds what is shown as maximum, nor that the sum.", "quantifier": "all amounts, all lists of measured values (of any length) with a sum up to 2^53, all statistics of databases, every rounding of doubles and of decimals within the usual error", "why_tests_cant": "ranges over all amounts, including those at the boundaries of the units, and over all lists of values; the comparison of figures of different units after two roundings holds for all pairs", "anchors": ["include/tiles/util.h: printable_num, printable_ns, printable_bytes", "src/perf_counter.cc: print, perf_report_get_tile", "src/db/database_stats.cc: print_sizes, database_stats"]}
{"id": "C85", "title": "What the profiles store is what the styles of the client paint", "statement": "For every OSM object and both shipped profiles: a feature that is stored is painted by both shipped styles in a way that its tags determine. Buildings, land use, water, squares, sports grounds and rivers are painted by exactly the layer of the style of this name at every zoom level of the map; railways by exactly one of three layers (the layer for old railways never paints anything); roads by the layer road, with a border unless narrow, with a shield from zoom level 6 (motorways, trunk and secondary roads) or above 11 (the other large roads, also primary ones), with the name from 15; places with a name exactly once, as city or as town. Building sites, regions and indoor features are stored but never painted. Nothing is painted in the colour for unknown values, except for the platforms and stop areas of the profile full (they are magenta resp. red); the profile background has no such feature. The sea is below everything, labels are above everything that is no label, land and water are below roads, railways and buildings. The sea is painted by the layer for the sea and no other, and whatever a client reads in an answer of the server is one of the two: sea, or an object of the file.", "quantifier": "all OSM objects (tags, geometries), both profiles, both styles, all zoom levels of the map", "why_tests_cant": "the tags and their combinations are unbounded, and what is claimed is that no combination falls between the rules of the profile and the filters of the style", "anchors": ["profile/full.lua", "profile/background.lua", "client/style-default.js", "client/style-background.js"]}
