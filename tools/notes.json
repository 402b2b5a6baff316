{
 "C37": {
  "status": "partial",
  "note": "Full statement C37_full is refuted (C37_full_refuted): add_tag_as_bool is inverted and add_tag_as_integer stores a double. String, number, missing tags and duplicate keys are proved."
 },
 "C39": {
  "status": "partial",
  "note": "Full statement C39_full is refuted (C39_full_refuted): for records with several rings the inner rings are read with wrong bounds. What is read is given exactly by C39_exact for every file; files whose records have one ring are read correctly (C39_single_ring_partial)."
 },
 "C40": {
  "status": "partial",
  "note": "Full statement C40_full is refuted (C40_full_refuted): a short inner ring is kept with its last point removed instead of dropped and an inner ring without valid nodes is undefined behaviour. Nodes, ways, and areas whose inner rings have at least three points are proved."
 },
 "C33": {
  "status": "partial",
  "note": "Full statement C33_full (both collecting loops) is refuted by the loop of repack_features.h, which reads the result counter before the task counter (C33_full_refuted, C33_repack_loop_loses_result). Proved for the coastline loader's loop; C33_repack_loop_partial says what the other one guarantees."
 },
 "C44": {
  "status": "partial",
  "note": "Full statement C44_full is refuted (C44_full_refuted): the index is emptied and committed before the pack file is rewritten, and a defragmentation that throws leaves it empty (C44_throw_loses_all, C44_two_large_packs_lost). Proved at every crash point: nothing wrong is ever shown, what is shown stays, and a completed run restores every tile."
 }
}