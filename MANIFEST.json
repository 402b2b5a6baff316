{"claims": [
{"property": "C01", "status": "proved", "theorems": ["Tiles.C01_key_round_trip", "Tiles.C01_key_injective", "Tiles.C01_key_surjective"], "note": ""},
{"property": "C02", "status": "proved", "theorems": ["Tiles.C02_key_order", "Tiles.C02_scan_exact"], "note": ""},
{"property": "C03", "status": "proved", "theorems": ["Tiles.C03_tile_range_exact", "Tiles.C03_tile_range_valid"], "note": ""},
{"property": "C04", "status": "proved", "theorems": ["Tiles.C04_varint_round_trip", "Tiles.C04_svarint_round_trip", "Tiles.C04_truncated_throws", "Tiles.C04_reader_total", "Tiles.C04_too_long_throws", "Tiles.C04_zigzag_bijective"], "note": ""},
{"property": "C05", "status": "proved", "theorems": ["Tiles.C05_records_round_trip", "Tiles.C05_update_appends", "Tiles.C05_bad_size_throws", "Tiles.C05_accepted_is_serialization"], "note": ""},
{"property": "C06", "status": "proved", "theorems": ["Tiles.PackFile.C06_record_stable", "Tiles.PackFile.C06_written_reads_back", "Tiles.PackFile.C06_inserted_reads_back", "Tiles.PackFile.C06_moved_reads_back", "Tiles.PackFile.C06_append_apart", "Tiles.PackFile.C06_get_total", "Tiles.PackFile.C06_get_wraps"], "note": ""},
{"property": "C07", "status": "proved", "theorems": ["Tiles.PackFile.C07_close_reopen", "Tiles.PackFile.C07_crash_reopen", "Tiles.PackFile.C07_crash_loses_trailing_zero", "Tiles.PackFile.C07_shrink_not_durable", "Tiles.PackFile.C07_zero_filled", "Tiles.PackFile.C07_size"], "note": ""},
{"property": "C08", "status": "proved", "theorems": ["Tiles.C08_build_total", "Tiles.C08_contains_exact", "Tiles.C08_build_and_contains", "Tiles.C08_deep_query_throws", "Tiles.C08_store_load", "Tiles.C08_bad_string_throws", "Tiles.C08_invalid"], "note": ""},
{"property": "C09", "status": "proved", "theorems": ["Tiles.C09_covered", "Tiles.C09_uncovered", "Tiles.C09_exact_area"], "note": ""},
{"property": "C10", "status": "proved", "theorems": ["Tiles.C10_build_total", "Tiles.C10_foreign_tile_throws", "Tiles.C10_walk_exact"], "note": ""},
{"property": "C11", "status": "proved", "theorems": ["Tiles.C11_pack_round_trip", "Tiles.C11_mini_feature_refused", "Tiles.C11_too_many_refused", "Tiles.C11_short_pack_refused", "Tiles.C11_corrupt_size_ub"], "note": ""},
{"property": "C12", "status": "proved", "theorems": ["Tiles.C12_finished_valid", "Tiles.C12_pack_valid", "Tiles.C12_valid_iff", "Tiles.C12_damage_detected", "Tiles.C12_short_rejected"], "note": ""},
{"property": "C13", "status": "proved", "theorems": ["Tiles.C13_features", "Tiles.C13_packs", "Tiles.C13_end_to_end", "Tiles.C13_sort_exists"], "note": ""},
{"property": "C14", "status": "proved", "theorems": ["Tiles.C14_lookup", "Tiles.C14_lookup_packs", "Tiles.C14_exact", "Tiles.C14_accepts", "Tiles.C14_outside_throws", "Tiles.C14_deep_throws", "Tiles.C14_no_index", "Tiles.C14_ex_best", "Tiles.C14_ex_box", "Tiles.C14_overdraw_depends_on_index"], "note": ""},
{"property": "C15", "status": "proved", "theorems": ["Tiles.C15_safe", "Tiles.C15_steps", "Tiles.C15_final", "Tiles.C15_small", "Tiles.C15_progress"], "note": ""},
{"property": "C16", "status": "proved", "theorems": ["Tiles.C16_result", "Tiles.C16_succeeds", "Tiles.C16_every_run", "Tiles.C16_guard_is_not_enough", "Tiles.C16_five_times_is_not_enough", "Tiles.C16_almost_enough_is_not", "Tiles.C16_empty_file"], "note": ""},
{"property": "C17", "status": "proved", "theorems": ["Tiles.C17_exact", "Tiles.C17_features", "Tiles.C17_ends", "Tiles.C17_small_feature_loses"], "note": ""},
{"property": "C18", "status": "proved", "theorems": ["Tiles.C18_readable", "Tiles.C18_no_dangling", "Tiles.C18_old_records_kept", "Tiles.C18_after_crash", "Tiles.C18_zero_tail_lost", "Tiles.C18_no_overlap"], "note": ""},
{"property": "C19", "status": "proved", "theorems": ["Tiles.C19_lookup", "Tiles.C19_pushed", "Tiles.C19_absent", "Tiles.C19_refused", "Tiles.C19_reopen", "Tiles.C19_stat_counters", "Tiles.C19_largest_id_ub", "Tiles.C19_data_size", "Tiles.C19_index_size", "Tiles.C19_dense_ids"], "note": ""},
{"property": "C20", "status": "proved", "theorems": ["Tiles.C20_batch"], "note": ""},
{"property": "C21", "status": "proved", "theorems": ["Tiles.C21_round_trip", "Tiles.C21_same", "Tiles.C21_refused"], "note": ""},
{"property": "C22", "status": "proved", "theorems": ["Tiles.C22_round_trip", "Tiles.C22_same", "Tiles.C22_table_order", "Tiles.C22_refused"], "note": ""},
{"property": "C23", "status": "proved", "theorems": ["Tiles.C23_filter_exact", "Tiles.C23_filter_exact_masked", "Tiles.C23_no_hints"], "note": ""},
{"property": "C24", "status": "proved", "theorems": ["Tiles.C24_flush_never_throws", "Tiles.C24_table_exact", "Tiles.C24_reload", "Tiles.C24_nothing_stored", "Tiles.C24_encoded_iff", "Tiles.C24_encode_decode", "Tiles.C24_unknown_index_throws"], "note": ""},
{"property": "C25", "status": "proved", "theorems": ["Tiles.C25_layer_names", "Tiles.C25_coastline_name", "Tiles.C25_nothing_stored"], "note": ""},
{"property": "C26", "status": "proved", "theorems": ["Tiles.C26_shift_null", "Tiles.C26_shift_point", "Tiles.C26_shift_polyline", "Tiles.C26_shift_polygon", "Tiles.C26_shift_wellFormed", "Tiles.C26_shift_above_max_zoom"], "note": ""},
{"property": "C27", "status": "proved", "theorems": ["Tiles.C27_throws_exactly", "Tiles.C27_decodes", "Tiles.C27_after_shift", "Tiles.C27_rings_stay_closed", "Tiles.C27_two_point_rings_written"], "note": ""},
{"property": "C28", "status": "proved", "theorems": ["Tiles.C28_tile_content", "Tiles.C28_tables", "Tiles.C28_unique", "Tiles.C28_no_duplicates", "Tiles.C28_hidden_keys", "Tiles.C28_unknown_layer", "Tiles.C28_debug"], "note": ""},
{"property": "C29", "status": "proved", "theorems": ["Tiles.C29_too_deep", "Tiles.C29_stored", "Tiles.C29_nothing", "Tiles.C29_seaside", "Tiles.C29_live", "Tiles.C29_packs", "Tiles.C29_render", "Tiles.C29_sea_squares", "Tiles.C29_prepared", "Tiles.C29_stale", "Tiles.C29_prepared_equals_live", "Tiles.C29_sea_tree", "Tiles.C29_run_ok", "Tiles.C29_partly_sea_lost", "Tiles.C29_sea_square"], "note": ""},
{"property": "C30", "status": "proved", "theorems": ["Tiles.C30_area", "Tiles.C30_accepts", "Tiles.C30_handed_out", "Tiles.C30_complete", "Tiles.C30_interrupted", "Tiles.C30_terminates", "Tiles.C30_no_workers"], "note": ""},
{"property": "C31", "status": "proved", "theorems": ["Tiles.C31_in_order", "Tiles.C31_drained", "Tiles.C31_all_processed", "Tiles.C31_no_deadlock", "Tiles.C31_terminates"], "note": ""},
{"property": "C32", "status": "proved", "theorems": ["Tiles.C32_indices_consecutive", "Tiles.C32_no_call_after_end", "Tiles.C32_no_deadlock"], "note": ""},
{"property": "C33", "status": "partial", "theorems": ["Tiles.C33_coastline_loop", "Tiles.C33_workers_stop", "Tiles.C33_repack_loop_partial", "Tiles.C33_repack_loop_loses_result", "Tiles.C33_full_refuted"], "note": "Full statement C33_full (both collecting loops) is refuted by the loop of repack_features.h, which reads the result counter before the task counter (C33_full_refuted, C33_repack_loop_loses_result). Proved for the coastline loader's loop; C33_repack_loop_partial says what the other one guarantees."},
{"property": "C34", "status": "proved", "theorems": ["Tiles.C34_partition", "Tiles.C34_progress_bounded", "Tiles.C34_true", "Tiles.C34_seaside_tree", "Tiles.C34_seaside_is_sea", "Tiles.C34_can_end", "Tiles.C34_no_workers_never_ends", "Tiles.C34_no_failure", "Tiles.C34_joint_land_throws"], "note": ""},
{"property": "C35", "status": "proved", "theorems": ["Tiles.C35_parses", "Tiles.C35_not_mvt", "Tiles.C35_only_these", "Tiles.C35_never_ub"], "note": ""},
{"property": "C36", "status": "proved", "theorems": ["Tiles.C36_decode_encoded", "Tiles.C36_every_string_encodable", "Tiles.C36_plain_unchanged", "Tiles.C36_truncated_escape_throws", "Tiles.C36_never_out_of_bounds", "Tiles.C36_encodings_disjoint", "Tiles.C36_finding_malformed_accepted", "Tiles.C36_escapes"], "note": ""},
{"property": "C37", "status": "partial", "theorems": ["Tiles.C37_full_refuted", "Tiles.C37_finding_bool_inverted", "Tiles.C37_finding_integer_as_double", "Tiles.C37_string_and_number_partial", "Tiles.C37_missing_tag_adds_nothing_partial", "Tiles.C37_duplicates_keep_one_partial", "Tiles.C37_reads_decimal", "Tiles.C37_no_number"], "note": "Full statement C37_full is refuted (C37_full_refuted): add_tag_as_bool is inverted and add_tag_as_integer stores a double. String, number, missing tags and duplicate keys are proved."},
{"property": "C38", "status": "proved", "theorems": ["Tiles.C38_joined", "Tiles.C38_joined_everywhere", "Tiles.C38_segments", "Tiles.C38_empty_line_ub", "Tiles.C38_aggregated", "Tiles.C38_no_segment_lost", "Tiles.C38_layer_lost", "Tiles.C38_other_geometry", "Tiles.C38_in_tile"], "note": ""},
{"property": "C39", "status": "partial", "theorems": ["Tiles.C39_exact", "Tiles.C39_single_ring_partial", "Tiles.C39_outer_ring", "Tiles.C39_full_refuted"], "note": "Full statement C39_full is refuted (C39_full_refuted): for records with several rings the inner rings are read with wrong bounds. What is read is given exactly by C39_exact for every file; files whose records have one ring are read correctly (C39_single_ring_partial)."},
{"property": "C40", "status": "partial", "theorems": ["Tiles.C40_node", "Tiles.C40_way", "Tiles.C40_other_items_ignored", "Tiles.C40_area_partial", "Tiles.C40_short_outer_null", "Tiles.C40_no_rings_null", "Tiles.C40_inner_first_throws", "Tiles.C40_short_inner_kept", "Tiles.C40_empty_inner_ub", "Tiles.C40_full_refuted"], "note": "Full statement C40_full is refuted (C40_full_refuted): a short inner ring is kept with its last point removed instead of dropped and an inner ring without valid nodes is undefined behaviour. Nodes, ways, and areas whose inner rings have at least three points are proved."},
{"property": "C41", "status": "proved", "theorems": ["Tiles.C41_masked", "Tiles.C41_masks_fit", "Tiles.C41_points_unmasked", "Tiles.C41_subsequence", "Tiles.C41_end_points", "Tiles.C41_levels_nested", "Tiles.C41_full_mask", "Tiles.C41_size_mismatch", "Tiles.C41_mask_missing"], "note": ""},
{"property": "C42", "status": "proved", "theorems": ["Tiles.C42_round_trip", "Tiles.C42_refuses_exactly_malformed"], "note": ""},
{"property": "C43", "status": "proved", "theorems": ["Tiles.C43_locations", "Tiles.C43_overflow"], "note": ""},
{"property": "C44", "status": "partial", "theorems": ["Tiles.C44_before_partial", "Tiles.C44_never_wrong_partial", "Tiles.C44_kept_partial", "Tiles.C44_done_partial", "Tiles.C44_steps", "Tiles.C44_throw_loses_all", "Tiles.C44_ends", "Tiles.C44_index", "Tiles.C44_full_refuted", "Tiles.C44_two_large_packs_lost"], "note": "Full statement C44_full is refuted (C44_full_refuted): the index is emptied and committed before the pack file is rewritten, and a defragmentation that throws leaves it empty (C44_throw_loses_all, C44_two_large_packs_lost). Proved at every crash point: nothing wrong is ever shown, what is shown stays, and a completed run restores every tile."},
{"property": "C45", "status": "proved", "theorems": ["Tiles.C45_methods", "Tiles.C45_tile", "Tiles.C45_total", "Tiles.C45_bad_target"], "note": ""},
{"property": "C46", "status": "proved", "theorems": ["Tiles.C46_keeps_inside", "Tiles.C46_null_iff", "Tiles.C46_border_dropped", "Tiles.C46_lines", "Tiles.C46_lines_null_iff", "Tiles.C46_result"], "note": ""},
{"property": "C47", "status": "proved", "theorems": ["Tiles.C47_file_served", "Tiles.C47_root", "Tiles.C47_glyphs", "Tiles.C47_finding_not_confined"], "note": ""},
{"property": "C48", "status": "proved", "theorems": ["Tiles.C48_solution_copied", "Tiles.C48_rings_closed", "Tiles.C48_empty_inner_ub"], "note": ""},
{"property": "C49", "status": "proved", "theorems": ["Tiles.C49_area", "Tiles.C49_read", "Tiles.C49_own_area", "Tiles.C49_margin_not_found", "Tiles.C49_tile", "Tiles.C49_ser", "Tiles.C49_len", "Tiles.C49_ex_ok"], "note": ""},
{"property": "C50", "status": "proved", "theorems": ["Tiles.C50_object", "Tiles.C50_load", "Tiles.C50_no_failure", "Tiles.C50_no_layer_fails", "Tiles.C50_can_end", "Tiles.C50_read", "Tiles.C50_script_error_stored"], "note": ""},
{"property": "C51", "status": "proved", "theorems": ["Tiles.C51_aggregated", "Tiles.C51_every_polygon_once", "Tiles.C51_different_kept", "Tiles.C51_layer_lost", "Tiles.C51_other_geometry", "Tiles.C51_zoom_ub"], "note": ""},
{"property": "C52", "status": "proved", "theorems": ["Tiles.C52_read", "Tiles.C52_no_worker_throws", "Tiles.C52_pack_ends", "Tiles.C52_tile", "Tiles.C52_served", "Tiles.C52_small_rings_throw", "Tiles.C52_triangle_throws", "Tiles.C52_ex_ok", "Tiles.C52_pack_eq", "Tiles.C52_pack_len", "Tiles.C52_inserted", "Tiles.C52_fn_ne", "Tiles.C52_fn_ok", "Tiles.C52_index", "Tiles.C52_ex_packed", "Tiles.C52_ex_small", "Tiles.C52_ex_imported"], "note": ""},
{"property": "C53", "status": "proved", "theorems": ["Tiles.C53_same", "Tiles.C53_exclusive", "Tiles.C53_in_use", "Tiles.C53_no_throw", "Tiles.C53_throws", "Tiles.C53_wait_free", "Tiles.C53_race", "Tiles.C53_count"], "note": ""},
{"property": "C55", "status": "proved", "theorems": ["Tiles.C55_feature", "Tiles.C55_features", "Tiles.C55_tiles", "Tiles.C55_stale_tile_throws", "Tiles.C55_quantile", "Tiles.C55_inserted", "Tiles.C55_imported", "Tiles.C55_prepared", "Tiles.C55_damaged"], "note": ""},
{"property": "C54", "status": "proved", "theorems": ["Tiles.C54_tasks", "Tiles.C54_fresh", "Tiles.C54_bad_profile", "Tiles.C54_exit", "Tiles.C54_interrupted", "Tiles.C54_forgets", "Tiles.C54_kept", "Tiles.C54_unknown", "Tiles.C54_pack_name", "Tiles.C54_pack_name_shared", "Tiles.C54_served", "Tiles.C54_renders_ok", "Tiles.C54_ex_run"], "note": ""},
{"property": "C56", "status": "proved", "theorems": ["Tiles.C56_field", "Tiles.C56_bad_key", "Tiles.C56_message", "Tiles.C56_geometry", "Tiles.C56_feature", "Tiles.C56_no_hints", "Tiles.C56_wrong_type", "Tiles.C56_geometry_size", "Tiles.C56_metadata_table", "Tiles.C56_layer_names", "Tiles.C56_pack_overrun", "Tiles.C56_clip", "Tiles.C56_clip_read"], "note": ""},
{"property": "C57", "status": "proved", "theorems": ["Tiles.C57_buckets", "Tiles.C57_features", "Tiles.C57_smallest_first", "Tiles.C57_first_fill", "Tiles.C57_in_flight", "Tiles.C57_unbounded"], "note": ""},
{"property": "C58", "status": "proved", "theorems": ["Tiles.C58_burst", "Tiles.C58_four_bytes", "Tiles.C58_two_bits", "Tiles.C58_zeros"], "note": ""},
{"property": "C59", "status": "proved", "theorems": ["Tiles.C59_exchange", "Tiles.C59_clients", "Tiles.C59_not_closed_early", "Tiles.C59_isolated", "Tiles.C59_few_actions", "Tiles.C59_no_leak", "Tiles.C59_released", "Tiles.C59_keeps_accepting", "Tiles.C59_served", "Tiles.C59_answered", "Tiles.C59_lingers", "Tiles.C59_prompt", "Tiles.C59_exclusive", "Tiles.C59_races", "Tiles.C59_late_wait", "Tiles.C59_busy_loop"], "note": ""},
{"property": "C60", "status": "proved", "theorems": ["Tiles.C60_same", "Tiles.C60_fields", "Tiles.C60_encoding", "Tiles.C60_file_type", "Tiles.C60_head"], "note": ""},
{"property": "C61", "status": "proved", "theorems": ["Tiles.C61_loading", "Tiles.C61_packing", "Tiles.C61_stale_pack", "Tiles.C61_truncated", "Tiles.C61_stale_import", "Tiles.C61_stops", "Tiles.C61_exit_writes", "Tiles.C61_damages", "Tiles.C61_two_imports"], "note": ""},
{"property": "C62", "status": "proved", "theorems": ["Tiles.C62_clip", "Tiles.C62_draw", "Tiles.C62_layer", "Tiles.C62_content", "Tiles.C62_point", "Tiles.C62_served", "Tiles.C62_refused", "Tiles.C62_lib", "Tiles.C62_renders", "Tiles.C62_drawable", "Tiles.C62_short"], "note": ""},
{"property": "C63", "status": "proved", "theorems": ["Tiles.C63_exact", "Tiles.C63_pixel", "Tiles.C63_polygon", "Tiles.C63_error", "Tiles.C63_overflow", "Tiles.C63_point", "Tiles.C63_node_area", "Tiles.C63_fine", "Tiles.C63_line", "Tiles.C63_direction", "Tiles.C63_rectangle", "Tiles.C63_id", "Tiles.C63_square_ok", "Tiles.C63_shown"], "note": ""},
{"property": "C64", "status": "proved", "theorems": ["Tiles.C64_formula", "Tiles.C64_near", "Tiles.C64_order", "Tiles.C64_tile", "Tiles.C64_tile_only", "Tiles.C64_antimeridian", "Tiles.C64_back", "Tiles.C64_on_map", "Tiles.C64_lib", "Tiles.C64_place_at", "Tiles.C64_place_on", "Tiles.C64_served"], "note": ""},
{"property": "C65", "status": "proved", "theorems": ["Tiles.C65_same", "Tiles.C65_total", "Tiles.C65_sizes", "Tiles.C65_features", "Tiles.C65_fetch", "Tiles.C65_parts", "Tiles.C65_steps", "Tiles.C65_iter_gap", "Tiles.C65_report", "Tiles.C65_times_session"], "note": ""},
{"property": "C66", "status": "proved", "theorems": ["Tiles.C66_stored", "Tiles.C66_fine", "Tiles.C66_fine_area", "Tiles.C66_no_abort", "Tiles.C66_unreadable", "Tiles.C66_range", "Tiles.C66_area_levels", "Tiles.C66_water", "Tiles.C66_no_old_rail", "Tiles.C66_light_rail", "Tiles.C66_keys", "Tiles.C66_order", "Tiles.C66_looks_at", "Tiles.C66_level_two", "Tiles.C66_level_any", "Tiles.C66_level_one"], "note": ""},
{"property": "C67", "status": "proved", "theorems": ["Tiles.C67_insert_space", "Tiles.C67_insert_ends", "Tiles.C67_pack_space", "Tiles.C67_pack_bytes", "Tiles.C67_packed_size", "Tiles.C67_renders", "Tiles.C67_completes"], "note": ""},
{"property": "C68", "status": "proved", "theorems": ["Tiles.C68_starts", "Tiles.C68_served", "Tiles.C68_load_ends", "Tiles.C68_completes"], "note": ""},
{"property": "C69", "status": "proved", "theorems": ["Tiles.C69_sea", "Tiles.C69_starts", "Tiles.C69_served", "Tiles.C69_coast_ends", "Tiles.C69_completes"], "note": ""},
{"property": "C70", "status": "proved", "theorems": ["Tiles.C70_line", "Tiles.C70_served", "Tiles.C70_streets"], "note": ""},
{"property": "C71", "status": "proved", "theorems": ["Tiles.C71_content", "Tiles.C71_served", "Tiles.C71_osm"], "note": ""},
{"property": "C72", "status": "proved", "theorems": ["Tiles.C72_objects", "Tiles.C72_can_end", "Tiles.C72_refused", "Tiles.C72_loads", "Tiles.C72_completes", "Tiles.C72_nodes", "Tiles.C72_streets", "Tiles.C72_in_place"], "note": ""},
{"property": "C73", "status": "proved", "theorems": ["Tiles.C73_land", "Tiles.C73_refused", "Tiles.C73_places", "Tiles.C73_starts", "Tiles.C73_served", "Tiles.C73_completes"], "note": ""},
{"property": "C74", "status": "proved", "theorems": ["Tiles.C74_bounds", "Tiles.C74_lookup", "Tiles.C74_prepared", "Tiles.C74_imported", "Tiles.C74_http"], "note": ""},
{"property": "C75", "status": "proved", "theorems": ["Tiles.C75_cut", "Tiles.C75_never_refused"], "note": ""},
{"property": "C76", "status": "proved", "theorems": ["Tiles.C76_stats", "Tiles.C76_way", "Tiles.C76_agree"], "note": ""},
{"property": "C77", "status": "proved", "theorems": ["Tiles.C77_area", "Tiles.C77_served", "Tiles.C77_areas", "Tiles.C77_world", "Tiles.C77_file", "Tiles.C77_files"], "note": ""},
{"property": "C78", "status": "proved", "theorems": ["Tiles.C78_line", "Tiles.C78_served", "Tiles.C78_streets", "Tiles.C78_world", "Tiles.C78_file", "Tiles.C78_files"], "note": ""},
{"property": "C79", "status": "proved", "theorems": ["Tiles.C79_area", "Tiles.C79_served", "Tiles.C79_areas", "Tiles.C79_world", "Tiles.C79_file", "Tiles.C79_files"], "note": ""},
{"property": "C80", "status": "proved", "theorems": ["Tiles.C80_measures", "Tiles.C80_asked", "Tiles.C80_refuses", "Tiles.C80_level", "Tiles.C80_imported", "Tiles.C80_tile", "Tiles.C80_level_imported", "Tiles.C80_files"], "note": ""},
{"property": "C81", "status": "proved", "theorems": ["Tiles.C81_more", "Tiles.C81_same", "Tiles.C81_files"], "note": ""},
{"property": "C82", "status": "proved", "theorems": ["Tiles.C82_shows", "Tiles.C82_answers", "Tiles.C82_tile", "Tiles.C82_same", "Tiles.C82_nodes"], "note": ""},
{"property": "C83", "status": "proved", "theorems": ["Tiles.C83_same", "Tiles.C83_lifts", "Tiles.C83_lines", "Tiles.C83_complete", "Tiles.C83_inverted"], "note": ""},
{"property": "C84", "status": "proved", "theorems": ["Tiles.C84_bytes", "Tiles.C84_ns", "Tiles.C84_num", "Tiles.C84_bytes_order", "Tiles.C84_ns_order", "Tiles.C84_num_order", "Tiles.C84_bytes_width", "Tiles.C84_perf", "Tiles.C84_label", "Tiles.C84_stats_unprepared", "Tiles.C84_stats"], "note": ""},
{"property": "C85", "status": "proved", "theorems": ["Tiles.C85_plain", "Tiles.C85_hidden", "Tiles.C85_rail", "Tiles.C85_road", "Tiles.C85_place", "Tiles.C85_kind", "Tiles.C85_landuse", "Tiles.C85_colour", "Tiles.C85_fits", "Tiles.C85_client", "Tiles.C85_coast", "Tiles.C85_order", "Tiles.C85_world"], "note": ""}
]}
