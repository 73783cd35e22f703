{
 "claims": [
  {
   "property": "C01",
   "status": "proved",
   "theorems": [
    "Wz.Props.C01_int32",
    "Wz.Props.C01_int64",
    "Wz.Props.C01_int32_only",
    "Wz.Props.C01_int64_only"
   ],
   "note": ""
  },
  {
   "property": "C02",
   "status": "proved",
   "theorems": [
    "Wz.Props.C02_read_unsigned",
    "Wz.Props.C02_read_signed",
    "Wz.Props.C02_read_written",
    "Wz.Props.C02_meta_at",
    "Wz.Props.C02_string_at",
    "Wz.Props.C02_history",
    "Wz.Props.C02_save_not_nested"
   ],
   "note": ""
  },
  {
   "property": "C03",
   "status": "proved",
   "theorems": [
    "Wz.Props.C03_read_string",
    "Wz.Props.C03_ascii_only",
    "Wz.Props.C03_storable",
    "Wz.Props.C03_unicode_units",
    "Wz.Props.C03_ascii_bytes",
    "Wz.Props.C03_pkg2_dir",
    "Wz.Props.C03_pkg2_dir_min_panics"
   ],
   "note": ""
  },
  {
   "property": "C04",
   "status": "proved",
   "theorems": [
    "Wz.Props.C04_eager_lazy",
    "Wz.Props.C04_lazy_eager",
    "Wz.Props.C04_meta_in_bounds",
    "Wz.Props.C04_strict_lossy",
    "Wz.Props.C04_negative_length_moves_back"
   ],
   "note": ""
  },
  {
   "property": "C05",
   "status": "proved",
   "theorems": [
    "Wz.Props.C05_inline",
    "Wz.Props.C05_by_offset",
    "Wz.Props.C05_other",
    "Wz.Props.C05_offset_cursor",
    "Wz.Props.C05_block_eager_lazy"
   ],
   "note": ""
  },
  {
   "property": "C06",
   "status": "partial",
   "theorems": [
    "Wz.Props.C06_from_str_iff",
    "Wz.Props.C06_from_str_partial",
    "Wz.Props.C06_astral_truncated",
    "Wz.Props.C06_from_str_pkg2_partial",
    "Wz.Props.C06_pkg2_astral_truncated"
   ],
   "note": "Violated outside the BMP: see the C06 counterexample theorems; proved for BMP text."
  },
  {
   "property": "C07",
   "status": "proved",
   "theorems": [
    "Wz.Props.C07_script_decryptor",
    "Wz.Props.C07_script_changes",
    "Wz.Props.C07_user_key",
    "Wz.Props.C07_default_key",
    "Wz.Props.C07_decrypt_after_history",
    "Wz.Props.C07_at_after_history",
    "Wz.Props.C07_generated_bytes",
    "Wz.Props.C07_prefix_stable",
    "Wz.Props.C07_request",
    "Wz.Props.C07_encrypt_after_history",
    "Wz.Props.C07_concurrent"
   ],
   "note": ""
  },
  {
   "property": "C08",
   "status": "proved",
   "theorems": [
    "Wz.Props.C08_ecb_involution",
    "Wz.Props.C08_zero_iv",
    "Wz.Props.C08_pkg2_involution",
    "Wz.Props.C08_bytewise"
   ],
   "note": ""
  },
  {
   "property": "C09",
   "status": "partial",
   "theorems": [
    "Wz.Props.C09_set_iv_ignored",
    "Wz.Props.C09_set_iv_violated",
    "Wz.Props.C09_set_iv_partial",
    "Wz.Props.C09_pkg2_set_iv"
   ],
   "note": "Proved for the PKG2 decryptor (C09_pkg2_set_iv) and for an ECB decryptor without keys (C09_set_iv_partial). Violated: once keys were generated a new IV is ignored (C09_set_iv_ignored, C09_set_iv_violated)."
  },
  {
   "property": "C10",
   "status": "proved",
   "theorems": [
    "Wz.Props.C10_decode_stored",
    "Wz.Props.C10_stored_unique",
    "Wz.Props.C10_total",
    "Wz.Props.C10_count_stored",
    "Wz.Props.C10_count_too_big",
    "Wz.Props.C10_count_negative"
   ],
   "note": ""
  },
  {
   "property": "C11",
   "status": "proved",
   "theorems": [
    "Wz.Props.C11_hash",
    "Wz.Props.C11_hash_overflow",
    "Wz.Props.C11_sequence",
    "Wz.Props.C11_candidates",
    "Wz.Props.C11_parse_with_version"
   ],
   "note": ""
  },
  {
   "property": "C12",
   "status": "proved",
   "theorems": [
    "Wz.Props.C12_v1_sound",
    "Wz.Props.C12_v2_sound",
    "Wz.Props.C12_v3_sound",
    "Wz.Props.C12_v4_sound",
    "Wz.Props.C12_v5_sound",
    "Wz.Props.C12_v6_sound",
    "Wz.Props.C12_no_duplicates",
    "Wz.Props.C12_verifiers"
   ],
   "note": ""
  },
  {
   "property": "C13",
   "status": "partial",
   "theorems": [
    "Wz.Props.C13_v1_complete",
    "Wz.Props.C13_v6_complete",
    "Wz.Props.C13_v2_exact",
    "Wz.Props.C13_v3_exact",
    "Wz.Props.C13_v4_exact",
    "Wz.Props.C13_v5_exact",
    "Wz.Props.C13_v2_complete_partial",
    "Wz.Props.C13_v3_complete_partial",
    "Wz.Props.C13_v2_misses",
    "Wz.Props.C13_v3_misses",
    "Wz.Props.C13_v4_misses",
    "Wz.Props.C13_v5_misses"
   ],
   "note": "V1 and V6 searches are complete; V2-V5 miss some valid hashes (counterexamples C13_*_misses), exact characterisations proved."
  },
  {
   "property": "C14",
   "status": "partial",
   "theorems": [
    "Wz.Props.C14_all_partial",
    "Wz.Props.C14_any_partial",
    "Wz.Props.C14_past_none",
    "Wz.Props.C14_stops_at_empty",
    "Wz.Props.C14_sound",
    "Wz.Props.C14_stops_early"
   ],
   "note": "Iteration stops at the first empty candidate (C14_stops_early is a counterexample to the full statement)."
  },
  {
   "property": "C15",
   "status": "proved",
   "theorems": [
    "Wz.Props.C15_kmst1199_formula",
    "Wz.Props.C15_kmst1202_formula",
    "Wz.Props.C15_kmst1199_injective",
    "Wz.Props.C15_kmst1199_injective_hash1",
    "Wz.Props.C15_kmst1202_injective",
    "Wz.Props.C15_period",
    "Wz.Props.C15_effective_bits"
   ],
   "note": ""
  },
  {
   "property": "C16",
   "status": "partial",
   "theorems": [
    "Wz.Props.C16_pkg1_version",
    "Wz.Props.C16_pkg1_no_version",
    "Wz.Props.C16_pkg2",
    "Wz.Props.C16_too_short",
    "Wz.Props.C16_header_slice",
    "Wz.Props.C16_header_slice_short",
    "Wz.Props.C16_pkg2_truncated",
    "Wz.Props.C16_no_panic",
    "Wz.Props.C16_data_start",
    "Wz.Props.C16_count_256_misread"
   ],
   "note": "An encrypted version/count byte pattern is misread (C16_count_256_misread)."
  },
  {
   "property": "C17",
   "status": "proved",
   "theorems": [
    "Wz.Props.C17_random64",
    "Wz.Props.C17_random32",
    "Wz.Props.C17_size_must_match",
    "Wz.Props.C17_tables_distinct",
    "Wz.Props.C17_storable64",
    "Wz.Props.C17_storable32",
    "Wz.Props.C17_rejected"
   ],
   "note": ""
  },
  {
   "property": "C18",
   "status": "partial",
   "theorems": [
    "Wz.Props.C18_inside_partial",
    "Wz.Props.C18_inside_checked",
    "Wz.Props.C18_negative_size_outside",
    "Wz.Props.C18_count_pkg1",
    "Wz.Props.C18_bad_count_rejected"
   ],
   "note": "Full in the checked build; in a wrapping build a negative stored size escapes the bounds check (C18_negative_size_outside)."
  },
  {
   "property": "C19",
   "status": "partial",
   "theorems": [
    "Wz.Props.C19_pkg1",
    "Wz.Props.C19_pkg2",
    "Wz.Props.C19_pkg2_64_partial",
    "Wz.Props.C19_pkg2_64_negative_count"
   ],
   "note": "Full for PKG1 and 32-bit PKG2; for 64-bit PKG2 the reader rejects subdirectories whose encrypted count is negative (C19_pkg2_64_negative_count)."
  },
  {
   "property": "C20",
   "status": "partial",
   "theorems": [
    "Wz.Props.C20_ranked_partial",
    "Wz.Props.C20_forward_partial",
    "Wz.Props.C20_cycle_never_ends",
    "Wz.Props.C20_entry_loop_forever",
    "Wz.Props.C20_entry_loop_reached"
   ],
   "note": "False in general (C20_cycle_never_ends, C20_entry_loop_forever); proved when subdirectories are well founded."
  },
  {
   "property": "C21",
   "status": "proved",
   "theorems": [
    "Wz.Props.C21_tree",
    "Wz.Props.C21_tree_bound"
   ],
   "note": ""
  },
  {
   "property": "C22",
   "status": "partial",
   "theorems": [
    "Wz.Props.C22_resync",
    "Wz.Props.C22_following_entries",
    "Wz.Props.C22_unknown_kind",
    "Wz.Props.C22_unknown_code",
    "Wz.Props.C22_unknown_point_renames_shape"
   ],
   "note": "Resynchronisation and unknown kinds proved for every entry; inside a convex shape an unknown point kind turns the shape into a Null with the wrong name (C22_unknown_point_renames_shape)."
  },
  {
   "property": "C23",
   "status": "partial",
   "theorems": [
    "Wz.Props.C23_image_partial",
    "Wz.Props.C23_depth_partial",
    "Wz.Props.C23_bound_irrelevant_partial",
    "Wz.Props.C23_lookup_partial",
    "Wz.Props.C23_negative_count_panics",
    "Wz.Props.C23_wrap_never_ends"
   ],
   "note": "Proved with overflow checks (depth bounded by the bytes left). False in a wrapping build (C23_wrap_never_ends); a negative count panics (C23_negative_count_panics)."
  },
  {
   "property": "C24",
   "status": "partial",
   "theorems": [
    "Wz.Props.C24_image_same_partial",
    "Wz.Props.C24_same_partial",
    "Wz.Props.C24_missing_partial",
    "Wz.Props.C24_canvas_child_not_found",
    "Wz.Props.C24_missing_component_found",
    "Wz.Props.C24_first_or_last"
   ],
   "note": "Proved for paths through sub-properties without double names. Violated below a canvas, for missing inner components and for double names (three counterexample theorems)."
  },
  {
   "property": "C25",
   "status": "partial",
   "theorems": [
    "Wz.Props.C25_full_path",
    "Wz.Props.C25_root_path",
    "Wz.Props.C25_image_path",
    "Wz.Props.C25_image_path_none",
    "Wz.Props.C25_at_path",
    "Wz.Props.C25_at_path_relative",
    "Wz.Props.C25_pieces",
    "Wz.Props.C25_leads_back",
    "Wz.Props.C25_leads_back_image",
    "Wz.Props.C25_slash_counterexample",
    "Wz.Props.C25_root_itself",
    "Wz.Props.C25_circle",
    "Wz.Props.C25_filter_parent",
    "Wz.Props.C25_filter_parent_none",
    "Wz.Props.C25_inlink",
    "Wz.Props.C25_outlink",
    "Wz.Props.C25_inlink_none"
   ],
   "note": "Paths, lookups, relative lookups, in- and outlinks are proved for every heap. A path leads back for names without a slash; a name with a slash is a proved counterexample, and the root's empty path leads to no node."
  },
  {
   "property": "C26",
   "status": "partial",
   "theorems": [
    "Wz.Props.C26_parse_again",
    "Wz.Props.C26_parse_value",
    "Wz.Props.C26_failed",
    "Wz.Props.C26_fails",
    "Wz.Props.C26_parse_shows",
    "Wz.Props.C26_parse_same",
    "Wz.Props.C26_unparse",
    "Wz.Props.C26_unparse_archive",
    "Wz.Props.C26_restores",
    "Wz.Props.C26_directory_counterexample",
    "Wz.Props.C26_directory_spent",
    "Wz.Props.C26_history"
   ],
   "note": "Images and archive files come back after unparse and parse, over every history of such calls on images whose content holds only values and links. A directory does not: after unparse, parse reports success with no children (proved counterexample, cause proved as C26_directory_spent)."
  },
  {
   "property": "C27",
   "status": "partial",
   "theorems": [
    "Wz.Props.C27_merge",
    "Wz.Props.C27_content_lost_counterexample",
    "Wz.Props.C27_repair"
   ],
   "note": "Proved for every pair of disjoint trees. Of two nodes with one name only the destination's value survives, proved as a counterexample to 'loses nothing'."
  },
  {
   "property": "C28",
   "status": "partial",
   "theorems": [
    "Wz.Props.C28_list_order",
    "Wz.Props.C28_force_any_order_partial",
    "Wz.Props.C28_again_any_order_partial",
    "Wz.Props.C28_once_per_way",
    "Wz.Props.C28_depth",
    "Wz.Props.C28_ends_iff",
    "Wz.Props.C28_any_order",
    "Wz.Props.C28_walk_partial",
    "Wz.Props.C28_walk_reaches",
    "Wz.Props.C28_circle_counterexample",
    "Wz.Props.C28_force_partial",
    "Wz.Props.C28_again_partial",
    "Wz.Props.C28_link_counterexample",
    "Wz.Props.C28_deadlock_counterexample",
    "Wz.Props.C28_endless_counterexample",
    "Wz.Props.C28_again_counterexample"
   ],
   "note": "Trees: every node once, parents first (C28_walk_partial, C28_force_partial). Whatever links have made of the tree: the plain walk gives a node to the callback once for each way down to it, ways after their beginnings (C28_once_per_way), ends exactly if no way comes back to where it was (C28_ends_iff, C28_depth), and the order of the children in their hash maps changes only the order (C28_any_order). So the claim fails with links: an aliased node is visited twice, a link to an ancestor makes the plain walk endless and the forced walk deadlock (proved counterexamples). The forced walk is proved for content without links and with distinct sibling names, children in whatever order the maps list them (C28_force_any_order_partial). Repeated walks (C28_again_partial, C28_again_any_order_partial) need images that are not parsed at the start, see C28_again_counterexample."
  },
  {
   "property": "C29",
   "status": "partial",
   "theorems": [
    "Wz.Props.C29_path_partial",
    "Wz.Props.C29_above_counterexample",
    "Wz.Props.C29_at_top",
    "Wz.Props.C29_dot_counterexample",
    "Wz.Props.C29_resolve",
    "Wz.Props.C29_resolve_none",
    "Wz.Props.C29_unlocked",
    "Wz.Props.C29_locked_sound",
    "Wz.Props.C29_locked_root",
    "Wz.Props.C29_agree",
    "Wz.Props.C29_out_of_image_counterexample",
    "Wz.Props.C29_link_to_link_counterexample",
    "Wz.Props.C29_link_to_link_order",
    "Wz.Props.C29_duplicate_panic",
    "Wz.Props.C29_no_parent_panic"
   ],
   "note": "Proved for links that stay below the top. Counterexamples: '..' above the top cancel each other, '.' is kept, links out of the image being parsed are not followed, links to links depend on order, a link below an overwritten node panics."
  },
  {
   "property": "C30",
   "status": "partial",
   "theorems": [
    "Wz.Props.C30_no_suffix_partial",
    "Wz.Props.C30_last_panic",
    "Wz.Props.C30_last_counterexample",
    "Wz.Props.C30_no_image",
    "Wz.Props.C30_empty",
    "Wz.Props.C30_suffix",
    "Wz.Props.C30_suffix_total",
    "Wz.Props.C30_usual_partial",
    "Wz.Props.C30_suffix_counterexamples"
   ],
   "note": "Exact description for all paths. Counterexamples: image as last piece panics or gives nothing, '.img' inside a directory name, a second '.img' cuts the rest, the node need not be an image."
  },
  {
   "property": "C31",
   "status": "partial",
   "theorems": [
    "Wz.Props.C31_rgb565_fields",
    "Wz.Props.C31_argb1555_fields",
    "Wz.Props.C31_bgra4444_fields",
    "Wz.Props.C31_rgba1010102_fields",
    "Wz.Props.C31_fields_cover",
    "Wz.Props.C31_widening",
    "Wz.Props.C31_ten_bits",
    "Wz.Props.C31_ten_bits_not_recoverable",
    "Wz.Props.C31_recoverable"
   ],
   "note": "Full for every channel kept; the ten-bit format loses two bits per channel (C31_ten_bits_not_recoverable)."
  },
  {
   "property": "C32",
   "status": "partial",
   "theorems": [
    "Wz.Props.C32_default_partial",
    "Wz.Props.C32_default_any_width",
    "Wz.Props.C32_default_wrong",
    "Wz.Props.C32_sequential_partial",
    "Wz.Props.C32_same",
    "Wz.Props.C32_once",
    "Wz.Props.C32_sequential_fails",
    "Wz.Props.C32_sequential_short",
    "Wz.Props.C32_default_short",
    "Wz.Props.C32_plain",
    "Wz.Props.C32_plain_short",
    "Wz.Props.C32_squares",
    "Wz.Props.C32_squares_skewed"
   ],
   "note": "Violated for DXT pictures whose width is not a multiple of 4 (C32_default_wrong, C32_sequential_fails) and for format 517 when 16 does not divide the width (C32_squares_skewed); proved otherwise."
  },
  {
   "property": "C33",
   "status": "proved",
   "theorems": [
    "Wz.Props.C33_colors",
    "Wz.Props.C33_alphas",
    "Wz.Props.C33_indices",
    "Wz.Props.C33_block_dxt3",
    "Wz.Props.C33_block_dxt5"
   ],
   "note": "Block decoding against the written-out interpolation rules; c0 <= c1 uses the three-colour rule, as the code does."
  },
  {
   "property": "C34",
   "status": "partial",
   "theorems": [
    "Wz.Props.C34_encrypted",
    "Wz.Props.C34_chunking",
    "Wz.Props.C34_plain",
    "Wz.Props.C34_ends",
    "Wz.Props.C34_short_panics",
    "Wz.Props.C34_bad_length_panics",
    "Wz.Props.C34_reads_behind",
    "Wz.Props.C34_picture_partial"
   ],
   "note": "Proved for every chunking and key history with inflate and BC7 as parameters; malformed data can panic (C34_short_panics, C34_bad_length_panics) and a chunk may reach behind its block (C34_reads_behind)."
  },
  {
   "property": "C35",
   "status": "partial",
   "theorems": [
    "Wz.Props.C35_sizes",
    "Wz.Props.C35_other_sizes",
    "Wz.Props.C35_unknown",
    "Wz.Props.C35_enough_partial",
    "Wz.Props.C35_bc7_too_small",
    "Wz.Props.C35_overflow"
   ],
   "note": "Sizes proved for every format; BC7 with 4 not dividing a side is too small (C35_bc7_too_small) and 32-bit overflow is possible (C35_overflow)."
  },
  {
   "property": "C36",
   "status": "partial",
   "theorems": [
    "Wz.Props.C36_wav_partial",
    "Wz.Props.C36_stored_partial",
    "Wz.Props.C36_written",
    "Wz.Props.C36_too_long",
    "Wz.Props.C36_bad_ranges"
   ],
   "note": "Holds whenever the ranges lie in the file and the total fits 32 bits; near 4 GiB the header length overflows (C36_too_long) and bad ranges panic (C36_bad_ranges)."
  },
  {
   "property": "C37",
   "status": "partial",
   "theorems": [
    "Wz.Props.C37_read",
    "Wz.Props.C37_text_partial",
    "Wz.Props.C37_ascii_border",
    "Wz.Props.C37_border_violated",
    "Wz.Props.C37_border_example",
    "Wz.Props.C37_wrong_key_wins"
   ],
   "note": "C37_read characterises the result exactly. The claim fails when the 64-byte probe ends inside a character (C37_border_violated) or an earlier wrong key also gives text (C37_wrong_key_wins)."
  },
  {
   "property": "C38",
   "status": "proved",
   "theorems": [
    "Wz.Props.C38_roundtrip",
    "Wz.Props.C38_stream",
    "Wz.Props.C38_chunks",
    "Wz.Props.C38_rest"
   ],
   "note": ""
  },
  {
   "property": "C39",
   "status": "partial",
   "theorems": [
    "Wz.Props.C39_pieces_partial",
    "Wz.Props.C39_even_partial",
    "Wz.Props.C39_end_partial",
    "Wz.Props.C39_split_panics",
    "Wz.Props.C39_odd_number"
   ],
   "note": "Proved for all sequences of reads that do not split what is left of a word (in particular all reads of even size, the only ones the MS parser makes). Disproved otherwise: a number read at an odd place spoils the following bytes, and a short byte read panics."
  },
  {
   "property": "C40",
   "status": "partial",
   "theorems": [
    "Wz.Props.C40_restart",
    "Wz.Props.C40_pieces_partial",
    "Wz.Props.C40_end_panics",
    "Wz.Props.C40_border",
    "Wz.Props.C40_last_chunk",
    "Wz.Props.C40_write"
   ],
   "note": "The cipher is a parameter with 64-byte blocks. C40_restart describes every sequence of reads exactly: the key stream starts anew when a read ends on a 64-byte border, which contradicts the property; proved for sequences in which only the last read may end on a border. The end of the stream panics."
  },
  {
   "property": "C41",
   "status": "partial",
   "theorems": [
    "Wz.Props.C41_header_v1",
    "Wz.Props.C41_header_v1_only",
    "Wz.Props.C41_accept_v1",
    "Wz.Props.C41_header_v2",
    "Wz.Props.C41_header_v2_only",
    "Wz.Props.C41_version_v2",
    "Wz.Props.C41_salt_v2_debug",
    "Wz.Props.C41_open_v1",
    "Wz.Props.C41_open_v2_partial",
    "Wz.Props.C41_open_v2_crash",
    "Wz.Props.C41_open_v2_counterexample",
    "Wz.Props.C41_open_short",
    "Wz.Props.C41_table_v1",
    "Wz.Props.C41_table_v2",
    "Wz.Props.C41_file_v1",
    "Wz.Props.C41_table_debug_v1",
    "Wz.Props.C41_table_debug_v2",
    "Wz.Props.C41_table_negative",
    "Wz.Props.C41_table_plain",
    "Wz.Props.C41_table_border"
   ],
   "note": "Offsets and tables proved for both versions; version 1 accepts exactly matching hashes. Violated: version 2 never checks its hash, a well-formed version 2 file can crash in the version 1 attempt (C41_open_v2_counterexample), a table in the plain ChaCha20 stream is misread if a field ends with a block (C41_table_border)."
  },
  {
   "property": "C42",
   "status": "partial",
   "theorems": [
    "Wz.Props.C42_key_v1",
    "Wz.Props.C42_key_v2_partial",
    "Wz.Props.C42_key_v2_panic",
    "Wz.Props.C42_key_empty",
    "Wz.Props.C42_nonce",
    "Wz.Props.C42_digits",
    "Wz.Props.C42_data_v1",
    "Wz.Props.C42_data_v2_partial",
    "Wz.Props.C42_size",
    "Wz.Props.C42_outside"
   ],
   "note": "Violated for the empty name (both versions) and, in version 2, for names of less than 32 characters that are not ASCII: the key derivation panics (C42_key_empty, C42_key_v2_panic). Proved for all other names; sizes outside the block are shown to panic."
  },
  {
   "property": "C43",
   "status": "proved",
   "theorems": [
    "Wz.Props.C43_access",
    "Wz.Props.C43_exclusive",
    "Wz.Props.C43_flags",
    "Wz.Props.C43_uncovered",
    "Wz.Props.C43_converted",
    "Wz.Props.C43_ms_hidden"
   ],
   "note": ""
  },
  {
   "property": "C44",
   "status": "partial",
   "theorems": [
    "Wz.Props.C44_cache_independent_partial",
    "Wz.Props.C44_cached_is_listed",
    "Wz.Props.C44_cached_only_counterexample",
    "Wz.Props.C44_wide_cache_irrelevant",
    "Wz.Props.C44_wide_opens",
    "Wz.Props.C44_narrow_opens",
    "Wz.Props.C44_key_irrelevant",
    "Wz.Props.C44_name_check_blind",
    "Wz.Props.C44_first",
    "Wz.Props.C44_solves",
    "Wz.Props.C44_no_version",
    "Wz.Props.C44_file_after",
    "Wz.Props.C44_failure_not_cached",
    "Wz.Props.C44_history",
    "Wz.Props.C44_history_opened",
    "Wz.Props.C44_never_1199"
   ],
   "note": "The first candidate that opens the file is used, the cache only ever holds profiles that opened a file, in every history of threads. The result depends on the cache in one case: a multiple of 16 for profile 1198 is accepted from the cache but never found from the header (C44_cached_only_counterexample); elsewhere it does not (C44_cache_independent_partial). The check of the name decryptor accepts every key (C44_name_check_blind)."
  },
  {
   "property": "C45",
   "status": "partial",
   "theorems": [
    "Wz.Props.C45_rule",
    "Wz.Props.C45_parts_found_partial",
    "Wz.Props.C45_large_number",
    "Wz.Props.C45_any_base",
    "Wz.Props.C45_any_extension",
    "Wz.Props.C45_merge",
    "Wz.Props.C45_names",
    "Wz.Props.C45_disjoint",
    "Wz.Props.C45_stray_file",
    "Wz.Props.C45_empty_subfolder",
    "Wz.Props.C45_ends",
    "Wz.Props.C45_shared_folder_counterexample",
    "Wz.Props.C45_order_counterexample",
    "Wz.Props.C45_base_names",
    "Wz.Props.C45_not_base",
    "Wz.Props.C45_relative_path",
    "Wz.Props.C45_linked_folder"
   ],
   "note": "The naming rule is characterised exactly (C45_rule) and the merge is described for every folder (C45_merge, C45_disjoint). Violated: base name and extension are not compared, numbers from 65536 are ignored, a shared folder mixes the packages, the result depends on the listing order, stray files and missing archives make the call crash."
  },
  {
   "property": "C46",
   "status": "partial",
   "theorems": [
    "Wz.Props.C46_succeeds_iff_partial",
    "Wz.Props.C46_shows_partial",
    "Wz.Props.C46_no_circle",
    "Wz.Props.C46_circle_counterexample",
    "Wz.Props.C46_order",
    "Wz.Props.C46_same_at",
    "Wz.Props.C46_total_partial",
    "Wz.Props.C46_panics",
    "Wz.Props.C46_nan",
    "Wz.Props.C46_faithful_partial",
    "Wz.Props.C46_float",
    "Wz.Props.C46_empty_container",
    "Wz.Props.C46_value_with_children",
    "Wz.Props.C46_unreadable",
    "Wz.Props.C46_hidden_field",
    "Wz.Props.C46_text_no_panic"
   ],
   "note": "C46_total_partial says exactly when the export of a tree succeeds; C46_succeeds_iff_partial says it for nodes tied together by links: exactly if no way down comes back to where it was and no way leads to a value that cannot be exported. A resolved link to a node above makes the export run out of stack (C46_circle_counterexample). NaN and infinities panic (C46_nan), an empty container becomes null, the value of a node with children and unreadable text are lost, a child can hide a picture field."
  },
  {
   "property": "C47",
   "status": "partial",
   "theorems": [
    "Wz.Props.C47_verify_accepts",
    "Wz.Props.C47_verify_iff",
    "Wz.Props.C47_wrap_accepts_negative_length",
    "Wz.Props.C47_guess_first",
    "Wz.Props.C47_guess_none",
    "Wz.Props.C47_other_first_byte",
    "Wz.Props.C47_empty_panics",
    "Wz.Props.C47_long_text_panics",
    "Wz.Props.C47_open_image",
    "Wz.Props.C47_open_image_errors",
    "Wz.Props.C47_found_in_any_build"
   ],
   "note": "Proved for images with overflow checks, in both directions. False in a wrapping build for one negative length (C47_wrap_accepts_negative_length); an empty image and huge text lengths panic (C47_empty_panics, C47_long_text_panics)."
  },
  {
   "property": "C48",
   "status": "partial",
   "theorems": [
    "Wz.Props.C48_add_partial",
    "Wz.Props.C48_sub_partial",
    "Wz.Props.C48_mul_partial",
    "Wz.Props.C48_div_partial",
    "Wz.Props.C48_distance_partial",
    "Wz.Props.C48_eq"
   ],
   "note": "Component-wise where the result fits 32 bits; overflow panics or wraps, division by zero panics. The square root in distance is not modelled, only the differences it is made from."
  },
  {
   "property": "C49",
   "status": "partial",
   "theorems": [
    "Wz.Props.C49_only_770",
    "Wz.Props.C49_never_above"
   ],
   "note": "Violated: the fallback loop uses one hash for all versions; see the counterexample theorem."
  },
  {
   "property": "C50",
   "status": "partial",
   "theorems": [
    "Wz.Props.C50_name_past_end_panics",
    "Wz.Props.C50_negative_reference_panics",
    "Wz.Props.C50_entries_no_panic_partial",
    "Wz.Props.C50_wrong_scheme_panics"
   ],
   "note": "Violated (C50_name_past_end_panics); entry reading and offset checking proved panic-free in release arithmetic."
  },
  {
   "property": "C51",
   "status": "partial",
   "theorems": [
    "Wz.Props.C51_accepted_heads",
    "Wz.Props.C51_property_image",
    "Wz.Props.C51_property_image_bound",
    "Wz.Props.C51_both_wrong_refused",
    "Wz.Props.C51_wrong_name_accepted",
    "Wz.Props.C51_text_image",
    "Wz.Props.C51_lua_image",
    "Wz.Props.C51_lua_without_name",
    "Wz.Props.C51_packed_image",
    "Wz.Props.C51_packed_truncated_panics",
    "Wz.Props.C51_packed_short_block",
    "Wz.Props.C51_other_first_byte"
   ],
   "note": "Proved for every kind of image. Violated: wrong names are accepted when the number is 0 and the other way round (C51_wrong_name_accepted); short packed text panics (C51_packed_*)."
  },
  {
   "property": "C52",
   "status": "proved",
   "theorems": [
    "Wz.Props.C52_keystream",
    "Wz.Props.C52_standard",
    "Wz.Props.C52_signed"
   ],
   "note": "Refinement to an independent description of SNOW 2.0 (field arithmetic instead of tables). C52_signed shows where the program deviates from the standard loading of keys."
  },
  {
   "property": "C53",
   "status": "partial",
   "theorems": [
    "Wz.Props.C53_found_again",
    "Wz.Props.C53_only_on_the_way",
    "Wz.Props.C53_leads",
    "Wz.Props.C53_decided",
    "Wz.Props.C53_deadlock_counterexample"
   ],
   "note": "Persistence and the frame hold for every heap, links and circles included. What is found is proved where the sources read on the way hold no links. A path through a link back to the node the call is made on hangs (proved counterexample)."
  },
  {
   "property": "C54",
   "status": "proved",
   "theorems": [
    "Wz.Props.C54_first",
    "Wz.Props.C54_only",
    "Wz.Props.C54_none",
    "Wz.Props.C54_failure",
    "Wz.Props.C54_given",
    "Wz.Props.C54_given_headerless",
    "Wz.Props.C54_given_overflow",
    "Wz.Props.C54_again",
    "Wz.Props.C54_opens"
   ],
   "note": "Versions 0 to 999999; a larger given version overflows (C54_given_overflow). Given versions below -1 are not covered."
  },
  {
   "property": "C55",
   "status": "partial",
   "theorems": [
    "Wz.Props.C55_no_name",
    "Wz.Props.C55_empty_name",
    "Wz.Props.C55_pkg2_empty",
    "Wz.Props.C55_name_elsewhere",
    "Wz.Props.C55_length_panics",
    "Wz.Props.C55_parse",
    "Wz.Props.C55_kmst1198_counterexample",
    "Wz.Props.C55_name_elsewhere_counterexample",
    "Wz.Props.C55_found_narrow",
    "Wz.Props.C55_found_wide",
    "Wz.Props.C55_other_text",
    "Wz.Props.C55_pkg2_taken_for_plain",
    "Wz.Props.C55_kmst1198_short",
    "Wz.Props.C55_kmst1198_long",
    "Wz.Props.C55_given_pkg2",
    "Wz.Props.C55_guess_pkg1",
    "Wz.Props.C55_guess_pkg2",
    "Wz.Props.C55_guess_pkg2_wide",
    "Wz.Props.C55_given_used",
    "Wz.Props.C55_given_iv",
    "Wz.Props.C55_found_used",
    "Wz.Props.C55_found_known"
   ],
   "note": "Proved: which key is found and which given key is used, for every content with a first name. Violated: KMST1198 archives with a first name of at most seven characters are taken for unencrypted and cannot be opened (C55_kmst1198_counterexample); a given PKG2 key is tested without using it (C55_given_pkg2); names that are not ASCII, or are stored elsewhere, or are missing leave no key; a negative length panics. PKG2 first names of more than 127 characters are not covered."
  },
  {
   "property": "C56",
   "status": "partial",
   "theorems": [
    "Wz.Props.C56_wide_counterexample",
    "Wz.Props.C56_verify",
    "Wz.Props.C56_guess",
    "Wz.Props.C56_found",
    "Wz.Props.C56_right_iv_partial",
    "Wz.Props.C56_weaker",
    "Wz.Props.C56_narrow",
    "Wz.Props.C56_wide",
    "Wz.Props.C56_wide_taken_for_plain",
    "Wz.Props.C56_no_name",
    "Wz.Props.C56_empty_name",
    "Wz.Props.C56_length_panics"
   ],
   "note": "Proved: which IVs are accepted and which one is found, for every content with a first name of either form. Violated: a first name of two bytes a character is a text under almost any key, so an encrypted archive is taken for an unencrypted one (C56_wide, C56_wide_taken_for_plain, C56_wide_counterexample); C56_right_iv_partial needs that no IV tried before makes a text of the name. A negative length panics (C56_length_panics)."
  },
  {
   "property": "C57",
   "status": "partial",
   "theorems": [
    "Wz.Props.C57_circle_counterexample",
    "Wz.Props.C57_through_itself_counterexample",
    "Wz.Props.C57_one_answer",
    "Wz.Props.C57_not_a_picture",
    "Wz.Props.C57_own",
    "Wz.Props.C57_inlink",
    "Wz.Props.C57_inlinks",
    "Wz.Props.C57_inlinks_elsewhere",
    "Wz.Props.C57_outlink_partial",
    "Wz.Props.C57_outlink_through_itself",
    "Wz.Props.C57_broken_outlink",
    "Wz.Props.C57_outlink_panics",
    "Wz.Props.C57_circle",
    "Wz.Props.C57_again"
   ],
   "note": "Proved: which node's data is given, for rows of inlinks and outlinks of any length, links that lead nowhere, and panics on the way. Violated: links in a circle never come back (C57_circle, C57_circle_counterexample); an outlink through the asking picture hangs (C57_outlink_through_itself, C57_through_itself_counterexample), which C57_outlink_partial excludes."
  },
  {
   "property": "C58",
   "status": "partial",
   "theorems": [
    "Wz.Props.C58_archive",
    "Wz.Props.C58_pkg1",
    "Wz.Props.C58_pkg2",
    "Wz.Props.C58_pkg2_64_partial",
    "Wz.Props.C58_image"
   ],
   "note": "Proved from the bytes to the nodes for PKG1 (C58_pkg1), 32-bit PKG2 (C58_pkg2), 64-bit PKG2 (C58_pkg2_64_partial: encrypted entry counts of subdirectories not negative, a violation recorded under C19) and single images (C58_image). The file is opened with the version it was written for when candidates tried before are refused (C54, C44). Excluded: images with links on the way (C26, C53), and forgetting directories, which cannot be read again (C26)."
  },
  {
   "property": "C59",
   "status": "partial",
   "theorems": [
    "Wz.Props.C59_names_differ",
    "Wz.Props.C59_values_stay",
    "Wz.Props.C59_children_know_parent_partial",
    "Wz.Props.C59_full_path_partial",
    "Wz.Props.C59_nothing_to_repair_partial",
    "Wz.Props.C59_added_counterexample",
    "Wz.Props.C59_link_counterexample"
   ],
   "note": "Different names and stable values are proved for all histories (C59_names_differ, C59_values_stay). Own name and right parent are proved for link-free content and adding only to the parent (C59_children_know_parent_partial, C59_full_path_partial, C59_nothing_to_repair_partial); both restrictions are needed (C59_added_counterexample, C59_link_counterexample). Walks and merges that do not come back are no steps."
  },
  {
   "property": "C60",
   "status": "partial",
   "theorems": [
    "Wz.Props.C60_nat",
    "Wz.Props.C60_int",
    "Wz.Props.C60_wz_int",
    "Wz.Props.C60_by_len",
    "Wz.Props.C60_by_len_panics",
    "Wz.Props.C60_text_iff",
    "Wz.Props.C60_text_errors",
    "Wz.Props.C60_reader_iff",
    "Wz.Props.C60_reader_free",
    "Wz.Props.C60_free_reader_partial",
    "Wz.Props.C60_read_back",
    "Wz.Props.C60_cut_counterexample",
    "Wz.Props.C60_negative_counterexample",
    "Wz.Props.C60_block_inline",
    "Wz.Props.C60_block_offset",
    "Wz.Props.C60_block_other",
    "Wz.Props.C60_block_reader"
   ],
   "note": "Numbers agree in all cases (C60_nat, C60_int, C60_wz_int). Texts: exactly which text (C60_text_iff), which error (C60_text_errors), every text of the reader (C60_reader_free, C60_block_reader), stored texts read back (C60_read_back). The converse needs a length that is not negative (C60_free_reader_partial, C60_negative_counterexample), and cut texts panic (C60_cut_counterexample)."
  },
  {
   "property": "C61",
   "status": "partial",
   "theorems": [
    "Wz.Props.C61_found_partial",
    "Wz.Props.C61_missing_partial",
    "Wz.Props.C61_no_image",
    "Wz.Props.C61_image_counterexample",
    "Wz.Props.C61_closed_counterexample"
   ],
   "note": "Found (C61_found_partial), not there (C61_missing_partial) and no image on the way (C61_no_image), for every archive and every allowed history. Left out: images with links, paths inside the image that go through something other than sub-properties (see C24), property names containing a slash. The claim is false for the image itself (C61_image_counterexample: panic) and for texts and scripts that have not been read (C61_closed_counterexample)."
  },
  {
   "property": "C62",
   "status": "proved",
   "theorems": [
    "Wz.Props.C62_texts",
    "Wz.Props.C62_names",
    "Wz.Props.C62_attempt",
    "Wz.Props.C62_open",
    "Wz.Props.C62_by_version",
    "Wz.Props.C62_by_iv",
    "Wz.Props.C62_by_type",
    "Wz.Props.C62_lent_counterexample"
   ],
   "note": "Proved for every history that keeps the rule in AllowedShare; without it the claim is false (C62_lent_counterexample). Steps are atomic, as the locks make them: growing is one write lock, trying keys another. That guessing grows the keys is a separate step."
  },
  {
   "property": "C63",
   "status": "partial",
   "theorems": [
    "Wz.Props.C63_read_back_partial",
    "Wz.Props.C63_same_json",
    "Wz.Props.C63_format",
    "Wz.Props.C63_exported_iff",
    "Wz.Props.C63_no_parents",
    "Wz.Props.C63_reads_all",
    "Wz.Props.C63_unknown_type",
    "Wz.Props.C63_null_counterexample",
    "Wz.Props.C63_nan_counterexample",
    "Wz.Props.C63_astral_counterexample",
    "Wz.Props.C63_picture_counterexample",
    "Wz.Props.C63_in_range",
    "Wz.Props.C63_wide_picture",
    "Wz.Props.C63_number"
   ],
   "note": "Proved for all trees without null, non-finite floats and characters outside of the basic plane; each of these is a counterexample (the code loses them). The code derived by serde is modelled after its documentation."
  },
  {
   "property": "C64",
   "status": "partial",
   "theorems": [
    "Wz.Props.C64_parsed",
    "Wz.Props.C64_looked_up",
    "Wz.Props.C64_stored",
    "Wz.Props.C64_cut_counterexample",
    "Wz.Props.C64_save_names_partial",
    "Wz.Props.C64_save_names_counterexample"
   ],
   "note": "Everything but the last sentence is proved in full for all buffers below 2^63 bytes; the names of saved sounds are proved different for names without dots, with a counterexample for others. PCM sounds of 4 GiB or more are not covered."
  },
  {
   "property": "C65",
   "status": "partial",
   "theorems": [
    "Wz.Props.C65_archive",
    "Wz.Props.C65_v1",
    "Wz.Props.C65_v2_partial",
    "Wz.Props.C65_slash",
    "Wz.Props.C65_slash_counterexample"
   ],
   "note": "Proved from the bytes for version 1 (release arithmetic) and for version 2 files that are opened as such, with names that have keys (see C41, C42). Images with links are excluded while they are read. The last sentence is false for names with slashes, as in real archives (C65_slash, with a counterexample)."
  },
  {
   "property": "C66",
   "status": "partial",
   "theorems": [
    "Wz.Props.C66_pkg2_64_counterexample",
    "Wz.Props.C66_pkg2_64_guess",
    "Wz.Props.C66_pkg2_64",
    "Wz.Props.C66_pkg2_64_panics",
    "Wz.Props.C66_wz_told",
    "Wz.Props.C66_wz_found",
    "Wz.Props.C66_first_entry",
    "Wz.Props.C66_wz_wrong",
    "Wz.Props.C66_pkg2_found",
    "Wz.Props.C66_pkg2_64_partial",
    "Wz.Props.C66_no_name",
    "Wz.Props.C66_wz_never_refused",
    "Wz.Props.C66_wz_not_archive_counterexample",
    "Wz.Props.C66_img_told",
    "Wz.Props.C66_img_found",
    "Wz.Props.C66_ms"
   ],
   "note": "64-bit PKG2: the key is looked for in the bytes of the count (C66_pkg2_64_guess); C66_pkg2_64 is for counts whose fifth byte is not 3 or 4 and which do not pass for a name, with counterexamples for those that do (C66_pkg2_64_counterexample, C66_pkg2_64_panics); for the others C66_pkg2_64_partial takes the key found as a hypothesis. The last sentence is false: any file gives a node, the error comes when it is parsed (C66_wz_not_archive_counterexample)."
  },
  {
   "property": "C67",
   "status": "proved",
   "theorems": [
    "Wz.Props.C67_reader",
    "Wz.Props.C67_text",
    "Wz.Props.C67_free",
    "Wz.Props.C67_image",
    "Wz.Props.C67_image_file",
    "Wz.Props.C67_parse",
    "Wz.Props.C67_open",
    "Wz.Props.C67_archive",
    "Wz.Props.C67_nodes",
    "Wz.Props.C67_image_nodes",
    "Wz.Props.C67_ms",
    "Wz.Props.C67_media",
    "Wz.Props.C67_picture",
    "Wz.Props.C67_counterexample"
   ],
   "note": "The statement excepts overflows; C67_counterexample shows that the exception is needed. Texts of links and nodes of archives: for files of less than 2^63 bytes, which all files are."
  },
  {
   "property": "C68",
   "status": "partial",
   "theorems": [
    "Wz.Props.C68_twice_counterexample",
    "Wz.Props.C68_archive",
    "Wz.Props.C68_pkg1",
    "Wz.Props.C68_pkg2",
    "Wz.Props.C68_pkg2_64_partial",
    "Wz.Props.C68_image",
    "Wz.Props.C68_ms",
    "Wz.Props.C68_ms_v1",
    "Wz.Props.C68_ms_v2_partial"
   ],
   "note": "From the bytes for PKG1, 32-bit PKG2, single images and MS version 1. 64-bit PKG2 (C68_pkg2_64_partial) and MS version 2 (C68_ms_v2_partial) have the exceptions recorded under C19, C41 and C42. Links are excluded because of the C28 counterexamples, names that occur twice because of C68_twice_counterexample. Proved for children in the order of the file and for every other order the hash maps may give (WalksThrough, last part)."
  },
  {
   "property": "C69",
   "status": "partial",
   "theorems": [
    "Wz.Props.C69_links_ms",
    "Wz.Props.C69_links_ms_v1",
    "Wz.Props.C69_links_ms_v2_partial",
    "Wz.Props.C69_links_archive",
    "Wz.Props.C69_links_pkg1",
    "Wz.Props.C69_links_pkg2",
    "Wz.Props.C69_links_pkg2_64_partial",
    "Wz.Props.C69_links_image",
    "Wz.Props.C69_text_only",
    "Wz.Props.C69_ms",
    "Wz.Props.C69_ms_v1",
    "Wz.Props.C69_ms_v2_partial",
    "Wz.Props.C69_archive",
    "Wz.Props.C69_pkg1",
    "Wz.Props.C69_pkg2",
    "Wz.Props.C69_pkg2_64_partial",
    "Wz.Props.C69_image"
   ],
   "note": "From the bytes for PKG1, 32-bit PKG2, single images and MS version 1; 64-bit PKG2 (C69_pkg2_64_partial) and MS version 2 (C69_ms_v2_partial) with the exceptions recorded under C19, C41 and C42. Not covered: BC7 pictures (external decoder), _outlink through a node called Base (C57), _inlink chains in images that also have UOL links (the C69_links theorems cover payloads and unlinked pictures there)."
  },
  {
   "property": "C70",
   "status": "partial",
   "theorems": [
    "Wz.Props.C70_parse",
    "Wz.Props.C70_one_place",
    "Wz.Props.C70_way_back_counterexample",
    "Wz.Props.C70_ms_archive",
    "Wz.Props.C70_ms_v1",
    "Wz.Props.C70_ms_v2_partial",
    "Wz.Props.C70_one_thing",
    "Wz.Props.C70_archive",
    "Wz.Props.C70_pkg1",
    "Wz.Props.C70_pkg2",
    "Wz.Props.C70_pkg2_64_partial",
    "Wz.Props.C70_image",
    "Wz.Props.C70_image_parsed_partial",
    "Wz.Props.C70_hangs"
   ],
   "note": "From the bytes for PKG1, 32-bit PKG2, MS archives of version 1 and single images; MS archives of version 2 with the exceptions recorded under C41 and C42 (C70_ms_v2_partial); 64-bit PKG2 with the exceptions recorded under C19 (C70_pkg2_64_partial). at_path_parsed called on an image hangs on links back to it (C70_way_back_counterexample), proved otherwise (C70_image_parsed_partial)."
  },
  {
   "property": "C71",
   "status": "partial",
   "theorems": [
    "Wz.Props.C71_pkg1",
    "Wz.Props.C71_pkg2",
    "Wz.Props.C71_pkg2_64",
    "Wz.Props.C71_unchecked_counterexample",
    "Wz.Props.C71_pkg1_file",
    "Wz.Props.C71_pkg1_given",
    "Wz.Props.C71_pkg2_file",
    "Wz.Props.C71_unchecked_partial"
   ],
   "note": "Proved for builds with overflow checks, for directories and whole files. Builds without them violate it where the others stop at an overflow (C71_unchecked_counterexample); otherwise it holds there too (C71_unchecked_partial)."
  },
  {
   "property": "C72",
   "status": "partial",
   "theorems": [
    "Wz.Props.C72_image_shown",
    "Wz.Props.C72_image",
    "Wz.Props.C72_unchecked_partial",
    "Wz.Props.C72_unchecked_counterexample",
    "Wz.Props.C72_shown_is_stored",
    "Wz.Props.C72_list",
    "Wz.Props.C72_one_reading",
    "Wz.Props.C72_text"
   ],
   "note": "Proved in both directions for builds with overflow checks, for lists of properties and whole images. Builds without them violate it where the others stop at an overflow (C72_unchecked_counterexample); otherwise it holds there too (C72_unchecked_partial)."
  },
  {
   "property": "C73",
   "status": "partial",
   "theorems": [
    "Wz.Props.C73_table_v1_partial",
    "Wz.Props.C73_table_v2",
    "Wz.Props.C73_shown_partial",
    "Wz.Props.C73_long_name_counterexample"
   ],
   "note": "Proved for all bytes, in both directions for version 1 tables and from images to table for version 2 (the other direction is C41), and for the whole file in any build, for names of less than 2^30 UTF-16 units. Longer names in version 1 violate it (C73_long_name_counterexample)."
  },
  {
   "property": "C74",
   "status": "proved",
   "theorems": [
    "Wz.Props.C74_image",
    "Wz.Props.C74_image_same",
    "Wz.Props.C74_unchecked",
    "Wz.Props.C74_direct",
    "Wz.Props.C74_not_found",
    "Wz.Props.C74_same",
    "Wz.Props.C74_one_level",
    "Wz.Props.C74_damaged"
   ],
   "note": "Proved for all bytes and paths, both directions, with the exact description of what is reached, including that the code stays with a missing inner name and enters blocks of any kind (the reason why C24 fails for such paths). Agreement with the full parse for paths with clear ways."
  },
  {
   "property": "C75",
   "status": "partial",
   "theorems": [
    "Wz.Props.C75_pkg1",
    "Wz.Props.C75_pkg1_unchecked_partial",
    "Wz.Props.C75_pkg2",
    "Wz.Props.C75_pkg2_unchecked_partial",
    "Wz.Props.C75_image",
    "Wz.Props.C75_image_unchecked_partial",
    "Wz.Props.C75_ms_partial"
   ],
   "note": "Proved for all bytes and histories of PKG1, PKG2 and single images in builds with overflow checks. In builds without, and for MS archives, under the hypothesis that no overflow would stop the reading of an image (C67, C71 have counterexamples where one does)."
  },
  {
   "property": "C76",
   "status": "partial",
   "theorems": [
    "Wz.Props.C76_outlink_counterexample",
    "Wz.Props.C76_lookup_counterexample",
    "Wz.Props.C76_walk_counterexample",
    "Wz.Props.C76_walks_counterexample",
    "Wz.Props.C76_every_schedule_ends",
    "Wz.Props.C76_exclusive",
    "Wz.Props.C76_writes_locked",
    "Wz.Props.C76_changes",
    "Wz.Props.C76_no_deadlock_partial",
    "Wz.Props.C76_finishes_partial",
    "Wz.Props.C76_readers",
    "Wz.Props.C76_at_path_reads",
    "Wz.Props.C76_upwards_reads",
    "Wz.Props.C76_walk_reads",
    "Wz.Props.C76_alone",
    "Wz.Props.C76_reached_partial"
   ],
   "note": "Ending, exclusion and threads that only read: for all trees. No deadlock: for calls that lead downwards in trees without links (and C77 for archives with links). It fails for calls that lock upwards while holding a lock (get_full_path, filter_parent) beside an outlink that parses or, depending on the lock policy, beside any writer; two forced walks at once can miss nodes: counterexamples by explicit schedules. C76_reached_partial asks for no links only at the places that can be reached from the tree."
  },
  {
   "property": "C77",
   "status": "partial",
   "theorems": [
    "Wz.Props.C77_archive",
    "Wz.Props.C77_pkg1",
    "Wz.Props.C77_pkg2",
    "Wz.Props.C77_pkg2_64_partial"
   ],
   "note": "Paths and images as in C70 (links that lead directly to places in their image); directories are not forgotten. 64-bit PKG2 archives: as far as the base reader opens them rightly (C66)."
  },
  {
   "property": "C78",
   "status": "partial",
   "theorems": [
    "Wz.Props.C78_archive",
    "Wz.Props.C78_v1",
    "Wz.Props.C78_v2_partial",
    "Wz.Props.C78_forgotten_counterexample"
   ],
   "note": "Images as in C70; below an image only if no link leads back to it (see C70: such a lookup locks itself out). Version 2: for names that have a key (C42). A lookup below an image that another thread forgets in between finds nothing (C78_forgotten_counterexample)."
  },
  {
   "property": "C79",
   "status": "partial",
   "theorems": [
    "Wz.Props.C79_answers_partial",
    "Wz.Props.C79_spoiled",
    "Wz.Props.C79_undamaged",
    "Wz.Props.C79_counterexample"
   ],
   "note": "False of the code: a damaged picture makes the decryptor shared by all files unusable (C79_counterexample). Proved: nothing else does, and exactly the later accesses that need that decryptor panic. Accesses are one after the other; see C07_concurrent for the shared key with threads."
  },
  {
   "property": "C80",
   "status": "partial",
   "theorems": [
    "Wz.Props.C80_answers_partial",
    "Wz.Props.C80_outlinks",
    "Wz.Props.C80_spoiled",
    "Wz.Props.C80_marks",
    "Wz.Props.C80_parse_marks",
    "Wz.Props.C80_undamaged",
    "Wz.Props.C80_counterexample"
   ],
   "note": "False of the code for forced outlinks, which poison the base as well (C80_counterexample, C80_outlinks). Proved for all other calls. Calls are one after the other; panics of threads that run at the same time are C82."
  },
  {
   "property": "C81",
   "status": "partial",
   "theorems": [
    "Wz.Props.C81_ends",
    "Wz.Props.C81_handles",
    "Wz.Props.C81_kept",
    "Wz.Props.C81_held",
    "Wz.Props.C81_nothing_lost",
    "Wz.Props.C81_exact_partial",
    "Wz.Props.C81_exact",
    "Wz.Props.C81_no_links",
    "Wz.Props.C81_ring",
    "Wz.Props.C81_left_over",
    "Wz.Props.C81_leak_counterexample",
    "Wz.Props.C81_path_partial",
    "Wz.Props.C81_path_counterexample"
   ],
   "note": "False of the code where links lead to a node above (C81_leak_counterexample: such circles are never freed; C81_left_over says exactly which nodes leak) and for paths of nodes whose archive was dropped (C81_path_counterexample). Proved: what can be reached stays (C81_kept, C81_held); exactly which nodes are left after each step (C81_exact), without circles exactly those that can be reached (C81_exact_partial), in particular for all histories of archives without links (C81_no_links). One call after the other."
  },
  {
   "property": "C82",
   "status": "partial",
   "theorems": [
    "Wz.Props.C82_every_schedule_ends",
    "Wz.Props.C82_exclusive",
    "Wz.Props.C82_spoils",
    "Wz.Props.C82_poisoned",
    "Wz.Props.C82_answer_iff",
    "Wz.Props.C82_no_crash",
    "Wz.Props.C82_trees_partial",
    "Wz.Props.C82_archive",
    "Wz.Props.C82_pkg1",
    "Wz.Props.C82_pkg2",
    "Wz.Props.C82_pkg2_64_partial",
    "Wz.Props.C82_ms",
    "Wz.Props.C82_ms_v1",
    "Wz.Props.C82_spreads_counterexample",
    "Wz.Props.C82_reached_partial"
   ],
   "note": "Panics do spread to threads that need a poisoned lock (C82_spreads_counterexample), as every lock is unwrapped. Proved for all points of panic: every schedule ends (C82_every_schedule_ends), exclusive writing (C82_exclusive), exactly what is spoiled and who panics (C82_spoils, C82_poisoned, C82_answer_iff), no deadlock, right answers and right nodes for archives of all formats (C82_archive, C82_pkg1, C82_pkg2, C82_ms). Partial like C76: calls that lead downwards in trees without links (C82_trees_partial); the 64-bit PKG2 format as far as C44 opens it. C82_reached_partial asks for no links only at the places that can be reached from the tree, and covers exports (C84_panics_partial: an export beside threads that panic is all or nothing)."
  },
  {
   "property": "C83",
   "status": "partial",
   "theorems": [
    "Wz.Props.C83_links_ms_archive_partial",
    "Wz.Props.C83_links_ms_v1_partial",
    "Wz.Props.C83_links_ms_v2_partial",
    "Wz.Props.C83_links_archive_partial",
    "Wz.Props.C83_links_pkg1_partial",
    "Wz.Props.C83_links_pkg2_partial",
    "Wz.Props.C83_links_pkg2_64_partial",
    "Wz.Props.C83_links_image_partial",
    "Wz.Props.C83_links_at",
    "Wz.Props.C83_no_links",
    "Wz.Props.C83_round_counterexample",
    "Wz.Props.C83_ms_archive_partial",
    "Wz.Props.C83_ms_v1_partial",
    "Wz.Props.C83_ms_v2_partial",
    "Wz.Props.C83_archive_partial",
    "Wz.Props.C83_pkg1_partial",
    "Wz.Props.C83_pkg2_partial",
    "Wz.Props.C83_pkg2_64_partial",
    "Wz.Props.C83_at",
    "Wz.Props.C83_at_image",
    "Wz.Props.C83_unread",
    "Wz.Props.C83_nan_counterexample"
   ],
   "note": "Partial because the code panics on NaN and infinities (C83_nan_counterexample) and exports images without end if a link leads back up (C83_round_counterexample). C83_links_*: images with links in which no way goes round, links taken for what they lead to, in PKG1, PKG2, 64-bit PKG2 and MS archives after any history and in images on their own. The others: images without links, which may have a name twice. Both also for the export of whole archives (not for MS). C83_at, C83_at_image, C83_links_at: names lead to the same property or image in the JSON. C83_unread: an image not yet read is exported as null."
  },
  {
   "property": "C84",
   "status": "partial",
   "theorems": [
    "Wz.Props.C84_path_counterexample",
    "Wz.Props.C84_two_files_counterexample",
    "Wz.Props.C84_reads",
    "Wz.Props.C84_together",
    "Wz.Props.C84_no_deadlock_partial",
    "Wz.Props.C84_finishes_partial",
    "Wz.Props.C84_all_or_nothing_partial",
    "Wz.Props.C84_archive_partial",
    "Wz.Props.C84_pkg1_partial",
    "Wz.Props.C84_pkg2_partial",
    "Wz.Props.C84_pkg2_64_partial",
    "Wz.Props.C84_panics_partial",
    "Wz.Props.C84_reached_no_deadlock_partial",
    "Wz.Props.C84_reached_all_or_nothing_partial"
   ],
   "note": "Partial because a directory is not exported at one moment (C84_two_files_counterexample) and because threads that ask for full paths can block an export for ever where readers wait for waiting writers (C84_path_counterexample). Proved: exports alone (C84_together, links or not), no deadlock and an answer for each thread in trees without links, all or nothing for images. The theorems named reached ask this only of places that can be reached from the tree; archive, pkg1, pkg2 and pkg2_64 apply them to archives of all formats."
  }
 ]
}