{
 "claims": [
  {
   "property": "C01",
   "status": "partial",
   "theorems": [
    "Cloudini.Props.C01_varint_roundtrip_partial",
    "Cloudini.Props.C01_intMin_fails",
    "Cloudini.Props.C01_varint_unique_parse"
   ],
   "note": "all values but INT64_MIN, whose encoding is the NaN marker (negation proved)"
  },
  {
   "property": "C02",
   "status": "partial",
   "theorems": [
    "Cloudini.Props.C02_marker_free_partial",
    "Cloudini.Props.C02_length",
    "Cloudini.Props.C02_short",
    "Cloudini.Props.C02_marker_iff",
    "Cloudini.Props.C02_intMin_fails"
   ],
   "note": "first byte 0 for INT64_MIN only (iff proved)"
  },
  {
   "property": "C03",
   "status": "proved",
   "theorems": [
    "Cloudini.Props.C03_decode_exact",
    "Cloudini.Props.C03_uvarint_exact",
    "Cloudini.Props.C03_decode_total",
    "Cloudini.Props.C03_fast_paths",
    "Cloudini.Props.C03_prefix_rejected"
   ],
   "note": ""
  },
  {
   "property": "C04",
   "status": "proved",
   "theorems": [
    "Cloudini.Props.C04_int_roundtrip",
    "Cloudini.Props.C04_int_bounds",
    "Cloudini.Props.C04_string_roundtrip",
    "Cloudini.Props.C04_string_bounds",
    "Cloudini.Props.C04_long_string_truncated"
   ],
   "note": ""
  },
  {
   "property": "C05",
   "status": "partial",
   "theorems": [
    "Cloudini.Props.C05_int_small",
    "Cloudini.Props.C05_int64_partial",
    "Cloudini.Props.C05_int64_exact",
    "Cloudini.Props.C05_int64_fails"
   ],
   "note": "16/32-bit fields: full. 64-bit: exactly the sequences whose steps are below 2^63 in magnitude survive (iff proved)"
  },
  {
   "property": "C06",
   "status": "proved",
   "theorems": [
    "Cloudini.Props.C06_copied_fields",
    "Cloudini.Props.C06_copy",
    "Cloudini.Props.C06_selection",
    "Cloudini.Props.C06_none"
   ],
   "note": ""
  },
  {
   "property": "C07",
   "status": "proved",
   "theorems": [
    "Cloudini.Props.C07_xor_exact",
    "Cloudini.Props.C07_xor_size"
   ],
   "note": ""
  },
  {
   "property": "C08",
   "status": "proved",
   "theorems": [
    "Cloudini.Props.C08_gorilla_exact",
    "Cloudini.Props.C08_gorilla_size"
   ],
   "note": ""
  },
  {
   "property": "C09",
   "status": "partial",
   "theorems": [
    "Cloudini.Props.C09_lossy32_partial",
    "Cloudini.Props.C09_lossy64_partial",
    "Cloudini.Props.C09_vector_partial",
    "Cloudini.Props.C09_intMin_step_fails"
   ],
   "note": "steps of 2^63 (2^31 for the vector path) or more excluded; needed (negation proved)"
  },
  {
   "property": "C10",
   "status": "proved",
   "theorems": [
    "Cloudini.Props.C10_nan_iff",
    "Cloudini.Props.C10_nan_iff64",
    "Cloudini.Props.C10_lanes_separate",
    "Cloudini.Props.C10_finite_resolution",
    "Cloudini.Props.C10_infinite_resolution_fails"
   ],
   "note": "the hypothesis of C10_nan_iff (no integer dequantises to NaN) is discharged for IEEE arithmetic and every finite resolution by C10_finite_resolution"
  },
  {
   "property": "C100",
   "status": "partial",
   "theorems": [
    "Cloudini.Props.C100_value",
    "Cloudini.Props.C100_never_encoded",
    "Cloudini.Props.C100_encoded_fits",
    "Cloudini.Props.C100_sign_lost_partial"
   ],
   "note": "false of the code: nothing is reported. C100_never_encoded: outside the leading vector no successful encode exists (it runs into the undefined conversion); C100_sign_lost_partial: in the leading vector the value comes back negative (clouds in which the differences of neighbouring points fit). The margins 2^41, 2^12, 2^9 cover the rounding of the multiplier. IEEE arithmetic of Model/IEEE"
  },
  {
   "property": "C101",
   "status": "partial",
   "theorems": [
    "Cloudini.Props.C101_distance_partial",
    "Cloudini.Props.C101_interval_partial"
   ],
   "note": "C101_interval_partial: the same for differences of doubles (time stamps). FLOAT32 coordinates; clouds as for C11_cloud_partial (values within 2^29 steps, 2^61 outside the leading group, no magic collision, chunks within the room). IEEE arithmetic of Model/IEEE"
  },
  {
   "property": "C102",
   "status": "partial",
   "theorems": [
    "Cloudini.Props.C102_cloud_partial",
    "Cloudini.Props.C102_float32",
    "Cloudini.Props.C102_vector",
    "Cloudini.Props.C102_float64",
    "Cloudini.Props.C102_many_steps_fail"
   ],
   "note": "below 2^22 steps (doubles 2^51); C102_many_steps_fail shows that a limit (at most 2^24) is needed. Clouds as for C11_cloud_partial. IEEE arithmetic of Model/IEEE"
  },
  {
   "property": "C103",
   "status": "partial",
   "theorems": [
    "Cloudini.Props.C103_selection_partial",
    "Cloudini.Props.C103_duplicates_partial"
   ],
   "note": "clouds as for C18_cloud_roundtrip_partial (differences of neighbouring points within the range of the codec, no magic collision, chunks within the room)"
  },
  {
   "property": "C104",
   "status": "partial",
   "theorems": [
    "Cloudini.Props.C104_field_partial",
    "Cloudini.Props.C104_same_path",
    "Cloudini.Props.C104_paths_close",
    "Cloudini.Props.C104_fails"
   ],
   "note": "false of the code where the leading group of floats comes or goes (C104_fails, whole clouds); C104_field_partial for fields on the same path, C104_paths_close bounds the difference by one step and the rounding. Clouds as for C18_cloud_roundtrip_partial"
  },
  {
   "property": "C105",
   "status": "partial",
   "theorems": [
    "Cloudini.Props.C105_generations_partial",
    "Cloudini.Props.C105_numbers",
    "Cloudini.Props.C105_drift"
   ],
   "note": "false of the code beyond the limit (C105_drift: ten whole trips, 312.5 mm); C105_generations_partial for any number of trips within it. Clouds as for C18_cloud_roundtrip_partial"
  },
  {
   "property": "C106",
   "status": "partial",
   "theorems": [
    "Cloudini.Props.C106_box_partial",
    "Cloudini.Props.C106_centroid_partial",
    "Cloudini.Props.C106_plane_partial"
   ],
   "note": "whole clouds, any encoder history; FLOAT32 coordinates that are numbers; clouds as for C11_cloud_partial. IEEE arithmetic of Model/IEEE"
  },
  {
   "property": "C107",
   "status": "partial",
   "theorems": [
    "Cloudini.Props.C107_chain_partial",
    "Cloudini.Props.C107_not_direct"
   ],
   "note": "the bound for any chain of whole trips; C107_not_direct (three whole trips) shows that half a step of the coarsest resolution is not enough. Clouds as for C11_cloud_partial"
  },
  {
   "property": "C11",
   "status": "partial",
   "theorems": [
    "Cloudini.Props.C11_cloud_partial",
    "Cloudini.Props.C11_float32",
    "Cloudini.Props.C11_vector",
    "Cloudini.Props.C11_float64",
    "Cloudini.Props.C11_arithmetic_encode32",
    "Cloudini.Props.C11_arithmetic_encode64",
    "Cloudini.Props.C11_arithmetic_encodeV",
    "Cloudini.Props.C11_arithmetic_decode32",
    "Cloudini.Props.C11_arithmetic_decode64",
    "Cloudini.Props.C11_arithmetic_decodeV",
    "Cloudini.Props.C11_half_step_fails",
    "Cloudini.Props.C11_half_step_vector_fails",
    "Cloudini.Props.C11_vector_overflow"
   ],
   "note": "explicit bound r/2 + 2^-22 r + (2^-22+2^-44)|x| (float), 2^-51 (double), for every bit pattern and every resolution in [2^-125, 2^125], for whole clouds and any encoder history; the arithmetic is proved to be nearest-even IEEE-754. Partial: beyond 2^29 steps (vector) / 2^61 steps the code has no bound (C11_vector_overflow); half a step alone is false"
  },
  {
   "property": "C12",
   "status": "partial",
   "theorems": [
    "Cloudini.Props.C12_cloud_partial",
    "Cloudini.Props.C69_reencode_partial",
    "Cloudini.Props.C69_same_file_partial",
    "Cloudini.Props.C12_float32_values",
    "Cloudini.Props.C12_vector_values",
    "Cloudini.Props.C12_float64_values",
    "Cloudini.Props.C12_float32_integers",
    "Cloudini.Props.C12_vector_integers",
    "Cloudini.Props.C12_float64_integers",
    "Cloudini.Props.C12_float32_fails",
    "Cloudini.Props.C12_millimetre_fails"
   ],
   "note": "exact for at most 4194300 steps (2^51-4 for doubles), whole clouds; beyond that the property is false of the code (C12_float32_fails, C12_millimetre_fails)"
  },
  {
   "property": "C13",
   "status": "partial",
   "theorems": [
    "Cloudini.Props.C13_section_roundtrip_partial",
    "Cloudini.Props.C13_small_values",
    "Cloudini.Props.C13_literal_modes",
    "Cloudini.Props.C13_committed_iff"
   ],
   "note": "all modes and histories; 64-bit fields need consecutive differences below 2^63 (C05_int64_exact shows the need); fields of up to 32 bits always satisfy it (C13_small_values); fields committed to run lengths or a palette need nothing (C13_literal_modes); exact characterisation for committed fields: C13_committed_iff"
  },
  {
   "property": "C14",
   "status": "proved",
   "theorems": [
    "Cloudini.Props.C14_stream_eq_buffer"
   ],
   "note": "no condition on the values: when a difference does not fit 64 bits, a delta mode overflows (undefined behaviour) in both implementations and at every split point; enough room in the output is assumed, as the two notice a full output at different places"
  },
  {
   "property": "C15",
   "status": "proved",
   "theorems": [
    "Cloudini.Props.C15_palette_exact"
   ],
   "note": ""
  },
  {
   "property": "C16",
   "status": "proved",
   "theorems": [
    "Cloudini.Props.C16_bitpack",
    "Cloudini.Props.C16_width"
   ],
   "note": ""
  },
  {
   "property": "C17",
   "status": "proved",
   "theorems": [
    "Cloudini.Props.C17_mode_choice"
   ],
   "note": ""
  },
  {
   "property": "C18",
   "status": "partial",
   "theorems": [
    "Cloudini.Props.C18_cloud_roundtrip_partial",
    "Cloudini.Props.C18_magic",
    "Cloudini.Props.C18_large_clouds",
    "Cloudini.Props.C18_many_fields",
    "Cloudini.Props.C18_short_points",
    "Cloudini.Props.C18_plain_chunks",
    "Cloudini.Props.C82_recovered_partial"
   ],
   "note": "missing: values whose difference to the previous value of the chunk does not fit (64-bit integers, and quantised values; counterexamples C05_int64_fails, C09_intMin_step_fails), compressed clouds whose stage-1 chunk is longer than the cloud (counterexample under C46; impossible for encoding NONE and for non-adaptive descriptions whose fields are short enough: C18_plain_chunks, C18_short_points), LZ4 clouds over 2 GiB, version-5 lossy infos with more than 64 integer fields of 16 to 64 bits (counterexample C18_many_fields: encode throws), payloads of 1.4 GB or more that start with the magic text"
  },
  {
   "property": "C19",
   "status": "partial",
   "theorems": [
    "Cloudini.Props.C19_untouched",
    "Cloudini.Props.C19_version2_partial",
    "Cloudini.Props.C19_version2_extra_points"
   ],
   "note": "versions 3 and above: full, for every payload. Version 2 has no point count per chunk: padding between fields is still untouched, but points beyond width*height are written (negation proved)"
  },
  {
   "property": "C20",
   "status": "proved",
   "theorems": [
    "Cloudini.Props.C20_concat",
    "Cloudini.Props.C20_decode_split",
    "Cloudini.Props.C20_decoder_history"
   ],
   "note": ""
  },
  {
   "property": "C21",
   "status": "proved",
   "theorems": [
    "Cloudini.Props.C21_no_out_of_bounds",
    "Cloudini.Props.C21_no_out_of_bounds_vector",
    "Cloudini.Props.C21_no_ub",
    "Cloudini.Props.C21_vector"
   ],
   "note": "vector overload: given that the header fits the estimate MaxCompressedSize makes"
  },
  {
   "property": "C22",
   "status": "partial",
   "theorems": [
    "Cloudini.Props.C22_bound_partial",
    "Cloudini.Props.C22_corrected_partial",
    "Cloudini.Props.C22_vector_partial",
    "Cloudini.Props.C22_v5_bound_too_small",
    "Cloudini.Props.C22_header_estimate"
   ],
   "note": "false for version 5: a 65536-point UINT64 cloud needs more than MaxCompressedSize (negation proved); with one byte more per field and point the formula is right (C22_corrected_partial)"
  },
  {
   "property": "C23",
   "status": "proved",
   "theorems": [
    "Cloudini.Props.C23_view_size",
    "Cloudini.Props.C23_header_then_payload",
    "Cloudini.Props.C23_vector_agrees"
   ],
   "note": ""
  },
  {
   "property": "C24",
   "status": "proved",
   "theorems": [
    "Cloudini.Props.C24_reuse",
    "Cloudini.Props.C24_reuse_vector"
   ],
   "note": ""
  },
  {
   "property": "C25",
   "status": "partial",
   "theorems": [
    "Cloudini.Props.C25_binary_exact",
    "Cloudini.Props.C25_binary_roundtrip_partial",
    "Cloudini.Props.C25_width_10_rejected",
    "Cloudini.Props.C25_lossy_fields"
   ],
   "note": "exact image of every info; false for widths whose low byte is 10 (parsed as YAML; negation proved), configuration text, non-positive resolutions and names over 65535 bytes (negations proved)"
  },
  {
   "property": "C26",
   "status": "partial",
   "theorems": [
    "Cloudini.Props.C26_yaml_roundtrip_partial",
    "Cloudini.Props.C26_unknown_type_rejected",
    "Cloudini.Props.C26_hash_in_name",
    "Cloudini.Props.C26_odd_names"
   ],
   "note": "printing and parsing of floats is abstract here (any lawful FloatText); C68 proves the library's own conversions lawful and gives the file round trip with them; false for UNKNOWN types and names with '#', newlines or outer spaces (negations proved)"
  },
  {
   "property": "C27",
   "status": "partial",
   "theorems": [
    "Cloudini.Props.C27_accepted_partial",
    "Cloudini.Props.C27_rejected",
    "Cloudini.Props.C27_no_ub",
    "Cloudini.Props.C27_nondigit_accepted"
   ],
   "note": "a non-digit version character counts as 0 (negation proved)"
  },
  {
   "property": "C28",
   "status": "partial",
   "theorems": [
    "Cloudini.Props.C28_roundtrip_partial",
    "Cloudini.Props.C28_names_distinct",
    "Cloudini.Props.C28_rejection",
    "Cloudini.Props.C28_unknown_rejected",
    "Cloudini.Props.C28_trailing_text",
    "Cloudini.Props.C28_numbers"
   ],
   "note": "UNKNOWN prints but is not read (negation proved)"
  },
  {
   "property": "C29",
   "status": "partial",
   "theorems": [
    "Cloudini.Props.C29_accepted",
    "Cloudini.Props.C29_truncated",
    "Cloudini.Props.C29_extended",
    "Cloudini.Props.C29_bad_length",
    "Cloudini.Props.C29_short"
   ],
   "note": "acceptance: full (all bytes). Rejection by exception: for every damage to the framing of a decodable payload; a payload whose chunk contents are also damaged may be undefined behaviour instead (C30)"
  },
  {
   "property": "C30",
   "status": "partial",
   "theorems": [
    "Cloudini.Props.C30_memory_safe_partial",
    "Cloudini.Props.C30_overread",
    "Cloudini.Props.C30_overread_file",
    "Cloudini.Props.C30_offset_outside",
    "Cloudini.Props.C30_rle_wrap",
    "Cloudini.Props.C30_v5_memory_safe_partial",
    "Cloudini.Props.C30_v5_overread",
    "Cloudini.Props.C27_no_ub"
   ],
   "note": "false in general (negations proved); holds for all bytes for guarded layouts without version-5 sections, and with them for all payloads without nine consecutive bytes of 128 or more (no run length of 2^63)"
  },
  {
   "property": "C31",
   "status": "partial",
   "theorems": [
    "Cloudini.Props.C31_skip_partial",
    "Cloudini.Props.C31_adaptive_skip_fails",
    "Cloudini.Props.C31_adaptive_skip_ub",
    "Cloudini.Props.C31_version2"
   ],
   "note": "false for 16- to 64-bit integers of version-5 lossy clouds (negation proved: out-of-bounds write); version 2: C31_version2"
  },
  {
   "property": "C32",
   "status": "proved",
   "theorems": [
    "Cloudini.Props.C32_result",
    "Cloudini.Props.C32_threaded_equals_sequential"
   ],
   "note": "two-thread transition system, all schedules, calls and spurious wake-ups; calls in which stage 1 fails by itself behind a hand-over are the subject of C35_abort_race"
  },
  {
   "property": "C33",
   "status": "proved",
   "theorems": [
    "Cloudini.Props.C33_no_deadlock",
    "Cloudini.Props.C33_terminates",
    "Cloudini.Props.C33_encode_returns",
    "Cloudini.Props.C33_destructor"
   ],
   "note": "no fairness assumed"
  },
  {
   "property": "C34",
   "status": "proved",
   "theorems": [
    "Cloudini.Props.C34_failure_thrown",
    "Cloudini.Props.C34_no_false_success",
    "Cloudini.Props.C34_like_fresh",
    "Cloudini.Props.C34_abort_next_call"
   ],
   "note": "C34_abort_next_call: after an exception of stage 1 (not of the worker) a later call can return a wrong result"
  },
  {
   "property": "C35",
   "status": "partial",
   "theorems": [
    "Cloudini.Props.C35_no_race_partial",
    "Cloudini.Props.C35_abort_race"
   ],
   "note": "proved unless stage 1 throws behind a hand-over; then false (negation proved)"
  },
  {
   "property": "C36",
   "status": "partial",
   "theorems": [
    "Cloudini.Props.C36_roundtrip",
    "Cloudini.Props.C36_layout",
    "Cloudini.Props.C36_truncated_partial",
    "Cloudini.Props.C36_no_ub_partial",
    "Cloudini.Props.C36_short_header_fails",
    "Cloudini.Props.C36_version_flag_mismatch",
    "Cloudini.Props.C36_dds_rejects_xcdr"
   ],
   "note": "round trip and layout: full. Truncation: rejected from the end of the 4-byte header on; below that the constructor reads past the buffer (negation proved)"
  },
  {
   "property": "C37",
   "status": "partial",
   "theorems": [
    "Cloudini.Props.C37_roundtrip_partial",
    "Cloudini.Props.C37_compressed_format",
    "Cloudini.Props.C37_empty",
    "Cloudini.Props.C37_big_endian_fails",
    "Cloudini.Props.C37_count_dropped"
   ],
   "note": "Round trip of a PointCloud2 through toCompressed/fromCompressed for the default (little-endian) CDR header; the negations show what is lost for big-endian CDR and for count."
  },
  {
   "property": "C38",
   "status": "proved",
   "theorems": [
    "Cloudini.Props.C38_profile",
    "Cloudini.Props.C38_order"
   ],
   "note": ""
  },
  {
   "property": "C39",
   "status": "partial",
   "theorems": [
    "Cloudini.Props.C39_filter",
    "Cloudini.Props.C39_voxels_partial",
    "Cloudini.Props.C39_unchanged",
    "Cloudini.Props.C39_geometry",
    "Cloudini.Props.C39_far_voxel_lost",
    "Cloudini.Props.C39_offset_outside"
   ],
   "note": "The exact set of kept points is proved; one per voxel needs coordinates in the key range (negation C39_far_voxel_lost); offsets are not validated (C39_offset_outside)."
  },
  {
   "property": "C40",
   "status": "partial",
   "theorems": [
    "Cloudini.Props.C40_key_iff",
    "Cloudini.Props.C40_injective_partial",
    "Cloudini.Props.C40_outside_fails"
   ],
   "note": "Exact characterisation; injective only on [-2^20,2^20)."
  },
  {
   "property": "C41",
   "status": "partial",
   "theorems": [
    "Cloudini.Props.C41_values",
    "Cloudini.Props.C41_no_leak",
    "Cloudini.Props.C41_moved_from_dangles"
   ],
   "note": "Full for histories that do not read moved-from objects; a moved-from object keeps a view of the storage it gave away (negation proved)."
  },
  {
   "property": "C42",
   "status": "partial",
   "theorems": [
    "Cloudini.Props.C42_split",
    "Cloudini.Props.C42_header_partial",
    "Cloudini.Props.C42_mismatch",
    "Cloudini.Props.C42_types",
    "Cloudini.Props.C42_size",
    "Cloudini.Props.C42_layout",
    "Cloudini.Props.C42_fields_roundtrip",
    "Cloudini.Props.C42_fix",
    "Cloudini.Props.C42_eight_bytes",
    "Cloudini.Props.C42_comment_first",
    "Cloudini.Props.C42_hangs",
    "Cloudini.Props.C42_unknown_rejected"
   ],
   "note": "False for headers with comment or empty lines before DATA (read as empty), for 8-byte floats and signed integers, and reading hangs on a file without DATA whose last line has no newline (negations proved)."
  },
  {
   "property": "C43",
   "status": "proved",
   "theorems": [
    "Cloudini.Props.C43_terminates",
    "Cloudini.Props.C43_lines"
   ],
   "note": ""
  },
  {
   "property": "C44",
   "status": "partial",
   "theorems": [
    "Cloudini.Props.C44_accepted_iff",
    "Cloudini.Props.C44_resolutions",
    "Cloudini.Props.C44_rejected",
    "Cloudini.Props.C44_listing",
    "Cloudini.Props.C44_rejected_keeps_prefix"
   ],
   "note": "Full except that a rejected string keeps the entries before the bad one (negation proved)."
  },
  {
   "property": "C45",
   "status": "partial",
   "theorems": [
    "Cloudini.Props.C45_acquire",
    "Cloudini.Props.C45_bound",
    "Cloudini.Props.C45_holder",
    "Cloudini.Props.C45_no_leak",
    "Cloudini.Props.C45_ub_iff",
    "Cloudini.Props.C45_safe_partial",
    "Cloudini.Props.C45_outlives_ub",
    "Cloudini.Props.C45_stale_members"
   ],
   "note": "Full while the subscriber lives; releasing a cloud after its destruction is undefined behaviour (exactly then: C45_ub_iff)."
  },
  {
   "property": "C46",
   "status": "partial",
   "theorems": [
    "Cloudini.Props.C46_limit_partial",
    "Cloudini.Props.C46_exact_partial",
    "Cloudini.Props.C46_small_cloud_rejected"
   ],
   "note": "false for small compressed clouds (negation proved for every lawful compressor); C46_exact_partial says exactly which clouds decode"
  },
  {
   "property": "C47",
   "status": "proved",
   "theorems": [
    "Cloudini.Props.C47_eq_iff",
    "Cloudini.Props.C47_symm",
    "Cloudini.Props.C47_trans",
    "Cloudini.Props.C47_refl_iff",
    "Cloudini.Props.C47_identical",
    "Cloudini.Props.C47_version_ignored",
    "Cloudini.Props.C47_pcl_iff"
   ],
   "note": ""
  },
  {
   "property": "C48",
   "status": "partial",
   "theorems": [
    "Cloudini.Props.C48_partial",
    "Cloudini.Props.C48_type_mismatch",
    "Cloudini.Props.C48_stride_mismatch"
   ],
   "note": "equal stride only; false when sizeof(PointT) differs from the encoded point_step (negation proved)"
  },
  {
   "property": "C49",
   "status": "proved",
   "theorems": [
    "Cloudini.Props.C49_no_leftovers",
    "Cloudini.Props.C49_same_output"
   ],
   "note": ""
  },
  {
   "property": "C50",
   "status": "proved",
   "theorems": [
    "Cloudini.Props.C50_v5_trailing",
    "Cloudini.Props.C50_v4_trailing",
    "Cloudini.Props.C50_v5_exact"
   ],
   "note": ""
  },
  {
   "property": "C51",
   "status": "proved",
   "theorems": [
    "Cloudini.Props.C51_small_output"
   ],
   "note": ""
  },
  {
   "property": "C52",
   "status": "partial",
   "theorems": [
    "Cloudini.Props.C52_roundtrip_partial",
    "Cloudini.Props.C52_large",
    "Cloudini.Props.C52_count_ignored",
    "Cloudini.Props.C52_unknown_type",
    "Cloudini.Props.C52_resolution",
    "Cloudini.Props.C52_zero_resolution"
   ],
   "note": "round trip for what C18 and the YAML header cover; counts are dropped and clouds of 4 GiB or more cannot be decoded (negations proved)"
  },
  {
   "property": "C53",
   "status": "partial",
   "theorems": [
    "Cloudini.Props.C53_roundtrip_partial",
    "Cloudini.Props.C53_unknown",
    "Cloudini.Props.C53_int64_rejected"
   ],
   "note": "as C52; false for INT64 fields, which the header reader does not map (negation proved)"
  },
  {
   "property": "C54",
   "status": "partial",
   "theorems": [
    "Cloudini.Props.C54_no_exception",
    "Cloudini.Props.C54_decode_message_throws",
    "Cloudini.Props.C54_encode_bounded",
    "Cloudini.Props.C54_encode_complete",
    "Cloudini.Props.C54_encode_data_bounded",
    "Cloudini.Props.C54_compute_agrees",
    "Cloudini.Props.C54_zero_step_traps"
   ],
   "note": "false for cldn_DecodeCompressedMessage (throws on a malformed message) and for point step 0 (divides by zero): negations proved; the bounds and the announced size are proved for every input"
  },
  {
   "property": "C55",
   "status": "partial",
   "theorems": [
    "Cloudini.Props.C55_roundtrip_partial"
   ],
   "note": "for what C18 and the YAML header cover"
  },
  {
   "property": "C56",
   "status": "partial",
   "theorems": [
    "Cloudini.Props.C56_message_partial",
    "Cloudini.Props.C56_convert_partial",
    "Cloudini.Props.C56_returned_size",
    "Cloudini.Props.C56_overflow",
    "Cloudini.Props.C56_zero_is_failure"
   ],
   "note": "agreement for messages the library made; false for messages whose own size disagrees with the data inside (overflow proved on a concrete message)"
  },
  {
   "property": "C57",
   "status": "partial",
   "theorems": [
    "Cloudini.Props.C57_header_text",
    "Cloudini.Props.C57_message_header_partial",
    "Cloudini.Props.C57_version_code",
    "Cloudini.Props.C57_undecodable"
   ],
   "note": "the header text is right; the second half is false for every description (version read back as a character code): negation proved for all descriptions"
  },
  {
   "property": "C58",
   "status": "partial",
   "theorems": [
    "Cloudini.Props.C58_encode",
    "Cloudini.Props.C58_decode",
    "Cloudini.Props.C58_encode_succeeds",
    "Cloudini.Props.C58_roundtrip_partial",
    "Cloudini.Props.C58_dropped",
    "Cloudini.Props.C58_schemaless_ub"
   ],
   "note": "messages and channels: full, for every file. Round trip for clouds as in C37. False for channel metadata and attachments (always lost) and for channels without schema (null pointer): negations proved for every file"
  },
  {
   "property": "C59",
   "status": "proved",
   "theorems": [
    "Cloudini.Props.C59_cut",
    "Cloudini.Props.C59_count",
    "Cloudini.Props.C59_nothing"
   ],
   "note": "channel ids are used once (a map's keys)"
  },
  {
   "property": "C60",
   "status": "partial",
   "theorems": [
    "Cloudini.Props.C60_outline",
    "Cloudini.Props.C60_comment_line",
    "Cloudini.Props.C60_trailing",
    "Cloudini.Props.C60_tab",
    "Cloudini.Props.C60_document",
    "Cloudini.Props.C60_deeper_lost",
    "Cloudini.Props.C60_flat_sequence_lost",
    "Cloudini.Props.C60_item_key_lost"
   ],
   "note": "layout independence: full. Documents: full for two-column indentation; other indentations, sequences at the column of their key and items that begin with a nested value are silently misread (negations proved)"
  },
  {
   "property": "C61",
   "status": "partial",
   "theorems": [
    "Cloudini.Props.C61_roundtrip_partial",
    "Cloudini.Props.C61_consistent",
    "Cloudini.Props.C61_large",
    "Cloudini.Props.C61_format_missing",
    "Cloudini.Props.C61_readInfo",
    "Cloudini.Props.C61_bigendian_lost"
   ],
   "note": "consistency check: full. Round trip: FileOk (C18) and below 4 GiB; is_bigendian is dropped, `format` is never set so that ReadEncodingInfo rejects every message of the plugin (negations proved)"
  },
  {
   "property": "C62",
   "status": "partial",
   "theorems": [
    "Cloudini.Props.C62_same_info",
    "Cloudini.Props.C62_serialize_partial",
    "Cloudini.Props.C62_topics_partial"
   ],
   "note": "same description: full. Round trips: FileOk (C18); counts and is_bigendian as in C37"
  },
  {
   "property": "C63",
   "status": "partial",
   "theorems": [
    "Cloudini.Props.C63_delivered_partial",
    "Cloudini.Props.C63_empty_dropped",
    "Cloudini.Props.C63_dense_lost"
   ],
   "note": "FileOk (C18); empty clouds are never delivered and every delivered cloud claims to be dense (negations proved)"
  },
  {
   "property": "C64",
   "status": "partial",
   "theorems": [
    "Cloudini.Props.C64_more_room_partial",
    "Cloudini.Props.C64_too_small",
    "Cloudini.Props.C64_vector_view_partial",
    "Cloudini.Props.C64_lz4_large",
    "Cloudini.Props.C64_lz4_witness"
   ],
   "note": "too small: full. More room: with LZ4 only while at most INT_MAX bytes remain; beyond that every LZ4 encode throws (negation proved)"
  },
  {
   "property": "C65",
   "status": "partial",
   "theorems": [
    "Cloudini.Props.C65_meaning",
    "Cloudini.Props.C65_types_inverse",
    "Cloudini.Props.C65_name_inverse",
    "Cloudini.Props.C65_prefix_mangled",
    "Cloudini.Props.C65_name_anywhere"
   ],
   "note": "exact meaning of the edit and its inverse are proved for all texts; `only types and file names change` is false (the replacement is textual: negations proved)"
  },
  {
   "property": "C66",
   "status": "partial",
   "theorems": [
    "Cloudini.Props.C66_protected_partial",
    "Cloudini.Props.C66_default",
    "Cloudini.Props.C66_dotdot",
    "Cloudini.Props.C66_input_overwritten",
    "Cloudini.Props.C66_profile_partial",
    "Cloudini.Props.C66_profile_cut"
   ],
   "note": "false for output paths with .. below a directory that does not exist yet, for bare files without metadata, and for profile files with white space (negations proved)"
  },
  {
   "property": "C67",
   "status": "partial",
   "theorems": [
    "Cloudini.Props.C67_decode_same",
    "Cloudini.Props.C67_construct_same",
    "Cloudini.Props.C67_cross_partial",
    "Cloudini.Props.C67_defined_partial",
    "Cloudini.Props.C67_meaning_iff",
    "Cloudini.Props.C67_nan_undefined",
    "Cloudini.Props.C67_same_bytes_partial",
    "Cloudini.Props.C67_bytes_differ"
   ],
   "note": "decoding and cross-machine accuracy proved; C67_meaning_iff says exactly for which clouds encoding without SSE is defined; it is undefined for NaN in the leading group, and halfway values give different bytes (negations proved)"
  },
  {
   "property": "C68",
   "status": "partial",
   "theorems": [
    "Cloudini.Props.C68_lawful",
    "Cloudini.Props.C68_six_digits",
    "Cloudini.Props.C68_error",
    "Cloudini.Props.C68_idempotent",
    "Cloudini.Props.C68_file_partial",
    "Cloudini.Props.C68_any_resolution_partial",
    "Cloudini.Props.C68_third",
    "Cloudini.Props.C68_third_file",
    "Cloudini.Props.C68_tiny_file",
    "Cloudini.Props.C68_specials",
    "Cloudini.Props.C68_hand_decimal",
    "Cloudini.Props.C68_hand_hex"
   ],
   "note": "exact for resolutions of six digits and whole-file accuracy proved; other resolutions are rounded by the header (bound proved, loss of the C11 promise shown), resolutions below the smallest normal float make the file unreadable"
  },
  {
   "property": "C69",
   "status": "partial",
   "theorems": [
    "Cloudini.Props.C69_depends_on_values",
    "Cloudini.Props.C69_depends_on_values_vector",
    "Cloudini.Props.C69_padding",
    "Cloudini.Props.C69_reencode_partial",
    "Cloudini.Props.C69_same_file_partial",
    "Cloudini.Props.C69_no_collision_partial"
   ],
   "note": "independence of padding and sub-step differences proved in full; re-encoding up to 4194300 steps (2^51-4 for doubles); no collisions within what C18 covers"
  },
  {
   "property": "C70",
   "status": "partial",
   "theorems": [
    "Cloudini.Props.C70_roundtrip_partial",
    "Cloudini.Props.C70_encodes",
    "Cloudini.Props.C70_negative",
    "Cloudini.Props.C70_zero_lost",
    "Cloudini.Props.C70_smaller_type",
    "Cloudini.Props.C70_larger_type"
   ],
   "note": "round trip and success for coordinates within 2^28 steps and resolutions of 2^-124 .. 2^124; false for resolution 0 (the file can never be decoded: negation proved for every cloud), for files of PointXYZI read as PointXYZ (always refused) and of PointXYZ read as PointXYZI (points end up in wrong places): negations proved for every cloud"
  },
  {
   "property": "C71",
   "status": "partial",
   "theorems": [
    "Cloudini.Props.C71_same_values_partial",
    "Cloudini.Props.C71_same_bytes",
    "Cloudini.Props.C71_unreadable_versions",
    "Cloudini.Props.C71_version2_lost"
   ],
   "note": "same values under the hypotheses of C18 for versions >= 3; same bytes unconditionally when no field is coded differently; false for version 2 (the encoder frames its chunks, the decoder of version 2 takes the frame for points: negation proved) and for versions below 2 or 6..99 (the header written is always refused)"
  },
  {
   "property": "C72",
   "status": "partial",
   "theorems": [
    "Cloudini.Props.C72_any_message",
    "Cloudini.Props.C72_order",
    "Cloudini.Props.C72_roundtrip_partial",
    "Cloudini.Props.C72_wide_integers",
    "Cloudini.Props.C72_header_overflow",
    "Cloudini.Props.C72_cloud_overflow",
    "Cloudini.Props.C72_empty",
    "Cloudini.Props.C72_padding_leaks",
    "Cloudini.Props.C72_same_names"
   ],
   "note": "for every message and every content of the block: array, names and values under the hypotheses of C18, a cloud of at most 32 MiB and a header text of at most 4096 bytes; false beyond (negations proved for all such messages): 64-bit integers arrive as one byte, longer headers and larger clouds are written past the blocks, empty clouds raise, equal names lose the members, padding shows the block's earlier content; NumPy, ASCII text and the WebAssembly runtime are assumptions of the model"
  },
  {
   "property": "C73",
   "status": "partial",
   "theorems": [
    "Cloudini.Props.C73_frees",
    "Cloudini.Props.C73_metadata",
    "Cloudini.Props.C73_empty",
    "Cloudini.Props.C73_any_message",
    "Cloudini.Props.C73_overflow",
    "Cloudini.Props.C73_short_data",
    "Cloudini.Props.C73_roundtrip_partial"
   ],
   "note": "memory given back and metadata for all messages, allocators and failures; the data are the decoder's for every message returned; round trip under the hypotheses of C18; false where message and file disagree (negations for all such messages): a larger file is decoded past the block, a smaller one is returned with too few bytes; the endianness flag is always cleared; JavaScript numbers are exact in the model (below 2^53)"
  },
  {
   "property": "C74",
   "status": "partial",
   "theorems": [
    "Cloudini.Props.C74_names",
    "Cloudini.Props.C74_failure_untouched",
    "Cloudini.Props.C74_converts",
    "Cloudini.Props.C74_single",
    "Cloudini.Props.C74_full_disk",
    "Cloudini.Props.C74_options_ignored",
    "Cloudini.Props.C74_keeps",
    "Cloudini.Props.C74_no_answer",
    "Cloudini.Props.C74_batch",
    "Cloudini.Props.C74_counts",
    "Cloudini.Props.C74_roundtrip_partial"
   ],
   "note": "names, conversion, frame, batch and failure for every encoder, file system and device; false (negations for all inputs of a class): the three options are ignored, a full device is reported as success, the end of standard input at the prompt reads a variable without a value, the exit code of a batch is always 0; the content decodes as in C53 under its hypotheses"
  },
  {
   "property": "C75",
   "status": "partial",
   "theorems": [
    "Cloudini.Props.C75_first",
    "Cloudini.Props.C75_rest_ignored",
    "Cloudini.Props.C75_exit",
    "Cloudini.Props.C75_null_schema",
    "Cloudini.Props.C75_resolution",
    "Cloudini.Props.C75_empty_first",
    "Cloudini.Props.C75_converted_partial"
   ],
   "note": "description, independence of the rest and exit code: full. False (negations for all such files): a channel without schema is a null pointer, a missing resolution is printed as 1, an empty first cloud ends the program, exit code 0 also when there is nothing to describe, and the numbers of points and bytes are modulo 2^32; true numbers for files the converter made from clouds as in C58"
  },
  {
   "property": "C76",
   "status": "partial",
   "theorems": [
    "Cloudini.Props.C76_rows",
    "Cloudini.Props.C76_resolution",
    "Cloudini.Props.C76_totals",
    "Cloudini.Props.C76_counted_twice",
    "Cloudini.Props.C76_compressed_partial",
    "Cloudini.Props.C76_encoder_partial",
    "Cloudini.Props.C76_skipped",
    "Cloudini.Props.C76_memory",
    "Cloudini.Props.C76_leak",
    "Cloudini.Props.C76_no_memory"
   ],
   "note": "rows: full; totals: full for files with one channel per topic. False (negations): a topic with two channels is counted twice, clouds that fail or are too large count in the original size only (so the ratio looks better than it is), the module the page loads leaks the block of every message that throws, and an allocator out of memory makes the page write to address 0; the compressed size is right if every cloud can be compressed and is at most a quarter of the memory"
  },
  {
   "property": "C77",
   "status": "partial",
   "theorems": [
    "Cloudini.Props.C77_output",
    "Cloudini.Props.C77_survives",
    "Cloudini.Props.C77_bad_message",
    "Cloudini.Props.C77_hears_known",
    "Cloudini.Props.C77_strongest",
    "Cloudini.Props.C77_late_publisher",
    "Cloudini.Props.C77_topics",
    "Cloudini.Props.C77_row",
    "Cloudini.Props.C77_roundtrip_partial",
    "Cloudini.Props.C77_log",
    "Cloudini.Props.C77_second_silent"
   ],
   "note": "output for every history and any number of nodes, quality of service for every set of known publishers, and the sizes in the log: full. False (negations for all such histories): one message that cannot be converted ends the process with all its nodes, publishers that start later and do not offer reliable delivery are never heard, the number in the log is always one too small, and the counter is shared by the nodes of a process, so that one of two alternating nodes never logs. Round trip under the hypotheses of C62. ROS itself is outside the model"
  },
  {
   "property": "C78",
   "status": "proved",
   "theorems": [
    "Cloudini.Props.C78_writes_only",
    "Cloudini.Props.C78_two_buffers",
    "Cloudini.Props.C78_again",
    "Cloudini.Props.C78_accepted"
   ],
   "note": "full, for every version, every compressor and every float implementation, malformed payloads included. The bytes already stored when an exception is thrown are not part of the model's outcome"
  },
  {
   "property": "C79",
   "status": "partial",
   "theorems": [
    "Cloudini.Props.C79_measured",
    "Cloudini.Props.C79_sizes_partial",
    "Cloudini.Props.C79_only",
    "Cloudini.Props.C79_total",
    "Cloudini.Props.C79_failures_flatter",
    "Cloudini.Props.C79_lying_message",
    "Cloudini.Props.C79_explain",
    "Cloudini.Props.C79_explain_zero_step",
    "Cloudini.Props.C79_fingerprint_partial",
    "Cloudini.Props.C79_fingerprint_history",
    "Cloudini.Props.C79_mode_bytes",
    "Cloudini.Props.C79_decoded_partial",
    "Cloudini.Props.C79_fnv",
    "Cloudini.Props.C79_replay_partial"
   ],
   "note": "sizes: for clouds on which a mode that fails in a buffer of its own fails in every buffer, and a compressor that does not depend on the room it has; fingerprint: clouds without padding and skipped fields, negated with padding; failures_flatter, lying_message, explain_zero_step are general refutations of 'a failing message does not affect the report'. Times are not modelled"
  },
  {
   "property": "C80",
   "status": "partial",
   "theorems": [
    "Cloudini.Props.C80_reuse",
    "Cloudini.Props.C80_history",
    "Cloudini.Props.C80_memory",
    "Cloudini.Props.C80_declared_first",
    "Cloudini.Props.C80_vector"
   ],
   "note": "reuse, history, memory and vector hold for all histories; C80_declared_first refutes 'the memory a decoder takes is bounded by its input and output'. History: for declared sizes a vector can hold"
  },
  {
   "property": "C81",
   "status": "partial",
   "theorems": [
    "Cloudini.Props.C81_listing",
    "Cloudini.Props.C81_values_partial",
    "Cloudini.Props.C81_zero_is_all",
    "Cloudini.Props.C81_failures_counted"
   ],
   "note": "listing: for runs that end without UB; values: for messages as in C72 (little endian, the cloud fits the block, names Python reads back); zero_is_all and failures_counted are refutations of what the options and the summary say. The summary table of channels and the printed first point are not modelled"
  },
  {
   "property": "C82",
   "status": "proved",
   "theorems": [
    "Cloudini.Props.C82_agrees",
    "Cloudini.Props.C82_untouched",
    "Cloudini.Props.C82_version2",
    "Cloudini.Props.C82_damaged",
    "Cloudini.Props.C82_truncated",
    "Cloudini.Props.C82_appended",
    "Cloudini.Props.C82_not_atomic"
   ],
   "note": "C82_agrees links the decoder with the buffer as state to the one used elsewhere; C82_not_atomic is the refutation of atomicity. C82_recovered_partial (listed under C18) adds that the points left by a cut encoding have the values the round trip promises"
  },
  {
   "property": "C83",
   "status": "partial",
   "theorems": [
    "Cloudini.Props.C83_set_partial",
    "Cloudini.Props.C83_viz_partial",
    "Cloudini.Props.C83_viz_voxels_partial",
    "Cloudini.Props.C83_history_partial",
    "Cloudini.Props.C83_filter_partial",
    "Cloudini.Props.C83_reserve_shift"
   ],
   "note": "for every hash function and history; missing: sets that reach 2^24 members (distances have 24 bits). C83_reserve_shift refutes the property for clouds of more than 3435973888 points"
  },
  {
   "property": "C84",
   "status": "partial",
   "theorems": [
    "Cloudini.Props.C84_same",
    "Cloudini.Props.C84_wasm",
    "Cloudini.Props.C84_wasm_message",
    "Cloudini.Props.C84_message_partial",
    "Cloudini.Props.C84_points_wrap",
    "Cloudini.Props.C84_room_wraps",
    "Cloudini.Props.C84_wasm_corrupts"
   ],
   "note": "agreement proved for clouds below 4 GiB; from 4 GiB on the property fails: C84_points_wrap (2^32 points taken for none), C84_room_wraps and C84_wasm_corrupts (a crafted file passes the size test and is written outside the buffer)"
  },
  {
   "property": "C85",
   "status": "partial",
   "theorems": [
    "Cloudini.Props.C85_view",
    "Cloudini.Props.C85_vector",
    "Cloudini.Props.C85_message",
    "Cloudini.Props.C85_data",
    "Cloudini.Props.C85_ordinary",
    "Cloudini.Props.C85_roundtrip_partial",
    "Cloudini.Props.C85_stride_corrupts",
    "Cloudini.Props.C85_stride_reachable"
   ],
   "note": "agreement proved for clouds whose sizes fit into 32 bits, and C85_ordinary says that up to a million points of 64 KiB do; beyond, the property fails: C85_stride_corrupts (points of 2^17 bytes: the stage buffer has no byte and the encoder writes outside it), C85_stride_reachable (there are such messages)"
  },
  {
   "property": "C86",
   "status": "proved",
   "theorems": [
    "Cloudini.Props.C86_column_cost",
    "Cloudini.Props.C86_index_column"
   ],
   "note": "payload lengths for option NONE of the second stage, so lengths of the stage-1 chunks; C86_index_column: a cloud of n indexes is encoded into at most 33 bytes per chunk, for every n up to 2^32"
  },
  {
   "property": "C87",
   "status": "partial",
   "theorems": [
    "Cloudini.Props.C87_framed_ends",
    "Cloudini.Props.C87_unframed_ends_partial",
    "Cloudini.Props.C87_hangs",
    "Cloudini.Props.C87_hang_file"
   ],
   "note": "versions 3 to 5: it always ends; version 2: it ends within |payload| + |buffer| + 1 turns unless points take neither room nor input; C87_hangs: an exact description of the headers and payloads for which it never ends; C87_hang_file: an accepted file of that kind"
  },
  {
   "property": "C88",
   "status": "partial",
   "theorems": [
    "Cloudini.Props.C88_frame_partial",
    "Cloudini.Props.C88_exit_zero",
    "Cloudini.Props.C88_failure_partial",
    "Cloudini.Props.C88_input_kept_partial",
    "Cloudini.Props.C88_metadata_unasked",
    "Cloudini.Props.C88_failure_destroys",
    "Cloudini.Props.C88_success_without_output",
    "Cloudini.Props.C88_refused_makes_directories",
    "Cloudini.Props.C88_bare_name_aborts",
    "Cloudini.Props.C88_directories",
    "Cloudini.Props.C88_spelling",
    "Cloudini.Props.C88_output_directory"
   ],
   "note": "what may change, what exit code 0 means and what a failure leaves, for all runs; false as stated: the metadata.yaml of another bag is replaced without a question, a failed conversion destroys an earlier output, refused runs make directories, a bare file name beside a metadata.yaml crashes"
  },
  {
   "property": "C89",
   "status": "partial",
   "theorems": [
    "Cloudini.Props.C89_rows_partial",
    "Cloudini.Props.C89_any_order",
    "Cloudini.Props.C89_metadata",
    "Cloudini.Props.C89_metadata_no_summary",
    "Cloudini.Props.C89_stale",
    "Cloudini.Props.C89_average"
   ],
   "note": "rows and files exact and independent of the order for a directory without metadata whose bags have clouds; with a metadata.yaml every row is wrong or empty and the summary fails; a bag without clouds gets the size of an old output. Runs of different bags are modelled as not overlapping; they touch different files"
  },
  {
   "property": "C90",
   "status": "proved",
   "theorems": [
    "Cloudini.Props.C90_bytes",
    "Cloudini.Props.C90_bytes_vector",
    "Cloudini.Props.C90_bytes_plain",
    "Cloudini.Props.C90_settled"
   ],
   "note": "Spec/Format writes the format down without the model (numbers, kinds, sections, chunks). C90_bytes: valid clouds (CloudOf, FieldLimit: at most 64 section fields), any history; C90_bytes_plain: no hypotheses on description or cloud where no field goes to a section; C90_settled: without a second stage the bytes follow from description and cloud. The float arithmetic (steps of a value) and the compressor are parameters"
  },
  {
   "property": "C91",
   "status": "proved",
   "theorems": [
    "Cloudini.Props.C91_binary",
    "Cloudini.Props.C91_text",
    "Cloudini.Props.C91_file"
   ],
   "note": "Spec/FormatHeader spells the headers out; C91_file joins header and payload (C90). The printing of a float (resolution) is the parameter T, concrete in C68. CanonicalInfo: an enum object is determined by its byte. More than 65535 fields or bytes in a name: C25_binary_exact says what is written"
  },
  {
   "property": "C92",
   "status": "partial",
   "theorems": [
    "Cloudini.Props.C92_any_writer_partial",
    "Cloudini.Props.C92_writers_agree_partial",
    "Cloudini.Props.C92_unambiguous_partial",
    "Cloudini.Props.C92_own_output",
    "Cloudini.Props.C92_magic"
   ],
   "note": "Payloads are described by Spec/Format (EncodedBy), independently of the encoder; C92_own_output: the encoder's output (C90) is one of them. Missing, as in C18: values that do not follow the one before them within the 64-bit (32-bit) difference; compressed clouds with a chunk longer than the whole cloud (C46) and LZ4 clouds above 2 GiB, which the decoder rejects; payloads that start with the magic string (none below 1.4 GB, C92_magic). No bound on the number of fields"
  },
  {
   "property": "C93",
   "status": "partial",
   "theorems": [
    "Cloudini.Props.C93_cuts_partial",
    "Cloudini.Props.C93_frame",
    "Cloudini.Props.C93_failure",
    "Cloudini.Props.C93_exit_zero",
    "Cloudini.Props.C93_one_output",
    "Cloudini.Props.C93_twice",
    "Cloudini.Props.C93_onto_itself",
    "Cloudini.Props.C93_overwrites",
    "Cloudini.Props.C93_success_without_output"
   ],
   "note": "The program around C59, with a file system; the MCAP library is a parameter that reads back what it wrote (a concrete one is given). The code violates the full property: -o naming the input truncates it before its messages are read, code 0 (C93_onto_itself); an existing output is replaced without a question (C93_overwrites); an input without clouds gives code 0 and 'File saved as' without a file (C93_success_without_output). Failures of single writes are not modelled"
  },
  {
   "property": "C94",
   "status": "proved",
   "theorems": [
    "Cloudini.Props.C94_frames",
    "Cloudini.Props.C94_amplification",
    "Cloudini.Props.C94_values",
    "Cloudini.Props.C94_claims_rejected",
    "Cloudini.Props.C94_attained"
   ],
   "note": "Versions 3 to 5 (version 2 has no declared number of points to compare with). With compression only the frames are bounded: what a compressed chunk can expand to is the library's business and limited to the declared size of the cloud"
  },
  {
   "property": "C95",
   "status": "partial",
   "theorems": [
    "Cloudini.Props.C95_float32",
    "Cloudini.Props.C95_vector",
    "Cloudini.Props.C95_float64",
    "Cloudini.Props.C95_cloud_partial",
    "Cloudini.Props.C95_border_partial",
    "Cloudini.Props.C95_apart_vector",
    "Cloudini.Props.C95_apart_float32",
    "Cloudini.Props.C95_vector_overflow"
   ],
   "note": "order, mirror images, zero and sign for every pair of values within 2^29 steps (leading group) / 2^61 steps; beyond that the property is false of the code (C95_vector_overflow). Whole clouds as far as C18 covers them"
  },
  {
   "property": "C96",
   "status": "proved",
   "theorems": [
    "Cloudini.Props.C96_exact_or_rejected",
    "Cloudini.Props.C96_accepted_iff",
    "Cloudini.Props.C96_lossy_fails"
   ],
   "note": "all values; hypotheses on the compressed size as in C18 (compression NONE, or chunks not longer than the cloud). C96_lossy_fails: the same claim is false of LOSSY clouds (a number comes back as NaN without an error), which it does not cover"
  },
  {
   "property": "C97",
   "status": "partial",
   "theorems": [
    "Cloudini.Props.C97_other_chunks",
    "Cloudini.Props.C97_too_few",
    "Cloudini.Props.C97_too_many",
    "Cloudini.Props.C97_accepted_iff_partial",
    "Cloudini.Props.C97_v5_invents"
   ],
   "note": "the full claim is false of the code, in two ways, both proved: C97_too_many (the surplus points of the last chunk are dropped without an error, whatever they are) and C97_v5_invents (a version 5 cloud of nine points decodes into ten). Noticed for every cloud: another number of chunks (any version), fewer points than described (without sections); C97_accepted_iff_partial says exactly when the mistake goes unnoticed without sections. Hypotheses on the compressed size as in C18"
  },
  {
   "property": "C98",
   "status": "partial",
   "theorems": [
    "Cloudini.Props.C98_shared_fields",
    "Cloudini.Props.C98_lossless",
    "Cloudini.Props.C98_quantised_fails"
   ],
   "note": "false of the code when one of the fields that share bytes is quantised: C98_quantised_fails (version 4 destroys an integer whose bytes are also a quantised float, version 5 delivers the other value). Otherwise for every overlap. Hypotheses on the compressed size as in C18"
  },
  {
   "property": "C99",
   "status": "partial",
   "theorems": [
    "Cloudini.Props.C99_small",
    "Cloudini.Props.C99_colour",
    "Cloudini.Props.C99_colours_partial",
    "Cloudini.Props.C99_tools_quantise",
    "Cloudini.Props.C99_colour_dark"
   ],
   "note": "false of the code for fields with a resolution, and the tools give every FLOAT32 field one: C99_colours_partial says what becomes of the colours (black, or NaN) and that they are exact without a resolution; C99_tools_quantise that no profile exempts a field. C99_colour_dark: opaque colours with red below 128 are beyond the integers (C100). IEEE arithmetic of Model/IEEE"
  }
 ]
}