#!/usr/bin/env python3
"""Regenerates MANIFEST.json from the list below."""
import json
C = []
def c(p, status, thms, note): C.append(dict(property=p, status=status, theorems=["Cloudini.Props."+t for t in thms], note=note))
c("C01","partial",["C01_varint_roundtrip_partial","C01_intMin_fails","C01_varint_unique_parse"],"all values but INT64_MIN, whose encoding is the NaN marker (negation proved)")
c("C02","partial",["C02_marker_free_partial","C02_length","C02_short","C02_marker_iff","C02_intMin_fails"],"first byte 0 for INT64_MIN only (iff proved)")
c("C03","proved",["C03_decode_exact","C03_uvarint_exact","C03_decode_total","C03_fast_paths","C03_prefix_rejected"],"")
c("C04","proved",["C04_int_roundtrip","C04_int_bounds","C04_string_roundtrip","C04_string_bounds","C04_long_string_truncated"],"")
c("C05","partial",["C05_int_small","C05_int64_partial","C05_int64_exact","C05_int64_fails"],"16/32-bit fields: full. 64-bit: exactly the sequences whose steps are below 2^63 in magnitude survive (iff proved)")
c("C06","proved",["C06_copied_fields","C06_copy","C06_selection","C06_none"],"")
c("C07","proved",["C07_xor_exact","C07_xor_size"],"")
c("C08","proved",["C08_gorilla_exact","C08_gorilla_size"],"")
c("C09","partial",["C09_lossy32_partial","C09_lossy64_partial","C09_vector_partial","C09_intMin_step_fails"],"steps of 2^63 (2^31 for the vector path) or more excluded; needed (negation proved)")
c("C10","proved",["C10_nan_iff","C10_nan_iff64","C10_lanes_separate","C10_finite_resolution","C10_infinite_resolution_fails"],"the hypothesis of C10_nan_iff (no integer dequantises to NaN) is discharged for IEEE arithmetic and every finite resolution by C10_finite_resolution")
c("C11","partial",["C11_cloud_partial","C11_float32","C11_vector","C11_float64","C11_arithmetic_encode32","C11_arithmetic_encode64","C11_arithmetic_encodeV","C11_arithmetic_decode32","C11_arithmetic_decode64","C11_arithmetic_decodeV","C11_half_step_fails","C11_half_step_vector_fails","C11_vector_overflow"],"explicit bound r/2 + 2^-22 r + (2^-22+2^-44)|x| (float), 2^-51 (double), for every bit pattern and every resolution in [2^-125, 2^125], for whole clouds and any encoder history; the arithmetic is proved to be nearest-even IEEE-754. Partial: beyond 2^29 steps (vector) / 2^61 steps the code has no bound (C11_vector_overflow); half a step alone is false")
c("C12","partial",["C12_cloud_partial","C69_reencode_partial","C69_same_file_partial","C12_float32_values","C12_vector_values","C12_float64_values","C12_float32_integers","C12_vector_integers","C12_float64_integers","C12_float32_fails","C12_millimetre_fails"],"exact for at most 4194300 steps (2^51-4 for doubles), whole clouds; beyond that the property is false of the code (C12_float32_fails, C12_millimetre_fails)")
c("C13","partial",["C13_section_roundtrip_partial","C13_small_values","C13_literal_modes","C13_committed_iff"],"all modes and histories; 64-bit fields need consecutive differences below 2^63 (C05_int64_exact shows the need); fields of up to 32 bits always satisfy it (C13_small_values); fields committed to run lengths or a palette need nothing (C13_literal_modes); exact characterisation for committed fields: C13_committed_iff")
c("C14","proved",["C14_stream_eq_buffer"],"no condition on the values: when a difference does not fit 64 bits, a delta mode overflows (undefined behaviour) in both implementations and at every split point; enough room in the output is assumed, as the two notice a full output at different places")
c("C15","proved",["C15_palette_exact"],"")
c("C16","proved",["C16_bitpack","C16_width"],"")
c("C17","proved",["C17_mode_choice"],"")
c("C18","partial",["C18_cloud_roundtrip_partial","C18_magic","C18_large_clouds","C18_many_fields","C18_short_points","C18_plain_chunks","C82_recovered_partial"],"missing: values whose difference to the previous value of the chunk does not fit (64-bit integers, and quantised values; counterexamples C05_int64_fails, C09_intMin_step_fails), compressed clouds whose stage-1 chunk is longer than the cloud (counterexample under C46; impossible for encoding NONE and for non-adaptive descriptions whose fields are short enough: C18_plain_chunks, C18_short_points), LZ4 clouds over 2 GiB, version-5 lossy infos with more than 64 integer fields of 16 to 64 bits (counterexample C18_many_fields: encode throws), payloads of 1.4 GB or more that start with the magic text")
c("C19","partial",["C19_untouched","C19_version2_partial","C19_version2_extra_points"],"versions 3 and above: full, for every payload. Version 2 has no point count per chunk: padding between fields is still untouched, but points beyond width*height are written (negation proved)")
c("C20","proved",["C20_concat","C20_decode_split","C20_decoder_history"],"")
c("C23","proved",["C23_view_size","C23_header_then_payload","C23_vector_agrees"],"")
c("C24","proved",["C24_reuse","C24_reuse_vector"],"")
c("C21","proved",["C21_no_out_of_bounds","C21_no_out_of_bounds_vector","C21_no_ub","C21_vector"],"vector overload: given that the header fits the estimate MaxCompressedSize makes")
c("C22","partial",["C22_bound_partial","C22_corrected_partial","C22_vector_partial","C22_v5_bound_too_small","C22_header_estimate"],"false for version 5: a 65536-point UINT64 cloud needs more than MaxCompressedSize (negation proved); with one byte more per field and point the formula is right (C22_corrected_partial)")
c("C31","partial",["C31_skip_partial","C31_adaptive_skip_fails","C31_adaptive_skip_ub","C31_version2"],"false for 16- to 64-bit integers of version-5 lossy clouds (negation proved: out-of-bounds write); version 2: C31_version2")
c("C46","partial",["C46_limit_partial","C46_exact_partial","C46_small_cloud_rejected"],"false for small compressed clouds (negation proved for every lawful compressor); C46_exact_partial says exactly which clouds decode")
c("C48","partial",["C48_partial","C48_type_mismatch","C48_stride_mismatch"],"equal stride only; false when sizeof(PointT) differs from the encoded point_step (negation proved)")
c("C25","partial",["C25_binary_exact","C25_binary_roundtrip_partial","C25_width_10_rejected","C25_lossy_fields"],"exact image of every info; false for widths whose low byte is 10 (parsed as YAML; negation proved), configuration text, non-positive resolutions and names over 65535 bytes (negations proved)")
c("C26","partial",["C26_yaml_roundtrip_partial","C26_unknown_type_rejected","C26_hash_in_name","C26_odd_names"],"printing and parsing of floats is abstract here (any lawful FloatText); C68 proves the library's own conversions lawful and gives the file round trip with them; false for UNKNOWN types and names with '#', newlines or outer spaces (negations proved)")
c("C27","partial",["C27_accepted_partial","C27_rejected","C27_no_ub","C27_nondigit_accepted"],"a non-digit version character counts as 0 (negation proved)")
c("C28","partial",["C28_roundtrip_partial","C28_names_distinct","C28_rejection","C28_unknown_rejected","C28_trailing_text","C28_numbers"],"UNKNOWN prints but is not read (negation proved)")
c("C43","proved",["C43_terminates","C43_lines"],"")
c("C29","partial",["C29_accepted","C29_truncated","C29_extended","C29_bad_length","C29_short"],"acceptance: full (all bytes). Rejection by exception: for every damage to the framing of a decodable payload; a payload whose chunk contents are also damaged may be undefined behaviour instead (C30)")
c("C30","partial",["C30_memory_safe_partial","C30_overread","C30_overread_file","C30_offset_outside","C30_rle_wrap","C30_v5_memory_safe_partial","C30_v5_overread","C27_no_ub"],"false in general (negations proved); holds for all bytes for guarded layouts without version-5 sections, and with them for all payloads without nine consecutive bytes of 128 or more (no run length of 2^63)")
c("C32","proved",["C32_result","C32_threaded_equals_sequential"],"two-thread transition system, all schedules, calls and spurious wake-ups; calls in which stage 1 fails by itself behind a hand-over are the subject of C35_abort_race")
c("C33","proved",["C33_no_deadlock","C33_terminates","C33_encode_returns","C33_destructor"],"no fairness assumed")
c("C34","proved",["C34_failure_thrown","C34_no_false_success","C34_like_fresh","C34_abort_next_call"],"C34_abort_next_call: after an exception of stage 1 (not of the worker) a later call can return a wrong result")
c("C35","partial",["C35_no_race_partial","C35_abort_race"],"proved unless stage 1 throws behind a hand-over; then false (negation proved)")
c("C36","partial",["C36_roundtrip","C36_layout","C36_truncated_partial","C36_no_ub_partial","C36_short_header_fails","C36_version_flag_mismatch","C36_dds_rejects_xcdr"],"round trip and layout: full. Truncation: rejected from the end of the 4-byte header on; below that the constructor reads past the buffer (negation proved)")
c("C37","partial",["C37_roundtrip_partial","C37_compressed_format","C37_empty","C37_big_endian_fails","C37_count_dropped"],"Round trip of a PointCloud2 through toCompressed/fromCompressed for the default (little-endian) CDR header; the negations show what is lost for big-endian CDR and for count.")
c("C38","proved",["C38_profile","C38_order"],"")
c("C39","partial",["C39_filter","C39_voxels_partial","C39_unchanged","C39_geometry","C39_far_voxel_lost","C39_offset_outside"],"The exact set of kept points is proved; one per voxel needs coordinates in the key range (negation C39_far_voxel_lost); offsets are not validated (C39_offset_outside).")
c("C40","partial",["C40_key_iff","C40_injective_partial","C40_outside_fails"],"Exact characterisation; injective only on [-2^20,2^20).")
c("C41","partial",["C41_values","C41_no_leak","C41_moved_from_dangles"],"Full for histories that do not read moved-from objects; a moved-from object keeps a view of the storage it gave away (negation proved).")
c("C42","partial",["C42_split","C42_header_partial","C42_mismatch","C42_types","C42_size","C42_layout","C42_fields_roundtrip","C42_fix","C42_eight_bytes","C42_comment_first","C42_hangs","C42_unknown_rejected"],"False for headers with comment or empty lines before DATA (read as empty), for 8-byte floats and signed integers, and reading hangs on a file without DATA whose last line has no newline (negations proved).")
c("C44","partial",["C44_accepted_iff","C44_resolutions","C44_rejected","C44_listing","C44_rejected_keeps_prefix"],"Full except that a rejected string keeps the entries before the bad one (negation proved).")
c("C45","partial",["C45_acquire","C45_bound","C45_holder","C45_no_leak","C45_ub_iff","C45_safe_partial","C45_outlives_ub","C45_stale_members"],"Full while the subscriber lives; releasing a cloud after its destruction is undefined behaviour (exactly then: C45_ub_iff).")
c("C47","proved",["C47_eq_iff","C47_symm","C47_trans","C47_refl_iff","C47_identical","C47_version_ignored","C47_pcl_iff"],"")
c("C49","proved",["C49_no_leftovers","C49_same_output"],"")
c("C50","proved",["C50_v5_trailing","C50_v4_trailing","C50_v5_exact"],"")
c("C51","proved",["C51_small_output"],"")
c("C52","partial",["C52_roundtrip_partial","C52_large","C52_count_ignored","C52_unknown_type","C52_resolution","C52_zero_resolution"],"round trip for what C18 and the YAML header cover; counts are dropped and clouds of 4 GiB or more cannot be decoded (negations proved)")
c("C53","partial",["C53_roundtrip_partial","C53_unknown","C53_int64_rejected"],"as C52; false for INT64 fields, which the header reader does not map (negation proved)")
c("C54","partial",["C54_no_exception","C54_decode_message_throws","C54_encode_bounded","C54_encode_complete","C54_encode_data_bounded","C54_compute_agrees","C54_zero_step_traps"],"false for cldn_DecodeCompressedMessage (throws on a malformed message) and for point step 0 (divides by zero): negations proved; the bounds and the announced size are proved for every input")
c("C55","partial",["C55_roundtrip_partial"],"for what C18 and the YAML header cover")
c("C56","partial",["C56_message_partial","C56_convert_partial","C56_returned_size","C56_overflow","C56_zero_is_failure"],"agreement for messages the library made; false for messages whose own size disagrees with the data inside (overflow proved on a concrete message)")
c("C57","partial",["C57_header_text","C57_message_header_partial","C57_version_code","C57_undecodable"],"the header text is right; the second half is false for every description (version read back as a character code): negation proved for all descriptions")
c("C58","partial",["C58_encode","C58_decode","C58_encode_succeeds","C58_roundtrip_partial","C58_dropped","C58_schemaless_ub"],"messages and channels: full, for every file. Round trip for clouds as in C37. False for channel metadata and attachments (always lost) and for channels without schema (null pointer): negations proved for every file")
c("C59","proved",["C59_cut","C59_count","C59_nothing"],"channel ids are used once (a map's keys)")
c("C60","partial",["C60_outline","C60_comment_line","C60_trailing","C60_tab","C60_document","C60_deeper_lost","C60_flat_sequence_lost","C60_item_key_lost"],"layout independence: full. Documents: full for two-column indentation; other indentations, sequences at the column of their key and items that begin with a nested value are silently misread (negations proved)")
c("C61","partial",["C61_roundtrip_partial","C61_consistent","C61_large","C61_format_missing","C61_readInfo","C61_bigendian_lost"],"consistency check: full. Round trip: FileOk (C18) and below 4 GiB; is_bigendian is dropped, `format` is never set so that ReadEncodingInfo rejects every message of the plugin (negations proved)")
c("C62","partial",["C62_same_info","C62_serialize_partial","C62_topics_partial"],"same description: full. Round trips: FileOk (C18); counts and is_bigendian as in C37")
c("C63","partial",["C63_delivered_partial","C63_empty_dropped","C63_dense_lost"],"FileOk (C18); empty clouds are never delivered and every delivered cloud claims to be dense (negations proved)")
c("C64","partial",["C64_more_room_partial","C64_too_small","C64_vector_view_partial","C64_lz4_large","C64_lz4_witness"],"too small: full. More room: with LZ4 only while at most INT_MAX bytes remain; beyond that every LZ4 encode throws (negation proved)")
c("C65","partial",["C65_meaning","C65_types_inverse","C65_name_inverse","C65_prefix_mangled","C65_name_anywhere"],"exact meaning of the edit and its inverse are proved for all texts; `only types and file names change` is false (the replacement is textual: negations proved)")
c("C66","partial",["C66_protected_partial","C66_default","C66_dotdot","C66_input_overwritten","C66_profile_partial","C66_profile_cut"],"false for output paths with .. below a directory that does not exist yet, for bare files without metadata, and for profile files with white space (negations proved)")
c("C67","partial",["C67_decode_same","C67_construct_same","C67_cross_partial","C67_defined_partial","C67_meaning_iff","C67_nan_undefined","C67_same_bytes_partial","C67_bytes_differ"],"decoding and cross-machine accuracy proved; C67_meaning_iff says exactly for which clouds encoding without SSE is defined; it is undefined for NaN in the leading group, and halfway values give different bytes (negations proved)")
c("C68","partial",["C68_lawful","C68_six_digits","C68_error","C68_idempotent","C68_file_partial","C68_any_resolution_partial","C68_third","C68_third_file","C68_tiny_file","C68_specials","C68_hand_decimal","C68_hand_hex"],"exact for resolutions of six digits and whole-file accuracy proved; other resolutions are rounded by the header (bound proved, loss of the C11 promise shown), resolutions below the smallest normal float make the file unreadable")
c("C69","partial",["C69_depends_on_values","C69_depends_on_values_vector","C69_padding","C69_reencode_partial","C69_same_file_partial","C69_no_collision_partial"],"independence of padding and sub-step differences proved in full; re-encoding up to 4194300 steps (2^51-4 for doubles); no collisions within what C18 covers")
c("C70","partial",["C70_roundtrip_partial","C70_encodes","C70_negative","C70_zero_lost","C70_smaller_type","C70_larger_type"],"round trip and success for coordinates within 2^28 steps and resolutions of 2^-124 .. 2^124; false for resolution 0 (the file can never be decoded: negation proved for every cloud), for files of PointXYZI read as PointXYZ (always refused) and of PointXYZ read as PointXYZI (points end up in wrong places): negations proved for every cloud")
c("C71","partial",["C71_same_values_partial","C71_same_bytes","C71_unreadable_versions","C71_version2_lost"],"same values under the hypotheses of C18 for versions >= 3; same bytes unconditionally when no field is coded differently; false for version 2 (the encoder frames its chunks, the decoder of version 2 takes the frame for points: negation proved) and for versions below 2 or 6..99 (the header written is always refused)")
c("C72","partial",["C72_any_message","C72_order","C72_roundtrip_partial","C72_wide_integers","C72_header_overflow","C72_cloud_overflow","C72_empty","C72_padding_leaks","C72_same_names"],"for every message and every content of the block: array, names and values under the hypotheses of C18, a cloud of at most 32 MiB and a header text of at most 4096 bytes; false beyond (negations proved for all such messages): 64-bit integers arrive as one byte, longer headers and larger clouds are written past the blocks, empty clouds raise, equal names lose the members, padding shows the block's earlier content; NumPy, ASCII text and the WebAssembly runtime are assumptions of the model")
c("C73","partial",["C73_frees","C73_metadata","C73_empty","C73_any_message","C73_overflow","C73_short_data","C73_roundtrip_partial"],"memory given back and metadata for all messages, allocators and failures; the data are the decoder's for every message returned; round trip under the hypotheses of C18; false where message and file disagree (negations for all such messages): a larger file is decoded past the block, a smaller one is returned with too few bytes; the endianness flag is always cleared; JavaScript numbers are exact in the model (below 2^53)")
c("C74","partial",["C74_names","C74_failure_untouched","C74_converts","C74_single","C74_full_disk","C74_options_ignored","C74_keeps","C74_no_answer","C74_batch","C74_counts","C74_roundtrip_partial"],"names, conversion, frame, batch and failure for every encoder, file system and device; false (negations for all inputs of a class): the three options are ignored, a full device is reported as success, the end of standard input at the prompt reads a variable without a value, the exit code of a batch is always 0; the content decodes as in C53 under its hypotheses")
c("C75","partial",["C75_first","C75_rest_ignored","C75_exit","C75_null_schema","C75_resolution","C75_empty_first","C75_converted_partial"],"description, independence of the rest and exit code: full. False (negations for all such files): a channel without schema is a null pointer, a missing resolution is printed as 1, an empty first cloud ends the program, exit code 0 also when there is nothing to describe, and the numbers of points and bytes are modulo 2^32; true numbers for files the converter made from clouds as in C58")
c("C76","partial",["C76_rows","C76_resolution","C76_totals","C76_counted_twice","C76_compressed_partial","C76_encoder_partial","C76_skipped","C76_memory","C76_leak","C76_no_memory"],"rows: full; totals: full for files with one channel per topic. False (negations): a topic with two channels is counted twice, clouds that fail or are too large count in the original size only (so the ratio looks better than it is), the module the page loads leaks the block of every message that throws, and an allocator out of memory makes the page write to address 0; the compressed size is right if every cloud can be compressed and is at most a quarter of the memory")
c("C77","partial",["C77_output","C77_survives","C77_bad_message","C77_hears_known","C77_strongest","C77_late_publisher","C77_topics","C77_row","C77_roundtrip_partial","C77_log","C77_second_silent"],"output for every history and any number of nodes, quality of service for every set of known publishers, and the sizes in the log: full. False (negations for all such histories): one message that cannot be converted ends the process with all its nodes, publishers that start later and do not offer reliable delivery are never heard, the number in the log is always one too small, and the counter is shared by the nodes of a process, so that one of two alternating nodes never logs. Round trip under the hypotheses of C62. ROS itself is outside the model")
c("C78","proved",["C78_writes_only","C78_two_buffers","C78_again","C78_accepted"],"full, for every version, every compressor and every float implementation, malformed payloads included. The bytes already stored when an exception is thrown are not part of the model's outcome")
c("C79","partial",["C79_measured","C79_sizes_partial","C79_only","C79_total","C79_failures_flatter","C79_lying_message","C79_explain","C79_explain_zero_step","C79_fingerprint_partial","C79_fingerprint_history","C79_mode_bytes","C79_decoded_partial","C79_fnv","C79_replay_partial"],"sizes: for clouds on which a mode that fails in a buffer of its own fails in every buffer, and a compressor that does not depend on the room it has; fingerprint: clouds without padding and skipped fields, negated with padding; failures_flatter, lying_message, explain_zero_step are general refutations of 'a failing message does not affect the report'. Times are not modelled")
c("C80","partial",["C80_reuse","C80_history","C80_memory","C80_declared_first","C80_vector"],"reuse, history, memory and vector hold for all histories; C80_declared_first refutes 'the memory a decoder takes is bounded by its input and output'. History: for declared sizes a vector can hold")
c("C81","partial",["C81_listing","C81_values_partial","C81_zero_is_all","C81_failures_counted"],"listing: for runs that end without UB; values: for messages as in C72 (little endian, the cloud fits the block, names Python reads back); zero_is_all and failures_counted are refutations of what the options and the summary say. The summary table of channels and the printed first point are not modelled")
c("C82","proved",["C82_agrees","C82_untouched","C82_version2","C82_damaged","C82_truncated","C82_appended","C82_not_atomic"],"C82_agrees links the decoder with the buffer as state to the one used elsewhere; C82_not_atomic is the refutation of atomicity. C82_recovered_partial (listed under C18) adds that the points left by a cut encoding have the values the round trip promises")
c("C83","partial",["C83_set_partial","C83_viz_partial","C83_viz_voxels_partial","C83_history_partial","C83_filter_partial","C83_reserve_shift"],"for every hash function and history; missing: sets that reach 2^24 members (distances have 24 bits). C83_reserve_shift refutes the property for clouds of more than 3435973888 points")
c("C84","partial",["C84_same","C84_wasm","C84_wasm_message","C84_message_partial","C84_points_wrap","C84_room_wraps","C84_wasm_corrupts"],"agreement proved for clouds below 4 GiB; from 4 GiB on the property fails: C84_points_wrap (2^32 points taken for none), C84_room_wraps and C84_wasm_corrupts (a crafted file passes the size test and is written outside the buffer)")
c("C85","partial",["C85_view","C85_vector","C85_message","C85_data","C85_ordinary","C85_roundtrip_partial","C85_stride_corrupts","C85_stride_reachable"],"agreement proved for clouds whose sizes fit into 32 bits, and C85_ordinary says that up to a million points of 64 KiB do; beyond, the property fails: C85_stride_corrupts (points of 2^17 bytes: the stage buffer has no byte and the encoder writes outside it), C85_stride_reachable (there are such messages)")
c("C86","proved",["C86_column_cost","C86_index_column"],"payload lengths for option NONE of the second stage, so lengths of the stage-1 chunks; C86_index_column: a cloud of n indexes is encoded into at most 33 bytes per chunk, for every n up to 2^32")
c("C87","partial",["C87_framed_ends","C87_unframed_ends_partial","C87_hangs","C87_hang_file"],"versions 3 to 5: it always ends; version 2: it ends within |payload| + |buffer| + 1 turns unless points take neither room nor input; C87_hangs: an exact description of the headers and payloads for which it never ends; C87_hang_file: an accepted file of that kind")
c("C88","partial",["C88_frame_partial","C88_exit_zero","C88_failure_partial","C88_input_kept_partial","C88_metadata_unasked","C88_failure_destroys","C88_success_without_output","C88_refused_makes_directories","C88_bare_name_aborts","C88_directories","C88_spelling","C88_output_directory"],"what may change, what exit code 0 means and what a failure leaves, for all runs; false as stated: the metadata.yaml of another bag is replaced without a question, a failed conversion destroys an earlier output, refused runs make directories, a bare file name beside a metadata.yaml crashes")
c("C89","partial",["C89_rows_partial","C89_any_order","C89_metadata","C89_metadata_no_summary","C89_stale","C89_average"],"rows and files exact and independent of the order for a directory without metadata whose bags have clouds; with a metadata.yaml every row is wrong or empty and the summary fails; a bag without clouds gets the size of an old output. Runs of different bags are modelled as not overlapping; they touch different files")
c("C90","proved",["C90_bytes","C90_bytes_vector","C90_bytes_plain","C90_settled"],"Spec/Format writes the format down without the model (numbers, kinds, sections, chunks). C90_bytes: valid clouds (CloudOf, FieldLimit: at most 64 section fields), any history; C90_bytes_plain: no hypotheses on description or cloud where no field goes to a section; C90_settled: without a second stage the bytes follow from description and cloud. The float arithmetic (steps of a value) and the compressor are parameters")
c("C91","proved",["C91_binary","C91_text","C91_file"],"Spec/FormatHeader spells the headers out; C91_file joins header and payload (C90). The printing of a float (resolution) is the parameter T, concrete in C68. CanonicalInfo: an enum object is determined by its byte. More than 65535 fields or bytes in a name: C25_binary_exact says what is written")
c("C92","partial",["C92_any_writer_partial","C92_writers_agree_partial","C92_unambiguous_partial","C92_own_output","C92_magic"],"Payloads are described by Spec/Format (EncodedBy), independently of the encoder; C92_own_output: the encoder's output (C90) is one of them. Missing, as in C18: values that do not follow the one before them within the 64-bit (32-bit) difference; compressed clouds with a chunk longer than the whole cloud (C46) and LZ4 clouds above 2 GiB, which the decoder rejects; payloads that start with the magic string (none below 1.4 GB, C92_magic). No bound on the number of fields")
c("C93","partial",["C93_cuts_partial","C93_frame","C93_failure","C93_exit_zero","C93_one_output","C93_twice","C93_onto_itself","C93_overwrites","C93_success_without_output"],"The program around C59, with a file system; the MCAP library is a parameter that reads back what it wrote (a concrete one is given). The code violates the full property: -o naming the input truncates it before its messages are read, code 0 (C93_onto_itself); an existing output is replaced without a question (C93_overwrites); an input without clouds gives code 0 and 'File saved as' without a file (C93_success_without_output). Failures of single writes are not modelled")
c("C94","proved",["C94_frames","C94_amplification","C94_values","C94_claims_rejected","C94_attained"],"Versions 3 to 5 (version 2 has no declared number of points to compare with). With compression only the frames are bounded: what a compressed chunk can expand to is the library's business and limited to the declared size of the cloud")
c("C95","partial",["C95_float32","C95_vector","C95_float64","C95_cloud_partial","C95_border_partial","C95_apart_vector","C95_apart_float32","C95_vector_overflow"],"order, mirror images, zero and sign for every pair of values within 2^29 steps (leading group) / 2^61 steps; beyond that the property is false of the code (C95_vector_overflow). Whole clouds as far as C18 covers them")
c("C96","proved",["C96_exact_or_rejected","C96_accepted_iff","C96_lossy_fails"],"all values; hypotheses on the compressed size as in C18 (compression NONE, or chunks not longer than the cloud). C96_lossy_fails: the same claim is false of LOSSY clouds (a number comes back as NaN without an error), which it does not cover")
c("C97","partial",["C97_other_chunks","C97_too_few","C97_too_many","C97_accepted_iff_partial","C97_v5_invents"],"the full claim is false of the code, in two ways, both proved: C97_too_many (the surplus points of the last chunk are dropped without an error, whatever they are) and C97_v5_invents (a version 5 cloud of nine points decodes into ten). Noticed for every cloud: another number of chunks (any version), fewer points than described (without sections); C97_accepted_iff_partial says exactly when the mistake goes unnoticed without sections. Hypotheses on the compressed size as in C18")
c("C98","partial",["C98_shared_fields","C98_lossless","C98_quantised_fails"],"false of the code when one of the fields that share bytes is quantised: C98_quantised_fails (version 4 destroys an integer whose bytes are also a quantised float, version 5 delivers the other value). Otherwise for every overlap. Hypotheses on the compressed size as in C18")
c("C99","partial",["C99_small","C99_colour","C99_colours_partial","C99_tools_quantise","C99_colour_dark"],"false of the code for fields with a resolution, and the tools give every FLOAT32 field one: C99_colours_partial says what becomes of the colours (black, or NaN) and that they are exact without a resolution; C99_tools_quantise that no profile exempts a field. C99_colour_dark: opaque colours with red below 128 are beyond the integers (C100). IEEE arithmetic of Model/IEEE")
c("C100","partial",["C100_value","C100_never_encoded","C100_encoded_fits","C100_sign_lost_partial"],"false of the code: nothing is reported. C100_never_encoded: outside the leading vector no successful encode exists (it runs into the undefined conversion); C100_sign_lost_partial: in the leading vector the value comes back negative (clouds in which the differences of neighbouring points fit). The margins 2^41, 2^12, 2^9 cover the rounding of the multiplier. IEEE arithmetic of Model/IEEE")
c("C101","partial",["C101_distance_partial","C101_interval_partial"],"C101_interval_partial: the same for differences of doubles (time stamps). FLOAT32 coordinates; clouds as for C11_cloud_partial (values within 2^29 steps, 2^61 outside the leading group, no magic collision, chunks within the room). IEEE arithmetic of Model/IEEE")
c("C102","partial",["C102_cloud_partial","C102_float32","C102_vector","C102_float64","C102_many_steps_fail"],"below 2^22 steps (doubles 2^51); C102_many_steps_fail shows that a limit (at most 2^24) is needed. Clouds as for C11_cloud_partial. IEEE arithmetic of Model/IEEE")
c("C103","partial",["C103_selection_partial","C103_duplicates_partial"],"clouds as for C18_cloud_roundtrip_partial (differences of neighbouring points within the range of the codec, no magic collision, chunks within the room)")
c("C104","partial",["C104_field_partial","C104_same_path","C104_paths_close","C104_fails"],"false of the code where the leading group of floats comes or goes (C104_fails, whole clouds); C104_field_partial for fields on the same path, C104_paths_close bounds the difference by one step and the rounding. Clouds as for C18_cloud_roundtrip_partial")
c("C105","partial",["C105_generations_partial","C105_numbers","C105_drift"],"false of the code beyond the limit (C105_drift: ten whole trips, 312.5 mm); C105_generations_partial for any number of trips within it. Clouds as for C18_cloud_roundtrip_partial")
c("C106","partial",["C106_box_partial","C106_centroid_partial","C106_plane_partial"],"whole clouds, any encoder history; FLOAT32 coordinates that are numbers; clouds as for C11_cloud_partial. IEEE arithmetic of Model/IEEE")
c("C107","partial",["C107_chain_partial","C107_not_direct"],"the bound for any chain of whole trips; C107_not_direct (three whole trips) shows that half a step of the coarsest resolution is not enough. Clouds as for C11_cloud_partial")
import os
have={x["property"] for x in C}
for i in range(1,108):
    p="C%02d"%i
    if p not in have: C.append(dict(property=p,status="partial",theorems=[],note="in progress"))
C.sort(key=lambda x:x["property"])
json.dump({"claims":C},open(os.path.join(os.path.dirname(__file__),"MANIFEST.json"),"w"),indent=1)
