# Formal model of facontidavide/cloudini in Lean 4

The properties are in `properties.jsonl` (C01…). This file says what is modelled, how each
property is stated and proved, what is trusted, and what was found.

## 1. Shape of the model

* **Outcomes.** `Res α = ok a | throw msg | ub kind`. `throw` is a C++ exception; `ub` is undefined
  behaviour (out-of-bounds access, signed overflow, float→int conversion out of range, over-wide shift).
  Undefined behaviour is a distinct outcome and is never assumed away: safety theorems say "the
  result is not `ub`", and where the code does reach it the negation is proved on a concrete witness.
* **Memory.** A byte is `BitVec 8`. A readable view is the list of its remaining bytes; reading
  beyond it is `ub mem`. A writable view is either (encoder side) the list of bytes produced plus a
  remaining capacity, an unchecked write past the capacity being `ub mem`, or (decoder side) the
  caller's buffer as a list with absolute positions, a write past the end being `ub mem`.
* **Integers.** `uint64_t/int64_t/uint32_t` that take part in bit manipulation, wrap-around or
  signed overflow are `BitVec n`; sizes and counters that cannot wrap for objects that fit in memory
  are `Nat`. Where wrap-around matters (`out_index + run_len`, `width*height*point_step`) it is modelled.
* **Floats.** Stage 1 is parametric in a record `FloatOps` of quantise/dequantise functions on bit patterns, so
  every structural theorem holds for any float arithmetic. A second layer gives a concrete IEEE-754
  model over the rationals for the error bound and idempotence.
* **Stage 2 (LZ4/ZSTD).** An abstract lossless compressor with an explicit law; see trusted base.
* **Threads.** The encoder/worker pair is a transition system with one atomic step per
  lock-protected block or lock-free statement group; theorems quantify over all interleavings.

Files: `lean/Verif/Model/*` (definitions, each citing `/repo` file and lines), `lean/Verif/Lemmas/*` (helpers),
`lean/Verif/Props/*` (property theorems and non-vacuity examples, plus small separate specifications).

## 2. Per property

| id | what is modelled | how it is proved |
|---|---|---|
| C01–C03 | `encodeVarint64`, `decodeVarint` literally on `BitVec 64` and byte lists | induction over 7-bit groups; bridge from bit operations to arithmetic; INT64_MIN is a counterexample (C01 partial) |
| C04 | `encode<T>/decode<T>`, string overloads | direct; induction on width |
| C05–C10 | the five field encoder/decoder classes as state machines | simulation relation between encoder and decoder state, one-step lemma, induction over the points |
| C11, C12 | IEEE binary32/binary64 rounding over ℚ | standard rounding-error analysis, explicit bound |
| C13–C17 | the V5 adaptive integer code: estimators, palette table, bit packing, buffered and streamed writers, reader | induction over runs/values; hash table invariant; refinement of streamed to buffered |
| C18–C24, C46 | encoder/decoder drivers, chunking, framing, stage buffers | composition of the one-step lemmas; write-set argument for the output buffer; size accounting |
| C25–C28, C43 | headers, YAML printer and parser, enum names | induction over fields / lines; fuel-adequacy theorem for the parser |
| C29, C30 | decoder on arbitrary bytes | case analysis; counterexamples proved for the unsafe paths, safety proved for the safe configurations |
| C31, C48 | skip-store offsets, name remapping | write-set argument |
| C32–C35 | encoder/worker transition system | inductive invariant over all interleavings |
| C36, C37 | nanocdr encoder/decoder and the ROS conversions | induction over the message |
| C38–C40 | resolution profile, visualisation filter, voxel keys | induction over fields/points; bit arithmetic |
| C41 | ownership model of `RosPointCloud2` | invariant over operation sequences |
| C42, C44 | text parsing of PCD headers and profiles | induction over tokens |
| C45 | pool state machine | invariant |
| C47 | equality | direct |
| C49, C50 | two runs of `decode` on different output buffers; `decode` with one chunk replaced | simulation between the two runs with the set of positions known to agree; the decoder reads a chunk as a prefix |
| C51 | `wasm`-independent V5/V4 header-and-payload file (`EncodeHeader` + `encode`) | composition of C26 and C18 |
| C52, C53 | `pcl_conversion.cpp`, `pcd_to_cloudini_converter.cpp` | composition with C51, negations on witnesses |
| C54–C57 | every function of `wasm_functions.cpp` | case analysis + monotonicity of the encoder in its room |
| C58, C59 | MCAP converter and cutter over an abstract MCAP file (records, channels, schemas) | induction over the messages |
| C60 | the YAML reader against an outline specification (`Spec/Yaml`) | induction over lines/indentation |
| C61–C63 | ROS plugins, conversion helpers, topic converter, PCL subscriber | composition with C37/C51; exact characterisation of the subscriber's checks |
| C64 | `encode` as a function of the output size | simulation between two runs that differ in room |
| C65, C66 | rosbag converter's metadata editor, command-line profile | induction over occurrences; word splitting |
| C67 | the scalar fallback of intrinsics.hpp (`Model/Scalar`): conversion and subtraction partial, everything else shared | congruence of decoder and encoder in the float operations; error analysis with ties away |
| C68 | `operator<<(float)` and `std::stof` (`Model/FloatText`); decoding with a perturbed resolution | decimal error analysis; simulation of the decoder with shifted resolutions (`Lemmas/Retune`) |
| C69 | pairs of clouds through `encode` (all versions) | `Lemmas/Alike`: every step of the encoder reads only the declared bytes and uses lossy floats only through NaN test and quantisation; with C12's value lemmas, re-encoding reproduces the file |
| C70 | `PointcloudEncode<PointT>`, `PointcloudDecode<PointT>` for both point types, library text and IEEE arithmetic | C68's file theorem for this description; chunks are never longer than the cloud (`C18_short_points`, from `Lemmas/Tight`: a point never takes more bytes than its fields can); C19 for the padding; failures by computation on the header for every cloud |
| C71 | encoder and decoder with `EncodingInfo::version` as an input | values: C18 for both versions; bytes: the encoders built are equal when no field is adaptive and no lossless FLOAT64 changes codec, and nothing else of the payload reads the version; refusals from C27; version 2 by a witness |
| C72 | `cloudini_decoder.py` (header re-parsed by Python, blocks, NumPy type) on top of `Model/Wasm` | `Lemmas/Python`: the scan of `infoToYaml` gives back every number and name, by induction over the fields; values from C18/C37; the overflows from the sizes |
| C73 | `convertPointCloudWasm` with the allocator as an arbitrary function on top of `Model/Wasm` | case analysis over every exit; C19 for the length and the padding; C37's inversion for messages of the library |
| C74 | `main` of `pcd_to_cloudini_converter.cpp`: paths as text, file system as a function, device and standard input as parameters | string lemmas on file name, stem and extension (`Lemmas/PcdTool`), induction over the directory listing; C53 for the content |
| C75 | `main` of `mcap_header_inspector.cpp` on the files of C58; what is printed as a record | first message on a compressed channel = first such message delivered (list induction), header trip and C58 for converted files |
| C76 | `analyzeFile` of `cloudini_web/main.js` on the files of C58, allocator as in C73, the function of C54 | list induction over messages and channels, regrouping of the sum by topic, C54 for the sizes |
| C77 | the node of `topic_converter.cpp`: constructor, `adapt_request_to_offers`, `callback` with the shared counter; a process as a sequence of callbacks | induction over the history; counting for the quality of service; C62 for the round trip |
| C78 | `decode` for all payloads, as a function of the output buffer | `Lemmas/Script`: every decoding function is one fixed script of byte stores per buffer size; a bind lemma and an induction per function |
| C79 | `Model/Bench`: `mcap_codec_benchmark` without its times | induction over the messages with an invariant per topic; C64 for the shared encode buffers, C49 for the shared decode buffers; general refutations for failing and lying messages |
| C80 | `Model/Decoder`: `PointcloudDecoder` as an object with its field decoders and its decompression buffer | simulation with `decodeCloud` for every state of the object, then induction over the calls; general refutation for the memory |
| C81 | `Model/PyMcap`: `decode_mcap.py` | induction over the messages; C72 for the values, C78 for the block |
| C82 | `Model/Partial`: the decoder with the caller's buffer as a state that survives exceptions | simulation with `Model/Cloud` (equal outcome, equal output); footprint of the exceptional exits by induction over every loop; induction over the chunks for the cut and the damage |
| C83 | `Model/Dense`: the Robin Hood hash table of `unordered_dense.h` as far as `set<uint64_t>` with `clear`, `reserve`, `insert` uses it; the filter with the thread's table as state | invariant (every bucket holds the distance of its value, distances grow by at most one from a bucket to the next, each value in one bucket) kept by every loop; simulation with `Ros.applyViz`; induction over the history |
| C84 | `Model/Word`: the functions of the decoder that compute in `size_t`, for an arbitrary modulus | simulation: as long as the 64-bit run is inside the buffer no product reaches the modulus; concrete headers for the failures |
| C85 | `Model/WordEnc`: the functions of the encoder that compute in `size_t`, for an arbitrary modulus, and the hash of the palette cut to it | simulation: the hash table is used through its low bits only, every size is below the modulus; concrete strides for the failure |
| C86 | lengths of the four sections of a column (`Model/V5`), the mode carried from the first chunk to all later ones | exact section lengths of constant and evenly spaced sequences; induction over the chunks with the chosen mode as invariant |
| C87 | outcome `.ub .loop` of the functions under `decodeCloud`; `fuel` of the version-2 loop | every other loop is driven by a counter or by bits consumed; output room or input as the measure of the version-2 loop; the exception is characterised exactly |
| C88 | `Model/BagTool`: `main` over a file system of directories and files, the converter class as a parameter | case analysis over all paths (`main_cases`), reading after writing; input and output named in `Spec/BagTool` |
| C89 | `Model/BagTool`: `processFile`, `processAll` | induction over the order; outputs of different bags have different names and lie outside the directory of the inputs |
| C90 | all of the encoder; the format itself is written down in `Spec/Format` in plain arithmetic, without the definitions of the model | every field encoder step writes `valueBytes` of its column (`step_bytes`, invariant `Enc.At`); chunks by induction; sections via the stream specification of C86; the mode by `select_shortest` |
| C91 | `Model/Header`; the format in `Spec/FormatHeader` | unfolding, equality of the tables of codes and words; `C91_file` from C90 |
| C92 | the decoder of `Model/Cloud`, `Model/V5`; payloads as in `Spec/Format` (`EncodedBy`) | the section lemmas per mode (`decodeSection_secFor`), induction over fields and chunks with the modes left open; stores as in C18 |
| C93 | `Model/Cutter` (`main` of mcap_cutter.cpp over the file system of `Model/BagTool` and `Mcap.cut`), the MCAP library as a parameter | case analysis of the run; C59 for the content; induction over the messages for two cuts |
| C94 | the decoders of `Model/Cloud`, `V4`, `V5` | every decoder takes at least its weight from the input (`Lemmas/Volume`); induction over points, fields and chunks; attained by descriptions without fields |
| C95 | `Model/IEEE` (every operation rounded once) and the memoryless codec of C09 | rounding to a format is monotone and odd (`Lemmas/IEEEOrder`), so is rounding to an integer; composition; whole clouds through C18 |
| C96 | the codec of C18, any values | what the decoder does with the bytes of a value out of order (`Lemmas/Forced`): it refuses them; so success of both sides implies the hypotheses of C18, by induction over fields, points and chunks |
| C97 | the codec of C18, a cloud of `m` points under a description of `n` | the chunk round trip of C18 at a point count of the decoder's own (`Lemmas/Miscount`): the decoder's loop split at the smaller count; every point takes at least a byte (C94); the framed chunks are unique (C90) |
| C98 | the codec of C18, fields may overlap | as C18 with `Meets` (two writes put the same byte wherever they meet) for `Apart`: the writes of a point in any order leave each write's bytes (`Lemmas/Shared`); exact fields write what was there |
| C99 | the codec of C18 with `IEEE.ops`; `applyProfile`, the descriptions of plugin, WASM and PCL | the bound of `cycle32`/`cycleV` on \|n r - x\| leaves only n = 0; the real value of a pattern below 2^24 is at most 2^-125; C18 lifts it to clouds |
| C100 | the codec with `IEEE.ops`, any cloud | rounding is monotone, so a large product stays large (`Lemmas/IEEELarge`); a successful `encode` has stepped every field encoder over every point, in both versions (`Lemmas/Coded`, induction over points and chunks) |
| C101 | the codec with `IEEE.ops`, any cloud | the bound of C11 for the three coordinates of two points and the triangle inequality, by Cauchy-Schwarz over the rationals |
| C102 | the codec with `IEEE.ops`, any cloud | an exact product is not rounded (`Nearest32` at distance 0), so the multiple is the dequantised integer, which C12 says is stable; the decoded number depends only on the number (`through`, C95); only zero has two bit patterns |
| C103 | two whole trips through encoder and decoder | both decoded points are the same function (`expected`) of the same original bytes, by C18 for each cloud |
| C104 | two whole trips with different descriptions | as C103; the path is `groupSize`; the two paths are compared by C11 |
| C105 | induction over a sequence of whole trips; a trip's result is a valid cloud and a fixed point of the next (C12) | the drift is ten concrete trips run in the kernel |
| C106 | C11 for whole trips, then linear arithmetic over the rationals: sums of lists by induction, planes by Cauchy's inequality without roots | as C101 |
| C107 | induction over a chain of trips whose descriptions differ in resolutions, compression and version but put the coordinates at the same places | as C106 |

Where a property is false of the code, its negation is proved on a concrete witness (or for all inputs of a class) and the
positive theorem carries the suffix `_partial` with the missing cases in its doc comment and in the note of `MANIFEST.json`.

## 3. Trusted base

* **Kernel.** Lean 4.33.0's kernel (the whole development is also replayed by `vcheck`).
* **Axioms.** None are added. Every theorem of the manifest depends on a subset of `propext`, `Classical.choice`, `Quot.sound`
  (`#print axioms`; table below). No compiled evaluation: `decide +kernel` is the only closed-term evaluation used.

  | axioms | theorems of the manifest |
  |---|---|
  | none | `C10_lanes_separate`, `C104_same_path` |
  | `propext` | `C06_selection`, `C10_nan_iff`, `C10_nan_iff64`, `C39_geometry`, `C41_moved_from_dangles`, `C42_unknown_rejected`, `C47_version_ignored`, `C66_input_overwritten` |
  | `propext`, `Quot.sound` | `C01_intMin_fails`, `C03_fast_paths`, `C04_int_bounds`, `C04_string_bounds`, `C07_xor_size`, `C09_intMin_step_fails`, `C16_width`, `C19_version2_extra_points`, `C20_decode_split`, `C20_decoder_history`, `C23_header_then_payload`, `C24_reuse`, `C24_reuse_vector`, `C29_accepted`, `C29_short`, `C31_adaptive_skip_fails`, `C31_adaptive_skip_ub`, `C34_abort_next_call`, `C35_abort_race`, `C36_dds_rejects_xcdr`, `C36_no_ub_partial`, `C36_short_header_fails`, `C36_truncated_partial`, `C36_version_flag_mismatch`, `C39_far_voxel_lost`, `C39_offset_outside`, `C39_unchanged`, `C40_outside_fails`, `C42_fields_roundtrip`, `C42_fix`, `C42_layout`, `C42_split`, `C43_lines`, `C45_outlives_ub`, `C45_stale_members`, `C48_stride_mismatch`, `C48_type_mismatch`, `C64_more_room_partial`, `C64_too_small`, `C66_protected_partial`, `C71_same_bytes`, `C71_version2_lost`, `C77_output`, `C77_second_silent`, `C77_survives`, `C79_fingerprint_history`, `C79_total`, `C80_history`, `C80_reuse`, `C82_agrees`, `C82_not_atomic`, `C83_reserve_shift`, `C84_points_wrap`, `C84_room_wraps`, `C84_same`, `C85_ordinary`, `C85_vector`, `C85_view`, `C90_settled`, `C91_binary`, `C92_own_output`, `C94_amplification`, `C94_claims_rejected`, `C94_frames`, `C97_v5_invents` |
  | `propext`, `Quot.sound`, `Classical.choice` | all others (456) |

* **The reading of the source.** Each definition of `Verif/Model/*` cites the lines it models; that reading is the link between
  the theorems and the C++ and is not machine-checked. Target: little-endian 64-bit, C++20, x86-64 with SSE4.1, no fast-math.
* **LZ4 / ZSTD.** Not modelled. `Compressor` is a record of the three calls used (compress, decompress, bound); the theorems
  that need it assume `Compressor.Lawful` (documented contract: fits the destination, inverse, bound suffices, bound
  monotone) or `Compressor.Mono` (a larger destination gives the same bytes). `storeComp` satisfies both.
* **Floating point.** Structural theorems hold for every `FloatOps`. C11/C12 (and C67, C68, C73) instantiate it with `Model/IEEE`; trusted there
  is only that the hardware and the C++ implementation follow IEEE-754 as written in that file (`cvtps2dq`, `roundf`, `float`/`double` `*`, `/`, conversion).
* **Text of floats.** `FloatText` (printing with `ostringstream`, `std::stof`) is a record; `FloatText.Lawful` is what the header
  round trip needs. `Model/FloatText` defines the conversions of the C++ library (`%g` with six digits, `strtof` with correct rounding, `ERANGE`),
  proved lawful (C68); trusted is that glibc follows that definition.
* **Other libraries.** `std::thread`, mutex and condition variables are the transition system of `Model/Threads`
  (spurious wake-ups included); `std::map`, `std::string`, `std::vector` are lists; MCAP, ROS 2 and PCL are data types only.

## 4. Scope

| part of `/repo` | model |
|---|---|
| `encoding_utils.hpp`, `intrinsics.hpp` | `Model/Varint`, `Model/Base`, `Model/CodecCommon`, `Model/IEEE` (SSE4.1 operations that the codec uses; the non-x86 fallback of the encoder is `Model/Scalar`) |
| `field_encoder.*`, `field_decoder.*` | `Model/FieldCodec`, `Model/Gorilla` |
| `codec_common.*`, `chunk_writer.*`, `v4_codec.*`, `v5_codec.*` | `Model/CodecCommon`, `Model/V4`, `Model/V5` |
| `cloudini.cpp/.hpp`, `basic_types.hpp` | `Model/Types`, `Model/Cloud`, `Model/Seq`, `Model/Header`, `Model/FloatText`, `Model/InfoEq`, `Model/Threads` |
| `yaml_parser.hpp` | `Model/Text`, `Model/Yaml` |
| `nanocdr.hpp`, `ros_msg_utils.*` | `Model/Cdr`, `Model/Ros`, `Model/RosOwn` |
| `pcl_conversion.*` | `Model/Pcl`, `Model/PclCloud`, `Model/Pcd` |
| `wasm_functions.cpp` | `Model/Wasm` |
| `cloudini_py/cloudini_decoder.py` | `Model/Python` (NumPy and wasmtime by assumption, text as bytes) |
| `cloudini_foxglove/src/PointCloudConverter.tsx` | `Model/Foxglove` |
| `tools/src/mcap_converter.cpp`, `mcap_cutter.cpp`, `mcap_header_inspector.cpp`, `pcd_to_cloudini_converter.cpp`, `cloudini_rosbag_converter.cpp`, `mcap_codec_benchmark.cpp` | `Model/Bench`, `Model/Mcap`, `Model/Inspector`, `Model/Pcd`, `Model/PcdTool`, `Model/Profile`, `Model/Bag`, `Model/BagTool` (also `benchmark_compression.py`), `Model/Cutter` |
| `cloudini_web/main.js` (`analyzeFile`) | `Model/Web` |
| `PointcloudDecoder` as an object with a history | `Model/Decoder` |
| `cloudini_py/decode_mcap.py` | `Model/PyMcap` |
| the output buffer when decode throws (cloudini.cpp, v4_codec.cpp, v5_codec.cpp) | `Model/Partial` |
| `contrib/ankerl/unordered_dense.h`: wyhash of 64-bit keys, constructor, clear, reserve, insert (allocation failures left out) | `Model/Dense` |
| the decoder with a 32-bit `size_t` (the WebAssembly target) | `Model/Word` |
| the encoder with a 32-bit `size_t` (the WebAssembly target) | `Model/WordEnc` |
| `cloudini_ros/src/*` | `Model/Plugin`, `Model/Pool`, `Model/Topic` |

Not modelled: the parts of `contrib/ankerl/unordered_dense.h` that the voxel filter does not call, `contrib/span.hpp` beyond pointer+length,
`ros_message_definitions.hpp` (string constants), the micro-benchmarks, tests, the Qt application (`qt_app`, in no build), the
HTML output of the web page (`analyzeFile` without it is modelled), console output, time, CPU scheduling fairness beyond
what C33 states, allocation failure, and CMake.

## 5. Findings

Each is a theorem of the manifest (name in brackets) unless marked (read).

1. `INT64_MIN` deltas encode to the NaN marker byte [C01_intMin_fails, C09_intMin_step_fails]; a 64-bit `value - prev` can overflow (UB in the model).
2. V5 RLE/DeltaRLE: `out_index + run_len` wraps, so a crafted chunk writes outside the buffer [C30_rle_wrap].
3. Truncated chunks are over-read by the V4 and V5 decoders [C30_overread, C30_overread_file, C30_v5_overread]; field offsets of a header are never validated [C30_offset_outside].
4. V5 adaptive fields ignore `kDecodeButSkipStore` [C31_adaptive_skip_fails, C31_adaptive_skip_ub].
5. The decompression limit can be smaller than the stage-1 data: small incompressible clouds that encode are rejected by decode [C46_small_cloud_rejected].
6. `MaxCompressedSize` is not a bound for V5 chunks [C22_v5_bound_too_small].
7. A binary header whose width is 10 mod 256 is read as YAML; names and configs of 64 KiB and more and nonpositive resolutions are lost [C25 family].
8. `EncodingInfoFromYAML(EncodingInfoToYAML(i))` yields the character code of the version digit; the wasm data path writes `CLOUDINI_V53` [C57_version_code, C57_undecodable].
9. YAML keeps six digits of a resolution; names with YAML characters and UNKNOWN types do not round-trip; subnormal resolutions make `stof` throw [C26 family].
10. `version = 2` encodes to data no decoder accepts; versions outside 2..5 are not rejected when encoding.
11. Version-2 data: endless loop with zero-size points [C87_hangs, C87_hang_file], extra points accepted [C19_version2_extra_points].
12. Vector lossy floats: |x/res| ≥ 2^31 decodes to INT_MIN·res [C11_vector_overflow]; the advertised half-step bound is false [C11_half_step_fails]; re-quantisation is unstable from 2^22 steps [C12_float32_fails]; infinite and NaN resolutions pass the checks.
13. Gorilla: crafted window makes the decoder shift by 64 or more.
14. ROS CDR: array size patched little-endian for big-endian CDR [C37_big_endian_fails]; `count`, `is_bigendian`, `row_step` not preserved [C37_count_dropped]; the nanocdr decoder reads 4 bytes before its size check [C36_short_header_fails].
15. PCD headers: several silent misreadings [C42_*]; INT64 PCD fields cannot be encoded [C53_int64_rejected].
16. `packVoxelKey21` collides outside ±2^20 [C40_outside_fails, C39_far_voxel_lost].
17. `encode` does not compare width·height with the data; a payload that starts with `CLOUDINI_V` is rejected [C18_magic]; V4 ignores trailing bytes of a chunk.
18. An exception in stage 1 leaves the worker running on a dead buffer [C35_abort_race, C34_abort_next_call].
19. LZ4: outputs with more than INT_MAX bytes left always throw [C64_lz4_large].
20. The vector encoder tests `1/res <= 0`, the decoder `res <= 0`.
21. Out-of-range option codes select inconsistent encoder/decoder pairs.
22. `PointcloudDecode<PointT>` keeps the encoded stride [C48_stride_mismatch].
23. `DecodeHeader` accepts non-digit version characters; `stoi` ignores trailing text [C28 family].
24. nanocdr: XCDRv2 flag mismatch [C36_version_flag_mismatch], strings of 2^32-1 bytes, unvalidated booleans.
25. `applyVizLossyPreprocessing` reads geometry offsets unvalidated [C39_offset_outside].
26. A moved-from `RosPointCloud2` keeps a dangling view [C41_moved_from_dangles].
27. The pool's deleter uses a destroyed subscriber [C45_outlives_ub]; recycled clouds keep stale headers [C45_stale_members].
28. `addProfile` does not roll back on error [C44 family].
29. `operator==` ignores version and config [C47_version_ignored] and is not reflexive for NaN resolutions.
30. `readUVarint` drops payload bits above 2^64 [C03_uvarint_exact].
31. wasm: a size mismatch overflows the caller's buffer [C56_overflow]; `DecodeCompressedMessage` lets exceptions escape [C54_decode_message_throws]; 0 is ambiguous [C56_zero_is_failure]; division by a zero point step [C54_zero_step_traps].
32. MCAP converter: drops channel metadata and attachments [C58_dropped]; schema-less channels are a null dereference [C58_schemaless_ub].
33. Size products wrap in `uint32_t` [C52_large, C61_large].
34. (read) `pcl_conversion.hpp` declares templates that are defined nowhere.
35. Resolutions ≤ 0 mean different things in different entry points [C52_zero_resolution].
36. The publisher plugin never sets `format`, so `ReadEncodingInfo` rejects its messages [C61_format_missing]; `is_bigendian` is dropped [C61_bigendian_lost].
37. The rosbag converter reads a profile file with `>>` and keeps the first word only.
38. `pcd_to_cloudini_converter` ignores `-e`, `-c`, `-i` [C74_options_ignored]; reports success when the device is full [C74_full_disk]; a batch returns 0 even if every file failed [C74_batch]; at the end of standard input the answer is an uninitialised variable [C74_no_answer].
39. `generateMetadataYaml` replaces type names and the file name anywhere in the text, prefixes included.
40. YAML reader: layouts that are lost [C60_deeper_lost, C60_flat_sequence_lost, C60_item_key_lost].
41. `CloudiniSubscriberPCL` never delivers empty clouds and forces `is_dense` [C63_empty_dropped, C63_dense_lost].
42. See 49 and 50.
43. Without SSE (ARM, WebAssembly) a NaN coordinate is undefined behaviour in the encoder, and halfway values are rounded differently [C67_nan_undefined, C67_bytes_differ]. With three coordinates even the unused fourth lane converts the four bytes at the start of the point, whatever field they belong to: undefined if their bits are a NaN or an infinity [C67_meaning_iff and its example].
44. The header prints resolutions with six significant digits: others are changed by up to six millionths and large values miss the promised accuracy [C68_third_file]; resolutions below 2^-126 make the file unreadable [C68_tiny_file].
45. A version-5 cloud with 65 UINT64 fields cannot be encoded at all, however large the output: the stage buffer allows 64 bytes per point for what the sizes of the fields do not count, delta run lengths need one byte per field [C18_many_fields].
46. `PointcloudEncode<PointT>` with resolution 0 writes a file nobody can decode: the constructor tests `1.0F / resolution <= 0`, which infinity passes, the decoder tests the resolution itself [C70_zero_lost]; the header also declares `PCLPointCloudEncode<PointT>`/`PCLPointCloudDecode<PointT>` but defines `PointcloudEncode`/`PointcloudDecode`.
47. Reading a file of PointXYZ as PointXYZI scrambles the points (stride of the file, not of the type) [C70_larger_type]; reading PointXYZI as PointXYZ always fails [C70_smaller_type].
48. The encoder accepts version 2 but frames its chunks; the decoder of version 2 expects one unframed chunk and takes the length for points [C71_version2_lost]. Headers are written for versions no decoder accepts [C71_unreadable_versions].
49. `cloudini_decoder.py`: INT64 and UINT64 are missing from its type table, such members arrive as one unsigned byte without any error [C72_wide_integers].
50. `cloudini_decoder.py`: the 4096-byte header block and the 32 MiB point block are handed to functions that do not know their sizes; a longer header text or a larger cloud is written past them, over whatever the WebAssembly heap holds next [C72_header_overflow, C72_cloud_overflow].
51. `cloudini_decoder.py`: an empty cloud raises an exception [C72_empty]; bytes outside the fields show clouds decoded earlier [C72_padding_leaks]; two fields of one name make the members disappear [C72_same_names].
52. `PointCloudConverter.tsx` allocates for the size the message announces and lets the decoder write the size the file announces: a larger file overwrites the heap [C73_overflow], a smaller one gives a message with too few bytes and only a warning on the console [C73_short_data].
53. `mcap_header_inspector` dereferences a null pointer for a channel without schema [C75_null_schema], prints a missing resolution as 1 [C75_resolution], prints points and bytes modulo 2^32 [C75_first], and gives up on a file that begins with an empty cloud [C75_empty_first].
54. The web page counts the messages of a topic once per channel with that topic [C76_counted_twice]; clouds it skips or that fail count in the original size only [C76_skipped]; `cloudini_wasm.js` is built without exception catching, so each message that throws leaks its block [C76_leak]; the result of `_malloc` is not tested [C76_no_memory].
55. One message the topic converter cannot convert ends its process with all nodes in it (nothing catches the exception) [C77_bad_message]; a node started before its publisher asks for reliable delivery and never hears a best-effort one [C77_late_publisher]; the log counts from 0 after the message and its counter is shared by all nodes of the process [C77_log, C77_second_silent].
56. `mcap_codec_benchmark`: a mode that fails on a cloud is still shown with that cloud's bytes as input and none as output, so that failing improves its ratio [C79_failures_flatter]; a message that declares more than it holds ends the tool, since the buffer is resized outside the `try` [C79_lying_message]; `--explain` divides by the point step of the first cloud even if it is 0 [C79_explain_zero_step]; the fingerprint of clouds with padding depends on earlier clouds [C79_fingerprint_history].
57. A decoder asks for the whole declared size (width·height·point_step, three numbers of the header) before it looks at the first chunk or at the output it was given, and keeps it: a header of 100 bytes can make it take, or fail to take, any amount of memory [C80_declared_first, C80_memory].
58. `decode_mcap.py --max-messages 0` shows all messages [C81_zero_is_all]; "Messages parsed" counts the messages that failed [C81_failures_counted]; a file without summary raises.
59. A decode that throws has already stored what came before the error: callers that catch the exception find a mixture of old and new points [C82_not_atomic]. What it stored is right: all points of the complete chunks [C82_truncated, C82_damaged].
60. The voxel filter reserves room for all points at once: with more than 3435973888 points the hash table shifts by 64 [C83_reserve_shift].
61. In the WebAssembly module `size_t` products wrap: a header with 2^32 points and no payload is accepted as a complete cloud; with 2^32 bytes the room test of a V5 chunk passes for a buffer of 0 bytes and a crafted file overwrites the module's memory [C84_points_wrap, C84_room_wraps, C84_wasm_corrupts].
62. In the WebAssembly module the stage buffer of the encoder has `32768 * point_step` bytes modulo 2^32: a PointCloud2 message whose points have 2^17 bytes makes `cldn_EncodePointcloudMessage` write outside an empty buffer [C85_stride_corrupts, C85_stride_reachable].
63. `cloudini_rosbag_converter` replaces the `metadata.yaml` of another bag in the output directory without `-y` and without asking [C88_metadata_unasked].
64. `cloudini_rosbag_converter -f name.mcap` (no directory part) in a directory with a `metadata.yaml` always ends by an uncaught exception (`canonical("")`), with `-o` too [C88_bare_name_aborts].
65. A conversion that breaks off has already truncated the output of an earlier run; refused runs leave new directories behind; a bag without clouds is a success without output; end of input at the question reads an unset variable [C88_failure_destroys, C88_refused_makes_directories, C88_success_without_output, C88_no_answer_undefined].
66. `benchmark_compression.py`: if `DATA` holds a `metadata.yaml` the outputs go to `DATA_encoded` while the script looks in the current directory: rows without ratio, or with the size of an old file, and a ZeroDivisionError in the summary; a bag without clouds gets the size of an old output [C89_metadata, C89_metadata_no_summary, C89_stale].
67. `mcap_cutter -f x.mcap -o x.mcap` truncates the input after reading its summary and before reading its messages, and ends with code 0; without `-o` the output goes to the current directory and replaces what is there; an input without clouds is reported as saved [C93_onto_itself, C93_overwrites, C93_success_without_output].
68. A coordinate of exactly -2^63 steps is written as the one byte of NaN: encode and decode succeed and the point comes back as NaN. Without quantised fields this cannot happen: whatever encode and decode both accept is exact [C96_lossy_fails, C96_exact_or_rejected].
69. `encode` takes as many points as it is handed bytes and never looks at width * height (cloudini.cpp 522-530); `decode` produces width * height points. A surplus inside the last chunk of 32768 is dropped without an error; in version 5 missing points may be invented from the padding bits of a palette section [C97_too_many, C97_v5_invents]. Without sections missing points are noticed [C97_too_few].
70. Fields may share bytes (nothing checks offsets against one another). If one of them is quantised, the result depends on the version: version 4 stores in the order of the fields, so an int32 that shares its bytes with a quantised float is destroyed; version 5 stores the quantised floats of the leading vector and the sections in another order and delivers the other value [C98_quantised_fails]. `rgb`/`rgba` with a resolution on `rgb` is such a description.
71. Packed colours do not survive: every tool with a default resolution sets it on every FLOAT32 field, so `rgb` is quantised like a coordinate: 0x00RRGGBB becomes black, 0xffRRGGBB with red of 128 or more becomes NaN, 0xffRRGGBB with less red overflows the conversion. A profile cannot exempt a field (0 removes it) [C99_colours_partial, C99_tools_quantise].
72. A number of 2^63 steps or more, or an infinity, in a float field outside the leading vector is undefined behaviour in `encode` (static_cast<int64_t> of an out of range float); in the leading vector it comes back as about -2^31 steps, without an error: +10^30 m at a millimetre returns as -2147 km [C100_never_encoded, C100_sign_lost_partial].
73. A float that is an exact multiple of the resolution comes back as its neighbour when it has many steps: 671744 = 2^24 * 41/1024 returns as 671743.96 [C102_many_steps_fail]. The encoder multiplies by a rounded reciprocal; a division would be exact.
74. The vector path rounds ties to even, the scalar path away from zero: what a coordinate comes back as depends on whether the cloud has a third float field: 0.5 at a resolution of 1 becomes 1 in a cloud with x and y, 0 in one with x, y and z [C104_fails].
75. Beyond the limit the errors of repeated compressions add up: 484675.71875 m at a millimetre loses 31.25 mm in each of ten trips [C105_drift].
76. Recompressing at a coarser resolution rounds twice: 1.4375 at 1/8 and then at 1 becomes 2, at 1 alone 1 [C107_not_direct].
