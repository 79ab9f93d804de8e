{"id": "C01", "title": "Signed varints round-trip", "statement": "For every 64-bit signed integer, decoding the bytes produced by encodeVarint64 - whatever bytes follow them in the buffer - returns exactly that integer and reports exactly the number of bytes that were written.", "quantifier": "all 2^64 values of the argument, all byte strings that may follow the encoding", "why_tests_cant": "2^64 values times arbitrary trailing bytes cannot be enumerated; the failing value (INT64_MIN) is one in 2^64.", "anchors": ["cloudini_lib/include/cloudini_lib/encoding_utils.hpp:encodeVarint64", "cloudini_lib/include/cloudini_lib/encoding_utils.hpp:decodeVarint"]}
{"id": "C02", "title": "The NaN marker is unambiguous and varints are short", "statement": "The encoding of a signed varint is 1 to 10 bytes long, and its first byte is never 0, so a leading 0 byte in a lossy float stream always means NaN and never a value.", "quantifier": "all 2^64 values", "why_tests_cant": "A single colliding value makes a number decode as NaN and desynchronises every later field; tests sample a few values.", "anchors": ["cloudini_lib/include/cloudini_lib/encoding_utils.hpp:encodeVarint64", "cloudini_lib/include/cloudini_lib/field_encoder.hpp:FieldEncoderFloat_Lossy::encode", "cloudini_lib/include/cloudini_lib/field_decoder.hpp:FieldDecoderFloat_Lossy::decode"]}
{"id": "C03", "title": "Varint decoding is total and bounded on arbitrary bytes", "statement": "On any byte buffer decodeVarint either throws or returns a value together with a consumed count between 1 and min(10, buffer size); it never reads beyond the buffer, the 1-byte and 2-byte fast paths give the same result the general loop would, and any strict prefix of a valid encoding is rejected.", "quantifier": "all byte buffers of all lengths", "why_tests_cant": "Fuzzing samples buffers; the statement covers every buffer, including over-long and overflowing encodings.", "anchors": ["cloudini_lib/include/cloudini_lib/encoding_utils.hpp:decodeVarint"]}
{"id": "C04", "title": "Fixed-width and string serialisation round-trips", "statement": "Writing an integer of 1, 2, 4 or 8 bytes (or a string shorter than 65536 bytes) and reading it back returns the same value and leaves the buffers advanced by exactly the same amount; writing into a buffer that is too small, or reading from one, throws and never touches memory outside it.", "quantifier": "all values, all strings, all buffer sizes", "why_tests_cant": "All value/size combinations, including the exact boundary sizes, must hold.", "anchors": ["cloudini_lib/include/cloudini_lib/encoding_utils.hpp:encode", "cloudini_lib/include/cloudini_lib/encoding_utils.hpp:decode"]}
{"id": "C05", "title": "Integer fields are lossless", "statement": "For every sequence of values of a 16-, 32- or 64-bit integer field, encoding the sequence and decoding it returns the same bits for every point; for 16- and 32-bit fields this needs no precondition at all.", "quantifier": "all sequences of field values of any length and any integer field type", "why_tests_cant": "Delta coding makes every value depend on the whole history; tests use a handful of sequences and never the wrap-around extremes.", "anchors": ["cloudini_lib/include/cloudini_lib/field_encoder.hpp:FieldEncoderInt", "cloudini_lib/include/cloudini_lib/field_decoder.hpp:FieldDecoderInt"]}
{"id": "C06", "title": "Byte-wide and copied fields are lossless", "statement": "INT8/UINT8 fields, every field under EncodingOptions::NONE, and FLOAT32 fields without a resolution in lossy mode come back bit for bit.", "quantifier": "all sequences of field values, all field types for which the copy path is chosen", "why_tests_cant": "The choice of path depends on the combination of type, option, resolution and version; tests cover few combinations.", "anchors": ["cloudini_lib/include/cloudini_lib/field_encoder.hpp:FieldEncoderCopy", "cloudini_lib/include/cloudini_lib/field_decoder.hpp:FieldDecoderCopy", "cloudini_lib/src/codec_common.cpp:CreateCompatibleEncoder", "cloudini_lib/src/v4_codec.cpp:BuildV4Encoders"]}
{"id": "C07", "title": "XOR float coding is bit-exact", "statement": "For every sequence of 32- or 64-bit float bit patterns (including NaN payloads, infinities, signed zeros and denormals) the XOR encoder and decoder reproduce each bit pattern exactly.", "quantifier": "all sequences of bit patterns of any length", "why_tests_cant": "Bit patterns and histories are unbounded.", "anchors": ["cloudini_lib/include/cloudini_lib/field_encoder.hpp:FieldEncoderFloat_XOR", "cloudini_lib/include/cloudini_lib/field_decoder.hpp:FieldDecoderFloat_XOR"]}
{"id": "C08", "title": "Gorilla float coding is bit-exact", "statement": "For every sequence of 64-bit (or 32-bit) float bit patterns, the Gorilla bit-packed encoder and decoder reproduce each pattern exactly, each call is byte aligned, and each call writes at most 10 bytes (6 for 32 bits).", "quantifier": "all sequences of bit patterns of any length, all window states", "why_tests_cant": "The encoding of a value depends on the XOR window left behind by earlier values; the state space is far too large to sample.", "anchors": ["cloudini_lib/include/cloudini_lib/field_encoder.hpp:FieldEncoderFloat_Gorilla", "cloudini_lib/include/cloudini_lib/field_decoder.hpp:FieldDecoderFloat_Gorilla"]}
{"id": "C09", "title": "Lossy decoding has no drift and no memory", "statement": "In lossy mode the value decoded for a point depends only on that point's own value and the field's resolution - it is dequantize(quantize(x)), or quiet NaN if x is NaN - never on any other point, although the wire format stores differences.", "quantifier": "all sequences of float values, all positions, all resolutions, both the scalar and the 3/4-lane vector path", "why_tests_cant": "Accumulated drift or a bad reset after NaN only shows on particular histories.", "anchors": ["cloudini_lib/include/cloudini_lib/field_encoder.hpp:FieldEncoderFloat_Lossy", "cloudini_lib/include/cloudini_lib/field_decoder.hpp:FieldDecoderFloat_Lossy", "cloudini_lib/src/field_encoder.cpp:FieldEncoderFloatN_Lossy::encode", "cloudini_lib/src/field_decoder.cpp:FieldDecoderFloatN_Lossy::decode"]}
{"id": "C10", "title": "NaN in, NaN out - and only there", "statement": "A lossy float field decodes to NaN at exactly the points where the input was NaN (for a finite resolution), and a NaN in one lane or field never changes the value decoded for another lane, field or point.", "quantifier": "all clouds with any pattern of NaNs", "why_tests_cant": "2^n NaN patterns per cloud.", "anchors": ["cloudini_lib/src/field_encoder.cpp:FieldEncoderFloatN_Lossy::encode", "cloudini_lib/src/field_decoder.cpp:FieldDecoderFloatN_Lossy::decode", "cloudini_lib/include/cloudini_lib/field_encoder.hpp:FieldEncoderFloat_Lossy::encode"]}
{"id": "C11", "title": "Quantisation error is bounded by the resolution", "statement": "For a finite value x and resolution r, the decoded value differs from x by at most half a resolution step plus the float rounding of the multiplications, as long as x/r fits the integer range used by the codec.", "quantifier": "all float values and positive resolutions in range (single lossy field and vector path)", "why_tests_cant": "2^32 values times 2^31 resolutions; the documented bound 0.5*resolution is itself not exact in float arithmetic.", "anchors": ["cloudini_lib/include/cloudini_lib/field_encoder.hpp:FieldEncoderFloat_Lossy::encode", "cloudini_lib/include/cloudini_lib/field_decoder.hpp:FieldDecoderFloat_Lossy::decode", "cloudini_lib/include/cloudini_lib/intrinsics.hpp:cast_vector4f_to_vector4i"]}
{"id": "C12", "title": "Re-encoding a decoded cloud is stable", "statement": "Compressing a cloud that was already decompressed with the same encoding info changes nothing more: the quantised integers, and so the values decoded the second time, are those of the first time.", "quantifier": "all clouds and resolutions within the exact-integer range of the float type", "why_tests_cant": "Holds or fails per value/resolution pair; needs an argument about rounding.", "anchors": ["cloudini_lib/include/cloudini_lib/field_encoder.hpp:FieldEncoderFloat_Lossy::encode", "cloudini_lib/include/cloudini_lib/field_decoder.hpp:FieldDecoderFloat_Lossy::decode"]}
{"id": "C13", "title": "V5 adaptive integer sections round-trip in every mode", "statement": "Whatever mode (delta varint, palette, run length, delta run length) the encoder commits to, the section it writes for a chunk decodes to exactly the values of that chunk and consumes exactly the section's bytes, whether the section was buffered or streamed.", "quantifier": "all value sequences up to the chunk size, all four modes, buffered and streamed", "why_tests_cant": "Mode choice is data dependent and sticky across chunks; tests exercise a few data sets per mode.", "anchors": ["cloudini_lib/src/v5_codec.cpp:appendCommittedAdaptiveIntSection", "cloudini_lib/src/v5_codec.cpp:appendCommittedValueToSection", "cloudini_lib/src/v5_codec.cpp:decodeV5AdaptiveIntSection"]}
{"id": "C14", "title": "Streaming and buffering write identical sections", "statement": "For the same values and committed mode, the section written incrementally point by point equals the section written from the complete buffered vector.", "quantifier": "all value sequences, all modes, all split points between probe and streamed values", "why_tests_cant": "Two independent implementations of the same format must agree on every input.", "anchors": ["cloudini_lib/src/v5_codec.cpp:appendRleValue", "cloudini_lib/src/v5_codec.cpp:appendDeltaRleValue", "cloudini_lib/src/v5_codec.cpp:appendRleSection", "cloudini_lib/src/v5_codec.cpp:appendDeltaRleSection", "cloudini_lib/src/v5_codec.cpp:appendDeltaVarintSection"]}
{"id": "C15", "title": "Palette construction is exact and terminates", "statement": "Building a palette always terminates, lists each distinct value exactly once in order of first appearance, and maps every value to its index - whatever the hash function does and however often the table was reused by earlier chunks.", "quantifier": "all value sequences, all hash functions, all histories of table reuse including generation wrap-around", "why_tests_cant": "Collisions, stale slots and generation wrap after 2^32 chunks cannot be provoked by tests.", "anchors": ["cloudini_lib/src/v5_codec.cpp:preparePaletteTable", "cloudini_lib/src/v5_codec.cpp:addPaletteValue", "cloudini_lib/src/v5_codec.cpp:buildPaletteIndexes"]}
{"id": "C16", "title": "Palette indexes bit-pack losslessly", "statement": "For every index width from 0 to 32 bits and every sequence of indexes below 2^bits, packing and unpacking returns the same indexes and uses exactly ceil(bits*n/8) bytes; the width chosen for a palette always suffices.", "quantifier": "all widths, all sequences", "why_tests_cant": "All widths and alignments of the bit cursor.", "anchors": ["cloudini_lib/src/v5_codec.cpp:bitsForPaletteIndex", "cloudini_lib/src/v5_codec.cpp:appendBitpackedIndexes", "cloudini_lib/src/v5_codec.cpp:readBitpackedIndex"]}
{"id": "C17", "title": "The chosen adaptive mode is never larger than delta varint, and size estimates are exact", "statement": "The byte count used to compare modes equals the length of the section that mode would really write for the probed values, and the selected mode has the minimum of the four (earliest in the order delta, palette, RLE, delta-RLE on ties).", "quantifier": "all probe sequences", "why_tests_cant": "An off-by-one in an estimator is invisible in round-trip tests.", "anchors": ["cloudini_lib/src/v5_codec.cpp:selectBestAdaptiveIntMode", "cloudini_lib/src/v5_codec.cpp:encodedDeltaVarintSectionSize", "cloudini_lib/src/v5_codec.cpp:encodedPaletteSectionSize", "cloudini_lib/src/v5_codec.cpp:encodedRleSectionSize", "cloudini_lib/src/v5_codec.cpp:encodedDeltaRleSectionSize"]}
{"id": "C18", "title": "A whole cloud survives encode + decode", "statement": "For every valid EncodingInfo (versions 3 to 5, fields inside the point) and every cloud of width*height points, decoding the encoder's payload with the same info yields, for each point and field, the original bits (lossless kinds) or the independently quantised value (lossy kinds), for any number of points, chunks and fields.", "quantifier": "all infos, all clouds of any size, all encoding options, compression NONE or any lossless stage-2 compressor", "why_tests_cant": "Number of fields, types, options, chunks and points is unbounded.", "anchors": ["cloudini_lib/src/cloudini.cpp:PointcloudEncoder::encode", "cloudini_lib/src/cloudini.cpp:PointcloudDecoder::decode", "cloudini_lib/src/v4_codec.cpp:EncodeV4Stage1Chunk", "cloudini_lib/src/v4_codec.cpp:DecodeV4Stage1Chunk", "cloudini_lib/src/v5_codec.cpp:EncodeV5Stage1", "cloudini_lib/src/v5_codec.cpp:DecodeV5Stage1Chunk"]}
{"id": "C19", "title": "Bytes outside the declared fields are never touched by decode", "statement": "Decoding writes only the byte ranges of declared fields of declared points; padding bytes and bytes beyond width*height*point_step keep the value they had in the caller's buffer.", "quantifier": "all infos with fields inside the point, all clouds, all initial buffer contents", "why_tests_cant": "Requires checking every byte of every buffer for every layout.", "anchors": ["cloudini_lib/src/v4_codec.cpp:DecodeV4Stage1Chunk", "cloudini_lib/src/v5_codec.cpp:DecodeV5Stage1Chunk", "cloudini_lib/include/cloudini_lib/field_decoder.hpp:FieldDecoder::decode"]}
{"id": "C20", "title": "Chunks are independent", "statement": "Every 32768-point chunk decodes to the same points regardless of which chunks precede it: encoder and decoder history is reset at chunk boundaries, so encoding a cloud equals concatenating the chunk encodings of its parts (except for the V5 mode choice, which does not affect decoded values).", "quantifier": "all clouds with any number of chunks", "why_tests_cant": "Clouds above 32768 points with special histories at the boundary are rarely tested.", "anchors": ["cloudini_lib/src/v4_codec.cpp:EncodeV4Stage1Chunk", "cloudini_lib/src/v5_codec.cpp:EncodeV5Stage1", "cloudini_lib/src/codec_common.cpp:ResetEncoders", "cloudini_lib/src/codec_common.cpp:ResetDecoders"]}
{"id": "C21", "title": "The encoder never writes outside its buffers", "statement": "With the fields inside the point, encoding never writes past the end of its internal stage buffer nor past the caller's output view, for every cloud whose fields fit their point.", "quantifier": "all infos, all clouds", "why_tests_cant": "Worst-case expansion depends on data; overflow by one byte happens only for specific values.", "anchors": ["cloudini_lib/src/cloudini.cpp:PointcloudEncoder::encode", "cloudini_lib/src/codec_common.cpp:MaxSerializedFieldSize", "cloudini_lib/src/v5_codec.cpp:V5StageBufferSize"]}
{"id": "C22", "title": "MaxCompressedSize is an upper bound", "statement": "An output buffer of MaxCompressedSize bytes always suffices: encoding into it never fails for lack of space, for every cloud of the given number of points.", "quantifier": "all infos, all point counts, all cloud contents", "why_tests_cant": "The bound must hold for adversarial data; V5 delta-RLE sections can exceed it only on very specific multi-chunk data.", "anchors": ["cloudini_lib/src/cloudini.cpp:MaxCompressedSize", "cloudini_lib/src/codec_common.cpp:MaxSerializedPointSize", "cloudini_lib/src/v5_codec.cpp:beginCommittedAdaptiveIntSection"]}
{"id": "C23", "title": "The returned size is the number of bytes written, and both encode overloads agree", "statement": "encode returns exactly the number of bytes it produced; the vector overload's output equals the header followed by the payload the view overload writes, and the vector is resized to that length.", "quantifier": "all infos and clouds", "why_tests_cant": "Must hold for all inputs; tests compare a few.", "anchors": ["cloudini_lib/src/cloudini.cpp:PointcloudEncoder::encode"]}
{"id": "C24", "title": "An encoder object can be reused", "statement": "Encoding a cloud with an encoder that has already encoded any sequence of other clouds produces the same bytes as with a fresh encoder.", "quantifier": "all histories of previous encode calls", "why_tests_cant": "Histories are unbounded; leaked delta state only shows for specific histories.", "anchors": ["cloudini_lib/src/cloudini.cpp:PointcloudEncoder::encode", "cloudini_lib/src/v4_codec.cpp:EncodeV4Stage1Chunk", "cloudini_lib/src/v5_codec.cpp:buildV5Plan"]}
{"id": "C25", "title": "Binary headers round-trip", "statement": "DecodeHeader(EncodeHeader(info, BINARY)) returns the same version, dimensions, options and fields and leaves exactly the payload unread, whatever payload follows.", "quantifier": "all infos, all payloads", "why_tests_cant": "Field names, counts and values are unbounded; the one failing width in 256 is easily missed.", "anchors": ["cloudini_lib/src/cloudini.cpp:EncodeHeader", "cloudini_lib/src/cloudini.cpp:DecodeHeader", "cloudini_lib/src/cloudini.cpp:ComputeHeaderSize"]}
{"id": "C26", "title": "YAML headers round-trip", "statement": "DecodeHeader(EncodeHeader(info, YAML)) returns the same info (version, dimensions, options, field names, offsets, types) and leaves exactly the payload unread, whatever payload follows.", "quantifier": "all infos with plain field names, all payloads", "why_tests_cant": "Text parsing with unbounded names and numbers.", "anchors": ["cloudini_lib/src/cloudini.cpp:EncodingInfoToYAML", "cloudini_lib/src/cloudini.cpp:EncodingInfoFromYAML", "cloudini_lib/src/cloudini.cpp:DecodeHeader", "cloudini_lib/include/cloudini_lib/yaml_parser.hpp:Parser"]}
{"id": "C27", "title": "Only supported versions and the right magic are accepted", "statement": "DecodeHeader throws unless the input starts with the magic text followed by a version in 2..5; for inputs it accepts, the version reported is the one written in the magic line, whatever the rest of the header says.", "quantifier": "all byte strings", "why_tests_cant": "All byte strings.", "anchors": ["cloudini_lib/src/cloudini.cpp:DecodeHeader"]}
{"id": "C28", "title": "Option names round-trip", "statement": "For each EncodingOptions, CompressionOption and FieldType value with a name, FromString(ToString(x)) = x, names of distinct values differ, and a name that is neither a listed name nor a number in range is rejected.", "quantifier": "all enum values, all strings", "why_tests_cant": "The rejection half quantifies over all strings.", "anchors": ["cloudini_lib/src/cloudini.cpp:ToString", "cloudini_lib/src/cloudini.cpp:EncodingOptionsFromString", "cloudini_lib/src/cloudini.cpp:FieldTypeFromString", "cloudini_lib/src/cloudini.cpp:CompressionOptionFromString"]}
{"id": "C29", "title": "Malformed framing is rejected", "statement": "Decoding a payload with a missing final chunk, an extra chunk, a chunk length that exceeds the remaining bytes, or a truncated length field throws; a payload is accepted only if it consists of exactly ceil(points/32768) length-prefixed chunks.", "quantifier": "all payload byte strings, all infos of version 3 or later", "why_tests_cant": "All byte strings.", "anchors": ["cloudini_lib/src/cloudini.cpp:PointcloudDecoder::decode"]}
{"id": "C30", "title": "Decoding arbitrary bytes is memory safe", "statement": "For any header and payload bytes, decoding into a buffer of width*height*point_step bytes either fills it or throws, and never reads outside the payload or writes outside the buffer.", "quantifier": "all payloads and all infos accepted by DecodeHeader", "why_tests_cant": "Fuzzing cannot show absence; the failing inputs are crafted.", "anchors": ["cloudini_lib/src/cloudini.cpp:PointcloudDecoder::decode", "cloudini_lib/include/cloudini_lib/field_decoder.hpp:FieldDecoder", "cloudini_lib/src/v5_codec.cpp:decodeV5AdaptiveIntSection"]}
{"id": "C31", "title": "Skipped fields are decoded but not stored", "statement": "Setting a field's offset to the reserved skip value makes decode leave no trace of that field while all other fields decode exactly as before.", "quantifier": "all infos, all subsets of skipped fields, all clouds", "why_tests_cant": "Subsets of fields times data.", "anchors": ["cloudini_lib/include/cloudini_lib/basic_types.hpp:kDecodeButSkipStore", "cloudini_lib/include/cloudini_lib/field_decoder.hpp:FieldDecoder", "cloudini_lib/include/cloudini_lib/pcl_conversion.hpp:PointcloudDecode", "cloudini_lib/src/v5_codec.cpp:decodeV5AdaptiveIntSection"]}
{"id": "C32", "title": "Threaded compression gives the same bytes as sequential compression", "statement": "With a worker thread, the payload bytes and the returned size equal those of the single-threaded path, for every interleaving of the two threads.", "quantifier": "all interleavings, all chunk sequences, spurious wake-ups included", "why_tests_cant": "Schedules cannot be enumerated by tests; a lost hand-over shows only on rare interleavings.", "anchors": ["cloudini_lib/src/cloudini.cpp:PointcloudEncoder::compressionWorker", "cloudini_lib/src/cloudini.cpp:PointcloudEncoder::waitForCompressionComplete", "cloudini_lib/src/cloudini.cpp:PointcloudEncoder::encode"]}
{"id": "C33", "title": "Threaded encoding never deadlocks", "statement": "From every reachable state of the encoder and its worker some thread can make progress until encode returns, and destroying the encoder always lets the worker exit and joins it.", "quantifier": "all interleavings, all numbers of chunks and calls", "why_tests_cant": "Absence of deadlock is a statement about all schedules.", "anchors": ["cloudini_lib/src/cloudini.cpp:PointcloudEncoder::compressionWorker", "cloudini_lib/src/cloudini.cpp:PointcloudEncoder::~PointcloudEncoder"]}
{"id": "C34", "title": "A compression failure in the worker reaches the caller and the encoder stays usable", "statement": "If compressing a chunk fails in the worker, the current encode call throws that failure (it never returns success and never hangs), and a later encode call on the same object behaves like one on a fresh encoder.", "quantifier": "all interleavings, all failing chunk positions, all later calls", "why_tests_cant": "Failures inside the worker cannot be injected at each point of each schedule by tests.", "anchors": ["cloudini_lib/src/cloudini.cpp:PointcloudEncoder::compressionWorker", "cloudini_lib/src/cloudini.cpp:PointcloudEncoder::encode"]}
{"id": "C35", "title": "No data race on the hand-over buffers", "statement": "The stage buffer being filled by the caller is never the buffer being read by the worker, and the output cursor is never advanced by both at once.", "quantifier": "all interleavings", "why_tests_cant": "Races need rare schedules.", "anchors": ["cloudini_lib/src/cloudini.cpp:PointcloudEncoder::encode", "cloudini_lib/src/cloudini.cpp:PointcloudEncoder::compressionWorker"]}
{"id": "C36", "title": "CDR primitives round-trip with correct alignment", "statement": "Encoding any sequence of primitive values, strings and byte vectors with the CDR encoder and decoding it with the CDR decoder for the same header returns the same values, every primitive lies at an offset that is a multiple of its alignment, and a truncated buffer is rejected.", "quantifier": "all sequences of values, both endiannesses, CDR and XCDR2 alignments", "why_tests_cant": "Sequences of heterogeneous values are unbounded.", "anchors": ["cloudini_lib/include/cloudini_lib/contrib/nanocdr.hpp:Encoder", "cloudini_lib/include/cloudini_lib/contrib/nanocdr.hpp:Decoder"]}
{"id": "C37", "title": "ROS message compression preserves the metadata and data", "statement": "Converting a PointCloud2 DDS message to CompressedPointCloud2 and back preserves stamp, frame id, height, width, fields, point_step, is_dense and the (quantised) data, whatever the frame id and fields.", "quantifier": "all messages", "why_tests_cant": "Strings, field lists and payloads are unbounded.", "anchors": ["cloudini_lib/src/ros_msg_utils.cpp:convertPointCloud2ToCompressedCloud", "cloudini_lib/src/ros_msg_utils.cpp:convertCompressedCloudToPointCloud2", "cloudini_lib/src/ros_msg_utils.cpp:readPointCloud2MessageCommon", "cloudini_lib/src/ros_msg_utils.cpp:writePointCloudHeader"]}
{"id": "C38", "title": "Resolution profiles select exactly the named fields", "statement": "applyResolutionProfile removes exactly the fields with profile value 0, gives each remaining named field the profile's resolution, gives unnamed FLOAT32 fields the default if one is given, keeps everything else, and preserves order.", "quantifier": "all field lists, all profiles, with and without default", "why_tests_cant": "Arbitrary lists and profiles.", "anchors": ["cloudini_lib/src/ros_msg_utils.cpp:applyResolutionProfile"]}
{"id": "C39", "title": "Visualisation preprocessing keeps a faithful subset", "statement": "The visualisation filter outputs a subsequence of the input points, in order and byte for byte: a point is kept exactly when its coordinates are finite and no earlier finite point has the same voxel key; so at least one point per occupied voxel and at most one per key survives. A cloud without geometry triple is left alone.", "quantifier": "all clouds, all resolutions, all point layouts", "why_tests_cant": "Arbitrary clouds; key packing collides only far from the origin.", "anchors": ["cloudini_lib/src/ros_msg_utils.cpp:applyVizLossyPreprocessing", "cloudini_lib/src/ros_msg_utils.cpp:packVoxelKey21"]}
{"id": "C40", "title": "Voxel keys are injective on the representable range", "statement": "Two points get the same packed voxel key only if their quantised coordinates are equal.", "quantifier": "all triples of quantised coordinates", "why_tests_cant": "Triples of 64-bit integers.", "anchors": ["cloudini_lib/src/ros_msg_utils.cpp:packVoxelKey21"]}
{"id": "C41", "title": "Copying or moving a RosPointCloud2 keeps its data view valid", "statement": "After any sequence of copies, moves and assignments, an object that owned its buffer refers to its own storage with unchanged content, and one that viewed external data still refers to that data.", "quantifier": "all sequences of copy/move operations", "why_tests_cant": "Operation histories; a dangling view is silent until reuse.", "anchors": ["cloudini_lib/include/cloudini_lib/ros_msg_utils.hpp:RosPointCloud2"]}
{"id": "C42", "title": "PCD headers and PCL clouds are mapped to consistent infos", "statement": "For each well-formed PCD header, each listed field gets the type its size and type letter say and no other field gets one; headers whose FIELDS, SIZE and TYPE lines disagree are rejected; reading ends for every file. The info of a PCL cloud has its dimensions, and one field per field of the cloud with its name, offset and type.", "quantifier": "all header texts, all field lists", "why_tests_cant": "Field lists are unbounded.", "anchors": ["cloudini_lib/src/pcl_conversion.cpp:ReadEncodingInfoFromPCD", "cloudini_lib/src/pcl_conversion.cpp:splitString", "cloudini_lib/src/pcl_conversion.cpp:ConvertToEncodingInfo"]}
{"id": "C43", "title": "YAML parsing terminates on every input", "statement": "YAML::parse terminates on every text, without reading past it.", "quantifier": "all texts", "why_tests_cant": "Termination is a statement about all inputs.", "anchors": ["cloudini_lib/include/cloudini_lib/yaml_parser.hpp:Parser::parseNode", "cloudini_lib/include/cloudini_lib/yaml_parser.hpp:Parser::parseSequence", "cloudini_lib/include/cloudini_lib/yaml_parser.hpp:Parser::parseMapping"]}
{"id": "C44", "title": "MCAP resolution profiles parse and print consistently", "statement": "A profile string is accepted exactly if it is a sequence of field:value entries separated by semicolons; afterwards each field has the resolution of the last entry that speaks of it (xyz: of x, y and z). A rejected string changes nothing. Listing the profile gives every entry once.", "quantifier": "all profile strings", "why_tests_cant": "All strings.", "anchors": ["cloudini_lib/tools/src/mcap_converter.cpp:McapConverter::addProfile", "cloudini_lib/tools/src/mcap_converter.cpp:McapConverter::getProfile"]}
{"id": "C45", "title": "The subscriber object pool never hands out a cloud in use", "statement": "A cloud handed out by the pool is not referenced by anybody, has no data and no fields; a referenced cloud is never changed or freed by others; the pool never grows beyond its limit; nothing leaks; releasing a cloud is always safe.", "quantifier": "all interleavings of acquire, use, copy and release of references and destruction of the subscriber", "why_tests_cant": "Histories.", "anchors": ["cloudini_ros/src/cloudini_subscriber_pcl.cpp"]}
{"id": "C46", "title": "A compressed cloud that the encoder produced is never rejected by the decoder for its size", "statement": "The decompression limit used by the decoder is at least the size of any stage-1 chunk the encoder may have produced for the same info.", "quantifier": "all infos, all clouds", "why_tests_cant": "Only expanding data (small, incompressible clouds) hits it.", "anchors": ["cloudini_lib/src/cloudini.cpp:PointcloudDecoder::decodeChunk", "cloudini_lib/src/codec_common.cpp:DecompressChunk"]}
{"id": "C47", "title": "Info equality is an equivalence that covers the wire-relevant fields", "statement": "EncodingInfo operator== is symmetric and transitive, reflexive for infos without NaN resolution, and holds exactly when both infos have the same fields, dimensions and options.", "quantifier": "all infos", "why_tests_cant": "All pairs and triples of infos.", "anchors": ["cloudini_lib/include/cloudini_lib/cloudini.hpp:EncodingInfo::operator==", "cloudini_lib/include/cloudini_lib/basic_types.hpp:PointField::operator=="]}
{"id": "C48", "title": "Decoding into a different point layout matches fields by name", "statement": "PointcloudDecode into a PCL point type stores each encoded field at the offset of the equally named field of the target type, skips fields the target lacks, and leaves unmatched target fields at their initial value.", "quantifier": "all source and target layouts", "why_tests_cant": "All pairs of layouts.", "anchors": ["cloudini_lib/include/cloudini_lib/pcl_conversion.hpp:PointcloudDecode"]}
{"id": "C49", "title": "A successful decode overwrites every declared field; nothing left in the output buffer survives", "statement": "For every info of version 3 or later and every payload: if decode accepts the payload into one output buffer, it accepts it into every other buffer of the same size, and both then hold the same byte at every position of a stored field of a declared point. Acceptance and decoded values are a function of the payload alone.", "quantifier": "all infos, all payloads (valid or hostile), all pairs of output buffers", "why_tests_cant": "A test decodes into one buffer; a decoder that leaves some point of some section unwritten shows only for particular payloads and particular previous contents.", "anchors": ["cloudini_lib/src/cloudini.cpp:PointcloudDecoder::decode", "cloudini_lib/src/v5_codec.cpp:decodeV5AdaptiveIntSection", "cloudini_lib/src/v4_codec.cpp:DecodeV4Stage1Chunk"]}
{"id": "C50", "title": "Bytes behind the last point of a chunk are refused by the version-5 codec and ignored by the other", "statement": "If a payload is accepted and any one of its chunks is replaced by one that expands to the same stage-1 bytes followed by more bytes, then decode throws if the version-5 codec is in use, and returns the same output otherwise; no accepted version-5 chunk is a proper prefix of another.", "quantifier": "all infos, payloads, chunk positions and trailing bytes", "why_tests_cant": "Ranges over all accepted payloads and all continuations.", "anchors": ["cloudini_lib/src/v5_codec.cpp:DecodeV5Stage1Chunk", "cloudini_lib/src/v4_codec.cpp:DecodeV4Stage1Chunk"]}
{"id": "C51", "title": "decode never succeeds into an output that is too small for the declared points", "statement": "For every info of version 3 or later and every payload, valid or hostile: if the output buffer has fewer than width*height*point_step bytes (exact product, no wrap-around) then decode does not return normally.", "quantifier": "all infos, payloads and output sizes", "why_tests_cant": "Ranges over all payloads and sizes, in particular products beyond 2^32.", "anchors": ["cloudini_lib/src/cloudini.cpp:PointcloudDecoder::decode", "cloudini_lib/src/v4_codec.cpp:DecodeV4Stage1Chunk", "cloudini_lib/src/v5_codec.cpp:DecodeV5Stage1Chunk"]}
{"id": "C52", "title": "PCL clouds survive PCLPointCloudEncode and PCLPointCloudDecode", "statement": "Encoding a pcl::PCLPointCloud2 and decoding the bytes into any PCLPointCloud2 gives the same width, height, point step and fields, and data in which every field of every point has the value the codec promises; fields of a type the library does not know are rejected.", "quantifier": "all clouds, resolutions and previous contents of the target", "why_tests_cant": "All layouts, values and sizes, in particular sizes whose 32-bit product wraps.", "anchors": ["cloudini_lib/src/pcl_conversion.cpp:PCLPointCloudEncode", "cloudini_lib/src/pcl_conversion.cpp:PCLPointCloudDecode", "cloudini_lib/src/pcl_conversion.cpp:ConvertToEncodingInfo"]}
{"id": "C53", "title": "Encoding a PCD file takes the 64-bit types from the file's header", "statement": "PCLPointCloudEncode on a PCD file uses, for the fields whose type PCL does not know, the type the header of the file gives, so that UINT64 and INT64 fields are encoded and decode to the values PCL loaded; a field without a known type is rejected.", "quantifier": "all files and loaded clouds", "why_tests_cant": "All headers and layouts.", "anchors": ["cloudini_lib/src/pcl_conversion.cpp:PCLPointCloudEncode", "cloudini_lib/src/pcl_conversion.cpp:ReadEncodingInfoFromPCD"]}
{"id": "C54", "title": "The WebAssembly functions neither throw nor write outside the room the caller knows of", "statement": "For every input no exported function ends with an exception or a trap; cldn_EncodePointcloudMessage returns the number of bytes it wrote and that is at most the size of the message; cldn_EncodePointcloudData at most the size of the cloud; cldn_ComputeCompressedSize announces the size the encoder will return.", "quantifier": "all byte strings, resolutions, compressors", "why_tests_cant": "All malformed and well-formed messages, all sizes.", "anchors": ["cloudini_lib/src/wasm_functions.cpp:cldn_EncodePointcloudMessage", "cloudini_lib/src/wasm_functions.cpp:cldn_EncodePointcloudData", "cloudini_lib/src/wasm_functions.cpp:cldn_ComputeCompressedSize", "cloudini_lib/src/wasm_functions.cpp:cldn_DecodeCompressedMessage"]}
{"id": "C55", "title": "Messages survive cldn_EncodePointcloudMessage and cldn_DecodeCompressedData", "statement": "When cldn_EncodePointcloudMessage succeeds, cldn_DecodeCompressedData on the bytes it wrote returns the size of the message's cloud and puts at the output address a cloud in which every field of every point has the value the codec promises; bytes outside the fields keep what was there.", "quantifier": "all messages, resolutions and memories", "why_tests_cant": "All layouts and values.", "anchors": ["cloudini_lib/src/wasm_functions.cpp:cldn_EncodePointcloudMessage", "cloudini_lib/src/wasm_functions.cpp:cldn_DecodeCompressedData"]}
{"id": "C56", "title": "cldn_GetDecompressedSize is the room cldn_DecodeCompressedMessage needs", "statement": "For every message, decoding writes at most the number of bytes cldn_GetDecompressedSize returned and returns that number; 0 means failure.", "quantifier": "all compressed messages", "why_tests_cant": "All messages, including ones whose own size disagrees with the data they contain.", "anchors": ["cloudini_lib/src/wasm_functions.cpp:cldn_GetDecompressedSize", "cloudini_lib/src/wasm_functions.cpp:cldn_DecodeCompressedMessage", "cloudini_lib/src/wasm_functions.cpp:cldn_DecodeCompressedData", "cloudini_foxglove/src/PointCloudConverter.tsx"]}
{"id": "C57", "title": "The YAML header of the WebAssembly interface can be used to encode", "statement": "cldn_GetHeaderAsYAML returns the description of the file as YAML; cldn_EncodePointcloudData given such a text produces data that cldn_DecodeCompressedData decodes.", "quantifier": "all descriptions and clouds", "why_tests_cant": "All descriptions.", "anchors": ["cloudini_lib/src/wasm_functions.cpp:cldn_GetHeaderAsYAML", "cloudini_lib/src/wasm_functions.cpp:cldn_EncodePointcloudData", "cloudini_lib/src/cloudini.cpp:EncodingInfoFromYAML", "cloudini_lib/src/cloudini.cpp:EncodingInfoToYAML"]}
{"id": "C58", "title": "Converting an MCAP file loses nothing but cloud precision", "statement": "Encoding (or decoding) an MCAP file writes a file with the same profile, channels and messages in the same order; every message that is not a cloud is delivered exactly as before (topic, type, encodings, times, sequence number, bytes), every cloud under the same topic, times and sequence number as the conversion of its bytes; decoding an encoded file gives each cloud back with the values the codec promises; everything else in the file (channel metadata, attachments) is kept.", "quantifier": "all files: any channels, schemas, ids and messages, any options and compressors", "why_tests_cant": "All files and interleavings of channels.", "anchors": ["cloudini_lib/tools/src/mcap_converter.cpp:McapConverter::open", "cloudini_lib/tools/src/mcap_converter.cpp:duplicateSchemasAndChannels", "cloudini_lib/tools/src/mcap_converter.cpp:encodePointClouds", "cloudini_lib/tools/src/mcap_converter.cpp:decodePointClouds"]}
{"id": "C59", "title": "Cutting an MCAP file keeps the first clouds of every topic", "statement": "The cutter writes, in order, exactly the PointCloud2 messages that have less than N messages of their channel before them, each with its topic, times, sequence number and bytes, so that of every cloud channel min(N, what it has) messages remain; it writes nothing exactly when the file has no cloud channel.", "quantifier": "all files and limits", "why_tests_cant": "All files and interleavings of channels.", "anchors": ["cloudini_lib/tools/src/mcap_cutter.cpp:cut"]}
{"id": "C60", "title": "The YAML reader reads documents, whatever their layout", "statement": "A document of nested mappings and sequences written with two columns of indentation per level is read back as what it is; empty lines, comments, trailing white space and writing a tab as four blanks never change the result, which depends only on the lines that say something.", "quantifier": "all documents of any depth and all texts", "why_tests_cant": "All documents, depths, and places for comments.", "anchors": ["cloudini_lib/include/cloudini_lib/yaml_parser.hpp:Parser::parseNode", "cloudini_lib/include/cloudini_lib/yaml_parser.hpp:Parser::parseSequence", "cloudini_lib/include/cloudini_lib/yaml_parser.hpp:Parser::parseMapping", "cloudini_lib/include/cloudini_lib/yaml_parser.hpp:Parser::trim", "cloudini_lib/include/cloudini_lib/yaml_parser.hpp:Parser::getIndentation"]}
{"id": "C61", "title": "Transport plugins: what is published is what is received", "statement": "A PointCloud2 message encoded by the publisher plugin and decoded by the subscriber plugin has the same header, dimensions, fields, steps and density, and in every point the values the codec promises; the subscriber returns a cloud only if the message's members agree with the description inside its data, and then the data has exactly width*height*point_step bytes.", "quantifier": "all messages, resolutions, and (for the check) all byte strings in place of the compressed data", "why_tests_cant": "All messages and all corrupted messages.", "anchors": ["cloudini_ros/src/cloudini_publisher_plugin.cpp:CloudiniPublisher::encodeTyped", "cloudini_ros/src/cloudini_subscriber_plugin.cpp:CloudiniSubscriber::decodeTyped", "cloudini_ros/src/conversion_utils.cpp:ConvertToEncodingInfo", "cloudini_ros/src/conversion_utils.cpp:ReadEncodingInfo"]}
{"id": "C62", "title": "Conversion helpers and topic converter", "statement": "SerializeCompressedPointCloud2 encodes with the description the plugin uses, and its bytes, like those of a compressing topic converter, become the original message again (members and promised values) when decompressed by the library or by a decompressing topic converter.", "quantifier": "all messages and resolutions", "why_tests_cant": "All messages.", "anchors": ["cloudini_ros/src/conversion_utils.cpp:ConvertToRosPointCloud2", "cloudini_ros/src/conversion_utils.cpp:SerializeCompressedPointCloud2", "cloudini_ros/src/conversion_utils.cpp:ConvertToEncodingInfo", "cloudini_ros/src/topic_converter.cpp:CloudiniPointcloudConverter::callback"]}
{"id": "C63", "title": "PCL subscriber: every compressed message reaches the callback as the cloud it holds", "statement": "For every compressed message made by the library, CloudiniSubscriberPCL calls the user's callback with a cloud of the message's dimensions, fields and promised values (and density).", "quantifier": "all messages", "why_tests_cant": "All messages, including empty clouds.", "anchors": ["cloudini_ros/src/cloudini_subscriber_pcl.cpp:CloudiniSubscriberPCL::messageCallback", "cloudini_lib/src/pcl_conversion.cpp:PCLPointCloudDecode"]}
{"id": "C64", "title": "The output buffer: extra room never changes the result", "statement": "If encoding succeeds into an output of some size, it succeeds into every larger one with the same bytes, the same returned size and the same encoder state; into an output smaller than the announced worst case it throws before writing; and the overload that fills a vector produces the bytes the overload that fills a caller's buffer produces.", "quantifier": "all encoders, clouds, output sizes, with and without a header", "why_tests_cant": "All output sizes at once.", "anchors": ["cloudini_lib/src/cloudini.cpp:PointcloudEncoder::encode", "cloudini_lib/src/cloudini.cpp:MaxCompressedSize", "cloudini_lib/src/codec_common.cpp:CompressChunk"]}
{"id": "C65", "title": "Bag converter: metadata changes only in types and file names", "statement": "The metadata.yaml written beside a converted bag is the original text with the topic type of every converted topic and the name of the bag file replaced and nothing else changed; converting back restores the text.", "quantifier": "all metadata texts and file names", "why_tests_cant": "All texts, including types and names that contain one another.", "anchors": ["cloudini_lib/tools/src/cloudini_rosbag_converter.cpp:generateMetadataYaml", "cloudini_lib/tools/src/cloudini_rosbag_converter.cpp:replaceAll"]}
{"id": "C66", "title": "Bag converter: the input is never overwritten, and a profile means the same in a file", "statement": "A run never writes into the directory of the bag it reads, whatever the output path; the default output is a new sibling directory; and a profile read from a file is the profile given on the command line.", "quantifier": "all directory trees, output paths and profile texts", "why_tests_cant": "All paths, including those that do not exist yet.", "anchors": ["cloudini_lib/tools/src/cloudini_rosbag_converter.cpp:main", "cloudini_lib/tools/src/mcap_converter.cpp:McapConverter::addProfile"]}
{"id": "C67", "title": "Files are portable between machines with and without SSE", "statement": "A file written by a build without SSE4.1 (ARM, WebAssembly) is read by a build with it, and the other way round, with the promises of C11 and C18; both builds decode any bytes to the same result, encode without undefined behaviour, and write the same bytes for the same cloud.", "quantifier": "all clouds, descriptions and byte strings, both builds", "why_tests_cant": "Tests run on one machine; NaN and halfway values at every position matter.", "anchors": ["cloudini_lib/include/cloudini_lib/intrinsics.hpp:cast_vector4f_to_vector4i", "cloudini_lib/include/cloudini_lib/intrinsics.hpp:Vector4i::operator-", "cloudini_lib/src/field_encoder.cpp:FieldEncoderFloatN_Lossy::encode", "cloudini_lib/src/field_decoder.cpp:FieldDecoderFloatN_Lossy::decode"]}
{"id": "C68", "title": "A file describes itself: resolutions survive the text header", "statement": "The header stores each resolution as decimal text; the description read from the file is the one the encoder used, and decoding with it keeps the accuracy promise of C11 without any side channel.", "quantifier": "all resolutions of at most six significant digits between 2^-125 and 2^125 (exactly), all other resolutions (with the error stated), all clouds and descriptions", "why_tests_cant": "Tests use a handful of round resolutions such as 0.001; the conversion rounds every other one.", "anchors": ["cloudini_lib/src/cloudini.cpp:EncodingInfoToYAML", "cloudini_lib/src/cloudini.cpp:EncodingInfoFromYAML", "cloudini_lib/src/cloudini.cpp:DecodeHeader"]}
{"id": "C69", "title": "The compressed bytes depend only on the values of the declared fields", "statement": "Padding bytes, undeclared fields, NaN payloads and differences below the quantisation step never reach the output: clouds whose declared values are the same to the format compress to identical bytes; compressing a decompressed cloud reproduces the file bit for bit; and clouds with the same bytes have the same decoded values.", "quantifier": "all descriptions, encoder histories, compressors and float arithmetics; all pairs of clouds of equal size; for re-encoding, all clouds within 4194300 steps (2^51-4 for doubles)", "why_tests_cant": "Tests compress fixed clouds with zeroed padding; independence of bytes that are not read is a statement about pairs of inputs, and bit-exact re-encoding about every value.", "anchors": ["cloudini_lib/src/cloudini.cpp:PointcloudEncoder::encode", "cloudini_lib/src/field_encoder.cpp", "cloudini_lib/include/cloudini_lib/field_encoder.hpp", "cloudini_lib/src/v5_codec.cpp:EncodeV5Stage1"]}
{"id": "C70", "title": "Clouds of PCL points survive a trip through the file", "statement": "Encoding a pcl::PointCloud of PointXYZ or PointXYZI with a double resolution and decoding the bytes into a cloud of the same point type (which may hold other points before) gives the same width, height and number of points, every coordinate within half a resolution step and a few millionths (NaN for NaN), every intensity bit for bit, and does not touch the padding of the points; encoding always succeeds for such clouds. A file that cannot be decoded is never produced, and a file is only decoded into a point type if every point lands in its place.", "quantifier": "all clouds of both point types, all double resolutions, all previous contents of the target cloud, all lawful compressors", "why_tests_cant": "Tests use a handful of clouds, one resolution and one target type; the claim is about every coordinate value, every resolution (zero, negative, NaN included), every target type and whatever the target held before.", "anchors": ["cloudini_lib/include/cloudini_lib/pcl_conversion.hpp:PointcloudEncode", "cloudini_lib/include/cloudini_lib/pcl_conversion.hpp:PointcloudDecode", "cloudini_lib/src/pcl_conversion.cpp:ConvertToEncodingInfo"]}
{"id": "C71", "title": "Older format versions carry the same cloud", "statement": "Asking the encoder for an older format version changes how bytes are laid out, never what is decoded: the same cloud written for versions 3, 4 and 5 decodes to the same field values, and where no field is coded differently the payload is byte for byte the same. Every version the encoder accepts can be read back by the decoder of the same release.", "quantifier": "all descriptions, all clouds, all pairs of versions, all lawful compressors, all histories of both encoders", "why_tests_cant": "Tests fix one or two versions and a few clouds; the claim relates two runs of the program on the same arbitrary input, for every version number a byte can hold.", "anchors": ["cloudini_lib/src/cloudini.cpp:EncodeHeader", "cloudini_lib/src/cloudini.cpp:DecodeHeader", "cloudini_lib/src/cloudini.cpp:PointcloudEncoder::encode", "cloudini_lib/src/cloudini.cpp:PointcloudDecoder::decode"]}
{"id": "C72", "title": "The Python decoder delivers the cloud as a structured array", "statement": "CloudiniDecoder.decode_message on a message the library made returns a structured NumPy array with one entry per point, whose members are the fields of the cloud in their own types and hold the values the codec promises, whatever messages were decoded before with the same decoder. It never writes outside the blocks it allocated and never shows data of an earlier cloud.", "quantifier": "all messages, all descriptions and clouds, all sequences of messages decoded with one decoder object", "why_tests_cant": "The decoder keeps one 32 MiB block and a 4096-byte header buffer for its whole life and re-parses the header text itself; tests decode a few recorded bags, not every description, size or history.", "anchors": ["cloudini_py/cloudini_decoder.py:CloudiniDecoder.decode_message", "cloudini_py/cloudini_decoder.py:CloudiniDecoder.get_header_info", "cloudini_py/cloudini_decoder.py:CloudiniDecoder.bytes_to_numpy", "cloudini_lib/src/wasm_functions.cpp:cldn_DecodeCompressedMessage"]}
{"id": "C73", "title": "The Foxglove converter returns the cloud and gives its memory back", "statement": "convertPointCloudWasm on a compressed message the library made returns a PointCloud2 with the same header, size, fields and density and the decoded points; what it returns always is what the decoder made of the file inside, of the size its own height and row step announce. Whether it returns or throws, every block it took from the WebAssembly memory is released, and nothing outside those blocks is written.", "quantifier": "all messages (including ones whose members disagree with the file inside), all allocators, all states of the memory, all ways allocation or decoding can fail", "why_tests_cant": "The converter runs in a browser on whatever message arrives; the interplay of two sizes (the message's and the file's), failing allocations and the finally clause cannot be enumerated by tests.", "anchors": ["cloudini_foxglove/src/PointCloudConverter.tsx:convertPointCloudWasm", "cloudini_lib/src/wasm_functions.cpp:cldn_DecodeCompressedData"]}
{"id": "C74", "title": "pcd_to_cloudini_converter converts what it is told to and nothing else", "statement": "The program writes, for a PCD file it accepts, the encoded cloud to the output named by -o (with extension .cldn) or next to the input; with -b it does so for every *.pcd file of the directory. Inputs and unrelated files are never modified, an existing output is replaced only with consent, a failing conversion leaves every file as it was, the exit code tells success from failure, and the options -e, -c, -i select encoding, compression and intensity resolution.", "quantifier": "all command lines, all file systems, all path names, all directory listings, all answers on standard input, all devices (including full ones), all encoders", "why_tests_cant": "It needs every path name (dots, hidden files, missing extensions), every order of directory entries and every device failure; tests run one file.", "anchors": ["cloudini_lib/tools/src/pcd_to_cloudini_converter.cpp:main", "cloudini_lib/src/pcl_conversion.cpp:PCLPointCloudEncode"]}
{"id": "C75", "title": "mcap_header_inspector describes the first compressed cloud of a file", "statement": "For a file with compressed clouds the program prints topic, time and sizes of the first compressed message in the order of the file and exactly the description stored in its header (version, width, height, point step, options, fields), the true number of points and bytes, and nothing depends on the rest of the file; run on the output of the converter it describes the cloud that went in. The exit code is 0 exactly when it could describe a message.", "quantifier": "all MCAP files (schemas, channels, messages in any order), all message contents, all conversion options", "why_tests_cant": "It needs every file: channels in any number and order, messages of other types in front, channels without schema, empty clouds, sizes beyond 32 bits; there is no test of the tool.", "anchors": ["cloudini_lib/tools/src/mcap_header_inspector.cpp:main", "cloudini_lib/src/cloudini.cpp:DecodeHeader", "cloudini_lib/src/cloudini.cpp:EncodingInfoToYAML"]}
{"id": "C76", "title": "The web page shows the true sizes of the clouds of a file", "statement": "For every MCAP file the page shows one row per channel with clouds with the true number of messages and bytes, a grand total that counts every cloud once, and as compressed size the sum of the sizes the encoder would write for the clouds with a resolution of a millimetre; no WebAssembly memory is lost.", "quantifier": "all MCAP files, all allocators, all message contents (also broken ones), modules with and without exception catching", "why_tests_cant": "It needs every file: topics with several channels, clouds larger than the memory limit, messages the module throws on, an allocator out of memory; the page has no tests.", "anchors": ["cloudini_web/main.js:analyzeFile", "cloudini_lib/src/wasm_functions.cpp:cldn_ComputeCompressedSize", "cloudini_lib/CMakeLists.txt"]}
{"id": "C77", "title": "The topic converter publishes the conversion of each message it is sent", "statement": "For every history of messages, for any number of nodes in a process: each message that arrives while somebody listens gives exactly its own conversion, independent of everything before; clouds sent through a compressing and a decompressing node arrive with the same metadata and values; the subscription matches every publisher of the input topic, asking for reliable delivery and for old messages only if all of them offer it; the log gives the true number of messages and their sizes.", "quantifier": "all histories of messages (also broken ones), any number of nodes in a process, all sets of publishers known at start and later, all parameters", "why_tests_cant": "It needs every interleaving of nodes and messages, every set of endpoints, publishers that start later and runs of billions of messages; the node has no test of its own.", "anchors": ["cloudini_ros/src/topic_converter.cpp:callback", "cloudini_ros/src/topic_converter.cpp:adapt_request_to_offers", "cloudini_ros/src/topic_converter.cpp:CloudiniPointcloudConverter"]}
{"id": "C78", "title": "Decoding never reads the output buffer", "statement": "For every info, every payload (also malformed) and every size of the output buffer there is one outcome \u2014 an exception, an undefined behaviour or a list of byte stores inside the buffer \u2014 such that decoding into any buffer of that size has exactly that outcome. So two buffers of one size get the same exception or the same bytes, each position is either given the same byte in both or kept in both, and decoding again into the result changes nothing.", "quantifier": "all infos of all versions, all payloads (valid, cut, corrupt), all sizes and contents of the output buffer", "why_tests_cant": "It needs every pair of buffer contents for every malformed payload; a test has one buffer, usually zeroed.", "anchors": ["cloudini_lib/src/cloudini.cpp:PointcloudDecoder::decode", "cloudini_lib/src/v5_codec.cpp:decodeV5AdaptiveIntSection", "cloudini_lib/src/v4_codec.cpp:DecodeV4Stage1Chunk"]}
{"id": "C79", "title": "The figures of the codec benchmark", "statement": "For every MCAP file: the messages, points and bytes shown for a topic are those of its clouds number 1, 1+n, 1+2n, ... up to the maximum that can be read and are not empty, whatever the codec does; the encoded size of a mode is the sum of what it makes of each of them in a buffer of its own, so no figure depends on earlier messages, other topics or modes; with --mode the other modes show nothing; the last table is the sum of the others; --explain has one entry per topic with a readable first cloud and never counts more points after than before. A cloud on which a mode fails makes the mode look better, a message that lies about its size ends the tool, and so does a first cloud with point step 0 in --explain; the fingerprint is that of the clouds only if they have no padding.", "quantifier": "all files, options, codecs, sequences of messages of any number of topics", "why_tests_cant": "Histories of messages of several topics through shared buffers, with failures at any place.", "anchors": ["cloudini_lib/tools/src/mcap_codec_benchmark.cpp:main", "cloudini_lib/tools/src/mcap_codec_benchmark.cpp:explainOneMessage", "cloudini_lib/tools/src/mcap_codec_benchmark.cpp:fnv1a"]}
{"id": "C80", "title": "A decoder can be used again and again", "statement": "For every sequence of calls on one decoder object, failing calls included: each call has the outcome it would have with a new decoder, since neither the field decoders nor the decompression buffer of earlier calls show in later ones; the buffer never holds more than the largest declared cloud and never shrinks; the overload with a vector leaves in it exactly a cloud of the declared size. The memory is not limited by the caller's output or the input: the whole declared size is requested before either is looked at.", "quantifier": "all histories of decode calls (any infos, payloads, outputs, failures), all lawful compressors, all contents of the internal buffer", "why_tests_cant": "Histories of calls on one object with stale state of any content.", "anchors": ["cloudini_lib/src/cloudini.cpp:PointcloudDecoder::decode", "cloudini_lib/src/cloudini.cpp:PointcloudDecoder::updateDecoders", "cloudini_lib/src/cloudini.cpp:PointcloudDecoder::decodeChunk", "cloudini_lib/src/codec_common.cpp:DecompressChunk", "cloudini_lib/include/cloudini_lib/cloudini.hpp:PointcloudDecoder::decode"]}
{"id": "C81", "title": "decode_mcap.py lists the compressed clouds of a file", "statement": "For every MCAP file with a summary: the script shows, in order, exactly the messages whose schema name contains CompressedPointCloud2 (the first n with --max-messages n), each with its topic, its time and what decode_message makes of it; a message the library made is shown with the values of its cloud whatever was decoded or failed before it; the number at the end counts failures as parsed; asking for 0 messages shows all.", "quantifier": "all files, limits, initial contents of the decoder's memory, and whatever failing messages leave there", "why_tests_cant": "Histories of messages through one block of memory, with failures anywhere.", "anchors": ["cloudini_py/decode_mcap.py:decode_mcap_file", "cloudini_py/cloudini_decoder.py:CloudiniDecoder"]}
{"id": "C82", "title": "What a decode that fails leaves in the caller's buffer", "statement": "When decode throws, the caller's buffer keeps its length and every byte outside the declared fields of the declared points (with version-2 data: outside the fields of any point). A payload of version 3 or later that is cut anywhere throws and leaves the points of the complete chunks exactly as the whole payload gives them and nothing else changed; damage behind some chunks never changes the points of those chunks, whether the call throws or not; extra bytes behind a payload make it throw with the complete cloud in the buffer. A failing call is not atomic: it may change the buffer.", "quantifier": "all infos, payloads, cut positions, replacements, buffers and compressors; calls without undefined behaviour", "why_tests_cant": "A crash point is any byte of the payload, damage is any replacement of the rest; tests cut at a few places and look at the exception, not at the buffer.", "anchors": ["cloudini_lib/src/cloudini.cpp:PointcloudDecoder::decode", "cloudini_lib/src/cloudini.cpp:PointcloudDecoder::decodeChunk", "cloudini_lib/src/v4_codec.cpp:DecodeV4Stage1Chunk", "cloudini_lib/src/v5_codec.cpp:DecodeV5Stage1Chunk", "cloudini_lib/src/v5_codec.cpp:decodeV5AdaptiveIntSection"]}
{"id": "C83", "title": "The voxel filter does not depend on what the thread filtered before", "statement": "The hash table that applyVizLossyPreprocessing keeps per thread behaves as a set: insert answers true exactly if the key was not inserted since the last clear, no history of clear, reserve and insert makes a call undefined, throw or run forever, whatever the hash function and however its values collide. Hence the filtered cloud is the same on every thread, whatever clouds that thread filtered before, and is the one the filter's contract names.", "quantifier": "all hash functions, histories of calls, thread histories, clouds", "why_tests_cant": "The table grows, is cleared but keeps its buckets, and moves entries on collisions; which entries move depends on the whole history. Tests see a few clouds in fresh processes.", "anchors": ["cloudini_lib/include/cloudini_lib/contrib/ankerl/unordered_dense.h:table", "cloudini_lib/src/ros_msg_utils.cpp:applyVizLossyPreprocessing"]}
{"id": "C84", "title": "The 32-bit decoder agrees with the 64-bit one", "statement": "In the WebAssembly module size_t has 32 bits. For every header that declares less than 4 GiB, every payload (also damaged ones) and every output buffer below 4 GiB, decoding there gives the same bytes or the same exception as on a 64-bit machine, so what is proved of the library holds in the browser, the Foxglove panel and the Python package.", "quantifier": "all headers below 4 GiB, payloads, buffers, compressors", "why_tests_cant": "The tests are built for 64 bits; no test runs the decoder with a 32-bit size_t, and products that wrap need clouds of gigabytes.", "anchors": ["cloudini_lib/src/cloudini.cpp:PointcloudDecoder::decode,decodeChunk", "cloudini_lib/src/v5_codec.cpp:DecodeV5Stage1Chunk,decodeV5AdaptiveIntSection", "cloudini_lib/src/wasm_functions.cpp:cldn_DecodeCompressedData,cldn_DecodeCompressedMessage"]}
{"id": "C85", "title": "The 32-bit encoder writes the bytes of the 64-bit one", "statement": "In the WebAssembly module the sizes of the stage buffers, MaxCompressedSize and the hash of the palette have 32 bits. For every cloud whose stage buffer and worst-case output fit into 4 GiB, every compressor and every buffer, encoding there gives the same bytes, the same reported size or the same exception as on a 64-bit machine; a cloud encoded in the module and decoded in the module comes back.", "quantifier": "all messages, clouds, fields, options, resolutions, buffers and compressors whose sizes fit", "why_tests_cant": "The tests are built for 64 bits; none runs the encoder with a 32-bit size_t, and the sizes that wrap need strides no test uses.", "anchors": ["cloudini_lib/src/cloudini.cpp:PointcloudEncoder::encode,MaxCompressedSize", "cloudini_lib/src/v5_codec.cpp:V5StageBufferSize,EncodeV5Stage1", "cloudini_lib/src/wasm_functions.cpp:cldn_EncodePointcloudMessage,cldn_ComputeCompressedSize,cldn_EncodePointcloudData"]}
{"id": "C86", "title": "Constant and evenly spaced integer columns cost a few bytes per chunk", "statement": "In a version-5 lossy cloud without second-stage compression (at most 64 wide integer fields, values the codec can store), a 16- to 64-bit integer field that has the same value in every point adds at most its own size plus 3 bytes to each chunk of 32768 points and nothing per point, and one whose value changes by the same amount from point to point adds at most 29 bytes per chunk, in every chunk, whatever the other fields hold and whatever the encoder did before; other wide integers add at most 5 bytes per chunk and 11 per point, other fields at most 1, 7, 10 or 11 bytes per point. So a cloud of point indexes of any length takes at most 33 bytes per chunk.", "quantifier": "all field layouts, values, numbers of points, encoder histories", "why_tests_cant": "The mode of a field is chosen from its first 4096 points and kept for all later chunks, so the bound is about every later chunk; a test can only measure some clouds.", "anchors": ["cloudini_lib/src/v5_codec.cpp:selectBestAdaptiveIntMode,EncodeV5Stage1", "cloudini_lib/src/cloudini.cpp:PointcloudEncoder::encode"]}
{"id": "C87", "title": "Decoding ends", "statement": "Decoding any payload with any accepted header into any buffer ends: it returns, throws or (where other properties allow it) leaves memory, but does not run for ever, and the number of turns of its loops is bounded by the sizes of payload and buffer.", "quantifier": "all headers, payload bytes, output buffers, compressors", "why_tests_cant": "A payload that makes the decoder spin is one of infinitely many inputs, and a test that does not end gives no verdict.", "anchors": ["cloudini_lib/src/cloudini.cpp:PointcloudDecoder::decode", "cloudini_lib/src/v4_codec.cpp:DecodeV4Stage1Chunk", "cloudini_lib/src/v5_codec.cpp:decodeV5AdaptiveIntSection,readBitpackedIndex"]}
{"id": "C88", "title": "The bag converter's exit code and what it leaves", "statement": "Every run of the command-line bag converter changes at most one bag file and the metadata.yaml beside it, removes nothing, replaces an existing file only if the user agreed, exits with 0 only if the output holds the conversion of the input (or help was asked for, the user declined, or there was nothing to convert), and on failure leaves all files as they were.", "quantifier": "all file systems, command lines, answers, behaviours of the MCAP library and of the conversion", "why_tests_cant": "The outcome depends on the whole file system, the order of the checks and where an exception strikes; a test tries a handful of layouts.", "anchors": ["cloudini_lib/tools/src/cloudini_rosbag_converter.cpp:main", "cloudini_lib/tools/src/cloudini_rosbag_converter.cpp:generateMetadataYaml"]}
{"id": "C89", "title": "The benchmark script reports the files it compressed", "statement": "In the table of benchmark_compression.py every row states the size of a bag and the size of what the converter made of it in this run, there is one row for each converted bag, and table and files do not depend on the order in which the pool runs the converter.", "quantifier": "all directories, bags, earlier outputs, orders of the runs", "why_tests_cant": "The script runs the converter from a thread pool, so the order differs between runs, and looks for the outputs by name in a directory with arbitrary earlier content.", "anchors": ["benchmark_compression.py:process_file,run_compression,main", "cloudini_lib/tools/src/cloudini_rosbag_converter.cpp:main"]}
{"id": "C90", "title": "The bytes are those of the format", "statement": "What the encoder writes for a valid cloud is exactly what the format says, whatever the encoder did before: behind the header, for every 32768 points a length in four bytes and the chunk (as the second stage made it); in the chunk the fields of every point in order, each as the difference to the value before (zigzag numbers from 1 on in groups of 7 bits, 0 for a NaN), as steps of the resolution, as changed bits, as windowed bits or raw, according to its type, the option and the version; and then, in lossy clouds of version 5, one section per wide integer field in the shortest of four ways on the first 4096 points.", "quantifier": "all valid descriptions, clouds, earlier uses of the encoder, compressors, float arithmetics", "why_tests_cant": "Files written today must be read by other releases and by the other implementations of the format, so the bytes matter and not only that this encoder and this decoder agree; a change of both at once passes every round-trip test.", "anchors": ["cloudini_lib/src/cloudini.cpp:PointcloudEncoder::encode", "cloudini_lib/src/v4_codec.cpp:EncodeV4Stage1Chunk", "cloudini_lib/src/v5_codec.cpp:EncodeV5Stage1", "cloudini_lib/include/cloudini_lib/field_encoder.hpp", "cloudini_lib/include/cloudini_lib/encoding_utils.hpp"]}
{"id": "C91", "title": "The bytes of a header are those of the format", "statement": "A binary header and a text header are, for every description, exactly the bytes the format lists: the signature CLOUDINI_V and two characters for the version, then the numbers, codes, words and lines in a fixed order; a file of the encoder is this text header followed by the encoded cloud.", "quantifier": "all descriptions (for binary headers with at most 65535 fields and names of at most 65535 bytes), clouds and earlier uses of the encoder", "why_tests_cant": "Other releases and other programs read these headers; a code or a word changed in the writer and the reader together passes every round-trip test.", "anchors": ["cloudini_lib/src/cloudini.cpp:EncodeHeader", "cloudini_lib/src/cloudini.cpp:EncodingInfoToYAML", "cloudini_lib/src/cloudini.cpp:ToString", "cloudini_lib/include/cloudini_lib/cloudini.hpp:EncodingOptions"]}
{"id": "C92", "title": "The reader accepts every writer of the format", "statement": "Every payload that follows the format decodes to the cloud it was written from, whatever way its writer chose for each section of each chunk and whatever second-stage bytes it stored, so long as the library can read them; two writers of one cloud are read alike.", "quantifier": "all descriptions, clouds, choices of the way per chunk and field, stored forms of each chunk, and output buffers", "why_tests_cant": "Round-trip tests only ever show the decoder what this encoder chose; the payloads of other writers (other languages, later releases with another choice) are not among them, and the choices grow exponentially with chunks and fields.", "anchors": ["cloudini_lib/src/cloudini.cpp:PointcloudDecoder::decode", "cloudini_lib/src/v5_codec.cpp:DecodeV5Stage1Chunk", "cloudini_lib/src/codec_common.cpp:DecompressChunk"]}
{"id": "C93", "title": "mcap_cutter writes the cut of the file it is told to, and nothing else", "statement": "A run of mcap_cutter that can read its input and open its output ends with code 0 and leaves in the output exactly the first n clouds of every topic of the input, in order; no other file is created, changed or removed; a run that ends with another code leaves everything as it was; cutting twice is cutting once with the smaller limit.", "quantifier": "all file systems, current directories, command lines and contents of the input", "why_tests_cant": "The program is run by hand on one file; no test covers names without extension, outputs that are the input, directories, inputs without clouds, or the state of the file system after a failure.", "anchors": ["cloudini_lib/tools/src/mcap_cutter.cpp:main", "cloudini_lib/tools/src/mcap_cutter.cpp:McapCutter::cut"]}
{"id": "C94", "title": "A header cannot claim more points than the payload can hold", "statement": "If decode returns for a header that declares n points, the payload holds at least four bytes for every 32768 of them; without compression also the bytes of every value outside the sections (one per value, or its size if values are copied) and two bytes per section and chunk. So n is at most 8192 times the length of the payload, and a header that claims more is rejected. No better bound in the length alone is possible: descriptions without fields attain it.", "quantifier": "all headers of versions 3 to 5, payloads, output buffers, compression libraries", "why_tests_cant": "A test tries one truncated payload; the bound is over all headers, payloads and chunk counts.", "anchors": ["cloudini_lib/src/cloudini.cpp:PointcloudDecoder::decode", "cloudini_lib/src/v4_codec.cpp:DecodeV4Stage1Chunk", "cloudini_lib/src/v5_codec.cpp:DecodeV5Stage1Chunk", "cloudini_lib/include/cloudini_lib/field_decoder.hpp"]}
{"id": "C95", "title": "Lossy coding keeps the order of the numbers", "statement": "Encode a lossy cloud and decode it: of two points whose coordinate (any lossy float field) was in some order, the one with the smaller value never comes back with the larger one; opposite values come back opposite, zero comes back as zero, no value changes its sign; values more than one step (plus rounding) apart stay distinct. So the points at the border of a cloud stay at its border.", "quantifier": "all resolutions from 2^-125 to 2^125, all pairs of finite values, all clouds, encoder histories and compression libraries", "why_tests_cant": "The order could be lost for one pair of adjacent floats at one resolution among 2^96 triples, in any of five rounded operations; tests sample a few.", "anchors": ["cloudini_lib/include/cloudini_lib/field_encoder.hpp:FieldEncoderFloat_Lossy", "cloudini_lib/src/field_encoder.cpp:FieldEncoderFloatN_Lossy", "cloudini_lib/src/field_decoder.cpp:FieldDecoderFloatN_Lossy", "cloudini_lib/include/cloudini_lib/field_decoder.hpp:FieldDecoderFloat_Lossy"]}
{"id": "C96", "title": "Without quantisation a cloud comes back exactly or not at all", "statement": "With the options NONE and LOSSLESS, whatever values a cloud holds: if encode and decode both succeed, every field of every point has the bytes it had before. The decoder accepts the encoded cloud exactly when every 64-bit integer differs by less than 2^63 from the one before it (from 0 at the start of each 32768 points). No silent corruption.", "quantifier": "all values of all clouds of every valid description, all encoder histories, all compression libraries that invert themselves", "why_tests_cant": "The only values at risk are pairs of consecutive 64-bit integers exactly 2^63 apart, one pattern in 2^64 and at any position of any chunk; a test has no reason to hit it, and cannot show that a success is always exact.", "anchors": ["cloudini_lib/src/cloudini.cpp:PointcloudEncoder::encode", "cloudini_lib/src/cloudini.cpp:PointcloudDecoder::decode", "cloudini_lib/src/v4_codec.cpp:EncodeV4Stage1Chunk", "cloudini_lib/include/cloudini_lib/field_encoder.hpp:FieldEncoderInt", "cloudini_lib/include/cloudini_lib/encoding_utils.hpp:encodeVarint64"]}
{"id": "C97", "title": "A cloud of another size than the description says is not delivered as if nothing had happened", "statement": "The description holds width and height, encode is handed bytes and takes as many points as there are. If the two differ, decoding the result should not succeed with missing or invented points. What holds: bytes with another number of 32768-point chunks than the description asks for are never accepted; without sections (version 4 and before, or no field wider than a byte) bytes with fewer points than described are never accepted. What does not hold: a surplus of points that stays in the last chunk is dropped in silence, and in version 5 missing points may be invented.", "quantifier": "all valid descriptions, all clouds of m points and all descriptions of n points, all encoder histories, all compression libraries that invert themselves, all buffers", "why_tests_cant": "Neither encode nor decode compares the number of points with width times height; whether the mistake is noticed depends on both counts modulo 32768 and on how the last chunk of every field happens to end. A test samples a few pairs of counts.", "anchors": ["cloudini_lib/src/cloudini.cpp:PointcloudEncoder::encode", "cloudini_lib/src/cloudini.cpp:PointcloudDecoder::decode", "cloudini_lib/src/v4_codec.cpp:EncodeV4Stage1Chunk", "cloudini_lib/src/v4_codec.cpp:DecodeV4Stage1Chunk", "cloudini_lib/src/v5_codec.cpp:DecodeV5Stage1Chunk"]}
{"id": "C98", "title": "Fields may share bytes as long as none of those that do is quantised", "statement": "A description may name the same bytes twice, as rgb and rgba do: nothing forbids it. If fields share bytes only where both are coded without loss (integers, floats without a resolution, anything in a NONE or LOSSLESS cloud), every field of every point comes back as promised, shared or not, and bytes outside every field keep what the buffer held. With options NONE and LOSSLESS fields may overlap in any way. It does not hold when one of the fields is quantised: what is delivered then depends on the codec version and the integer field is not exact.", "quantifier": "all descriptions with any overlap of exactly coded fields, all clouds, all versions from 3 on, all encoder histories, all compression libraries that invert themselves, all buffers", "why_tests_cant": "The decoder stores every field separately, in an order that depends on version and types; whether the last write wins or all writes agree depends on the values of every point and on every pair of fields. Tests use disjoint fields.", "anchors": ["cloudini_lib/src/cloudini.cpp:PointcloudEncoder::encode", "cloudini_lib/src/cloudini.cpp:PointcloudDecoder::decode", "cloudini_lib/src/v4_codec.cpp:DecodeV4Stage1Chunk", "cloudini_lib/src/v5_codec.cpp:DecodeV5Stage1Chunk", "cloudini_lib/src/codec_common.cpp:CreateCompatibleEncoders"]}
{"id": "C99", "title": "A colour packed into a float field survives the tools", "statement": "PCL and ROS pack colours into a FLOAT32 field named rgb: the bits are 0x00RRGGBB or 0xAARRGGBB. A user of the tools relies on colours coming back. They do where the field has no resolution (or in NONE and LOSSLESS clouds): every colour is exact. Where it has one, every colour without alpha becomes black and every opaque colour with red of 128 or more becomes NaN, without an error; more generally any finite number below 0.49 steps is delivered as +0. And every tool with a default resolution (ROS profile, transport plugin, WASM, PCLPointCloud2 conversion) sets a resolution on every FLOAT32 field, with no way to exempt one.", "quantifier": "all colours, all resolutions from 2^-123 to 2^125, all finite numbers, all valid descriptions and clouds, all encoder histories and compression libraries that invert themselves; all messages and resolution profiles", "why_tests_cant": "A statement about all 2^24 colours and all resolutions in IEEE arithmetic, and about every profile a user may write; tests use coordinates and intensities, whose values are many steps large.", "anchors": ["cloudini_lib/src/ros_msg_utils.cpp:applyResolutionProfile", "cloudini_lib/src/wasm_functions.cpp:cldn_ComputeCompressedSize", "cloudini_lib/src/pcl_conversion.cpp:ConvertToEncodingInfo", "cloudini_lib/include/cloudini_lib/field_encoder.hpp:FieldEncoderFloat_Lossy", "cloudini_lib/src/field_encoder.cpp:FieldEncoderFloatN_Lossy", "cloudini_ros/src/conversion_utils.cpp:ConvertToEncodingInfo"]}
{"id": "C100", "title": "A number too large for its resolution is reported, not altered", "statement": "A number that needs more steps of the resolution than the codec's integers hold (or an infinity) cannot be stored. A user relies on encode failing with an error. What holds: outside the leading vector of floats such a cloud is never encoded successfully, whatever the encoder, the library and the buffer (the conversion is undefined behaviour). What does not hold: it is not reported; and in the leading vector encode and decode succeed and the number comes back as a negative one of at least 2^30 steps, whatever its sign.", "quantifier": "all float and double values, all resolutions from 2^-125 to 2^125, all descriptions, all clouds, positions and fields, all encoder histories, compression libraries and buffers, both codec versions", "why_tests_cant": "A statement about IEEE products near and beyond 2^31 and 2^63 for all pairs of value and resolution, and about all positions of one bad value in a cloud; a test that hits it is undefined behaviour.", "anchors": ["cloudini_lib/include/cloudini_lib/field_encoder.hpp:FieldEncoderFloat_Lossy", "cloudini_lib/src/field_encoder.cpp:FieldEncoderFloatN_Lossy", "cloudini_lib/include/cloudini_lib/intrinsics.hpp:cast_vector4f_to_vector4i", "cloudini_lib/src/cloudini.cpp:PointcloudEncoder::encode"]}
{"id": "C101", "title": "Distances between points survive", "statement": "Encode a lossy cloud and decode it: two points that were within some distance of each other come back within that distance plus 3.5 times the largest shift of a coordinate (half a step and the rounding of the float operations, for coordinates up to the size of the cloud), and two points that come back within some distance were within that distance plus the same amount. So a radius search on the decoded cloud finds what it found before, up to that margin. The difference of two doubles (the time between two points) changes by at most one step and the rounding.", "quantifier": "all clouds of sensible values, pairs of points, distances, resolutions and box sizes, encoder histories and compression libraries", "why_tests_cant": "It is a statement about every pair of points at every distance and every size of the cloud.", "anchors": ["cloudini_lib/src/field_encoder.cpp:FieldEncoderFloatN_Lossy", "cloudini_lib/src/field_decoder.cpp:FieldDecoderFloatN_Lossy", "cloudini_lib/include/cloudini_lib/field_encoder.hpp:FieldEncoderFloat_Lossy", "cloudini_lib/src/cloudini.cpp:PointcloudDecoder::decode"]}
{"id": "C102", "title": "Multiples of the resolution come back exactly", "statement": "Lossy coding moves a number by up to half a step - but a number that is a whole multiple of the resolution of its field (an intensity or ring number kept as a float with resolution 1, coordinates on a grid of 1/1024 m) does not move: it comes back as the same number, with the same bytes unless it is zero (a negative zero comes back positive). Holds below 2^22 steps (2^51 for doubles); with 2^24 steps it can come back as its neighbour.", "quantifier": "all resolutions from 2^-125 to 2^125, all multiples, both float paths and doubles, all clouds, encoder histories and compression libraries", "why_tests_cant": "Whether five roundings leave a multiple alone depends on the pair of resolution and multiple; 1/41 is the first resolution whose reciprocal gives it away, and only with 2^24 steps.", "anchors": ["cloudini_lib/src/field_encoder.cpp:FieldEncoderFloatN_Lossy", "cloudini_lib/src/field_decoder.cpp:FieldDecoderFloatN_Lossy", "cloudini_lib/include/cloudini_lib/field_encoder.hpp:FieldEncoderFloat_Lossy", "cloudini_lib/include/cloudini_lib/field_decoder.hpp:FieldDecoderFloat_Lossy"]}
{"id": "C103", "title": "Compressing and selecting points commute", "statement": "Drop, repeat or reorder points before compressing a cloud, or after decompressing it: each point comes out the same. So filtering tools may work on either side, the order in which a cloud lists its points has no influence on what becomes of a point, and equal points stay equal - although every codec of the library encodes differences to the previous point. The two clouds may have been compressed by different libraries, format versions and encoder histories.", "quantifier": "all pairs of valid clouds of which one selects points of the other, all selections (with repetition, in any order), all field lists, encoder histories, versions and compression libraries", "why_tests_cant": "Delta coding makes the bytes of a point depend on all points before it; that the decoded point does not is a statement about all orders and selections.", "anchors": ["cloudini_lib/src/cloudini.cpp:PointcloudEncoder::encode", "cloudini_lib/src/cloudini.cpp:PointcloudDecoder::decode", "cloudini_lib/src/field_encoder.cpp:FieldEncoderFloatN_Lossy", "cloudini_lib/include/cloudini_lib/field_encoder.hpp:FieldEncoderInt"]}
{"id": "C104", "title": "What becomes of a field does not depend on the other fields", "statement": "Remove a field from a cloud, add one, rename or move fields: the remaining fields come back as they did before. True for every field that takes the same path through the codec; a float with a resolution takes another path when the number of leading such floats of the description changes to or from three or four, and then a value can come back up to a step different: x = 0.5 at a resolution of 1 comes back as 1 from a cloud with x and y, as 0 from one with x, y and z.", "quantifier": "all pairs of descriptions with the same option, all pairs of clouds that agree in a field of a point, all field lists, offsets, steps, encoder histories, versions and compression libraries", "why_tests_cant": "It compares the codec with itself over all pairs of field lists; round trip tests of one cloud cannot see it.", "anchors": ["cloudini_lib/src/field_encoder.cpp:FieldEncoderFloatN_Lossy", "cloudini_lib/include/cloudini_lib/field_encoder.hpp:FieldEncoderFloat_Lossy", "cloudini_lib/src/cloudini.cpp:PointcloudEncoder", "cloudini_lib/include/cloudini_lib/intrinsics.hpp:cast_vector4f_to_vector4i"]}
{"id": "C105", "title": "Errors of repeated compressions do not add up", "statement": "Compress and decompress a cloud again and again, one tool after the other: after any number of trips the declared fields are, bit for bit, what they were after the first, for values of at most 4194300 steps (doubles: 2^51 - 4 steps). False beyond: an easting of 484675.71875 m at a resolution of a millimetre comes back 31.25 mm smaller in each of ten trips, 312.5 mm in all.", "quantifier": "all field lists, clouds, resolutions, numbers of trips, and in each trip all encoder histories, versions, compression libraries and room", "why_tests_cant": "It quantifies over sequences of trips of any length; a test makes one, of values that are small against the limit.", "anchors": ["cloudini_lib/src/field_encoder.cpp:FieldEncoderFloatN_Lossy", "cloudini_lib/include/cloudini_lib/field_encoder.hpp:FieldEncoderFloat_Lossy", "cloudini_lib/src/field_decoder.cpp:FieldDecoderFloatN_Lossy", "cloudini_lib/include/cloudini_lib/field_decoder.hpp:FieldDecoderFloat_Lossy"]}
{"id": "C106", "title": "Boxes, centroids and planes survive", "statement": "What registration and segmentation compute from a cloud moves by no more than a coordinate does. With shift = half a step plus the rounding of the float operations: a point in a box is afterwards in the box that is larger by shift on each side, and the other way round; the centroid of any set of points moves by at most shift along each axis, however many points; the signed distance of a point to a plane changes by at most 7/4 shift, so the inliers of a plane within t are inliers within t + 7/4 shift.", "quantifier": "all field lists with three coordinates, all clouds within 2^29 steps, all lists of points, boxes and planes, all encoder histories, versions and compression libraries", "why_tests_cant": "It quantifies over all sets of points and all planes; a test checks the coordinates of one cloud, and that errors do not add up in a mean is a statement about every number of points.", "anchors": ["cloudini_lib/src/field_encoder.cpp:FieldEncoderFloatN_Lossy", "cloudini_lib/include/cloudini_lib/field_encoder.hpp:FieldEncoderFloat_Lossy", "cloudini_lib/src/field_decoder.cpp:FieldDecoderFloatN_Lossy", "cloudini_lib/src/cloudini.cpp:PointcloudDecoder"]}
{"id": "C107", "title": "Trips at different resolutions", "statement": "A cloud recorded at one resolution, archived at another and passed through tools with a third: a coordinate is afterwards within the sum of the shifts of the trips (half a step and the rounding of each) of what it was. The archive is not what one made from the original would be: 1.4375 compressed at 1/8 and then at 1 comes back as 2, compressed at 1 alone as 1.", "quantifier": "all sequences of trips of any length with any resolutions, all field lists with three coordinates, all clouds within 2^29 steps, all encoder histories, versions and compression libraries", "why_tests_cant": "It quantifies over sequences of trips and resolutions; tests compress once.", "anchors": ["cloudini_lib/src/field_encoder.cpp:FieldEncoderFloatN_Lossy", "cloudini_lib/include/cloudini_lib/field_encoder.hpp:FieldEncoderFloat_Lossy", "cloudini_lib/src/field_decoder.cpp:FieldDecoderFloatN_Lossy", "cloudini_lib/src/cloudini.cpp:PointcloudEncoder"]}
