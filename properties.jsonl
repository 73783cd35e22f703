{"id": "C01", "title": "Compressed integers read back exactly", "statement": "Reading a compressed 32-bit (or 64-bit) integer returns exactly the number that was written in either legal form (one byte when it fits and is not -128, marker byte 0x80 followed by the full little-endian number otherwise), consumes exactly 1 or 5 (1 or 9) bytes, and leaves whatever follows untouched.", "quantifier": "every i32 / i64 value, every prefix and suffix of surrounding bytes, both encodings", "why_tests_cant": "2^32 and 2^64 values times arbitrary surrounding bytes; the -128 sentinel and sign boundaries are easy to get wrong and are only samples in a test.", "anchors": ["src/reader.rs: WzRead::read_wz_int, read_wz_int64"]}
{"id": "C02", "title": "Cursor discipline of the slice reader", "statement": "A primitive read succeeds exactly when all its bytes lie inside the buffer, returns the little-endian value of those bytes, and advances the position by its width; the *_at reads return the same value as a read at that position and leave the position where it was, also when they fail; two readers over the same buffer do not influence each other.", "quantifier": "every buffer, every position (also past the end), every primitive width, every sequence of reads", "why_tests_cant": "Any history of seeks and reads on any buffer; tests see a handful of positions.", "anchors": ["src/reader.rs: WzSliceReader, Reader, read_u8_at.., read_wz_string_meta_at"]}
{"id": "C03", "title": "Encrypted strings read back as the original text", "statement": "For every key stream, text that was masked and encrypted in the ASCII, Unicode or PKG2-directory form and stored with its length prefix (short or long form) is read back unchanged, and the reader stops exactly after the string.", "quantifier": "every key stream, every byte / UTF-16 code unit sequence of every representable length, every following bytes", "why_tests_cant": "Unbounded lengths and key streams; mask counters wrap at 256 / 65536 so failures appear only at lengths no test uses.", "anchors": ["src/reader.rs: read_wz_string, read_wz_string_pkg2_dir, resolve_ascii_char, resolve_unicode_char, encrypt_str"]}
{"id": "C04", "title": "Lazy string metadata agrees with eager reading", "statement": "Recording a string's metadata (type, offset, length) and resolving it later yields the same text as reading it at once, both advance the cursor by the same amount, and the metadata's range always lies inside the buffer whenever eager reading succeeds.", "quantifier": "every buffer, position and key stream", "why_tests_cant": "Two separately written code paths must agree on all inputs, including malformed length prefixes.", "anchors": ["src/reader.rs: read_wz_string_meta, read_wz_string, resolve_wz_string_meta, try_resolve_wz_string_meta"]}
{"id": "C05", "title": "String blocks: inline and by-offset forms are equivalent", "statement": "A string block marked 0x00/0x73 is read inline, one marked 0x01/0x1B is read at base offset plus the stored 32-bit offset while the cursor moves on by exactly five bytes, every other marker yields the empty string and consumes one byte; the text obtained does not depend on which form was used.", "quantifier": "every buffer, position, base offset, marker byte", "why_tests_cant": "All 256 markers, all offsets; an offset-form string must not move the cursor by the target's length for any target.", "anchors": ["src/reader.rs: read_wz_string_block, read_wz_string_block_meta, read_wz_string_at_offset"]}
{"id": "C06", "title": "Text made into a WzString reads back", "statement": "A string node created from text and an IV returns the same text when read.", "quantifier": "every Unicode string and every key stream", "why_tests_cant": "Strings with characters outside the Basic Multilingual Plane behave differently from all others; tests use ASCII and Hangul.", "anchors": ["src/property/string.rs: WzString::from_str, from_str_pkg2_dir, encrypt_str, get_string"]}
{"id": "C07", "title": "Key stream does not depend on usage history", "statement": "The key byte at an index depends only on the IV and user key: whatever sequence of key-size requests and decryptions was made before, by however many readers sharing the key, byte i is the same, an already generated prefix never changes, and after a request for n bytes at least n bytes are available.", "quantifier": "every sequence of requests of arbitrary sizes, every IV, every user key, every interleaving of the check/grow/decrypt steps of concurrent readers", "why_tests_cant": "Depends on the history and interleaving of growth requests; tests use one or two growth sizes.", "anchors": ["src/util/string_decryptor/ecb_decryptor.rs: ensure_key_size, at, decrypt_slice", "src/reader.rs: get_decrypt_slice"]}
{"id": "C08", "title": "Decryption is its own inverse and length preserving", "statement": "Applying either string decryptor twice gives back the original data; decryption never changes the length; a zero IV leaves data unchanged; only the bytes at the same index influence the output.", "quantifier": "every data, every IV / 64-bit key", "why_tests_cant": "All lengths and keys.", "anchors": ["src/util/string_decryptor/ecb_decryptor.rs: decrypt_slice", "src/util/string_decryptor/pkg2_decryptor.rs: decrypt_slice"]}
{"id": "C09", "title": "Changing the IV changes the key stream", "statement": "After a decryptor's IV is replaced it behaves like a decryptor freshly created with that IV.", "quantifier": "every history of key requests before the change", "why_tests_cant": "Only visible when keys were generated before the change.", "anchors": ["src/util/string_decryptor/ecb_decryptor.rs: set_iv"]}
{"id": "C10", "title": "Directory offsets decode injectively and exactly", "statement": "For each container format the stored offset and the real offset determine each other: an offset encrypted for a given position, header start and version hash decodes to the original 32-bit offset, and no two stored values decode to the same offset. The PKG2-64 entry count decoder returns the count that was encoded and rejects counts above i32::MAX.", "quantifier": "all 2^32 stored values, positions, header starts, hashes; all five calculators", "why_tests_cant": "2^32 x 2^32 x 2^32 inputs per calculator.", "anchors": ["src/util/offset.rs: WzOffsetCalculator implementations, decrypt_pkg2_entry_count_64_v1"]}
{"id": "C11", "title": "PKG1 version detection is sound and complete over its range", "statement": "The version candidates offered for an encrypted version are exactly those in the searched range whose hash matches the stored checksum (or which equal it), in ascending order, each once, each with its own version hash; a version hash of zero is never accepted.", "quantifier": "every encrypted version, every range", "why_tests_cant": "All versions and checksums, 16-bit x unbounded range.", "anchors": ["src/util/version/pkg1.rs: calculate_version_hash, check_and_get_version_hash, iterator"]}
{"id": "C12", "title": "PKG2 version candidates are sound", "statement": "Every hash a PKG2 version generator proposes satisfies that format's check equation relating it to the two stored hashes.", "quantifier": "all pairs of 32-bit stored hashes, all six generations", "why_tests_cant": "2^64 header pairs and a backtracking search; a test checks one file per version.", "anchors": ["src/util/version/pkg2.rs: VersionGen, V1..V6, backtrack, brute_force_hash"]}
{"id": "C13", "title": "PKG2 version candidates are complete", "statement": "Every 32-bit hash that satisfies the format's check equation is proposed.", "quantifier": "all pairs of stored hashes, all candidate hashes", "why_tests_cant": "A missed solution is invisible until such a file is shipped.", "anchors": ["src/util/version/pkg2.rs: backtrack, brute_force_hash"]}
{"id": "C14", "title": "Version enumeration tries every generator", "statement": "Iterating the version generator yields the candidates of every configured generation in order, also when some generation has no candidate.", "quantifier": "every list of generators and candidate lists", "why_tests_cant": "Depends on which generation has no candidates for the given hashes.", "anchors": ["src/util/version/pkg2.rs: VersionGen::next"]}
{"id": "C15", "title": "PKG2 string key derivation is injective and its stream has period 8", "statement": "Different hashes give different KMST1199/1202 keys, and byte i is xored with a key byte that depends only on i mod 8.", "quantifier": "all 2^32 (or 2^64) hashes, all data lengths", "why_tests_cant": "Whole input space.", "anchors": ["src/util/string_decryptor/pkg2_decryptor.rs: mix_kmst1199, get_kmst1199_key, get_kmst1202_key, decrypt_slice"]}
{"id": "C16", "title": "Header parsing is exact", "statement": "Parsing a written PKG1 or PKG2 header returns its ident, sizes, version fields and data start; buffers that are too short are rejected rather than misread; data start is the header start plus exactly the bytes of the version fields present.", "quantifier": "every header and every buffer, including truncated ones", "why_tests_cant": "All truncation points and all field values.", "anchors": ["src/header.rs: WzHeader::read_from_buf, get_ident, get_wz_fsize, get_wz_fstart, get_encrypted_version"]}
{"id": "C17", "title": "Scrambled headers decode exactly", "statement": "A randomised header whose fields were scattered over its table positions is recognised and its fields are returned; a buffer whose decoded size does not match its length is not accepted as such a header.", "quantifier": "every field value, every filler", "why_tests_cant": "2^64+ field values times filler bytes.", "anchors": ["src/header.rs: random header functions, scatter tables"]}
{"id": "C18", "title": "Accepted directory entries are inside the file", "statement": "When directory parsing succeeds, every returned entry's name range was readable, its block lies inside the file, and an image entry points at a valid image header byte; the number of entries equals the stored count; negative or absurd counts are rejected; cursor consumption is exact.", "quantifier": "every buffer, hash, and offset calculator", "why_tests_cant": "Arbitrary (also hostile) bytes.", "anchors": ["src/directory.rs: resolve_entry_pkg1, resolve_entry_pkg2, read_pkg1_entry, calculate_offset_and_verify, verify"]}
{"id": "C19", "title": "Written directories read back", "statement": "A directory written entry by entry (direct names or names by offset) is parsed into exactly those entries in order.", "quantifier": "every list of entries up to the format's limit", "why_tests_cant": "Unbounded lists and nesting of forms.", "anchors": ["src/directory.rs: resolve_entry_pkg1, read_pkg1_entry"]}
{"id": "C20", "title": "Directory parsing terminates", "statement": "Resolving the children of a directory terminates for every file.", "quantifier": "every file, including one whose directory entries point back to an ancestor", "why_tests_cant": "Cyclic offsets are never produced by a well-behaved writer.", "anchors": ["src/directory.rs: resolve_children"]}
{"id": "C21", "title": "Property trees read back exactly", "statement": "Parsing the serialised form of any tree of properties (null, short, int, long, float, double, string, sub-property, canvas, convex, vector, sound, UOL, raw data, video) returns that tree, child order and names included, and ends exactly at the end of the list.", "quantifier": "every property tree of any depth and width, every base offset and surrounding data", "why_tests_cant": "Unbounded trees; parser state must be resynchronised after each extended block.", "anchors": ["src/util/parse_property.rs: parse_property_list, parse_property_node, parse_more"]}
{"id": "C22", "title": "Extended blocks resynchronise", "statement": "After an extended (sub) property is parsed, parsing goes on at the block's declared end, whatever its content was; unknown property kinds become Null without disturbing their siblings, unknown type codes are an error.", "quantifier": "every buffer and block contents", "why_tests_cant": "Arbitrary unknown content.", "anchors": ["src/util/parse_property.rs: parse_property_node"]}
{"id": "C23", "title": "Property parsing terminates on every input", "statement": "Parsing a property list from arbitrary bytes always ends: it either returns or reports an error, and nested parsing depth is bounded by the bytes consumed.", "quantifier": "every byte buffer", "why_tests_cant": "Hostile inputs: counts up to 2^31, overlapping blocks.", "anchors": ["src/util/parse_property.rs"]}
{"id": "C24", "title": "Direct path access agrees with a full parse", "statement": "Fetching a single property by path without parsing the image returns the same value as parsing the whole image and walking the path.", "quantifier": "every image content and every path", "why_tests_cant": "Two separate parsers must agree on every tree and every path, including under canvases and on missing names.", "anchors": ["src/util/parse_property.rs: get_node", "src/wz_image.rs: at_path", "src/node.rs: at_path"]}
{"id": "C25", "title": "A node's full path leads back to it", "statement": "Following a node's path from the root reaches that node; the path from root is the full path without the root's own name; looking up any path returns a node exactly when each step names a child; '..' goes to the parent.", "quantifier": "every tree shape, every node, every path", "why_tests_cant": "All trees and paths.", "anchors": ["src/node.rs: get_full_path, get_path_from_root, at, at_path, at_relative, at_path_relative"]}
{"id": "C26", "title": "Parse and unparse are idempotent and reversible", "statement": "Parsing an already parsed file, directory or image changes nothing; unparse drops the children and a later parse restores the same children; a failed parse leaves the node unparsed with its children as before.", "quantifier": "every sequence of parse / unparse calls on every node kind", "why_tests_cant": "Histories of calls.", "anchors": ["src/node.rs: parse, unparse"]}
{"id": "C27", "title": "Merging directories loses nothing", "statement": "After moving one node's children into another, every path that existed under either node exists under the destination, colliding names are merged recursively, nothing else appears, and every child's parent link names the node that holds it.", "quantifier": "every pair of trees", "why_tests_cant": "All overlaps of two trees at all depths.", "anchors": ["src/node.rs: transfer_childs", "src/util/node_util.rs: resolve_childs_parent"]}
{"id": "C28", "title": "Walking visits every node once, parents first", "statement": "Walking a tree calls the callback exactly once per node, each node before its descendants, and leaves images unparsed when parsing was forced. Where no image was parsed before, any number of forced walks show the same.", "quantifier": "every tree, every number of walks", "why_tests_cant": "Unbounded trees.", "anchors": ["src/util/walk.rs: walk_node"]}
{"id": "C29", "title": "UOL targets resolve as relative paths", "statement": "The resolved path of a UOL is the path of its parent followed by the UOL text with each '..' removing one component.", "quantifier": "every path and every UOL text", "why_tests_cant": "All mixtures of '..' and names, including more '..' than components, and '.' components.", "anchors": ["src/util/node_util.rs: get_resolved_uol_path, resolve_uol"]}
{"id": "C30", "title": "Path splitting at the image is total", "statement": "Splitting a path at its image component returns the image node and the remaining path, or nothing when there is no image, for every path.", "quantifier": "every path text and tree", "why_tests_cant": "Edge positions of the image component in the path.", "anchors": ["src/util/node_util.rs: get_image_node_from_path"]}
{"id": "C31", "title": "Pixel colour conversions are exact", "statement": "Each 16-bit colour format expands to 8-bit channels so that zero maps to zero, full maps to 255, the order is preserved and the original bits are recoverable; the 4-bit, 5-bit, 6-bit and 10-bit fields come from the documented bit positions.", "quantifier": "all 65536 (or 2^32) pixel values", "why_tests_cant": "Whole pixel space and every image size.", "anchors": ["src/util/color.rs", "src/property/png.rs: get_pixel_data_bgra4444, rgb565, argb1555, r10g10b10a2"]}
{"id": "C32", "title": "Block-compressed images place every pixel", "statement": "Decoding DXT3/DXT5 data writes every pixel of the image exactly once, at its own position, from its own 4x4 block.", "quantifier": "every image width and height", "why_tests_cant": "All sizes, in particular widths and heights that are not multiples of four.", "anchors": ["src/property/png.rs: get_pixel_data_dxt3, get_pixel_data_dxt5, color and alpha tables"]}
{"id": "C33", "title": "DXT colour and alpha tables are correct", "statement": "The four DXT colours and the eight DXT5 alphas derived from the end points interpolate between them, the index extraction reads the two (three) bits belonging to each pixel, and all table lookups are in range.", "quantifier": "all end points and index words", "why_tests_cant": "2^64 blocks.", "anchors": ["src/property/png.rs: expand_color_table, expand_color_index_table, alpha tables"]}
{"id": "C34", "title": "Image data decrypts chunk by chunk", "statement": "Compressed image data stored as a sequence of length-prefixed encrypted chunks is restored to the concatenation of the plain chunks whatever the chunking; unencrypted data passes through.", "quantifier": "every chunking and every key stream", "why_tests_cant": "All partitions of the data.", "anchors": ["src/property/png.rs: get_raw_data, has_zlib_header"]}
{"id": "C35", "title": "Decoded buffer sizes match the format", "statement": "The buffer size for each pixel format equals bytes per pixel (or block) times the number of pixels (blocks) and is enough for the pixel decoder of that format.", "quantifier": "every width, height and format code", "why_tests_cant": "All sizes.", "anchors": ["src/property/png.rs: get_buff_size, WzPngFormat"]}
{"id": "C36", "title": "WAV header is well formed", "statement": "The WAV bytes produced for a PCM sound have the RIFF layout, with length fields equal to the actual sizes, and the payload is the original data.", "quantifier": "every format header and payload length", "why_tests_cant": "All lengths, including near 2^32.", "anchors": ["src/property/sound.rs: get_wav_header, get_buffer, get_sound_type_from_header"]}
{"id": "C37", "title": "Lua scripts decrypt to their text", "statement": "A script encrypted with one of the known IVs is returned as its text.", "quantifier": "every valid UTF-8 text and each known IV", "why_tests_cant": "Multi-byte characters at the guess boundary; a wrong earlier key may also look valid.", "anchors": ["src/property/lua.rs: extract_lua, guess"]}
{"id": "C38", "title": "Snow2 decryption inverts encryption and is independent of chunking", "statement": "Decrypting what was encrypted with the same key returns the data; processing data in several calls whose sizes are multiples of four gives the same result as one call; a remainder shorter than four bytes is left as it was.", "quantifier": "every key, data and 4-aligned partition", "why_tests_cant": "All partitions and lengths.", "anchors": ["src/ms/snow2_decryptor.rs: decrypt_slice, decrypt_block"]}
{"id": "C39", "title": "Buffered Snow2 reads equal one-shot decryption", "statement": "Any sequence of reads through the buffering Snow2 reader returns consecutive pieces of the decryption of the whole stream.", "quantifier": "every sequence of reads", "why_tests_cant": "Histories of read sizes and the leftover-byte buffer.", "anchors": ["src/ms/snow2_reader.rs: read_i32, write_bytes_to, read_string"]}
{"id": "C40", "title": "Buffered ChaCha20 reads equal one-shot decryption", "statement": "Any sequence of reads through the ChaCha20 reader returns consecutive pieces of the decryption of the whole stream.", "quantifier": "every sequence of reads", "why_tests_cant": "Histories of read sizes against 64-byte chunk boundaries.", "anchors": ["src/ms/chacha20_reader.rs: read_i32, write_bytes_to, apply_keystream"]}
{"id": "C41", "title": "MS archive layout", "statement": "The offsets computed for entry tables and images are the documented ones: data starts at the next 1024-byte boundary, images at data start plus block index times 1024; the header checks accept exactly headers whose stored hash matches.", "quantifier": "every file name, salt and header", "why_tests_cant": "File-name-dependent offsets.", "anchors": ["src/ms/header.rs: from_ms_file, from_ms_file_v2", "src/ms/file.rs: parse", "src/ms/utils.rs: sum_str"]}
{"id": "C42", "title": "MS image keys and data", "statement": "Image keys are derived for every entry name without failure and an image's data decrypts to the original: the first kilobyte was encrypted twice, the rest once, and the result has the declared size.", "quantifier": "every entry name, entry key, salt, and data", "why_tests_cant": "All names (also non-ASCII or empty) and sizes around 1024.", "anchors": ["src/ms/ms_image.rs: to_wz_image"]}
{"id": "C43", "title": "Typed access returns a value exactly for its kind", "statement": "Each try_as_* accessor returns the contained value exactly when the node is of that kind, so at most one leaf accessor succeeds (string and UOL text excepted).", "quantifier": "every node kind and accessor", "why_tests_cant": "Whole accessor x kind table, including kinds added later.", "anchors": ["src/node_cast.rs"]}
{"id": "C44", "title": "PKG2 profile selection", "statement": "A PKG2 file is opened with the first profile (cached ones first, then newest to oldest) whose hash check and directory parse succeed; the result does not depend on the cache except for order, and the cache never holds a profile that did not succeed.", "quantifier": "every history of opened files", "why_tests_cant": "Histories of a global cache.", "anchors": ["src/util/profile.rs", "src/file.rs: parse_pkg2, try_pkg2_profile"]}
{"id": "C45", "title": "Continuation file naming rule", "statement": "A file is treated as a numbered part of a package exactly when its stem is base name, underscore and a number, and parts are merged into the base directory.", "quantifier": "every file name", "why_tests_cant": "All names.", "anchors": ["src/util/resolver.rs"]}
{"id": "C46", "title": "JSON export is total and faithful", "statement": "Exporting a node tree as simple JSON succeeds and maps every scalar to its JSON value and every container to an object with exactly its children. The order in which hash maps list the children does not show.", "quantifier": "every tree and every scalar value", "why_tests_cant": "All values, including NaN and infinities.", "anchors": ["src/node.rs: to_simple_json", "src/property/mod.rs"]}
{"id": "C47", "title": "IV detection returns a matching IV", "statement": "The IV guessed for an image is the first in the fixed order for which the image starts with the string Property; if none matches nothing is returned; an empty image is rejected without crashing.", "quantifier": "every buffer", "why_tests_cant": "All buffers.", "anchors": ["src/util/version/mod.rs: guess_iv_from_wz_img, verify_iv_from_wz_img, guess_iv_from_wz_file"]}
{"id": "C48", "title": "Vector arithmetic", "statement": "2D vectors add, subtract, scale and compare component-wise.", "quantifier": "all component values", "why_tests_cant": "Overflowing components.", "anchors": ["src/property/vector.rs"]}
{"id": "C49", "title": "All fallback versions are tried when no version is stored", "statement": "When a PKG1 file stores no version number, each of the versions in the fallback range 770..780 is tried with its own version hash.", "quantifier": "every PKG1 file without a stored version", "why_tests_cant": "Needs files of every version in the range; a wrong candidate hash is silently skipped.", "anchors": ["src/file.rs: WzFile::parse_pkg1", "src/util/version/pkg1.rs: VersionGen::check_and_get_version_hash"]}
{"id": "C50", "title": "A malformed directory gives an error, never a crash", "statement": "Resolving the children of a directory in a damaged or hostile file returns an error value; it does not panic.", "quantifier": "every buffer, header, hash and offset scheme", "why_tests_cant": "Needs every possible malformed byte sequence.", "anchors": ["src/directory.rs: resolve_children, into_wz_node_tuple", "src/reader.rs: resolve_wz_string_meta"]}
{"id": "C51", "title": "An image is read as what its data announces", "statement": "The children of an image are the stored property tree if the image starts with the marker, the name Property and the number 0; a script, packed text or text image gives one node over exactly the stored text; anything else is refused with an error and not read as something else.", "quantifier": "every image name, position, size and content", "why_tests_cant": "All contents, head values and lengths, including truncated ones.", "anchors": ["src/wz_image.rs: resolve_children, at_path"]}
{"id": "C52", "title": "The Snow2 key stream is that of SNOW 2.0", "statement": "Decryption with a 16-byte key uses the key stream of the published cipher SNOW 2.0 (without initial value), the key bytes taken as signed numbers; for keys of bytes below 0x80 that is SNOW 2.0 itself.", "quantifier": "every key and every length of the data", "why_tests_cant": "The tables and the 32 unrolled clocking blocks must be right for every state; a test vector only meets a few table entries.", "anchors": ["src/ms/snow2_decryptor.rs: Snow2, generate_keys, initial_clocking, ainv_mul, a_mul"]}
{"id": "C53", "title": "Lookup that parses on the way", "statement": "A lookup by path that parses on the way finds the node the path leads to when every node on the way is read, says that there is no such node where the path leads nowhere, and passes on the error of a node that cannot be read. It changes only nodes on the way that were not parsed before. After a success the plain lookup finds the same node, and a repeated call finds it again and changes nothing.", "quantifier": "every tree of nodes, every path, every content of the sources", "why_tests_cant": "All trees, paths and states of parsing, including repeated names and errors half way.", "anchors": ["src/node.rs: at_path_parsed, parse, at_path"]}
{"id": "C54", "title": "Version a PKG1 file is opened with", "statement": "A PKG1 file opened without a given version is opened with the lowest version that fits the number in its header and under which its directory can be read; that version is remembered, and parsing again gives the same children. A version given by the caller is the only one tried, and is an error if it does not fit the header. A failed call leaves the file as it was.", "quantifier": "every file, every header, every given version", "why_tests_cant": "All files and versions, including wrong versions that leave half-processed directory entries behind for the next attempt.", "anchors": ["src/file.rs: parse_pkg1, try_decode_with_wz_version_number", "src/util/version/pkg1.rs", "src/directory.rs: resolve_children, calculate_offset_and_verify"]}
{"id": "C55", "title": "Key an archive is opened with", "statement": "An archive opened without a key is opened with the first of the known keys (none, GMS, EMS, and for PKG2 files KMST1198) that reads the name of its first entry as ASCII text; a key given by the caller is used if it reads that name so, and otherwise the archive is opened as if none was given. So an archive written with one of the known keys is opened with it, or with one that reads the same name. A file without a known header cannot be parsed.", "quantifier": "every file content, every key stream, every given key or IV", "why_tests_cant": "All contents, names and key streams: whether two keys can be confused depends on single bits of the streams and on the length of the first name.", "anchors": ["src/file.rs: WzFile::from_file, parse", "src/util/string_decryptor/mod.rs: guess_decryptor_from_wz_file, verify_decryptor_from_wz_file", "src/reader.rs: try_resolve_wz_string_meta"]}
{"id": "C56", "title": "IV found for an archive", "statement": "An IV is accepted for an archive if and only if the name of its first entry is some text (UTF-8, or UTF-16 in the two-byte form) under the key of that IV. The IV found is the first of no encryption, GMS and EMS that is accepted, and none if no one is. So for an archive written with one of these IVs that IV is found. An archive without a first name has no IV.", "quantifier": "every file content, every IV, every key stream, every text as first name", "why_tests_cant": "All contents, texts and key streams: whether a wrong IV is accepted depends on every byte of the streams and on the form and length of the first name.", "anchors": ["src/util/version/mod.rs: verify_iv_from_wz_file, guess_iv_from_wz_file, get_iv_by_maple_version", "src/reader.rs: try_resolve_wz_string_meta"]}
{"id": "C57", "title": "Picture of a node with links", "statement": "Asking a node for its picture gives the picture the links lead to. A node that is not a picture is refused. If the picture has an inlink that leads somewhere, followed from the nearest image above, the answer is the answer for the node found there; otherwise, if it has an outlink that leads somewhere, followed from the nearest file called \"Base\" above with everything on the way read, the answer is the answer for the node found there; otherwise it is the picture's own data. Links that lead nowhere are ignored without an error, and a picture without links causes nothing to be read. The call always comes back.", "quantifier": "every forest of nodes in memory, every content of the sources read on the way, every text of the links, every number of links in a row", "why_tests_cant": "Chains of links of any length through any tree, read or not read yet, with links that go in circles or through the asking node itself: a test sees one tree.", "anchors": ["src/property/png.rs: get_image", "src/util/node_util.rs: resolve_inlink, resolve_outlink", "src/node.rs: at_path, at_path_parsed, filter_parent, get_parent_wz_image, get_base_wz_file", "src/property/string.rs: resolve_string_from_node"]}
{"id": "C58", "title": "An archive is read back as it was written", "statement": "If the bytes of a file hold a directory, written for some version, whose images are property lists, texts and scripts, then opening the file and parsing its root succeeds, and from then on looking up a path shows exactly what was written: a directory, an image, a property with its value, a script with its text, or nothing where nothing was written; of several things with one name the last. This stays so whatever was looked up, read or forgotten before. The same holds for an image file opened on its own.", "quantifier": "every file content that holds such an archive, in the PKG1 and both PKG2 formats, every tree of directories and properties of any size and depth, every path, every sequence of looking up, reading and forgetting", "why_tests_cant": "It joins every layer from bytes to nodes, for all archives and all histories; a test has a handful of sample files and one order of calls.", "anchors": ["src/file.rs: WzFile::parse", "src/directory.rs: resolve_children", "src/wz_image.rs: resolve_children", "src/util/parse_property.rs: parse_property_list", "src/node.rs: parse, unparse, at_path_parsed"]}
{"id": "C59", "title": "Names, values and parents stay consistent in every history", "statement": "Starting with no nodes, after any calls that make nodes, parse, unparse, look up with parsing, walk, fetch pictures, merge, repair parents or add children: the children of a node have different names; every node keeps its name, every container its source and every other value stays as it is. If no file has links and nodes are only added to their own parent, every child is listed under its own name and has the node that lists it as its parent, so that the full path of a node found at a path below a root is the root's name followed by that path, and repairing parents changes nothing.", "quantifier": "every sequence of these calls of any length in any order, every content of the files", "why_tests_cant": "The number of histories is unbounded, and merging and reading interact; a test runs one order of calls.", "anchors": ["src/node.rs: WzNode::new, parse, unparse, add, transfer_childs, get_full_path, at_path_parsed", "src/util/node_util.rs: resolve_childs_parent", "src/util/walk.rs: walk_node", "src/property/png.rs: get_image"]}
{"id": "C60", "title": "Stand-alone reading functions agree with the reader", "statement": "The reading functions that take a byte slice and a position give the same numbers, and the same errors, as the reader with a cursor at that position. A text stored without a key is read back by the stand-alone text function, and it gives every text that the reader without a key gives, also in string blocks at the start of the buffer; where it gives a text, the reader gives the same text, unless the stored length is negative. It fails with an error exactly if the length is cut off, and panics exactly if the text is longer than what is left.", "quantifier": "every byte buffer shorter than 2^31 bytes, every position, every text, with and without overflow checks", "why_tests_cant": "Two implementations of one format have to agree on every buffer, also on cut-off and hostile ones; a test compares a few texts.", "anchors": ["src/reader.rs: read_u8_at .. read_i64_at, read_string_by_len, read_wz_string, read_wz_string_block, read_wz_int, read_wz_int64, read_unicode_string, read_ascii_string"]}
{"id": "C61", "title": "A property of an archive is found without reading its image", "statement": "In an archive that has been opened, after any history of looking nodes up, reading them and forgetting what was read, asking for a path to a property without parsing gives the property that was stored under this path, with its name and value: the node of the tree if the image has been read, and a new node with everything below the property if not. A path to a property that is not there gives nothing, and so does a path that meets no image. Nothing in the tree changes.", "quantifier": "every archive, every path into an image, every history of look-ups, reads and forgets", "why_tests_cant": "The answer must be the same whether the image was read before or not, for every archive and after every history; tests look up a few paths in one archive in one state.", "anchors": ["src/util/node_util.rs: get_node_without_parse, get_image_node_from_path", "src/wz_image.rs: WzImage::at_path", "src/util/parse_property.rs: get_node"]}
{"id": "C62", "title": "Files that share decryptors do not disturb each other", "statement": "A program may open any number of files, with guessed keys, a given IV or a decryptor it already has, and parse them in any order and on several threads, while the decryptors grow and others are asked for or made. The keys with which the texts of an open file are read never change. The keys of its PKG2 names change only while the file itself tries keys, and never if its keys were found on opening. Opening a file late gives the same file or error as opening it first, and the decryptors of the known versions stay what they are.", "quantifier": "every sequence of openings, attempts at keys, growths and requests for decryptors, in which no file gets the PKG2 decryptor of a file without known keys; every block cipher", "why_tests_cant": "The global decryptors are shared by all files of a process, so a fault shows only after particular histories; tests open one file, or a few in one order.", "anchors": ["src/util/string_decryptor/mod.rs: StringDecryptor, GLOBAL_STRING_DECRYPTOR, get_decryptor, get_decryptor_by_version, get_decryptor_by_iv", "src/reader.rs: WzBaseReader::new, with_existing_keys, get_decrypt_slice", "src/file.rs: WzFile::from_file, try_pkg2_profile, update_keys"]}
{"id": "C63", "title": "The full JSON of a node can be read back", "statement": "Exporting a node to its full JSON and reading the JSON gives a tree with the same names, types, numbers, texts, picture sizes and sound durations in the same places, without parents and without the data of pictures, sounds, images and files; exporting this tree again gives the same JSON. The JSON of every node says its name, type, data and children. The export fails exactly if there are raw data, a video or a script in the tree, apart from texts whose reading panics. Whatever JSON is read, every number in the tree that comes of it is within the bounds of its type, and a node with a whole number or a picture size outside of them is refused.", "quantifier": "every tree of nodes of any shape and depth with objects of every type; for reading, every JSON value", "why_tests_cant": "Tests export a handful of nodes of some types. What is lost (null, NaN, characters outside of the basic plane) depends on the value and on the order in which untagged variants are tried.", "anchors": ["src/node.rs: WzNode, to_json, arc_node_serde", "src/object.rs: WzObjectType", "src/property/mod.rs: WzSubProperty, WzValue", "src/property/string.rs: Serialize and Deserialize of WzString", "src/file.rs: WzFileMeta", "src/ms/header.rs: MsHeader"]}
{"id": "C64", "title": "Accessing the data of parsed nodes", "statement": "Whatever bytes an image is parsed from, every node of a parsed tree, or found by its path, gives its data like this: reading a text or link never panics (it is text or an out-of-bounds error, exactly by whether it lies in the file); raw data, videos and sounds give exactly the bytes at their place if the file has them all (PCM sounds behind a WAV header) and panic otherwise; a picture that goes beyond the file panics when extracted. Sounds with different names are saved into different files.", "quantifier": "every byte string, offset, key and arithmetic mode; every node at every depth of the result", "why_tests_cant": "the places and sizes come from the bytes of the file, which can be anything; which accesses panic depends on the sum of two such numbers", "anchors": ["src/property/raw_data.rs: get_buffer", "src/property/video.rs: get_buffer", "src/property/sound.rs: get_buffer, save", "src/property/string.rs: get_string", "src/util/parse_property.rs: parse_property_list, get_node"]}
{"id": "C65", "title": "An MS archive shows what was put into it", "statement": "Whatever files were written into an MS archive (version 1 or 2, any salt, keys and placement), opening it and parsing its node gives exactly one child per name, each can be opened to the image that was written, and every path below it shows the stored value or that there is none; whatever was looked up, opened and forgotten before. Every image can be found by its path from the root.", "quantifier": "every archive in the layout of version 1, and every archive of version 2 that is opened as such with names that have keys; every sequence of lookups, openings and closings; every path", "why_tests_cant": "archives, contents and histories are unbounded, and what is shown after a history must not depend on it", "anchors": ["src/ms/file.rs: parse", "src/ms/ms_image.rs: to_wz_image", "src/node.rs: parse, unparse, at, at_path_parsed", "src/wz_image.rs: resolve_children"]}
{"id": "C66", "title": "A file opened by its path shows what is in it", "statement": "Opening a file by its path makes a node with the name of the file without its ending and the given parent. If the file is an archive (PKG1, PKG2, 64-bit PKG2, MS), parsing that node succeeds and afterwards every path shows what is in the archive, whatever was looked up and forgotten before: with the right version and patch version given, or with nothing given and the key of the first name and the version found. A wrong version given has no effect. A single image file shows what is in it. A file that is not an archive gives an error.", "quantifier": "every file name, every archive in the described layouts (any size, depth, header, version), every key the first name was written with, every history of lookups", "why_tests_cant": "archives, names and histories are unbounded; opening goes through the header, the guess of the key, the guess of the version and the directory, and each must agree with the others", "anchors": ["src/node.rs: from_wz_file, from_wz_file_full, from_ms_file, from_img_file, from_img_file_with_iv", "src/file.rs: from_file, parse", "src/wz_image.rs: from_file", "src/reader.rs"]}
{"id": "C67", "title": "Overflow checks change nothing else", "statement": "A release build (overflow wraps around) gives the same results, errors and nodes as a debug build (overflow panics) for everything the library reads, unless the debug build panics because of an overflow: numbers and texts, images, a property by its path, the key and the version found for a file, directories, whole archives, MS archives, raw data, videos, sounds, scripts, pictures, and loading, looking up and walking nodes.", "quantifier": "every file, every key, every position, every tree of nodes and every path", "why_tests_cant": "tests run in one build; whether a panic of one build is caught, ignored or turned into another result somewhere on the way must be excluded for every function and every input", "anchors": ["src/reader.rs", "src/wz_image.rs", "src/directory.rs", "src/file.rs", "src/util/parse_property.rs", "src/property/*.rs", "src/ms/*.rs", "src/node.rs", "src/util/walk.rs"]}
{"id": "C68", "title": "A walk over an archive shows everything in it once", "statement": "Walking an archive, MS archive or image file from its root with forced parsing ends and gives the callback the root and then every directory, image, property, text and script that was put into it, each exactly once, with its name and its value; afterwards no image is parsed and no other node has changed. Any number of further walks show the same again.", "quantifier": "every archive (PKG1, PKG2, MS version 1 and 2, single image) without links and without a name twice in one place", "why_tests_cant": "Archives of any size and shape; that nothing is left out or shown twice cannot be seen from samples.", "anchors": ["src/util/walk.rs: walk_node", "src/node.rs: WzNode::parse, WzNode::unparse", "src/file.rs: WzFile::parse", "src/wz_image.rs: WzImage::resolve_children", "src/ms/file.rs: MsFile::parse"]}
{"id": "C69", "title": "Pictures, texts, sounds, data and scripts come out of an archive as they were put in", "statement": "After an archive or image file is opened and its root parsed, and after any history of looking up, parsing and unparsing, the node found under a path gives the payload that was stored there: get_image gives the picture the pixel data describe (of the picture its _inlink leads to, if it has one, through any number of links), get_string the text, get_buffer the sound, raw or video bytes, extract_lua the script; each accessor refuses every node of another kind. Asking for a payload changes nothing in the tree.", "quantifier": "every archive (PKG1, PKG2, MS, single image), every path, every history, every chain of _inlink references, also circular ones; in images with UOL links the payload is that of what the links lead to, and pictures there are those without _inlink and _outlink", "why_tests_cant": "Archives, paths, link chains and histories of any size; each payload goes through directory, image, links, decryption, decompression and decoding, which tests see one by one.", "anchors": ["src/property/png.rs: get_image, WzPng::extract_png", "src/property/string.rs: resolve_string_from_node", "src/property/sound.rs: WzSound::get_buffer", "src/property/raw_data.rs, src/property/video.rs: get_buffer", "src/property/lua.rs: WzLua::extract_lua", "src/node_cast.rs: try_as_*"]}
{"id": "C70", "title": "Links in the images of an archive lead where they say", "statement": "After an archive or image file is opened and its root parsed, and after any history of looking up, parsing and unparsing, a path that goes over UOL links leads to the node of the place the links say: a name goes down, '..' goes up, from the place that holds the link; the path goes on from there. The node found has the name and the value of that place. A link that leads nowhere stays a link and shows its text. A path that leads nowhere is not found.", "quantifier": "every archive (PKG1, PKG2, MS, single image), every path, every history, every image in which no name is twice in one place and no link leads over or to another link", "why_tests_cant": "Links, images, paths and histories of any size and shape; a link changes the tree for all paths that are looked up later, also through other links and back to the image itself.", "anchors": ["src/node.rs: WzNode::parse, WzNode::at_path, WzNode::at_path_parsed, WzNode::unparse", "src/util/node_util.rs: resolve_uol", "src/wz_image.rs: WzImage::resolve_children"]}
{"id": "C71", "title": "What is shown of a directory is stored in the file", "statement": "Whatever bytes a file has, if its directory is shown, then every name, kind, offset and size in it, at any depth, is stored in the file at the place where the directory is: entry by entry, in this order, with nothing left out and nothing added, and every image and directory lies in the file. A PKG2 directory that is shown has at least one entry and the same number before and after its entries. Of several entries with one name in a subdirectory the last is shown.", "quantifier": "every sequence of bytes, PKG1 and PKG2 (32-bit and 64-bit), every key, version and offset scheme, any depth and number of entries", "why_tests_cant": "It is a statement about all bytes a reader accepts, also those no tool writes: tests can only try files somebody made up, and a reader that makes up or drops entries for some bytes would pass them.", "anchors": ["src/directory.rs: WzDirectory::resolve_children", "src/directory.rs: WzDirectory::prepare_entries, WzDirectoryEntry::read_pkg1_entry, WzDirectoryEntry::read_pkg2_entry", "src/file.rs: WzFile::parse", "src/reader.rs: read_wz_string_meta, read_wz_int"]}
{"id": "C72", "title": "What is shown of an image is stored in it", "statement": "Whatever bytes an image has, if its contents are shown, then every property in it, at any depth, with its name, kind, value and the place and size of its payload, is stored in the image where it is read from: in this order, nothing added and nothing left out, except that of several children with one name only the last is kept. Bytes may be taken for only one thing, and everything they may be taken for is shown.", "quantifier": "every sequence of bytes, every key, every place, name and size of an image, any depth and number of properties, valid or damaged", "why_tests_cant": "It is about all bytes the reader accepts, also those no tool writes. Tests compare trees of chosen files, and a reader which makes up, drops or mixes up properties for bytes nobody tried would pass.", "anchors": ["src/wz_image.rs: WzImage::resolve_children", "src/util/parse_property.rs: parse_property_list, parse_property_node, parse_extended_prop", "src/reader.rs: read_wz_string_meta, read_wz_int"]}
{"id": "C73", "title": "What is shown of an MS archive stands in its table", "statement": "Whatever bytes an MS archive has, if it opens and its images are listed, then it begins with a header of the format, and the images listed are the entries of the encrypted table the header tells of: as many, in this order, each with the name, numbers and key stored there, at the place its entry says, counted from the first multiple of 1024 behind the table. Nothing is made up and nothing is left out.", "quantifier": "every sequence of bytes, every file name, both versions of the format, any number of entries, any numbers in them, negative ones too", "why_tests_cant": "It is about all bytes the reader accepts, also those no tool writes. Tests list the images of chosen archives, and a reader which makes up, drops or misplaces entries for bytes nobody tried would pass.", "anchors": ["src/ms/file.rs: MsFile::from_file, MsFile::parse, MsFile::parse_v1, MsFile::parse_v2", "src/ms/snow2_reader.rs: read_i32, read_utf16_string, write_bytes_to", "src/ms/chacha20_reader.rs: read_i32, read_utf16_string, write_bytes_to", "src/ms/ms_image.rs: MsImage::new, MsEntryMeta"]}
{"id": "C74", "title": "Direct access gives the first entry its path names, whatever else the image holds", "statement": "Whatever bytes an image has, fetching a property by a path whose inner names are names of blocks, without parsing the image, gives the first entry with the last name in the list the others lead to, and nothing else. (For an inner name that is not there, what happens is stated too, see C24 for why that is wrong.) Entries with other names need not be readable: only what says how long they are has to be there. Where the whole image can be parsed and each name of the path is the name of one entry, the inner ones of properties, the result is what parsing the image and walking the path gives, the node or that it is not there.", "quantifier": "every sequence of bytes, valid or damaged, every path, every key stream", "why_tests_cant": "Two separate parsers have to agree on all bytes either accepts, and the one for direct access has to pass over whatever stands before the entry, also what no tool writes. Tests compare chosen images.", "anchors": ["src/util/parse_property.rs: get_node, parse_property_node", "src/wz_image.rs: WzImage::at_path"]}
{"id": "C75", "title": "Every node of an archive shows what stands in the file at its place", "statement": "Whatever bytes a file has, and whatever was read, forgotten, looked up, walked over or fetched before: a node below the node of the file shows exactly what the stored directory, or the image stored there, says of the place that the node's parents and its full path name. What a node lists under a name has that place, or a link with a text stands there and leads to some other node of the archive. Nothing else can be reached by a path. If the file cannot be opened there are no nodes below its own.", "quantifier": "all bytes, all histories of reading calls in any order, all nodes, all places, all paths; PKG1, PKG2, single images, MS archives; both kinds of builds", "why_tests_cant": "A node shown at a wrong place, or a value left behind by an earlier reading, needs a particular order of calls on a particular (perhaps damaged) file; tests try a few orders on a few good files.", "anchors": ["src/node.rs: WzNode::parse, unparse, at_path_parsed, at_path", "src/node.rs: get_full_path", "src/util/walk.rs", "src/util/parse_property.rs: parse_property_list", "src/directory.rs: WzDirectory::resolve_children", "src/wz_image.rs: WzImage::resolve_children", "src/ms/ms_image.rs"]}
{"id": "C76", "title": "Threads that share a tree do not wait for each other for ever", "statement": "Several threads may look up, parse, unparse and walk the same tree at once. No schedule goes on for ever; while one thread changes a node no other thread looks at it; threads that only read never wait, leave the tree as it is and get what they would get alone; and threads that also parse and unparse never all wait for each other, so that each gets its answer.", "quantifier": "all trees, all numbers of threads, all sequences of calls of each (the next call may depend on the answers so far), all schedules, both policies of read-write locks towards waiting writers", "why_tests_cant": "A deadlock or a lost node depends on the order in which threads get their turns; a test sees a few of astronomically many orders, and on one operating system.", "anchors": ["src/node.rs: WzNodeArc, parse, unparse, at_path, at_path_parsed, get_full_path, filter_parent", "src/util/node_util.rs: parse_node, resolve_outlink", "src/util/walk.rs: walk_node", "examples/parallel_parse_wz_image.rs"]}
{"id": "C77", "title": "Threads that share an archive all find what stands in the file", "statement": "After an archive is opened any number of threads may look up paths, read and forget images in it at the same time. Whatever the schedule, they never wait for each other for ever, every answer is the node with the name and value stored in the file at that path, links taken for what they lead to, or that there is no such node, and what was found keeps its name and value though other threads forget the image it is in. Afterwards the archive shows the same as before.", "quantifier": "all archives (PKG1, PKG2), all numbers of threads, all sequences of operations, all schedules, both policies of read-write locks", "why_tests_cant": "An answer that is wrong only if another thread forgets the image between two steps of a lookup needs one particular schedule.", "anchors": ["src/node.rs: parse, unparse, at_path, at_path_parsed", "src/util/node_util.rs: resolve_uol", "src/file.rs: WzFile::parse", "src/wz_image.rs: WzImage::resolve_children"]}
{"id": "C78", "title": "Threads that share an MS archive all find what stands in the file", "statement": "After an MS archive is opened any number of threads may look up paths, open images by name, look up values below them and forget them at the same time. Whatever the schedule, they never wait for each other for ever, and every answer is the node with the name and value stored in the file, links taken for what they lead to, or that there is no such node; only a lookup below an image that another thread has just forgotten may find nothing. Afterwards the archive shows the same as before.", "quantifier": "all MS archives of both versions, all numbers of threads, all sequences of operations, all schedules, both policies of read-write locks", "why_tests_cant": "Whether an answer is wrong or two threads wait for each other depends on one particular schedule among very many.", "anchors": ["src/node.rs: parse, unparse, at, at_path, at_path_parsed", "src/ms/file.rs: MsFile::parse", "src/ms/ms_image.rs: MsImage::to_wz_image", "src/util/node_util.rs: resolve_uol"]}
{"id": "C79", "title": "A panic while one thing is read does not spoil others", "statement": "A program that goes on after a panic (it happened in another thread, or was caught) and then reads texts, scripts and pictures of the same or other files gets what it would get had the panicking access never happened.", "quantifier": "all sequences of reading texts, scripts and pictures, of all files and all file contents, with each of the three built-in decryptors", "why_tests_cant": "What an access gives could depend on every access before it, in whatever file; tests run each access in a fresh process or after a few harmless ones.", "anchors": ["src/property/png.rs: get_raw_data, extract_png", "src/property/lua.rs: extract_lua, get_mtb_keys_from_guess_lua_iv", "src/reader.rs: get_decrypt_slice", "src/util/string_decryptor/mod.rs: GLOBAL_STRING_DECRYPTOR"]}
{"id": "C80", "title": "A panic while one node is read makes no other node unusable", "statement": "A program that goes on after a panic (it happened in another thread, or was caught) can use every node whose own reading does not panic as if the panic had not happened; calls that need the lock of a node whose reading panicked panic.", "quantifier": "all trees, all contents of the files behind them, all sequences of parsing, forgetting, looking up paths with and without parsing, asking for full paths and resolving outlinks", "why_tests_cant": "Which locks a panic poisons depends on every lock held at that moment, and what is lost by it shows only in later calls on other nodes; tests stop at the first panic.", "anchors": ["src/node.rs: WzNode::parse, unparse, at_path, at_path_parsed, get_full_path, filter_parent, get_base_wz_file", "src/util/node_util.rs: parse_node, resolve_outlink"]}
{"id": "C81", "title": "Nodes live as long as a handle leads to them, and no longer", "statement": "However a program looks up nodes, keeps and drops handles, parses and forgets nodes: a node that can be reached going down from a handle still held is never freed or changed by dropping other handles or by forgetting other nodes; every other node is freed, so that nothing is left once the last handle is gone; and the path of a node stays the same while it is held.", "quantifier": "all contents of archives, all nodes in memory, all histories of lookups, parents taken, drops, parses and forgets, of any length", "why_tests_cant": "Whether memory is freed depends on the whole history of handles and on the shape of the links in the data; tests hold the root of one small archive for their whole run.", "anchors": ["src/node.rs: WzNode (parent: Weak, children), parse, unparse, at_path, get_full_path", "src/util/node_util.rs: resolve_uol"]}
{"id": "C82", "title": "A thread that panics neither blocks the others nor makes them see something wrong", "statement": "Threads share an archive, and some of them panic, each at any point: in a callback, on damaged data, or on a lock another thread left poisoned. Then no other thread waits for ever; while a thread writes to a node nobody else has it; every thread that does not panic gets the answers that are right for the archive; the nodes in memory are still those of the archive; only nodes that a panicking thread had locked for writing become unusable, and only threads that need one of them panic in turn.", "quantifier": "all archives of all formats, all threads and calls, all schedules, all points at which any of the threads panic, both policies of the lock", "why_tests_cant": "The number of points at which a thread can panic times the number of schedules is unbounded; tests run one thread, and none of them panics while it has a lock.", "anchors": ["src/node.rs: parse, unparse, at_path, at_path_parsed, get_full_path", "src/util/node_util.rs: resolve_outlink", "src/util/walk.rs: walk_node"]}
{"id": "C83", "title": "The JSON of an image, or of a whole archive, shows what its author put into it", "statement": "An archive is opened and used in any way: paths are looked up, images are read and forgotten. Then an image found by its path and read can be exported to JSON, and the JSON is an object that has every property under its name, nested as the author nested them: numbers, texts and vectors with their values, pictures with width and height, sounds with duration and kind, each beside its children, and nothing else. A link is exported as what it leads to, one that leads nowhere as its text. The export of the archive itself has the directories as objects with their children under their names, shows exactly the images that have been read at that time, and shows everything once each image has been read and none forgotten.", "quantifier": "all archives (PKG1, PKG2, 64-bit PKG2, and single images of MS archives of both versions), all histories of calls, all images and directories at any depth, all trees of properties", "why_tests_cant": "Tests export a few hand-made nodes; the claim is about every tree of properties at every depth in every archive, after every history.", "anchors": ["src/node.rs: to_simple_json, at_path_parsed, parse", "src/property/mod.rs: impl From<WzValue> for Value", "src/wz_image.rs: resolve_children"]}
{"id": "C84", "title": "The JSON of a node is taken at one moment, whatever other threads do", "statement": "While threads export nodes to JSON, others look up, parse, unparse, walk and export in the same tree. The exports change nothing, and if no thread writes each gets what it would get alone. No schedule makes all threads wait for each other. Whoever exports an image gets either nothing, if it is not read at that moment, or all that is in it, never a part of it.", "quantifier": "all trees, all numbers of threads and sequences of calls, all schedules, both policies of read-write locks towards waiting writers", "why_tests_cant": "Whether an export sees half of an image that another thread is reading or forgetting depends on the order of turns, of which there are astronomically many.", "anchors": ["src/node.rs: to_simple_json, parse, unparse, at_path, at_path_parsed", "src/util/walk.rs: walk_node"]}
