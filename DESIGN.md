# Design: a Lean 4 model of wz-reader-rs

All modules are under `lean/Verif/`. Each area has a model file (`Verif/<Area>/Model.lean`, with
citations to `/repo`), where useful a small specification (`Spec.lean`), helper lemmas
(`Lemmas.lean`) and the property theorems alone in `Props.lean`.

## Conventions

* Bytes are `BitVec 8`; machine words are `BitVec n`; buffers are `List Byte`; positions are `Nat`.
* `Result` is `Except Err`. A Rust panic (slice index, `unwrap`, arithmetic overflow in a build with
  overflow checks) is an `Err` constructor of its own, so "does not panic" is a provable statement.
* Where the code does unchecked arithmetic, the model takes an arithmetic mode: `checked` (debug builds,
  overflow = panic) or `wrap` (release builds). Theorems say which mode they are about.
* `Cell`/`&mut` state becomes explicit state, and is kept on the error path as well, because the Rust
  cursor keeps its position when a read fails.
* Recursion on file contents takes fuel; separate theorems show how much fuel is enough.
* AES, ChaCha20's block function, zlib, BC7, floating point and the file system are parameters.

## Plan per property

| id | model | proof |
|----|-------|-------|
| C01 | `Reader`: cursor monad, `readWzInt`, `readWzInt64` | encoder spec, decode after encode for every value, exact consumption |
| C02 | `Reader`: primitive reads | success iff in bounds; `_at` variants restore the position, errors included |
| C03 | `Reader`/`Str`: masks, key stream as a function `Nat → Byte` | xor involution per index, induction on the string |
| C04 | `Str`: metadata and eager readers | equality of both on every buffer under the no-overflow guard; counterexamples for malformed lengths |
| C05 | `Str`: string blocks | case split on the marker, position lemma |
| C06 | `Str`/`Utf`: UTF-8 and UTF-16 codecs, `from_str` | round trip for BMP text (`_partial`), witness for astral text |
| C07 | `Keys`: `ensure_key_size` step by step over an abstract block cipher | invariant "keys are a prefix of the ideal stream", preserved by every operation; interleavings as operation lists; the keys of scripts as a formula (`Keys/FormulaProps.lean`) |
| C08 | `Keys` | xor |
| C09 | `Keys`: `set_iv` | false: witness; `_partial` for fresh decryptors |
| C10 | `Offset`: the five calculators over `BitVec` | explicit inverse |
| C11 | `Version.Pkg1` | list membership characterisation |
| C12–C14 | `Version.Pkg2` | soundness of backtracking by a bit invariant, completeness where it holds, witnesses where not |
| C15 | `Keys.Pkg2` | mix is a composition of bijections; the keys of both profiles as formulas over literal constants (`Keys/FormulaProps.lean`) |
| C16–C17 | `Header` | encoder spec, round trip |
| C18–C20 | `Directory` | bounds from `verify`; round trip; cyclic witness |
| C21–C24 | `Prop`: property parser and `get_node` | encoder spec for trees, mutual induction; fuel bound; witness for canvas |
| C25–C30 | `Tree`: node arena | induction over trees and paths |
| C31–C35 | `Pixel` | bit arithmetic, index arithmetic, witnesses for sizes not divisible by 4 |
| C36 | `Sound` | layout equation |
| C37 | `Lua` | witness at byte 64, partial for texts whose 64-byte prefix is valid |
| C38–C40 | `Ms.Snow2`, `Ms.ChaCha` | chunking laws, refinement of the buffered readers to a one-shot stream |
| C41–C42 | `Ms.Header`, `Ms.Image` | arithmetic identities, round trip, witnesses |
| C43 | `Cast` | finite table |
| C44 | `Profile` | invariant over histories of opened files |
| C45 | `Resolve`: names, listing and merge of folders; the file system and the opening of an archive are parameters | the name rule against a written-out grammar; the merge against a relation; witnesses for shared folders, order, stray files |
| C46 | `Value`: JSON export over trees, and over nodes tied together by links (`Value/JsonHeapModel`) | total except non-finite floats and circles (witnesses); with links the export is that of the tree of all ways down |
| C47 | `Image`: IV guess and the check it makes | first match in a fixed order, both directions |
| C48 | `Value`: vectors | component-wise equations and overflow witness |
| C49 | `Version.Pkg1`: the fallback range | false: the hash of the first version is used for all, only 770 is ever tried |
| C50 | `Directory`: error values of every path | panics found as witnesses; the parts that cannot panic proved so |
| C51 | `Image`: kinds of images, their heads and contents | one theorem per kind; witnesses for the head test |
| C52 | `Ms.Snow2` against an independent SNOW 2.0 over GF(2^8) and GF(2^32) | refinement, table by table, then step by step |
| C53 | `Node`: lookup that parses on the way | the parsed heap keeps what was found; frame; termination; deadlock witness |
| C54 | `File`: PKG1 opening, given and guessed versions | characterisation of the version loop by a relation |
| C55 | `File/Guess*`: first name, verification and guessing of keys, `from_file` on a buffer; the stream of an IV is a parameter | first fitting key by an inductive relation; key confusion reduced to top bits of streams; witness for KMST1198 |
| C56 | `File/Iv*`: verification and guessing of the IV of an archive | UTF-16 decoding inverted; acceptance as existence of a text; units read by another key computed; witness for two-byte names |
| C57 | `Node/Picture*`: `get_image` up to the node that is unpacked; which values are pictures or texts are parameters | one theorem per kind of link, composed along rows of links; circles by induction on fuel; monotone fuel |
| C58 | `Whole`: the content parameter of `Node` is what the models of files, directories, images and properties read from the bytes; numbers are codes of values and sources | composition of C19, C21, C44, C51, C53, C54; an invariant of the heap kept by every look-up, read and forget |
| C59 | `Node/History*`: making, reading, forgetting, searching, walking, asking for pictures, merging, repairing and adding nodes as steps of one relation | invariants of the heap by induction over histories; in a merge the children being handed over are in no map |
| C60 | `Reader/Free*`: the functions of `reader.rs` that read from a slice without a cursor, with panics as values | a relation for the text at a place, shown to be exactly what each side reads; the four cases (head cut, text, negative, text cut) are exhaustive |
| C61 | `Whole/Direct*`: `get_node_without_parse` on the nodes of a whole archive; unread images are searched in the bytes | the invariant of C58 gives the image and its state after any history; C30 gives the image and the rest of the path, C24 the property in the bytes, C53 the node of a read image |
| C62 | `File/Share*`: a memory of decryptors with the global ones, files as pairs of handles, opening, trying keys, growing, asking for and making decryptors | invariant over all histories (kinds, streams of the global decryptors, ownership of the PKG2 decryptor of a file without keys); opening refines `WFile.fromBuf` and trying keys refines `WFile.updateKeys` |
| C63 | `Value/Serde*`: JSON values, writing and reading of nodes with their objects as serde's attributes say, `f64 as f32` | mutual induction over the tree and over the JSON; `f32OfF64 ∘ f64OfF32 = id` on finite numbers; texts by C06; bounds of what is read by induction over the tree that is read (`C63_in_range`) |
| C64 | `Media/Payload*`: access to raw data and videos, names of saved sounds; with the parser of Property and the accessors of Media and Png | postconditions of every parsing function, by induction over the lists and the depth; then the accessors on ranges with these bounds |
| C65 | `Whole/Ms*`: the nodes of an MS archive, from its bytes; with the archive of Ms, the images of Whole and the nodes of Node | an invariant over everything a user does with the nodes (each image unread, read or forgotten), and the layout theorems of C41 and C42 |
| C66 | `Whole/Open*`: the constructors of nodes from files, on the name and the bytes of the file; with the header of Header, the guessed keys of File and the whole archives of Whole | composition: the header theorems (C16, C17) and the guessed key (C55) give the file, C58 and C65 what it shows; the name by a separate account of file names without ending; for 64-bit PKG2 files the bytes of the count decide which key is found |
| C67 | `Mode/*`: all functions of the model that do checked arithmetic, with and without the checks: readers, images, directories, files, keys, MS archives, media, pictures, nodes | a relation between two results (equal, or the first is the panic of an overflow) that every construct of the model keeps; by structural induction through all functions |
| C68 | no new model: `NHeap.walkForce` (C28), and `NHeap.walkForceIn` for any order of the children, on the nodes of whole archives (C58, C65) | a list of everything in the archive, made from what the author put in; the directory, then every image, is shown to be seen in that order; `C28_force_partial`, whose conditions are now about what the walk reads and nothing else, gives the walk; `C28_again_partial` (what a walk leaves behind is what it leaves behind the next time) gives all further ones; `C28_again_any_order_partial` (trees next to each other can be walked in any order, what they leave does not depend on it) gives those in the order of the hash maps |
| C69 | `Whole/MediaModel.lean`: the accessors of node_cast.rs, `get_image`, `get_string`, `get_buffer`, `extract_lua` on the nodes of whole archives (C58) | what the author stored under a path (picture, text, sound, data, script) against what the accessors give for the node of that path, after any history of lookups; `_inlink` chains inside an image end at a picture, at something else or in a circle; the decoders are those of C31–C37 and C64. An `_outlink` that leads through a node called Base is left to C57, BC7 pictures to the external decoder. Behind UOL links (`Whole/MediaLink*`, the `C69_links_*` theorems): every path C70 speaks of gives the payload of what is seen at its end, a link that leads nowhere gives its text, and a picture below which no text is seen as `_inlink` or `_outlink` gives its pixels; `_inlink` chains in images with links are not covered |
| C70 | the model of C58 with `resolveUol`, `uolTarget`, `replaceKid` of `Node/Model.lean` (C29) | `Node/LinkSpec.lean`: the places of an image, the way of a link, where a path is seen if links are taken for what they lead to; `Whole/LinkSpec.lean`, `Whole/LinkMsSpec.lean`: the same for whole archives and MS archives. Theorem for every history of lookups, parsing and unparsing. Asked of an image with links: no name twice in one place and no link over or to another link; what happens otherwise depends on the order of the nodes or panics, see `C29_link_to_link_counterexample`, `C29_link_to_link_order`, `C29_duplicate_panic` |
| C71 | the model of C18, C19, C44, C54 | the converse of C19. `Reader/ShownSpec.lean`: the bytes that are shown as a text, proper or not; `Directory/FoundSpec.lean`: from the bytes, everything that may be taken for a directory. Inversion of the readers (`Reader/ShownLemmas.lean`, `Directory/FoundLemmas.lean`), induction over entries and depth; whole files through C44 and C54 (`File/FoundProps.lean`); the other builds through C67 (`Mode/FoundProps.lean`) |
| C72 | the model of C21, C22, C51 | the converse of C21 and C51. `Property/TakenSpec.lean`, `Image/TakenSpec.lean`: from the bytes, everything they may be taken for, valid or not. Inversion of the readers (`Property/TakenLemmas.lean`, `Property/TakenTree.lean`), induction over depth; both directions, so reading and being taken for coincide (with enough fuel, `C72_list`, `C72_image`) and there is one reading (`C72_one_reading`) |
| C73 | the model of C39–C41 | the converse of C41. `Ms/TableSpec.lean`: the images that a table standing in the file says, whatever its numbers. Inversion of the two readers field by field (`Ms/TableLemmas.lean`: `Got1`, `Got2`, what has been read so far stands encrypted in the file), induction over the entries; with C41_accept_v1 and C41_header_v2_only for the whole file, with C67 in any build |
| C74 | the model of C24 | C24 for any bytes. `Property/DirectSpec.lean`: how entries are passed over, and which entry a path reaches (`Reached`, `NotReached`), from the bytes alone. Inversion of the search loop and its converse (`Property/DirectLemmas.lean`), so direct access gives `x` exactly if `x` is reached; the depth is bounded by C23_lookup. Comparison with the full parse along a way without double names (`ClearWay`): passing over an entry ends where reading it ends, and both are unique. The image around the list in `Image/DirectProps.lean`, other builds by C67 |
| C75 | the models of C57, C58 and C65 together | `Node/PlaceSpec.lean`: the place of a node by its parents, where a value can come from (`ComesFrom`), calls that only read. The invariant `Grounded` (`Node/PlaceLemmas.lean`): the kind of every node comes from its place, and what is listed under a name has that place, or a link with a text has. It is kept by `parse`, `unparse`, path lookups, walks and following the links of pictures, for any parser. `Whole/PlaceSpec.lean`: what stands at a place of a directory and of an image, through C71 and C72; `Whole/PlaceLemmas.lean`: nothing else comes from the parsers. Without overflow checks through C67, for files where no overflow stops the other build (`_partial`) |
| C76 | `Thread/Model.lean`: calls as programs that take and give back the lock of each node, threads, schedules, both policies of `RwLock` towards waiting writers | `Thread/Logic.lean`: a rely-guarantee logic. A thread is `Safe` if it takes locks only upwards in some order and changes the tree only in ways the others can stand; safe threads never wait in a circle, whatever the schedule. Programs are well-founded, so every schedule ends. For trees without links the order is that in which nodes are made (`MadeBefore`). Threads that only read: a simulation by the run alone. Every call changes a node that others may know of only while it has it locked for writing (`WritesLocked`), so between two steps of a thread that has a lock the node stays as it is. Where the code goes upwards under a lock the negation is shown by schedules |
| C77 | the models of C70 and C76 together | what C70 says of nodes is kept by whatever the other threads do (`Keeps76`): a node that was found keeps its name and value even if its image is forgotten meanwhile. The root first, all other nodes after it, is the order of locks, since no thread has two others at once |
| C78 | the models of C70 (MS archives) and C76 together | as C77 (`Keeps77`); images are also reached as children of the root, since their names may contain slashes. The order of locks has three levels: the root, the images, what is in them (`rank77`) |
| C79 | the three shared decryptors with their locks; a panic under a lock held for writing poisons it, and every later use panics (`KeyStore`). Texts, scripts and pictures as in C07, C37, C34 | the answer of each access in any history is the answer it gives alone, unless a damaged picture came before that needs the same decryptor (`Breaks`, `Needs`); such a picture is one whose data are no chunks inside the file or hold less than two bytes (`ChunkRun`). Induction over the history |
| C80 | the nodes with a mark for each poisoned lock (`Locked`); parse, forget, the lookups with and without parsing, full paths and forced outlinks, each node locked as in the code, a panic under a write lock poisons it | after any calls: the nodes are as calls without panics leave them, so C75 tells what they show; poisoned are only nodes whose own reading panics (`PanicsAlone`); each call gives what it gives without poisoned locks (`soundly`) or panics because it locks such a node (`CallLocks`), and then always. Induction over the path and the calls |
| C81 | the nodes with the handles of the program (`Life`); strong counts are handles plus entries in maps of children; looking up, going to the parent, dropping, parsing and forgetting; freeing as a worklist with fuel that is shown to suffice | an invariant over all histories (every node is held by the program or is a child of a node); what handles reach is untouched by freeing; without circles, a rank argument shows that exactly the rest is freed; for contents without links numbers rise along children, so no circle arises; circles shown to survive every drop; in all cases the nodes left are the largest set whose members are held by the program or by each other (`C81_exact`, `C81_left_over`). The histories of C59 and C75 keep all nodes alive; C81 says which nodes really stay |
| C82 | the threads of C76-C78, of which each may panic before any of its steps: its locks are given back, those for writing are poisoned, and a thread that gets a poisoned lock panics as well (`CrashPool`) | the rely-guarantee rules of C76 carry over: unwinding changes no node and only gives back locks; a measure of what is left to do shows that every row of events ends; answers of threads that did not panic and the nodes in memory are right, for all formats |
| C83 | `Whole/Json*`: the JSON export of C46 on the nodes of an archive of C58, each property with the reader of its archive | induction over the properties of the image: the nodes below it are those of its properties (C58), each child is exported under its name, beside the own fields of pictures and sounds; `ShowsJson` says what the JSON of a tree of properties is without mentioning nodes; `ShowsArc` says it of a whole archive of which some images have been read, and an induction over the history shows that what was read and not forgotten is shown; with links (C70) `ShowsPlace` says what the JSON of each place of an image is, links taken for what they lead to, and the export of an image in which no way goes round is followed with the places on the way as the measure |
| C84 | `Thread/JsonModel.lean`: the JSON export of C46 as a program of C76 that locks each node for reading while it is in it | it only reads, so exports alone follow from the simulation of C76. With threads that parse and unparse: values and links never change once made (`Fixed`), an image is either unread or has nodes that look like those of a parse alone (`Snap`, by the renaming of C26); the children are taken at one moment, under the lock, and what is below them cannot change. Locks are taken downwards, in the order in which nodes are made. For archives: threads with the reader of the archive do what threads do with a reader that refuses all places no directory names (`Alike`, `within`), so it is enough that the images of the archive have no links |

## Modelled code

| module | code in `/repo/src` |
|--------|---------------------|
| `Base`, `Text` | error values, arithmetic modes, UTF-8 and UTF-16 of the standard library |
| `Reader` | `reader.rs` (slice reader, strings, string blocks, metadata), `property/string.rs` |
| `Keys` | `util/string_decryptor/ecb_decryptor.rs`, `pkg2_decryptor.rs`, `util/maple_crypto_constants.rs` |
| `Header` | `header.rs` |
| `Offset` | `util/offset.rs` |
| `Version` | `util/version/pkg1.rs`, `util/version/pkg2.rs`, `util/version/mod.rs` 1-105 |
| `Directory` | `directory.rs` |
| `Property` | `util/parse_property.rs`, `property/mod.rs`, `property/raw_data.rs`, `property/video.rs` |
| `Image` | `wz_image.rs`, the IV of images in `util/version/mod.rs` 72-102 |
| `Pixel`, `Png` | `util/color.rs`, `property/png.rs` |
| `Media` | `property/sound.rs`, `property/lua.rs` |
| `Value` | `node_cast.rs`, `property/vector.rs`, the JSON export of `node.rs` |
| `Ms` | `ms/*` |
| `Node` | `node.rs` (paths, lookup, parse, unparse, merge), `util/node_util.rs`, `util/walk.rs`, `get_image` of `property/png.rs` |
| `File` | `file.rs` 74-382, `util/profile.rs`, `util/string_decryptor/mod.rs` 47-188, 212-222, 233-246, `util/version/mod.rs` 104-186 |
| `Resolve` | `util/resolver.rs` |
| `Whole` | `file.rs` 135-145 and how the pieces above fit together |
| `Thread` | which locks the calls of `node.rs`, `util/node_util.rs` 6-28 and `util/walk.rs` take, and in which order |

Not modelled: file access and memory maps (`File::open`, `Mmap`, `fs::read`; `WzFile::from_file` is modelled on the mapped bytes); `Display`, `Debug`, the code that `serde` derives (C63 models it after
serde's documentation; its source is not at hand); `node_name.rs` (interned names are texts); constructors of nodes that only wrap a value;
writing sound files to disk; `image` crate conversions after the
pixel buffer is made; memory exhaustion and stack overflow, except where a theorem shows that a recursion has no bound;
poisoned locks of the profile cache (those of the shared decryptors are in `C79`, those of nodes in `C80`, both for one call after the other; threads that panic are in `C82`).  The locks of nodes are modelled in `Thread` (`C76`, `C77`), and in the models without threads where a call
can wait for itself (`C28`, `C53`, `C57`); those of the shared key and the shared profile cache as interleavings of whole
operations (`C07`, `C44`), they are taken last and given back at once.

## Trusted base

* Lean 4.33.0: its kernel and elaborator of statements; Mathlib's definitions where a statement mentions them (a few lemma
  files only).
* `RwLock`: at most one writer and no reader beside it; whether a reader waits for a waiting writer is a parameter.  What a
  call does to the tree under a write lock is one step: it touches the locked node and nodes that no other thread has yet
  (`parse_frame`); following the links of an image while it is parsed never leaves the image, since it is locked and then
  asked for a child called `..` (node_util.rs 80-84).
* Axioms: every theorem of `MANIFEST.json` depends at most on `propext`, `Classical.choice` and `Quot.sound`, Lean's own three.
  The table at the end gives each theorem's set. There is no axiom of this development, no `sorry`, no
  `native_decide`, no `bv_decide`.
* That the model says what the Rust code does. Each definition cites its lines; there is no mechanical translation.
* Parameters, which the theorems quantify over, with the assumptions made about them:
  * AES-256 (`aes`, `ecb`): any function from a key and a block to a block of 16 bytes (`Aes.Sized`);
  * ChaCha20 (`c2-chacha`): any function giving 64 bytes for key, nonce and block number; that
    `set_stream_param(0, 0)` sets the block number to 0 is assumed from its name and use, the crate's source is not available here;
  * `flate2` inflate and the BC7 decoder: any functions;
  * content of a node source (`Content` in `Node`): any function, the same answer each time it is asked (in `Whole` it is the model's own parsers, and the codes of values and sources are Mathlib's `Encodable`);
  * the file system and archive opening (`Disk`, `Opening` in `Resolve`): any functions, the same answer each time.
  * which values of nodes are pictures, and the texts of string nodes, in `Node/Picture*` (`png`, `text`): any functions;
  * the key stream made from an IV in `File/Guess*` and `File/Iv*` (`st`): any function (that it is one stream is C07–C09, and `C62_open` puts the stream of the shared decryptors in its place);
* `f64` arithmetic in `ensure_key_size` is exact below 2^53; larger key requests are outside the model.
* Hash maps: the order of children is the list order of the model; no theorem but those on walks and merges mentions it, and
  these hold for every order of the list (the list is quantified over).
* rayon: parallel searches that collect in order are taken as lists.

## Disagreements found between the code and the properties

Each is a theorem with a concrete witness. The part of the property that holds is proved beside it.

| property | what the code does | theorem |
|----------|--------------------|---------|
| C02 | the save slot holds one position, so nested saves lose the outer one | `C02_save_not_nested` |
| C03 | the most negative stored length of a PKG2 directory name panics | `C03_pkg2_dir_min_panics` |
| C04 | a negative length moves the cursor back | `C04_negative_length_moves_back` |
| C06 | text outside the BMP is cut | `C06_astral_truncated`, `C06_pkg2_astral_truncated` |
| C09 | the IV of an ECB decryptor cannot be changed once keys exist | `C09_set_iv_ignored`, `C09_set_iv_violated` |
| C13 | generators V2 to V5 miss hashes that satisfy their own check | `C13_v2_misses` to `C13_v5_misses` |
| C14 | iteration over generators ends at the first one without candidates | `C14_stops_early` |
| C16 | without a version field, a directory of 256·k entries is taken for one with the version checksum 0x80 | `C16_count_256_misread` |
| C18 | release builds: a negative stored size passes the bounds check | `C18_negative_size_outside` |
| C19 | 64-bit PKG2 subdirectories with a negative encrypted count are refused | `C19_pkg2_64_negative_count` |
| C20 | a directory that refers to itself never ends; a PKG2 entry loop can run for ever | `C20_cycle_never_ends`, `C20_entry_loop_forever` |
| C22 | an unknown point kind in a convex shape renames the shape | `C22_unknown_point_renames_shape` |
| C23 | a negative count panics; release builds recurse without end on a 28 byte buffer | `C23_negative_count_panics`, `C23_wrap_never_ends` |
| C24 | direct access misses canvas children, finds a node behind a missing component, takes the first of two equal names | `C24_canvas_child_not_found`, `C24_missing_component_found`, `C24_first_or_last` |
| C25 | names with a slash break paths; the root's own path leads nowhere | `C25_slash_counterexample`, `C25_root_itself` |
| C26 | a directory that was unparsed parses to no children and reports success | `C26_directory_counterexample` |
| C27 | of two nodes with one name, the moved one's value is lost | `C27_content_lost_counterexample` |
| C28 | an image that is parsed when a forced walk comes loses what is below it; the next walk reads it again | `C28_again_counterexample` |
| C28 | links: nodes visited twice (once per way, `C28_once_per_way`), endless walk (exactly if a way goes in a circle, `C28_ends_iff`), deadlock | `C28_link_counterexample`, `C28_endless_counterexample`, `C28_deadlock_counterexample` |
| C29 | `..` above the top, `.`, links out of an image being parsed, links to links, links below overwritten nodes | `C29_above_counterexample`, `C29_dot_counterexample`, `C29_out_of_image_counterexample`, `C29_link_to_link_counterexample`, `C29_duplicate_panic` |
| C30 | an image as last piece panics; `.img` inside a directory name; second `.img` | `C30_last_panic`, `C30_last_counterexample`, `C30_suffix_counterexamples` |
| C31 | the ten-bit format loses two bits of each channel | `C31_ten_bits_not_recoverable` |
| C32 | DXT pictures whose width is no multiple of four are skewed or fail; format 517 for widths that are no multiple of 16 | `C32_default_wrong`, `C32_sequential_fails`, `C32_squares_skewed` |
| C34 | malformed chunks panic or are read behind their block | `C34_short_panics`, `C34_bad_length_panics`, `C34_reads_behind` |
| C35 | BC7 buffers are too small when four does not divide a side; sizes overflow | `C35_bc7_too_small`, `C35_overflow` |
| C36 | sounds near 4 GiB overflow the header; bad ranges panic | `C36_too_long`, `C36_bad_ranges` |
| C37 | the 64-byte probe may end inside a character; a wrong key may win | `C37_border_violated`, `C37_wrong_key_wins` |
| C39 | odd reads spoil what follows, short byte reads panic | `C39_odd_number`, `C39_split_panics` |
| C40 | the key stream starts anew after a read that ends on a block border | `C40_restart`, `C40_border` |
| C41 | version 2 never checks its hash; the version 1 attempt can crash on a version 2 file | `C41_header_v2_only`, `C41_open_v2_counterexample`, `C41_table_border` |
| C42 | empty names, and short names that are not ASCII, panic | `C42_key_empty`, `C42_key_v2_panic` |
| C44 | a multiple of 16 under profile 1198 opens only from the cache; the name check accepts every key; profile 1199 is never used | `C44_cached_only_counterexample`, `C44_name_check_blind`, `C44_never_1199` |
| C45 | base name and extension are not compared, large numbers ignored, shared folders mixed, order matters, crashes | `C45_any_base`, `C45_any_extension`, `C45_large_number`, `C45_shared_folder_counterexample`, `C45_order_counterexample`, `C45_stray_file`, `C45_empty_subfolder`, `C45_relative_path`, `C45_linked_folder` |
| C46 | NaN and infinities panic; an empty container becomes null; values of nodes with children are lost | `C46_nan`, `C46_empty_container`, `C46_value_with_children`, `C46_hidden_field` |
| C46 | a resolved link to a node above it makes the export of that node run out of stack | `C46_circle_counterexample` |
| C47 | an empty image panics; release builds accept one negative length | `C47_empty_panics`, `C47_wrap_accepts_negative_length` |
| C48 | overflow panics or wraps, division by zero panics | `C48_add_partial`, `C48_div_partial` |
| C49 | without a stored version only 770 is tried | `C49_only_770`, `C49_never_above` |
| C50 | names behind the end, negative references and a wrong scheme panic | `C50_name_past_end_panics`, `C50_negative_reference_panics`, `C50_wrong_scheme_panics` |
| C51 | the head test joins with "and": one wrong part is accepted; short packed text panics | `C51_wrong_name_accepted`, `C51_packed_truncated_panics` |
| C52 | key bytes from 0x80 are sign-extended, unlike the standard | `C52_signed` |
| C53 | a path through a link back to the start hangs | `C53_deadlock_counterexample` |
| C54 | a given version is not used for headerless files other than 770; seven digits overflow | `C54_given_headerless`, `C54_given_overflow` |
| C55 | KMST1198 archives with a short first name are taken for unencrypted and fail to open; a given PKG2 key is tested without using it; non-ASCII, stored-elsewhere and missing first names leave no key; a negative length panics | `C55_kmst1198_counterexample`, `C55_kmst1198_short`, `C55_given_pkg2`, `C55_other_text`, `C55_name_elsewhere_counterexample`, `C55_no_name`, `C55_length_panics` |
| C56 | an encrypted archive whose first name has two bytes a character is taken for an unencrypted one, since nearly every sequence of units is a text; an empty first name is accepted with every IV; a negative length panics | `C56_wide`, `C56_wide_taken_for_plain`, `C56_wide_counterexample`, `C56_empty_name`, `C56_length_panics` |
| C57 | links of pictures that go in a circle never come back; an outlink that goes through the asking picture, or a picture before it in the row, hangs on its own lock | `C57_circle_counterexample`, `C57_through_itself_counterexample` |
| C59 | adding a node does not set its parent, and the target of a link is listed under the link's name: the full path of such a node is not where it is found | `C59_added_counterexample`, `C59_link_counterexample` |
| C60 | the stand-alone text functions panic on a text that is cut off and give an empty text for a negative length; the reader returns an error (or panics with overflow checks) | `C60_cut_counterexample`, `C60_negative_counterexample` |
| C61 | `get_node_without_parse` panics on a path without ".img" that ends at an image, and gives nothing for the text of a text file or script until the image has been read | `C61_image_counterexample`, `C61_closed_counterexample` |
| C62 | when the PKG2 decryptor of a file whose keys are not known is given to another file, the first file changes the names of the other; `get_decryptor(Custom)` panics | `C62_lent_counterexample`, `C62_by_type` |
| C63 | "full json that can deserialize back": a null and a float that is not finite come back as a property, a character outside of the basic plane is lost, raw data, videos and scripts make the export fail; a picture without data is read as null | `C63_null_counterexample`, `C63_nan_counterexample`, `C63_astral_counterexample`, `C63_exported_iff`, `C63_picture_counterexample` |
| C64 | data that goes beyond the end of the file is no error while parsing and a panic when it is accessed; sounds whose names differ behind a dot are saved into one file | `C64_cut_counterexample`, `C64_save_names_counterexample` |
| C65 | the images of MS archives have paths for names, and names with a slash are never found by path, only as children of the root | `C65_slash`, `C65_slash_counterexample` |
| C66 | the documentation of `from_wz_file` promises an error for a file that is not an archive; any bytes give a node, and the error comes only when it is parsed | `C66_wz_not_archive_counterexample`, `C66_wz_never_refused` |
| C66 | the key of a 64-bit PKG2 file's names is looked for as if its count had four bytes: bytes of the count are taken for a type, a length and a name. If they pass for a name under the key of KMST1198, that key is taken and the names come out wrong | `C66_pkg2_64_counterexample`, `C66_pkg2_64_guess` |
| C66 | for the same reason opening such a file panics, in builds with overflow checks, if the sixth byte of the count is 128 | `C66_pkg2_64_panics` |
| C67 | a text whose stored length is negative is a panic in a debug build; a release build reads it without an error, gives it more than four billion characters and goes back in the file | `C67_counterexample` |
| C68 | of two things with one name in one place the walk shows only the last | `C68_twice_counterexample` |
| C70 | In an image opened on its own, a link may lead back to the image (`..` one level down). `at_path` follows it, `at_path_parsed` called on the image hangs: it waits for a lock its caller holds | `C70_way_back_counterexample`, `C70_hangs`; `C70_image_parsed_partial` for images without such links |
| C71 | Without overflow checks an image whose stored size is negative is shown with a huge size | `C71_unchecked_counterexample`; `C71_unchecked_partial`: otherwise the build with checks stops at an overflow |
| C72 | Without overflow checks a packed text whose directory entry says it is shorter than its head is shown with nearly 2^64 bytes | `C72_unchecked_counterexample`; `C72_unchecked_partial`: otherwise the build with checks stops at an overflow |
| C73 | A version 1 entry whose name is said to have 2^30 or more characters is shown with a name of that many NULs, though no byte of it is read: the count of bytes turns negative | `C73_long_name_counterexample` (48 bytes of table); `C73_table_v1_partial`, `C73_shown_partial`: for shorter names |
| C76 | Following an outlink with `force_parse` locks the base for writing and then the nodes on the way, while `get_full_path` locks a node and then those above it: two threads wait for each other for ever | `C76_outlink_counterexample` |
| C76 | Where the operating system lets readers wait for waiting writers: a lookup with parsing, a thread that asks for a full path and one that parses the root wait for each other for ever; so do a walk whose callback asks for the full path (as in the library's examples) and a thread that parses the root | `C76_lookup_counterexample`, `C76_walk_counterexample` |
| C76 | Two walks with `force_parse` over one tree: one forgets an image between the other's parse and its look at the children. The other finds the image empty and reports no error | `C76_walks_counterexample` |
| C78 | A thread that forgets an image between another thread's parse and its lookup below it: the lookup finds nothing, though the value stands in the file | `C78_forgotten_counterexample`; all other answers are right (`C77`, `C78`) |
| C79 | A picture whose chunk lengths run past the end of the file panics while the decryptor shared by all files is locked for writing. From then on every encrypted text, every script (it is the first decryptor scripts try) and every encrypted picture of every file with that decryptor panics | `C79_counterexample`, `C79_spoiled`; `C79_answers_partial`: everything else is as before |
| C80 | `resolve_outlink` with `force_parse` keeps the base locked for writing while it parses nodes below it. If one of them panics the lock of the base is poisoned too, and every later call that goes through the base panics, even for undamaged images | `C80_counterexample`; without forced outlinks only the damaged nodes themselves are lost (`C80_answers_partial`), with them only bases in addition (`C80_outlinks`) |
| C81 | (1) A link in an image that leads to a node above it makes a circle of strong references: once the handles are dropped these nodes are never freed, and no call can reach them (node_util.rs 57-106, node.rs 43). (2) A node does not keep its parents: after the handle of the archive is dropped the full path of an image still held is only its own name (node.rs 41, 271-280). | `C81_leak_counterexample`, `C81_ring`, `C81_path_counterexample`; proved: `C81_exact_partial`, `C81_no_links`, `C81_path_partial` |
| C82 | A thread that panics while it has a node locked for writing makes other threads panic that do nothing but look up a path through that node: all calls `unwrap` the lock (node.rs 424-447). | `C82_spreads_counterexample`; proved: nobody waits for ever, and who does not panic gets right answers (`C82_trees_partial`, `C82_archive`, `C82_pkg1`, `C82_pkg2`, `C82_ms`); exactly what is spoiled (`C82_spoils`) |
| C83 | An image with a NaN or an infinity in it cannot be exported at all, the call panics; an image with a link back to something above it is exported without end; an image that was not read is exported as null without a word (node.rs 550-593, property/mod.rs 95-96). | `C83_nan_counterexample`, `C83_round_counterexample`, `C83_unread`; proved for images with links in which no way goes round and with finite numbers only: `C83_links_archive_partial`, `C83_links_pkg1_partial`, `C83_links_pkg2_partial`, `C83_links_pkg2_64_partial`, `C83_links_image_partial`, `C83_links_ms_archive_partial`, `C83_links_ms_v1_partial`, `C83_links_ms_v2_partial`; for images without links, which may also have a name twice: `C83_archive_partial`, `C83_pkg1_partial`, `C83_pkg2_partial`, `C83_pkg2_64_partial`, `C83_ms_archive_partial`, `C83_ms_v1_partial`, `C83_ms_v2_partial` |
| C84 | The export of a directory is not taken at one moment: it can show a file that was opened later and nothing of one that was opened before (node.rs 587-590). Where readers wait for waiting writers, an export, a thread that asks for a full path and two that parse can wait for each other for ever. | `C84_two_files_counterexample`, `C84_path_counterexample`; proved for single images (`C84_all_or_nothing_partial`) and for threads that only go downwards, in trees without links (`C84_no_deadlock_partial`) |

Two remarks without a property: the BC2 and BC3 decoders use the rule of BC1 for three colours when `c0 <= c1`, where the
formats ask for four; the buffer of `DXT3SM` pictures is `4·w·h`.

## Wrong programs

`seeded/LOG.jsonl` has one line per edit of the model in a scratch copy: the definition, the edit, the claim it breaks, the
theorems that stopped proving, and the theorems that were tightened when none did.

<!-- axioms -->
## Axioms of each theorem (from `#print axioms`)

* none (3): `C02_meta_at`, `C17_tables_distinct`, `C46_same_at`
* propext (38): `C02_read_unsigned`, `C02_read_signed`, `C02_save_not_nested`, `C07_default_key`, `C09_set_iv_partial`, `C09_pkg2_set_iv`, `C16_data_start`, `C20_entry_loop_forever`, `C25_full_path`, `C25_root_path`, `C25_image_path`, `C25_image_path_none`, `C25_circle`, `C25_filter_parent_none`, `C25_inlink_none`, `C26_parse_again`, `C26_parse_value`, `C26_failed`, `C26_fails`, `C26_unparse_archive`, `C29_no_parent_panic`, `C30_empty`, `C36_written`, `C37_ascii_border`, `C43_access`, `C43_exclusive`, `C43_flags`, `C43_converted`, `C53_decided`, `C60_nat`, `C60_int`, `C64_save_names_partial`, `C64_save_names_counterexample`, `C76_every_schedule_ends`, `C76_at_path_reads`, `C76_upwards_reads`, `C76_walk_reads`, `C78_forgotten_counterexample`
* propext, Quot.sound (130): `C02_string_at`, `C02_history`, `C03_storable`, `C03_pkg2_dir_min_panics`, `C04_strict_lossy`, `C04_negative_length_moves_back`, `C05_other`, `C05_offset_cursor`, `C06_pkg2_astral_truncated`, `C07_user_key`, `C12_v1_sound`, `C12_v6_sound`, `C13_v1_complete`, `C13_v6_complete`, `C14_all_partial`, `C14_any_partial`, `C14_past_none`, `C14_stops_at_empty`, `C15_kmst1199_formula`, `C15_kmst1202_formula`, `C15_kmst1199_injective`, `C15_kmst1199_injective_hash1`, `C15_kmst1202_injective`, `C16_header_slice_short`, `C16_no_panic`, `C18_negative_size_outside`, `C20_cycle_never_ends`, `C20_entry_loop_reached`, `C25_pieces`, `C25_filter_parent`, `C26_unparse`, `C26_directory_counterexample`, `C26_directory_spent`, `C27_repair`, `C28_list_order`, `C28_once_per_way`, `C28_walk_partial`, `C28_walk_reaches`, `C28_circle_counterexample`, `C28_link_counterexample`, `C28_deadlock_counterexample`, `C28_endless_counterexample`, `C28_again_counterexample`, `C31_bgra4444_fields`, `C31_ten_bits_not_recoverable`, `C32_default_short`, `C34_plain`, `C34_reads_behind`, `C35_sizes`, `C35_other_sizes`, `C35_unknown`, `C35_bc7_too_small`, `C35_overflow`, `C36_bad_ranges`, `C38_chunks`, `C38_rest`, `C39_odd_number`, `C40_restart`, `C40_border`, `C40_last_chunk`, `C40_write`, `C41_version_v2`, `C41_open_short`, `C41_table_border`, `C42_key_v1`, `C42_key_v2_partial`, `C42_key_empty`, `C42_digits`, `C43_uncovered`, `C43_ms_hidden`, `C44_no_version`, `C44_failure_not_cached`, `C45_rule`, `C45_any_extension`, `C46_order`, `C46_empty_container`, `C46_value_with_children`, `C46_unreadable`, `C46_text_no_panic`, `C47_other_first_byte`, `C47_empty_panics`, `C47_open_image_errors`, `C48_eq`, `C49_never_above`, `C50_name_past_end_panics`, `C50_negative_reference_panics`, `C50_wrong_scheme_panics`, `C52_signed`, `C55_name_elsewhere_counterexample`, `C55_given_iv`, `C55_found_used`, `C55_found_known`, `C57_not_a_picture`, `C59_values_stay`, `C60_wz_int`, `C60_by_len`, `C60_by_len_panics`, `C60_cut_counterexample`, `C60_negative_counterexample`, `C60_block_inline`, `C60_block_other`, `C63_exported_iff`, `C63_no_parents`, `C63_reads_all`, `C63_unknown_type`, `C63_null_counterexample`, `C63_nan_counterexample`, `C63_picture_counterexample`, `C63_in_range`, `C63_wide_picture`, `C63_number`, `C64_stored`, `C66_first_entry`, `C67_reader`, `C67_text`, `C67_free`, `C67_image`, `C67_open`, `C67_nodes`, `C67_media`, `C67_picture`, `C67_counterexample`, `C68_twice_counterexample`, `C71_unchecked_counterexample`, `C76_readers`, `C76_alone`, `C82_spoils`, `C82_poisoned`, `C82_answer_iff`, `C82_no_crash`
* propext, Classical.choice, Quot.sound (570): `C01_int32`, `C01_int64`, `C01_int32_only`, `C01_int64_only`, `C02_read_written`, `C03_read_string`, `C03_ascii_only`, `C03_unicode_units`, `C03_ascii_bytes`, `C03_pkg2_dir`, `C04_eager_lazy`, `C04_lazy_eager`, `C04_meta_in_bounds`, `C05_inline`, `C05_by_offset`, `C05_block_eager_lazy`, `C06_from_str_iff`, `C06_from_str_partial`, `C06_astral_truncated`, `C06_from_str_pkg2_partial`, `C07_script_decryptor`, `C07_script_changes`, `C07_decrypt_after_history`, `C07_at_after_history`, `C07_generated_bytes`, `C07_prefix_stable`, `C07_request`, `C07_encrypt_after_history`, `C07_concurrent`, `C08_ecb_involution`, `C08_zero_iv`, `C08_pkg2_involution`, `C08_bytewise`, `C09_set_iv_ignored`, `C09_set_iv_violated`, `C10_decode_stored`, `C10_stored_unique`, `C10_total`, `C10_count_stored`, `C10_count_too_big`, `C10_count_negative`, `C11_hash`, `C11_hash_overflow`, `C11_sequence`, `C11_candidates`, `C11_parse_with_version`, `C12_v2_sound`, `C12_v3_sound`, `C12_v4_sound`, `C12_v5_sound`, `C12_no_duplicates`, `C12_verifiers`, `C13_v2_exact`, `C13_v3_exact`, `C13_v4_exact`, `C13_v5_exact`, `C13_v2_complete_partial`, `C13_v3_complete_partial`, `C13_v2_misses`, `C13_v3_misses`, `C13_v4_misses`, `C13_v5_misses`, `C14_sound`, `C14_stops_early`, `C15_period`, `C15_effective_bits`, `C16_pkg1_version`, `C16_pkg1_no_version`, `C16_pkg2`, `C16_too_short`, `C16_header_slice`, `C16_pkg2_truncated`, `C16_count_256_misread`, `C17_random64`, `C17_random32`, `C17_size_must_match`, `C17_storable64`, `C17_storable32`, `C17_rejected`, `C18_inside_partial`, `C18_inside_checked`, `C18_count_pkg1`, `C18_bad_count_rejected`, `C19_pkg1`, `C19_pkg2`, `C19_pkg2_64_partial`, `C19_pkg2_64_negative_count`, `C20_ranked_partial`, `C20_forward_partial`, `C21_tree`, `C21_tree_bound`, `C22_resync`, `C22_following_entries`, `C22_unknown_kind`, `C22_unknown_code`, `C22_unknown_point_renames_shape`, `C23_image_partial`, `C23_depth_partial`, `C23_bound_irrelevant_partial`, `C23_lookup_partial`, `C23_negative_count_panics`, `C23_wrap_never_ends`, `C24_image_same_partial`, `C24_same_partial`, `C24_missing_partial`, `C24_canvas_child_not_found`, `C24_missing_component_found`, `C24_first_or_last`, `C25_at_path`, `C25_at_path_relative`, `C25_leads_back`, `C25_leads_back_image`, `C25_slash_counterexample`, `C25_root_itself`, `C25_inlink`, `C25_outlink`, `C26_parse_shows`, `C26_parse_same`, `C26_restores`, `C26_history`, `C27_merge`, `C27_content_lost_counterexample`, `C28_force_any_order_partial`, `C28_again_any_order_partial`, `C28_depth`, `C28_ends_iff`, `C28_any_order`, `C28_force_partial`, `C28_again_partial`, `C29_path_partial`, `C29_above_counterexample`, `C29_at_top`, `C29_dot_counterexample`, `C29_resolve`, `C29_resolve_none`, `C29_unlocked`, `C29_locked_sound`, `C29_locked_root`, `C29_agree`, `C29_out_of_image_counterexample`, `C29_link_to_link_counterexample`, `C29_link_to_link_order`, `C29_duplicate_panic`, `C30_no_suffix_partial`, `C30_last_panic`, `C30_last_counterexample`, `C30_no_image`, `C30_suffix`, `C30_suffix_total`, `C30_usual_partial`, `C30_suffix_counterexamples`, `C31_rgb565_fields`, `C31_argb1555_fields`, `C31_rgba1010102_fields`, `C31_fields_cover`, `C31_widening`, `C31_ten_bits`, `C31_recoverable`, `C32_default_partial`, `C32_default_any_width`, `C32_default_wrong`, `C32_sequential_partial`, `C32_same`, `C32_once`, `C32_sequential_fails`, `C32_sequential_short`, `C32_plain`, `C32_plain_short`, `C32_squares`, `C32_squares_skewed`, `C33_colors`, `C33_alphas`, `C33_indices`, `C33_block_dxt3`, `C33_block_dxt5`, `C34_encrypted`, `C34_chunking`, `C34_ends`, `C34_short_panics`, `C34_bad_length_panics`, `C34_picture_partial`, `C35_enough_partial`, `C36_wav_partial`, `C36_stored_partial`, `C36_too_long`, `C37_read`, `C37_text_partial`, `C37_border_violated`, `C37_border_example`, `C37_wrong_key_wins`, `C38_roundtrip`, `C38_stream`, `C39_pieces_partial`, `C39_even_partial`, `C39_end_partial`, `C39_split_panics`, `C40_pieces_partial`, `C40_end_panics`, `C41_header_v1`, `C41_header_v1_only`, `C41_accept_v1`, `C41_header_v2`, `C41_header_v2_only`, `C41_salt_v2_debug`, `C41_open_v1`, `C41_open_v2_partial`, `C41_open_v2_crash`, `C41_open_v2_counterexample`, `C41_table_v1`, `C41_table_v2`, `C41_file_v1`, `C41_table_debug_v1`, `C41_table_debug_v2`, `C41_table_negative`, `C41_table_plain`, `C42_key_v2_panic`, `C42_nonce`, `C42_data_v1`, `C42_data_v2_partial`, `C42_size`, `C42_outside`, `C44_cache_independent_partial`, `C44_cached_is_listed`, `C44_cached_only_counterexample`, `C44_wide_cache_irrelevant`, `C44_wide_opens`, `C44_narrow_opens`, `C44_key_irrelevant`, `C44_name_check_blind`, `C44_first`, `C44_solves`, `C44_file_after`, `C44_history`, `C44_history_opened`, `C44_never_1199`, `C45_parts_found_partial`, `C45_large_number`, `C45_any_base`, `C45_merge`, `C45_names`, `C45_disjoint`, `C45_stray_file`, `C45_empty_subfolder`, `C45_ends`, `C45_shared_folder_counterexample`, `C45_order_counterexample`, `C45_base_names`, `C45_not_base`, `C45_relative_path`, `C45_linked_folder`, `C46_succeeds_iff_partial`, `C46_shows_partial`, `C46_no_circle`, `C46_circle_counterexample`, `C46_total_partial`, `C46_panics`, `C46_nan`, `C46_faithful_partial`, `C46_float`, `C46_hidden_field`, `C47_verify_accepts`, `C47_verify_iff`, `C47_wrap_accepts_negative_length`, `C47_guess_first`, `C47_guess_none`, `C47_long_text_panics`, `C47_open_image`, `C47_found_in_any_build`, `C48_add_partial`, `C48_sub_partial`, `C48_mul_partial`, `C48_div_partial`, `C48_distance_partial`, `C49_only_770`, `C50_entries_no_panic_partial`, `C51_accepted_heads`, `C51_property_image`, `C51_property_image_bound`, `C51_both_wrong_refused`, `C51_wrong_name_accepted`, `C51_text_image`, `C51_lua_image`, `C51_lua_without_name`, `C51_packed_image`, `C51_packed_truncated_panics`, `C51_packed_short_block`, `C51_other_first_byte`, `C52_keystream`, `C52_standard`, `C53_found_again`, `C53_only_on_the_way`, `C53_leads`, `C53_deadlock_counterexample`, `C54_first`, `C54_only`, `C54_none`, `C54_failure`, `C54_given`, `C54_given_headerless`, `C54_given_overflow`, `C54_again`, `C54_opens`, `C55_no_name`, `C55_empty_name`, `C55_pkg2_empty`, `C55_name_elsewhere`, `C55_length_panics`, `C55_parse`, `C55_kmst1198_counterexample`, `C55_found_narrow`, `C55_found_wide`, `C55_other_text`, `C55_pkg2_taken_for_plain`, `C55_kmst1198_short`, `C55_kmst1198_long`, `C55_given_pkg2`, `C55_guess_pkg1`, `C55_guess_pkg2`, `C55_guess_pkg2_wide`, `C55_given_used`, `C56_wide_counterexample`, `C56_verify`, `C56_guess`, `C56_found`, `C56_right_iv_partial`, `C56_weaker`, `C56_narrow`, `C56_wide`, `C56_wide_taken_for_plain`, `C56_no_name`, `C56_empty_name`, `C56_length_panics`, `C57_circle_counterexample`, `C57_through_itself_counterexample`, `C57_one_answer`, `C57_own`, `C57_inlink`, `C57_inlinks`, `C57_inlinks_elsewhere`, `C57_outlink_partial`, `C57_outlink_through_itself`, `C57_broken_outlink`, `C57_outlink_panics`, `C57_circle`, `C57_again`, `C58_archive`, `C58_pkg1`, `C58_pkg2`, `C58_pkg2_64_partial`, `C58_image`, `C59_names_differ`, `C59_children_know_parent_partial`, `C59_full_path_partial`, `C59_nothing_to_repair_partial`, `C59_added_counterexample`, `C59_link_counterexample`, `C60_text_iff`, `C60_text_errors`, `C60_reader_iff`, `C60_reader_free`, `C60_free_reader_partial`, `C60_read_back`, `C60_block_offset`, `C60_block_reader`, `C61_found_partial`, `C61_missing_partial`, `C61_no_image`, `C61_image_counterexample`, `C61_closed_counterexample`, `C62_texts`, `C62_names`, `C62_attempt`, `C62_open`, `C62_by_version`, `C62_by_iv`, `C62_by_type`, `C62_lent_counterexample`, `C63_read_back_partial`, `C63_same_json`, `C63_format`, `C63_astral_counterexample`, `C64_parsed`, `C64_looked_up`, `C64_cut_counterexample`, `C65_archive`, `C65_v1`, `C65_v2_partial`, `C65_slash`, `C65_slash_counterexample`, `C66_pkg2_64_counterexample`, `C66_pkg2_64_guess`, `C66_pkg2_64`, `C66_pkg2_64_panics`, `C66_wz_told`, `C66_wz_found`, `C66_wz_wrong`, `C66_pkg2_found`, `C66_pkg2_64_partial`, `C66_no_name`, `C66_wz_never_refused`, `C66_wz_not_archive_counterexample`, `C66_img_told`, `C66_img_found`, `C66_ms`, `C67_image_file`, `C67_parse`, `C67_archive`, `C67_image_nodes`, `C67_ms`, `C68_archive`, `C68_pkg1`, `C68_pkg2`, `C68_pkg2_64_partial`, `C68_image`, `C68_ms`, `C68_ms_v1`, `C68_ms_v2_partial`, `C69_links_ms`, `C69_links_ms_v1`, `C69_links_ms_v2_partial`, `C69_links_archive`, `C69_links_pkg1`, `C69_links_pkg2`, `C69_links_pkg2_64_partial`, `C69_links_image`, `C69_text_only`, `C69_ms`, `C69_ms_v1`, `C69_ms_v2_partial`, `C69_archive`, `C69_pkg1`, `C69_pkg2`, `C69_pkg2_64_partial`, `C69_image`, `C70_parse`, `C70_one_place`, `C70_way_back_counterexample`, `C70_ms_archive`, `C70_ms_v1`, `C70_ms_v2_partial`, `C70_one_thing`, `C70_archive`, `C70_pkg1`, `C70_pkg2`, `C70_pkg2_64_partial`, `C70_image`, `C70_image_parsed_partial`, `C70_hangs`, `C71_pkg1`, `C71_pkg2`, `C71_pkg2_64`, `C71_pkg1_file`, `C71_pkg1_given`, `C71_pkg2_file`, `C71_unchecked_partial`, `C72_image_shown`, `C72_image`, `C72_unchecked_partial`, `C72_unchecked_counterexample`, `C72_shown_is_stored`, `C72_list`, `C72_one_reading`, `C72_text`, `C73_table_v1_partial`, `C73_table_v2`, `C73_shown_partial`, `C73_long_name_counterexample`, `C74_image`, `C74_image_same`, `C74_unchecked`, `C74_direct`, `C74_not_found`, `C74_same`, `C74_one_level`, `C74_damaged`, `C75_pkg1`, `C75_pkg1_unchecked_partial`, `C75_pkg2`, `C75_pkg2_unchecked_partial`, `C75_image`, `C75_image_unchecked_partial`, `C75_ms_partial`, `C76_outlink_counterexample`, `C76_lookup_counterexample`, `C76_walk_counterexample`, `C76_walks_counterexample`, `C76_exclusive`, `C76_writes_locked`, `C76_changes`, `C76_no_deadlock_partial`, `C76_finishes_partial`, `C76_reached_partial`, `C77_archive`, `C77_pkg1`, `C77_pkg2`, `C77_pkg2_64_partial`, `C78_archive`, `C78_v1`, `C78_v2_partial`, `C79_answers_partial`, `C79_spoiled`, `C79_undamaged`, `C79_counterexample`, `C80_answers_partial`, `C80_outlinks`, `C80_spoiled`, `C80_marks`, `C80_parse_marks`, `C80_undamaged`, `C80_counterexample`, `C81_ends`, `C81_handles`, `C81_kept`, `C81_held`, `C81_nothing_lost`, `C81_exact_partial`, `C81_exact`, `C81_no_links`, `C81_ring`, `C81_left_over`, `C81_leak_counterexample`, `C81_path_partial`, `C81_path_counterexample`, `C82_every_schedule_ends`, `C82_exclusive`, `C82_trees_partial`, `C82_archive`, `C82_pkg1`, `C82_pkg2`, `C82_pkg2_64_partial`, `C82_ms`, `C82_ms_v1`, `C82_spreads_counterexample`, `C82_reached_partial`, `C83_links_ms_archive_partial`, `C83_links_ms_v1_partial`, `C83_links_ms_v2_partial`, `C83_links_archive_partial`, `C83_links_pkg1_partial`, `C83_links_pkg2_partial`, `C83_links_pkg2_64_partial`, `C83_links_image_partial`, `C83_links_at`, `C83_no_links`, `C83_round_counterexample`, `C83_ms_archive_partial`, `C83_ms_v1_partial`, `C83_ms_v2_partial`, `C83_archive_partial`, `C83_pkg1_partial`, `C83_pkg2_partial`, `C83_pkg2_64_partial`, `C83_at`, `C83_at_image`, `C83_unread`, `C83_nan_counterexample`, `C84_path_counterexample`, `C84_two_files_counterexample`, `C84_reads`, `C84_together`, `C84_no_deadlock_partial`, `C84_finishes_partial`, `C84_all_or_nothing_partial`, `C84_archive_partial`, `C84_pkg1_partial`, `C84_pkg2_partial`, `C84_pkg2_64_partial`, `C84_panics_partial`, `C84_reached_no_deadlock_partial`, `C84_reached_all_or_nothing_partial`
