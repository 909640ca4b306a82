{"id": "C01", "title": "Base64 word text round trip", "statement": "Printing the 60-bit payload of any word yields between one and ten Base64 characters, and parsing that text (with the same flag nibble) gives back exactly the same 64-bit word; trailing zero digits are never printed unless the word is zero.", "quantifier": "all 2^60 payloads and all 16 flag nibbles", "why_tests_cant": "The domain has 2^64 elements; a test can only sample digits and lengths.", "anchors": ["ron/uuid.hpp: Word(uint8_t, Slice)", "ron/uuid.cc: Word::write_base64, Word::str", "ron/const.hpp: ABC"]}
{"id": "C02", "title": "UUID text round trip", "statement": "For every UUID whose origin word carries no bits above the two version bits, printing it and parsing the text back yields the same UUID; for any other UUID the round trip provably loses exactly these two bits.", "quantifier": "all 2^128 UUIDs (variety, version, value, origin)", "why_tests_cant": "The lossy corner is a pair of bits in a 128-bit space; enumerating UUIDs is impossible.", "anchors": ["ron/uuid.cc: Uuid::str", "ron/uuid-parser.cc: Uuid::Uuid(Slice)", "ron/uuid.hpp: Uuid"]}
{"id": "C03", "title": "UUID parser accepts exactly the UUID grammar", "statement": "A byte string is accepted by the UUID constructor only if it is a complete UUID ([variety/]value[version origin], words of 1 to 10 Base64 characters); everything else yields the FATAL UUID.", "quantifier": "all byte strings", "why_tests_cant": "The set of byte strings is infinite; a fuzzer never proves the absence of an accepted malformed string (truncated strings turn out to be accepted).", "anchors": ["ron/uuid-parser.cc: Uuid::Uuid(Slice)", "ragel/uuid-grammar.rl"]}
{"id": "C04", "title": "UUID comparison is a strict total order with value first", "statement": "Operator < on UUIDs is irreflexive, transitive and total (exactly one of <, ==, > holds), and orders by value first and by origin second, so sorting ops by id is well defined on every replica.", "quantifier": "all pairs and triples of UUIDs", "why_tests_cant": "Transitivity and totality range over triples of 128-bit values.", "anchors": ["ron/uuid.hpp: Uuid::operator<, Word::operator<"]}
{"id": "C05", "title": "Base64 text order equals numeric order", "statement": "For any two words, the byte-wise lexicographic order of their printed forms is the numeric order of their payloads, so textual sorting and numeric sorting of timestamps and names agree although trailing zeros are trimmed.", "quantifier": "all pairs of 60-bit payloads", "why_tests_cant": "Trimming makes the printed lengths differ; only a proof covers every pair of lengths and digits.", "anchors": ["ron/uuid.cc: Word::write_base64", "ron/const.hpp: ABC, BASE64 alphabet"]}
{"id": "C06", "title": "Calendar timestamps are injective and monotone", "statement": "The hybrid time word built from calendar fields (year from 2010, month, day, hour, minute, second, 100ns tick) compares exactly as the calendar fields compare lexicographically, and different instants (at 100ns granularity) never share a word.", "quantifier": "all in-range calendar tuples over the full representable era (4096 months)", "why_tests_cant": "The product of the field ranges is about 10^18.", "anchors": ["ron/uuid.cc: Uuid::HybridTime, Uuid::Now"]}
{"id": "C07", "title": "The replica clock never repeats or goes back", "statement": "Every timestamp handed out by the replica is strictly greater than every timestamp it handed out before and than every foreign timestamp it has been told about, whatever the wall clock does (stall, jump back), as long as the counter does not reach the reserved NEVER value.", "quantifier": "all interleavings of Now, See and arbitrary wall clock readings", "why_tests_cant": "The quantifier is over unbounded schedules and adversarial clocks.", "anchors": ["db/replica.cc: Replica::Now, Replica::See", "db/replica.hpp"]}
{"id": "C08", "title": "Storage keys round trip ids of events", "statement": "Building a storage key from an event id and a form and reading id and form back gives the same pair; two different (event id, form) pairs never produce the same key.", "quantifier": "all event (time) UUIDs and all known forms", "why_tests_cant": "2^120 ids times forms.", "anchors": ["db/key.hpp: Key"]}
{"id": "C09", "title": "Storage keys sort by form, then yarn, then time", "statement": "Keys order lexicographically by (form, origin, value), and the byte string handed to the storage engine sorts byte-wise in exactly the same order, so all versions of one yarn under one form are contiguous and in time order in any byte-ordered store.", "quantifier": "all pairs of keys", "why_tests_cant": "The statement compares a 128-bit integer order with a byte order on all pairs.", "anchors": ["db/key.hpp: Key::operator<, Key::operator rocksdb::Slice", "db/rocks_store.cc"]}
{"id": "C10", "title": "RDT form codes and names are in bijection", "statement": "Looking up the form of a known RDT name and the name of that form are mutually inverse on the published table; any other name maps to the zero form and any code outside of the table is rejected rather than read out of bounds.", "quantifier": "all 256 form codes and all UUIDs", "why_tests_cant": "The negative part ranges over all UUIDs and all out-of-table codes (the bound check turns out to be wrong, a read past the table that a test without a sanitizer does not see).", "anchors": ["ron/form.hpp: FORMS, uuid2form, form2uuid"]}
{"id": "C11", "title": "Bit codec round trip and hash text forms", "statement": "Encoding a byte string into hex or Base64 characters and decoding it back restores the bytes; a SHA2 value printed as hex or Base64 and parsed back equals the original in all bits the text carries.", "quantifier": "all byte strings / all 256-bit hashes", "why_tests_cant": "2^256 hashes; the existing tests compare only objects that go through the same broken path.", "anchors": ["ron/encdec.hpp: encode, decode", "ron/hash.hpp: SHA2::ParseHex, SHA2::ParseBase64, SHA2::hex, SHA2::base64"]}
{"id": "C12", "title": "Hash matching is prefix comparison", "statement": "Two (possibly abbreviated) hashes match exactly if they agree on every bit known to both; matching is reflexive and symmetric, and on full hashes it is equality.", "quantifier": "all pairs of hashes with all known-bit counts", "why_tests_cant": "Bit-level comparison at arbitrary bit lengths over 256-bit values.", "anchors": ["ron/hash.hpp: SHA2::matches"]}
{"id": "C13", "title": "UTF-8 round trip", "statement": "Any sequence of code points below 2^21 written as UTF-8 and parsed back is the same sequence; the parser accepts only well-shaped UTF-8 and consumes the whole input.", "quantifier": "all code point sequences of any length, all byte strings", "why_tests_cant": "Unbounded sequences; code-point boundaries (0x7f, 0x7ff, 0xffff) interact with parser state.", "anchors": ["ron/encdec.hpp: utf8append, utf8read", "ron/utf8-parser.cc: ParseUtf8"]}
{"id": "C14", "title": "UTF-16 conversion is faithful", "statement": "Converting code points to UTF-16 and back restores them, and the produced code units are standard UTF-16.", "quantifier": "all Unicode scalar values", "why_tests_cant": "1.1M scalar values times unbounded sequences; tests use a handful of BMP characters (the supplementary planes and U+D7FF turn out to be encoded wrongly).", "anchors": ["ron/encdec.hpp: utf16append, utf16read"]}
{"id": "C15", "title": "String escaping is lossless and never breaks the frame", "statement": "Unescaping an escaped string gives the original bytes for every byte string, and the escaped text contains no raw quote, newline or carriage return, so it cannot terminate the quoted atom early.", "quantifier": "all byte strings", "why_tests_cant": "All byte strings of all lengths.", "anchors": ["ron/text-builder.cc: TextFrame::Builder::escape", "ron/text.cc: TextFrame::unescape"]}
{"id": "C16", "title": "Integer literals never overflow", "statement": "Every integer literal the frame parser accepts converts to the exact mathematical value within the signed 64-bit range without arithmetic overflow.", "quantifier": "all byte strings matching the integer syntax", "why_tests_cant": "Literals have any length; the overflow check is a digit-wise string comparison with boundary cases at 18/19/20 characters.", "anchors": ["ron/text.cc: int_too_big, ParseInteger via TextFrame::Cursor", "ragel/text-grammar.rl: end_int"]}
{"id": "C17", "title": "Every 64-bit integer can be written and read back", "statement": "For every signed 64-bit integer, the text written by the frame builder is accepted by the parser and reads back as the same integer, and writing it does not touch memory outside of the local buffer.", "quantifier": "all 2^64 integers", "why_tests_cant": "The failures sit at isolated magnitudes (19 digits with sign) that tests do not hit; the buffer overrun is silent.", "anchors": ["ron/text-builder.cc: TextFrame::Builder::WriteInt", "ron/text.cc: int_too_big"]}
{"id": "C18", "title": "Frame parsing always terminates and makes progress", "statement": "On any input bytes, each step of a frame cursor either returns an op after consuming at least one byte (or one unit of a declared span), or reports end/failure; hence iterating a frame of n bytes ends after a finite number of steps and after the first failure the cursor never returns an op again.", "quantifier": "all byte strings as frames and all cursor call sequences", "why_tests_cant": "Termination and stickiness over arbitrary inputs is not testable.", "anchors": ["ron/text-parser.cc: TextFrame::Cursor::Next"]}
{"id": "C19", "title": "Frame parsing never leaves the buffer", "statement": "For any input bytes, all positions recorded for atoms of a parsed op lie inside the frame and in order (begin <= end <= frame size), strings exclude their quotes, so reading any atom of an accepted op reads only frame bytes.", "quantifier": "all byte strings as frames", "why_tests_cant": "Memory safety for every input cannot be settled by running some inputs.", "anchors": ["ron/text-parser.cc: TextFrame::Cursor::Next", "ron/text.hpp: Cursor::data"]}
{"id": "C20", "title": "Numeric and name atoms are lexed unambiguously", "statement": "A bare atom of a frame denotes exactly one value: parsing an op yields one atom per written atom, of the type its syntax declares.", "quantifier": "all frames made of one op with any atoms", "why_tests_cant": "The ambiguity between exponent floats and UUIDs appears only for particular token shapes.", "anchors": ["ragel/text-grammar.rl: BARE_ATOM, FLOAT, UUID", "ron/text-parser.cc"]}
{"id": "C21", "title": "Syntax errors are reported as errors", "statement": "If a frame contains a malformed op, iterating it ends with an error status, never with the end-of-frame status that signals that all ops were read.", "quantifier": "all byte strings as frames", "why_tests_cant": "Requires all malformed inputs; oversized atoms right before a terminator are reported as a normal end of frame.", "anchors": ["ron/text-parser.cc: TextFrame::Cursor::Next", "ragel/text-grammar.rl: end_int, end_float, end_bare_uuid"]}
{"id": "C22", "title": "Built frames parse back to the same ops", "statement": "Appending any list of ops (id, reference, integer / UUID / string values, terminators) to a builder and iterating the produced text returns the same list: same ids, references, atom types, values and terminators, although ids and references are abbreviated relative to the previous op.", "quantifier": "all op lists of any length with arbitrary ids, references and values", "why_tests_cant": "The abbreviation state depends on the whole prefix of the frame; only induction covers all histories.", "anchors": ["ron/text.hpp: TextFrame::Builder::AppendOp, AppendNewOp", "ron/text-builder.cc: WriteValues", "ron/text-parser.cc: TextFrame::Cursor::Next"]}
{"id": "C23", "title": "Abbreviated specifiers denote the default chain", "statement": "An op written without an id means 'next id after the previous op' and an op written without a reference means 'refers to the previous op'; a chain written with no specifiers parses to strictly increasing consecutive ids each referring to its predecessor.", "quantifier": "all frames of unspecified ops of any length", "why_tests_cant": "Unbounded chains; increments may carry across digits.", "anchors": ["ron/text-parser.cc: TextFrame::Cursor::Next", "ron/uuid.hpp: Uuid::inc"]}
{"id": "C24", "title": "Spans expand to exactly the declared ops", "statement": "A span op with count n expands into exactly n ops with consecutive ids each referring to the previous one; a string spread expands into one op per code point, carrying the code points in order.", "quantifier": "all span sizes and all spread strings", "why_tests_cant": "Spans compress arbitrarily many ops; zero and huge counts are boundary cases.", "anchors": ["ron/text-parser.cc: TextFrame::Cursor::Next (span_size_)", "ron/cp-parser.cc: NextCodepoint", "ragel/text-grammar.rl: SPAN"]}
{"id": "C25", "title": "Builder span compression loses nothing", "statement": "When consecutive single-character ops are folded into a spread string, reading the frame back yields all characters in order.", "quantifier": "all character op sequences of any length", "why_tests_cant": "Depends on encoding widths, escapes and chunk boundaries; tests use ASCII only.", "anchors": ["ron/text.hpp: Builder::ExtendSpan, AppendOp, EndChunk"]}
{"id": "C26", "title": "The incremental stack behaves as a stack", "statement": "Push, pop, back, size and indexing of the span-compressed stack agree with a plain list of UUIDs under every sequence of operations, regardless of how consecutive ids are folded into spans.", "quantifier": "all operation sequences", "why_tests_cant": "Span folding state depends on unbounded histories.", "anchors": ["ron/inc_stack.hpp: inc_stack"]}
{"id": "C27", "title": "k-way merge emits every op once, in order", "statement": "Merging any number of id-ordered inputs yields an id-ordered output without duplicate ids that contains an id if and only if some input contains it.", "quantifier": "all numbers and lengths of inputs", "why_tests_cant": "Heap shapes, duplicates and input counts are unbounded.", "anchors": ["rdt/merge.hpp: MergeCursor"]}
{"id": "C28", "title": "State merge is independent of order, grouping and repetition", "statement": "For the state-based types merged by id (lww, mx, yarn chains) the merged frame has the same ops whatever the order of the inputs, whatever intermediate merges were done first, and however often an input is repeated; replicas that saw the same ops converge.", "quantifier": "all op sets split in all ways into any number of inputs and all merge trees", "why_tests_cant": "Convergence is a statement about all delivery orders and groupings.", "anchors": ["rdt/lww.hpp: LastWriteWinsRDT::Merge", "rdt/mx.hpp", "rdt/merge.hpp", "rdt/rdt.hpp: MasterRDT"]}
{"id": "C29", "title": "Last write wins", "statement": "Reading a key of a merged lww object yields the value of the op with the greatest id among all ops for this key; merging in older writes never changes the result.", "quantifier": "all op sets, keys and merge orders", "why_tests_cant": "Quantifies over all histories of writes.", "anchors": ["rdt/lww_obj.hpp: LWWObject", "rdt/lww.hpp"]}
{"id": "C30", "title": "Causal-tree merge converges", "statement": "Merging causal-tree (RGA/text) inputs gives the unique depth-first weave of the union of their ops: any order and repetition of inputs gives the same op sequence.", "quantifier": "all causally complete op trees and all ways to split them into inputs accepted by the merge", "why_tests_cant": "Convergence over all concurrent edit histories.", "anchors": ["rdt/rga.hpp: RGArrayRDT::Merge"]}
{"id": "C31", "title": "Causal-tree merge keeps causality or refuses", "statement": "The output of an accepted causal-tree merge lists every op after the op it refers to and keeps each subtree contiguous; inputs that do not attach to the tree are refused with an error rather than dropped silently.", "quantifier": "all inputs, including malformed ones", "why_tests_cant": "Adversarial inputs are not enumerable.", "anchors": ["rdt/rga.hpp: RGArrayRDT::Merge"]}
{"id": "C32", "title": "Tombstone scan is memory safe and total", "statement": "Scanning any causal-tree frame for visible elements terminates with one visibility flag per op or an error status, without accessing memory outside of its working arrays.", "quantifier": "all frames", "why_tests_cant": "The out-of-bounds index depends on the nesting pattern of remove/undo ops.", "anchors": ["rdt/rga.hpp: ScanRGA"]}
{"id": "C33", "title": "Deletes and undos resolve per element", "statement": "An element is visible exactly if it is not removed, or its removal was undone; removing or undoing one element does not change the visibility of any other element.", "quantifier": "all trees and all nestings of remove and undo", "why_tests_cant": "Independence between elements quantifies over all trees.", "anchors": ["rdt/rga.hpp: ScanRGA", "db/map/txt.hpp"]}
{"id": "C34", "title": "Max type keeps the maximum", "statement": "Merging max-type inputs keeps the op with the greatest value, independently of the order of inputs.", "quantifier": "all integer values and all input orders", "why_tests_cant": "Signedness corner cases range over 2^64 pairs.", "anchors": ["rdt/max.hpp: MaxRDT::Merge"]}
{"id": "C35", "title": "Op metadata merge keeps the latest record", "statement": "Merging metadata frames keeps, for every op id, the record with the greatest reference and keeps ids ordered and unique; the result does not depend on input order.", "quantifier": "all metadata frames and input orders", "why_tests_cant": "All histories of metadata updates.", "anchors": ["rdt/meta.hpp: MetaRDT"]}
{"id": "C36", "title": "Log merge is concatenation", "statement": "Merging log frames returns all ops of the inputs in input order, with nothing lost or reordered.", "quantifier": "all numbers and lengths of inputs", "why_tests_cant": "Unbounded inputs.", "anchors": ["rdt/log.hpp: OpLogRDT::Merge"]}
{"id": "C37", "title": "Merging never invents or alters ops", "statement": "Every op in the output of any merge is identical (id, reference, values) to an op of one of the inputs.", "quantifier": "all forms, all inputs", "why_tests_cant": "Universal over inputs and forms.", "anchors": ["rdt/rdt.hpp: MasterRDT::Merge", "rdt/*.hpp"]}
{"id": "C38", "title": "A read returns the merge of everything written", "statement": "Reading a key of the in-memory store returns the merge of all frames written to this key since creation, however reads and writes interleave, and leaves other keys untouched.", "quantifier": "all interleavings of reads and writes over all keys", "why_tests_cant": "Reads compact the store (read has write effects), so correctness depends on every earlier interleaving.", "anchors": ["db/mem_store.hpp: InMemoryStore::Read, Write"]}
{"id": "C39", "title": "A failed read loses nothing", "statement": "If a read fails the stored data are unchanged.", "quantifier": "all store contents", "why_tests_cant": "Failure depends on frame contents and record counts.", "anchors": ["db/mem_store.hpp: InMemoryStore::Read"]}
{"id": "C40", "title": "Store iteration visits every key once in order", "statement": "Iterating from the first key visits every key that has a record exactly once, in ascending order, with the same value a read returns, then reports the end.", "quantifier": "all store contents", "why_tests_cant": "All contents, including multiple records per key.", "anchors": ["db/mem_store.hpp: InMemoryStore::Iterator"]}
{"id": "C41", "title": "Joined store is a faithful overlay", "statement": "Reading through a joined store equals reading a store holding the records of both layers; writes never modify the lower layer; iteration visits the union of the keys in order.", "quantifier": "all contents of both layers, all operation sequences", "why_tests_cant": "Universal over contents and sequences.", "anchors": ["db/joined_store.hpp: JoinedStore"]}
{"id": "C42", "title": "Storage-engine partial merges do not change results", "statement": "However the storage engine groups merge operands into partial merges before the final one, the final value is the same.", "quantifier": "all groupings of any operand list", "why_tests_cant": "The engine chooses groupings nondeterministically during compaction.", "anchors": ["db/merge_ops.hpp: RDTMergeOperator", "rdt/rdt.hpp"]}
{"id": "C43", "title": "Rejected batches leave no trace", "statement": "If receiving a frame fails at any op, nothing of the frame becomes visible in the replica's stores.", "quantifier": "all frames and failure points", "why_tests_cant": "All crash/failure points within all frames.", "anchors": ["db/replica.cc: Replica::Receive, Commit::Save, Commit::WriteName"]}
{"id": "C44", "title": "Chains only grow forward", "statement": "After any sequence of accepted commits the recorded tip of a yarn never decreases, and each accepted op id is greater than the previous tip of its yarn.", "quantifier": "all sequences of commits on any yarns", "why_tests_cant": "All histories.", "anchors": ["db/replica.cc: Commit::SaveChain, Commit::Save"]}
{"id": "C45", "title": "No dangling references", "statement": "Every accepted op refers either to a known data type name or to an op already accepted earlier, so the stored history is causally closed.", "quantifier": "all sequences of received frames", "why_tests_cant": "Causal closure is an invariant over all histories.", "anchors": ["db/replica.cc: Commit::SaveChain, CheckEventSanity, FindOpMeta"]}
{"id": "C46", "title": "Hash chain commits to history", "statement": "If the hash function is collision free on the hashed strings, two ops with equal Merkle hashes have equal ids, values and equal full causal histories.", "quantifier": "all pairs of op histories", "why_tests_cant": "Collision reasoning quantifies over all pairs of histories.", "anchors": ["ron/opmeta.hpp: OpMeta::Next", "ron/hash.hpp: hash_op, hash_root"]}
{"id": "C47", "title": "New local events get unique consecutive stamps", "statement": "Writing n unstamped ops assigns n distinct increasing ids to them, remaps references between them consistently and stores all of them.", "quantifier": "all batches of unstamped ops", "why_tests_cant": "All batch sizes and reference patterns.", "anchors": ["db/replica.cc: Commit::WriteNewEvents"]}
{"id": "C48", "title": "Splitting a log into chains loses nothing", "statement": "Splitting an op log into chains yields chains whose concatenation (by cutoff) has exactly the ops of the log, each chain being causally consecutive in one yarn.", "quantifier": "all logs", "why_tests_cant": "All logs and cutoffs.", "anchors": ["rdt/rdt.hpp: SplitLogIntoChains, ObjectLogIntoState", "rdt/chain.hpp"]}
{"id": "C49", "title": "Version vector coverage", "statement": "A version vector covers an event exactly if the event's yarn has a recorded version not less than the event's time.", "quantifier": "all vectors and events", "why_tests_cant": "All vectors.", "anchors": ["ron/vv.hpp: VV"]}
{"id": "C50", "title": "Frame comparison is exact", "statement": "Two frames compare equal exactly if they contain the same sequence of ops (ids, references, atoms); the comparison is reflexive, symmetric and transitive on well-formed frames.", "quantifier": "all pairs of frames", "why_tests_cant": "All pairs.", "anchors": ["ron/frames.hpp: CompareOps, CompareFrames"]}
{"id": "C51", "title": "Splitting a frame preserves its text", "statement": "Splitting a frame by op or by id preserves every op exactly once and in order.", "quantifier": "all frames", "why_tests_cant": "All frames.", "anchors": ["ron/text.cc: TextFrame::Split, SplitByID"]}
{"id": "C52", "title": "Status codes are distinct and error-ness is decided by the code", "statement": "All published status codes are pairwise distinct, OK is the only family that tests as success, and adding a comment never changes success or failure.", "quantifier": "all status constants and comments", "why_tests_cant": "A pairwise property of the constant table; a collision would be silent.", "anchors": ["ron/status.hpp", "ron/status.cc"]}
{"id": "C53", "title": "Garbage collection of lww keeps reads", "statement": "Compacting an lww frame keeps, for every key, the winning op, so every read gives the same value before and after.", "quantifier": "all lww frames", "why_tests_cant": "All histories.", "anchors": ["rdt/lww.hpp: LastWriteWinsRDT::GC"]}
{"id": "C54", "title": "Plain-text mapping returns the visible characters", "statement": "Mapping a causal tree to text yields the visible characters in weave order.", "quantifier": "all trees", "why_tests_cant": "All trees.", "anchors": ["db/map/txt.hpp: TxtMapper::Read"]}
{"id": "C55", "title": "Moving an iterator never changes the data", "statement": "Whatever sequence of seeks, value reads and steps is done with a store iterator, every key that could be read before reads as the same events afterwards.", "quantifier": "all stores and all sequences of iterator calls", "why_tests_cant": "The iterator writes merged values back; whether it writes them to the right key depends on the whole sequence of calls.", "anchors": ["db/mem_store.hpp: InMemoryStore::Iterator::SeekTo, Next, value"]}
{"id": "C56", "title": "Seeking lands exactly on the requested key", "statement": "A forward seek puts the iterator on the least stored key not less than the requested one, a backward seek on the greatest stored key not greater than it, and the value there is the value a read of that key returns; with no such key the end is reported.", "quantifier": "all stores, all keys, both directions", "why_tests_cant": "All stores with any number of records per key.", "anchors": ["db/mem_store.hpp: InMemoryStore::Iterator::SeekTo"]}
{"id": "C57", "title": "Frames of different types are never merged", "statement": "Merging frames whose type is to be guessed from them is refused exactly if two of them declare different types, whatever their order; otherwise the declared type is used.", "quantifier": "all lists of frames in any order", "why_tests_cant": "All lists of frames: the guess depends on the position of the frame that carries a header.", "anchors": ["rdt/rdt.hpp: GetForm (72-85)", "rdt/rdt.hpp: MergeFrames (127-147)"]}
{"id": "C58", "title": "The hash of an op does not depend on how it is written", "statement": "Ops with the same id, reference and values have the same hash, whether written on their own or inside a span, in any frame.", "quantifier": "all pairs of cursors at ops", "why_tests_cant": "All pairs of notations of all ops.", "anchors": ["ron/hash.hpp: WriteOpHashable, WriteAtomRangeless", "ron/frames.hpp: ReadString"]}
{"id": "C59", "title": "Copying a frame op by op gives a frame with the same ops", "statement": "AppendFrame of any well-formed text frame into a new Builder, then Release, gives a frame that iterates to exactly the same ops (ids, references, values) and ends with ENDOFFRAME.", "quantifier": "for all text frames that iterate to a list of ops and the end of the frame", "why_tests_cant": "The copy depends on folding (is_same_span), on terminators repeated over spans, on raw bytes being copied for some values and re-encoded for others; frames are unbounded sequences mixing all of these, tests copy a few short frames.", "anchors": ["ron/frames.hpp:186-205", "ron/text.hpp:222-312", "ron/text-builder.cc:8-35"]}
{"id": "C60", "title": "Object logs are self-contained", "statement": "After any sequence of received frames, accepted or not, every op in the log of an object is the op that created it or refers to an earlier op in the same log, and every stored state is that of an object created in its log, under the type named at its creation, with no ops but those of the log.", "quantifier": "for all sequences of received frames, all tips, clocks and wall times, starting from a new store", "why_tests_cant": "An op is routed by metadata that are found by walking chains back through the store; any frame of any earlier session may have shaped them. Tests follow a few fixed scripts; the claim is an invariant over all histories.", "anchors": ["db/replica.cc:228-303", "db/replica.cc:367-441", "ron/opmeta.hpp:44-131"]}
{"id": "C61", "title": "A replica can be opened again", "statement": "Whatever calls were made on a replica since it was created (branches created, forked and dropped, frames received, the active store chosen, the replica reopened), whether they succeeded or not, the replica can be closed and opened again with status OK, and opening changes no data.", "quantifier": "for all finite sequences of API calls with any arguments, any received frames and any readings of the wall clock", "why_tests_cant": "Opening fails if any of the stores has a tip record of another yarn; which records there are depends on the whole history of the replica. A test reopens a replica after a few fixed calls.", "anchors": ["db/replica.cc:15-33", "db/replica.cc:35-72", "db/replica.cc:85-143", "db/replica.cc:661-683", "db/replica.cc:695-752"]}
{"id": "C62", "title": "The active store is remembered", "statement": "After SetActiveStore(s) returned OK, closing and opening the replica leaves s the active store.", "quantifier": "for all replicas reached by any sequence of API calls, all stores of theirs", "why_tests_cant": "The record and its reader are far apart and each works on its own; no unit test of either shows that the reader never gets to the op.", "anchors": ["db/replica.cc:63-69", "db/replica.cc:74-83", "ron/text.hpp:69-94"]}
{"id": "C63", "title": "A fork holds what the original holds", "statement": "After ForkBranch returned OK, whatever could be read from the original branch (but for its tip record) reads the same from the fork.", "quantifier": "for all replicas reached by any sequence of API calls, all pairs of branches and all keys", "why_tests_cant": "The copy loop can not tell the end of the data from a failure; a fork of any store with an unreadable key silently loses all keys after it. Small test data have no such keys.", "anchors": ["db/replica.cc:111-131", "db/rocks_store.cc:285-310", "db/rocks_store.cc:44-105"]}
{"id": "C64", "title": "The clock is set on opening", "statement": "After a replica is opened, the next timestamp it issues is later than every event it stores.", "quantifier": "for all replicas reached by any sequence of API calls, all wall clock readings, all stored events", "why_tests_cant": "The clock is restored from the tips alone; the order of tips and other stored events depends on all frames ever received, with any timestamps.", "anchors": ["db/replica.cc:43-61", "db/replica.cc:179-186", "db/replica.cc:285-299"]}
{"id": "C65", "title": "Stores are apart", "statement": "A call that creates, forks, drops or writes to one store changes nothing in any other; closing and opening a replica changes no data at all.", "quantifier": "for all replicas, all calls with any arguments and outcome, all stores not named by the call", "why_tests_cant": "The stores share a clock, a database and an index; the claim is about the absence of any effect on arbitrary other data, for all calls.", "anchors": ["db/replica.cc:74-143", "db/replica.cc:695-752"]}
{"id": "C66", "title": "Events in order are accepted", "statement": "A sane event later than the tip of its yarn that refers to a known event, creates an object of a known type or begins a yarn not yet known is accepted by a branch; afterwards it is in the log and in the state of its object and is the recorded tip.", "quantifier": "for all branches reached by any sequence of API calls, all such events with timestamps earlier than NEVER, all clocks", "why_tests_cant": "Acceptance depends on lookups of the tip and of the reference through all that is stored; tests show it for single scripts only.", "anchors": ["db/replica.cc:208-303", "db/replica.cc:337-433", "db/replica.cc:661-683"]}
{"id": "C67", "title": "A name that was given can be read", "statement": "After a name is given to an event, reading the names of the store gives that event for that name, and for every other name what it stood for before.", "quantifier": "for all replicas reached by any sequence of API calls, all stores, all names and events, all clock readings before NEVER", "why_tests_cant": "Names live in one LWW record ordered by stamps; whether stamps differ depends on the clock, on reopening and on all that was named before.", "anchors": ["db/replica.cc:146-174", "db/replica.cc:643-659", "db/main.cc:575-600"]}
{"id": "C68", "title": "An op under other ids keeps its values", "statement": "An op made from the op a cursor is at, with another id and reference, written to a frame and read back, has the same values.", "quantifier": "for all frames, all ops of them, all ids and references", "why_tests_cant": "The values go through another representation of atoms; the loss depends on the type of the value and its place in a run.", "anchors": ["ron/op.hpp:81-109", "db/replica.cc:535-575"]}
{"id": "C69", "title": "Strings read the same in both encodings", "statement": "A string of an op is read with success by both readers, UTF-8 and UTF-16, and they give the same code points.", "quantifier": "for all frames, all ops, all their strings and characters of runs", "why_tests_cant": "Two separate readers over escapes, multi-byte characters and runs; the agreement is over all strings.", "anchors": ["ron/frames.hpp:122-160", "ron/text.hpp:48-62"]}
{"id": "C70", "title": "Queries change nothing", "statement": "Receiving a frame of queries changes no store, not the active store and not the clock, whatever the outcome.", "quantifier": "for all replicas, all branches, all frames whose ops are all queries", "why_tests_cant": "The absence of any effect is about all data of all stores, for every pattern of ids and forms a query can have.", "anchors": ["db/replica.cc:469-527", "db/replica.cc:621-655", "db/replica.cc:695-752"]}
{"id": "C71", "title": "Queries are answered with what was asked for", "statement": "A query for the log of an object is answered with its log, a query for the log up to an op with no op later than that; a query for an object in a form with ops recorded for the object and form.", "quantifier": "for all replicas reached by API calls, all stores, objects, versions and forms", "why_tests_cant": "Logs and states agree on short histories; the difference shows in the order of concurrent inserts.", "anchors": ["db/replica.cc:469-527"]}
{"id": "C72", "title": "A builder can be used again", "statement": "After Release, a builder makes the same frame of the same calls as a new builder.", "quantifier": "for all sequences of calls before and after Release", "why_tests_cant": "What is left over shows only in frames that begin with an id or a reference next to the last op of the frame before.", "anchors": ["ron/text.hpp:133-186", "ron/text.hpp:283-335", "db/main.cc:230-248"]}
{"id": "C73", "title": "A slice is the string of its bytes", "statement": "Two slices are equal if and only if they have the same bytes; equal slices have equal hashes, and neither comparison nor hash reads a byte outside of a slice; str() is the string of the bytes of the slice; slice() and range_of() are inverse, and Consume/CutOff cut a slice in two.", "quantifier": "for all slices of all memory, all hash functions for words and bytes", "why_tests_cant": "The memory around a slice, its alignment and the position in it are not in the tests; every use of str() there starts at the beginning of the memory.", "anchors": ["ron/slice.hpp:52-234"]}
{"id": "C74", "title": "The state of an object as of a version", "statement": "For every op in the log of an object, GetObjectVersion gives a state with exactly the events of the log up to that op: a key of a last-write-wins object reads as the last value written until then, a causal tree is the weave of the ops until then.", "quantifier": "for all logs, all versions in them, the types lww, mx, rga", "why_tests_cant": "Only one log of two chains is split in the tests; recalling a version is not tested.", "anchors": ["db/replica.hpp:254-260", "rdt/rdt.hpp:72-106", "rdt/rdt.hpp:168-219", "db/main.cc:411-427"]}
{"id": "C75", "title": "Kinds of names", "statement": "The kind of a name (numeric, snake_case, ALL~CAPS, CamelCase) is decided by the characters of its text: digits only, small letters (or _) without capital ones, capital letters (or ~) without small ones, both. is_all_digits holds exactly for the numeric kind.", "quantifier": "for all 2^64 words", "why_tests_cant": "Five names are tested; the early exit of the loop (u != 3) and words with characters in the last places only are not.", "anchors": ["ron/uuid.cc:13-27", "ron/uuid.cc:37-45", "ron/uuid.hpp:12-13"]}
{"id": "C76", "title": "Codes and names of maps are in bijection", "statement": "Every map code has the name it is listed with, every such name has its code, every other UUID has none; the code of no map has the error id.", "quantifier": "for all codes and all 2^128 UUIDs", "why_tests_cant": "One pair of names is compared in the tests.", "anchors": ["db/const.hpp:9-81"]}
{"id": "C77", "title": "A command that fails changes nothing", "statement": "If a command of the command line returns an error, the database is left as it was.", "quantifier": "for all databases reached by any sequence of commands (or without a branch of the yarn zero), all arguments, readings of the clock, random numbers, input files", "why_tests_cant": "The command line has no tests of failing commands; every error path of every command would have to be taken.", "anchors": ["db/main.cc:147-229", "db/main.cc:360-480", "db/main.cc:548-667", "db/main.cc:694-773"]}
{"id": "C78", "title": "A branch is found by its name", "statement": "A branch that was created under a name can be named so by the next command. Giving a name to something else takes no name away.", "quantifier": "for all reachable databases, names, clocks, random numbers", "why_tests_cant": "Depends on two commands within one second and on the kind of the name.", "anchors": ["db/main.cc:63-105", "db/main.cc:160-186", "db/main.cc:223-229", "db/main.cc:575-601"]}
{"id": "C79", "title": "Every command can be carried out", "statement": "For each command there are a database and arguments with which it succeeds.", "quantifier": "for all commands; the negative part for all reachable databases and all arguments", "why_tests_cant": "That a command never succeeds is a statement on all databases and arguments.", "anchors": ["db/main.cc:190-221", "db/main.cc:360-410", "db/main.cc:432-480", "db/replica.hpp:151-160"]}
{"id": "C80", "title": "A replica is initialized once", "statement": "Where there is a replica, init is refused and changes nothing.", "quantifier": "for all reachable databases", "why_tests_cant": "Depends on the stores that are there.", "anchors": ["db/main.cc:147-158", "db/replica.cc:39-60"]}
{"id": "C81", "title": "Commands lose nothing", "statement": "A command other than drop leaves every store in place with all of its records, whatever it returns; drop removes one store at most, never the metadata.", "quantifier": "for all reachable databases, all arguments", "why_tests_cant": "All commands with all arguments, over all stores and records.", "anchors": ["db/main.cc:160-229", "db/main.cc:360-667"]}
{"id": "C82", "title": "The replica can always be opened", "statement": "After any sequence of commands, whatever they returned, the replica can be opened and the metadata store is there.", "quantifier": "for all sequences of commands", "why_tests_cant": "Unbounded sequences.", "anchors": ["db/main.cc:694-773", "db/replica.cc:62-140"]}
{"id": "C83", "title": "Splitting a test script loses nothing", "statement": "Splitting a test script gives frames that have together, in order, the ops of the script; a script that is split with success has been read to its end.", "quantifier": "for all scripts", "why_tests_cant": "The function runs the tests: a test script whose tests are lost passes. All scripts of any number of tests, with anything after a full stop.", "anchors": ["db/main.cc:234-250", "ron/text.hpp:327-334"]}
{"id": "C84", "title": "Merging frames as text", "statement": "Merging serialized frames gives a serialized frame that reads as the merge of the ops they have: the sorted union for LWW, MX, YARN and META, the weave for RGA, the concatenation for LOG, the last one for frames without a form; the form is the one the first ops name, two forms are refused, and a frame with a syntax error is not merged as if it had none.", "quantifier": "for all lists of frames", "why_tests_cant": "Any number of frames of any length with any values: the heap, the cursors and the folding of the builder act together, on op sequences that no input has.", "anchors": ["rdt/merge.hpp:21-122", "rdt/rga.hpp:55-85", "rdt/rdt.hpp:33-147", "rdt/log.hpp:18-23", "rdt/meta.hpp:18-20"]}
{"id": "C85", "title": "States made of logs, as text", "statement": "ObjectLogToState and GetObjectVersion make, of a serialized object log, a serialized state that reads as the ops of the log up to and including the cutoff: in the order of ids for LWW and MX, as the weave of the tree for RGA. Both give the same frame. A log with a syntax error has no state.", "quantifier": "for all logs and all cutoffs", "why_tests_cant": "The splitting moves the end of a cursor inside of a buffer that is shared by the chains, and the heap then reads several cursors of one buffer at once; which ops are read depends on where the op before ended, on spans and on all values of the log.", "anchors": ["rdt/rdt.hpp:168-219", "db/replica.hpp:254-260", "db/replica.cc:472-489", "rdt/merge.hpp:21-122", "rdt/rga.hpp:55-85"]}
{"id": "C86", "title": "Merging frames in groups, as text", "statement": "Merging serialized states is confluent: whatever the order of the frames, whatever the groups they are merged in and however often a frame is merged, the serialized results read as the same ops. A frame that a merge has made can be merged again.", "quantifier": "for all lists of frames and all trees of merges over them", "why_tests_cant": "Every merge writes a frame which the next one parses; that the round trips do not depend on the shape of the tree of merges is a statement over all trees, all frames and all spellings (spans, omitted ids and references) that are met on the way.", "anchors": ["rdt/merge.hpp:21-122", "rdt/rdt.hpp:50-125", "ron/text.cc:27-120", "ron/text.rl:26-130"]}
{"id": "C87", "title": "A test script passes when its tests pass", "statement": "Running a test script ends without an error only if every test of it passes: every input was received without an error and every expected response has the ops of the responses given since the one before, comments aside. If they pass, the run ends without an error; no response goes unread and no part of the script is left out.", "quantifier": "for all replicas (any function in the place of ReceiveFrame) and all scripts", "why_tests_cant": "The test runner is what the tests are trusted with: an oracle that lets a wrong response pass cannot be noticed by the scripts it runs. That it does not is a statement over all scripts and all responses.", "anchors": ["db/main.cc:234-302", "ron/frames.hpp:20-85"]}
{"id": "C88", "title": "Comments in a received frame change nothing", "statement": "Receiving a frame has the same outcome (status, what is stored, the clock) as receiving it without the comment ops (`@~ 'text'`) in it, wherever they stand.", "quantifier": "for all reducers, stores, tips, clocks and frames, any number of comments in any places", "why_tests_cant": "A comment can stand before, within and after any kind of command; each command has its own loop over the cursor, and what a comment does there depends on all that was received before it. The scripts have comments at the start of a frame only.", "anchors": ["db/replica.cc:695-752", "db/replica.cc:305-335", "db/replica.cc:685-693", "ron/uuid.cc:11"]}
{"id": "C89", "title": "A chain is stored as it was received", "statement": "When a frame is received, the record that is put in the store for a chain of it reads as exactly the ops of the chain: the same ids, references and values, in the same order, comments left out; what is not of the chain is left for the commands after it.", "quantifier": "for all frames (texts), all places in them where a chain begins, all hashes, tips and base stamps of the commit", "why_tests_cant": "The text is parsed op by op, each op is copied value by value into a builder that abbreviates it against the previous one and folds runs of characters; whether the result reads as the same ops depends on every pair of neighbours. The scripts compare a few records by eye.", "anchors": ["db/replica.cc:301-336", "db/replica.cc:431-434", "ron/text.hpp:318-330", "ron/text.cc:206-290", "ron/opmeta.hpp:72-85"]}
{"id": "C90", "title": "A listing shows the whole branch", "statement": "The command `dump` prints the records of the store that was asked for (the active one, or the branch that is named): every key that the store holds, in order, each once, with the frames written under it merged. If it returns `OK`, nothing is missing.", "quantifier": "for all replicas after careful histories, all arguments of the command", "why_tests_cant": "Whether a record can be merged depends on all that was ever written under its key, and the one that can not be may be anywhere in the branch; no script runs the command.", "anchors": ["db/main.cc:305-333", "db/rocks_store.cc:252-310", "db/replica.hpp:162-166", "db/main.cc:107-124"]}
{"id": "C91", "title": "Stores are found again under their ids", "statement": "Each store of a replica is kept in a column family that is named by the id of the store as text (the main store in the default one). No two stores share a family, a branch that does not exist yet never finds its family taken, and opening the database maps the families back to exactly the same ids.", "quantifier": "for all replicas after any sequence of API calls with any outcomes, all databases after any sequence of commands, all yarns", "why_tests_cant": "The name goes through the printer and the parser of UUIDs; whether two of the 2^60 yarns, or a yarn and the reserved name of the default family, collide can not be seen from samples.", "anchors": ["db/rocks_store.cc:131-157", "db/rocks_store.cc:318-353", "db/replica.hpp:146-148", "ron/uuid.cc"]}
{"id": "C92", "title": "Max objects merged as text keep the greatest value", "statement": "Frames with states of and changes to a max object, the first one with its header, are merged to a frame that reads as that header and one op of the frames with the greatest value. No op is made up, and the order of the frames does not matter.", "quantifier": "for all spellings of all frames (any number of them), all results of strtod", "why_tests_cant": "The value is compared as it is held by the cursor: an integer as an unsigned number with the place in the text after it, a string by the place in the text; samples with small numbers never show it.", "anchors": ["rdt/max.hpp:16-46", "ron/text.hpp:48-62", "ron/text.hpp:121-126", "rdt/rdt.hpp:33-147"]}
{"id": "C93", "title": "An object is found by the name it was given", "statement": "After `name ID as n` succeeded, `of n` means the same as `of ID` to the next command. The name is the last one in the record of names of the store that was told with `on`, or of the metadata, and nothing else in the database is different; what cannot be named is refused and changes nothing.", "quantifier": "for all databases that come about by commands, all arguments, all readings of the clock", "why_tests_cant": "Which name wins depends on the stamps of all names given before, in processes of their own with clocks of their own; a test gives one name and looks it up at once.", "anchors": ["db/main.cc:575-597", "db/main.cc:63-141", "db/replica.hpp:195-210"]}
{"id": "C94", "title": "The branch that was hopped to is the one worked on", "statement": "After `hop on B` succeeded, `on` answers B or a name of it; and `hop` succeeds only if it was told where to.", "quantifier": "for all databases that come about by commands, all ways to tell the branch, all readings of the clock", "why_tests_cant": "A test in one process sees the active store change; that the next process starts from nothing shows only over two of them.", "anchors": ["db/main.cc:642-663", "db/main.cc:107-124", "db/replica.cc:35-83"]}
{"id": "C95", "title": "A log is written out as frames of a chain each", "statement": "`Reserialize` of the chains that `SplitLogIntoChains` found writes one frame per chain, in the order of the log. Each frame reads as the ops of its chain; together they are the ops of the log up to the cutoff, and no two neighbours could be one chain.", "quantifier": "for all logs, all cutoffs", "why_tests_cant": "The test has one log of two chains and looks at two frames; runs of characters, floats and other values take other ways through the builder.", "anchors": ["ron/frames.hpp:104-120", "rdt/rdt.hpp:65-103", "rdt/test/lww.cc:80-92"]}
{"id": "C96", "title": "The chains of a log are merged to its state", "statement": "The frames a log of an object is split into, merged with `MergeFrames`, read as the state made of the log at once: its ops up to the cutoff in the order of ids.", "quantifier": "for all logs of objects of the types LWW and MX, all cutoffs", "why_tests_cant": "The ways of splitting and merging agree only if chains are cut where the reducers expect it, for every log.", "anchors": ["ron/frames.hpp:104-120", "rdt/rdt.hpp:65-148", "rdt/rdt.hpp:197-208"]}
{"id": "C97", "title": "The state of an object is what its log says", "statement": "After any sequence of received frames, the state of an object of a usual type (register, set, yarn, array) can be read, and its ops are exactly those of the log of the object: in the order of ids for registers, sets and yarns, in the order of the weave for arrays.", "quantifier": "for all sequences of received frames, all objects", "why_tests_cant": "Every chain is written twice, to the log and to the state, and the two keys are merged by different reducers at times chosen by the reads; tests read back a few objects of a few chains.", "anchors": ["db/replica.cc:367-441", "db/replica.cc:335-365", "db/rocks_store.cc:55-108", "rdt/rga.hpp:40-92", "db/joined_store.hpp"]}
{"id": "C98", "title": "Replicas that have the same events have the same objects", "statement": "If the logs of two replicas have the same events, whatever the frames they came in, their order, and what was queried or refused in between, then the two replicas have the same objects, and reading an object gives the same ops in the same order at both.", "quantifier": "for all pairs of histories with the same events, all objects", "why_tests_cant": "The number of orders of delivery and of splittings into frames grows without bound; the tests have one replica, and two branches that exchange one change.", "anchors": ["db/replica.cc:367-441", "db/replica.cc:576-640", "db/rocks_store.cc:55-108", "rdt/rga.hpp:40-92", "rdt/lww.hpp", "rdt/mx.hpp"]}
{"id": "C99", "title": "A text that was written is the text of the object", "statement": "After a text was written to an array object through the text mapper and the write was answered with OK, the mapper shows that text; nothing else in the replica is different.", "quantifier": "for all replicas reached by any sequence of API calls, all objects, all texts, all clock readings", "why_tests_cant": "No test writes a text; what a write leaves alone is about all records of all stores.", "anchors": ["db/map/txt.hpp: TxtMapper::Write, WriteState, WriteDiffs, RGA2Codepoints", "db/replica.cc: Commit::ReceiveMapWrites"]}
{"id": "C100", "title": "Annotations of events are checked, not refused", "statement": "A chain of events with annotations of known kinds (meta, prev, obj, sha3: ops named by the kind that refer to the event before them) is received just as the chain without them: the same answer, the same store.", "quantifier": "all stores, chains, and places and kinds of annotations", "why_tests_cant": "No test has an annotation in a frame; every chain can have annotations at every event.", "anchors": ["ron/opmeta.hpp: OpMeta::is_check, OpMeta::Check", "db/replica.cc:305-335"]}
{"id": "C101", "title": "A replica is the history of the chains it has accepted", "statement": "When frames of one chain each come to a new store, the store is exactly the list of the accepted chains. A chain is accepted if and only if it begins an unknown yarn or goes on after all that is known of its yarn, and creates an object or refers to a known earlier event, and is of the yarn of the branch; a refused chain leaves the store as it was. An event is found if and only if it was accepted, with the object and type of the event it descends from. The tip of a yarn is its greatest accepted event. The log of an object reads as the accepted chains of the object in the order they came, its state is made of the same chains, and an object has one type.", "quantifier": "all sequences of frames of one chain each, of any length, with any yarns, objects and references, accepted or not; chains of events with stamps before NEVER whose head refers to an event, to one of the RDTs or to a name that is no RDT", "why_tests_cant": "It ties the lookup of an event through two indexes and a log to the whole history of the store; the number of histories is unbounded and the tests have a few.", "anchors": ["db/replica.cc: Commit::FindOpMeta, FindYarnTipMeta, FindChainHeadMeta, SaveChain, Save", "db/replica.cc:695-752", "db/mem_store.hpp"]}
{"id": "C102", "title": "Replicas with the same events do the same", "statement": "Two new stores receive frames of one chain each, in whatever order and with the chains cut however; some frames are refused. Once both have accepted the same events, they accept the same chains, find every event with the same object and type, and read the same state of every object of types LWW, MX, YARN and RGA.", "quantifier": "all pairs of sequences of frames of one chain each, accepted or not; all later chains; all objects", "why_tests_cant": "The tests feed one order to one replica; the number of orders and of ways to cut the chains is unbounded.", "anchors": ["db/replica.cc:208-433", "db/rocks_store.cc:209-248", "rdt/rdt.hpp:109-147"]}
{"id": "C103", "title": "A frame of many chains is worth its chains sent one after another", "statement": "A frame with several chains is accepted if and only if its chains, each sent in a frame of its own, are all accepted; the store then holds the same history as after sending them one by one, and a frame that is refused leaves the store as it was.", "quantifier": "all stores fed with frames, all frames of one or more chains, all branches", "why_tests_cant": "The chains of a frame see each other through the open transaction, joined with the store; which objects are partly here and partly there depends on the whole history.", "anchors": ["db/replica.cc:208-433", "db/replica.cc:570-600", "db/replica.cc:696-760", "db/joined_store.hpp:30-120", "db/rocks_store.cc:209-248"]}
{"id": "C104", "title": "A replica can catch up with another one", "statement": "If one replica has all events of another one and more, there are chains that the other accepts and after which both have the same events. More generally two replicas that send each other the events the other lacks have the same events afterwards and read the same registers, sets and yarns.", "quantifier": "all pairs of replicas fed with any frames, all sequences of chains sent", "why_tests_cant": "Whether a chain is accepted depends on all that came before; the theorem is about all histories and all that may be sent later.", "anchors": ["db/replica.cc:208-433", "db/replica.cc:367-441", "rdt/rdt.hpp:109-147"]}
{"id": "C105", "title": "A network in which replicas send what is missing stays in order and converges", "statement": "In a network of replicas where new events of a yarn are made at a replica that has all events of that yarn, and otherwise replicas send each other the chains the other lacks (all or the first of them), with refused frames at any time, nothing that is sent is ever refused; any set of replicas can be brought to the same events, and replicas with the same events read the same registers, sets and yarns.", "quantifier": "all networks of any number of replicas, all sequences of writes, partial or full exchanges and refused frames", "why_tests_cant": "The states of the network are unbounded in number of replicas, events and exchanges; the property is an invariant of all of them.", "anchors": ["db/replica.cc:208-433", "db/replica.cc:696-752", "db/rocks_store.cc:209-248", "rdt/rdt.hpp:109-147"]}
{"id": "C106", "title": "Every branch of a replica is the history of the chains it has accepted, also after forks and reopening", "statement": "Whatever sequence of calls is made on a replica (create, fork, drop, set active, receive a chain, close and open again), with any outcomes, the store of every branch holds a history of chains, each following from the ones before. The history of a fork is the beginning of its own yarn, then the history of the original; both read the same logs, registers, sets and yarns. A branch accepts a chain exactly if it follows its history and, once the tip is cached, is of the yarn of the tip.", "quantifier": "all sequences of calls of the API with all outcomes, all chains received, all branches", "why_tests_cant": "The claim is an invariant over all sequences of calls with all frames; forks of forks, reopened at any time, are unbounded in number.", "anchors": ["db/replica.cc:35-72", "db/replica.cc:85-131", "db/replica.cc:133-143", "db/replica.cc:208-433", "db/replica.cc:696-752"]}
{"id": "C107", "title": "The hash command prints the Merkle hash of every event of a frame and refuses wrong ones", "statement": "Of a frame of events, each after the earlier ones of its yarn and referring to a name or an event before it, the command prints the Merkle hash of every event, which is unique. Frames with events that refer to nothing before them, or are out of order, or with a stated hash that is not that of the event, are refused. The hash of a root op is the one that the replica keeps.", "quantifier": "all hash functions, all frames of events of any length and any number of yarns, all stated hashes", "why_tests_cant": "Frames, and the graphs of references between their events, are unbounded; whether a wrong hash is noticed is a claim on all texts.", "anchors": ["db/main.cc:486-535", "ron/hash.hpp:48-82", "ron/hash.hpp:150-195"]}
{"id": "C108", "title": "The record of the metadata of an event is read back", "statement": "The record that a replica writes for the head of a chain (its id, object, type and hash) is read, when an event is looked up, as the record of that event: the same id, object and type.", "quantifier": "all metadata of events with UUIDs of variety 0-3 and printable hashes", "why_tests_cant": "The ids of objects and types are 128-bit values, the ones that are misread are a thin set of them.", "anchors": ["ron/opmeta.hpp:107-131", "db/replica.cc:251-267", "ron/frames.hpp:167-171"]}
{"id": "C109", "title": "An event is found in the text of the log of its object", "statement": "Given the metadata of the head of a chain and the text of the log of the object, an event is found exactly when it is among the ops of the yarn that go on from the head, each referring to the one before; the end of the yarn is found exactly when all later ops of the yarn in the log are of that chain, and it is the last of them. What is found has the object, the type and the chain of the head and the right predecessor. It is the same as on the ops the text says.", "quantifier": "all texts that can be read (whatever status they end with), all heads, all event ids of the yarn, all hash functions", "why_tests_cant": "Logs are unbounded texts of events of any number of yarns.", "anchors": ["db/replica.cc:207-252"]}
{"id": "C110", "title": "The log of an object, as text, reads as the records put into it", "statement": "What the store gives for the log of an object (the merge of the chain records, in the order they came) reads as the ops of the records one after another; in particular an event found in the log is in one of the records.", "quantifier": "all lists of records (frames with ids going up), all heads and event ids, all hash functions", "why_tests_cant": "The number, sizes and contents of records are unbounded; a log goes wrong only when an op of one character follows another in a separate chunk.", "anchors": ["db/rocks_store.cc:59-83", "rdt/log.hpp:18-23", "ron/frames.hpp:187-196", "ron/text.hpp:291-321", "db/replica.cc:207-252"]}
{"id": "C111", "title": "A store of texts finds the events of the history it was made of", "statement": "The records of a replica's store are texts which say the chains accepted so far. FindOpMeta over them (the seek among the records of metadata, the merge of the log, the walk along it) finds an event if and only if it is in the history, with the object and the type of its chain; FindYarnTipMeta gives the last event of the yarn.", "quantifier": "all histories of chains, all stores of texts that say them, all event ids and yarns, all hash functions", "why_tests_cant": "Histories, records and ids are unbounded; the error needs two one-letter ops that follow each other in different records.", "anchors": ["db/replica.cc:209-273", "db/rocks_store.cc:59-83", "db/rocks_store.cc:209-232", "db/rocks_store.cc:268-310", "rdt/log.hpp:18-23"]}
{"id": "C112", "title": "A store of texts receives chains as text", "statement": "The records of a replica's store are texts that say the chains accepted so far. A frame of text with one chain is accepted if and only if the chain goes on from the history (begins an unknown yarn, or is newer than all of a known one; creates an object or refers to a known event) and belongs to the yarn of the branch. Then the records written are texts which, with those there were, say the history with the chain, and the tip recorded is the last event of the chain; otherwise the texts are byte for byte as they were. So a store fed with any sequence of frames of text says exactly the chains it accepted, in their order.", "quantifier": "all histories of chains, all stores of texts that say them, all frames of text of one chain, all tips and clocks, all hash functions", "why_tests_cant": "Histories, records and texts are unbounded; the failure needs one-letter ops in separate records of a log whose merge cannot be read back.", "anchors": ["db/replica.cc:369-433", "db/replica.cc:661-683", "db/replica.cc:695-752", "ron/frames.hpp:87-93", "db/mem_store.hpp:158-164", "db/rocks_store.cc:235-248"]}
{"id": "C113", "title": "The state of an object in a store of texts", "statement": "The records of a replica's store are texts that say a history of chains. The state of a register, a set or a yarn is read as a text of exactly the events of the object, in the order of ids; the state of an array that came in no more than three chains is read as a text of the weave of its events. So two stores of texts that have the same events, whatever the frames they were fed with, in whatever order and cut into chains in whatever way, read texts of the same ops.", "quantifier": "all histories of chains, all stores of texts that say them, all objects, all sequences of frames of text", "why_tests_cant": "Histories, cuts into chains and texts are unbounded; the failure needs two chains with consecutive ids that refer to the same op.", "anchors": ["db/replica.cc:369-433", "db/mem_store.hpp:30-42", "db/mem_store.hpp:166-183", "rdt/rdt.hpp:33-147", "rdt/rga.hpp:40-92"]}
{"id": "C114", "title": "Queries of objects answered by a store of texts", "statement": "A frame of queries, each naming an object by its id and type, is received by a replica whose records are texts that say a history of chains. If the replica has the objects (registers, sets, yarns, or arrays of no more than three chains) and their states can be written, it answers OK with one text that is read, to its end, as the states of the objects in the order they were asked for: the events of the object in the order of ids, or the weave of an array. Two replicas that have the same events answer alike. An object nobody has made, or one of another type, contributes nothing and the status is still OK.", "quantifier": "all histories of chains, all stores of texts that say them, all frames of any number of queries", "why_tests_cant": "Histories, texts and frames of queries are unbounded; the failure needs an array typed letter by letter, whose state is written well and only the copy of it in the response is not.", "anchors": ["db/replica.cc:472-490", "db/replica.cc:625-642", "db/replica.cc:695-752", "ron/frames.hpp:186-204"]}
{"id": "C115", "title": "Queries of logs answered by a store of texts", "statement": "A frame with one query of a log, naming an event, is received by a replica whose records are texts that say a history of chains. If the replica has the event and the state of its object (a register, a set, a yarn, or an array of no more than three chains) can be written, it answers OK with a text that is read, to its end, as the part of the object's state that stands before the event, without it; asked for the object itself, it answers with the whole state. Two replicas that have the same events answer alike. For an event nobody has made the status is NOT_FOUND and the response is empty.", "quantifier": "all histories of chains, all stores of texts that say them, all events", "why_tests_cant": "Histories, texts and the place of the event in the state are unbounded; the failure needs an array typed letter by letter whose log has more than one record, and it then depends on which letter is asked for.", "anchors": ["db/replica.cc:503-527", "db/replica.cc:625-642", "db/replica.cc:695-752", "ron/frames.hpp:186-204"]}
{"id": "C116", "title": "Queries of plain text answered by a store of texts", "statement": "A frame with one query of the plain text of an array is received by a replica whose records are texts that say a history of chains. If the replica has the array, in no more than three chains, and its state can be written, it answers OK with a text that is read, to its end, as one op: the derived id of the array, the text map, and a string that is the letters of the array that are not removed, in the order of the weave, encoded in UTF-8. For an array nobody has made the string is empty and the status is OK.", "quantifier": "all histories of chains, all stores of texts that say them, all arrays of letters", "why_tests_cant": "Histories, texts and the removals are unbounded. The failure depends on which letters stand in a run of the text of the state, which is decided by what was inserted and removed between them; a test that types a word and reads it back passes.", "anchors": ["db/map/txt.hpp:10-32", "db/replica.cc:601-610", "db/replica.cc:695-752", "rdt/rga.hpp:132-180"]}
{"id": "C117", "title": "Strings with U+0000", "statement": "An op with one string, the first op of a frame, is written by the builder and read back as it was given. The string is any sequence of code points below 2^21 other than the form feed (see C22), U+0000 included.", "quantifier": "all ids and references the text notation can say, all strings of less than 2^28 code points", "why_tests_cant": "The loop that writes a string ends at the first code point that is 0; strings in tests have none. What is lost is the rest of the string, of any length, without an error.", "anchors": ["ron/text.hpp:205-212", "ron/op.hpp:21-30", "ron/op.hpp:37-68"]}
{"id": "C118", "title": "Writes to LWW objects", "statement": "LWWObject::Write gives a frame of one op with the id, the key and the values it is told. The op refers to an op of the object, so that replicas accept it. Merged into the state it makes the key read the value and leaves the other keys alone.", "quantifier": "all objects, all ids later than theirs, all keys and values; for acceptance all replicas and whatever follows the op", "why_tests_cant": "No test calls Write. A test would see the value come back after a merge, because the reducer does not look at references; that every replica refuses the op shows only when it is sent.", "anchors": ["rdt/lww_obj.hpp:18-45", "ron/frames.hpp:87-93", "db/replica.cc:339-358"]}
{"id": "C119", "title": "Strings of LWW objects", "statement": "An LWWObject is made of a frame and gets other frames by Update. LWWObject::string of a key is the string that was written last for the key, whichever frame it is in.", "quantifier": "all frames that can be read to the end, all keys, all strings", "why_tests_cant": "The test reads a string of the first frame only. A string of another frame is a range of bytes of that frame and is looked up in the first one: what comes depends on what happens to stand at that place, or behind the end of it.", "anchors": ["rdt/lww_obj.hpp:18-39", "rdt/lww_obj.hpp:67-72", "ron/frames.hpp:125-137"]}
{"id": "C120", "title": "Strings of registers read from stores of texts", "statement": "A last-writer-wins object is read from a replica (GetFrame) and an LWWObject is made of the frame. LWWObject::string (uuid) of a key is the string (UUID) the event with the greatest id that writes the key has. Two replicas that have the same events give the same strings, whatever frames they were fed and in whatever order.", "quantifier": "all stores of texts with a lineage, all registers in them, all keys, all strings", "why_tests_cant": "It is about all histories of a register, all ways to cut them into frames and chains and all orders they come in; the tests feed one history in one order.", "anchors": ["rdt/lww_obj.hpp:13-39", "rdt/lww_obj.hpp:67-72", "rdt/lww.hpp:20-25", "db/replica.hpp:245-263"]}
{"id": "C121", "title": "UUIDs of LWW objects", "statement": "An LWWObject is made of a frame and gets other frames by Update. LWWObject::uuid of a key is the UUID that was written last for the key, whichever frame it is in. If what was written last is not a UUID, or nothing was written, it is the zero UUID.", "quantifier": "all frames that can be read to the end, any number of them, all keys, all UUIDs", "why_tests_cant": "It is about all sequences of frames and all values a key had before; a test has a few.", "anchors": ["rdt/lww_obj.hpp:18-39", "rdt/lww_obj.hpp:47-53", "rdt/lww_obj.hpp:60"]}
{"id": "C122", "title": "LWW objects and the order of frames", "statement": "An LWWObject gets frames of an object by Update. The UUID of a key is the one the op with the greatest id writes, in whatever order the frames come. Frames that are merged first make an object with the strings and UUIDs of the ops with the greatest ids.", "quantifier": "all frames that can be read to the end, any number of them, all keys and values", "why_tests_cant": "It is about all orders in which the frames of an object can come. A test that gives them in the order of their ids sees no difference.", "anchors": ["rdt/lww_obj.hpp:18-31", "rdt/lww.hpp:20-25"]}
{"id": "C123", "title": "Random words and the yarns of new branches", "statement": "Word::random is a word without flags; each of them comes of the same number of draws of rand(). Two runs of `create` or `fork`, wherever they are made, begin different yarns.", "quantifier": "all draws, all generators, all times", "why_tests_cant": "A test makes a few words. That two machines begin the same yarn in the same second shows only if both are run in that second.", "anchors": ["ron/uuid.hpp:122-127", "db/main.cc:734", "db/main.cc:160-163", "db/main.cc:190-197"]}
{"id": "C124", "title": "Handles of stores", "statement": "A store that Create or Open returned OK for can be written and read. A method that fails leaves the handle as it was. A closed store answers BAD_STATE to everything but Create and Open.", "quantifier": "all handles, all databases, all sequences of calls", "why_tests_cant": "The tests create a store and use it at once; they do not write after Open, nor go on after a method that failed.", "anchors": ["db/rocks_store.cc:131-248", "db/rocks_store.hpp:24-44"]}
