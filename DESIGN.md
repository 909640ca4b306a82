# Verification design: ron-cxx

A Lean 4 model of the pinned `gritzko/ron-cxx` sources (read as text in `/repo`, never built or
run) and theorems about it. The list of properties is `properties.jsonl`, the theorems of each are
in `MANIFEST.json`, the experiments with wrong programs in `seeded/LOG.jsonl`.

## Layout

| directory | contents |
|---|---|
| `lean/Verif/Model` | the code, function by function; each definition cites file and lines |
| `lean/Verif/Spec` | what the properties are stated in: grammars, calendars, orders, histories; nothing there computes with the model's helpers, except where a spec speaks of the model's own values (an `Atom`, a `Cursor`) |
| `lean/Verif/Lemmas` | proofs in between |
| `lean/Verif/Props` | the property theorems (`Cxx_…`), with an `example` beside each that meets its hypotheses |
| `lean/Verif/Checks` | the model run on the inputs of the project's own unit tests and test scripts: tests of the translation, not proofs of properties; no claim rests on them |

## Trusted base

* The kernel of Lean 4.33.0.
* The axioms of each theorem, listed at the end of this file: nothing but `propext`,
  `Classical.choice` and `Quot.sound`. No `sorry`, `native_decide`, `bv_decide`, no added axioms.
  `decide +kernel` is used to run the kernel on whole finite tables (automata, code tables), whose
  results are lifted to all inputs by lemmas, and on concrete witnesses.
* The translation from C++ to Lean, by hand. The transition tables of the four Ragel automata
  (`Model/UuidTable`, `Utf8Table`, `CpTable`, `TextTable`) were transcribed from the generated
  `*.cc` files state by state with a script; the tables are part of the model. As a check, the
  language of the text table is proved equal to the regular expression written down from
  `ragel/text-grammar.rl` (`TextLang.walk_lang`), and the language and actions of the UUID table
  equal to the UUID grammar (C03).

  `Verif/Checks` runs the model on what the project's unit tests run the code on
  (`ron/test/{uuid,text,hash,cp,meta}.cc`, `rdt/test/{rga,max,lww}.cc`, stores, chains and mappers of
  `db/test`, the scripts `test/rdt/{lww,rga}.ron`), including the SHA-512/256 hash expected by
  `ron/test/hash.cc`. The model gives what the tests expect, except for: parsing of hashes in
  `hash.cc` (`ParseHex` and `ParseBase64` ignore their input, C11), garbage collection in `lww.cc`
  (an uninitialised range, C53), `rdt/test/meta.cc` (not compiled by the project), and `test/txt.ron`.

## Conventions

* 64-bit words are `BitVec 64`; bytes are `UInt8`; sizes and offsets are `Nat`, with explicit
  reductions modulo 2^32 (`fsize_t`) or range checks where the width matters.
* Undefined behaviour, failed `assert`s and non-termination are outcomes of their own: `none` in
  the heap, reducer, store and replica models; `abort` (assert) and `ub` (bad access) in the text
  cursor and scan models. They are never mapped to a default value.
* Loops of unknown length take fuel; theorems about them either give enough fuel or hold for any
  fuel that suffices. "Out of fuel" is again an outcome of its own.
* Where the code violates a property as listed, the claim is stated as a proposition
  (`def Cxx_claim`), its negation is proved with a concrete witness (`Cxx_violated`), and the
  strongest true variants found are proved under names ending in `_partial`, whose comments say
  what is missing.
* `assert`s are taken as active (debug builds). What a failed assert would do in a release build is
  not modelled, except where noted.

## What is modelled

| code | model | notes |
|---|---|---|
| `ron/uuid.hpp`, `ron/uuid.cc`, `ron/const.hpp` | `Word`, `Bytes`, `Atom`, `Random` | words, random words (`rand` is an arbitrary function of its seed), UUIDs, atoms, orders, Base64 text; `Atom` fields as bit ranges of the two words |
| `ron/uuid-parser.cc` | `UuidParser`, `UuidTable` | complete automaton with actions |
| `ron/encdec.hpp`, `ron/utf8-parser.cc` | `BitCodec`, `Utf`, `Utf8Table` | hex/Base64 codecs, UTF-8, UTF-16 |
| `ron/hash.hpp` | `BitCodec`, `HashStream` | SHA2 value type, matching, parsing; the byte stream an op is hashed as; SHA-256 itself is an arbitrary function |
| `ron/text-parser.cc`, `ron/cp-parser.cc`, `ron/text.hpp:33-129`, `ron/text.cc` | `TextCursor`, `TextTable`, `CpTable`, `IntLit`, `Escape`, `Split` | the frame cursor with both automata, spans, integer limits, escapes, splitting |
| `ron/text.hpp:133-347`, `ron/text-builder.cc` | `TextBuilder`, `IntLit`, `Escape` | the frame builder, both of its op appenders |
| `ron/slice.hpp` | `Slice` | ranges and slices of memory |
| `ron/frames.hpp` | `Compare`, `HashStream`, `Ops`, `Strings`, `Reserialize` | comparison, frame hashing, helper builders, reading of strings, writing chains out as frames |
| `ron/form.hpp`, `ron/status.*`, `ron/vv.hpp`, `ron/inc_stack.hpp`, `ron/opmeta.hpp` | `Forms`, `Status`, `VV`, `IncStack`, `Replica` | |
| `db/const.hpp` | `Maps` | codes and names of maps |
| `rdt/merge.hpp` | `Merge` | the heap of cursors, with the array operations |
| `rdt/{lww,mx,rga,max,log,meta,rdt}.hpp`, `rdt/lww_obj.hpp` | `Rdt`, `Lww`, `LwwWrite`, `LwwText`, `Scan`, `Chains` | reducers, GC of lww, tombstone scan, LWW objects (their writes, and their strings over text frames), splitting of logs |
| `db/key.*`, `db/mem_store.hpp`, `db/joined_store.hpp`, merge operator of `db/rocks_store.cc` | `Key`, `Store` | stores and their iterators |
| `db/replica.*`, `db/map/txt.hpp` (reading, writing of texts) | `Clock`, `Replica`, `Lifecycle`, `Names`, `Query`, `Recall`, `Txt` | clock, commits, receiving frames, new events; creating, opening and closing replicas, branches, forks |
| `db/main.cc` | `Cli` | the commands, what they do to the database and the status they return |
| `db/main.cc:305-333` | `Dump` | the listing of a store: the records that are printed |
| `db/rocks_store.cc:131-157, 318-353` | `Families` | the names of column families |
| `db/rocks_store.cc:131-248` | `Handle` | which calls of a store are defined: whether it is open and has a family; what RocksDB does is assumed; `OpenAll`, `Repair` and iterators are not in it |
| `db/main.cc:234-250` | `Script` | `SplitTests`, over the cursor and the builder |
| `db/main.cc:486-535` | `HashFrame` | the hash command on one frame: reading of files, the printing of a chunk left out |
| `db/main.cc:256-302` | `TestRun` | running of test scripts, over any replica |
| `db/replica.cc:302-335, 423-426` | `TextChain` | saving of a chain, over the text cursor and builder |
| `ron/opmeta.hpp:107-131`, `db/replica.cc:207-271` | `TextFind` | records of metadata and looking up an event, over the text cursor and builder; the store is a parameter |
| `db/rocks_store.cc:209-232,268-310`, `db/replica.cc:209-273` | `TextReplica` | reading and seeking in a store of texts, looking up an event there; the transaction has no records yet |
| `db/replica.cc:369-433,657-681,695-752` | `TextReceive` | a frame of one chain, as text, into a store of texts: the checks, the records written, the tip; other frames are only in `Replica` |
| `db/replica.cc:472-490,625-642,695-752` | `TextQuery` | a frame of queries of objects, as text, answered by a store of texts; queries of maps are only in `Map` |
| `db/replica.cc:503-527,625-642,695-752` | `TextQueryLog` | a frame of one query of a log, as text, answered by a store of texts; frames that mix queries of logs with other ops are only in `Query` and `Replica` |
| `db/map/txt.hpp:10-32`, `db/replica.cc:601-610` | `TextTxt` | a frame of one query of a plain text, answered by a store of texts; `ScanRGA` is run on the ops collected from the state (`Rga.scan`), and `.value.cp` of a value that is not a string is a parameter |
| `db/mem_store.hpp:30-42,166-183`, `db/rocks_store.cc` (reads) | `TextReplica` (read) | the state of an object merged from the texts of its key (C113); that a read replaces the records by the merge is in `MemStore` |
| `rdt/rdt.hpp:197-221`, `db/replica.hpp:254-260` | `TextState` | states made of logs, as text |
| `rdt/merge.hpp:21-122`, `rdt/rga.hpp:55-85`, `rdt/rdt.hpp:33-147`, `rdt/log.hpp:18-23` | `TextMerge` | the reducers on text cursors and the text builder; `MaxRDT` is any function there |
| `rdt/max.hpp`, `ron/text.hpp:48-62` | `TextMax` | `MaxRDT` on text cursors; `strtod` is any function |

Simplifications (each is repeated at the definition concerned):

* Reducers work on lists of ops (`id`, `ref`, values and the place in the text) instead of text
  cursors and builders; the round trip text - ops - text is the subject of C18-C25 and C20's exact
  reading theorem.
* RocksDB is a map that merges operands with the merge operator (`Engine`); column families are
  separate maps, a batch is atomic.
* SHA-256 is an arbitrary function on byte strings; collision freeness is a hypothesis where needed.
* `gmtime` is a reference Gregorian calendar; clock readings are arbitrary inputs.
* `double` values are never computed: a float is its text (C29's number accessor is modelled on bits).

Not modelled: RocksDB, the file system and the mapping `TextFrame` - disk; what the
command line prints (except for `dump`), and its commands `help`, `version`, `repair`; `db/map/*` writers except the parts named; `ron/op.hpp` printing; network; random
numbers; `strtod`/`printf("%G")`; allocation failure; threads.

## Properties

Status, what is modelled and how it is proved. Where the code disagrees with the property this is said in the note.

### C01 Base64 word text round trip

* Modelled and proved: `Word` printing and parsing (`uuid.hpp`, `uuid.cc`); induction over the ten 6-bit digits.
* Status: proved. All words. Print/parse of uuid.cc/uuid.hpp.
* Theorems: `C01_word_round_trip`, `C01_no_trailing_zero`, `C01_parse_any`

### C02 UUID text round trip

* Modelled and proved: `Uuid::str` and the UUID parser on its output; digit lemmas and the run of the automaton over the text.
* Status: proved. Round trip iff the two origin bits above the version are clear; otherwise exactly these are lost.
* Theorems: `C02_uuid_round_trip`, `C02_uuid_loss`, `C02_str_injective`

### C03 UUID parser accepts exactly the UUID grammar

* Modelled and proved: the Ragel automaton of `uuid-parser.cc` state by state, with its actions; invariant per state against a grammar predicate (`Spec/UuidText`).
* Status: partial. The full claim is false of the code (C03_violated: empty and truncated texts are accepted); the partial theorem settles every text that is not truncated.
* Theorems: `C03_uuid_grammar_partial`, `C03_violated`

### C04 UUID comparison is a strict total order with value first

* Modelled and proved: `Uuid`/`Word` comparison operators; order lemmas over bit vectors.
* Status: proved. 
* Theorems: `C04_uuid_order`, `C04_value_first`, `C04_operators`

### C05 Base64 text order equals numeric order

* Modelled and proved: `Word::str`; lexicographic order of padded digit strings by induction.
* Status: proved. 
* Theorems: `C05_text_order`, `C05_text_eq`

### C06 Calendar timestamps are injective and monotone

* Modelled and proved: `Uuid::HybridTime`; a positional number system against the lexicographic order of calendar fields; reference Gregorian calendar in `Spec/Calendar`.
* Status: proved. Over calendar tuples and, with a reference Gregorian calendar standing for libc gmtime, over POSIX times.
* Theorems: `C06_calendar_order`, `C06_calendar_injective`, `C06_calendar_payload`, `C06_posix_order`

### C07 The replica clock never repeats or goes back

* Modelled and proved: `Replica::Now`/`See`; invariant over all traces of calls with arbitrary clock readings.
* Status: proved. All traces of Now/See with arbitrary wall clock readings; stamps below NEVER.
* Theorems: `C07_clock_monotone`, `C07_clock_monotone_uuid`, `C07_stamp_shape`

### C08 Storage keys round trip ids of events

* Modelled and proved: `db/key.hpp`; bit-field arithmetic.
* Status: proved. 
* Theorems: `C08_key_round_trip`, `C08_key_injective`, `C08_only_events`

### C09 Storage keys sort by form, then yarn, then time

* Modelled and proved: `db/key.hpp` order and the byte image given to the storage engine; arithmetic of base-256 digits.
* Status: proved. Byte image on a little-endian host.
* Theorems: `C09_key_order`, `C09_key_bytes`, `C09_key_bytes_round_trip`, `C09_yarn_contiguous`, `C09_bounds`

### C10 RDT form codes and names are in bijection

* Modelled and proved: `ron/form.hpp` tables; the kernel decides the whole table, lifted to all words.
* Status: partial. The claim on codes outside of the table is false of the code (codes 20..159 are read out of bounds): C10_violated.
* Theorems: `C10_forms_partial`, `C10_violated`

### C11 Bit codec round trip and hash text forms

* Modelled and proved: `encode`/`decode` of `encdec.hpp`, `SHA2` constructors and printing; induction over bytes.
* Status: partial. Hex codec proved; Base64 codec exact for lengths divisible by 3 (C11_base64_violated otherwise); the hash parsers ignore their input (C11_hash_parse_zero, C11_hash_violated).
* Theorems: `C11_hex_round_trip`, `C11_base64_round_trip_partial`, `C11_base64_violated`, `C11_hash_parse_zero`, `C11_hash_violated`, `C11_hex_faithful`, `C11_base64_faithful`

### C12 Hash matching is prefix comparison

* Modelled and proved: `SHA2::matches`; bitwise characterisation.
* Status: proved. 
* Theorems: `C12_matches`, `C12_matches_refl_symm`, `C12_matches_full`, `C12_bounds`

### C13 UTF-8 round trip

* Modelled and proved: `utf8append` and the automaton of `utf8-parser.cc`; run lemma per code point, induction over the text.
* Status: proved. Shape is the generalised 21-bit one: over-long forms and surrogates are accepted by the code and by the statement.
* Theorems: `C13_round_trip`, `C13_accepts_iff`, `C13_total`, `C13_read`, `C13_read_text`

### C14 UTF-16 conversion is faithful

* Modelled and proved: `utf16append`, `read` of `encdec.hpp`; arithmetic per code point.
* Status: partial. Round trip proved for all code points below 2^21; standard form holds exactly below U+10000 except U+D7FF (C14_violated).
* Theorems: `C14_round_trip`, `C14_standard_partial`, `C14_violated`, `C14_read_standard`, `C14_lone_surrogate`

### C15 String escaping is lossless and never breaks the frame

* Modelled and proved: `escape`/`unescape`; induction over bytes with the reading rule of quoted atoms in `Spec/Literals`.
* Status: proved. 
* Theorems: `C15_round_trip`, `C15_quoted`, `C15_no_line_ends`, `C15_codepoints`

### C16 Integer literals never overflow

* Modelled and proved: `int_too_big`, `ParseInteger`; order of digit strings against values.
* Status: proved. 
* Theorems: `C16_exact`

### C17 Every 64-bit integer can be written and read back

* Modelled and proved: `WriteInt` with its buffer of 20 bytes, and the reader; decimal digits.
* Status: partial. Exact set of integers that survive: not below -922337203685477580 (C17_violated); buffer overrun exactly for v <= -10^18 (C17_overrun).
* Theorems: `C17_text`, `C17_round_trip_partial`, `C17_violated`, `C17_overrun`, `C17_rejected`

### C18 Frame parsing always terminates and makes progress

* Modelled and proved: `TextFrame::Cursor::Next` (automaton and actions); a measure on (bytes left, span left).
* Status: partial. Progress and termination are proved for all frames; the stickiness of failures is violated: '(5)' without a terminator is an error that leaves a span pending (C18_violated); C18_sticky_iff gives the exact condition.
* Theorems: `C18_progress`, `C18_monotone`, `C18_terminates`, `C18_violated`, `C18_sticky_partial`, `C18_sticky_iff`

### C19 Frame parsing never leaves the buffer

* Modelled and proved: as C18; an invariant of the automaton registers checked row by row on the table (`TextInv`, `TextRun`) and lifted to all inputs.
* Status: partial. Proved for all frames below 10^9-1 bytes; violated by a frame of 2^30+43 bytes (30-bit positions run into the type bits).
* Theorems: `C19_violated`, `C19_no_bad_access_partial`, `C19_atoms_partial`, `C19_reads_partial`

### C20 Numeric and name atoms are lexed unambiguously

* Modelled and proved: as C18; a grammar of frames with values (`Spec/TextGrammar`), and a run lemma of the automaton per construct (`TextGo` … `TextFrameGo`).
* Status: partial. Violated: 1e5 is read as a float and as a UUID, two values. Proved: every frame of the grammar (all atom kinds, ids, references, spans, terminators; bare atoms that are float and UUID at once left out) is read exactly as the grammar says, and the grammar is unambiguous. Frames below 2^30 bytes.
* Theorems: `C20_violated`, `C20_frames_partial`, `C20_unambiguous_partial`

### C21 Syntax errors are reported as errors

* Modelled and proved: as C18; the grammar file as a regular expression (`Spec/TextLang`), linear forms of it as states of a nondeterministic automaton, a simulation checked row by row.
* Status: partial. The claim is refuted (an oversized integer, float or UUID before a terminator ends the frame without an error and the rest is dropped); for all frames below 10^9-1 bytes without oversized literals outside of quotes the end-of-frame status is given exactly on the texts of the grammar, and for all frames what was consumed before it is a text of the grammar.
* Theorems: `C21_violated`, `C21_all_violated`, `C21_partial`, `C21_consumed_partial`

### C22 Built frames parse back to the same ops

* Modelled and proved: `Op` and `TextFrame::Builder`; an invariant of the builder (the data is a text of the grammar, with an op pending) kept by every call, then C20 for reading.
* Status: partial. Clean calls (Spec.CleanCalls) make a frame of the grammar that reads back as the ops the calls say, with their terminators; calls outside of it are shown to be violations.
* Theorems: `C22_partial`, `C22_violated`, `C22_chunk_violated`, `C22_first_violated`, `C22_int_violated`, `C22_int_read_violated`, `C22_zero_violated`, `C22_feed_violated`, `C22_float_violated`

### C23 Abbreviated specifiers denote the default chain

* Modelled and proved: as C20.
* Status: proved. Frames of any size; ids are consecutive and increasing unless the 64-bit value overflows (C23_overflow shows the boundary).
* Theorems: `C23_chain`, `C23_frame`, `C23_increasing`, `C23_overflow`

### C24 Spans expand to exactly the declared ops

* Modelled and proved: as C20.
* Status: partial. Violated: (0) stands for 2^32 ops, a spread string ending in a \u form loses the code point. Proved for counts above zero and for spread strings without zero code points, anywhere in any frame below 2^30 bytes.
* Theorems: `C24_count_violated`, `C24_spread_violated`, `C24_count_partial`, `C24_spread_partial`

### C25 Builder span compression loses nothing

* Modelled and proved: as C22, for runs of characters.
* Status: partial. Runs of characters whose first one takes one byte read back in full; other first characters are shown to be violations.
* Theorems: `C25_partial`, `C25_violated`, `C25_escape_violated`

### C26 The incremental stack behaves as a stack

* Modelled and proved: `inc_stack.hpp`; refinement to a list of UUIDs.
* Status: partial. violated: iterator += moves the span pointer instead of the offset; push, pop, front, back, iteration and span skipping equal a plain list
* Theorems: `C26_violated`, `C26_stack_partial`, `C26_skip_partial`

### C27 k-way merge emits every op once, in order

* Modelled and proved: `rdt/merge.hpp`: heap of cursors as arrays; heap invariant, refinement to a sorted union.
* Status: proved. heap merge refined to the sorted duplicate-free union, any number of inputs
* Theorems: `C27_ordered_merge`, `C27_iterator_total`

### C28 State merge is independent of order, grouping and repetition

* Modelled and proved: reducers of `lww`, `mx`, `yarn`; equations of sorted duplicate-free unions.
* Status: proved. any merge tree over the same events gives the same frame (lww, mx, chains)
* Theorems: `C28_merge_confluent`, `C28_comm_assoc_idem`

### C29 Last write wins

* Modelled and proved: `LWWObject`; fold over a merged frame.
* Status: partial. violated for numbers: LWWObject::number converts the bits as an integer; every key of a merged object holds the last write, older writes change nothing, uuid and string accessors are right
* Theorems: `C29_violated`, `C29_last_write_partial`, `C29_older_writes_partial`, `C29_accessors_partial`

### C30 Causal-tree merge converges

* Modelled and proved: `rga.hpp` merge; uniqueness of the depth-first weave of a causal tree.
* Status: partial. violated when inputs share ops (they come out twice); unique weave proved for any splitting into disjoint pieces
* Theorems: `C30_violated`, `C30_weave_partial`, `C30_converges_partial`

### C31 Causal-tree merge keeps causality or refuses

* Modelled and proved: as C30; exact acceptance condition.
* Status: partial. violated: a dangling reference inside one input is accepted; causality and contiguity proved for pieces of a tree; acceptance characterised exactly for arbitrary inputs
* Theorems: `C31_violated`, `C31_causal_partial`, `C31_contiguous`, `C31_accepts_iff`, `C31_refuses_many`

### C32 Tombstone scan is memory safe and total

* Modelled and proved: `ScanRGA` with its working arrays; invariant on stack depth.
* Status: partial. violated: three removals in a row below one element write outside of kills; safe if runs of removals/undos are not longer than what is above them, for every frame of less than 2^31 ops
* Theorems: `C32_violated`, `C32_safe_partial`, `C32_single_partial`

### C33 Deletes and undos resolve per element

* Modelled and proved: as C32; visibility as a function on the tree.
* Status: partial. violated: an undo of the first removal of a run has no effect; exact visibility proved otherwise, and the full claim for frames without undos
* Theorems: `C33_violated`, `C33_visible_partial`, `C33_no_undo_partial`

### C34 Max type keeps the maximum

* Modelled and proved: `max.hpp`.
* Status: partial. violated for negative integers (unsigned compare) and ties; maximum proved for the unsigned order and for non-negative values; UUIDs and updates without values too, in frames without headers
* Theorems: `C34_violated`, `C34_unsigned_partial`, `C34_nonnegative_partial`, `C34_order_independent_partial`, `C34_uuids_partial`, `C34_empty_partial`

### C35 Op metadata merge keeps the latest record

* Modelled and proved: `meta.hpp`.
* Status: proved. latest record per id; independent of input order
* Theorems: `C35_meta_latest`, `C35_order_independent`

### C36 Log merge is concatenation

* Modelled and proved: `log.hpp`.
* Status: proved. concatenation in input order
* Theorems: `C36_log_concat`

### C37 Merging never invents or alters ops

* Modelled and proved: all reducers.
* Status: partial. violated: max merge of a header-only frame appends what the exhausted cursor shows; proved for all other forms
* Theorems: `C37_violated`, `C37_no_new_ops_partial`

### C38 A read returns the merge of everything written

* Modelled and proved: `MemStore`: records in key order; refinement to the merge of all writes; max registers: the height of the values (Highest).
* Status: partial. Violated for causal trees (C38_violated): a read in the middle can fail and drops the records. Proved for lww/mx/yarn, logs and metadata from any store and with any interleaving of commands; causal trees: for pieces without common ops and if the reads in between succeed; other keys are never touched. Max registers: the greatest of everything written, numbers as unsigned ones.
* Theorems: `C38_violated`, `C38_read_partial`, `C38_log_partial`, `C38_meta_partial`, `C38_rga_partial`, `C38_other_keys_partial`, `C38_max_partial`, `C38_max_numbers_partial`

### C39 A failed read loses nothing

* Modelled and proved: as C38.
* Status: partial. Violated (C39_violated): Read erases the records before it looks at the merge status. Proved: other keys are unaffected, reads of up to one record change nothing, and for every form with a reducer except rga a read never fails.
* Theorems: `C39_violated`, `C39_no_failure_partial`

### C40 Store iteration visits every key once in order

* Modelled and proved: `MemStore` iterator.
* Status: proved. All stores in key order, values asked for at any subset of the keys.
* Theorems: `C40_iteration`

### C41 Joined store is a faithful overlay

* Modelled and proved: `JoinedStore` and its iterator.
* Status: partial. Violated by reads (form is guessed from the frames) and by batch writes (they go to the lower layer). Proved: single writes; reads of lww/mx/yarn objects with a header; iteration over the union of the keys.
* Theorems: `C41_reads_violated`, `C41_writes_violated`, `C41_write_partial`, `C41_read_partial`, `C41_iteration_partial`

### C42 Storage-engine partial merges do not change results

* Modelled and proved: the merge operator of `rocks_store.cc`; any tree of partial merges.
* Status: partial. Violated for rga (C42_violated: more than three operands at once fail). Proved for lww/mx/yarn and logs; for causal trees: however the pieces are grouped, a merge that succeeds is the weave, and a partial merge is again a piece; for metadata: one record per id with the greatest reference; for max registers: however the frames are grouped, the greatest of all, if each has an update with a value.
* Theorems: `C42_violated`, `C42_by_id_partial`, `C42_log_partial`, `C42_rga_piece_partial`, `C42_rga_partial`, `C42_rga_same_partial`, `C42_meta_partial`, `C42_max_partial`

### C43 Rejected batches leave no trace

* Modelled and proved: `Commit` on a memory branch over the main store; invariant of the receive loop.
* Status: partial. The claim as stated is false (C43_violated): an op naming a version is written to the main store at once, before the rest of the frame is checked. Proved: a rejected frame leaves every record other than the names untouched, and a rejected frame without naming ops leaves the main store as it was. A frame is rejected when any of its commands is (C43_refused), accepted only if all were (C43_all_accepted).
* Theorems: `C43_violated`, `C43_no_trace_partial`, `C43_refused`, `C43_all_accepted`

### C44 Chains only grow forward

* Modelled and proved: as C43, for tips; traces of transactions.
* Status: partial. Both halves are false as stated: after CreateBranch the tip in memory is unset, so a lower tip of another yarn is accepted (C44_tip_violated); an array log read inside a transaction hides the yarn's tip and the yarn can be restarted (C44_order_violated). Proved: in a session opened with a tip the recorded tip never goes before it nor leaves its yarn; what Open reads is the recorded tip; records stay in key order; an accepted chain starts later than the tip found for its yarn or begins an unknown yarn, repeats and conflicts get their own codes.
* Theorems: `C44_tip_violated`, `C44_order_violated`, `C44_tip_partial`, `C44_key_order`, `C44_open`, `C44_accepted`, `C44_repeats`

### C45 No dangling references

* Modelled and proved: as C43; causal closure as an invariant over any sequence of receives.
* Status: partial. Violated: the stamp NEVER stands for the tip of a yarn, so a reference to it is found; one event stamped right before NEVER sets the clock there, a few local stamps take it past, and then events with such references are taken. Proved for every sequence of receives in which no op refers to the stamp NEVER, with the reducers of the code (an exhausted cursor shows no op referring to the name meta).
* Theorems: `C45_violated`, `C45_closed_partial`, `C45_history_partial`, `C45_honest_partial`

### C46 Hash chain commits to history

* Modelled and proved: `OpMeta`, `hash.hpp` streams; injectivity of the byte stream of an op, induction over histories.
* Status: partial. Proved for the hash function of ops on full histories (C46_commits), and that OpMeta follows it (C46_steps), with its other fields (C46_meta_root, C46_meta_next, C46_saved). In a replica it fails for every hash function (C46_replica_violated): metadata loaded from the store has no hash.
* Theorems: `C46_commits`, `C46_steps`, `C46_meta_root`, `C46_meta_next`, `C46_saved`, `C46_replica_violated`

### C47 New local events get unique consecutive stamps

* Modelled and proved: `Replica::WriteNewEvents`.
* Status: partial. The claim as stated is false (C47_violated): stamped ops are never stored and all carry one stamp. Proved: what is stamped, with the stamp of which yarn, and that nothing else changes.
* Theorems: `C47_violated`, `C47_effect_partial`, `C47_stamps_partial`, `C47_yarn`

### C48 Splitting a log into chains loses nothing

* Modelled and proved: `rdt.hpp` log splitting with cursors; locality of the parser (an op is read the same when the frame is cut after it).
* Status: partial. Violated as claimed: a cutoff inside a span lets the chain run to the end of the span (C48_violated); a chain may cross from one yarn to another (C48_yarn_violated). C48_split_partial says exactly what the chains of any log are; C48_exact_partial gives the claim's first half for cutoffs not inside a span. Logs below 10^9-1 bytes without over-long words.
* Theorems: `C48_split_partial`, `C48_exact_partial`, `C48_nil`, `C48_violated`, `C48_yarn_violated`

### C49 Version vector coverage

* Modelled and proved: `vv.hpp`.
* Status: partial. False for the zero timestamp of an unrecorded yarn (C49_violated).
* Theorems: `C49_covers_partial`, `C49_violated`, `C49_covers_down`

### C50 Frame comparison is exact

* Modelled and proved: `CompareFrames`; induction over both cursors.
* Status: partial. False as stated: comments are skipped (C50_violated); a trailing syntax error goes unnoticed (C50_end_violated). Proved: exactly what equality means for all frames; the claim for well-formed frames without comments; reflexive, symmetric, transitive.
* Theorems: `C50_violated`, `C50_end_violated`, `C50_exact_partial`, `C50_plain_partial`, `C50_contents`, `C50_refl`, `C50_symm`, `C50_trans`

### C51 Splitting a frame preserves its text

* Modelled and proved: `TextFrame::Split`; the automaton has no transitions after a frame terminator.
* Status: proved. TextFrame::Split (SplitByID does not exist in the source). Any text: nothing but white space between frames is lost; accepted frames are never cut and are found again exactly.
* Theorems: `C51_text`, `C51_accepted`, `C51_frame`, `C51_frames`

### C52 Status codes are distinct and error-ness is decided by the code

* Modelled and proved: `status.hpp`; table of codes.
* Status: proved. 
* Theorems: `C52_codes_distinct`, `C52_comment_neutral`

### C53 Garbage collection of lww keeps reads

* Modelled and proved: `LastWriteWinsRDT::GC`.
* Status: partial. violated: the origin word of the key atom is taken for a byte range, so all name keys are one key; reads are kept whenever the ranges tell the keys apart
* Theorems: `C53_violated`, `C53_reads_partial`

### C54 Plain-text mapping returns the visible characters

* Modelled and proved: `TxtMapper::Read` on top of C33.
* Status: partial. violated: single characters outside of spreads come out as NUL, and the status of the scan is ignored; proved for accepted frames of spread characters
* Theorems: `C54_violated`, `C54_text_partial`, `C54_error_ignored_partial`

### C55 Moving an iterator never changes the data

* Modelled and proved: `MemStore` iterator with `SeekTo`.
* Status: partial. Violated (C55_violated): SeekTo keeps the merged value of the previous key and Next writes it over the new one. Proved for one walk through the store.
* Theorems: `C55_violated`, `C55_walk_partial`

### C56 Seeking lands exactly on the requested key

* Modelled and proved: as C55.
* Status: partial. Violated (C56_violated): seeking backwards takes only the last record of a key. Proved: forward seeks; the key of backward seeks and the value if there is one record or the key is the one asked for.
* Theorems: `C56_violated`, `C56_forward_partial`, `C56_backward_partial`

### C57 Frames of different types are never merged

* Modelled and proved: `GetForm` and the dispatch of merges.
* Status: partial. False as stated: a header with the zero name is ignored only when it comes first, so the answer depends on the order. Proved for frames without such a header.
* Theorems: `C57_violated`, `C57_types_partial`

### C58 The hash of an op does not depend on how it is written

* Modelled and proved: `OpHash` over cursors: exact parsing (C20) with the byte stream of C46.
* Status: partial. False as stated (C58_violated): a character in a span is hashed as a code point, a string of one character as a string. Proved for frames below 2^28 bytes and ops with characters of spans in the same places.
* Theorems: `C58_violated`, `C58_notation_partial`

### C59 Copying a frame op by op gives a frame with the same ops

* Modelled and proved: `AppendFrame`: the cursor of C20 with the builder of C22.
* Status: partial. AppendFrame miscopies spread/count runs that end a chunk, explicit floats, escaped slashes at the head of a run and next ids with other references (violations proved); proved for every grammar frame free of these, below 2^30 bytes, incl. terminators
* Theorems: `C59_violated`, `C59_float_violated`, `C59_slash_violated`, `C59_reference_violated`, `C59_partial`

### C60 Object logs are self-contained

* Modelled and proved: as C43; the place of every op as an invariant over any sequence of receives.
* Status: partial. Violated: an op that refers to the name meta is taken for metadata of its own id, so later ops are filed into a log where their cause is not, or into an object nobody created. Proved for all histories none of whose ops refers to the name meta or to the stamp NEVER, reducers that neither invent ops nor lose log entries (all of the code but MAX, see C45_honest_partial).
* Theorems: `C60_violated`, `C60_states_violated`, `C60_filed_partial`, `C60_history_partial`

### C61 A replica can be opened again

* Modelled and proved: `Replica` life cycle: create, open, branch, fork, drop, receive, reopen; the tip record of every store as an invariant over all sequences of calls.
* Status: partial. Violated by foreign events in a new branch and by CreateBranch(0) with an active store; proved for all histories that avoid both. Opening changes nothing: proved.
* Theorems: `C61_violated`, `C61_calls_violated`, `C61_reopen_partial`, `C61_unchanged`

### C62 The active store is remembered

* Modelled and proved: as C61.
* Status: partial. Violated: the record is written but never looked at; proved that it is written, and that the active store is always NIL after opening.
* Theorems: `C62_violated`, `C62_forgotten_partial`, `C62_recorded_partial`

### C63 A fork holds what the original holds

* Modelled and proved: as C61; the keys of a store in order, and the copy loop over them.
* Status: partial. Violated by an object that can not be merged; if all can be read, each is proved to be written to the fork as it reads.
* Theorems: `C63_violated`, `C63_copied_partial`

### C64 The clock is set on opening

* Modelled and proved: as C61 with the clock of C07.
* Status: partial. Violated by foreign events; proved for the tips of all stores.
* Theorems: `C64_violated`, `C64_tips_partial`

### C65 Stores are apart

* Modelled and proved: as C61; one call at a time.
* Status: proved. For any reducer, any hash functions, any state and any call.
* Theorems: `C65_apart`, `C65_reopened`

### C66 Events in order are accepted

* Modelled and proved: `SaveChain` on a chain of any length (`Spec.ChainedTo`; `chainletLoop_linked` by induction on it), from the outcome of the lookups of its first event; the lookups in a new store evaluated. The negations by concrete frames.
* Status: partial. Violated for foreign events at the end of a frame in a branch that has a tip (C66_violated), and for chains after a later foreign event in the same frame (C66_mixed_violated). Proved for frames of one chain of any length, given the outcome of the lookups of its first event (C66_chain_partial), and with no such assumption for the first event in a new branch (C66_first_partial).
* Theorems: `C66_violated`, `C66_mixed_violated`, `C66_first_partial`, `C66_next_partial`, `C66_chain_partial`

### C67 A name that was given can be read

* Modelled and proved: `WriteName`, `ReadNames` on the stores of a replica; the merge of the LWW record (C30) keeps ops with distinct stamps.
* Status: partial. The claim as stated is false (C67_violated): after reopening, names given within one second get the same stamp and one replaces the other. Proved: names are accepted (C67_accepted); names given with later and later stamps are all read, the last one given for each name (C67_names_partial), and within a session stamps are later (C67_session); a name in a frame is given to the last event accepted before it (C67_tip).
* Theorems: `C67_violated`, `C67_accepted`, `C67_names_partial`, `C67_session`, `C67_tip`

### C68 An op under other ids keeps its values

* Modelled and proved: `Op::Amend` on text cursors, then the builder (C22) and the cursor (C20).
* Status: partial. Violated by the code for integers, floats, strings and runs (undefined behaviour for empty strings); proved for ops whose values are UUIDs; for a string, what becomes of it is stated exactly (C68_shift_partial).
* Theorems: `C68_violated`, `C68_string_violated`, `C68_run_violated`, `C68_float_violated`, `C68_empty_violated`, `C68_uuids_partial`, `C68_partial`, `C68_shift_partial`

### C69 Strings read the same in both encodings

* Modelled and proved: `ReadString`, `ReadString16` on text cursors; the loops run in step, and read a string of the grammar in full.
* Status: partial. Violated by the code for characters of runs; proved for all other strings (same outcome, same code points), with success for strings of the grammar.
* Theorems: `C69_violated`, `C69_partial`, `C69_read`

### C70 Queries change nothing

* Modelled and proved: as C61; the loop of `Receive` over queries touches the records of its own transaction only.
* Status: partial. Violated by queries with the id name, which assign a name; proved for all others.
* Theorems: `C70_violated`, `C70_partial`

### C71 Queries are answered with what was asked for

* Modelled and proved: `QueryObject`, `QueryObjectLog` with their responses, on the stores of a replica.
* Status: partial. Violated for logs and versions: the state is read instead of the log. Proved: what is answered is the state; for a version, what is before its op in the state (of a state in the order of ids: the ops with lesser ids); the answer to a query for a state has recorded ops only; the statuses are those of the commands of C70.
* Theorems: `C71_violated`, `C71_version_violated`, `C71_state_partial`, `C71_recorded_partial`, `C71_version_partial`, `C71_status`

### C72 A builder can be used again

* Modelled and proved: the builder of C22; after Release only the last id and the last value are left over.
* Status: partial. Violated when the first op goes on where the frame before stopped; proved otherwise.
* Theorems: `C72_violated`, `C72_read`, `C72_partial`

### C73 A slice is the string of its bytes

* Modelled and proved: a slice is memory and two positions; reads outside of the memory are undefined behaviour, failed asserts an outcome of their own.
* Status: partial. str() violated and characterised; reading bytes, comparison, hash, sub-slices and consuming proved in full.
* Theorems: `C73_violated`, `C73_str_partial`, `C73_str`, `C73_at`, `C73_eq`, `C73_hash`, `C73_sub`, `C73_sub_end`, `C73_consume`

### C74 The state of an object as of a version

* Modelled and proved: the split of C48 on lists of ops, then the merge of C28/C29/C30: chains are sorted by id, and pieces of a causal tree.
* Status: partial. Violated for rga logs of more than three chains (refused); proved for lww and mx in full, for rga up to three chains. Logs are op lists; C48 is about the split of text, which differs if the version is inside of a span.
* Theorems: `C74_violated`, `C74_by_id`, `C74_reads`, `C74_rga_partial`, `C74_rga_many`, `C74_unknown`, `C74_state`

### C75 Kinds of names

* Modelled and proved: the loops as they are; the masks over all 64 codes by the kernel, lifted to words by induction.
* Status: proved. 
* Theorems: `C75_kind`, `C75_kinds`, `C75_digits`

### C76 Codes and names of maps are in bijection

* Modelled and proved: the switch over the labels as a list of cases; induction over the cases.
* Status: proved. 
* Theorems: `C76_maps`

### C77 A command that fails changes nothing

* Modelled and proved: every command on the model of the replica; what is written before the error is found is followed command by command (`Effect`).
* Status: proved. A command that stops at an assert has no status and is not covered.
* Theorems: `C77_failed`, `C77_used`

### C78 A branch is found by its name

* Modelled and proved: the names of the metadata store as a function of the records (as for C67); create writes one record, drop reads it back.
* Status: partial. Violated twice (C78_violated, C78_others_violated). Holds for NAME ids if the stamps of the names are in order.
* Theorems: `C78_violated`, `C78_others_violated`, `C78_resolve_partial`, `C78_created_partial`

### C79 Every command can be carried out

* Modelled and proved: the commands on the model of the replica; for the negative part, the store they go to is absent from every reachable database (invariant).
* Status: partial. Violated (C79_violated); C79_exact_partial says exactly which commands can succeed.
* Theorems: `C79_violated`, `C79_never`, `C79_write`, `C79_exact_partial`

### C80 A replica is initialized once

* Modelled and proved: the model of the lifecycle; cases on the stores.
* Status: partial. Violated (C80_violated) for replicas without branches; with branches it is refused. No record is lost in any case.
* Theorems: `C80_violated`, `C80_partial`

### C81 Commands lose nothing

* Modelled and proved: invariant of the database (stores sound, ids unique, no branch of yarn zero), preserved by every command.
* Status: proved. Hypotheses: the random number is not zero and the clock has not come to its end.
* Theorems: `C81_grown`, `C81_drop`

### C82 The replica can always be opened

* Modelled and proved: the invariant of C81 by induction over the commands; soundness of the lifecycle model (C60 ff.).
* Status: proved. 
* Theorems: `C82_opened`

### C83 Splitting a test script loses nothing

* Modelled and proved: `Model/Script.lean` (`SplitTests` over the cursor and the builder); `Spec/Script.lean` says what the tests of a list of ops are. The cursors of the script (`ops_trail`, the reading ends at a full stop: `stop_dot`); a released builder writes the first op as a new builder writes that op with the reference replaced (`appendSrc_freed`); the rest as in C59, `work_ok`. Two negations with concrete scripts.
* Status: partial. Violated twice: what is after the first full stop is dropped with the status OK (C83_whole_violated); references of headers without one become NIL (C83_violated). Proved for scripts of the grammar, to the end or to a full stop followed by anything: the tests are exactly the ops before it, cut before each header, up to those references.
* Theorems: `C83_violated`, `C83_whole_violated`, `C83_partial`, `C83_tests`

### C84 Merging frames as text

* Modelled and proved: `Model/TextMerge.lean`: the reducers again, with text cursors in the heap and the text builder as the output (`MaxRDT` is any function). A simulation (`Sim`, `Tail`): the heap of cursors goes through the same states as the heap of ops of `Model/Merge.lean`, so that `merge_spec` (C27) and `rgaMerge_weave` (C30) say in which order the cursors are appended; what the builder then writes is C59's `work_ok`, and the text is read with C20. More turns change nothing (`mergeFrames_mono`). The negations by concrete frames.
* Status: partial. Violated twice: an op of the next id in the merged state reads as another (C84_violated); an input with a syntax error is cut there silently, status OK (C84_error_violated). Proved for all lists of frames of the grammar that can be copied (as in C59) with merged steps that are clean: union, weave, concatenation, last one, form, two forms refused, more than three RGA inputs refused. MAX is C92. Arrays: which frames are merged and which are refused with CAUSEBREAK (C84_rga_accepts_partial).
* Theorems: `C84_violated`, `C84_error_violated`, `C84_union_partial`, `C84_log_partial`, `C84_rga_partial`, `C84_rga_many`, `C84_form`, `C84_two_forms`, `C84_last_partial`, `C84_rga_accepts_partial`

### C85 States made of logs, as text

* Modelled and proved: `Model/TextState.lean` puts `Chains.splitLog` (C48) and the reducers on text (C84) together. `loop_starts` (`Lemmas/TextState.lean`): every chain is a cursor at an op of the log on a buffer cut after the last op of the chain, and the cut cursors hold the same values there (`rawOrChar_take`, from the locality of the parser, `Local`). The longest chains are unique (`chains_unique`), so they are the chains of the op-level model (`Recall.split`, C74), from which the order of ids in a chain, the form and the tree follow. Then `union_lists` and `weave_lists`, the lemmas of C84 for inputs that need not be whole frames. The negations by concrete logs.
* Status: partial. Violated three times (see findings). Proved for all logs of the grammar that can be copied, are less than 10^9-1 bytes, have no words of more than ten characters, and all cutoffs outside of spans: LWW and MX states (C85_by_id_partial), RGA states of up to three chains (C85_rga_partial), refusal of more (C85_rga_many); errors after the first op are reported (C85_error_partial).
* Theorems: `C85_violated`, `C85_cutoff_violated`, `C85_error_violated`, `C85_by_id_partial`, `C85_rga_partial`, `C85_rga_many`, `C85_error_partial`

### C86 Merging frames in groups, as text

* Modelled and proved: `Spec.Grouped` is the tree of merges; `Spec.Mixable` says of the ops of all the frames that they can be written next to each other in any company, which is what makes cleanness hereditary (`mixable_clean`). `TextMerge.grouped_ok` (`Lemmas/Groups.lean`), by induction on the tree: what is made of frames is again a frame that can be copied (`Copyable`, with `NoOverlong` of what the builder writes, `Lemmas/Whole.lean`) and has their union; the union is unique (`ordered_unique`), and there is one result of a merge (`mergesAs_unique`). The negation by three concrete frames.
* Status: partial. Violated (see findings). Proved for all trees of merges over frames of the grammar of the forms LWW, MX, YARN and META that can be copied and whose ops can be written in any company: the result reads as the union in the order of ids (C86_union_partial, with the form named by the headers C86_named_partial), any two results from the same ops read the same (C86_confluent_partial), further merges end with the status OK (C86_done). RGA is not covered (C30).
* Theorems: `C86_violated`, `C86_union_partial`, `C86_named_partial`, `C86_confluent_partial`, `C86_done`

### C87 A test script passes when its tests pass

* Modelled and proved: `Model/TestRun.lean`, on top of C83 (`splitTests`) and C50 (`compareFrames`); the replica is a parameter. `Spec.Pass` says when tests pass. `run_pass` by induction on the tests, with the exactness of the comparison (`C50_exact_partial`), which is independent of the fuel (`compareFrames_mono`). `pass_run` back, for frames that can be read (`header_reads`). The negations by concrete scripts with a replica that echoes and one that is mute.
* Status: partial. Violated three times (see findings). Proved for all replicas and all scripts: no error only if all the tests that the script was split into pass (C87_sound); if they pass and no response is empty, no error (C87_complete_partial).
* Theorems: `C87_violated`, `C87_unread_violated`, `C87_whole_violated`, `C87_sound`, `C87_complete_partial`

### C88 Comments in a received frame change nothing

* Modelled and proved: `Spec.Remarked`: a frame with comments put in, each before some op. `dispatch_alike`: a command is taken in step by both frames (same status, same commit, rests that differ by comments again), by cases over all commands, `chainlet_alike` within a chain. `receiveLoop_alike` by induction with independent fuels. Comments at the end: `C88_trailing` by `C43_refused`, `C88_end` by `chainlet_tail`. The negations by concrete frames.
* Status: partial. Violated for comments at the end (after a command that is not a chain) and after an op of a mapper's with no terminator of its own. Proved: comments before other ops, in any number and in any places otherwise, change nothing (C88_partial); comments after a last chain neither (C88_end); comments at the end otherwise: nothing is saved (C88_trailing).
* Theorems: `C88_violated`, `C88_peek_violated`, `C88_partial`, `C88_trailing`, `C88_end`

### C89 A chain is stored as it was received

* Modelled and proved: `TextChain.walk` is the loop of `SaveChainlet` on the text cursor and the text builder. `Spec.ChainFrom` says what the chain is. `walk_ok` by induction on it: each `Next` holds the next op (`frame_trail`), each copy is work that fits it (`fits_cursor`); chains are clean work for the builder (`record_clean`), so that the text says the ops (`work_whole`) and reads as them (C20). `C89_ops_partial`: the loop on text does what the loop on ops does, that C41-C46 are about (`walk_refines`). The negations by concrete frames.
* Status: partial. Violated for runs of characters that begin with an escaped one and for floats whose copy reads differently. Proved for frames whose values copy (CopyOk) and whose runs begin with plain characters: the record exists, reads as the chain, and the cursor is left at the first op after it (C89_partial); the loop on text agrees with the loop on ops (C89_ops_partial), with errors and early returns.
* Theorems: `C89_violated`, `C89_float_violated`, `C89_partial`, `C89_ops_partial`

### C90 A listing shows the whole branch

* Modelled and proved: `Cli.dump` is the command: the scan of its argument as in the other commands, the seek, the loop over the keys that ends when `Next` is not OK. `Spec.Listed`, `Whole`, `UpTo` and `Asked` speak of the records of the store only. `dumpStore_some`: what is printed goes with the first of the keys, and the next one does not merge; `dumpStore_all` the converse; order from the order of the store (`keys_sorted`, `Lived.sound`). The negations by concrete replicas.
* Status: partial. Violated: a record that can not be merged cuts the listing with status OK; a branch named by one of its events stops the program. Proved: what is listed is right and has no gaps, and is whole if all records of the store can be merged (C90_listed_partial); in that case a listing is made for the active store and for any branch by its id (C90_answers_partial).
* Theorems: `C90_violated`, `C90_answers_violated`, `C90_listed_partial`, `C90_answers_partial`

### C91 Stores are found again under their ids

* Modelled and proved: `Families.families` and `openAll` are the two mappings. Invariant by induction on the calls (and on the commands): the ids are NIL or those of branches, each once (`Lived.named`, `Used.named`). Branch ids fit the range of C02, so their names parse back; `default` parses as a NAME, a branch id is a TIME.
* Status: proved. That RocksDB keeps families by their names is assumed.
* Theorems: `C91_reopened`, `C91_used`, `C91_created`

### C92 Max objects merged as text keep the greatest value

* Modelled and proved: `MaxRDT::Merge` on text cursors (`TextMerge.max`) takes the place of the reducer left open in C84. The scan keeps an op at least as great as all those passed (`maxScan_ok`) for any order in which the comparison of cursors follows a key of the ops (`Scaled`); integers that are not negative and uuids have one. What is written is read back by C22/C20.
* Status: partial. Proved for non-negative integers and for uuids, with one op with a value at least.
* Theorems: `C92_greatest_partial`, `C92_uuid_partial`, `C92_violated`, `C92_invented_violated`, `C92_order_violated`

### C93 An object is found by the name it was given

* Modelled and proved: the arguments are taken apart as in `CommandName` (`name_given`, `name_refused`); the branch is told by nothing, by its id or by its name (`BranchArg`); the record of names is read back as for C67 and C78 (`namesOf_opened`, `scanOf_named`).
* Status: partial. Exact effect of the command proved (C93_given, C93_refused); lookup proved for lower case names whose stamps are in order.
* Theorems: `C93_given`, `C93_refused`, `C93_found_partial`, `C93_violated`, `C93_later_violated`, `C93_branch_violated`

### C94 The branch that was hopped to is the one worked on

* Modelled and proved: `on` is evaluated on a replica that was opened, whose active store is NIL (C62); the record that `hop` writes is read off `SetActiveStore`.
* Status: partial. Proved: what `on` answers and what `hop` records, exactly; the claim fails for every branch.
* Theorems: `C94_on_partial`, `C94_answers`, `C94_ignored`, `C94_recorded_partial`, `C94_violated`, `C94_args_violated`

### C95 A log is written out as frames of a chain each

* Modelled and proved: the loops are modelled on text cursors (`Model/Reserialize`); chains come from C48, with the end status of each; `chain_clean`: consecutive ops are written as they are, but for runs; the builder writes frames of the grammar (`Builder.work_whole`), which read as said (C20).
* Status: partial. Proved for copyable logs whose runs begin with a plain character and cutoffs that are not inside of a span.
* Theorems: `C95_partial`, `C95_violated`, `C95_float_violated`

### C96 The chains of a log are merged to its state

* Modelled and proved: C95 for the frames, C84 for their merge (the form is found in the first chain: `getForm_shape`, `split_log`), C85 for the state.
* Status: partial. Proved with the hypotheses of C85 and C95.
* Theorems: `C96_partial`, `C96_violated`

### C97 The state of an object is what its log says

* Modelled and proved: invariant over every turn of `receive` (`Whole`, `ArrayChains`): a turn reads, stores a chain or names (`dispatch_does`); what it reads and merges loses no ops (`Saves`, shown of the reducers of the code), a chain goes to both records (`storeChain_records`) and is a rising path of references (`Rising`). For arrays the records are pieces of the tree of the log (`chain_piece`), so C30 gives the weave.
* Status: partial. Proved for frames whose ops do not refer to `meta` or to `NEVER`, logs of plain events with one op per id, reducers other than max; arrays: in up to three records, frames without queries.
* Theorems: `C97_violated`, `C97_reducers_partial`, `C97_states_partial`, `C97_read_partial`, `C97_weave_partial`

### C98 Replicas that have the same events have the same objects

* Modelled and proved: the log of an event is determined by its references (`log_unique`, `logs_agree`, from C60), so the same events give the same logs; C97 makes the states functions of the logs: sorted lists are unique (`sorted_unique`), weaves are (`weave_unique`).
* Status: partial. Proved with the hypotheses of C97.
* Theorems: `C98_violated`, `C98_logs_partial`, `C98_read_partial`, `C98_tree_partial`

### C99 A text that was written is the text of the object

* Modelled and proved: Violated with a concrete replica: "Ho" is written over "Hi", the answer is OK and the text stays "Hi" (the texts compared are both empty). Proved: frames of ops for mappers and of queries, whatever their outcome, change no record but the one of the tip, in the one branch; so every text of every object is what it was.
* Status: partial. a text write is lost; what it leaves alone is proved
* Theorems: `C99_violated`, `C99_kept_partial`, `C99_text_partial`

### C100 Annotations of events are checked, not refused

* Modelled and proved: C100_violated: an event followed by its hash is refused, the event alone is accepted. C100_refused_partial: no frame that begins with a chain and an annotation of it is ever accepted, whatever the kind, the store and the rest of the frame, and nothing is stored. C100_ends: a chain ends at the first event of another yarn or without a reference to the last event, and is saved as if it were alone. C100_stray, C100_comments: stray annotations and comments.
* Status: partial. The claim is false (C100_violated): annotations of all kinds are refused. Proved: exactly that, for all chains, stores and frames; where a chain ends; stray annotations and comments.
* Theorems: `C100_violated`, `C100_refused_partial`, `C100_ends`, `C100_stray`, `C100_comments`

### C101 A replica is the history of the chains it has accepted

* Modelled and proved: Refinement. The specification (Spec/Lineage.lean) has lists of chains, Follows says which chain may come next and Holds says what a store with that history contains; neither knows about lookups. C101_accepts: one frame on any store that holds any history; C101_history: any sequence of frames from a new store, by induction; C101_determined: the accepted frames determine the objects; C101_found, C101_tip, C101_log, C101_state: what lookups and reads give; C101_order, C101_causal, C101_type: what histories are like. The lookup of the head of a chain by a backward seek in the index is proved to find the chain of the event, and the walk through the log to end at the event.
* Status: proved. For frames of one chain; the reducers are those of the code. Stamps are before NEVER (at NEVER lookups find the tip, see C45).
* Theorems: `C101_accepts`, `C101_history`, `C101_determined`, `C101_found`, `C101_tip`, `C101_log`, `C101_state`, `C101_order`, `C101_causal`, `C101_type`

### C102 Replicas with the same events do the same

* Modelled and proved: C102_accepts: the same status class on the next chain, and the histories have the same events afterwards. C102_objects: the same known events, objects, types and logs but for the order. C102_object: a register, a set or a yarn reads as all events of the object in the order of ids. C102_read, C102_fed_partial: so both replicas read the same. C102_tree, C102_weave_partial, C102_arrays_partial: the events of an object are a tree, and arrays of at most three chains read as its weave at both. C102_violated: arrays of more chains can not be read. Unlike in C97 and C98 nothing is assumed of the stores or of repeated events: it follows from C101. C102_maximum_partial, C102_maxima_partial: max registers with an update read as the greatest of their values in both.
* Status: partial. The claim is false for arrays in more than three chains (C102_violated). Proved: acceptance, lookups and logs for all objects; reads for LWW, MX, YARN without restriction and for RGA of at most three chains in both replicas. Max registers with at least one update: both read the greatest value (C102_maxima_partial); MAX is not in the refuted claim.
* Theorems: `C102_violated`, `C102_accepts`, `C102_objects`, `C102_object`, `C102_read`, `C102_fed_partial`, `C102_tree`, `C102_weave_partial`, `C102_arrays_partial`, `C102_maximum_partial`, `C102_maxima_partial`

### C103 A frame of many chains is worth its chains sent one after another

* Modelled and proved: The refinement of C101 is carried through the open transaction: a store that holds the history H joined with one that holds the chains of the frame so far. C103_frame_partial: the frame is accepted iff its chains go on from H, and the store holds H and them afterwards; a refused frame leaves no trace. C103_each: the same for the chains sent one by one. C103_same_partial: both together. C103_creates and C103_ordered: two kinds of frames that meet the hypothesis Cleared - every chain but the last creates an object; yarns, registers and sets only with events in the order of stamps. C103_violated, C103_back_violated: the claim fails in both directions. All of it also for forked branches (Carries instead of Holds).
* Status: partial. The claim is false in both directions (C103_violated, C103_back_violated). Proved for chains of the yarn of the branch (or no branch) and histories where no object read on the way is split between store and transaction in a way that can not be put together (Cleared); C103_creates and C103_ordered give readable conditions for that.
* Theorems: `C103_violated`, `C103_back_violated`, `C103_each`, `C103_frame_partial`, `C103_same_partial`, `C103_creates`, `C103_ordered`

### C104 A replica can catch up with another one

* Modelled and proved: Over the histories of C101. C104_missed: an event earlier than a known one of its yarn is never accepted again, whatever is sent. C104_violated: so the claim fails, as nothing checks that no event of a yarn was left out. C104_catch_up_partial: without gaps (Aligned) all chains that are lacking, as far as they are lacking, are accepted in the order of the sender, and the receiver then has the union. C104_exact_partial: the condition is exact where one has all events of the other. C104_exchange_partial: after both have sent each other what was missing they have the same events and read the same objects. Forked branches included.
* Status: partial. The claim is false for replicas with gaps in a yarn (C104_violated); proved for all others, with the condition shown to be exact (C104_exact_partial).
* Theorems: `C104_violated`, `C104_missed`, `C104_catch_up_partial`, `C104_exact_partial`, `C104_exchange_partial`

### C105 A network in which replicas send what is missing stays in order and converges

* Modelled and proved: Invariant (Orderly): every store holds the history of what the replica accepted (C101), and any two replicas are aligned (no gaps with respect to each other) and concordant (the same event under the same id). C105_orderly: it holds in every network. C105_accepted: every send is accepted. C105_union: a full send gives the union. C105_converge: the first n replicas can all be brought to the union of their events. C105_read: replicas with the same events read the same.
* Status: proved. Frames of one chain each, no branch (tip NIL), as in C101; arrays are in C102.
* Theorems: `C105_orderly`, `C105_accepted`, `C105_union`, `C105_converge`, `C105_read`

### C106 Every branch of a replica is the history of the chains it has accepted, also after forks and reopening

* Modelled and proved: C106_claim is false of forks (C106_violated: the branch has accepted the beginning of the yarn of the fork; the fork has the yarn begun twice). C106_history_partial: the invariant (Kept: Lineage of C101, the store carries it with state frames possibly merged, recorded and cached tips are known events) for all replicas whose forks are of branches with nothing of the yarn of the fork and whose arrays and maxima, if any, can be read (Unfolded), receiving frames of one chain or of many (all but the last creating objects, of the yarn of the cached tip). C106_fork_partial, C106_reads, C106_accepts as stated.
* Status: partial. False as stated; proved where forked branches have no events of the fork's yarn and their arrays and maxima can be read (four pieces of an array can not, C63), for frames of one chain and frames of many that create objects.
* Theorems: `C106_violated`, `C106_history_partial`, `C106_fork_partial`, `C106_reads`, `C106_accepts`

### C107 The hash command prints the Merkle hash of every event of a frame and refuses wrong ones

* Modelled and proved: Spec: Merkle, an inductive definition of the hash of an event within a frame, Clocked (order of each yarn), Backed (references known). C107_violated, C107_order_violated, C107_check_violated, C107_replica_violated refute the printed hash, the check of the order, the check of the stated hash, and agreement with the replica. C107_report_partial: which frames are accepted and exactly what is printed (by induction on the loop, After). C107_merkle: the hashes kept are the Merkle hashes. C107_unique: a Merkle hash is determined by the frame. C107_ignored: stated hashes make no difference to any frame (simulation Noted). C107_replica_differs: no root op has the hash that the replica keeps, for collision-free hash functions.
* Status: partial. False as stated in four ways, each with a witness; proved: which frames are accepted, what is printed, that the hashes kept are the Merkle hashes and unique, that stated hashes are ignored.
* Theorems: `C107_violated`, `C107_report_partial`, `C107_merkle`, `C107_unique`, `C107_order_violated`, `C107_check_violated`, `C107_ignored`, `C107_replica_violated`, `C107_replica_differs`

### C108 The record of the metadata of an event is read back

* Modelled and proved: Model: TextFind.saveMeta (builder), TextFind.headOf (cursor and Load). C108_violated: an object with the id `1e+5`. C108_partial: through Builder.built_ok and the grammar (C20_frames_partial); head_view says how any record reads. C108_lost: with a misread record the lookup of any event of the yarn fails with BADSYNTAX.
* Status: partial. False as stated: the id of the object may be written like a float. Proved for all other metadata; C108_lost shows the consequence.
* Theorems: `C108_violated`, `C108_partial`, `C108_lost`

### C109 An event is found in the text of the log of its object

* Modelled and proved: Model: TextFind.seekHead, walkLog, findInLog, findOpMeta over the text cursor. Spec: ofYarn, onFrom, Rising, endId, valueBefore on the ops read. Reads relates a cursor to the ops after it; walk_ops and seek_ops simulate the loop on ops (Commit.walkChain), walk_spec says what that finds. C109_find, C109_headless, C109_ops.
* Status: proved. Rising (ids of the chain go up) is needed because of the assertion in OpMeta::Next. The store that gives the record and the log is a parameter.
* Theorems: `C109_find`, `C109_headless`, `C109_ops`

### C110 The log of an object, as text, reads as the records put into it

* Modelled and proved: Model: TextMerge.mergeCursors at the form LOG (AppendAll through the cursor and the builder), TextFind.findInLog. C110_violated: an array and two letters typed one after another; the log says the UUID `b` for the second. C110_found_violated: the second letter is `;`; the lookup finds an event that is in none of the records. C110_partial: no op is folded with another (NoRuns), through C84_log_partial.
* Status: partial. False as stated: runs of letters are corrupted in the log. Proved for records in which no op folds with another.
* Theorems: `C110_violated`, `C110_found_violated`, `C110_partial`

### C111 A store of texts finds the events of the history it was made of

* Modelled and proved: Model: TextReplica (read, seekPrev, findOpMeta, findYarnTipMeta over texts). Spec: Tells (the texts say a store that Carries a Lineage, C101). C111_violated: an array, the letters `a` and `;`; the next event after them is found. C111_found_partial, C111_tip_partial, C111_log_partial: when what is merged can be read back (Unfolded), through a simulation of the lookup on ops (C101_found, C101_tip) by the one on texts (C84, C108-C110).
* Status: partial. False as stated: letters put one by one into an array. Proved when no two ops in different records of a log are folded.
* Theorems: `C111_violated`, `C111_found_partial`, `C111_tip_partial`, `C111_log_partial`

### C112 A store of texts receives chains as text

* Modelled and proved: Model: TextReceive (yarnTip, headMeta, storeChain, save, receive over texts; the parser, the builder and the merges are the ones of text). Spec: Tells, Lineage, Follows (C101, C111). C112_violated: an array, the letters `a` and `;`; the next letter, which goes on from the history, is refused. C112_accepts_partial: when what is merged can be read back (Unfolded), through the lookup of C111, the chain record of C89 and the metadata record of C108; C112_history_partial: by induction, for all sequences of frames.
* Status: partial. False as stated: letters put one by one into an array. Proved when no two ops in different records of a log are folded.
* Theorems: `C112_violated`, `C112_accepts_partial`, `C112_history_partial`

### C113 The state of an object in a store of texts

* Modelled and proved: Model: TextReplica.read (the operands of a key merged as texts, C84) and TextReceive. Spec: Tells, Lineage, eventsIn, Tree and IsWeave (C30, C101). C113_violated: a yarn, a register and two chains of consecutive ids that both refer to the first op; the state read is not read to its end. C113_state_partial: when the ops of the state can stand next to each other (Mixes), through C84_union_partial; C113_converge_partial and C113_fed_partial: two stores, by uniqueness of sorted lists; C113_array_partial, C113_arrays_partial: through C84_rga_partial, C30_weave_partial and uniqueness of the weave.
* Status: partial. False as stated: see C84. Proved when the ops of the state can stand next to each other; arrays of no more than three chains.
* Theorems: `C113_violated`, `C113_state_partial`, `C113_converge_partial`, `C113_fed_partial`, `C113_array_partial`, `C113_arrays_partial`

### C114 Queries of objects answered by a store of texts

* Modelled and proved: Model: TextReplica.queryObject, answerLoop, ask (Model/TextQuery), over TextReplica.read and Builder.appendFrame. Spec: QueryText, IsState (Spec/TextQuery). C114_violated: an array with the text `a(`, one letter an op; the response is `'a';` and then `(;`. C114_partial: under Mixable and NoRuns of the ops asked for, through state_text and array_text (the texts of C113 with what copying needs), appendFrame_ok and the induction answerLoop_ok over the cursor of the queries; C114_same_partial by uniqueness of the states; C114_unknown: no record of such a key, by C08 and the shape of the store (C101).
* Status: partial. Violated for runs of letters (C114_violated). Partial: NoRuns, ops of different objects that can stand next to each other, arrays of no more than three chains, replies below 2^30 bytes. C114_unknown is without such hypotheses.
* Theorems: `C114_violated`, `C114_partial`, `C114_same_partial`, `C114_unknown`

### C115 Queries of logs answered by a store of texts

* Modelled and proved: Model: TextReplica.copyUntil, queryObjectLog, askLog (Model/TextQueryLog), over findOpMeta, read and Builder.appendFrame. Spec: QueryText, IsState (Spec/TextQuery), PartBefore beside the claim. C115_violated: an array with the text `a(b`, the last letter in a chain of its own; the letter `(`, which is in the history, is NOT_FOUND. C115_partial: the event is found (C111_found_partial), the state is the one of C113 (object_state), the loop stops at the first op with the id (copyUntil_ok), and the ops before it can be written since a prefix of clean steps is clean. C115_same_partial: the part before the first op with an id is the same in equal states (before_unique). C115_unknown_partial: by C111_found_partial.
* Status: partial. Violated for runs of letters in logs (C115_violated). Partial: Unfolded (what is merged can be read back), NoRuns when the object itself is asked for, one query in a frame, arrays of no more than three chains, replies below 2^30 bytes.
* Theorems: `C115_violated`, `C115_partial`, `C115_same_partial`, `C115_unknown_partial`

### C116 Queries of plain text answered by a store of texts

* Modelled and proved: Model: TextReplica.scanned, walkText, readTxt, askTxt (Model/TextTxt), over read, Rga.scan and the builder. Spec: QueryText, IsWeave, Contents; IsLetter, Letters and InRuns beside the claim. C116_violated: an array `abc`, the `b` removed; the state is `('ab'), rm, 'c'` and the response is `a` instead of `ac`. C116_partial: the state is the weave (C113, object_state), the scan of the cursors is the scan of the ops (scanned_all, scan_same), a letter of a run is read as its codepoint (walk_letters), and the op is written and read back (nul_string, from C22_partial). C116_alone_partial: a letter that stands alone is taken for the code point 0 (walk_alone), and the builder writes the string up to there (C117). C116_same_partial: the same events make the same weave (state_same), hence the same letters (letters_same). C116_unknown: no record has the key.
* Status: partial. Violated for letters that stand alone in the state (C116_violated); then the response is exactly the visible letters before the first such one (C116_alone_partial). Two stores with the same events answer alike (C116_same_partial). Partial: every visible letter is a part of a run (InRuns), one query in a frame, arrays of no more than three chains, less than 2^28 letters, replies below 2^30 bytes.
* Theorems: `C116_violated`, `C116_partial`, `C116_alone_partial`, `C116_same_partial`, `C116_unknown`

### C117 Strings with U+0000

* Modelled and proved: Model: Op.mk', Builder.appendOp, writeCps, release. C117_violated: the string `a`, NUL, `b` is written as `'a'`. C117_partial: what is read back is the string up to the first NUL (Op.writeCps_nul: the loop stops there; Builder.one_written: the text of the op; C22_partial for the part before).
* Status: partial. Violated for strings with U+0000 (C117_violated); exactly the part before the first one is kept (C117_partial), which is the whole string if there is none.
* Theorems: `C117_violated`, `C117_partial`

### C118 Writes to LWW objects

* Modelled and proved: Model: Lww.Obj with update, open, write (Model/LwwWrite), over Lww.update; Commit.saveChain. Spec: Writes, LastWrite. C118_violated: a register with one key, written again. C118_self: the op always refers to itself, as last_ is set before it is used. C118_refused: saveChain ends in CheckEventSanity (CAUSEBREAK), with the commit unchanged. C118_update, C118_partial: what holds of the values, by C29_last_write_partial.
* Status: partial. Violated by every write (C118_violated, C118_self): the op refers to itself, and no replica accepts it (C118_refused). The part about the values holds (C118_partial, C118_update).
* Theorems: `C118_violated`, `C118_self`, `C118_refused`, `C118_update`, `C118_partial`

### C119 Strings of LWW objects

* Modelled and proved: Model: LwwText.update, updateFrame, string, stringOf (Model/LwwText), over Cursor.iterate and readString. Spec: Contents; ViewWrites and LastView beside the claim. C119_violated: `one` is written by the first frame and `two` by the second; ` :1` is read. C119_partial: strings of the first frame are read right whatever frames follow that do not write the key (updates_view, updateFrames_keep; iterate_bufs: cursors keep their frame). C119_other: what is read otherwise is the place of the string in the first frame.
* Status: partial. Violated for strings that came by Update (C119_violated); C119_other says what is read then. Proved for strings of the frame the object is made of (C119_partial).
* Theorems: `C119_violated`, `C119_partial`, `C119_other`

### C120 Strings of registers read from stores of texts

* Modelled and proved: Model: TextReplica.read and LwwText.stringOf, nothing new. Spec: LastWrite over eventsIn (Spec/Lww, Spec/Lineage); SaysString beside C119. C120_partial: object_state (C113) gives the ops of the state in the order of their ids, with the events of the object; the last event of a key is the last view of the key (lastView_of) and C119_partial reads it. C120_same_partial: with objects_same and lastWrite_same. C120_uuid_partial: the same for UUIDs, with C121_last. C120_violated: a key is written twice; the second op has the next id and refers to the first op of the register; the string read is the first one.
* Status: partial. Violated for states that cannot be read back (C120_violated). Proved for states that can be written (`Written`): strings for one store and for two stores with the same events, UUIDs for one store.
* Theorems: `C120_violated`, `C120_partial`, `C120_same_partial`, `C120_uuid_partial`

### C121 UUIDs of LWW objects

* Modelled and proved: Model: LwwText.uuid, uuidOf (Model/LwwText). Spec: Contents; LastView beside C119. updateFrames_view (induction over the frames) says what the object has for each key; C121_last and C121_none.
* Status: proved. Full for frames that can be read to the end.
* Theorems: `C121_last`, `C121_none`

### C122 LWW objects and the order of frames

* Modelled and proved: Model: LwwText.uuidOf, stringOf; TextMerge. Spec: WinsView beside the claim; UnionOf (Spec/TextMerge). C122_violated: the op 2 comes after the op 3 and wins. C122_late: a frame that comes late always wins. C122_order_partial: the claim if the writes for the key come in the order of their ids (wins_last, C121_last). C122_merged_partial: an object of a merged frame, with C84_union_partial.
* Status: partial. Violated for frames that come late (C122_violated); C122_late says what happens then. Proved for writes that come in order (C122_order_partial) and for frames that are merged first, as far as C84_union_partial goes (C122_merged_partial).
* Theorems: `C122_violated`, `C122_late`, `C122_order_partial`, `C122_merged_partial`

### C123 Random words and the yarns of new branches

* Modelled and proved: Model: Random.random over two draws of 31 bits; Generator is any function of the seed; seed and yarn (Model/Random). Spec: counts and bits, beside the theorems. random_bit says what each bit is; C123_payload, C123_uniform (four pairs of draws for each word: draws_bits, draws_random). C123_violated: whatever the generator, two runs of the same second. C123_few, C123_never: no more than 2^32 yarns (seeds are 32 bits). C123_seconds_partial: runs of different seconds. C123_zero: zero comes, too.
* Status: partial. Violated for runs of the same second (C123_violated). Proved: no flags, all words equally often, runs of different seconds can differ (C123_seconds_partial).
* Theorems: `C123_violated`, `C123_payload`, `C123_uniform`, `C123_zero`, `C123_few`, `C123_never`, `C123_seconds_partial`

### C124 Handles of stores

* Modelled and proved: Model: Handle (is db_ set, which family cf_ is of) and Disk (the families); create, open_, access (Write of a record, Read), batch, close, drop; a use of a null pointer is none (Model/Handle). What RocksDB does is assumed, see the head of that file. Violated in each of its parts: C124_used_violated, C124_kept_violated, C124_refused_violated. Proved: C124_defined_partial by induction over the calls, the invariant is that a handle is open if and only if it has a family; C124_undefined says exactly which calls are undefined, C124_whole_partial that the invariant is kept by all methods but Open; C124_created_partial, C124_closed_partial, C124_drop, C124_new, C124_open_twice. Create through an open handle (C124_open_creates) and a closed one (C124_exists_violated).
* Status: partial. Violated (C124_violated). Proved: Create, Write of a record, Read and Close in any order are defined up to a Create that fails; exactly which calls are undefined; a created store can be used; a closed one answers BAD_STATE to Write of a record, Read and Close; what Drop and Create do to the families; Open of an open store is refused.
* Theorems: `C124_violated`, `C124_used_violated`, `C124_kept_violated`, `C124_refused_violated`, `C124_defined_partial`, `C124_undefined`, `C124_whole_partial`, `C124_created_partial`, `C124_closed_partial`, `C124_drop`, `C124_new`, `C124_open_creates`, `C124_exists_violated`, `C124_open_twice`

## Where the code disagrees with the listed properties

Found while modelling; each is proved as a `_violated` theorem with a concrete input, unless marked
"noted", which is a remark on code read but not the subject of a theorem.

Text.
* C03: empty and truncated texts are accepted as UUIDs.
* C10: form codes 20..159 read past the end of the name table.
* C11: Base64 decoding loses the tail unless the length is a multiple of 3; the hash parsers ignore their input.
* C14: U+D7FF and everything from U+10000 is not standard UTF-16.
* C17: integers below -922337203685477580 are written but not accepted back; from -10^18 down the writer overruns its 20 byte buffer.
* C18: `(5)` without a terminator is an error that leaves a span pending, so ops come after the error.
* C19: positions are 30 bit wide; a frame of 2^30+43 bytes mixes them with type bits.
* C20: the bare atom `1e5` gives two values, a float and a UUID.
* C21: an oversized integer, float or UUID value right before a terminator ends the frame without an error; what follows is dropped. (`cs = 0; fbreak;` in the grammar file has no effect: `fbreak` sets the state again.)
* C22: the builder. The next id with a reference that is not to the op before is written as a bare reference, which is a syntax error. `EndChunk` keeps the state of folding, so a following op with the next id and the same UUID loses its value; a new builder folds an op of the id NIL+1 and the value FATAL with nothing. A zero ends a string; a form feed is written with an escape the grammar lacks; UUIDs like `1e5` are written bare and read as floats.
* C25: when a run of characters is folded, the bytes of its first character are put in backwards, so a multi-byte or an escaped first character is broken.
* Noted on the builder: `Release` keeps `prev_id_` and `prev_2_`, so the second frame of a reused builder depends on the first; `EndFrame` does not end an open op; `%.17G` prints 1.0 as `1`, an integer, and 1e20 as `1E+20`, which is also a UUID; `Op::WriteAtoms` ignores the result of `ParseUtf8`.
* C59: `AppendFrame` ends a chunk after every op of a run whose terminator is not a comma, while the characters after the first are still folded: `('abc');` is copied broken. `^1e5` is copied as `1e5`; an escaped slash at the head of a run and the next id with another reference are broken too. Merges, logs and object states are made with this function.
* C24: `(0)` stands for 2^32 ops; a spread string ending in a `\u` escape loses the code point.
* C50: comments are skipped in comparisons; a trailing syntax error goes unnoticed.
* Noted: a specifier word of more than ten characters fails an assert; text after `.` and a line feed is an error.

Types.
* C26: `+=` of the stack iterator moves the span pointer instead of the offset.
* C29: `LWWObject::number` converts the bits of the text range. `string()` of a missing key fails an assert.
* C30, C31: shared ops come out twice of an RGA merge; more than three inputs are refused as not implemented; a dangling reference inside one input is accepted.
* C32, C33: three removals in a row below one element write outside of the working array; an undo of the first removal of a run has no effect.
* C34: the maximum is taken unsigned; ties are decided by text positions.
* C37: max merge of a header-only frame appends what an exhausted cursor shows.
* C53: GC takes the origin word of a name for a byte range, so all name keys are one key.
* C54: a single character outside of a spread comes out as NUL; the status of the scan is ignored.
* C57: a header with the zero name is ignored only in the first place.
* C58: a character in a span is hashed as a code point, a string of one character as a string.
* Noted: GC of meta produces nothing and GC of mx does not compile; neither is called.

Stores.
* C38, C39: a failed read erases the records of the key.
* C41: reads of a joined store guess the form; batch writes go to the lower layer.
* C42: partial merges of RGA fail for more than three operands.
* C55, C56: `SeekTo` keeps the merged value of the previous key, which `Next` writes over the new one; a backward seek takes only the last record of a key.

Replica.
* C43: names are written to the main store before the rest of the frame is checked.
* C44: after `CreateBranch` the tip in memory is unset; a log read inside of a transaction hides the yarn's tip.
* C46: metadata loaded from the store carry no hash; the root op of a yarn is hashed with itself as its predecessor (noted).
* C47: stamped ops are never stored and all carry the same stamp.
* C48: a cutoff inside of a span lets the chain run to the end of the span; chains cross yarns.
* C49: the zero timestamp of an unrecorded yarn counts as covered.
* C45: a reference to the stamp `NEVER` is looked up as the tip of its yarn and so found, although there is no such event. `See` is to keep later events out, but compares with the clock first: an event stamped `NEVER`-1 sets the clock, three local stamps take it past `NEVER`, and then the check does not apply. The same event makes all later local stamps useless.
* C60: an op referring to the name `meta` is stored where the metadata of its id are looked up and overrides them: later ops are filed by the forged object and type, and the yarn of the op can not go on.
* C61: an event of another yarn, received in a branch before the replica is reopened, becomes the tip of the branch; `Open` then refuses the whole replica. `CreateBranch(0)` stamps the first op with the yarn of the active store, with the same effect. So does a branch created when the clock has reached `NEVER` (noted).
* C62: the cursor over the record of the active store is never advanced, so the record is ignored.
* C63: `while (i.Next())` takes a failed merge for the end of the data: the objects after it are missing from the fork, with status OK.
* C64: only the tips of the stores are seen, not the events of other yarns.
* C66: once a branch has a tip, a frame has to end with an event of its own yarn; others are refused with BAD_STATE. An event of another yarn earlier in the frame is taken for the tip: a chain of the branch's own that follows it and has lesser stamps is cut after its second op, which is then processed twice, and the frame is refused with CAUSEBREAK (`C66_mixed_violated`).
* Noted: a frame ending with a comment after a command that is not a chain is not saved (C88); `is_check` always leads to BADARGS; the result of `commit.SaveChain` is ignored by `CreateReplica` and `CreateBranch`.
* C67: names are stamped with a clock that, after reopening, does not know the names given before; two names given within a second, by two runs of the shell, share a stamp and the merge keeps one.
* C68: `Op::Amend` takes the atoms of `cur.op()`, which are not parsed: an integer becomes 0, a float 0, a string the empty one, the first character of a run a longer string; with an empty string it reads out of bounds. Only UUIDs survive. `WriteNewEvents` uses it to stamp new events.
* C69: `ReadString16` does not look at the code point of the atom, so a character of a run reads as nothing, with `OK`.
* C70: an op with the id `name` assigns a name even if it is a query.
* C71: `QueryObjectLog` reads the record of the state instead of the log: the ops of a text come in the order of the text, and the log up to a version has later ops in it.
* C72: `Release` leaves the last id and value in the builder, so a frame that goes on with the next id lacks its first id and reference and reads as another op; `SplitTests` uses one builder for all frames.
* C73: `Slice::str()` passes the begin and the end of the range to a string constructor that takes a position and a length, so it goes on past the end of any slice that does not begin with its memory; it also stops at a NUL. `slice()` of the empty range at the end fails an assert.
* C74: An rga log with more than three chains up to the version gives NOT_IMPLEMENTED, so the version of a text that was edited in four places can't be recalled. A version that is not in the log of the object, however old, gives the latest state and no error.
* C78: `create as Abc+Def` is accepted (only the error bits and the case of the value are checked), and the branch cannot be named by it afterwards. Names written in one second may get the same stamp, so `name 1234+someid as thing` can remove the name of a branch. `hop foo` with no such word hops to the metadata; `named on Branch` is refused though the usage shows it.
* C79: `fork` works on the active store, which is the metadata store in every new process; `get` and `write` go to the branch of the yarn zero, which never is; `new` reads an op from a cursor that was not advanced. None of fork, get, new ever succeeds; `write` succeeds only for a file without ops.
* C80: `init` goes on if there is only the metadata store: a replica without branches is initialized again and gets a further root yarn.
* C83: `SplitTests` ends its loop on any status and returns `OK`; the cursor stops after a full stop, and the scripts of the project (`test/*.ron`) have one after each test: only what is before the first one is run, the rest passes unseen (`C83_whole_violated`). A header without a reference refers to the op before it, in the test before; the reference is lost in its own test (`C83_violated`), as the builder keeps the last id over `Release` (C72).
* C84: Two states of one object, each of two ops: the merged state has an op of the next id after the one before it, with a reference to the header; the builder writes the reference without the id and the op reads as a different one (`C84_violated`, the cause of `C59_reference_violated`). `MergeCursor::step` drops an input on any status of `Next`: what comes after a syntax error is left out of the merge, with the status OK (`C84_error_violated`).
* C85: A log whose state has an op of the next id after another, with a reference to an earlier op, makes a state with a different op (`C85_violated`, the cause is `C59_reference_violated`). A cutoff inside of a span lets the rest of the span into the state (`C85_cutoff_violated`). A log with an error in its first op makes an empty state with the status OK (`C85_error_violated`, `rdt/rdt.hpp:173-175`).
* C86: With the op of `C84_violated` two groupings of three frames give different results: `[[a,b],c]` gives a frame that reads to its end without the op, `[a,[b,c]]` gives a frame that does not read to its end (`C86_violated`).
* C87: A test that expects nothing fails when there is no response at all (`C87_violated`): `CompareFrames` compares the results of the first `Next` of the two frames, and the expected frame has its header (`ron/frames.hpp:81`). Responses after the last test with `?` are never looked at (`C87_unread_violated`). A script that cannot be read to its end is run up to there, and passes (`C87_whole_violated`, `db/main.cc:237`).
* C88: A frame that ends with a comment after a command that is not a chain (a name, a query, a mapper's) is refused with `ENDOFFRAME` and nothing of it is saved, although all of it was accepted (`C88_violated`, `C88_trailing`): the loop takes what `Next()` says at the end of the frame for an error (`db/replica.cc:729`). The name given by such a frame is kept, and is then the name of an event that does not exist. `PeekTerm` takes the terminator of a comment for that of the chunk (`C88_peek_violated`, `db/replica.cc:684-693`): a query to a mapper is taken for a write. Comments within a chain and after it are skipped as they should be.
* C89: An array of characters that begins with a line feed is stored as something else: `'\n', 'b', 'c'` becomes `n`, a backspace and `c` (`C89_violated`), as the builder folds the run after an escaped character. Floats with an exponent written without a fraction are stored as something else too (`C89_float_violated`): the stored chain is not the received one, yet its hash is of the received one.
* C90: `dump` takes any status of `Next` but OK for the end, so a record that can not be merged (an array of four pieces, see C63) silently ends the listing, and the command returns `OK` (`C90_violated`). A branch named by one of its events passes the check of the argument and then fails the assertion in `GetStore` (`C90_answers_violated`).
* C92: a frame with nothing but the header of a max object (an object that was just created) is merged to a frame with one more op: `@1+A :max;` becomes `@1+A :max,` `;`, where the second op has the next id and refers to the header (`C92_invented_violated`): the cursor that ran off the frame is appended as if it were the maximum. -7 is greater than 5 (`C92_violated`). Strings are compared by their place in the text: of two at the same place the one of the last frame is kept, so the result depends on the order of frames (`C92_order_violated`).
* C93: `name` takes names of any case, `of` only names in lower case, so a name such as `Exp` can be given to an object which cannot be asked for by it (`C93_violated`). A name given while the clock is set back loses to the earlier one, though the command succeeds (`C93_later_violated`). `name … on 1234+yarn`, with an event of a branch in place of the branch, passes the check of the arguments and stops at an assertion, since there is no such store (`C93_branch_violated`).
* C94: each command opens the replica anew and the active store is not restored, so `hop` has no effect on later commands: `on` always answers the metadata store (`C94_violated`, `C94_on_partial`). `hop Exp`, without `on`, succeeds and hops to no branch (`C94_args_violated`, `C94_ignored`).
* C95: a chain that has a run of characters which begins with an escaped one is written as other characters (`C95_violated`), a float with `^` as something else (`C95_float_violated`). `Reserialize` of a cursor that was not advanced reads an id that is not there, and after an error the frames of the chains before stay in the output (examples in `Props/Reserialize`).
* C96: as in C84 and C85, an op of the next id with another reference is written without its id (`C96_violated`).
* C97: an array that came in more than three chains can not be read, although every frame was accepted (`C97_violated`): `rdt/rga.hpp:56` has no merge of more than three inputs. (The engine may merge operands earlier than modelled, which hides this for a while.)
* C98: an array received in one frame can be read, the same events received one by one can not (`C98_violated`).
* C99: the text mapper answers a write with OK and writes nothing: the new text is never read from the op and the old one never from the object (`RGA2Codepoints` is empty), so that the diff is empty. The tip of the branch is moved to a stamp no event has.
* C100: OpMeta::Check (ron/opmeta.hpp:91-109) looks for the kind of an annotation in its reference, but is_check (lines 65-68) has just found that the reference is the id of the event. So the kind is never a known one and every annotation is refused with BADARGS (C100_violated, C100_refused_partial). The kind is in the id of the annotation.
* C102: The same four events of an array are readable when they came as one chain and not when they came one by one (C102_violated; the cause is that of C30 and C42).
* C103: A frame is not worth its chains. With an array whose log is partly in the store and partly in the transaction, the two halves of the log are merged as an array, not as a log; the chain at the tip is then not found and the frame is refused with NOT_FOUND, though the chains are accepted one by one (C103_violated). The other way round, the branch check looks at the last chain only: a chain of a foreign yarn is refused alone (BAD_STATE) and accepted with a chain of the branch's own yarn after it (C103_back_violated).
* C104: A yarn may be received with an event left out: a later event is accepted (the code only checks that it is later), and from then on the missing event is refused with CAUSEBREAK for ever, so the replica never catches up and its later references to the missing event are refused, too (C104_violated, C104_missed). C104_exact_partial: this is the only obstacle.
* C106: `ForkBranch` copies the records of a branch that has already accepted the beginning of the fork's own yarn, so the fork has two beginnings of the same yarn; a branch accepts the beginning of any yarn as long as its tip is not cached, i.e. before the replica is reopened (C106_violated). Also, as in C63, a fork of a branch with an array of four or more pieces is cut short.
* C107: `CommandHashFrame` prints an empty text for each hash (`hash_op` does not set `known_bits_`, so `base64()` has no bits to print, C107_violated). Stated hashes never matter: they are looked up by the id of the annotation, not of the event, and `ParseBase64` yields zeroes only (C107_ignored, C107_check_violated); a text of more than 43 bytes fails an assertion. The order of events is not checked (C107_order_violated). The command hashes the first event of a yarn with the hash of `0+yarn` for its predecessor, the replica with zeroes, so they never agree (C107_replica_violated, C107_replica_differs).
* C108: The object of a record of metadata is written as a bare UUID: `1e+5` (or any id that prints like a float) is read as a float followed by a UUID, `OpMeta::Load` returns BADSYNTAX, and every later chain of that yarn is refused (C108_violated, C108_lost).
* C110: `AppendAll` ends a chunk after each op, and the builder still folds the next one-letter op with the last: the log of an array typed letter by letter reads back wrong (`'a';` then `b;`), and with `;` as a letter it has an event that never was, so the true next event of the yarn is refused as known or as a break of causality (C110_violated, C110_found_violated).
* C111: a replica whose array was typed letter by letter with `;` as a letter answers that the next event of the yarn is known, although nobody has made it (C111_violated).
* C112: a replica whose array was typed letter by letter with `;` as a letter refuses the next letter (CAUSEBREAK), since it finds the event in the merged log (C112_violated).
* C113: two writes to a register, in chains of their own with consecutive ids and both referring to the first op, merge to a text that stops being readable at the second one (C113_violated, the builder's omission of an id of C84).
* C114: C114 is violated: the state of an array typed letter by letter is stored and read as a run of letters within quotes, but QueryObject copies it with AppendAll, which ends a chunk after each op while the builder still folds the letters; the response has `'a';` and a bare letter after it, which is read as a UUID, as punctuation, or not at all. A client that asks for a text typed by a person gets something else than the replica has (the same fault as in C110).
* C115: C115 is violated: looking an event up merges the log of its object, and the merged text of letters typed one by one cannot be read past the first of them (C110, C111), so an event that the replica has is reported as not found, and no part of the log is sent.
* C116: C116 is violated: `value.cp` is the codepoint of a letter only inside a run, `('abc')`. A letter that stands alone in the state, `'c'`, has a range there, the codepoint is 0, and it is missing from the response. Removing a letter from the middle of a word is enough to make the rest of it stand alone.
* C117: C117 is violated: the builder writes a string of an op up to its first U+0000 and drops the rest silently.
* C118: C118 is violated: LWWObject::Write sets last_ to the new id before it is used as the reference, so every op it writes refers to itself and is refused by every replica (CAUSEBREAK).
* C119: C119 is violated: LWWObject::string looks a string that came by Update(Frame) up in the frame the object was made of. It gives other bytes, or reads behind the end of that frame.
* C120: C120 is violated: an op with the next id and a reference that is not the previous id is written so that a cursor stops before it (C113_violated). An LWWObject made of such a frame gives the older string and no error.
* C122: C122 is violated: LWWObject::Update does not compare ids. A frame with an older write that comes late replaces the newer value, which a merge of the same frames keeps.
* C123: C123 is violated: rand() is seeded by the time in seconds (db/main.cc:734), so branches created or forked in the same second, on any machines, have the same yarn id; their events would have the same ids. Also, there are no more than 2^32 yarns, and zero, which is no yarn, can be drawn.
* C124: C124 is violated: Open returns OK and leaves cf_ null, so that the next Write or Read uses a null handle (db/rocks_store.cc:160-175,204,219); Open of a branch returns NOT_IMPLEMENTED and leaves the store open; a batch, or Drop, on a closed store uses a null pointer (db/rocks_store.cc:179-181,245-246). Create through a closed handle fails if the database has a branch already, though the comment (db/rocks_store.hpp:62-67) says that it makes a family: RocksDB opens no database unless all its families are listed.

## Axioms of each theorem

As printed by `#print axioms` (namespace `Ron.Props`).

* none: C118_self, C124_closed_partial, C124_open_twice, C46_meta_root, C46_meta_next, C52_codes_distinct
* propext: C04_value_first, C10_violated, C100_comments, C107_order_violated, C11_base64_violated, C118_violated, C118_update, C124_violated, C124_used_violated, C124_kept_violated, C124_refused_violated, C124_defined_partial, C124_created_partial, C124_drop, C124_new, C124_open_creates, C124_exists_violated, C15_quoted, C26_violated, C29_accessors_partial, C31_violated, C31_refuses_many, C32_violated, C36_log_concat, C37_violated, C42_violated, C46_steps, C46_saved, C47_stamps_partial, C49_violated, C49_covers_down, C52_comment_neutral, C53_violated, C54_violated, C54_error_ignored_partial, C57_violated
* Quot.sound, propext: C06_calendar_payload, C07_clock_monotone, C07_clock_monotone_uuid, C07_stamp_shape, C100_violated, C100_ends, C100_stray, C101_causal, C102_violated, C103_violated, C103_back_violated, C107_violated, C107_report_partial, C107_check_violated, C108_lost, C11_hash_parse_zero, C11_hash_violated, C117_violated, C12_bounds, C121_last, C122_late, C122_order_partial, C123_violated, C123_payload, C123_zero, C123_few, C124_undefined, C124_whole_partial, C14_read_standard, C14_lone_surrogate, C15_round_trip, C15_no_line_ends, C19_violated, C22_violated, C22_chunk_violated, C22_first_violated, C22_int_violated, C22_int_read_violated, C22_zero_violated, C22_feed_violated, C23_increasing, C26_stack_partial, C33_violated, C34_violated, C34_uuids_partial, C34_empty_partial, C38_violated, C39_violated, C41_reads_violated, C41_writes_violated, C42_log_partial, C42_max_partial, C43_violated, C43_all_accepted, C44_tip_violated, C44_order_violated, C44_open, C44_accepted, C44_repeats, C45_violated, C46_replica_violated, C47_violated, C47_effect_partial, C47_yarn, C48_nil, C49_covers_partial, C55_violated, C56_violated, C57_types_partial, C58_violated, C58_notation_partial, C60_violated, C60_states_violated, C61_violated, C61_calls_violated, C61_unchanged, C62_violated, C62_forgotten_partial, C63_violated, C64_violated, C64_tips_partial, C65_apart, C65_reopened, C66_violated, C66_mixed_violated, C67_violated, C67_accepted, C68_uuids_partial, C70_violated, C71_violated, C71_version_violated, C71_state_partial, C71_recorded_partial, C71_status, C72_violated, C72_read, C72_partial, C73_violated, C73_str_partial, C73_at, C73_sub_end, C74_violated, C74_rga_many, C74_unknown, C74_state, C75_kind, C78_violated, C78_others_violated, C80_violated, C83_tests, C88_peek_violated, C90_violated, C90_answers_violated, C93_violated, C93_later_violated, C93_branch_violated, C94_args_violated, C97_violated, C98_violated, C99_violated
* Classical.choice, Quot.sound, propext: C01_word_round_trip, C01_no_trailing_zero, C01_parse_any, C02_uuid_round_trip, C02_uuid_loss, C02_str_injective, C03_uuid_grammar_partial, C03_violated, C04_uuid_order, C04_operators, C05_text_order, C05_text_eq, C06_calendar_order, C06_calendar_injective, C06_posix_order, C08_key_round_trip, C08_key_injective, C08_only_events, C09_key_order, C09_key_bytes, C09_key_bytes_round_trip, C09_yarn_contiguous, C09_bounds, C10_forms_partial, C100_refused_partial, C101_accepts, C101_history, C101_determined, C101_found, C101_tip, C101_log, C101_state, C101_order, C101_type, C102_accepts, C102_objects, C102_object, C102_read, C102_fed_partial, C102_tree, C102_weave_partial, C102_arrays_partial, C102_maximum_partial, C102_maxima_partial, C103_each, C103_frame_partial, C103_same_partial, C103_creates, C103_ordered, C104_violated, C104_missed, C104_catch_up_partial, C104_exact_partial, C104_exchange_partial, C105_orderly, C105_accepted, C105_union, C105_converge, C105_read, C106_violated, C106_history_partial, C106_fork_partial, C106_reads, C106_accepts, C107_merkle, C107_unique, C107_ignored, C107_replica_violated, C107_replica_differs, C108_violated, C108_partial, C109_find, C109_headless, C109_ops, C11_hex_round_trip, C11_base64_round_trip_partial, C11_hex_faithful, C11_base64_faithful, C110_violated, C110_found_violated, C110_partial, C111_violated, C111_found_partial, C111_tip_partial, C111_log_partial, C112_violated, C112_accepts_partial, C112_history_partial, C113_violated, C113_state_partial, C113_converge_partial, C113_fed_partial, C113_array_partial, C113_arrays_partial, C114_violated, C114_partial, C114_same_partial, C114_unknown, C115_violated, C115_partial, C115_same_partial, C115_unknown_partial, C116_violated, C116_partial, C116_alone_partial, C116_same_partial, C116_unknown, C117_partial, C118_refused, C118_partial, C119_violated, C119_partial, C119_other, C12_matches, C12_matches_refl_symm, C12_matches_full, C120_violated, C120_partial, C120_same_partial, C120_uuid_partial, C121_none, C122_violated, C122_merged_partial, C123_uniform, C123_never, C123_seconds_partial, C13_round_trip, C13_accepts_iff, C13_total, C13_read, C13_read_text, C14_round_trip, C14_standard_partial, C14_violated, C15_codepoints, C16_exact, C17_text, C17_round_trip_partial, C17_violated, C17_overrun, C17_rejected, C18_progress, C18_monotone, C18_terminates, C18_violated, C18_sticky_partial, C18_sticky_iff, C19_no_bad_access_partial, C19_atoms_partial, C19_reads_partial, C20_violated, C20_frames_partial, C20_unambiguous_partial, C21_violated, C21_all_violated, C21_partial, C21_consumed_partial, C22_partial, C22_float_violated, C23_chain, C23_frame, C23_overflow, C24_count_violated, C24_spread_violated, C24_count_partial, C24_spread_partial, C25_partial, C25_violated, C25_escape_violated, C26_skip_partial, C27_ordered_merge, C27_iterator_total, C28_merge_confluent, C28_comm_assoc_idem, C29_violated, C29_last_write_partial, C29_older_writes_partial, C30_violated, C30_weave_partial, C30_converges_partial, C31_causal_partial, C31_contiguous, C31_accepts_iff, C32_safe_partial, C32_single_partial, C33_visible_partial, C33_no_undo_partial, C34_unsigned_partial, C34_nonnegative_partial, C34_order_independent_partial, C35_meta_latest, C35_order_independent, C37_no_new_ops_partial, C38_read_partial, C38_log_partial, C38_meta_partial, C38_rga_partial, C38_other_keys_partial, C38_max_partial, C38_max_numbers_partial, C39_no_failure_partial, C40_iteration, C41_write_partial, C41_read_partial, C41_iteration_partial, C42_by_id_partial, C42_rga_piece_partial, C42_rga_partial, C42_rga_same_partial, C42_meta_partial, C43_no_trace_partial, C43_refused, C44_tip_partial, C44_key_order, C45_closed_partial, C45_history_partial, C45_honest_partial, C46_commits, C48_split_partial, C48_exact_partial, C48_violated, C48_yarn_violated, C50_violated, C50_end_violated, C50_exact_partial, C50_plain_partial, C50_contents, C50_refl, C50_symm, C50_trans, C51_text, C51_accepted, C51_frame, C51_frames, C53_reads_partial, C54_text_partial, C55_walk_partial, C56_forward_partial, C56_backward_partial, C59_violated, C59_float_violated, C59_slash_violated, C59_reference_violated, C59_partial, C60_filed_partial, C60_history_partial, C61_reopen_partial, C62_recorded_partial, C63_copied_partial, C66_first_partial, C66_next_partial, C66_chain_partial, C67_names_partial, C67_session, C67_tip, C68_violated, C68_string_violated, C68_run_violated, C68_float_violated, C68_empty_violated, C68_partial, C68_shift_partial, C69_violated, C69_partial, C69_read, C70_partial, C71_version_partial, C73_str, C73_eq, C73_hash, C73_sub, C73_consume, C74_by_id, C74_reads, C74_rga_partial, C75_kinds, C75_digits, C76_maps, C77_failed, C77_used, C78_resolve_partial, C78_created_partial, C79_violated, C79_never, C79_write, C79_exact_partial, C80_partial, C81_grown, C81_drop, C82_opened, C83_violated, C83_whole_violated, C83_partial, C84_violated, C84_error_violated, C84_union_partial, C84_log_partial, C84_rga_partial, C84_rga_many, C84_form, C84_two_forms, C84_last_partial, C84_rga_accepts_partial, C85_violated, C85_cutoff_violated, C85_error_violated, C85_by_id_partial, C85_rga_partial, C85_rga_many, C85_error_partial, C86_violated, C86_union_partial, C86_named_partial, C86_confluent_partial, C86_done, C87_violated, C87_unread_violated, C87_whole_violated, C87_sound, C87_complete_partial, C88_violated, C88_partial, C88_trailing, C88_end, C89_violated, C89_float_violated, C89_partial, C89_ops_partial, C90_listed_partial, C90_answers_partial, C91_reopened, C91_used, C91_created, C92_greatest_partial, C92_uuid_partial, C92_violated, C92_invented_violated, C92_order_violated, C93_given, C93_refused, C93_found_partial, C94_on_partial, C94_answers, C94_ignored, C94_recorded_partial, C94_violated, C95_partial, C95_violated, C95_float_violated, C96_partial, C96_violated, C97_reducers_partial, C97_states_partial, C97_read_partial, C97_weave_partial, C98_logs_partial, C98_read_partial, C98_tree_partial, C99_kept_partial, C99_text_partial
