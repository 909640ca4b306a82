{"claims": [
{"property": "C01", "status": "proved", "theorems": ["Ron.Props.C01_word_round_trip", "Ron.Props.C01_no_trailing_zero", "Ron.Props.C01_parse_any"], "note": "All words. Print/parse of uuid.cc/uuid.hpp."},
{"property": "C02", "status": "proved", "theorems": ["Ron.Props.C02_uuid_round_trip", "Ron.Props.C02_uuid_loss", "Ron.Props.C02_str_injective"], "note": "Round trip iff the two origin bits above the version are clear; otherwise exactly these are lost."},
{"property": "C03", "status": "partial", "theorems": ["Ron.Props.C03_uuid_grammar_partial", "Ron.Props.C03_violated"], "note": "The full claim is false of the code (C03_violated: empty and truncated texts are accepted); the partial theorem settles every text that is not truncated."},
{"property": "C04", "status": "proved", "theorems": ["Ron.Props.C04_uuid_order", "Ron.Props.C04_value_first", "Ron.Props.C04_operators"], "note": ""},
{"property": "C05", "status": "proved", "theorems": ["Ron.Props.C05_text_order", "Ron.Props.C05_text_eq"], "note": ""},
{"property": "C06", "status": "proved", "theorems": ["Ron.Props.C06_calendar_order", "Ron.Props.C06_calendar_injective", "Ron.Props.C06_calendar_payload", "Ron.Props.C06_posix_order"], "note": "Over calendar tuples and, with a reference Gregorian calendar standing for libc gmtime, over POSIX times."},
{"property": "C07", "status": "proved", "theorems": ["Ron.Props.C07_clock_monotone", "Ron.Props.C07_clock_monotone_uuid", "Ron.Props.C07_stamp_shape"], "note": "All traces of Now/See with arbitrary wall clock readings; stamps below NEVER."},
{"property": "C08", "status": "proved", "theorems": ["Ron.Props.C08_key_round_trip", "Ron.Props.C08_key_injective", "Ron.Props.C08_only_events"], "note": ""},
{"property": "C09", "status": "proved", "theorems": ["Ron.Props.C09_key_order", "Ron.Props.C09_key_bytes", "Ron.Props.C09_key_bytes_round_trip", "Ron.Props.C09_yarn_contiguous", "Ron.Props.C09_bounds"], "note": "Byte image on a little-endian host."},
{"property": "C10", "status": "partial", "theorems": ["Ron.Props.C10_forms_partial", "Ron.Props.C10_violated"], "note": "The claim on codes outside of the table is false of the code (codes 20..159 are read out of bounds): C10_violated."},
{"property": "C100", "status": "partial", "theorems": ["Ron.Props.C100_violated", "Ron.Props.C100_refused_partial", "Ron.Props.C100_ends", "Ron.Props.C100_stray", "Ron.Props.C100_comments"], "note": "The claim is false (C100_violated): annotations of all kinds are refused. Proved: exactly that, for all chains, stores and frames; where a chain ends; stray annotations and comments."},
{"property": "C101", "status": "proved", "theorems": ["Ron.Props.C101_accepts", "Ron.Props.C101_history", "Ron.Props.C101_determined", "Ron.Props.C101_found", "Ron.Props.C101_tip", "Ron.Props.C101_log", "Ron.Props.C101_state", "Ron.Props.C101_order", "Ron.Props.C101_causal", "Ron.Props.C101_type"], "note": "For frames of one chain; the reducers are those of the code. Stamps are before NEVER (at NEVER lookups find the tip, see C45)."},
{"property": "C102", "status": "partial", "theorems": ["Ron.Props.C102_violated", "Ron.Props.C102_accepts", "Ron.Props.C102_objects", "Ron.Props.C102_object", "Ron.Props.C102_read", "Ron.Props.C102_fed_partial", "Ron.Props.C102_tree", "Ron.Props.C102_weave_partial", "Ron.Props.C102_arrays_partial", "Ron.Props.C102_maximum_partial", "Ron.Props.C102_maxima_partial"], "note": "The claim is false for arrays in more than three chains (C102_violated). Proved: acceptance, lookups and logs for all objects; reads for LWW, MX, YARN without restriction and for RGA of at most three chains in both replicas. Max registers with at least one update: both read the greatest value (C102_maxima_partial); MAX is not in the refuted claim."},
{"property": "C103", "status": "partial", "theorems": ["Ron.Props.C103_violated", "Ron.Props.C103_back_violated", "Ron.Props.C103_each", "Ron.Props.C103_frame_partial", "Ron.Props.C103_same_partial", "Ron.Props.C103_creates", "Ron.Props.C103_ordered"], "note": "The claim is false in both directions (C103_violated, C103_back_violated). Proved for chains of the yarn of the branch (or no branch) and histories where no object read on the way is split between store and transaction in a way that can not be put together (Cleared); C103_creates and C103_ordered give readable conditions for that."},
{"property": "C104", "status": "partial", "theorems": ["Ron.Props.C104_violated", "Ron.Props.C104_missed", "Ron.Props.C104_catch_up_partial", "Ron.Props.C104_exact_partial", "Ron.Props.C104_exchange_partial"], "note": "The claim is false for replicas with gaps in a yarn (C104_violated); proved for all others, with the condition shown to be exact (C104_exact_partial)."},
{"property": "C105", "status": "proved", "theorems": ["Ron.Props.C105_orderly", "Ron.Props.C105_accepted", "Ron.Props.C105_union", "Ron.Props.C105_converge", "Ron.Props.C105_read"], "note": "Frames of one chain each, no branch (tip NIL), as in C101; arrays are in C102."},
{"property": "C106", "status": "partial", "theorems": ["Ron.Props.C106_violated", "Ron.Props.C106_history_partial", "Ron.Props.C106_fork_partial", "Ron.Props.C106_reads", "Ron.Props.C106_accepts"], "note": "False as stated; proved where forked branches have no events of the fork's yarn and their arrays and maxima can be read (four pieces of an array can not, C63), for frames of one chain and frames of many that create objects."},
{"property": "C107", "status": "partial", "theorems": ["Ron.Props.C107_violated", "Ron.Props.C107_report_partial", "Ron.Props.C107_merkle", "Ron.Props.C107_unique", "Ron.Props.C107_order_violated", "Ron.Props.C107_check_violated", "Ron.Props.C107_ignored", "Ron.Props.C107_replica_violated", "Ron.Props.C107_replica_differs"], "note": "False as stated in four ways, each with a witness; proved: which frames are accepted, what is printed, that the hashes kept are the Merkle hashes and unique, that stated hashes are ignored."},
{"property": "C108", "status": "partial", "theorems": ["Ron.Props.C108_violated", "Ron.Props.C108_partial", "Ron.Props.C108_lost"], "note": "False as stated: the id of the object may be written like a float. Proved for all other metadata; C108_lost shows the consequence."},
{"property": "C109", "status": "proved", "theorems": ["Ron.Props.C109_find", "Ron.Props.C109_headless", "Ron.Props.C109_ops"], "note": "Rising (ids of the chain go up) is needed because of the assertion in OpMeta::Next. The store that gives the record and the log is a parameter."},
{"property": "C11", "status": "partial", "theorems": ["Ron.Props.C11_hex_round_trip", "Ron.Props.C11_base64_round_trip_partial", "Ron.Props.C11_base64_violated", "Ron.Props.C11_hash_parse_zero", "Ron.Props.C11_hash_violated", "Ron.Props.C11_hex_faithful", "Ron.Props.C11_base64_faithful"], "note": "Hex codec proved; Base64 codec exact for lengths divisible by 3 (C11_base64_violated otherwise); the hash parsers ignore their input (C11_hash_parse_zero, C11_hash_violated)."},
{"property": "C110", "status": "partial", "theorems": ["Ron.Props.C110_violated", "Ron.Props.C110_found_violated", "Ron.Props.C110_partial"], "note": "False as stated: runs of letters are corrupted in the log. Proved for records in which no op folds with another."},
{"property": "C111", "status": "partial", "theorems": ["Ron.Props.C111_violated", "Ron.Props.C111_found_partial", "Ron.Props.C111_tip_partial", "Ron.Props.C111_log_partial"], "note": "False as stated: letters put one by one into an array. Proved when no two ops in different records of a log are folded."},
{"property": "C112", "status": "partial", "theorems": ["Ron.Props.C112_violated", "Ron.Props.C112_accepts_partial", "Ron.Props.C112_history_partial"], "note": "False as stated: letters put one by one into an array. Proved when no two ops in different records of a log are folded."},
{"property": "C113", "status": "partial", "theorems": ["Ron.Props.C113_violated", "Ron.Props.C113_state_partial", "Ron.Props.C113_converge_partial", "Ron.Props.C113_fed_partial", "Ron.Props.C113_array_partial", "Ron.Props.C113_arrays_partial"], "note": "False as stated: see C84. Proved when the ops of the state can stand next to each other; arrays of no more than three chains."},
{"property": "C114", "status": "partial", "theorems": ["Ron.Props.C114_violated", "Ron.Props.C114_partial", "Ron.Props.C114_same_partial", "Ron.Props.C114_unknown"], "note": "Violated for runs of letters (C114_violated). Partial: NoRuns, ops of different objects that can stand next to each other, arrays of no more than three chains, replies below 2^30 bytes. C114_unknown is without such hypotheses."},
{"property": "C115", "status": "partial", "theorems": ["Ron.Props.C115_violated", "Ron.Props.C115_partial", "Ron.Props.C115_same_partial", "Ron.Props.C115_unknown_partial"], "note": "Violated for runs of letters in logs (C115_violated). Partial: Unfolded (what is merged can be read back), NoRuns when the object itself is asked for, one query in a frame, arrays of no more than three chains, replies below 2^30 bytes."},
{"property": "C116", "status": "partial", "theorems": ["Ron.Props.C116_violated", "Ron.Props.C116_partial", "Ron.Props.C116_alone_partial", "Ron.Props.C116_same_partial", "Ron.Props.C116_unknown"], "note": "Violated for letters that stand alone in the state (C116_violated); then the response is exactly the visible letters before the first such one (C116_alone_partial). Two stores with the same events answer alike (C116_same_partial). Partial: every visible letter is a part of a run (InRuns), one query in a frame, arrays of no more than three chains, less than 2^28 letters, replies below 2^30 bytes."},
{"property": "C117", "status": "partial", "theorems": ["Ron.Props.C117_violated", "Ron.Props.C117_partial"], "note": "Violated for strings with U+0000 (C117_violated); exactly the part before the first one is kept (C117_partial), which is the whole string if there is none."},
{"property": "C118", "status": "partial", "theorems": ["Ron.Props.C118_violated", "Ron.Props.C118_self", "Ron.Props.C118_refused", "Ron.Props.C118_update", "Ron.Props.C118_partial"], "note": "Violated by every write (C118_violated, C118_self): the op refers to itself, and no replica accepts it (C118_refused). The part about the values holds (C118_partial, C118_update)."},
{"property": "C119", "status": "partial", "theorems": ["Ron.Props.C119_violated", "Ron.Props.C119_partial", "Ron.Props.C119_other"], "note": "Violated for strings that came by Update (C119_violated); C119_other says what is read then. Proved for strings of the frame the object is made of (C119_partial)."},
{"property": "C12", "status": "proved", "theorems": ["Ron.Props.C12_matches", "Ron.Props.C12_matches_refl_symm", "Ron.Props.C12_matches_full", "Ron.Props.C12_bounds"], "note": ""},
{"property": "C120", "status": "partial", "theorems": ["Ron.Props.C120_violated", "Ron.Props.C120_partial", "Ron.Props.C120_same_partial", "Ron.Props.C120_uuid_partial"], "note": "Violated for states that cannot be read back (C120_violated). Proved for states that can be written (`Written`): strings for one store and for two stores with the same events, UUIDs for one store."},
{"property": "C121", "status": "proved", "theorems": ["Ron.Props.C121_last", "Ron.Props.C121_none"], "note": "Full for frames that can be read to the end."},
{"property": "C122", "status": "partial", "theorems": ["Ron.Props.C122_violated", "Ron.Props.C122_late", "Ron.Props.C122_order_partial", "Ron.Props.C122_merged_partial"], "note": "Violated for frames that come late (C122_violated); C122_late says what happens then. Proved for writes that come in order (C122_order_partial) and for frames that are merged first, as far as C84_union_partial goes (C122_merged_partial)."},
{"property": "C123", "status": "partial", "theorems": ["Ron.Props.C123_violated", "Ron.Props.C123_payload", "Ron.Props.C123_uniform", "Ron.Props.C123_zero", "Ron.Props.C123_few", "Ron.Props.C123_never", "Ron.Props.C123_seconds_partial"], "note": "Violated for runs of the same second (C123_violated). Proved: no flags, all words equally often, runs of different seconds can differ (C123_seconds_partial)."},
{"property": "C124", "status": "partial", "theorems": ["Ron.Props.C124_violated", "Ron.Props.C124_used_violated", "Ron.Props.C124_kept_violated", "Ron.Props.C124_refused_violated", "Ron.Props.C124_defined_partial", "Ron.Props.C124_undefined", "Ron.Props.C124_whole_partial", "Ron.Props.C124_created_partial", "Ron.Props.C124_closed_partial", "Ron.Props.C124_drop", "Ron.Props.C124_new", "Ron.Props.C124_open_creates", "Ron.Props.C124_exists_violated", "Ron.Props.C124_open_twice"], "note": "Violated (C124_violated). Proved: Create, Write of a record, Read and Close in any order are defined up to a Create that fails; exactly which calls are undefined; a created store can be used; a closed one answers BAD_STATE to Write of a record, Read and Close; what Drop and Create do to the families; Open of an open store is refused."},
{"property": "C13", "status": "proved", "theorems": ["Ron.Props.C13_round_trip", "Ron.Props.C13_accepts_iff", "Ron.Props.C13_total", "Ron.Props.C13_read", "Ron.Props.C13_read_text"], "note": "Shape is the generalised 21-bit one: over-long forms and surrogates are accepted by the code and by the statement."},
{"property": "C14", "status": "partial", "theorems": ["Ron.Props.C14_round_trip", "Ron.Props.C14_standard_partial", "Ron.Props.C14_violated", "Ron.Props.C14_read_standard", "Ron.Props.C14_lone_surrogate"], "note": "Round trip proved for all code points below 2^21; standard form holds exactly below U+10000 except U+D7FF (C14_violated)."},
{"property": "C15", "status": "proved", "theorems": ["Ron.Props.C15_round_trip", "Ron.Props.C15_quoted", "Ron.Props.C15_no_line_ends", "Ron.Props.C15_codepoints"], "note": ""},
{"property": "C16", "status": "proved", "theorems": ["Ron.Props.C16_exact"], "note": ""},
{"property": "C17", "status": "partial", "theorems": ["Ron.Props.C17_text", "Ron.Props.C17_round_trip_partial", "Ron.Props.C17_violated", "Ron.Props.C17_overrun", "Ron.Props.C17_rejected"], "note": "Exact set of integers that survive: not below -922337203685477580 (C17_violated); buffer overrun exactly for v <= -10^18 (C17_overrun)."},
{"property": "C18", "status": "partial", "theorems": ["Ron.Props.C18_progress", "Ron.Props.C18_monotone", "Ron.Props.C18_terminates", "Ron.Props.C18_violated", "Ron.Props.C18_sticky_partial", "Ron.Props.C18_sticky_iff"], "note": "Progress and termination are proved for all frames; the stickiness of failures is violated: '(5)' without a terminator is an error that leaves a span pending (C18_violated); C18_sticky_iff gives the exact condition."},
{"property": "C19", "status": "partial", "theorems": ["Ron.Props.C19_violated", "Ron.Props.C19_no_bad_access_partial", "Ron.Props.C19_atoms_partial", "Ron.Props.C19_reads_partial"], "note": "Proved for all frames below 10^9-1 bytes; violated by a frame of 2^30+43 bytes (30-bit positions run into the type bits)."},
{"property": "C20", "status": "partial", "theorems": ["Ron.Props.C20_violated", "Ron.Props.C20_frames_partial", "Ron.Props.C20_unambiguous_partial"], "note": "Violated: 1e5 is read as a float and as a UUID, two values. Proved: every frame of the grammar (all atom kinds, ids, references, spans, terminators; bare atoms that are float and UUID at once left out) is read exactly as the grammar says, and the grammar is unambiguous. Frames below 2^30 bytes."},
{"property": "C21", "status": "partial", "theorems": ["Ron.Props.C21_violated", "Ron.Props.C21_all_violated", "Ron.Props.C21_partial", "Ron.Props.C21_consumed_partial"], "note": "The claim is refuted (an oversized integer, float or UUID before a terminator ends the frame without an error and the rest is dropped); for all frames below 10^9-1 bytes without oversized literals outside of quotes the end-of-frame status is given exactly on the texts of the grammar, and for all frames what was consumed before it is a text of the grammar."},
{"property": "C22", "status": "partial", "theorems": ["Ron.Props.C22_partial", "Ron.Props.C22_violated", "Ron.Props.C22_chunk_violated", "Ron.Props.C22_first_violated", "Ron.Props.C22_int_violated", "Ron.Props.C22_int_read_violated", "Ron.Props.C22_zero_violated", "Ron.Props.C22_feed_violated", "Ron.Props.C22_float_violated"], "note": "Clean calls (Spec.CleanCalls) make a frame of the grammar that reads back as the ops the calls say, with their terminators; calls outside of it are shown to be violations."},
{"property": "C23", "status": "proved", "theorems": ["Ron.Props.C23_chain", "Ron.Props.C23_frame", "Ron.Props.C23_increasing", "Ron.Props.C23_overflow"], "note": "Frames of any size; ids are consecutive and increasing unless the 64-bit value overflows (C23_overflow shows the boundary)."},
{"property": "C24", "status": "partial", "theorems": ["Ron.Props.C24_count_violated", "Ron.Props.C24_spread_violated", "Ron.Props.C24_count_partial", "Ron.Props.C24_spread_partial"], "note": "Violated: (0) stands for 2^32 ops, a spread string ending in a \\u form loses the code point. Proved for counts above zero and for spread strings without zero code points, anywhere in any frame below 2^30 bytes."},
{"property": "C25", "status": "partial", "theorems": ["Ron.Props.C25_partial", "Ron.Props.C25_violated", "Ron.Props.C25_escape_violated"], "note": "Runs of characters whose first one takes one byte read back in full; other first characters are shown to be violations."},
{"property": "C26", "status": "partial", "theorems": ["Ron.Props.C26_violated", "Ron.Props.C26_stack_partial", "Ron.Props.C26_skip_partial"], "note": "violated: iterator += moves the span pointer instead of the offset; push, pop, front, back, iteration and span skipping equal a plain list"},
{"property": "C27", "status": "proved", "theorems": ["Ron.Props.C27_ordered_merge", "Ron.Props.C27_iterator_total"], "note": "heap merge refined to the sorted duplicate-free union, any number of inputs"},
{"property": "C28", "status": "proved", "theorems": ["Ron.Props.C28_merge_confluent", "Ron.Props.C28_comm_assoc_idem"], "note": "any merge tree over the same events gives the same frame (lww, mx, chains)"},
{"property": "C29", "status": "partial", "theorems": ["Ron.Props.C29_violated", "Ron.Props.C29_last_write_partial", "Ron.Props.C29_older_writes_partial", "Ron.Props.C29_accessors_partial"], "note": "violated for numbers: LWWObject::number converts the bits as an integer; every key of a merged object holds the last write, older writes change nothing, uuid and string accessors are right"},
{"property": "C30", "status": "partial", "theorems": ["Ron.Props.C30_violated", "Ron.Props.C30_weave_partial", "Ron.Props.C30_converges_partial"], "note": "violated when inputs share ops (they come out twice); unique weave proved for any splitting into disjoint pieces"},
{"property": "C31", "status": "partial", "theorems": ["Ron.Props.C31_violated", "Ron.Props.C31_causal_partial", "Ron.Props.C31_contiguous", "Ron.Props.C31_accepts_iff", "Ron.Props.C31_refuses_many"], "note": "violated: a dangling reference inside one input is accepted; causality and contiguity proved for pieces of a tree; acceptance characterised exactly for arbitrary inputs"},
{"property": "C32", "status": "partial", "theorems": ["Ron.Props.C32_violated", "Ron.Props.C32_safe_partial", "Ron.Props.C32_single_partial"], "note": "violated: three removals in a row below one element write outside of kills; safe if runs of removals/undos are not longer than what is above them, for every frame of less than 2^31 ops"},
{"property": "C33", "status": "partial", "theorems": ["Ron.Props.C33_violated", "Ron.Props.C33_visible_partial", "Ron.Props.C33_no_undo_partial"], "note": "violated: an undo of the first removal of a run has no effect; exact visibility proved otherwise, and the full claim for frames without undos"},
{"property": "C34", "status": "partial", "theorems": ["Ron.Props.C34_violated", "Ron.Props.C34_unsigned_partial", "Ron.Props.C34_nonnegative_partial", "Ron.Props.C34_order_independent_partial", "Ron.Props.C34_uuids_partial", "Ron.Props.C34_empty_partial"], "note": "violated for negative integers (unsigned compare) and ties; maximum proved for the unsigned order and for non-negative values; UUIDs and updates without values too, in frames without headers"},
{"property": "C35", "status": "proved", "theorems": ["Ron.Props.C35_meta_latest", "Ron.Props.C35_order_independent"], "note": "latest record per id; independent of input order"},
{"property": "C36", "status": "proved", "theorems": ["Ron.Props.C36_log_concat"], "note": "concatenation in input order"},
{"property": "C37", "status": "partial", "theorems": ["Ron.Props.C37_violated", "Ron.Props.C37_no_new_ops_partial"], "note": "violated: max merge of a header-only frame appends what the exhausted cursor shows; proved for all other forms"},
{"property": "C38", "status": "partial", "theorems": ["Ron.Props.C38_violated", "Ron.Props.C38_read_partial", "Ron.Props.C38_log_partial", "Ron.Props.C38_meta_partial", "Ron.Props.C38_rga_partial", "Ron.Props.C38_other_keys_partial", "Ron.Props.C38_max_partial", "Ron.Props.C38_max_numbers_partial"], "note": "Violated for causal trees (C38_violated): a read in the middle can fail and drops the records. Proved for lww/mx/yarn, logs and metadata from any store and with any interleaving of commands; causal trees: for pieces without common ops and if the reads in between succeed; other keys are never touched. Max registers: the greatest of everything written, numbers as unsigned ones."},
{"property": "C39", "status": "partial", "theorems": ["Ron.Props.C39_violated", "Ron.Props.C39_no_failure_partial"], "note": "Violated (C39_violated): Read erases the records before it looks at the merge status. Proved: other keys are unaffected, reads of up to one record change nothing, and for every form with a reducer except rga a read never fails."},
{"property": "C40", "status": "proved", "theorems": ["Ron.Props.C40_iteration"], "note": "All stores in key order, values asked for at any subset of the keys."},
{"property": "C41", "status": "partial", "theorems": ["Ron.Props.C41_reads_violated", "Ron.Props.C41_writes_violated", "Ron.Props.C41_write_partial", "Ron.Props.C41_read_partial", "Ron.Props.C41_iteration_partial"], "note": "Violated by reads (form is guessed from the frames) and by batch writes (they go to the lower layer). Proved: single writes; reads of lww/mx/yarn objects with a header; iteration over the union of the keys."},
{"property": "C42", "status": "partial", "theorems": ["Ron.Props.C42_violated", "Ron.Props.C42_by_id_partial", "Ron.Props.C42_log_partial", "Ron.Props.C42_rga_piece_partial", "Ron.Props.C42_rga_partial", "Ron.Props.C42_rga_same_partial", "Ron.Props.C42_meta_partial", "Ron.Props.C42_max_partial"], "note": "Violated for rga (C42_violated: more than three operands at once fail). Proved for lww/mx/yarn and logs; for causal trees: however the pieces are grouped, a merge that succeeds is the weave, and a partial merge is again a piece; for metadata: one record per id with the greatest reference; for max registers: however the frames are grouped, the greatest of all, if each has an update with a value."},
{"property": "C43", "status": "partial", "theorems": ["Ron.Props.C43_violated", "Ron.Props.C43_no_trace_partial", "Ron.Props.C43_refused", "Ron.Props.C43_all_accepted"], "note": "The claim as stated is false (C43_violated): an op naming a version is written to the main store at once, before the rest of the frame is checked. Proved: a rejected frame leaves every record other than the names untouched, and a rejected frame without naming ops leaves the main store as it was. A frame is rejected when any of its commands is (C43_refused), accepted only if all were (C43_all_accepted)."},
{"property": "C44", "status": "partial", "theorems": ["Ron.Props.C44_tip_violated", "Ron.Props.C44_order_violated", "Ron.Props.C44_tip_partial", "Ron.Props.C44_key_order", "Ron.Props.C44_open", "Ron.Props.C44_accepted", "Ron.Props.C44_repeats"], "note": "Both halves are false as stated: after CreateBranch the tip in memory is unset, so a lower tip of another yarn is accepted (C44_tip_violated); an array log read inside a transaction hides the yarn's tip and the yarn can be restarted (C44_order_violated). Proved: in a session opened with a tip the recorded tip never goes before it nor leaves its yarn; what Open reads is the recorded tip; records stay in key order; an accepted chain starts later than the tip found for its yarn or begins an unknown yarn, repeats and conflicts get their own codes."},
{"property": "C45", "status": "partial", "theorems": ["Ron.Props.C45_violated", "Ron.Props.C45_closed_partial", "Ron.Props.C45_history_partial", "Ron.Props.C45_honest_partial"], "note": "Violated: the stamp NEVER stands for the tip of a yarn, so a reference to it is found; one event stamped right before NEVER sets the clock there, a few local stamps take it past, and then events with such references are taken. Proved for every sequence of receives in which no op refers to the stamp NEVER, with the reducers of the code (an exhausted cursor shows no op referring to the name meta)."},
{"property": "C46", "status": "partial", "theorems": ["Ron.Props.C46_commits", "Ron.Props.C46_steps", "Ron.Props.C46_meta_root", "Ron.Props.C46_meta_next", "Ron.Props.C46_saved", "Ron.Props.C46_replica_violated"], "note": "Proved for the hash function of ops on full histories (C46_commits), and that OpMeta follows it (C46_steps), with its other fields (C46_meta_root, C46_meta_next, C46_saved). In a replica it fails for every hash function (C46_replica_violated): metadata loaded from the store has no hash."},
{"property": "C47", "status": "partial", "theorems": ["Ron.Props.C47_violated", "Ron.Props.C47_effect_partial", "Ron.Props.C47_stamps_partial", "Ron.Props.C47_yarn"], "note": "The claim as stated is false (C47_violated): stamped ops are never stored and all carry one stamp. Proved: what is stamped, with the stamp of which yarn, and that nothing else changes."},
{"property": "C48", "status": "partial", "theorems": ["Ron.Props.C48_split_partial", "Ron.Props.C48_exact_partial", "Ron.Props.C48_nil", "Ron.Props.C48_violated", "Ron.Props.C48_yarn_violated"], "note": "Violated as claimed: a cutoff inside a span lets the chain run to the end of the span (C48_violated); a chain may cross from one yarn to another (C48_yarn_violated). C48_split_partial says exactly what the chains of any log are; C48_exact_partial gives the claim's first half for cutoffs not inside a span. Logs below 10^9-1 bytes without over-long words."},
{"property": "C49", "status": "partial", "theorems": ["Ron.Props.C49_covers_partial", "Ron.Props.C49_violated", "Ron.Props.C49_covers_down"], "note": "False for the zero timestamp of an unrecorded yarn (C49_violated)."},
{"property": "C50", "status": "partial", "theorems": ["Ron.Props.C50_violated", "Ron.Props.C50_end_violated", "Ron.Props.C50_exact_partial", "Ron.Props.C50_plain_partial", "Ron.Props.C50_contents", "Ron.Props.C50_refl", "Ron.Props.C50_symm", "Ron.Props.C50_trans"], "note": "False as stated: comments are skipped (C50_violated); a trailing syntax error goes unnoticed (C50_end_violated). Proved: exactly what equality means for all frames; the claim for well-formed frames without comments; reflexive, symmetric, transitive."},
{"property": "C51", "status": "proved", "theorems": ["Ron.Props.C51_text", "Ron.Props.C51_accepted", "Ron.Props.C51_frame", "Ron.Props.C51_frames"], "note": "TextFrame::Split (SplitByID does not exist in the source). Any text: nothing but white space between frames is lost; accepted frames are never cut and are found again exactly."},
{"property": "C52", "status": "proved", "theorems": ["Ron.Props.C52_codes_distinct", "Ron.Props.C52_comment_neutral"], "note": ""},
{"property": "C53", "status": "partial", "theorems": ["Ron.Props.C53_violated", "Ron.Props.C53_reads_partial"], "note": "violated: the origin word of the key atom is taken for a byte range, so all name keys are one key; reads are kept whenever the ranges tell the keys apart"},
{"property": "C54", "status": "partial", "theorems": ["Ron.Props.C54_violated", "Ron.Props.C54_text_partial", "Ron.Props.C54_error_ignored_partial"], "note": "violated: single characters outside of spreads come out as NUL, and the status of the scan is ignored; proved for accepted frames of spread characters"},
{"property": "C55", "status": "partial", "theorems": ["Ron.Props.C55_violated", "Ron.Props.C55_walk_partial"], "note": "Violated (C55_violated): SeekTo keeps the merged value of the previous key and Next writes it over the new one. Proved for one walk through the store."},
{"property": "C56", "status": "partial", "theorems": ["Ron.Props.C56_violated", "Ron.Props.C56_forward_partial", "Ron.Props.C56_backward_partial"], "note": "Violated (C56_violated): seeking backwards takes only the last record of a key. Proved: forward seeks; the key of backward seeks and the value if there is one record or the key is the one asked for."},
{"property": "C57", "status": "partial", "theorems": ["Ron.Props.C57_violated", "Ron.Props.C57_types_partial"], "note": "False as stated: a header with the zero name is ignored only when it comes first, so the answer depends on the order. Proved for frames without such a header."},
{"property": "C58", "status": "partial", "theorems": ["Ron.Props.C58_violated", "Ron.Props.C58_notation_partial"], "note": "False as stated (C58_violated): a character in a span is hashed as a code point, a string of one character as a string. Proved for frames below 2^28 bytes and ops with characters of spans in the same places."},
{"property": "C59", "status": "partial", "theorems": ["Ron.Props.C59_violated", "Ron.Props.C59_float_violated", "Ron.Props.C59_slash_violated", "Ron.Props.C59_reference_violated", "Ron.Props.C59_partial"], "note": "AppendFrame miscopies spread/count runs that end a chunk, explicit floats, escaped slashes at the head of a run and next ids with other references (violations proved); proved for every grammar frame free of these, below 2^30 bytes, incl. terminators"},
{"property": "C60", "status": "partial", "theorems": ["Ron.Props.C60_violated", "Ron.Props.C60_states_violated", "Ron.Props.C60_filed_partial", "Ron.Props.C60_history_partial"], "note": "Violated: an op that refers to the name meta is taken for metadata of its own id, so later ops are filed into a log where their cause is not, or into an object nobody created. Proved for all histories none of whose ops refers to the name meta or to the stamp NEVER, reducers that neither invent ops nor lose log entries (all of the code but MAX, see C45_honest_partial)."},
{"property": "C61", "status": "partial", "theorems": ["Ron.Props.C61_violated", "Ron.Props.C61_calls_violated", "Ron.Props.C61_reopen_partial", "Ron.Props.C61_unchanged"], "note": "Violated by foreign events in a new branch and by CreateBranch(0) with an active store; proved for all histories that avoid both. Opening changes nothing: proved."},
{"property": "C62", "status": "partial", "theorems": ["Ron.Props.C62_violated", "Ron.Props.C62_forgotten_partial", "Ron.Props.C62_recorded_partial"], "note": "Violated: the record is written but never looked at; proved that it is written, and that the active store is always NIL after opening."},
{"property": "C63", "status": "partial", "theorems": ["Ron.Props.C63_violated", "Ron.Props.C63_copied_partial"], "note": "Violated by an object that can not be merged; if all can be read, each is proved to be written to the fork as it reads."},
{"property": "C64", "status": "partial", "theorems": ["Ron.Props.C64_violated", "Ron.Props.C64_tips_partial"], "note": "Violated by foreign events; proved for the tips of all stores."},
{"property": "C65", "status": "proved", "theorems": ["Ron.Props.C65_apart", "Ron.Props.C65_reopened"], "note": "For any reducer, any hash functions, any state and any call."},
{"property": "C66", "status": "partial", "theorems": ["Ron.Props.C66_violated", "Ron.Props.C66_mixed_violated", "Ron.Props.C66_first_partial", "Ron.Props.C66_next_partial", "Ron.Props.C66_chain_partial"], "note": "Violated for foreign events at the end of a frame in a branch that has a tip (C66_violated), and for chains after a later foreign event in the same frame (C66_mixed_violated). Proved for frames of one chain of any length, given the outcome of the lookups of its first event (C66_chain_partial), and with no such assumption for the first event in a new branch (C66_first_partial)."},
{"property": "C67", "status": "partial", "theorems": ["Ron.Props.C67_violated", "Ron.Props.C67_accepted", "Ron.Props.C67_names_partial", "Ron.Props.C67_session", "Ron.Props.C67_tip"], "note": "The claim as stated is false (C67_violated): after reopening, names given within one second get the same stamp and one replaces the other. Proved: names are accepted (C67_accepted); names given with later and later stamps are all read, the last one given for each name (C67_names_partial), and within a session stamps are later (C67_session); a name in a frame is given to the last event accepted before it (C67_tip)."},
{"property": "C68", "status": "partial", "theorems": ["Ron.Props.C68_violated", "Ron.Props.C68_string_violated", "Ron.Props.C68_run_violated", "Ron.Props.C68_float_violated", "Ron.Props.C68_empty_violated", "Ron.Props.C68_uuids_partial", "Ron.Props.C68_partial", "Ron.Props.C68_shift_partial"], "note": "Violated by the code for integers, floats, strings and runs (undefined behaviour for empty strings); proved for ops whose values are UUIDs; for a string, what becomes of it is stated exactly (C68_shift_partial)."},
{"property": "C69", "status": "partial", "theorems": ["Ron.Props.C69_violated", "Ron.Props.C69_partial", "Ron.Props.C69_read"], "note": "Violated by the code for characters of runs; proved for all other strings (same outcome, same code points), with success for strings of the grammar."},
{"property": "C70", "status": "partial", "theorems": ["Ron.Props.C70_violated", "Ron.Props.C70_partial"], "note": "Violated by queries with the id name, which assign a name; proved for all others."},
{"property": "C71", "status": "partial", "theorems": ["Ron.Props.C71_violated", "Ron.Props.C71_version_violated", "Ron.Props.C71_state_partial", "Ron.Props.C71_recorded_partial", "Ron.Props.C71_version_partial", "Ron.Props.C71_status"], "note": "Violated for logs and versions: the state is read instead of the log. Proved: what is answered is the state; for a version, what is before its op in the state (of a state in the order of ids: the ops with lesser ids); the answer to a query for a state has recorded ops only; the statuses are those of the commands of C70."},
{"property": "C72", "status": "partial", "theorems": ["Ron.Props.C72_violated", "Ron.Props.C72_read", "Ron.Props.C72_partial"], "note": "Violated when the first op goes on where the frame before stopped; proved otherwise."},
{"property": "C73", "status": "partial", "theorems": ["Ron.Props.C73_violated", "Ron.Props.C73_str_partial", "Ron.Props.C73_str", "Ron.Props.C73_at", "Ron.Props.C73_eq", "Ron.Props.C73_hash", "Ron.Props.C73_sub", "Ron.Props.C73_sub_end", "Ron.Props.C73_consume"], "note": "str() violated and characterised; reading bytes, comparison, hash, sub-slices and consuming proved in full."},
{"property": "C74", "status": "partial", "theorems": ["Ron.Props.C74_violated", "Ron.Props.C74_by_id", "Ron.Props.C74_reads", "Ron.Props.C74_rga_partial", "Ron.Props.C74_rga_many", "Ron.Props.C74_unknown", "Ron.Props.C74_state"], "note": "Violated for rga logs of more than three chains (refused); proved for lww and mx in full, for rga up to three chains. Logs are op lists; C48 is about the split of text, which differs if the version is inside of a span."},
{"property": "C75", "status": "proved", "theorems": ["Ron.Props.C75_kind", "Ron.Props.C75_kinds", "Ron.Props.C75_digits"], "note": ""},
{"property": "C76", "status": "proved", "theorems": ["Ron.Props.C76_maps"], "note": ""},
{"property": "C77", "status": "proved", "theorems": ["Ron.Props.C77_failed", "Ron.Props.C77_used"], "note": "A command that stops at an assert has no status and is not covered."},
{"property": "C78", "status": "partial", "theorems": ["Ron.Props.C78_violated", "Ron.Props.C78_others_violated", "Ron.Props.C78_resolve_partial", "Ron.Props.C78_created_partial"], "note": "Violated twice (C78_violated, C78_others_violated). Holds for NAME ids if the stamps of the names are in order."},
{"property": "C79", "status": "partial", "theorems": ["Ron.Props.C79_violated", "Ron.Props.C79_never", "Ron.Props.C79_write", "Ron.Props.C79_exact_partial"], "note": "Violated (C79_violated); C79_exact_partial says exactly which commands can succeed."},
{"property": "C80", "status": "partial", "theorems": ["Ron.Props.C80_violated", "Ron.Props.C80_partial"], "note": "Violated (C80_violated) for replicas without branches; with branches it is refused. No record is lost in any case."},
{"property": "C81", "status": "proved", "theorems": ["Ron.Props.C81_grown", "Ron.Props.C81_drop"], "note": "Hypotheses: the random number is not zero and the clock has not come to its end."},
{"property": "C82", "status": "proved", "theorems": ["Ron.Props.C82_opened"], "note": ""},
{"property": "C83", "status": "partial", "theorems": ["Ron.Props.C83_violated", "Ron.Props.C83_whole_violated", "Ron.Props.C83_partial", "Ron.Props.C83_tests"], "note": "Violated twice: what is after the first full stop is dropped with the status OK (C83_whole_violated); references of headers without one become NIL (C83_violated). Proved for scripts of the grammar, to the end or to a full stop followed by anything: the tests are exactly the ops before it, cut before each header, up to those references."},
{"property": "C84", "status": "partial", "theorems": ["Ron.Props.C84_violated", "Ron.Props.C84_error_violated", "Ron.Props.C84_union_partial", "Ron.Props.C84_log_partial", "Ron.Props.C84_rga_partial", "Ron.Props.C84_rga_many", "Ron.Props.C84_form", "Ron.Props.C84_two_forms", "Ron.Props.C84_last_partial", "Ron.Props.C84_rga_accepts_partial"], "note": "Violated twice: an op of the next id in the merged state reads as another (C84_violated); an input with a syntax error is cut there silently, status OK (C84_error_violated). Proved for all lists of frames of the grammar that can be copied (as in C59) with merged steps that are clean: union, weave, concatenation, last one, form, two forms refused, more than three RGA inputs refused. MAX is C92. Arrays: which frames are merged and which are refused with CAUSEBREAK (C84_rga_accepts_partial)."},
{"property": "C85", "status": "partial", "theorems": ["Ron.Props.C85_violated", "Ron.Props.C85_cutoff_violated", "Ron.Props.C85_error_violated", "Ron.Props.C85_by_id_partial", "Ron.Props.C85_rga_partial", "Ron.Props.C85_rga_many", "Ron.Props.C85_error_partial"], "note": "Violated three times (see findings). Proved for all logs of the grammar that can be copied, are less than 10^9-1 bytes, have no words of more than ten characters, and all cutoffs outside of spans: LWW and MX states (C85_by_id_partial), RGA states of up to three chains (C85_rga_partial), refusal of more (C85_rga_many); errors after the first op are reported (C85_error_partial)."},
{"property": "C86", "status": "partial", "theorems": ["Ron.Props.C86_violated", "Ron.Props.C86_union_partial", "Ron.Props.C86_named_partial", "Ron.Props.C86_confluent_partial", "Ron.Props.C86_done"], "note": "Violated (see findings). Proved for all trees of merges over frames of the grammar of the forms LWW, MX, YARN and META that can be copied and whose ops can be written in any company: the result reads as the union in the order of ids (C86_union_partial, with the form named by the headers C86_named_partial), any two results from the same ops read the same (C86_confluent_partial), further merges end with the status OK (C86_done). RGA is not covered (C30)."},
{"property": "C87", "status": "partial", "theorems": ["Ron.Props.C87_violated", "Ron.Props.C87_unread_violated", "Ron.Props.C87_whole_violated", "Ron.Props.C87_sound", "Ron.Props.C87_complete_partial"], "note": "Violated three times (see findings). Proved for all replicas and all scripts: no error only if all the tests that the script was split into pass (C87_sound); if they pass and no response is empty, no error (C87_complete_partial)."},
{"property": "C88", "status": "partial", "theorems": ["Ron.Props.C88_violated", "Ron.Props.C88_peek_violated", "Ron.Props.C88_partial", "Ron.Props.C88_trailing", "Ron.Props.C88_end"], "note": "Violated for comments at the end (after a command that is not a chain) and after an op of a mapper's with no terminator of its own. Proved: comments before other ops, in any number and in any places otherwise, change nothing (C88_partial); comments after a last chain neither (C88_end); comments at the end otherwise: nothing is saved (C88_trailing)."},
{"property": "C89", "status": "partial", "theorems": ["Ron.Props.C89_violated", "Ron.Props.C89_float_violated", "Ron.Props.C89_partial", "Ron.Props.C89_ops_partial"], "note": "Violated for runs of characters that begin with an escaped one and for floats whose copy reads differently. Proved for frames whose values copy (CopyOk) and whose runs begin with plain characters: the record exists, reads as the chain, and the cursor is left at the first op after it (C89_partial); the loop on text agrees with the loop on ops (C89_ops_partial), with errors and early returns."},
{"property": "C90", "status": "partial", "theorems": ["Ron.Props.C90_violated", "Ron.Props.C90_answers_violated", "Ron.Props.C90_listed_partial", "Ron.Props.C90_answers_partial"], "note": "Violated: a record that can not be merged cuts the listing with status OK; a branch named by one of its events stops the program. Proved: what is listed is right and has no gaps, and is whole if all records of the store can be merged (C90_listed_partial); in that case a listing is made for the active store and for any branch by its id (C90_answers_partial)."},
{"property": "C91", "status": "proved", "theorems": ["Ron.Props.C91_reopened", "Ron.Props.C91_used", "Ron.Props.C91_created"], "note": "That RocksDB keeps families by their names is assumed."},
{"property": "C92", "status": "partial", "theorems": ["Ron.Props.C92_greatest_partial", "Ron.Props.C92_uuid_partial", "Ron.Props.C92_violated", "Ron.Props.C92_invented_violated", "Ron.Props.C92_order_violated"], "note": "Proved for non-negative integers and for uuids, with one op with a value at least."},
{"property": "C93", "status": "partial", "theorems": ["Ron.Props.C93_given", "Ron.Props.C93_refused", "Ron.Props.C93_found_partial", "Ron.Props.C93_violated", "Ron.Props.C93_later_violated", "Ron.Props.C93_branch_violated"], "note": "Exact effect of the command proved (C93_given, C93_refused); lookup proved for lower case names whose stamps are in order."},
{"property": "C94", "status": "partial", "theorems": ["Ron.Props.C94_on_partial", "Ron.Props.C94_answers", "Ron.Props.C94_ignored", "Ron.Props.C94_recorded_partial", "Ron.Props.C94_violated", "Ron.Props.C94_args_violated"], "note": "Proved: what `on` answers and what `hop` records, exactly; the claim fails for every branch."},
{"property": "C95", "status": "partial", "theorems": ["Ron.Props.C95_partial", "Ron.Props.C95_violated", "Ron.Props.C95_float_violated"], "note": "Proved for copyable logs whose runs begin with a plain character and cutoffs that are not inside of a span."},
{"property": "C96", "status": "partial", "theorems": ["Ron.Props.C96_partial", "Ron.Props.C96_violated"], "note": "Proved with the hypotheses of C85 and C95."},
{"property": "C97", "status": "partial", "theorems": ["Ron.Props.C97_violated", "Ron.Props.C97_reducers_partial", "Ron.Props.C97_states_partial", "Ron.Props.C97_read_partial", "Ron.Props.C97_weave_partial"], "note": "Proved for frames whose ops do not refer to `meta` or to `NEVER`, logs of plain events with one op per id, reducers other than max; arrays: in up to three records, frames without queries."},
{"property": "C98", "status": "partial", "theorems": ["Ron.Props.C98_violated", "Ron.Props.C98_logs_partial", "Ron.Props.C98_read_partial", "Ron.Props.C98_tree_partial"], "note": "Proved with the hypotheses of C97."},
{"property": "C99", "status": "partial", "theorems": ["Ron.Props.C99_violated", "Ron.Props.C99_kept_partial", "Ron.Props.C99_text_partial"], "note": "a text write is lost; what it leaves alone is proved"}
]}
