{"claims": [
{"property": "C01", "status": "proved", "theorems": ["Verif.Vec.vectors_are_values", "Verif.Vec.bounds_checks_fire"], "note": "arbitrary programs over any number of vector variables; out-of-contract calls (documented in VecSpec) excluded"},
{"property": "C02", "status": "proved", "theorems": ["Verif.Vec.vectors_are_memory_safe"], "note": "same programs"},
{"property": "C03", "status": "proved", "theorems": ["Verif.Vec.vectors_do_not_leak", "Verif.Vec.blocks_belong_to_variables"], "note": "same programs"},
{"property": "C04", "status": "partial", "theorems": ["Verif.Vec.removals_clamp", "Verif.Vec.insertions_partial", "Verif.Vec.insert_out_of_range", "Verif.Vec.insert_past_end_loses_item", "Verif.Vec.pop_empty"], "note": "removals clamp for all arguments; insertion is only right for indices in range: the code does not clamp the index in release mode and pop on an empty vector corrupts it (witness theorems)"},
{"property": "C05", "status": "partial", "theorems": ["Verif.Pack.small_roundtrip_partial", "Verif.Pack.inlineFits_iff", "Verif.Pack.small_roundtrip_fails_for_5_byte_items", "Verif.Pack.big_roundtrip", "Verif.Pack.reset_empty"], "note": "property is false of the code for item sizes 5,7,13,14,15 (witness theorem); proved for every other size"},
{"property": "C06", "status": "proved", "theorems": ["Verif.Alloc.roundUp_spec", "Verif.Alloc.alloc_spec", "Verif.Alloc.vecCapa_spec", "Verif.Alloc.uniq_counters_balance"], "note": "all request sizes"},
{"property": "C07", "status": "partial", "theorems": ["Verif.Cmp.eq_complete", "Verif.Cmp.eq_iff_partial", "Verif.Cmp.eq_shared", "Verif.Cmp.eq_wide", "Verif.Cmp.eq_wide_wrong", "Verif.Cmp.order"], "note": "order: proved in full for strings; == is proved complete for all item sizes and exact for bytes unless two views start at the same address with different sizes; eq_shared and eq_wide_wrong prove the rest of the claim false of the code"},
{"property": "C08", "status": "partial", "theorems": ["Verif.Vec.aliasing_sources_partial", "Verif.Vec.splice_copy_wrong", "Verif.Vec.append_copy_wrong"], "note": "false of the code in some aliasing cases (witness theorems)"},
{"property": "C09", "status": "partial", "theorems": ["Verif.Range.ranges_are_windows_partial", "Verif.Range.range_bounds_checks_fire", "Verif.Range.range_of_range_is_slice_of_slice", "Verif.Range.edits_stay_in_the_window_partial", "Verif.Range.append_eats_right_neighbour", "Verif.Range.append_deletes_nothing"], "note": "Proved for every program of vector operations and ranges (any nesting, all 32-bit bounds): a range shows its window, a range of a range is the slice of the slice, edits touch only the window. False for append with a positive delete count (witnesses); the splices C08 excludes and assigning a range to a whole-vector range are not covered."},
{"property": "C10", "status": "proved", "theorems": ["Verif.Prelude.find_first", "Verif.Prelude.find_window", "Verif.Prelude.has_iff", "Verif.Prelude.starts_ends_iff"], "note": "item equality is decidable equality (for arrays of arrays: C13)"},
{"property": "C11", "status": "proved", "theorems": ["Verif.Prelude.split_cuts", "Verif.Prelude.cut_unique", "Verif.Prelude.split_pieces_free", "Verif.Prelude.join_glues", "Verif.Prelude.join_split", "Verif.Prelude.join_split_item", "Verif.Prelude.split_empty_sep"], "note": ""},
{"property": "C12", "status": "proved", "theorems": ["Verif.Prelude.replace_eq"], "note": ""},
{"property": "C13", "status": "proved", "theorems": ["Verif.Prelude.cmpArr_total", "Verif.Prelude.cmpArr_eq", "Verif.Prelude.cmpStruct_total", "Verif.Prelude.cmpPrim_total"], "note": "floats compare by bit pattern, i.e. as integers"},
{"property": "C14", "status": "proved", "theorems": ["Verif.Decstr.u64dec_denotes", "Verif.Decstr.i64dec_denotes", "Verif.Decstr.denotes_unique", "Verif.Decstr.i64dec_injective"], "note": "all 64-bit words; Denotes is an independent numeral reader"},
{"property": "C15", "status": "proved", "theorems": ["Verif.BitSet.C15_history", "Verif.BitSet.C15_canonical", "Verif.BitSet.C15_add", "Verif.BitSet.C15_remove", "Verif.BitSet.C15_has", "Verif.BitSet.C15_clearFrom", "Verif.BitSet.C15_negative_faults", "Verif.BitSet.C15_empty_iff"], "note": "Every history of calls with indices 0..2^31-1, from the empty set; negative indices fault."},
{"property": "C16", "status": "partial", "theorems": ["Verif.BitSet.C16_union", "Verif.BitSet.C16_difference", "Verif.BitSet.C16_addRange_partial", "Verif.BitSet.C16_addRange_empty", "Verif.BitSet.C16_addRange_loses_members", "Verif.BitSet.C16_negated", "Verif.BitSet.C16_hasInter", "Verif.BitSet.C16_hasMissing_partial", "Verif.BitSet.C16_hasMissing_self", "Verif.BitSet.C16_hasMissing_faults", "Verif.BitSet.C16_each_popcount"], "note": "All proved except where the code is wrong: add_range drops members in its last partial byte (exact effect addRange_ok, witness C16_addRange_loses_members) and has_missing runs out of bounds when the first set is longer and nothing is missing (witness C16_hasMissing_faults)."},
{"property": "C17", "status": "partial", "theorems": ["Verif.Hash.C17_map_partial", "Verif.Hash.C17_lost_key", "Verif.Hash.C17_duplicate_key"], "note": "For every hash function, key and value type and every history of set/ref/if_ref/get/remove/each/len/clear whose growths leave an index that passes the code's own Verify, the map answers as a finite map and ends with its pairs. The unrestricted statement is false of the code: increase_capacity can strand an entry (C17_lost_key: a key set and never removed is not found; C17_duplicate_key: a key stored twice). Missing: a condition on the history alone under which growth is good."},
{"property": "C18", "status": "partial", "theorems": ["Verif.Hash.C18_total_partial", "Verif.Hash.C18_oob", "Verif.Hash.C18_limit_exceeded"], "note": "For every history whose growths pass Verify, followed by any one call (whose growth may be bad): no access out of range, every loop ends, distances below max_probes, all of Verify's assertions hold. The unrestricted statement is false: C18_oob is a 10-call history that reads outside data."},
{"property": "C19", "status": "proved", "theorems": ["Verif.Flat.C19_set_history", "Verif.Flat.C19_canonical", "Verif.Flat.C19_has", "Verif.Flat.C19_add", "Verif.Flat.C19_remove", "Verif.Flat.C19_hasInter", "Verif.Flat.C19_missesSome", "Verif.Flat.C19_inter", "Verif.Flat.C19_union", "Verif.Flat.C19_diff", "Verif.Flat.C19_addAll", "Verif.Flat.C19_keep", "Verif.Flat.C19_removeAll", "Verif.Flat.C19_map_set", "Verif.Flat.C19_map_get", "Verif.Flat.C19_map_if", "Verif.Flat.C19_map_remove", "Verif.Flat.C19_map_ref", "Verif.Flat.C19_map_each", "Verif.Flat.C19_map_history", "Verif.Flat.C19_incr", "Verif.Flat.C19_tryDecr", "Verif.Flat.C19_count", "Verif.Flat.C19_total", "Verif.Flat.C19_counted_history"], "note": "For every totally ordered key type (TotalOrder, itself proved of the prelude comparators in C24), every history."},
{"property": "C20", "status": "proved", "theorems": ["Verif.Unicode.C20_encode_rfc", "Verif.Unicode.C20_encode_out_of_range", "Verif.Unicode.C20_encode_lean", "Verif.Unicode.C20_roundtrip", "Verif.Unicode.C20_decode_strings"], "note": "Encoder equals RFC 3629 arithmetic and Lean's own UTF-8 encoder; decoding the concatenated encodings of any list of code points gives exactly those code points, in order and with their positions, with no error callback."},
{"property": "C21", "status": "partial", "theorems": ["Verif.Unicode.C21_in_bounds_partial", "Verif.Unicode.C21_truncated_reads_past_end", "Verif.Unicode.C21_error_swallows_next", "Verif.Unicode.C21_overlong_accepted"], "note": "The full property is false of the code: utf8.len < i1 at lib/unicode.fu:63 should be <=. Proved: no out-of-bounds read on every string not ending one byte short of an announced sequence; and, conversely, every ASCII string followed by a two-byte lead byte reads past the end."},
{"property": "C22", "status": "partial", "theorems": ["Verif.Path.C22_normal_form", "Verif.Path.C22_idempotent", "Verif.Path.C22_meaning_relative_partial", "Verif.Path.C22_meaning_absolute_partial", "Verif.Path.C22_filename", "Verif.Path.C22_dirname_filename", "Verif.Path.C22_ext", "Verif.Path.C22_join_relative", "Verif.Path.C22_parents_cancel", "Verif.Path.C22_root_lost", "Verif.Path.C22_join_empty"], "note": "Normal form, idempotence, filename/dirname, ext/noext and join-of-relative are proved in full. Meaning preservation is false in general ('..' cancels a preceding '..' or the root: C22_parents_cancel, C22_root_lost); proved for all paths climbing at most one level (relative) or none (absolute)."},
{"property": "C23", "status": "proved", "theorems": ["Verif.Levenshtein.levenshtein_is_edit_distance", "Verif.Levenshtein.levenshtein_zero_iff"], "note": "all byte strings"},
{"property": "C24", "status": "proved", "theorems": ["Verif.Helpers.varint_roundtrip", "Verif.Helpers.varint_alphabet", "Verif.Helpers.parseVarint_overlong_ub"], "note": "all 32-bit values, any surrounding text; third theorem records UB on overlong malformed input"},
{"property": "C25", "status": "proved", "theorems": ["Verif.Rand.shuffle_permutes", "Verif.Rand.shuffle_is_shuffleBy", "Verif.Rand.shuffle_reaches_all"], "note": "shuffle terminates without out of bounds swaps and permutes; every permutation is reachable by some stream of draws"},
{"property": "C26", "status": "proved", "theorems": ["Verif.Rand.step64_bijective", "Verif.Rand.step32_bijective", "Verif.Rand.step64_full_period", "Verif.Rand.step32_full_period", "Verif.Tea.mixing_bijective", "Verif.Tea.absorb_injective"], "note": "xorshift steps are bijective with full period 2^n-1; TEA rounds bijective"},
{"property": "C27", "status": "proved", "theorems": ["Verif.Lexer.C27_total", "Verif.Lexer.C27_exact", "Verif.Lexer.C27_complete", "Verif.Lexer.C27_positions", "Verif.Lexer.C27_self_test", "Verif.Lexer.C27_int_tokens", "Verif.Lexer.C27_non_ascii_is_blank", "Verif.Lexer.C27_open_comment_accepted", "Verif.Lexer.C27_binary_underscore"], "note": "lex accepts exactly the lexical grammar of LexerSpec.lean, for every byte string, and returns the tokens of the pieces with their positions; it never reads outside the source. Findings: non-ASCII bytes are blanks, an open block comment is accepted, underscores split binary and octal literals. i32 overflow of indices (sources of 2 GB) not modelled."},
{"property": "C28", "status": "proved", "theorems": ["Verif.Lexer.C28_longest", "Verif.Lexer.C28_runs"], "note": "Every operator token is the longest known operator at its place; runs of operator characters are split greedily."},
{"property": "C29", "status": "proved", "theorems": ["Verif.Intlit.C29_exact_or_rejected", "Verif.Intlit.C29_min_sizes", "Verif.Intlit.C29_min_float", "Verif.Intlit.C29_float64_inexact"], "note": "All literals (sign, base 2/8/10/16, digits with underscores, u suffix): error iff the integer does not fit 64 bits (or minus with u), value exact otherwise, minimal integer sizes exact except that -0 is reported to fit no unsigned type. Finding: integers beyond 2^53 are reported to fit f64."},
{"property": "C30", "status": "proved", "theorems": ["Verif.Lifetime.C30_paths_roundtrip", "Verif.Lifetime.C30_roundtrip", "Verif.Lifetime.C30_injective", "Verif.Lifetime.C30_union", "Verif.Lifetime.C30_idempotent", "Verif.Lifetime.C30_empty", "Verif.Lifetime.C30_commutative", "Verif.Lifetime.C30_associative"], "note": "Lifetimes are the byte strings encode l of well-formed l; commutativity and associativity as equality of the denoted storage (the bytes may differ in the order of paths), idempotence and unit to the byte."},
{"property": "C31", "status": "proved", "theorems": ["Verif.Lifetime.C31_hasInter", "Verif.Lifetime.C31_interLocids", "Verif.Lifetime.C31_has", "Verif.Lifetime.C31_locid", "Verif.Lifetime.C31_from"], "note": "hasInter without usage masks; exact both ways."},
{"property": "C32", "status": "proved", "theorems": ["Verif.Usage.shift_inverse", "Verif.Usage.field_flag_position", "Verif.Usage.field_roundtrip", "Verif.Usage.regions_disjoint"], "note": "any mask width >= 4, any non-negative offset"},
{"property": "C33", "status": "partial", "theorems": ["Verif.Canon.assignable_eq_spec", "Verif.Canon.assignable_refl", "Verif.Canon.plain_host", "Verif.Canon.labelled_host_refuses_plain", "Verif.Canon.arrays_with_arrays", "Verif.Canon.more_labels_accepted", "Verif.Canon.guest_has_every_template", "Verif.Canon.accepted_fits_partial", "Verif.Canon.one_matching_argument_is_enough", "Verif.Canon.bases_confused", "Verif.Canon.acceptance_not_transitive", "Verif.Canon.mixed_depth_refused", "Verif.Canon.super_accepts_both", "Verif.Canon.super_found", "Verif.Canon.intersection_wrong", "Verif.Canon.labels_enumerated", "Verif.Canon.arguments_enumerated", "Verif.Canon.pattern_reads_back", "Verif.Canon.trim_removes_label", "Verif.Canon.trim_breaks_arrays", "Verif.Canon.array_name", "Verif.Canon.label_name"], "note": "decision on text = decision on types, reflexive, supertype accepts both; every-argument soundness proved for single-argument templates and refuted for several; not transitive; intersections refuted"},
{"property": "C34", "status": "partial", "theorems": ["Verif.Treiber.linearizable_partial", "Verif.Treiber.linearizable_unbounded", "Verif.Treiber.no_duplicates_partial", "Verif.Treiber.no_loss_partial", "Verif.Treiber.failed_cas_progress", "Verif.Treiber.untag_tag", "Verif.Treiber.tagof_tag", "Verif.Treiber.word_eq_iff", "Verif.Treiber.word_succ", "Verif.Treiber.aba_duplicates", "Verif.Treiber.aba_task_stack"], "note": "linearizable and lossless provided no operation sleeps through 2^(16+ALIGN_BITS) head changes (unconditionally for unbounded tags); the unconditional claim is refuted by aba_task_stack (19-bit tags wrap)"},
{"property": "C35", "status": "proved", "theorems": ["Verif.Arc.freed_once", "Verif.Arc.freed_last", "Verif.Arc.unique_sole", "Verif.Arc.unique_test", "Verif.Arc.drop_frees_iff", "Verif.Arc.drop_assert", "Verif.Arc.can_free"], "note": "any number of threads/handles, every interleaving, stale relaxed reads of the count included"},
{"property": "C36", "status": "proved", "theorems": ["Verif.Parfor.ranges_chain", "Verif.Parfor.index_once", "Verif.Parfor.batches_bounds", "Verif.Parfor.batch_size", "Verif.Parfor.single_batch", "Verif.Parfor.perBatchOf_pos"], "note": "every size, batch size, worker count"},
{"property": "C37", "status": "proved", "theorems": ["Verif.Parfor.returned_all_ran", "Verif.Parfor.ran_at_most_once", "Verif.Parfor.no_use_after_return", "Verif.Parfor.no_deadlock", "Verif.Parfor.always_finishes", "Verif.Parfor.endless_only_spurious", "Verif.Parfor.spurious_work", "Verif.Parfor.every_index_once"], "note": "any threads/workers/nesting, every interleaving of the C++11 mutex/condvar implementation; task stack push/pop atomic (see C34), sequentially consistent"},
{"property": "C38", "status": "proved", "theorems": ["Verif.Pool.live_kept", "Verif.Pool.alloc_disjoint", "Verif.Pool.never_fails", "Verif.Pool.peak_bound", "Verif.Pool.last_freed_first", "Verif.Pool.double_free"], "note": "every history of alloc/free/write over slots the user holds, with and without DEBUG; double_free shows what happens otherwise"},
{"property": "C39", "status": "proved", "theorems": ["Verif.Http.respond_spec", "Verif.Http.response_read", "Verif.Http.responses_read", "Verif.Http.huge_body"], "note": "an independent client reads back status, fields and body of every sequence of responses; huge_body: what goes wrong above 999999999 bytes"},
{"property": "C40", "status": "partial", "theorems": ["Verif.Http.accepted_iff_partial", "Verif.Http.first_read_decided", "Verif.Http.fragments_rejected", "Verif.Http.one_by_one_partial", "Verif.Http.pipelining_breaks", "Verif.Http.leftover_faults"], "note": "the full statement is false of the code: fragments_rejected proves every proper fragmentation of a request is refused at the first fragment; accepted_iff_partial says exactly which single reads are accepted; one_by_one_partial: requests each arriving in one read are all served"},
{"property": "C41", "status": "partial", "theorems": ["Verif.Cpp.ID_not_keyword", "Verif.Cpp.ID_distinct_partial", "Verif.Cpp.ID_collides", "Verif.Cpp.ID_collision_iff"], "note": "never a keyword: proved; distinctness is false in the code (do / dO), the exact set of collisions is proved"},
{"property": "C42", "status": "proved", "theorems": ["Verif.Testdiff.serialize_firsts", "Verif.Testdiff.serialize_total", "Verif.Testdiff.less_strict"], "note": "std::sort is modelled by its contract"},
{"property": "C43", "status": "proved", "theorems": ["Verif.Ascii.upper_spec", "Verif.Ascii.lower_spec", "Verif.Ascii.case_laws"], "note": "all strings"},
{"property": "C44", "status": "proved", "theorems": ["Verif.Prelude.reverse_eq", "Verif.Prelude.partition_spec", "Verif.Prelude.remove_spec", "Verif.Prelude.map_spec", "Verif.Prelude.all_some_spec", "Verif.Prelude.resize_spec", "Verif.Prelude.minmax_spec", "Verif.Prelude.clamp_spec", "Verif.Prelude.steal_spec"], "note": "remove(predicate) on trivial types always hits assert(false) in the code (src/prelude.fu:545) and is not covered"},
{"property": "C45", "status": "partial", "theorems": ["Verif.Fd.file_write_prefix", "Verif.Fd.file_write_partial", "Verif.Fd.write_nothing", "Verif.Fd.file_read_frame", "Verif.Fd.file_read_whole_partial", "Verif.Fd.short_read_corrupts", "Verif.Fd.short_read_always_corrupts", "Verif.Fd.growth_noticed", "Verif.Fd.fd_write", "Verif.Fd.read_exhaustive_exact", "Verif.Fd.read_exhaustive_all"], "note": "file write: exact unless the system transfers 0 bytes (write_nothing: then an incomplete file is reported as success); exhaustive reading: proved; file read: refuted for short reads (short_read_always_corrupts)"},
{"property": "C46", "status": "proved", "theorems": ["Verif.Helpers.parse10u32_inverts", "Verif.Helpers.parse10s32_inverts"], "note": "decimal text of any 32-bit integer, in any context"},
{"property": "C47", "status": "proved", "theorems": ["Verif.Helpers.trim_spec", "Verif.Ascii.trim_spec", "Verif.Helpers.trim_drops_utf8"], "note": "both trim functions; visible means ASCII 33..127 because char is signed"},
{"property": "C48", "status": "proved", "theorems": ["Verif.Helpers.leftpad_spec", "Verif.Helpers.leftpad_empty_pad_diverges"], "note": "all strings, widths and non-empty pads"},
{"property": "C49", "status": "proved", "theorems": ["Verif.Rand.next_u64_never_repeats", "Verif.Rand.next_u64_order", "Verif.Rand.seed_nonzero", "Verif.Rand.scramble_injective"], "note": "sequentially consistent interleavings of the atomic accesses (single atomic variable)"},
{"property": "C50", "status": "proved", "theorems": ["Verif.Tea.hashBytes_eq", "Verif.Tea.hash_separates_one_block", "Verif.Tea.hash_injective_short", "Verif.Tea.u64_injective"], "note": "little-endian"},
{"property": "C51", "status": "proved", "theorems": ["Verif.Tea.digests_injective", "Verif.Tea.digest62_shape"], "note": ""},
{"property": "C52", "status": "partial", "theorems": ["Verif.Arc.free_after_all_accesses", "Verif.Arc.unique_ordered_partial", "Verif.Arc.unique_relaxed_race"], "note": "holds for the last decrement; holds for uniqueness tests only with an acquire load; the code's relaxed load is refuted by unique_relaxed_race"},
{"property": "C53", "status": "proved", "theorems": ["Verif.Parfor.defaultWorkers_bounds", "Verif.Parfor.envWorkers_spec"], "note": ""},
{"property": "C54", "status": "partial", "theorems": ["Verif.Lifetime.C54_inter_sound_partial", "Verif.Lifetime.C54_inter_partial", "Verif.Lifetime.C54_lost_place", "Verif.Lifetime.C54_extra_place"], "note": "The full statement is false of this code (C54_lost_place: stale inter in Paths_inter; C54_extra_place: non-nested ranges). Proved: sound and non-empty exactly on overlap for nested ranges; exact for one path per region."},
{"property": "C55", "status": "proved", "theorems": ["Verif.Lifetime.C55_field", "Verif.Lifetime.C55_field_within", "Verif.Lifetime.C55_fields_disjoint", "Verif.Lifetime.C55_field_field", "Verif.Lifetime.C55_deref", "Verif.Lifetime.C55_deref_within", "Verif.Lifetime.C55_join", "Verif.Lifetime.C55_join_within", "Verif.Lifetime.C55_join_field"], "note": "Offsets stay below 2^31 (hypothesis Fits); SELF_TEST assertions are not modelled."},
{"property": "C56", "status": "partial", "theorems": ["Verif.Lifetime.C56_hasTemporary", "Verif.Lifetime.C56_hasStatic_complete", "Verif.Lifetime.C56_hasStatic_partial", "Verif.Lifetime.C56_hasStatic_false_positive"], "note": "hasTemporary exact; hasStatic complete, exact when region numbers are below 128, false positive witnessed otherwise."},
{"property": "C57", "status": "partial", "theorems": ["Verif.Target.target_reads_back", "Verif.Target.targets_distinct", "Verif.Target.target_isArg", "Verif.Target.targets_collide", "Verif.Target.target_string_roundtrip", "Verif.Target.global_string_roundtrip", "Verif.Target.addr_of_fn_roundtrip", "Verif.Target.scope_item_fields", "Verif.Target.skip_mark_harmless"], "note": "proved for indices within capacity, which the code does not check; targets_collide exhibits the collisions beyond it"},
{"property": "C58", "status": "proved", "theorems": ["Verif.Target.locals_keep_their_ids"], "note": ""},
{"property": "C59", "status": "proved", "theorems": ["Verif.Target.forward_order", "Verif.Target.reverse_order", "Verif.Target.each_argument_once", "Verif.Target.mutrefs_last"], "note": ""},
{"property": "C60", "status": "proved", "theorems": ["Verif.Canon.user_type_reads_back", "Verif.Canon.user_types_distinct"], "note": ""},
{"property": "C61", "status": "partial", "theorems": ["Verif.Types.assignable_refl", "Verif.Types.mutable_needs_mutable", "Verif.Types.reference_needs_reference", "Verif.Types.nothing_fits_never", "Verif.Types.zeroes_fit", "Verif.Types.super_accepts_both", "Verif.Types.super_of_zeroes_partial", "Verif.Types.super_diverges", "Verif.Types.intersection_usable_partial", "Verif.Types.resize_test_wrong"], "note": "Intersection proved for types of one name (false otherwise: Verif.Canon.intersection_wrong); supertype with zeroes for value types; the search does not end for zeroes and never (super_diverges)."},
{"property": "C62", "status": "proved", "theorems": ["Verif.Types.relax_removes", "Verif.Types.relax_harmless", "Verif.Types.relaxed_accepts", "Verif.Types.retval_relaxable"], "note": "Full statement."},
{"property": "C63", "status": "partial", "theorems": ["Verif.Scope.lookups_complete_partial", "Verif.Scope.lookup_all_partial", "Verif.Scope.never_fails", "Verif.Scope.autocall_misses", "Verif.Scope.empty_skip_diverges"], "note": "All histories of declarations, blocks, functions and interleaved lookups, by an invariant on the skip-the-rest marks. Missing: histories with autocall searches, of which the property is false (autocall_misses)."},
{"property": "C64", "status": "proved", "theorems": ["Verif.Scope.each_visits", "Verif.Scope.count_counts", "Verif.Scope.reveach_reverses", "Verif.Scope.skips_well_formed"], "note": "All tables, skips and start positions."},
{"property": "C65", "status": "proved", "theorems": ["Verif.Scope.exports_own", "Verif.Scope.imports_exports", "Verif.Scope.search_pub_complete"], "note": "All scopes."},
{"property": "C66", "status": "partial", "theorems": ["Verif.Scope.union_between_partial", "Verif.Scope.union_exact_partial", "Verif.Scope.union_hides"], "note": "The union lies between the caller's view and both views together, and is exact if the callee has no skips of its own. In general it hides too much (union_hides)."},
{"property": "C67", "status": "proved", "theorems": ["Verif.Http.output_exact", "Verif.Http.write_ok"], "note": "one connection, soft write results"},
{"property": "C68", "status": "partial", "theorems": ["Verif.Cmp.lfind_first", "Verif.Cmp.lfind_window", "Verif.Cmp.lfind_from", "Verif.Cmp.lmatch_iff", "Verif.Cmp.rmatch_partial", "Verif.Cmp.rmatch_past_end", "Verif.Cmp.rmatch_short"], "note": "lfind, has, lmatch in full; rmatch is right only as rmatch_partial says, and rmatch_past_end/rmatch_short prove it wrong otherwise"},
{"property": "C69", "status": "partial", "theorems": ["Verif.Parse.parse_complete_partial", "Verif.Parse.parse_sound_partial", "Verif.Parse.unambiguous", "Verif.Parse.operand_ends", "Verif.Parse.callee_dropped"], "note": "sound and complete for the modelled expression grammar (no blocks, lambdas, type parameters, slices); calling an unparenthesised index or postfix expression loses the callee (callee_dropped), so the meaning theorems exclude it (Sane)"},
{"property": "C70", "status": "partial", "theorems": ["Verif.Parse.autoname_partial", "Verif.Parse.autoname_same", "Verif.Parse.autoname_if", "Verif.Parse.autoname_and"], "note": "holds unless the name is to come from a conditional or a conjunction: there the code always takes the first item (autoname_if, autoname_and)"},
{"property": "C71", "status": "proved", "theorems": ["Verif.Parse.terminates"], "note": "for the modelled expression grammar"},
{"property": "C72", "status": "proved", "theorems": ["Verif.Cgen.string_literal", "Verif.Cgen.char_literal", "Verif.Cgen.literal_ascii"], "note": "The C++ reader (CgenSpec) is written from the standard: greedy hex escapes, octal escapes, concatenation of adjacent literals, range of char. Moving long literals to static variables is not modelled (their names are digests, C51)."},
{"property": "C73", "status": "partial", "theorems": ["Verif.Cgen.identifier_valid", "Verif.Cgen.identifier_distinct_partial", "Verif.Cgen.identifier_collides", "Verif.Cgen.operator_symbol"], "note": "Distinctness is false in general: `+` and `x2B` share a C++ name (identifier_collides); it is proved among plain names (up to the keyword collisions of C41) and among operator names."},
{"property": "C74", "status": "proved", "theorems": ["Verif.Cgen.names_resolve"], "note": "Histories of entering and leaving blocks, declarations and mentions; C++ name lookup is the specification. Not modelled: names the emitter invents itself (BL_, temporaries), and the lookup of the name behind a closure id."},
{"property": "C75", "status": "proved", "theorems": ["Verif.Cgen.closure_roundtrip", "Verif.Cgen.not_closure"], "note": ""},
{"property": "C76", "status": "proved", "theorems": ["Verif.Compile.compile_ok_iff", "Verif.Compile.compile_sound", "Verif.Compile.compile_parallel", "Verif.Compile.means_unique"], "note": "The front end is a parameter (parse, resolve, solve). Files do not change during one build (getFile caches)."},
{"property": "C77", "status": "proved", "theorems": ["Verif.Compile.compile_terminates", "Verif.Compile.compile_error", "Verif.Compile.compile_circle"], "note": "Which of several errors is reported first is not specified."},
{"property": "C78", "status": "proved", "theorems": ["Verif.Compile.watch_sound", "Verif.Compile.watch_ok_iff", "Verif.Compile.watch_keeps", "Verif.Compile.prune_spec", "Verif.Compile.watch_orphan_fails", "Verif.Compile.watch_redirect_stale"], "note": "The assumption on imports is necessary (watch_redirect_stale). Noticing that an edit happened (the operating system's file events) is not modelled."},
{"property": "C79", "status": "partial", "theorems": ["Verif.Resolve.resolve_correct_partial", "Verif.Resolve.resolve_plain_partial", "Verif.Resolve.resolve_one", "Verif.Resolve.resolve_hidden_by_miss", "Verif.Resolve.resolve_elsewhere_found", "Verif.Resolve.resolve_order_dependent"], "note": "Proved where the keys of the cache do not clash (the statement keeps the condition); where they do, the failures are theorems. `exist` does not change during the build."},
{"property": "C80", "status": "proved", "theorems": ["Verif.Resolve.getFile_session", "Verif.Resolve.session_unique", "Verif.Resolve.getFile_snapshot", "Verif.Resolve.getFile_vt"], "note": "Specification: the relations Access and Session over a log of contents. Paths without NUL; contents other than a single vertical tab."},
{"property": "C81", "status": "partial", "theorems": ["Verif.Build.build_correct", "Verif.Build.builds_fresh_partial", "Verif.Build.cflags_ignored", "Verif.Build.runtime_stale", "Verif.Build.circular_includes_stale", "Verif.Build.circular_includes_alone"], "note": "Hashes are idealised as injective (a parameter with an instance). Missing: circular includes and changing options outside the key, where the claim is false (theorems). Test runs, cached test results and concurrent builds in one workspace are not modelled."},
{"property": "C82", "status": "proved", "theorems": ["Verif.Build.piece_iff", "Verif.Build.scan_spec", "Verif.Build.found_unique"], "note": "Uses the proved splitting of src/prelude.fu (C11). Includes in comments are found too; `# include` and macros are not."},
{"property": "C83", "status": "proved", "theorems": ["Verif.Vec.operators_are_values", "Verif.Vec.operators_check_bounds", "Verif.Vec.operators_are_memory_safe", "Verif.Vec.operators_do_not_leak", "Verif.Vec.concat_keeps_operands", "Verif.Vec.concat_consumes_one", "Verif.Vec.slice_in_range"], "note": "Every overload as its own statement, composed from the operations of the vector model; release mode, 32-bit overflow of the slice arithmetic is undefined. operators += are the append operations of C01."},
{"property": "C84", "status": "proved", "theorems": ["Verif.CallArgs.call_binds_as_specified", "Verif.CallArgs.named_argument_goes_to_its_parameter", "Verif.CallArgs.named_argument_only_to_its_parameter", "Verif.CallArgs.positional_arguments_keep_order", "Verif.CallArgs.no_argument_twice", "Verif.CallArgs.no_argument_lost", "Verif.CallArgs.every_argument_bound", "Verif.CallArgs.required_parameter_supplied", "Verif.CallArgs.accepted_arguments_fit", "Verif.CallArgs.call_accepted_iff", "Verif.CallArgs.call_never_breaks_compiler", "Verif.CallArgs.order_of_named_arguments_irrelevant", "Verif.CallArgs.rest_parameter_collects", "Verif.CallArgs.declaration_keeps_parameters", "Verif.CallArgs.declaration_never_breaks_parser", "Verif.CallArgs.declare_wellFormed", "Verif.CallArgs.declare_requiredFirst", "Verif.CallArgs.typeSig_wellFormed", "Verif.CallArgs.positional_argument_dropped", "Verif.CallArgs.repeated_argument_dropped", "Verif.CallArgs.optional_argument_breaks_compiler", "Verif.CallArgs.default_before_required_breaks_compiler", "Verif.CallArgs.implicit_bang_misplaces_parameters", "Verif.CallArgs.parameter_after_rest_breaks_compiler", "Verif.CallArgs.defaulted_rest_breaks_compiler"], "note": "Types are two arbitrary functions (an argument fits a parameter; a using supplies a parameter). Findings, all proved: `f(x, a?: y)` with `fn f(a)` silently drops x; `f(a: x, a?: y)` drops y although a repeated name is otherwise an error; an optional argument nobody takes breaks the compiler when a using is in scope; `struct S { a = 0; b: T; }` with `S(x)` breaks the compiler; `implicit b!` after a default misplaces the next `c!` parameter or breaks the parser; a parameter after a rest parameter, and a defaulted rest parameter with a using, break the compiler at the call. Rest parameters in calls with named arguments are modelled, not proved."},
{"property": "C85", "status": "proved", "theorems": ["Verif.Ev.callbacks_in_order", "Verif.Ev.open_descriptors", "Verif.Ev.pack_unpack", "Verif.Ev.withState_parts"], "note": "Linux branch without child handlers; kernel and callbacks are arbitrary inputs."},
{"property": "C86", "status": "partial", "theorems": ["Verif.Ev.callbacks_in_order", "Verif.Ev.nothing_left_open", "Verif.Ev.no_fault_partial", "Verif.Ev.finish_ok", "Verif.Ev.listen_without_descriptors"], "note": "Closing is proved in full; the assertions hold except in ipv4_listen: a failed socket() call leads to close(-1) and a failed assertion (listen_without_descriptors)."},
{"property": "C87", "status": "partial", "theorems": ["Verif.Ev.handles_connection", "Verif.Ev.no_connection_forgotten", "Verif.Ev.told_facts", "Verif.Ev.remembers_facts", "Verif.Ev.armed_iff", "Verif.Ev.closes_iff", "Verif.Ev.stays_open_partial", "Verif.Ev.close_discards", "Verif.Ev.half_close_truncates", "Verif.Ev.half_close_run", "Verif.Ev.refused_without_error", "Verif.Ev.handles_accept", "Verif.Ev.listens"], "note": "Readiness, arming and closing are proved exactly; the last clause is false: close() and a half-closed peer discard left-over output (close_discards, half_close_truncates, half_close_run) and a connection the kernel refuses to watch is reported closed with error 0 (refused_without_error)."},
{"property": "C88", "status": "partial", "theorems": ["Verif.Spawn.spawn_descriptors", "Verif.Spawn.close_child", "Verif.Spawn.child_table", "Verif.Spawn.child_streams_partial", "Verif.Spawn.parent_stdin_lost", "Verif.Spawn.ignored_streams_closed", "Verif.Spawn.closed_stdin_leaks"], "note": "Descriptors are proved in full for a process whose standard input is open; Pipe and Parent (output, error) streams in full. False: Parent for standard input (parent_stdin_lost), Ignore with glibc (ignored_streams_closed), a process with closed standard input (closed_stdin_leaks)."},
{"property": "C89", "status": "partial", "theorems": ["Verif.Spawn.captured_is_prefix", "Verif.Spawn.captures_all_partial", "Verif.Spawn.rounds_bounded", "Verif.Spawn.closing_one_stream_loses_the_other"], "note": "In full: captured is always a prefix, in order; every round captures something. Completeness is proved for children that close a stream only when they write no more to either; otherwise it is false (closing_one_stream_loses_the_other)."},
{"property": "C90", "status": "partial", "theorems": ["Verif.Kids.calm_trace_partial", "Verif.Kids.calm_no_fault_partial", "Verif.Kids.calm_stop_partial", "Verif.Kids.calm_no_leak_partial", "Verif.Kids.first_event_partial", "Verif.Kids.calm_example", "Verif.Kids.stale_event_asserts", "Verif.Kids.stale_event_kills_group", "Verif.Kids.stale_event_wrong_child", "Verif.Kids.error_then_exit", "Verif.Kids.output_lost"], "note": "Proved for every run in which no batch reports another event of a child after its end and no error is reported for a pipe or by a read. For other runs it is false, and the witnesses are theorems: a child that ends before its descriptors are added to the interest list has its end reported first; its record is then freed and the next event of the batch finds a freed record: an assertion in debug builds, in release builds child_event for child 0 and kill(0, SIGKILL), or the pipe of another child closed. After an error on a pipe the record is not written back and the child's exit hits an assertion. Output still in the pipe when the child's end is reported is never delivered."},
{"property": "C91", "status": "partial", "theorems": ["Verif.Fold.conditionals_solved_partial", "Verif.Fold.conditionals_inlined_partial", "Verif.Fold.conditionals_checked_partial", "Verif.Fold.conditionals_kept_partial", "Verif.Fold.never_and_bug"], "note": "Proved for every tree of conditionals, labelled blocks, jumps, calls and opaque expressions whose types say true things, with labels that are unique. Missing: the value is compared before it is converted to the type of the node (a bool), conversions and retyped literals, let/defer/loops, and that the passes succeed. They do not always: `never && x` where a value is wanted is a bug report (`never_and_bug`)."},
{"property": "C92", "status": "partial", "theorems": ["Verif.CgTree.cg_reads", "Verif.CgMean.expr_emitted_partial", "Verif.CgMean.return_emitted_partial", "Verif.CgMean.stmt_emitted_partial", "Verif.CgMean.condition_emitted_partial", "Verif.CppGram.ReadsAs.unique", "Verif.CgMean.neg_neg_bug", "Verif.CgMean.prefix_field_bug", "Verif.CgMean.narrow_condition_bug", "Verif.CgMean.pointless_seq_bug"], "note": "Proved for well-typed expressions whose masks are good enough and which do not put a sign before the same sign or take a field of a prefix expression. Those exceptions are real: `-(-x)` is written `--x`, `(~v).x` is written `~v.x`, `if (a + b)` of bytes tests an int, `f(x++, x)` is written unsequenced though the mask asks for a sequence. References (pointer temporaries), moves, `never`, blocks in expressions, conversions and the global-variable forms are not modelled."},
{"property": "C93", "status": "partial", "theorems": ["Verif.StmtMeans.body_emitted_partial", "Verif.CppStmt.One.unique", "Verif.StmtSim.exec_flat", "Verif.StmtMeans.dangling_label_bug", "Verif.StmtMeans.do_label_bug", "Verif.StmtMeans.do_empty_bug", "Verif.StmtMeans.if_empty_bug"], "note": "Proved for all bodies but those the emitter gets wrong: a loop that is the whole body of another loop or branch and is left from a loop in it is written without curlies, so its label is behind the outer loop (`dangling_label_bug`); a `do … while` left from a loop in it puts the label where the `;` goes (`do_label_bug`); a `do` without a body and an empty branch before an `else` are not C++. Expressions are those of C92. `try`, `defer`, `pragma`, block values, statements in expressions and `never` are not modelled; hoisted declarations are assignments."},
{"property": "C94", "status": "partial", "theorems": ["Verif.JumpScope.return_leaves", "Verif.JumpScope.return_to_leaves", "Verif.JumpScope.last_leaves", "Verif.JumpScope.break_leaves", "Verif.JumpScope.break_to_leaves", "Verif.JumpScope.continue_leaves_partial", "Verif.JumpScope.continue_to_leaves_partial", "Verif.JumpScope.nothing_to_leave", "Verif.JumpScope.continue_enter_bug", "Verif.JumpScope.body_label_bug"], "note": "`return` and `break` proved for all places; `continue` for those without a loop that has an `on enter` block: there the code leaves the `on enter` block and with it the loop (continue_enter_bug, for all surroundings). The label of the body of a loop is not found (body_label_bug). `continue` in the condition of a loop is not covered. What a function hides is any list; that this list is what is on the stack between declaration and use is read off src/solver.fu 7380-7397."},
{"property": "C95", "status": "partial", "theorems": ["Verif.Cli.means_partial", "Verif.Cli.inconsistent_refused", "Verif.Cli.nothing_else", "Verif.Cli.order_free", "Verif.Cli.ends", "Verif.Cli.defaultBin_fu", "Verif.Cli.obj_letter_bug", "Verif.Cli.release_bug", "Verif.Cli.empty_word_bug"], "note": "Proved for all command lines that do not have `-o`: the code forgets to give it a directory and it changes nothing (obj_letter_bug). Two more witnesses: `--release`, listed by --help, is unknown; behind an empty word anything is accepted. Not modelled: the texts printed, what compile_and_build does with the result (which ignores dir_obj altogether), path::join (a parameter here; modelled for C22)."},
{"property": "C96", "status": "partial", "theorems": ["Verif.SpecCache.isolated", "Verif.SpecCache.never_screws_up", "Verif.SpecCache.mangle_injective", "Verif.SpecCache.key_injective", "Verif.SpecCache.site_mangle", "Verif.SpecCache.names_have_no_comma", "Verif.SpecCache.right_instance_partial", "Verif.SpecCache.right_refusal_partial", "Verif.SpecCache.instances_stay_partial", "Verif.SpecCache.no_duplicates_partial", "Verif.SpecCache.literal_order_bug", "Verif.SpecCache.literal_crash_bug", "Verif.SpecCache.dangling_bug"], "note": "isolated and never_screws_up hold for every history. The others carry the suffix because the code makes the full property false: a call with literals is looked up under the literals' default types, so an earlier refusal decides it (literal_order_bug) and can stop the compiler (literal_crash_bug); a destroyed instance can stay under a name given out while it was being made (dangling_bug), so instances_stay is for calls made one by one; right_refusal is for nested calls that come from bodies being solved. The solver's own decisions are a parameter with laws (Solver.Laws). Not modelled: recursion through `into`, the reuse of one candidate's name for the next in tryMatchCall."},
{"property": "C97", "status": "partial", "theorems": ["Verif.Bck.sound_partial", "Verif.Bck.sound_jump_partial", "Verif.Bck.never_bug", "Verif.Bck.skipped_jump", "Verif.Bck.break_out", "Verif.Bck.argument_shift", "Verif.Bck.argument_shift_only", "Verif.Bck.return_in_loop", "Verif.Bck.bound_in_head", "Verif.Bck.next_iteration", "Verif.Bck.inner_loop_wins"], "note": "Proved for functions in which no jump leaves a loop, nothing that may be skipped jumps out, no reference is bound in the head of a for, and references older than a loop have positions before its start; for each of the five restrictions a theorem gives a function the checker accepts although a run of it uses an invalidated reference, so the full property is false of the code. Missing: which writes invalidate which references (the reference graph, a parameter here), the arguments-at-risk pass, defer and try."},
{"property": "C98", "status": "proved", "theorems": ["Verif.RefGraph.invalidates", "Verif.RefGraph.exact", "Verif.RefGraph.never_bug"], "note": "Lifetimes are lists of variables and tree paths; that the code's byte strings with flat offsets behave so is C30, C31, C55. The set of written variables is assumed closed under bindings, as callarg_trackWrites makes it. Not modelled: the masks of used fields, by which the code drops further siblings (fields nobody uses). References to static storage are not tracked and not claimed about."},
{"property": "C99", "status": "partial", "theorems": ["Verif.Bdf.file_read", "Verif.Bdf.parse_lines", "Verif.Bdf.safe_partial", "Verif.Bdf.kept_partial", "Verif.Bdf.row_overflow", "Verif.Bdf.empty_lost", "Verif.Bdf.wrong_pixels"], "note": "file_read is the whole claim for well-formed files. For arbitrary files safety holds when no 32768 lines follow one another without an ENDCHAR (safe_partial, kept_partial), and is false without that (row_overflow: the 16 bit row number wraps and a row is written in front of the pixels). Code points lead to glyphs when there are pixels and at most 65536 glyphs; a font of empty characters loses all its glyphs (empty_lost), and a rejected character's pixels can be shown for another (wrong_pixels). Sizes are natural numbers (the code has 32 bits); the head's metrics and make_mono_bounds are not modelled."},
{"property": "C100", "status": "partial", "theorems": ["Verif.Mkdir.made_exactly", "Verif.Mkdir.made_partial", "Verif.Mkdir.only_its_own", "Verif.Mkdir.visit_eq", "Verif.Mkdir.third_not_made", "Verif.Mkdir.made_but_error", "Verif.Mkdir.root_noent"], "note": "The code makes the full property false: after the retry that succeeds, err still holds ENOENT. made_exactly says for every path and any number of missing levels what happens: the first two are made, no more, and the answer is 0 only when exactly one was missing. made_partial: the directory is there afterwards if at most two levels were missing. Witnesses third_not_made, made_but_error (the compiler, writing into two missing directories, fails although both were made), root_noent. Not modelled: links, . and .., other processes."},
{"property": "C101", "status": "partial", "theorems": ["Verif.Embed.embed_font_partial", "Verif.Embed.embed_mono_partial", "Verif.Embed.embed_ranks", "Verif.Embed.makeMono_keeps", "Verif.Embed.bits_round", "Verif.Embed.bytesToBits_bits", "Verif.Embed.number_hex", "Verif.Embed.readList_text", "Verif.Embed.table_listed", "Verif.Embed.measure_spec", "Verif.Embed.out_of_order_partial", "Verif.Embed.embed_box_wrong_partial"], "note": "The code makes the full property false: the list written gives each code point the number of its place in the list, not of its glyph (out_of_order_partial: H is drawn as x; embed_ranks says for every table what is drawn), and the width and height written are the font's, the pixels the bitmap's (embed_box_wrong_partial: the code written aborts). embed_font_partial and embed_mono_partial: whole round trip when the glyphs are in the order of the code points and the boxes are of one size; the shape is moved to the left edge and by the measured baseline (proved zero when x and H stand on the line). Not modelled: the ascender and the other metrics that are not boxes; numbers of texels are naturals; compiling the emitted text is modelled as reading its two lists of numbers."},
{"property": "C102", "status": "partial", "theorems": ["Verif.Hotswap.slots_valid", "Verif.Hotswap.signal_not_lost", "Verif.Hotswap.signal_waits", "Verif.Hotswap.here_idle", "Verif.Hotswap.here_reloads", "Verif.Hotswap.signal_calls", "Verif.Hotswap.failed_reload", "Verif.Hotswap.newest", "Verif.Hotswap.fold_found", "Verif.Hotswap.files_kept", "Verif.Hotswap.one_library", "Verif.Hotswap.exePath_eq", "Verif.Hotswap.exePath_fits", "Verif.Hotswap.openPlain_fits", "Verif.Hotswap.late_never_partial", "Verif.Hotswap.stale_partial", "Verif.Hotswap.away_partial", "Verif.Hotswap.clobbers_partial"], "note": "Proved in full: validity of the slots, manual mode, no lost signal, the callback, failed reloads. The rest holds under conditions the code does not ensure: a function announced after the first reload is never replaced (late_never_partial: that a reload is under way is never taken back); a library that at first has none of the functions is opened by its old name again (stale_partial); while it is opened the library is not under its own name, and is lost when the program is killed then (away_partial); a file under the temporary name is lost (clobbers_partial). Not modelled: a signal outside manual mode in the middle of another statement (the code says itself that it must not do this), dlclose, printing, and a plugin that finds the handler set (it gets no library)."},
{"property": "C103", "status": "partial", "theorems": ["Verif.Readdir.each_once", "Verif.Readdir.closed", "Verif.Readdir.open_fails", "Verif.Readdir.recurse_gives", "Verif.Readdir.left_marked", "Verif.Readdir.one_answer", "Verif.Readdir.path_means", "Verif.Readdir.slashed_means", "Verif.Readdir.collect_finds", "Verif.Readdir.collect_ends", "Verif.Readdir.ends_only", "Verif.Readdir.watched_finds", "Verif.Readdir.executable_prefix", "Verif.Readdir.executable_none", "Verif.Readdir.error_hidden_partial", "Verif.Readdir.fu_dir_partial", "Verif.Readdir.too_many_partial", "Verif.Readdir.names_grow_partial", "Verif.Readdir.empty_root_partial", "Verif.Readdir.executable_partial"], "note": "Proved in full: closing, the entries given, the walk of watch.fu. Six things are not so in the code: an error while reading looks like the end (error_hidden_partial); a directory named like a source file is taken for one and not entered (fu_dir_partial); beyond the limit of open directories files are left out and nothing is said (too_many_partial); a caller who wants the name as a string gets all names so far in one (names_grow_partial); the empty path is the root (empty_root_partial); fs::executable gives the name followed by what the buffer held (executable_partial). Not modelled: changes of the directories meanwhile, . and .. and links in paths (what a path through them holds is the system's answer), what closedir answers (it is put, when there is NO error, into a variable returned already)."},
{"property": "C104", "status": "partial", "theorems": ["Verif.Signal.blocks", "Verif.Signal.requested_bits", "Verif.Signal.actually_bits", "Verif.Signal.block_err", "Verif.Signal.refused", "Verif.Signal.unblock_mask", "Verif.Signal.undone", "Verif.Signal.undone_fds", "Verif.Signal.nested", "Verif.Signal.unblock_answer", "Verif.Signal.out_of_order_partial", "Verif.Signal.high_partial", "Verif.Signal.fd_zero_partial", "Verif.Signal.unblock_err_partial"], "note": "Proved in full for the signals 1..31 and pairs one inside the other. Not so in the code: of two pairs that overlap but are not nested the first to end lets through what the second still asks for (out_of_order_partial); signals from 32 on, where the shift is undefined (modelled as the processor does it), stay blocked (high_partial); a signal descriptor numbered 0 is never closed (fd_zero_partial); the error of letting through is overwritten by closing's (unblock_err_partial). Not modelled: kqueue, sigismember's failing for another reason than a bad number."},
{"property": "C105", "status": "proved", "theorems": ["Verif.Par.map_result", "Verif.Par.each_result", "Verif.Par.zip_result", "Verif.Par.over_cells", "Verif.Par.one_result", "Verif.Par.no_race", "Verif.Par.goes_on"], "note": "The block touches, of what others see, only what is at its own index: that is what the compiler checks of it (purectx, noflow) and is taken as given here. That each batch runs once and before the call returns is C36 and C37; their model of threads and this one, of steps inside the batches, are joined by the ranges only. That it ends needs the blocks to end and is not stated here (goes_on: it never gets stuck)."},
{"property": "C106", "status": "partial", "theorems": ["Verif.IntType.C106_wanted", "Verif.IntType.C106_default", "Verif.IntType.C106_refused", "Verif.IntType.C106_holds_partial", "Verif.IntType.C106_truth", "Verif.IntType.C106_user", "Verif.IntType.C106_f64_lossy_partial", "Verif.IntType.C106_decimal_refused_partial", "Verif.IntType.C106_real_partial"], "note": "Partial because the code makes it false: f64 is given to every literal it is wanted of, also to 2^53 + 1 that it cannot hold; unsuffixed decimals from 2^63 on are refused though u64 holds them; a real literal never takes a user's primitive made of f32, an int literal does. The option DontFoldLiterals is taken to be off; which type is wanted is the caller's."},
{"property": "C107", "status": "partial", "theorems": ["Verif.Field.C107_counted", "Verif.Field.C107_reads_back_partial", "Verif.Field.C107_place_partial", "Verif.Field.C107_overlap_partial", "Verif.Field.C107_printed_partial", "Verif.Field.C107_wrong_place_partial", "Verif.Field.C107_stops_partial", "Verif.Field.C107_union_partial"], "note": "Partial because the code makes it false from 2^15 parts on: offset and count are packed in 16 bits each, so that 17 structs of two fields each give a field that reads back as having nothing in it (its references are held to be static) and one that reads back as the first part; with 16 the compiler stops. And members of a union are laid out like those of a struct, so that their lifetimes never overlap though they share storage. The self test's own checks on expected counts elsewhere, usage masks (C32) and the other parts of a shape are not modelled."},
{"property": "C108", "status": "partial", "theorems": ["Verif.Snippet.C108_sorted", "Verif.Snippet.C108_never_fails", "Verif.Snippet.C108_rows_partial", "Verif.Snippet.C108_strip_partial", "Verif.Snippet.C108_past_end_partial"], "note": "Partial because of what the code does: strip drops the last byte of a text unless it is in a code (proved: exactly that byte); of two overlapping tokens the one that begins first is left out even if it is the longer one; two tokens past the end of their line have the codes of the one put inside those of the other (witness). Lines, columns and lengths are integers, not 32-bit ones; the grouping of the tokens by file and the line with their places (formatTokenCoord) are not modelled."},
{"property": "C109", "status": "partial", "theorems": ["Verif.Exec.C109_all", "Verif.Exec.C109_safe", "Verif.Exec.C109_read_error_partial", "Verif.Exec.C109_cut_partial"], "note": "Partial because the code makes it false in two cases, both proved: a read that fails is taken for the end, so that the rest of the output is lost with no error (ferror is never asked); and a command with a byte 0 in it is cut off there and what comes before is run. The size is a natural number, not an int. That the system's count is never more than what was asked for is assumed."},
{"property": "C110", "status": "partial", "theorems": ["Verif.Retype.C110_retyped", "Verif.Retype.C110_wanted", "Verif.Retype.C110_refused", "Verif.Retype.C110_common", "Verif.Retype.C110_beside", "Verif.Retype.C110_ambiguous_partial", "Verif.Retype.C110_error_partial", "Verif.Retype.C110_other_partial"], "note": "Partial because of what the code does (all proved): two number literals of different types are never given a common type, even if one suits the other's, but are called ambiguous, since for the other the default is found; an int that is out of the type tried and of the default one ends the build with an error where another function of the same name would take it; and the type found may be another than the one wanted (the default of the ints), so that its users must ask again if it is assignable (they do). Of a type only its name is modelled, without labels, qualifiers, facts and lifetimes; that a word of an enum never has the type of [] is assumed. couldRetype, and the user's conversions that are tried after this, are not modelled."}
]}
