# Formal model of hdachev/fu in Lean 4

(Written by `tools/design.py` from `tools/design.md`, `tools/plan.json`, `properties.jsonl` and `MANIFEST.json`.)

## Scope

`fu` is a systems language with a self-hosting compiler (`src/*.fu`), a C++ runtime
(`include/fu`, `include/par`, `include/lockfree`) and a standard library (`lib/*.fu`).
The model lives in `lean/Verif/`.  Per area, `X.lean` holds the model: definitions that follow the code function by
function, each citing the file and lines it models and saying where it simplifies.  `XSpec.lean`, or the beginning of
`XProps.lean`, holds a small specification that does not mention the model; `XProps.lean`, `XTheorems.lean` and the other
files of the area hold the lemmas, the property theorems (their doc comments begin with the property's number) and examples
showing that concrete, non-trivial cases meet their hypotheses.

## Trusted base

* Lean 4.33.0's kernel, and the three standard axioms `propext`, `Classical.choice`, `Quot.sound` (per theorem: see
  *Axioms* below).  No axioms of our own, no compiled evaluation; concrete computations are checked by the kernel
  (`decide`, `decide +kernel`).
* The reading of the source: the models are written by hand from the text of `/repo`.  The tool chain - the fu compiler
  that turns `src/*.fu` into `src/*.fu.cpp`, the C++ compiler, libc, the operating system - is trusted to mean what the
  source says.  Where `.fu` and its emitted `.fu.cpp` differ in a way that matters (for instance the signedness of bytes) the model follows
  the emitted code and says so.
* C++/fu semantics assumed: two's-complement 32/64-bit integers, signed `char`, little-endian memory where the code selects
  it, relocation of objects by `memcpy`.  Sizes and positions that the code keeps in `i32` are natural numbers in the models
  unless a comment says otherwise (inputs below 2 GB).  Atomics: the reference counts (C35, C52) have a release/acquire model with stale relaxed reads; the
  lock-free stack and the parallel loops are interleavings of sequentially consistent steps.
* Faults (out-of-bounds access, failed assertion, undefined behaviour, a loop without end) are outcomes of the models, so
  that "never faults" is a theorem and not an assumption.  Fuel arguments only exist where the code's recursion is not
  structural; running out is an outcome distinct from every result, and theorems show it does not occur (or, where the code does not
  terminate, that it does).

## What is modelled

| source | modules |
|--------|---------|
| include/fu/vec.h, include/fu/mem/arc.{h,cpp}, packing of the vector header | `Pack`, `Alloc`, `Vec*`, `Arc*` |
| include/fu/vec_range.h | `Range*` |
| include/fu/vec/LEGACY_cmp.h, LEGACY_find.h | `Cmp*` |
| include/fu/decstr.cpp, lib/decstr.fu | `Decstr*` |
| include/lockfree/stack.hpp | `Treiber*` |
| include/par/parfor.{hpp,cpp} | `Parfor*` |
| src/prelude.fu (search, split, join, replace, comparison, list functions) | `Prelude*` |
| src/lexer.fu, src/intlit.fu | `Lexer*`, `Intlit*` |
| src/parser.fu (expressions, operator table, call arguments) | `Parse*` |
| src/helpers.fu | `Helpers*` |
| src/lifetime.fu, src/usage.fu | `Lifetime*`, `Usage*` |
| src/canon.fu, src/usertypes.fu, src/quals.fu | `Canon*` |
| src/types.fu | `Types*` |
| src/scope.fu, scope bookkeeping of src/solver.fu | `Scope*` |
| src/module.fu (targets, extended arguments), evaluation order | `Target*` |
| src/flat.fu | `Flat*` |
| src/cpp.fu | `Cpp*` |
| src/codegen.fu: literals, identifiers, operators, names of locals; src/hacks.fu: closure ids | `Cgen*` |
| src/compiler.fu (discovery of imports, order of compilation, watch mode), src/context.fu (module list) | `Compile*` |
| src/context.fu (file lookup, file contents) | `Resolve*` |
| src/build.fu (include hashes, object and executable cache) | `Build*` |
| src/levenshtein.fu, src/testdiff.fu | `Levenshtein*`, `Testdiff*` |
| lib/BitSet.fu, lib/hash.fu, lib/path.fu, lib/unicode.fu, lib/ascii.fu, lib/tea.fu, lib/rand.fu, lib/shuffle.fu | `BitSet*`, `Hash*`, `Path*`, `Unicode*`, `Ascii*`, `Tea*`, `Rand*` |
| lib/file.fu, lib/FD.fu | `Fd*` |
| lib/ev/Pool.fu, lib/ev/HTTP.fu | `Pool*`, `Http*` |

## What is not modelled

The solver proper (type inference, overload resolution, ownership analysis: src/solver.fu beyond its scopes), code
generation (src/codegen.fu beyond literals, names and evaluation order), statements, functions and types in src/parser.fu, the
rest of the build driver (src/build.fu: tests, output of sources; src/cli.fu), process, signal and terminal handling (lib/spawn.fu, lib/signal.fu, lib/ui), hot swapping, profiling and printing.
Floating-point arithmetic is only modelled as bit patterns.  Per function, simplifications are in the comments of the
models.

## Properties

### C01 Copy-on-write vectors have value semantics

*Model and proof.* `VecModel`: a heap of reference-counted blocks, every slot constructed or not, headers inline/heap/shared; `_Splice` and every operation of include/fu/vec.h as its sequence of slot accesses, undefined behaviour being an outcome. Invariant `Core` (VecInv), preserved by `_Splice` (VecSplice, VecSplice2) and every operation (VecOps, VecOps2), gives a refinement to independent lists (VecSpec) by induction over arbitrary programs (VecRefine).

*Status: proved.* arbitrary programs over any number of vector variables; out-of-contract calls (documented in VecSpec) excluded

Theorems: `Vec.vectors_are_values`, `Vec.bounds_checks_fire`

### C02 Vector operations are memory safe

*Model and proof.* `VecModel`: a heap of reference-counted blocks, every slot constructed or not, headers inline/heap/shared; `_Splice` and every operation of include/fu/vec.h as its sequence of slot accesses, undefined behaviour being an outcome. Invariant `Core` (VecInv), preserved by `_Splice` (VecSplice, VecSplice2) and every operation (VecOps, VecOps2), gives a refinement to independent lists (VecSpec) by induction over arbitrary programs (VecRefine).

*Status: proved.* same programs

Theorems: `Vec.vectors_are_memory_safe`

### C03 Vectors leak nothing

*Model and proof.* `VecModel`: a heap of reference-counted blocks, every slot constructed or not, headers inline/heap/shared; `_Splice` and every operation of include/fu/vec.h as its sequence of slot accesses, undefined behaviour being an outcome. Invariant `Core` (VecInv), preserved by `_Splice` (VecSplice, VecSplice2) and every operation (VecOps, VecOps2), gives a refinement to independent lists (VecSpec) by induction over arbitrary programs (VecRefine).

*Status: proved.* same programs

Theorems: `Vec.vectors_do_not_leak`, `Vec.blocks_belong_to_variables`

### C04 Splice clamps its arguments and equals list splicing

*Model and proof.* Same model; the list specification of splicing with clamped arguments, and witnesses where the code does not clamp.

*Status: partial.* removals clamp for all arguments; insertion is only right for indices in range: the code does not clamp the index in release mode and pop on an empty vector corrupts it (witness theorems)

Theorems: `Vec.removals_clamp`, `Vec.insertions_partial`, `Vec.insert_out_of_range`, `Vec.insert_past_end_loses_item`, `Vec.pop_empty`

### C05 The 16-byte vector header round-trips

*Model and proof.* `Pack`: the header as a `BitVec` word with the rotation packing; bit-level lemmas for all words, item size by item size class.

*Status: partial.* property is false of the code for item sizes 5,7,13,14,15 (witness theorem); proved for every other size

Theorems: `Pack.small_roundtrip_partial`, `Pack.inlineFits_iff`, `Pack.small_roundtrip_fails_for_5_byte_items`, `Pack.big_roundtrip`, `Pack.reset_empty`

### C06 Allocation rounding is sound

*Model and proof.* `Alloc`: `next_pow2`, `RoundUp` and the byte counts, for all 32-bit sizes, by arithmetic.

*Status: proved.* all request sizes

Theorems: `Alloc.roundUp_spec`, `Alloc.alloc_spec`, `Alloc.vecCapa_spec`, `Alloc.uniq_counters_balance`

### C07 Legacy vector comparison agrees with list comparison

*Model and proof.* `Cmp`: vectors as (address, size) in a common memory; `memcmp`/`==`/`<` by induction on bytes; counterexamples for shared storage and wide items.

*Status: partial.* order: proved in full for strings; == is proved complete for all item sizes and exact for bytes unless two views start at the same address with different sizes; eq_shared and eq_wide_wrong prove the rest of the claim false of the code

Theorems: `Cmp.eq_complete`, `Cmp.eq_iff_partial`, `Cmp.eq_shared`, `Cmp.eq_wide`, `Cmp.eq_wide_wrong`, `Cmp.order`

### C08 Splicing from an aliasing source is the same as splicing from a copy of it

*Model and proof.* `VecModel` with the source inside the target's own storage; case analysis on the code's pointer tests; witnesses where the test is wrong.

*Status: partial.* false of the code in some aliasing cases (witness theorems)

Theorems: `Vec.aliasing_sources_partial`, `Vec.splice_copy_wrong`, `Vec.append_copy_wrong`

### C09 Sub-range references compose and edit only their own part

*Model and proof.* `Range`: the packed trims and every operation as 32-bit arithmetic followed by vector operations of `VecModel`; refinement to windows of lists (RangeSpec), by induction over programs mixing vectors and nested ranges.

*Status: partial.* Proved for every program of vector operations and ranges (any nesting, all 32-bit bounds): a range shows its window, a range of a range is the slice of the slice, edits touch only the window. False for append with a positive delete count (witnesses); the splices C08 excludes and assigning a range to a whole-vector range are not covered.

Theorems: `Range.ranges_are_windows_partial`, `Range.range_bounds_checks_fire`, `Range.range_of_range_is_slice_of_slice`, `Range.edits_stay_in_the_window_partial`, `Range.append_eats_right_neighbour`, `Range.append_deletes_nothing`

### C10 Substring search returns the first occurrence

*Model and proof.* `Prelude`: the loops of src/prelude.fu; equality with declarative first-occurrence, split and glue specifications, by induction.

*Status: proved.* item equality is decidable equality (for arrays of arrays: C13)

Theorems: `Prelude.find_first`, `Prelude.find_window`, `Prelude.has_iff`, `Prelude.starts_ends_iff`

### C11 join inverts split

*Model and proof.* `Prelude`: the loops of src/prelude.fu; equality with declarative first-occurrence, split and glue specifications, by induction.

*Status: proved.* 

Theorems: `Prelude.split_cuts`, `Prelude.cut_unique`, `Prelude.split_pieces_free`, `Prelude.join_glues`, `Prelude.join_split`, `Prelude.join_split_item`, `Prelude.split_empty_sep`

### C12 replace equals split-then-join

*Model and proof.* `Prelude`: the loops of src/prelude.fu; equality with declarative first-occurrence, split and glue specifications, by induction.

*Status: proved.* 

Theorems: `Prelude.replace_eq`

### C13 Array three-way comparison is a total order consistent with equality

*Model and proof.* `Prelude` comparators for integers, arrays, structs, unions; total-order laws by induction on structure.

*Status: proved.* floats compare by bit pattern, i.e. as integers

Theorems: `Prelude.cmpArr_total`, `Prelude.cmpArr_eq`, `Prelude.cmpStruct_total`, `Prelude.cmpPrim_total`

### C14 Integers print as their canonical decimal text

*Model and proof.* `Decstr`: digit recursion over all `BitVec 64`; an independent numeral reader.

*Status: proved.* all 64-bit words; Denotes is an independent numeral reader

Theorems: `Decstr.u64dec_denotes`, `Decstr.i64dec_denotes`, `Decstr.denotes_unique`, `Decstr.i64dec_injective`

### C15 BitSet is a set of naturals

*Model and proof.* `BitSet` on byte lists; refinement to predicates on naturals, induction over histories; loops by invariants; witnesses for `add_range` and `has_missing`.

*Status: proved.* Every history of calls with indices 0..2^31-1, from the empty set; negative indices fault.

Theorems: `BitSet.C15_history`, `BitSet.C15_canonical`, `BitSet.C15_add`, `BitSet.C15_remove`, `BitSet.C15_has`, `BitSet.C15_clearFrom`, `BitSet.C15_negative_faults`, `BitSet.C15_empty_iff`

### C16 BitSet algebra is set algebra

*Model and proof.* `BitSet` on byte lists; refinement to predicates on naturals, induction over histories; loops by invariants; witnesses for `add_range` and `has_missing`.

*Status: partial.* All proved except where the code is wrong: add_range drops members in its last partial byte (exact effect addRange_ok, witness C16_addRange_loses_members) and has_missing runs out of bounds when the first set is longer and nothing is missing (witness C16_hasMissing_faults).

Theorems: `BitSet.C16_union`, `BitSet.C16_difference`, `BitSet.C16_addRange_partial`, `BitSet.C16_addRange_empty`, `BitSet.C16_addRange_loses_members`, `BitSet.C16_negated`, `BitSet.C16_hasInter`, `BitSet.C16_hasMissing_partial`, `BitSet.C16_hasMissing_self`, `BitSet.C16_hasMissing_faults`, `BitSet.C16_each_popcount`

### C17 The hash map is a map

*Model and proof.* `Hash`: the Robin-Hood index, buckets and data array with every access checked and every loop fuelled; invariant on the index (HashIndex), preserved by insertion, growth, removal, compaction; refinement to finite maps over all histories; counterexample histories (HashBug).

*Status: partial.* For every hash function, key and value type and every history of set/ref/if_ref/get/remove/each/len/clear whose growths leave an index that passes the code's own Verify, the map answers as a finite map and ends with its pairs. The unrestricted statement is false of the code: increase_capacity can strand an entry (C17_lost_key: a key set and never removed is not found; C17_duplicate_key: a key stored twice). Missing: a condition on the history alone under which growth is good.

Theorems: `Hash.C17_map_partial`, `Hash.C17_lost_key`, `Hash.C17_duplicate_key`

### C18 Hash map probing stays bounded and in range

*Model and proof.* `Hash`: the Robin-Hood index, buckets and data array with every access checked and every loop fuelled; invariant on the index (HashIndex), preserved by insertion, growth, removal, compaction; refinement to finite maps over all histories; counterexample histories (HashBug).

*Status: partial.* For every history whose growths pass Verify, followed by any one call (whose growth may be bad): no access out of range, every loop ends, distances below max_probes, all of Verify's assertions hold. The unrestricted statement is false: C18_oob is a 10-call history that reads outside data.

Theorems: `Hash.C18_total_partial`, `Hash.C18_oob`, `Hash.C18_limit_exceeded`

### C19 Sorted flat sets and maps behave like sets, maps and multisets

*Model and proof.* `Flat`: sorted arrays with binary search; refinement to sets, maps and multisets over all histories.

*Status: proved.* For every totally ordered key type (TotalOrder, itself proved of the prelude comparators in C24), every history.

Theorems: `Flat.C19_set_history`, `Flat.C19_canonical`, `Flat.C19_has`, `Flat.C19_add`, `Flat.C19_remove`, `Flat.C19_hasInter`, `Flat.C19_missesSome`, `Flat.C19_inter`, `Flat.C19_union`, `Flat.C19_diff`, `Flat.C19_addAll`, `Flat.C19_keep`, `Flat.C19_removeAll`, `Flat.C19_map_set`, `Flat.C19_map_get`, `Flat.C19_map_if`, `Flat.C19_map_remove`, `Flat.C19_map_ref`, `Flat.C19_map_each`, `Flat.C19_map_history`, `Flat.C19_incr`, `Flat.C19_tryDecr`, `Flat.C19_count`, `Flat.C19_total`, `Flat.C19_counted_history`

### C20 UTF-8 encode then decode is the identity

*Model and proof.* `Unicode`: encoder and decoder loops; round trip by induction on the code points; exact condition for an out-of-bounds read.

*Status: proved.* Encoder equals RFC 3629 arithmetic and Lean's own UTF-8 encoder; decoding the concatenated encodings of any list of code points gives exactly those code points, in order and with their positions, with no error callback.

Theorems: `Unicode.C20_encode_rfc`, `Unicode.C20_encode_out_of_range`, `Unicode.C20_encode_lean`, `Unicode.C20_roundtrip`, `Unicode.C20_decode_strings`

### C21 UTF-8 decoding never reads out of bounds

*Model and proof.* `Unicode`: encoder and decoder loops; round trip by induction on the code points; exact condition for an out-of-bounds read.

*Status: partial.* The full property is false of the code: utf8.len < i1 at lib/unicode.fu:63 should be <=. Proved: no out-of-bounds read on every string not ending one byte short of an announced sequence; and, conversely, every ASCII string followed by a two-byte lead byte reads past the end.

Theorems: `Unicode.C21_in_bounds_partial`, `Unicode.C21_truncated_reads_past_end`, `Unicode.C21_error_swallows_next`, `Unicode.C21_overlong_accepted`

### C22 Path normalisation keeps meaning and is idempotent

*Model and proof.* `Path`: component-wise specification (a walk over directories), the loops of lib/path.fu by invariants; witnesses for parent hops.

*Status: partial.* Normal form, idempotence, filename/dirname, ext/noext and join-of-relative are proved in full. Meaning preservation is false in general ('..' cancels a preceding '..' or the root: C22_parents_cancel, C22_root_lost); proved for all paths climbing at most one level (relative) or none (absolute).

Theorems: `Path.C22_normal_form`, `Path.C22_idempotent`, `Path.C22_meaning_relative_partial`, `Path.C22_meaning_absolute_partial`, `Path.C22_filename`, `Path.C22_dirname_filename`, `Path.C22_ext`, `Path.C22_join_relative`, `Path.C22_parents_cancel`, `Path.C22_root_lost`, `Path.C22_join_empty`

### C23 levenshtein computes the edit distance

*Model and proof.* `Levenshtein`: the single-row dynamic programme, equal to an inductively defined least edit cost.

*Status: proved.* all byte strings

Theorems: `Levenshtein.levenshtein_is_edit_distance`, `Levenshtein.levenshtein_zero_iff`

### C24 Variable-length integers round-trip

*Model and proof.* `Helpers`: varint writer and reader; round trip in any context; malformed input.

*Status: proved.* all 32-bit values, any surrounding text; third theorem records UB on overlong malformed input

Theorems: `Helpers.varint_roundtrip`, `Helpers.varint_alphabet`, `Helpers.parseVarint_overlong_ub`

### C25 shuffle permutes

*Model and proof.* `Rand`, `Tea`: bijections by explicit inverses; full period by linear algebra over GF(2) checked in the kernel (`Gf2`, certificates in `RandData`); shuffle by permutation invariant.

*Status: proved.* shuffle terminates without out of bounds swaps and permutes; every permutation is reachable by some stream of draws

Theorems: `Rand.shuffle_permutes`, `Rand.shuffle_is_shuffleBy`, `Rand.shuffle_reaches_all`

### C26 Mixing rounds and random steps are bijective

*Model and proof.* `Rand`, `Tea`: bijections by explicit inverses; full period by linear algebra over GF(2) checked in the kernel (`Gf2`, certificates in `RandData`); shuffle by permutation invariant.

*Status: proved.* xorshift steps are bijective with full period 2^n-1; TEA rounds bijective

Theorems: `Rand.step64_bijective`, `Rand.step32_bijective`, `Rand.step64_full_period`, `Rand.step32_full_period`, `Tea.mixing_bijective`, `Tea.absorb_injective`

### C27 The lexer always terminates with faithful token positions

*Model and proof.* `Lexer`: the whole of `lex` on byte strings; a separate grammar of pieces (LexerSpec); soundness and completeness by induction on the source.

*Status: proved.* lex accepts exactly the lexical grammar of LexerSpec.lean, for every byte string, and returns the tokens of the pieces with their positions; it never reads outside the source. Findings: non-ASCII bytes are blanks, an open block comment is accepted, underscores split binary and octal literals. i32 overflow of indices (sources of 2 GB) not modelled.

Theorems: `Lexer.C27_total`, `Lexer.C27_exact`, `Lexer.C27_complete`, `Lexer.C27_positions`, `Lexer.C27_self_test`, `Lexer.C27_int_tokens`, `Lexer.C27_non_ascii_is_blank`, `Lexer.C27_open_comment_accepted`, `Lexer.C27_binary_underscore`

### C28 Operators lex by longest match

*Model and proof.* `Lexer`: the whole of `lex` on byte strings; a separate grammar of pieces (LexerSpec); soundness and completeness by induction on the source.

*Status: proved.* Every operator token is the longest known operator at its place; runs of operator characters are split greedily.

Theorems: `Lexer.C28_longest`, `Lexer.C28_runs`

### C29 Integer literals parse exactly or are rejected

*Model and proof.* `Intlit`: literal parsing with wrapping 64-bit arithmetic, exact against the mathematical value.

*Status: proved.* All literals (sign, base 2/8/10/16, digits with underscores, u suffix): error iff the integer does not fit 64 bits (or minus with u), value exact otherwise, minimal integer sizes exact except that -0 is reported to fit no unsigned type. Finding: integers beyond 2^53 are reported to fit f64.

Theorems: `Intlit.C29_exact_or_rejected`, `Intlit.C29_min_sizes`, `Intlit.C29_min_float`, `Intlit.C29_float64_inexact`

### C30 Lifetime encodings round-trip and union is set union

*Model and proof.* `Lifetime`: the byte-level encoder, decoder, merge and path operations; a semantics of lifetimes as sets of places; exactness by induction on regions and paths; counterexamples where the code loses or invents places.

*Status: proved.* Lifetimes are the byte strings encode l of well-formed l; commutativity and associativity as equality of the denoted storage (the bytes may differ in the order of paths), idempotence and unit to the byte.

Theorems: `Lifetime.C30_paths_roundtrip`, `Lifetime.C30_roundtrip`, `Lifetime.C30_injective`, `Lifetime.C30_union`, `Lifetime.C30_idempotent`, `Lifetime.C30_empty`, `Lifetime.C30_commutative`, `Lifetime.C30_associative`

### C31 Lifetime intersection tests are exact

*Model and proof.* `Lifetime`: the byte-level encoder, decoder, merge and path operations; a semantics of lifetimes as sets of places; exactness by induction on regions and paths; counterexamples where the code loses or invents places.

*Status: proved.* hasInter without usage masks; exact both ways.

Theorems: `Lifetime.C31_hasInter`, `Lifetime.C31_interLocids`, `Lifetime.C31_has`, `Lifetime.C31_locid`, `Lifetime.C31_from`

### C32 Usage bit shifts are inverse

*Model and proof.* `Usage`: masks of any width; bit lemmas.

*Status: proved.* any mask width >= 4, any non-negative offset

Theorems: `Usage.shift_inverse`, `Usage.field_flag_position`, `Usage.field_roundtrip`, `Usage.regions_disjoint`

### C33 Type assignability is a preorder on canonical types

*Model and proof.* `Canon`: canonical names as byte strings, with the scanning loops; names described by trees (CanonSpec); the textual decision equals the decision on trees.

*Status: partial.* decision on text = decision on types, reflexive, supertype accepts both; every-argument soundness proved for single-argument templates and refuted for several; not transitive; intersections refuted

Theorems: `Canon.assignable_eq_spec`, `Canon.assignable_refl`, `Canon.plain_host`, `Canon.labelled_host_refuses_plain`, `Canon.arrays_with_arrays`, `Canon.more_labels_accepted`, `Canon.guest_has_every_template`, `Canon.accepted_fits_partial`, `Canon.one_matching_argument_is_enough`, `Canon.bases_confused`, `Canon.acceptance_not_transitive`, `Canon.mixed_depth_refused`, `Canon.super_accepts_both`, `Canon.super_found`, `Canon.intersection_wrong`, `Canon.labels_enumerated`, `Canon.arguments_enumerated`, `Canon.pattern_reads_back`, `Canon.trim_removes_label`, `Canon.trim_breaks_arrays`, `Canon.array_name`, `Canon.label_name`

### C34 The lock-free stack neither loses nor duplicates nodes

*Model and proof.* `Treiber`: transition system of loads, stores and compare-exchanges by any number of threads; inductive invariant and linearisation; ABA execution when tags wrap.

*Status: partial.* linearizable and lossless provided no operation sleeps through 2^(16+ALIGN_BITS) head changes (unconditionally for unbounded tags); the unconditional claim is refuted by aba_task_stack (19-bit tags wrap)

Theorems: `Treiber.linearizable_partial`, `Treiber.linearizable_unbounded`, `Treiber.no_duplicates_partial`, `Treiber.no_loss_partial`, `Treiber.failed_cas_progress`, `Treiber.untag_tag`, `Treiber.tagof_tag`, `Treiber.word_eq_iff`, `Treiber.word_succ`, `Treiber.aba_duplicates`, `Treiber.aba_task_stack`

### C35 Reference counts free a buffer exactly once

*Model and proof.* `Arc`: transition system with release/acquire message passing and stale relaxed reads; inductive invariant over all executions; racing execution for the relaxed uniqueness test.

*Status: proved.* any number of threads/handles, every interleaving, stale relaxed reads of the count included

Theorems: `Arc.freed_once`, `Arc.freed_last`, `Arc.unique_sole`, `Arc.unique_test`, `Arc.drop_frees_iff`, `Arc.drop_assert`, `Arc.can_free`

### C36 Parallel loops cover every index exactly once

*Model and proof.* `Parfor`: batch arithmetic, and a transition system of user threads, workers, task stack, counters, mutexes and condition variables; inductive invariants, progress measure.

*Status: proved.* every size, batch size, worker count

Theorems: `Parfor.ranges_chain`, `Parfor.index_once`, `Parfor.batches_bounds`, `Parfor.batch_size`, `Parfor.single_batch`, `Parfor.perBatchOf_pos`

### C37 Parallel loops wait for all work and cannot hang

*Model and proof.* `Parfor`: batch arithmetic, and a transition system of user threads, workers, task stack, counters, mutexes and condition variables; inductive invariants, progress measure.

*Status: proved.* any threads/workers/nesting, every interleaving of the C++11 mutex/condvar implementation; task stack push/pop atomic (see C34), sequentially consistent

Theorems: `Parfor.returned_all_ran`, `Parfor.ran_at_most_once`, `Parfor.no_use_after_return`, `Parfor.no_deadlock`, `Parfor.always_finishes`, `Parfor.endless_only_spurious`, `Parfor.spurious_work`, `Parfor.every_index_once`

### C38 Pool slots are never handed out twice

*Model and proof.* `Pool`: slots, free list and masks; invariant over histories of alloc, free and write.

*Status: proved.* every history of alloc/free/write over slots the user holds, with and without DEBUG; double_free shows what happens otherwise

Theorems: `Pool.live_kept`, `Pool.alloc_disjoint`, `Pool.never_fails`, `Pool.peak_bound`, `Pool.last_freed_first`, `Pool.double_free`

### C39 HTTP responses declare their exact body length

*Model and proof.* `Http`: one connection with its buffers; an independent reader of responses; schedules of partial reads and writes.

*Status: proved.* an independent client reads back status, fields and body of every sequence of responses; huge_body: what goes wrong above 999999999 bytes

Theorems: `Http.respond_spec`, `Http.response_read`, `Http.responses_read`, `Http.huge_body`

### C40 HTTP request parsing does not depend on how bytes are fragmented

*Model and proof.* `Http`: one connection with its buffers; an independent reader of responses; schedules of partial reads and writes.

*Status: partial.* the full statement is false of the code: fragments_rejected proves every proper fragmentation of a request is refused at the first fragment; accepted_iff_partial says exactly which single reads are accepted; one_by_one_partial: requests each arriving in one read are all served

Theorems: `Http.accepted_iff_partial`, `Http.first_read_decided`, `Http.fragments_rejected`, `Http.one_by_one_partial`, `Http.pipelining_breaks`, `Http.leftover_faults`

### C41 Generated C++ identifiers never collide with C++ keywords

*Model and proof.* `Cpp`: identifier mangling and the keyword table; exact set of collisions.

*Status: partial.* never a keyword: proved; distinctness is false in the code (do / dO), the exact set of collisions is proved

Theorems: `Cpp.ID_not_keyword`, `Cpp.ID_distinct_partial`, `Cpp.ID_collides`, `Cpp.ID_collision_iff`

### C42 Test-diff serialisation is order preserving and duplicate free

*Model and proof.* `Testdiff`: serialisation with `std::sort` replaced by its contract.

*Status: proved.* std::sort is modelled by its contract

Theorems: `Testdiff.serialize_firsts`, `Testdiff.serialize_total`, `Testdiff.less_strict`

### C43 ASCII case mapping is sound

*Model and proof.* `Ascii`, `Helpers`: character mapping and trimming on signed bytes, list induction.

*Status: proved.* all strings

Theorems: `Ascii.upper_spec`, `Ascii.lower_spec`, `Ascii.case_laws`

### C44 Prelude list functions meet their list specifications

*Model and proof.* `Prelude`: reverse, partition, remove, map, resize, min/max, clamp, steal as loops; list specifications.

*Status: proved.* remove(predicate) on trivial types always hits assert(false) in the code (src/prelude.fu:545) and is not covered

Theorems: `Prelude.reverse_eq`, `Prelude.partition_spec`, `Prelude.remove_spec`, `Prelude.map_spec`, `Prelude.all_some_spec`, `Prelude.resize_spec`, `Prelude.minmax_spec`, `Prelude.clamp_spec`, `Prelude.steal_spec`

### C45 Short reads and writes lose nothing

*Model and proof.* `Fd`: read and write loops against an arbitrary schedule of transfer sizes; induction over schedules; corrupting schedules.

*Status: partial.* file write: exact unless the system transfers 0 bytes (write_nothing: then an incomplete file is reported as success); exhaustive reading: proved; file read: refuted for short reads (short_read_always_corrupts)

Theorems: `Fd.file_write_prefix`, `Fd.file_write_partial`, `Fd.write_nothing`, `Fd.file_read_frame`, `Fd.file_read_whole_partial`, `Fd.short_read_corrupts`, `Fd.short_read_always_corrupts`, `Fd.growth_noticed`, `Fd.fd_write`, `Fd.read_exhaustive_exact`, `Fd.read_exhaustive_all`

### C46 Decimal parsing inverts decimal printing

*Model and proof.* `Helpers`: decimal parsing against `Decstr`, padding loop.

*Status: proved.* decimal text of any 32-bit integer, in any context

Theorems: `Helpers.parse10u32_inverts`, `Helpers.parse10s32_inverts`

### C47 trim removes exactly the surrounding blanks

*Model and proof.* `Ascii`, `Helpers`: character mapping and trimming on signed bytes, list induction.

*Status: proved.* both trim functions; visible means ASCII 33..127 because char is signed

Theorems: `Helpers.trim_spec`, `Ascii.trim_spec`, `Helpers.trim_drops_utf8`

### C48 leftpad pads to exactly the requested width

*Model and proof.* `Helpers`: decimal parsing against `Decstr`, padding loop.

*Status: proved.* all strings, widths and non-empty pads

Theorems: `Helpers.leftpad_spec`, `Helpers.leftpad_empty_pad_diverges`

### C49 Random numbers are never handed out twice

*Model and proof.* `Rand`: the shared generator state as an atomic cell; interleavings as lists of steps; injectivity from full period.

*Status: proved.* sequentially consistent interleavings of the atomic accesses (single atomic variable)

Theorems: `Rand.next_u64_never_repeats`, `Rand.next_u64_order`, `Rand.seed_nonzero`, `Rand.scramble_injective`

### C50 Byte-string hashing is total and separates strings differing in one block

*Model and proof.* `Tea`: block loop and digest alphabet; injectivity of the round function.

*Status: proved.* little-endian

Theorems: `Tea.hashBytes_eq`, `Tea.hash_separates_one_block`, `Tea.hash_injective_short`, `Tea.u64_injective`

### C51 Digests are faithful

*Model and proof.* `Tea`: block loop and digest alphabet; injectivity of the round function.

*Status: proved.* 

Theorems: `Tea.digests_injective`, `Tea.digest62_shape`

### C52 In-place writes after a uniqueness test are ordered after former owners' reads

*Model and proof.* `Arc`: transition system with release/acquire message passing and stale relaxed reads; inductive invariant over all executions; racing execution for the relaxed uniqueness test.

*Status: partial.* holds for the last decrement; holds for uniqueness tests only with an acquire load; the code's relaxed load is refuted by unique_relaxed_race

Theorems: `Arc.free_after_all_accesses`, `Arc.unique_ordered_partial`, `Arc.unique_relaxed_race`

### C53 Number of worker threads

*Model and proof.* `Parfor`: batch arithmetic, and a transition system of user threads, workers, task stack, counters, mutexes and condition variables; inductive invariants, progress measure.

*Status: proved.* 

Theorems: `Parfor.defaultWorkers_bounds`, `Parfor.envWorkers_spec`

### C54 Intersection of lifetimes

*Model and proof.* `Lifetime`: the byte-level encoder, decoder, merge and path operations; a semantics of lifetimes as sets of places; exactness by induction on regions and paths; counterexamples where the code loses or invents places.

*Status: partial.* The full statement is false of this code (C54_lost_place: stale inter in Paths_inter; C54_extra_place: non-nested ranges). Proved: sound and non-empty exactly on overlap for nested ranges; exact for one path per region.

Theorems: `Lifetime.C54_inter_sound_partial`, `Lifetime.C54_inter_partial`, `Lifetime.C54_lost_place`, `Lifetime.C54_extra_place`

### C55 Field, dereference and join of lifetimes

*Model and proof.* `Lifetime`: the byte-level encoder, decoder, merge and path operations; a semantics of lifetimes as sets of places; exactness by induction on regions and paths; counterexamples where the code loses or invents places.

*Status: proved.* Offsets stay below 2^31 (hypothesis Fits); SELF_TEST assertions are not modelled.

Theorems: `Lifetime.C55_field`, `Lifetime.C55_field_within`, `Lifetime.C55_fields_disjoint`, `Lifetime.C55_field_field`, `Lifetime.C55_deref`, `Lifetime.C55_deref_within`, `Lifetime.C55_join`, `Lifetime.C55_join_within`, `Lifetime.C55_join_field`

### C56 hasTemporary and hasStatic

*Model and proof.* `Lifetime`: the byte-level encoder, decoder, merge and path operations; a semantics of lifetimes as sets of places; exactness by induction on regions and paths; counterexamples where the code loses or invents places.

*Status: partial.* hasTemporary exact; hasStatic complete, exact when region numbers are below 128, false positive witnessed otherwise.

Theorems: `Lifetime.C56_hasTemporary`, `Lifetime.C56_hasStatic_complete`, `Lifetime.C56_hasStatic_partial`, `Lifetime.C56_hasStatic_false_positive`

### C57 Packed declaration names read back

*Model and proof.* `Target`: packing into 64-bit words and strings; round trips within capacity, collisions beyond.

*Status: partial.* proved for indices within capacity, which the code does not check; targets_collide exhibits the collisions beyond it

Theorems: `Target.target_reads_back`, `Target.targets_distinct`, `Target.target_isArg`, `Target.targets_collide`, `Target.target_string_roundtrip`, `Target.global_string_roundtrip`, `Target.addr_of_fn_roundtrip`, `Target.scope_item_fields`, `Target.skip_mark_harmless`

### C58 Locals keep their names while arguments are added

*Model and proof.* `Target`: packing into 64-bit words and strings; round trips within capacity, collisions beyond.

*Status: proved.* 

Theorems: `Target.locals_keep_their_ids`

### C59 Order of evaluation of arguments

*Model and proof.* `Target`: the two evaluation-order functions as permutations of argument positions.

*Status: proved.* 

Theorems: `Target.forward_order`, `Target.reverse_order`, `Target.each_argument_once`, `Target.mutrefs_last`

### C60 Names of user types read back

*Model and proof.* `Canon`: canonical names as byte strings, with the scanning loops; names described by trees (CanonSpec); the textual decision equals the decision on trees.

*Status: proved.* 

Theorems: `Canon.user_type_reads_back`, `Canon.user_types_distinct`

### C61 Which types fit which

*Model and proof.* `Types`: the decision procedures of src/types.fu over (name, quals, lifetime) with the name comparison of `Canon`; algebraic laws.

*Status: partial.* Intersection proved for types of one name (false otherwise: Verif.Canon.intersection_wrong); supertype with zeroes for value types; the search does not end for zeroes and never (super_diverges).

Theorems: `Types.assignable_refl`, `Types.mutable_needs_mutable`, `Types.reference_needs_reference`, `Types.nothing_fits_never`, `Types.zeroes_fit`, `Types.super_accepts_both`, `Types.super_of_zeroes_partial`, `Types.super_diverges`, `Types.intersection_usable_partial`, `Types.resize_test_wrong`

### C62 Relaxing loses only what nobody needs

*Model and proof.* `Types`: the decision procedures of src/types.fu over (name, quals, lifetime) with the name comparison of `Canon`; algebraic laws.

*Status: proved.* Full statement.

Theorems: `Types.relax_removes`, `Types.relax_harmless`, `Types.relaxed_accepts`, `Types.retval_relaxable`

### C63 A name means what is visible

*Model and proof.* `Scope`: items, skips, the packed skip-the-rest marks, search loops; invariant over all histories of declarations, blocks, functions and lookups; counterexamples for autocall and union.

*Status: partial.* All histories of declarations, blocks, functions and interleaved lookups, by an invariant on the skip-the-rest marks. Missing: histories with autocall searches, of which the property is false (autocall_misses).

Theorems: `Scope.lookups_complete_partial`, `Scope.lookup_all_partial`, `Scope.never_fails`, `Scope.autocall_misses`, `Scope.empty_skip_diverges`

### C64 Walking a scope

*Model and proof.* `Scope`: items, skips, the packed skip-the-rest marks, search loops; invariant over all histories of declarations, blocks, functions and lookups; counterexamples for autocall and union.

*Status: proved.* All tables, skips and start positions.

Theorems: `Scope.each_visits`, `Scope.count_counts`, `Scope.reveach_reverses`, `Scope.skips_well_formed`

### C65 Exports and imports

*Model and proof.* `Scope`: items, skips, the packed skip-the-rest marks, search loops; invariant over all histories of declarations, blocks, functions and lookups; counterexamples for autocall and union.

*Status: proved.* All scopes.

Theorems: `Scope.exports_own`, `Scope.imports_exports`, `Scope.search_pub_complete`

### C66 Searching two scopes at once

*Model and proof.* `Scope`: items, skips, the packed skip-the-rest marks, search loops; invariant over all histories of declarations, blocks, functions and lookups; counterexamples for autocall and union.

*Status: partial.* The union lies between the caller's view and both views together, and is exact if the callee has no skips of its own. In general it hides too much (union_hides).

Theorems: `Scope.union_between_partial`, `Scope.union_exact_partial`, `Scope.union_hides`

### C67 Server output is sent exactly

*Model and proof.* `Http`: one connection with its buffers; an independent reader of responses; schedules of partial reads and writes.

*Status: proved.* one connection, soft write results

Theorems: `Http.output_exact`, `Http.write_ok`

### C68 Legacy substring search

*Model and proof.* `Cmp`: LEGACY_find.h over `memmem`; first-occurrence specification shared with C10.

*Status: partial.* lfind, has, lmatch in full; rmatch is right only as rmatch_partial says, and rmatch_past_end/rmatch_short prove it wrong otherwise

Theorems: `Cmp.lfind_first`, `Cmp.lfind_window`, `Cmp.lfind_from`, `Cmp.lmatch_iff`, `Cmp.rmatch_partial`, `Cmp.rmatch_past_end`, `Cmp.rmatch_short`

### C69 Expressions are grouped by the operator table

*Model and proof.* `Parse`: the expression parser as mutually recursive functions on tokens; a grammar of expressions with two-sided levels (ParseSpec); completeness by induction on the expression (ParseComplete), soundness by induction on the calls (ParseSound), meaning of trees (ParseProps).

*Status: partial.* sound and complete for the modelled expression grammar (no blocks, lambdas, type parameters, slices); calling an unparenthesised index or postfix expression loses the callee (callee_dropped), so the meaning theorems exclude it (Sane)

Theorems: `Parse.parse_complete_partial`, `Parse.parse_sound_partial`, `Parse.unambiguous`, `Parse.operand_ends`, `Parse.callee_dropped`

### C70 Auto-named arguments

*Model and proof.* `Parse`: `getAutoName` as recursion on nodes, against the rule in its comment.

*Status: partial.* holds unless the name is to come from a conditional or a conjunction: there the code always takes the first item (autoname_if, autoname_and)

Theorems: `Parse.autoname_partial`, `Parse.autoname_same`, `Parse.autoname_if`, `Parse.autoname_and`

### C71 Reading an expression terminates

*Model and proof.* `Parse`: every function consumes tokens; a linear bound on the depth of calls (ParseTerm).

*Status: proved.* for the modelled expression grammar

Theorems: `Parse.terminates`

### C72 Emitted C++ literals denote the program's bytes

*Model and proof.* `Cgen`: the escaping loop with signed comparisons; an independent reader of C++ literals (`CgenSpec`); induction over the string.

*Status: proved.* The C++ reader (CgenSpec) is written from the standard: greedy hex escapes, octal escapes, concatenation of adjacent literals, range of char. Moving long literals to static variables is not modelled (their names are digests, C51).

Theorems: `Cgen.string_literal`, `Cgen.char_literal`, `Cgen.literal_ascii`

### C73 Emitted names are C++ identifiers and operators

*Model and proof.* `Cgen`: the backward replacement loop equals a byte-wise map; identifiers specified from [lex.name]; keyword table from `Cpp`.

*Status: partial.* Distinctness is false in general: `+` and `x2B` share a C++ name (identifier_collides); it is proved among plain names (up to the keyword collisions of C41) and among operator names.

Theorems: `Cgen.identifier_valid`, `Cgen.identifier_distinct_partial`, `Cgen.identifier_collides`, `Cgen.operator_symbol`

### C74 Local names resolve to the right variable

*Model and proof.* `Cgen.localID` and `emit` (`CgenNames`) over histories; simulation between the emitter's used-name list and C++ scopes (`CgenNameSpec`).

*Status: proved.* Histories of entering and leaving blocks, declarations and mentions; C++ name lookup is the specification. Not modelled: names the emitter invents itself (BL_, temporaries), and the lookup of the name behind a closure id.

Theorems: `Cgen.names_resolve`

### C75 Closure ids round-trip

*Model and proof.* `Cgen.serialize`, `tryParseClosureID` over the varints of `Helpers` (C24).

*Status: proved.* 

Theorems: `Cgen.closure_roundtrip`, `Cgen.not_closure`

### C76 Compiling a program compiles every file of it against its imports, and succeeds exactly when it can

*Model and proof.* Model the module list, the recursive discovery and the level loop; invariant: a module with an order has imports with smaller orders; induction over levels; specification Means is an inductive relation over files.

*Status: proved.* The front end is a parameter (parse, resolve, solve). Files do not change during one build (getFile caches).

Theorems: `Compile.compile_ok_iff`, `Compile.compile_sound`, `Compile.compile_parallel`, `Compile.means_unique`

### C77 Import circles are found, the compiler stops, and its errors are true

*Model and proof.* Measure: files without a module that was read. Errors: files being read are on the import path to the current one.

*Status: proved.* Which of several errors is reported first is not specified.

Theorems: `Compile.compile_terminates`, `Compile.compile_error`, `Compile.compile_circle`

### C78 Watch mode: an incremental rebuild gives what a clean build gives

*Model and proof.* Weak invariant between builds (an import has the output used or none), preserved by edits; pruning turns it into the strong one; then C76's argument applies.

*Status: proved.* The assumption on imports is necessary (watch_redirect_stale). Noticing that an edit happened (the operating system's file events) is not modelled.

Theorems: `Compile.watch_sound`, `Compile.watch_ok_iff`, `Compile.watch_keeps`, `Compile.prune_spec`, `Compile.watch_orphan_fails`, `Compile.watch_redirect_stale`

### C79 Which file an import stands for

*Model and proof.* Model the cached recursive lookup with the cache as a function; specification: the first existing of an explicit list of places. Invariant: each cache entry is the code of the answer for the one (directory, name) that has this key. Findings by computation.

*Status: partial.* Proved where the keys of the cache do not clash (the statement keeps the condition); where they do, the failures are theorems. `exist` does not change during the build.

Theorems: `Resolve.resolve_correct_partial`, `Resolve.resolve_plain_partial`, `Resolve.resolve_one`, `Resolve.resolve_hidden_by_miss`, `Resolve.resolve_elsewhere_found`, `Resolve.resolve_order_dependent`

### C80 A build reads every file once and refuses names that differ in case only

*Model and proof.* Invariant between the file map and the log of accesses; one step; induction over the session; the specification is shown to be deterministic.

*Status: proved.* Specification: the relations Access and Session over a log of contents. Paths without NUL; contents other than a single vertical tab.

Theorems: `Resolve.getFile_session`, `Resolve.session_unique`, `Resolve.getFile_snapshot`, `Resolve.getFile_vt`

### C81 An incremental build gives what a build from scratch gives

*Model and proof.* Model hashing with its memo table, the keys, compilation, the check of headers and the two caches. Lemma: the hash of a header determines its tree of texts. Invariant: every cached object is right for its key. Induction over builds.

*Status: partial.* Hashes are idealised as injective (a parameter with an instance). Missing: circular includes and changing options outside the key, where the claim is false (theorems). Test runs, cached test results and concurrent builds in one workspace are not modelled.

Theorems: `Build.build_correct`, `Build.builds_fresh_partial`, `Build.cflags_ignored`, `Build.runtime_stale`, `Build.circular_includes_stale`, `Build.circular_includes_alone`

### C82 Which headers of a text count for the cache

*Model and proof.* Directive as an inductive relation on pieces; the scanner's loop equals a list recursion.

*Status: proved.* Uses the proved splitting of src/prelude.fu (C11). Includes in comments are found too; `# include` and macros are not.

Theorems: `Build.piece_iff`, `Build.scan_spec`, `Build.found_unique`

### C83 Concatenation, slices and swaps behave as on immutable lists

*Model and proof.* Model each overload over the vector model (VecExpr), specify on lists (VecExprSpec), extend the refinement of C01 to the larger language (VecExprProps).

*Status: proved.* Every overload as its own statement, composed from the operations of the vector model; release mode, 32-bit overflow of the slice arithmetic is undefined. operators += are the append operations of C01.

Theorems: `Vec.operators_are_values`, `Vec.operators_check_bounds`, `Vec.operators_are_memory_safe`, `Vec.operators_do_not_leak`, `Vec.concat_keeps_operands`, `Vec.concat_consumes_one`, `Vec.slice_in_range`

### C84 A call gives every parameter the argument the reader expects

*Model and proof.* model parseArgsDecl, the arity loop, reorderByArgIDs, reorderByNumUsings, tryMatchCall's argument loops and CallerNode; specify the binding by a declarative function `expect` and prove the loops compute it

*Status: proved.* Types are two arbitrary functions (an argument fits a parameter; a using supplies a parameter). Findings, all proved: `f(x, a?: y)` with `fn f(a)` silently drops x; `f(a: x, a?: y)` drops y although a repeated name is otherwise an error; an optional argument nobody takes breaks the compiler when a using is in scope; `struct S { a = 0; b: T; }` with `S(x)` breaks the compiler; `implicit b!` after a default misplaces the next `c!` parameter or breaks the parser; a parameter after a rest parameter, and a defaulted rest parameter with a using, break the compiler at the call. Rest parameters in calls with named arguments are modelled, not proved.

Theorems: `CallArgs.call_binds_as_specified`, `CallArgs.named_argument_goes_to_its_parameter`, `CallArgs.named_argument_only_to_its_parameter`, `CallArgs.positional_arguments_keep_order`, `CallArgs.no_argument_twice`, `CallArgs.no_argument_lost`, `CallArgs.every_argument_bound`, `CallArgs.required_parameter_supplied`, `CallArgs.accepted_arguments_fit`, `CallArgs.call_accepted_iff`, `CallArgs.call_never_breaks_compiler`, `CallArgs.order_of_named_arguments_irrelevant`, `CallArgs.rest_parameter_collects`, `CallArgs.declaration_keeps_parameters`, `CallArgs.declaration_never_breaks_parser`, `CallArgs.declare_wellFormed`, `CallArgs.declare_requiredFirst`, `CallArgs.typeSig_wellFormed`, `CallArgs.positional_argument_dropped`, `CallArgs.repeated_argument_dropped`, `CallArgs.optional_argument_breaks_compiler`, `CallArgs.default_before_required_breaks_compiler`, `CallArgs.implicit_bang_misplaces_parameters`, `CallArgs.parameter_after_rest_breaks_compiler`, `CallArgs.defaulted_rest_breaks_compiler`

### C85 An event loop keeps its connections apart

*Model and proof.* model Loop as a transition system whose inputs are kernel answers and callback actions; a reader of the trace (EvSpec) keeps descriptor owners and live connections; invariant ties its tables to the interest list and must_close

*Status: proved.* Linux branch without child handlers; kernel and callbacks are arbitrary inputs.

Theorems: `Ev.callbacks_in_order`, `Ev.open_descriptors`, `Ev.pack_unpack`, `Ev.withState_parts`

### C86 An event loop closes what it opened, once, and nothing else

*Model and proof.* the same invariant: the open descriptors of the process are the program's, must_close, the signal descriptor and the one in hand

*Status: partial.* Closing is proved in full; the assertions hold except in ipv4_listen: a failed socket() call leads to close(-1) and a failed assertion (listen_without_descriptors).

Theorems: `Ev.callbacks_in_order`, `Ev.nothing_left_open`, `Ev.no_fault_partial`, `Ev.finish_ok`, `Ev.listen_without_descriptors`

### C87 An event loop wakes a connection exactly when it should

*Model and proof.* specify a connection by four facts (input unread, room, ended in, ended out) and how a turn changes them; prove the state bits are those facts and the armed events are the ones the facts ask for

*Status: partial.* Readiness, arming and closing are proved exactly; the last clause is false: close() and a half-closed peer discard left-over output (close_discards, half_close_truncates, half_close_run) and a connection the kernel refuses to watch is reported closed with error 0 (refused_without_error).

Theorems: `Ev.handles_connection`, `Ev.no_connection_forgotten`, `Ev.told_facts`, `Ev.remembers_facts`, `Ev.armed_iff`, `Ev.closes_iff`, `Ev.stays_open_partial`, `Ev.close_discards`, `Ev.half_close_truncates`, `Ev.half_close_run`, `Ev.refused_without_error`, `Ev.handles_accept`, `Ev.listens`

### C88 Starting a child process leaks nothing and connects its streams

*Model and proof.* model spawn's calls over a set of open descriptors with arbitrary answers, and the posix_spawn file actions as operations on a descriptor table

*Status: partial.* Descriptors are proved in full for a process whose standard input is open; Pipe and Parent (output, error) streams in full. False: Parent for standard input (parent_stdin_lost), Ignore with glibc (ignored_streams_closed), a process with closed standard input (closed_stdin_leaks).

Theorems: `Spawn.spawn_descriptors`, `Spawn.close_child`, `Spawn.child_table`, `Spawn.child_streams_partial`, `Spawn.parent_stdin_lost`, `Spawn.ignored_streams_closed`, `Spawn.closed_stdin_leaks`

### C89 The captured output of a child is what it wrote

*Model and proof.* small-step model of the poll loop and two pipes under an arbitrary schedule; invariant got ++ unread = sent; at the end both pipes are empty

*Status: partial.* In full: captured is always a prefix, in order; every round captures something. Completeness is proved for children that close a stream only when they write no more to either; otherwise it is false (closing_one_stream_loses_the_other).

Theorems: `Spawn.captured_is_prefix`, `Spawn.captures_all_partial`, `Spawn.rounds_bounded`, `Spawn.closing_one_stream_loses_the_other`

### C90 Children in an event loop get their own events, and nothing of theirs is left open

*Model and proof.* Model of the record of a child (four descriptors in a 128-bit word, in a Pool), spawn, the events of the pid descriptor and the three pipes, the end of the loop; the reader of the trace as specification; an invariant that ties records, interest list, pending events, must_close, must_sigkill and the pool, kept by every step.

*Status: partial.* Proved for every run in which no batch reports another event of a child after its end and no error is reported for a pipe or by a read. For other runs it is false, and the witnesses are theorems: a child that ends before its descriptors are added to the interest list has its end reported first; its record is then freed and the next event of the batch finds a freed record: an assertion in debug builds, in release builds child_event for child 0 and kill(0, SIGKILL), or the pipe of another child closed. After an error on a pipe the record is not written back and the child's exit hits an assertion. Output still in the pipe when the child's end is reported is never delivered.

Theorems: `Kids.calm_trace_partial`, `Kids.calm_no_fault_partial`, `Kids.calm_stop_partial`, `Kids.calm_no_leak_partial`, `Kids.first_event_partial`, `Kids.calm_example`, `Kids.stale_event_asserts`, `Kids.stale_event_kills_group`, `Kids.stale_event_wrong_child`, `Kids.error_then_exit`, `Kids.output_lost`

### C91 Conditionals keep their meaning through folding, inlining and borrow checking

*Model and proof.* A denotational meaning of source and of solved trees (state, value, jump, exit, divergence) in FoldSpec; the functions of the solver one by one in Fold; equality of meanings and truth of the claimed facts by induction over trees and over the folding loop, with the labels around an expression tracked so that an operand can be moved into a block.

*Status: partial.* Proved for every tree of conditionals, labelled blocks, jumps, calls and opaque expressions whose types say true things, with labels that are unique. Missing: the value is compared before it is converted to the type of the node (a bool), conversions and retyped literals, let/defer/loops, and that the passes succeed. They do not always: `never && x` where a value is wanted is a bug report (`never_and_bug`).

Theorems: `Fold.conditionals_solved_partial`, `Fold.conditionals_inlined_partial`, `Fold.conditionals_checked_partial`, `Fold.conditionals_kept_partial`, `Fold.never_and_bug`

### C92 The C++ written for an expression means the expression

*Model and proof.* Three layers: the emitter as a function to pieces of text (Verif.CgExpr); C++ as a longest-match lexer plus a precedence grammar given as a relation, proved unambiguous (Verif.CgText, Verif.CppGram); two semantics, of the language (deterministic, left to right) and of C++ (a relation: any permutation of the operands, integral promotions, anything can happen on undefined behaviour) (Verif.CgMean). cg_reads, by induction over expressions: the text reads as the tree meant. The simulation (Verif.CgMain): every C++ evaluation of that tree has the outcome of the language, by induction with the freshness of temporaries as an invariant.

*Status: partial.* Proved for well-typed expressions whose masks are good enough and which do not put a sign before the same sign or take a field of a prefix expression. Those exceptions are real: `-(-x)` is written `--x`, `(~v).x` is written `~v.x`, `if (a + b)` of bytes tests an int, `f(x++, x)` is written unsequenced though the mask asks for a sequence. References (pointer temporaries), moves, `never`, blocks in expressions, conversions and the global-variable forms are not modelled.

Theorems: `CgTree.cg_reads`, `CgMean.expr_emitted_partial`, `CgMean.return_emitted_partial`, `CgMean.stmt_emitted_partial`, `CgMean.condition_emitted_partial`, `CppGram.ReadsAs.unique`, `CgMean.neg_neg_bug`, `CgMean.prefix_field_bug`, `CgMean.narrow_condition_bug`, `CgMean.pointless_seq_bug`

### C93 The C++ written for the statements of a function does what they do

*Model and proof.* The emitter as a function from statement trees to tokens (Verif.CgStmt); the grammar of C++ statements as a relation, with the dangling else, proved to read in one way (Verif.CppStmt, Verif.CppStmtRead); two semantics, one of the language where a jump carries the number of the block it leaves (Verif.StmtRun), one of C++ with break, continue, goto and labels (Verif.CppStmt). Simulation by induction on the statement (Verif.StmtSim, StmtSim2, StmtLoop): the invariant relates the blocks around to the labels written, and says that labels are numbered apart. Loops with `on enter` are rewritten first, which is proved to change nothing (Verif.StmtFlat).

*Status: partial.* Proved for all bodies but those the emitter gets wrong: a loop that is the whole body of another loop or branch and is left from a loop in it is written without curlies, so its label is behind the outer loop (`dangling_label_bug`); a `do … while` left from a loop in it puts the label where the `;` goes (`do_label_bug`); a `do` without a body and an empty branch before an `else` are not C++. Expressions are those of C92. `try`, `defer`, `pragma`, block values, statements in expressions and `never` are not modelled; hoisted declarations are assignments.

Theorems: `StmtMeans.body_emitted_partial`, `CppStmt.One.unique`, `StmtSim.exec_flat`, `StmtMeans.dangling_label_bug`, `StmtMeans.do_label_bug`, `StmtMeans.do_empty_bug`, `StmtMeans.if_empty_bug`

### C94 Which loop, block or function a jump leaves

*Model and proof.* The stack is built by the pushes of solveBlock, solveLoop and solveFnDef for a list of places, with what a function hides as an arbitrary list; the lookups are the code's loops over reveach. An induction on the places gives the visible part of the stack, a second one each lookup; the specification goes from the inside out and knows no stack.

*Status: partial.* `return` and `break` proved for all places; `continue` for those without a loop that has an `on enter` block: there the code leaves the `on enter` block and with it the loop (continue_enter_bug, for all surroundings). The label of the body of a loop is not found (body_label_bug). `continue` in the condition of a loop is not covered. What a function hides is any list; that this list is what is on the stack between declaration and use is read off src/solver.fu 7380-7397.

Theorems: `JumpScope.return_leaves`, `JumpScope.return_to_leaves`, `JumpScope.last_leaves`, `JumpScope.break_leaves`, `JumpScope.break_to_leaves`, `JumpScope.continue_leaves_partial`, `JumpScope.continue_to_leaves_partial`, `JumpScope.nothing_to_leave`, `JumpScope.continue_enter_bug`, `JumpScope.body_label_bug`

### C95 The command line means what it says

*Model and proof.* cli_handle as a loop over an index into argv with fuel; the specification is a list of options, a relation of how they are written, and a record of what they ask for that does not depend on order. Induction on the way of writing gives what is read, induction on the fuel that nothing else is, and a measure of the letters left that it ends.

*Status: partial.* Proved for all command lines that do not have `-o`: the code forgets to give it a directory and it changes nothing (obj_letter_bug). Two more witnesses: `--release`, listed by --help, is unknown; behind an empty word anything is accepted. Not modelled: the texts printed, what compile_and_build does with the result (which ignores dir_obj altogether), path::join (a parameter here; modelled for C22).

Theorems: `Cli.means_partial`, `Cli.inconsistent_refused`, `Cli.nothing_else`, `Cli.order_free`, `Cli.ends`, `Cli.defaultBin_fu`, `Cli.obj_letter_bug`, `Cli.release_bug`, `Cli.empty_word_bug`

### C96 The cache of template instances does not change what a call gets

*Model and proof.* Names as byte strings, built as the code builds them (serializeType of C-model Canon, decimal ids of Decstr); the cache as a map, running specializations as a stack of frames, each event one piece of doTrySpecialize. Invariant over all histories: every name a frame owns is bound to what the frame is working on, and names determine template and types. On top of it a semantic invariant relating every binding to what the solver would decide.

*Status: partial.* isolated and never_screws_up hold for every history. The others carry the suffix because the code makes the full property false: a call with literals is looked up under the literals' default types, so an earlier refusal decides it (literal_order_bug) and can stop the compiler (literal_crash_bug); a destroyed instance can stay under a name given out while it was being made (dangling_bug), so instances_stay is for calls made one by one; right_refusal is for nested calls that come from bodies being solved. The solver's own decisions are a parameter with laws (Solver.Laws). Not modelled: recursion through `into`, the reuse of one candidate's name for the next in tryMatchCall.

Theorems: `SpecCache.isolated`, `SpecCache.never_screws_up`, `SpecCache.mangle_injective`, `SpecCache.key_injective`, `SpecCache.site_mangle`, `SpecCache.names_have_no_comma`, `SpecCache.right_instance_partial`, `SpecCache.right_refusal_partial`, `SpecCache.instances_stay_partial`, `SpecCache.no_duplicates_partial`, `SpecCache.literal_order_bug`, `SpecCache.literal_crash_bug`, `SpecCache.dangling_bug`

### C97 An accepted function never uses a reference that a write invalidated

*Model and proof.* Model the walk bck_node with its events, the used-in-a-loop set and the loop starts that propagateType computes backwards; give the function language a big-step semantics with bad references, jumps and unbounded iteration that knows nothing of the checker; prove soundness by induction on the function, for loops with the invariant that what the second time round could find bad and unnoticed is not read in the loop (a second induction over the walk, about variables older than the loop).

*Status: partial.* Proved for functions in which no jump leaves a loop, nothing that may be skipped jumps out, no reference is bound in the head of a for, and references older than a loop have positions before its start; for each of the five restrictions a theorem gives a function the checker accepts although a run of it uses an invalidated reference, so the full property is false of the code. Missing: which writes invalidate which references (the reference graph, a parameter here), the arguments-at-risk pass, defer and try.

Theorems: `Bck.sound_partial`, `Bck.sound_jump_partial`, `Bck.never_bug`, `Bck.skipped_jump`, `Bck.break_out`, `Bck.argument_shift`, `Bck.argument_shift_only`, `Bck.return_in_loop`, `Bck.bound_in_head`, `Bck.next_iteration`, `Bck.inner_loop_wins`

### C98 A write invalidates the references that point into what it writes

*Model and proof.* Model Reference_trackLocalRef over a graph of parents and invalidations, and what bck_trackWrites takes from it; give every variable a place (root and steps) determined by what each reference was bound to; prove by induction over the bindings that overlapping references are connected.

*Status: proved.* Lifetimes are lists of variables and tree paths; that the code's byte strings with flat offsets behave so is C30, C31, C55. The set of written variables is assumed closed under bindings, as callarg_trackWrites makes it. Not modelled: the masks of used fields, by which the code drops further siblings (fields nobody uses). References to static storage are not tracked and not claimed about.

Theorems: `RefGraph.invalidates`, `RefGraph.exact`, `RefGraph.never_bug`

### C99 A bitmap font file reads back as its characters

*Model and proof.* Model parse byte by byte (scan, step) with 16 and 32 bit numbers; prove that it goes line by line; an invariant of the state gives safety; run one character's lines symbolically, then fold over the characters of a written file.

*Status: partial.* file_read is the whole claim for well-formed files. For arbitrary files safety holds when no 32768 lines follow one another without an ENDCHAR (safe_partial, kept_partial), and is false without that (row_overflow: the 16 bit row number wraps and a row is written in front of the pixels). Code points lead to glyphs when there are pixels and at most 65536 glyphs; a font of empty characters loses all its glyphs (empty_lost), and a rejected character's pixels can be shown for another (wrong_pixels). Sizes are natural numbers (the code has 32 bits); the head's metrics and make_mono_bounds are not modelled.

Theorems: `Bdf.file_read`, `Bdf.parse_lines`, `Bdf.safe_partial`, `Bdf.kept_partial`, `Bdf.row_overflow`, `Bdf.empty_lost`, `Bdf.wrong_pixels`

### C100 mkdir_p makes the directory and all it is in

*Model and proof.* Model visit with its buffer (NUL written and restored), mkdir(2) on a set of directories; visit_eq removes the buffer; strong induction on the position of the last slash.

*Status: partial.* The code makes the full property false: after the retry that succeeds, err still holds ENOENT. made_exactly says for every path and any number of missing levels what happens: the first two are made, no more, and the answer is 0 only when exactly one was missing. made_partial: the directory is there afterwards if at most two levels were missing. Witnesses third_not_made, made_but_error (the compiler, writing into two missing directories, fails although both were made), root_noent. Not modelled: links, . and .., other processes.

Theorems: `Mkdir.made_exactly`, `Mkdir.made_partial`, `Mkdir.only_its_own`, `Mkdir.visit_eq`, `Mkdir.third_not_made`, `Mkdir.made_but_error`, `Mkdir.root_noent`

### C101 A bitmap font written as source code comes back the same

*Model and proof.* Model emit and unpack loop by loop (bit packing, hexadecimal text, table, common box, copying, measuring). Specification: the ink of a point of a glyph, a reader of lists of numbers. Loop invariants for packing, unpacking, copying and measuring; then compose.

*Status: partial.* The code makes the full property false: the list written gives each code point the number of its place in the list, not of its glyph (out_of_order_partial: H is drawn as x; embed_ranks says for every table what is drawn), and the width and height written are the font's, the pixels the bitmap's (embed_box_wrong_partial: the code written aborts). embed_font_partial and embed_mono_partial: whole round trip when the glyphs are in the order of the code points and the boxes are of one size; the shape is moved to the left edge and by the measured baseline (proved zero when x and H stand on the line). Not modelled: the ascender and the other metrics that are not boxes; numbers of texels are naturals; compiling the emitted text is modelled as reading its two lists of numbers.

Theorems: `Embed.embed_font_partial`, `Embed.embed_mono_partial`, `Embed.embed_ranks`, `Embed.makeMono_keeps`, `Embed.bits_round`, `Embed.bytesToBits_bits`, `Embed.number_hex`, `Embed.readList_text`, `Embed.table_listed`, `Embed.measure_spec`, `Embed.out_of_order_partial`, `Embed.embed_box_wrong_partial`

### C102 Functions are replaced while the program runs

*Model and proof.* A machine of small steps: announcements, the statements of here(), signals, builds; what the system answers is in the event. Invariants over runs for validity and for the signal that waits; rename and path lemmas for the files.

*Status: partial.* Proved in full: validity of the slots, manual mode, no lost signal, the callback, failed reloads. The rest holds under conditions the code does not ensure: a function announced after the first reload is never replaced (late_never_partial: that a reload is under way is never taken back); a library that at first has none of the functions is opened by its old name again (stale_partial); while it is opened the library is not under its own name, and is lost when the program is killed then (away_partial); a file under the temporary name is lost (clobbers_partial). Not modelled: a signal outside manual mode in the middle of another statement (the code says itself that it must not do this), dlclose, printing, and a plugin that finds the handler set (it gets no library).

Theorems: `Hotswap.slots_valid`, `Hotswap.signal_not_lost`, `Hotswap.signal_waits`, `Hotswap.here_idle`, `Hotswap.here_reloads`, `Hotswap.signal_calls`, `Hotswap.failed_reload`, `Hotswap.newest`, `Hotswap.fold_found`, `Hotswap.files_kept`, `Hotswap.one_library`, `Hotswap.exePath_eq`, `Hotswap.exePath_fits`, `Hotswap.openPlain_fits`, `Hotswap.late_never_partial`, `Hotswap.stale_partial`, `Hotswap.away_partial`, `Hotswap.clobbers_partial`

### C103 Directories are walked and each file is found once

*Model and proof.* The caller's block is a tree of actions (done, recurse and go on, leave), the walk a recursion bounded by a number that all results are shown not to depend on; found files against an inductive relation over the system's listings.

*Status: partial.* Proved in full: closing, the entries given, the walk of watch.fu. Six things are not so in the code: an error while reading looks like the end (error_hidden_partial); a directory named like a source file is taken for one and not entered (fu_dir_partial); beyond the limit of open directories files are left out and nothing is said (too_many_partial); a caller who wants the name as a string gets all names so far in one (names_grow_partial); the empty path is the root (empty_root_partial); fs::executable gives the name followed by what the buffer held (executable_partial). Not modelled: changes of the directories meanwhile, . and .. and links in paths (what a path through them holds is the system's answer), what closedir answers (it is put, when there is NO error, into a variable returned already).

Theorems: `Readdir.each_once`, `Readdir.closed`, `Readdir.open_fails`, `Readdir.recurse_gives`, `Readdir.left_marked`, `Readdir.one_answer`, `Readdir.path_means`, `Readdir.slashed_means`, `Readdir.collect_finds`, `Readdir.collect_ends`, `Readdir.ends_only`, `Readdir.watched_finds`, `Readdir.executable_prefix`, `Readdir.executable_none`, `Readdir.error_hidden_partial`, `Readdir.fu_dir_partial`, `Readdir.too_many_partial`, `Readdir.names_grow_partial`, `Readdir.empty_root_partial`, `Readdir.executable_partial`

### C104 Signals blocked are let through again, and no others

*Model and proof.* Masks as functions of the signal, the program's own masks as 32 bits; the loops over bits by induction, nesting by induction on a tree.

*Status: partial.* Proved in full for the signals 1..31 and pairs one inside the other. Not so in the code: of two pairs that overlap but are not nested the first to end lets through what the second still asks for (out_of_order_partial); signals from 32 on, where the shift is undefined (modelled as the processor does it), stay blocked (high_partial); a signal descriptor numbered 0 is never closed (fd_zero_partial); the error of letting through is overwritten by closing's (unblock_err_partial). Not modelled: kqueue, sigismember's failing for another reason than a bad number.

Theorems: `Signal.blocks`, `Signal.requested_bits`, `Signal.actually_bits`, `Signal.block_err`, `Signal.refused`, `Signal.unblock_mask`, `Signal.undone`, `Signal.undone_fds`, `Signal.nested`, `Signal.unblock_answer`, `Signal.out_of_order_partial`, `Signal.high_partial`, `Signal.fd_zero_partial`, `Signal.unblock_err_partial`

### C105 Parallel each, zip and map give what the sequential ones give

*Model and proof.* A transition system: batches over the ranges of C36's model, each with its index and its block's variables, steps in any interleaving; an invariant saying for each index that it is done, at a point of its own visit, or untouched.

*Status: proved.* The block touches, of what others see, only what is at its own index: that is what the compiler checks of it (purectx, noflow) and is taken as given here. That each batch runs once and before the call returns is C36 and C37; their model of threads and this one, of steps inside the batches, are joined by the ranges only. That it ends needs the blocks to end and is not stated here (goes_on: it never gets stuck).

Theorems: `Par.map_result`, `Par.each_result`, `Par.zip_result`, `Par.over_cells`, `Par.one_result`, `Par.no_race`, `Par.goes_on`

### C106 An int literal has the type wanted if it suits, else the smallest default that holds it

*Model and proof.* The parse of C29 with the choice of the type on top; the literal is given by its sign, base and digits and its value is mathematical, so the theorems speak of the number, not of the parser's sizes.

*Status: partial.* Partial because the code makes it false: f64 is given to every literal it is wanted of, also to 2^53 + 1 that it cannot hold; unsuffixed decimals from 2^63 on are refused though u64 holds them; a real literal never takes a user's primitive made of f32, an int literal does. The option DontFoldLiterals is taken to be off; which type is wanted is the caller's.

Theorems: `IntType.C106_wanted`, `IntType.C106_default`, `IntType.C106_refused`, `IntType.C106_holds_partial`, `IntType.C106_truth`, `IntType.C106_user`, `IntType.C106_f64_lossy_partial`, `IntType.C106_decimal_refused_partial`, `IntType.C106_real_partial`

### C107 Fields are where they are said to be, and different fields never overlap

*Model and proof.* Declarations solved in order with 32-bit counts and the packed number; a relation counting parts and one placing chains of fields as specification, joined with the lifetimes of C30, C31 and C55.

*Status: partial.* Partial because the code makes it false from 2^15 parts on: offset and count are packed in 16 bits each, so that 17 structs of two fields each give a field that reads back as having nothing in it (its references are held to be static) and one that reads back as the first part; with 16 the compiler stops. And members of a union are laid out like those of a struct, so that their lifetimes never overlap though they share storage. The self test's own checks on expected counts elsewhere, usage masks (C32) and the other parts of a shape are not modelled.

Theorems: `Field.C107_counted`, `Field.C107_reads_back_partial`, `Field.C107_place_partial`, `Field.C107_overlap_partial`, `Field.C107_printed_partial`, `Field.C107_wrong_place_partial`, `Field.C107_stops_partial`, `Field.C107_union_partial`

### C108 The snippet in an error message shows the source as it is, with the tokens marked

*Model and proof.* formatCodeSnippet with its loops and bounds as they are; segments of a line between codes, and a relation between a text with codes and what is seen, as specification.

*Status: partial.* Partial because of what the code does: strip drops the last byte of a text unless it is in a code (proved: exactly that byte); of two overlapping tokens the one that begins first is left out even if it is the longer one; two tokens past the end of their line have the codes of the one put inside those of the other (witness). Lines, columns and lengths are integers, not 32-bit ones; the grouping of the tokens by file and the line with their places (formatTokenCoord) are not modelled.

Theorems: `Snippet.C108_sorted`, `Snippet.C108_never_fails`, `Snippet.C108_rows_partial`, `Snippet.C108_strip_partial`, `Snippet.C108_past_end_partial`

### C109 exec returns all a command writes, after what the string held

*Model and proof.* The loop with the string as content and spare memory and an oracle for the system; prefix and whole-stream theorems by induction on what is left.

*Status: partial.* Partial because the code makes it false in two cases, both proved: a read that fails is taken for the end, so that the rest of the output is lost with no error (ferror is never asked); and a command with a byte 0 in it is cut off there and what comes before is run. The size is a natural number, not an int. That the system's count is never more than what was asked for is assumed.

Theorems: `Exec.C109_all`, `Exec.C109_safe`, `Exec.C109_read_error_partial`, `Exec.C109_cut_partial`

### C110 A literal is given the type wanted wherever in an expression its value comes from

*Model and proof.* The two walks over a tree of expressions with solveInt and solveReal as in C106; a relation between the expression before and after as specification.

*Status: partial.* Partial because of what the code does (all proved): two number literals of different types are never given a common type, even if one suits the other's, but are called ambiguous, since for the other the default is found; an int that is out of the type tried and of the default one ends the build with an error where another function of the same name would take it; and the type found may be another than the one wanted (the default of the ints), so that its users must ask again if it is assignable (they do). Of a type only its name is modelled, without labels, qualifiers, facts and lifetimes; that a word of an enum never has the type of [] is assumed. couldRetype, and the user's conversions that are tried after this, are not modelled.

Theorems: `Retype.C110_retyped`, `Retype.C110_wanted`, `Retype.C110_refused`, `Retype.C110_common`, `Retype.C110_beside`, `Retype.C110_ambiguous_partial`, `Retype.C110_error_partial`, `Retype.C110_other_partial`


## Findings

Where a property is false of the code, the full statement is kept in `properties.jsonl`, the true part is proved under the
suffix `_partial`, and the failure is itself a theorem.  The most important:

* `a[i](x)` and `a++(x)` lose what is called: only the arguments remain (`Parse.callee_dropped`, src/parser.fu:2444-2485).
* `:c ? a : b` and `:a && b` take the first name, contrary to the comment (`Parse.autoname_if`, `autoname_and`, src/parser.fu:2412-2421).
* A growing hash map can strand entries so that they are no longer found (`HashBug`, lib/hash.fu:275-276).
* The relaxed uniqueness test of shared buffers races with former owners' reads (`Arc.unique_relaxed_race`).
* Tags of the task stack wrap after 2^19 changes: ABA (`Treiber` C34).
* Header packing fails for item sizes 5, 7, 13, 14, 15 (C05); `pop` on an empty vector and inserting out of range corrupt in release mode (C04); splicing from oneself is wrong in some cases (C08); a range's `append` with `del > 0` (C09).
* Reading a file in several short reads corrupts it; a write of 0 bytes reports success (C45).
* HTTP requests must arrive in one read (C40); bodies of 10^9 bytes and more break the length field (C39).
* `==` of legacy vectors compares addresses first, and only a part of wide items (C07); `rmatch` reads past the end (C68).
* `Lifetime_inter` loses places and invents others (C54); `hasStatic` has false positives (C56).
* Paths: `..` cancels a preceding `..` or the root (C22).  UTF-8 decoding reads one byte past a truncated sequence (C21).
* `BitSet.add_range` loses members, `has_missing` runs out of bounds (C16).
* `type_trySuper(zeroes, never)` does not end (C61); assignability is not transitive (C33); packed targets collide beyond capacity (C57).
* Watch mode: a module that is no longer imported and then changes makes every rebuild fail (`Compile.watch_orphan_fails`); a new file that redirects an import goes unnoticed (`Compile.watch_redirect_stale`, C78).
* Import lookups are cached by directory and name joined: a file in a directory called `n` cannot import a module `n/n.fu` from above or from the library (`Resolve.resolve_hidden_by_miss`), and answers depend on earlier imports (`resolve_order_dependent`, C79).
* The object cache ignores `--cflags` and `-I` (`Build.cflags_ignored`), the files the runtime includes (`runtime_stale`), and part of circularly included headers (`circular_includes_stale`, C81).
* Autocall lookups spoil later lookups (C63); the union of two scopes hides too much (C66).
* The C++ names of `do` and `dO` collide (C41).  `remove(predicate)` on trivial types always asserts (src/prelude.fu:545).  `leftpad` with an empty pad does not end (C48).

## Testing the theorems

`seeded/LOG.jsonl` records, for each edit of a model that a realistic bug would make, the theorems that then fail.  An edit
that falsified a claim while everything still proved led to a stronger theorem (field `tightened`).

## Axioms

* no axioms (2 theorems): `Ev.told_facts`, `Spawn.closing_one_stream_loses_the_other`
* `propext` (25 theorems): `Cmp.eq_shared`, `Hash.C17_lost_key`, `Hash.C18_oob`, `Fd.fd_write`, `Rand.scramble_injective`, `Resolve.session_unique`, `CallArgs.declaration_keeps_parameters`, `Fold.never_and_bug`, `CppGram.ReadsAs.unique`, `CppStmt.One.unique`, `Bck.skipped_jump`, `Bck.break_out`, `Bck.argument_shift`, `Bck.argument_shift_only`, `Bck.return_in_loop`, `Bck.bound_in_head`, `Bck.next_iteration`, `Bck.inner_loop_wins`, `Hotswap.here_idle`, `Hotswap.here_reloads`, `Hotswap.signal_calls`, `Readdir.path_means`, `Readdir.slashed_means`, `Snippet.C108_strip_partial`, `Exec.C109_cut_partial`
* `propext`, `Quot.sound` (128 theorems): `Vec.insert_out_of_range`, `Vec.insert_past_end_loses_item`, `Vec.pop_empty`, `Pack.inlineFits_iff`, `Pack.small_roundtrip_fails_for_5_byte_items`, `Cmp.eq_complete`, `Cmp.eq_iff_partial`, `Cmp.eq_wide`, `Cmp.eq_wide_wrong`, `Vec.splice_copy_wrong`, `Vec.append_copy_wrong`, `Range.append_eats_right_neighbour`, `Range.append_deletes_nothing`, `Prelude.starts_ends_iff`, `Prelude.cut_unique`, `BitSet.C16_addRange_loses_members`, `BitSet.C16_hasMissing_faults`, `Hash.C17_duplicate_key`, `Hash.C18_limit_exceeded`, `Flat.C19_canonical`, `Flat.C19_has`, `Flat.C19_map_get`, `Flat.C19_count`, `Unicode.C20_encode_out_of_range`, `Unicode.C21_truncated_reads_past_end`, `Unicode.C21_error_swallows_next`, `Unicode.C21_overlong_accepted`, `Path.C22_filename`, `Path.C22_dirname_filename`, `Rand.shuffle_permutes`, `Rand.shuffle_is_shuffleBy`, `Rand.shuffle_reaches_all`, `Tea.mixing_bijective`, `Tea.absorb_injective`, `Lifetime.C31_from`, `Treiber.tagof_tag`, `Treiber.word_succ`, `Treiber.aba_duplicates`, `Treiber.aba_task_stack`, `Parfor.batches_bounds`, `Parfor.single_batch`, `Parfor.perBatchOf_pos`, `Pool.double_free`, `Ascii.upper_spec`, `Ascii.lower_spec`, `Ascii.case_laws`, `Prelude.all_some_spec`, `Prelude.resize_spec`, `Prelude.minmax_spec`, `Prelude.steal_spec`, `Fd.file_write_prefix`, `Fd.file_write_partial`, `Fd.file_read_whole_partial`, `Fd.short_read_always_corrupts`, `Fd.growth_noticed`, `Fd.read_exhaustive_exact`, `Helpers.parse10u32_inverts`, `Helpers.parse10s32_inverts`, `Helpers.trim_drops_utf8`, `Helpers.leftpad_spec`, `Helpers.leftpad_empty_pad_diverges`, `Rand.next_u64_order`, `Tea.hashBytes_eq`, `Tea.hash_separates_one_block`, `Tea.hash_injective_short`, `Tea.u64_injective`, `Tea.digests_injective`, `Lifetime.C54_lost_place`, `Lifetime.C54_extra_place`, `Lifetime.C56_hasTemporary`, `Lifetime.C56_hasStatic_false_positive`, `Target.targets_collide`, `Scope.search_pub_complete`, `Scope.union_hides`, `Cmp.lfind_first`, `Cmp.lmatch_iff`, `Cgen.char_literal`, `Cgen.literal_ascii`, `Cgen.operator_symbol`, `Cgen.not_closure`, `Compile.means_unique`, `Compile.watch_orphan_fails`, `Compile.watch_redirect_stale`, `Build.piece_iff`, `Build.found_unique`, `CallArgs.declaration_never_breaks_parser`, `Ev.listen_without_descriptors`, `Ev.half_close_run`, `Ev.refused_without_error`, `Spawn.closed_stdin_leaks`, `Spawn.rounds_bounded`, `Kids.calm_example`, `Kids.stale_event_asserts`, `Kids.stale_event_kills_group`, `Kids.stale_event_wrong_child`, `Kids.error_then_exit`, `Kids.output_lost`, `Fold.conditionals_solved_partial`, `Fold.conditionals_inlined_partial`, `Mkdir.only_its_own`, `Mkdir.visit_eq`, `Hotswap.slots_valid`, `Hotswap.signal_not_lost`, `Hotswap.signal_waits`, `Hotswap.failed_reload`, `Hotswap.newest`, `Hotswap.fold_found`, `Hotswap.files_kept`, `Hotswap.one_library`, `Hotswap.exePath_eq`, `Hotswap.exePath_fits`, `Hotswap.openPlain_fits`, `Hotswap.late_never_partial`, `Hotswap.away_partial`, `Hotswap.clobbers_partial`, `Readdir.executable_prefix`, `Readdir.executable_none`, `Readdir.executable_partial`, `Signal.requested_bits`, `Signal.refused`, `Signal.unblock_mask`, `Signal.undone_fds`, `Signal.unblock_answer`, `Signal.out_of_order_partial`, `Signal.high_partial`, `Signal.fd_zero_partial`, `Signal.unblock_err_partial`, `Exec.C109_read_error_partial`
* `propext`, `Classical.choice`, `Quot.sound` (522 theorems): `Vec.vectors_are_values`, `Vec.bounds_checks_fire`, `Vec.vectors_are_memory_safe`, `Vec.vectors_do_not_leak`, `Vec.blocks_belong_to_variables`, `Vec.removals_clamp`, `Vec.insertions_partial`, `Pack.small_roundtrip_partial`, `Pack.big_roundtrip`, `Pack.reset_empty`, `Alloc.roundUp_spec`, `Alloc.alloc_spec`, `Alloc.vecCapa_spec`, `Alloc.uniq_counters_balance`, `Cmp.order`, `Vec.aliasing_sources_partial`, `Range.ranges_are_windows_partial`, `Range.range_bounds_checks_fire`, `Range.range_of_range_is_slice_of_slice`, `Range.edits_stay_in_the_window_partial`, `Prelude.find_first`, `Prelude.find_window`, `Prelude.has_iff`, `Prelude.split_cuts`, `Prelude.split_pieces_free`, `Prelude.join_glues`, `Prelude.join_split`, `Prelude.join_split_item`, `Prelude.split_empty_sep`, `Prelude.replace_eq`, `Prelude.cmpArr_total`, `Prelude.cmpArr_eq`, `Prelude.cmpStruct_total`, `Prelude.cmpPrim_total`, `Decstr.u64dec_denotes`, `Decstr.i64dec_denotes`, `Decstr.denotes_unique`, `Decstr.i64dec_injective`, `BitSet.C15_history`, `BitSet.C15_canonical`, `BitSet.C15_add`, `BitSet.C15_remove`, `BitSet.C15_has`, `BitSet.C15_clearFrom`, `BitSet.C15_negative_faults`, `BitSet.C15_empty_iff`, `BitSet.C16_union`, `BitSet.C16_difference`, `BitSet.C16_addRange_partial`, `BitSet.C16_addRange_empty`, `BitSet.C16_negated`, `BitSet.C16_hasInter`, `BitSet.C16_hasMissing_partial`, `BitSet.C16_hasMissing_self`, `BitSet.C16_each_popcount`, `Hash.C17_map_partial`, `Hash.C18_total_partial`, `Flat.C19_set_history`, `Flat.C19_add`, `Flat.C19_remove`, `Flat.C19_hasInter`, `Flat.C19_missesSome`, `Flat.C19_inter`, `Flat.C19_union`, `Flat.C19_diff`, `Flat.C19_addAll`, `Flat.C19_keep`, `Flat.C19_removeAll`, `Flat.C19_map_set`, `Flat.C19_map_if`, `Flat.C19_map_remove`, `Flat.C19_map_ref`, `Flat.C19_map_each`, `Flat.C19_map_history`, `Flat.C19_incr`, `Flat.C19_tryDecr`, `Flat.C19_total`, `Flat.C19_counted_history`, `Unicode.C20_encode_rfc`, `Unicode.C20_encode_lean`, `Unicode.C20_roundtrip`, `Unicode.C20_decode_strings`, `Unicode.C21_in_bounds_partial`, `Path.C22_normal_form`, `Path.C22_idempotent`, `Path.C22_meaning_relative_partial`, `Path.C22_meaning_absolute_partial`, `Path.C22_ext`, `Path.C22_join_relative`, `Path.C22_parents_cancel`, `Path.C22_root_lost`, `Path.C22_join_empty`, `Levenshtein.levenshtein_is_edit_distance`, `Levenshtein.levenshtein_zero_iff`, `Helpers.varint_roundtrip`, `Helpers.varint_alphabet`, `Helpers.parseVarint_overlong_ub`, `Rand.step64_bijective`, `Rand.step32_bijective`, `Rand.step64_full_period`, `Rand.step32_full_period`, `Lexer.C27_total`, `Lexer.C27_exact`, `Lexer.C27_complete`, `Lexer.C27_positions`, `Lexer.C27_self_test`, `Lexer.C27_int_tokens`, `Lexer.C27_non_ascii_is_blank`, `Lexer.C27_open_comment_accepted`, `Lexer.C27_binary_underscore`, `Lexer.C28_longest`, `Lexer.C28_runs`, `Intlit.C29_exact_or_rejected`, `Intlit.C29_min_sizes`, `Intlit.C29_min_float`, `Intlit.C29_float64_inexact`, `Lifetime.C30_paths_roundtrip`, `Lifetime.C30_roundtrip`, `Lifetime.C30_injective`, `Lifetime.C30_union`, `Lifetime.C30_idempotent`, `Lifetime.C30_empty`, `Lifetime.C30_commutative`, `Lifetime.C30_associative`, `Lifetime.C31_hasInter`, `Lifetime.C31_interLocids`, `Lifetime.C31_has`, `Lifetime.C31_locid`, `Usage.shift_inverse`, `Usage.field_flag_position`, `Usage.field_roundtrip`, `Usage.regions_disjoint`, `Canon.assignable_eq_spec`, `Canon.assignable_refl`, `Canon.plain_host`, `Canon.labelled_host_refuses_plain`, `Canon.arrays_with_arrays`, `Canon.more_labels_accepted`, `Canon.guest_has_every_template`, `Canon.accepted_fits_partial`, `Canon.one_matching_argument_is_enough`, `Canon.bases_confused`, `Canon.acceptance_not_transitive`, `Canon.mixed_depth_refused`, `Canon.super_accepts_both`, `Canon.super_found`, `Canon.intersection_wrong`, `Canon.labels_enumerated`, `Canon.arguments_enumerated`, `Canon.pattern_reads_back`, `Canon.trim_removes_label`, `Canon.trim_breaks_arrays`, `Canon.array_name`, `Canon.label_name`, `Treiber.linearizable_partial`, `Treiber.linearizable_unbounded`, `Treiber.no_duplicates_partial`, `Treiber.no_loss_partial`, `Treiber.failed_cas_progress`, `Treiber.untag_tag`, `Treiber.word_eq_iff`, `Arc.freed_once`, `Arc.freed_last`, `Arc.unique_sole`, `Arc.unique_test`, `Arc.drop_frees_iff`, `Arc.drop_assert`, `Arc.can_free`, `Parfor.ranges_chain`, `Parfor.index_once`, `Parfor.batch_size`, `Parfor.returned_all_ran`, `Parfor.ran_at_most_once`, `Parfor.no_use_after_return`, `Parfor.no_deadlock`, `Parfor.always_finishes`, `Parfor.endless_only_spurious`, `Parfor.spurious_work`, `Parfor.every_index_once`, `Pool.live_kept`, `Pool.alloc_disjoint`, `Pool.never_fails`, `Pool.peak_bound`, `Pool.last_freed_first`, `Http.respond_spec`, `Http.response_read`, `Http.responses_read`, `Http.huge_body`, `Http.accepted_iff_partial`, `Http.first_read_decided`, `Http.fragments_rejected`, `Http.one_by_one_partial`, `Http.pipelining_breaks`, `Http.leftover_faults`, `Cpp.ID_not_keyword`, `Cpp.ID_distinct_partial`, `Cpp.ID_collides`, `Cpp.ID_collision_iff`, `Testdiff.serialize_firsts`, `Testdiff.serialize_total`, `Testdiff.less_strict`, `Prelude.reverse_eq`, `Prelude.partition_spec`, `Prelude.remove_spec`, `Prelude.map_spec`, `Prelude.clamp_spec`, `Fd.write_nothing`, `Fd.file_read_frame`, `Fd.short_read_corrupts`, `Fd.read_exhaustive_all`, `Helpers.trim_spec`, `Ascii.trim_spec`, `Rand.next_u64_never_repeats`, `Rand.seed_nonzero`, `Tea.digest62_shape`, `Arc.free_after_all_accesses`, `Arc.unique_ordered_partial`, `Arc.unique_relaxed_race`, `Parfor.defaultWorkers_bounds`, `Parfor.envWorkers_spec`, `Lifetime.C54_inter_sound_partial`, `Lifetime.C54_inter_partial`, `Lifetime.C55_field`, `Lifetime.C55_field_within`, `Lifetime.C55_fields_disjoint`, `Lifetime.C55_field_field`, `Lifetime.C55_deref`, `Lifetime.C55_deref_within`, `Lifetime.C55_join`, `Lifetime.C55_join_within`, `Lifetime.C55_join_field`, `Lifetime.C56_hasStatic_complete`, `Lifetime.C56_hasStatic_partial`, `Target.target_reads_back`, `Target.targets_distinct`, `Target.target_isArg`, `Target.target_string_roundtrip`, `Target.global_string_roundtrip`, `Target.addr_of_fn_roundtrip`, `Target.scope_item_fields`, `Target.skip_mark_harmless`, `Target.locals_keep_their_ids`, `Target.forward_order`, `Target.reverse_order`, `Target.each_argument_once`, `Target.mutrefs_last`, `Canon.user_type_reads_back`, `Canon.user_types_distinct`, `Types.assignable_refl`, `Types.mutable_needs_mutable`, `Types.reference_needs_reference`, `Types.nothing_fits_never`, `Types.zeroes_fit`, `Types.super_accepts_both`, `Types.super_of_zeroes_partial`, `Types.super_diverges`, `Types.intersection_usable_partial`, `Types.resize_test_wrong`, `Types.relax_removes`, `Types.relax_harmless`, `Types.relaxed_accepts`, `Types.retval_relaxable`, `Scope.lookups_complete_partial`, `Scope.lookup_all_partial`, `Scope.never_fails`, `Scope.autocall_misses`, `Scope.empty_skip_diverges`, `Scope.each_visits`, `Scope.count_counts`, `Scope.reveach_reverses`, `Scope.skips_well_formed`, `Scope.exports_own`, `Scope.imports_exports`, `Scope.union_between_partial`, `Scope.union_exact_partial`, `Http.output_exact`, `Http.write_ok`, `Cmp.lfind_window`, `Cmp.lfind_from`, `Cmp.rmatch_partial`, `Cmp.rmatch_past_end`, `Cmp.rmatch_short`, `Parse.parse_complete_partial`, `Parse.parse_sound_partial`, `Parse.unambiguous`, `Parse.operand_ends`, `Parse.callee_dropped`, `Parse.autoname_partial`, `Parse.autoname_same`, `Parse.autoname_if`, `Parse.autoname_and`, `Parse.terminates`, `Cgen.string_literal`, `Cgen.identifier_valid`, `Cgen.identifier_distinct_partial`, `Cgen.identifier_collides`, `Cgen.names_resolve`, `Cgen.closure_roundtrip`, `Compile.compile_ok_iff`, `Compile.compile_sound`, `Compile.compile_parallel`, `Compile.compile_terminates`, `Compile.compile_error`, `Compile.compile_circle`, `Compile.watch_sound`, `Compile.watch_ok_iff`, `Compile.watch_keeps`, `Compile.prune_spec`, `Resolve.resolve_correct_partial`, `Resolve.resolve_plain_partial`, `Resolve.resolve_one`, `Resolve.resolve_hidden_by_miss`, `Resolve.resolve_elsewhere_found`, `Resolve.resolve_order_dependent`, `Resolve.getFile_session`, `Resolve.getFile_snapshot`, `Resolve.getFile_vt`, `Build.build_correct`, `Build.builds_fresh_partial`, `Build.cflags_ignored`, `Build.runtime_stale`, `Build.circular_includes_stale`, `Build.circular_includes_alone`, `Build.scan_spec`, `Vec.operators_are_values`, `Vec.operators_check_bounds`, `Vec.operators_are_memory_safe`, `Vec.operators_do_not_leak`, `Vec.concat_keeps_operands`, `Vec.concat_consumes_one`, `Vec.slice_in_range`, `CallArgs.call_binds_as_specified`, `CallArgs.named_argument_goes_to_its_parameter`, `CallArgs.named_argument_only_to_its_parameter`, `CallArgs.positional_arguments_keep_order`, `CallArgs.no_argument_twice`, `CallArgs.no_argument_lost`, `CallArgs.every_argument_bound`, `CallArgs.required_parameter_supplied`, `CallArgs.accepted_arguments_fit`, `CallArgs.call_accepted_iff`, `CallArgs.call_never_breaks_compiler`, `CallArgs.order_of_named_arguments_irrelevant`, `CallArgs.rest_parameter_collects`, `CallArgs.declare_wellFormed`, `CallArgs.declare_requiredFirst`, `CallArgs.typeSig_wellFormed`, `CallArgs.positional_argument_dropped`, `CallArgs.repeated_argument_dropped`, `CallArgs.optional_argument_breaks_compiler`, `CallArgs.default_before_required_breaks_compiler`, `CallArgs.implicit_bang_misplaces_parameters`, `CallArgs.parameter_after_rest_breaks_compiler`, `CallArgs.defaulted_rest_breaks_compiler`, `Ev.callbacks_in_order`, `Ev.open_descriptors`, `Ev.pack_unpack`, `Ev.withState_parts`, `Ev.nothing_left_open`, `Ev.no_fault_partial`, `Ev.finish_ok`, `Ev.handles_connection`, `Ev.no_connection_forgotten`, `Ev.remembers_facts`, `Ev.armed_iff`, `Ev.closes_iff`, `Ev.stays_open_partial`, `Ev.close_discards`, `Ev.half_close_truncates`, `Ev.handles_accept`, `Ev.listens`, `Spawn.spawn_descriptors`, `Spawn.close_child`, `Spawn.child_table`, `Spawn.child_streams_partial`, `Spawn.parent_stdin_lost`, `Spawn.ignored_streams_closed`, `Spawn.captured_is_prefix`, `Spawn.captures_all_partial`, `Kids.calm_trace_partial`, `Kids.calm_no_fault_partial`, `Kids.calm_stop_partial`, `Kids.calm_no_leak_partial`, `Kids.first_event_partial`, `Fold.conditionals_checked_partial`, `Fold.conditionals_kept_partial`, `CgTree.cg_reads`, `CgMean.expr_emitted_partial`, `CgMean.return_emitted_partial`, `CgMean.stmt_emitted_partial`, `CgMean.condition_emitted_partial`, `CgMean.neg_neg_bug`, `CgMean.prefix_field_bug`, `CgMean.narrow_condition_bug`, `CgMean.pointless_seq_bug`, `StmtMeans.body_emitted_partial`, `StmtSim.exec_flat`, `StmtMeans.dangling_label_bug`, `StmtMeans.do_label_bug`, `StmtMeans.do_empty_bug`, `StmtMeans.if_empty_bug`, `JumpScope.return_leaves`, `JumpScope.return_to_leaves`, `JumpScope.last_leaves`, `JumpScope.break_leaves`, `JumpScope.break_to_leaves`, `JumpScope.continue_leaves_partial`, `JumpScope.continue_to_leaves_partial`, `JumpScope.nothing_to_leave`, `JumpScope.continue_enter_bug`, `JumpScope.body_label_bug`, `Cli.means_partial`, `Cli.inconsistent_refused`, `Cli.nothing_else`, `Cli.order_free`, `Cli.ends`, `Cli.defaultBin_fu`, `Cli.obj_letter_bug`, `Cli.release_bug`, `Cli.empty_word_bug`, `SpecCache.isolated`, `SpecCache.never_screws_up`, `SpecCache.mangle_injective`, `SpecCache.key_injective`, `SpecCache.site_mangle`, `SpecCache.names_have_no_comma`, `SpecCache.right_instance_partial`, `SpecCache.right_refusal_partial`, `SpecCache.instances_stay_partial`, `SpecCache.no_duplicates_partial`, `SpecCache.literal_order_bug`, `SpecCache.literal_crash_bug`, `SpecCache.dangling_bug`, `Bck.sound_partial`, `Bck.sound_jump_partial`, `Bck.never_bug`, `RefGraph.invalidates`, `RefGraph.exact`, `RefGraph.never_bug`, `Bdf.file_read`, `Bdf.parse_lines`, `Bdf.safe_partial`, `Bdf.kept_partial`, `Bdf.row_overflow`, `Bdf.empty_lost`, `Bdf.wrong_pixels`, `Mkdir.made_exactly`, `Mkdir.made_partial`, `Mkdir.third_not_made`, `Mkdir.made_but_error`, `Mkdir.root_noent`, `Embed.embed_font_partial`, `Embed.embed_mono_partial`, `Embed.embed_ranks`, `Embed.makeMono_keeps`, `Embed.bits_round`, `Embed.bytesToBits_bits`, `Embed.number_hex`, `Embed.readList_text`, `Embed.table_listed`, `Embed.measure_spec`, `Embed.out_of_order_partial`, `Embed.embed_box_wrong_partial`, `Hotswap.stale_partial`, `Readdir.each_once`, `Readdir.closed`, `Readdir.open_fails`, `Readdir.recurse_gives`, `Readdir.left_marked`, `Readdir.one_answer`, `Readdir.collect_finds`, `Readdir.collect_ends`, `Readdir.ends_only`, `Readdir.watched_finds`, `Readdir.error_hidden_partial`, `Readdir.fu_dir_partial`, `Readdir.too_many_partial`, `Readdir.names_grow_partial`, `Readdir.empty_root_partial`, `Signal.blocks`, `Signal.actually_bits`, `Signal.block_err`, `Signal.undone`, `Signal.nested`, `Par.map_result`, `Par.each_result`, `Par.zip_result`, `Par.over_cells`, `Par.one_result`, `Par.no_race`, `Par.goes_on`, `IntType.C106_wanted`, `IntType.C106_default`, `IntType.C106_refused`, `IntType.C106_holds_partial`, `IntType.C106_truth`, `IntType.C106_user`, `IntType.C106_f64_lossy_partial`, `IntType.C106_decimal_refused_partial`, `IntType.C106_real_partial`, `Field.C107_counted`, `Field.C107_reads_back_partial`, `Field.C107_place_partial`, `Field.C107_overlap_partial`, `Field.C107_printed_partial`, `Field.C107_wrong_place_partial`, `Field.C107_stops_partial`, `Field.C107_union_partial`, `Snippet.C108_sorted`, `Snippet.C108_never_fails`, `Snippet.C108_rows_partial`, `Snippet.C108_past_end_partial`, `Exec.C109_all`, `Exec.C109_safe`, `Retype.C110_retyped`, `Retype.C110_wanted`, `Retype.C110_refused`, `Retype.C110_common`, `Retype.C110_beside`, `Retype.C110_ambiguous_partial`, `Retype.C110_error_partial`, `Retype.C110_other_partial`
