{"id": "C01", "title": "Copy-on-write vectors have value semantics", "statement": "Copying, assigning, moving and mutating vectors behaves as if every variable owned its own private list: after any program of vector operations each variable's observable contents (length and items) equals what the same program computes on independent immutable lists, so mutating one variable never changes what another one reads.", "quantifier": "every finite sequence of vector operations over any number of variables, every element size / triviality configuration, every content, every junk left in reserved memory", "why_tests_cant": "sharing bugs need a particular interleaving of copies, shrinks and writes across the small/big and shared/unique boundaries; the space of histories is infinite", "anchors": ["include/fu/vec.h: vec, _Splice, MarkShared, MarkUnique, copy/move constructors, operator=, mut_data", "src/prelude.fu: STEAL etc. rely on it"]}
{"id": "C02", "title": "Vector operations are memory safe", "statement": "No vector operation reads an uninitialised or destroyed slot, constructs over a live element of a non-trivial type, destroys an element twice, touches a freed block or frees a block twice, or accesses a block outside its capacity.", "quantifier": "every finite sequence of vector operations over any number of variables, every element configuration", "why_tests_cant": "undefined behaviour is usually silent in a test run and only some histories expose it", "anchors": ["include/fu/vec.h: _Splice, UNIQ__Dealloc, SHARED__Dealloc, DESTROY_range, COPY_ctor_range", "include/fu/mem/arc.h"]}
{"id": "C03", "title": "Vectors leak nothing", "statement": "When every vector variable has been destroyed no heap block is still allocated and every element ever constructed has been destroyed exactly once.", "quantifier": "every finite sequence of vector operations that ends with all variables destroyed", "why_tests_cant": "a leak needs a specific ownership history; tests only check the histories they run", "anchors": ["include/fu/vec.h: ~vec, Dealloc_DontReset", "include/fu/mem/arc.cpp: fu_DEBUG_CLI_count* counters"]}
{"id": "C04", "title": "Splice clamps its arguments and equals list splicing", "statement": "splice / insert / push / unshift / pop / shift / resize / grow / shrink with any index and any counts, negative or past the end included, never go out of bounds and produce exactly list-splice of the clamped arguments: prefix, inserted items, remaining suffix.", "quantifier": "every vector state, every 32-bit index and count argument", "why_tests_cant": "boundary arguments times representation states is unbounded", "anchors": ["include/fu/vec.h: _Splice, push, insert, unshift, resize, grow, shrink, pop, shift, splice"]}
{"id": "C05", "title": "The 16-byte vector header round-trips", "statement": "The packed header distinguishes small from big vectors and gives back exactly the stored size, capacity, data pointer and shared flag, and a small vector's inline bytes never disturb its size nibble.", "quantifier": "every legal size and capacity, every 32-bit capacity word, both packed and unpacked layouts", "why_tests_cant": "2^32 capacities x sizes; only corner bit patterns break it", "anchors": ["include/fu/vec.h: Pack, Unpack, IS_BIG_MASK, SMALL_SIZE_OFFSET, EnsureActualLooksBig, GetBigCapa, _GetSmallSize, SIGN_BIT"]}
{"id": "C06", "title": "Allocation rounding is sound", "statement": "A request of n bytes yields a block of at least n bytes whose size is a power of two and less than twice the request (or the minimum block), or the process exits; the size handed back on deallocation always rounds to the size that was allocated so leak counters balance at zero.", "quantifier": "every 32-bit byte count, every element size and capacity", "why_tests_cant": "arithmetic over the whole 32-bit domain, including overflow", "anchors": ["include/fu/mem/arc.cpp: next_pow2, RoundUp, ARC_ALLOC, UNIQ_alloc, UNIQ_dealloc", "include/fu/vec.h: fu_ALLOC use in _Splice"]}
{"id": "C07", "title": "Legacy vector comparison agrees with list comparison", "statement": "The legacy == and != on vectors hold exactly when the two lists of items are equal, and < > order them lexicographically.", "quantifier": "every pair of vectors including ones sharing storage", "why_tests_cant": "wrong answers only occur for vectors sharing a buffer with different sizes or with multi-byte items", "anchors": ["include/fu/vec/LEGACY_cmp.h: operator==, operator!=, operator<, operator>, strcmp"]}
{"id": "C08", "title": "Splicing from an aliasing source is the same as splicing from a copy of it", "statement": "append_copy and splice_copy whose source view points into the destination's own storage give the result they would give if the source had been copied out first.", "quantifier": "every vector, every sub-view of it, every splice position", "why_tests_cant": "aliasing cases multiply with every reallocation decision", "anchors": ["include/fu/vec.h: splice_copy, append_copy, self_splice"]}
{"id": "C09", "title": "Sub-range references compose and edit only their own part", "statement": "Taking a range of a range equals slicing the list twice with clamping; every mutation through a mutable range (assign, resize, push, pop, insert, append) rewrites only the designated segment of the underlying vector, keeps everything left and right of it, and leaves the range designating the updated segment.", "quantifier": "every vector, every nesting of ranges with arbitrary 32-bit bounds, every edit", "why_tests_cant": "offset arithmetic over nested windows; boundaries are unbounded", "anchors": ["include/fu/vec_range.h: vec_range, vec_range_mut, get_range, get_range_mut, append, append_copy", "include/fu/view.h: get_view"]}
{"id": "C10", "title": "Substring search returns the first occurrence", "statement": "find(haystack, needle, start, end) returns the least index in the window at which needle occurs, and -1 exactly when it does not occur; empty needles, needles longer than the window and all items are covered.", "quantifier": "every haystack, needle and window", "why_tests_cant": "skip-ahead search is wrong only on inputs with particular repeated-character structure", "anchors": ["src/prelude.fu: find, has, starts, ends"]}
{"id": "C11", "title": "join inverts split", "statement": "Joining the pieces of split(str, sep) with sep gives str back, no piece contains sep when sep is non-empty, and the number of pieces is one more than the number of leftmost non-overlapping occurrences.", "quantifier": "every string and separator", "why_tests_cant": "overlapping occurrences and edge positions form an infinite family", "anchors": ["src/prelude.fu: split, join"]}
{"id": "C12", "title": "replace equals split-then-join", "statement": "replace(str, all, with) equals joining split(str, all) with `with`; characters outside matched occurrences are kept in order.", "quantifier": "every string, pattern and replacement", "why_tests_cant": "same as split: overlap and boundary structure", "anchors": ["src/prelude.fu: replace"]}
{"id": "C13", "title": "Array three-way comparison is a total order consistent with equality", "statement": "The prelude comparison of arrays is reflexive, antisymmetric and transitive, returns equal exactly on equal lists, and orders by length first and then by first differing element.", "quantifier": "every pair and triple of arrays over any ordered element type", "why_tests_cant": "transitivity quantifies over triples of unbounded lists", "anchors": ["src/prelude.fu: <>, ==, !="]}
{"id": "C14", "title": "Integers print as their canonical decimal text", "statement": "Formatting any signed or unsigned 64-bit integer yields the unique decimal numeral without leading zeros, with '-' exactly for negatives, and reading it back gives the integer.", "quantifier": "every 64-bit integer", "why_tests_cant": "2^64 inputs, extreme values included", "anchors": ["include/fu/decstr.cpp: u64dec, i64dec", "lib/decstr.fu"]}
{"id": "C15", "title": "BitSet is a set of naturals", "statement": "After any sequence of add, remove and clear a BitSet reports has(i) exactly for the members of the corresponding mathematical set, add/remove report whether they changed it, and two equal sets have equal representation.", "quantifier": "every operation sequence and index", "why_tests_cant": "histories and trailing-byte trimming are unbounded", "anchors": ["lib/BitSet.fu: add, remove, has, clear"]}
{"id": "C16", "title": "BitSet algebra is set algebra", "statement": "add_range, union, difference, has_inter, has_missing, negated, popcount and each agree with the set operations on the members.", "quantifier": "every pair of BitSets of any lengths", "why_tests_cant": "length mismatches between operands and byte-boundary tails", "anchors": ["lib/BitSet.fu: add_range, add, remove, has_inter, has_missing, popcount, each, negated, |="]}
{"id": "C17", "title": "The hash map is a map", "statement": "Any sequence of set, ref, get and remove calls on a hash Map behaves like a finite map from keys to values: get returns the last value set for the key, missing otherwise, len is the number of keys, and each visits every pair exactly once.", "quantifier": "every operation history, every key type and every hash function, adversarial collisions included", "why_tests_cant": "rehash, chain relinking and swap-with-last interact over unbounded histories", "anchors": ["lib/hash.fu: ref, if_ref, get, set, remove, each, len"]}
{"id": "C18", "title": "Hash map probing stays bounded and in range", "statement": "Every index access during any hash map operation is in bounds, probe distances stay below the probe limit, and every operation terminates.", "quantifier": "every operation history and hash function", "why_tests_cant": "worst-case hash sequences are adversarial", "anchors": ["lib/hash.fu: probe, route, increase_capacity, compact, remove"]}
{"id": "C19", "title": "Sorted flat sets and maps behave like sets, maps and multisets", "statement": "Set, Map and CountedSet keep strictly sorted keys without duplicates and their operations (add, remove, has, get, update, union, inter, diff, has_inter, misses_some) agree with mathematical sets, maps and multisets.", "quantifier": "every operation history, every totally ordered key type", "why_tests_cant": "binary search and merge boundaries over unbounded sizes", "anchors": ["src/flat.fu: bfind, add, remove, update, keep, has_inter, inter, union, diff, misses_some"]}
{"id": "C20", "title": "UTF-8 encode then decode is the identity", "statement": "Decoding the encoding of any sequence of Unicode code points gives the same sequence.", "quantifier": "every list of code points in range", "why_tests_cant": "1.1 million code points and unbounded concatenations", "anchors": ["lib/unicode.fu: utf8, codepoints"]}
{"id": "C21", "title": "UTF-8 decoding never reads out of bounds", "statement": "Decoding any byte string either returns code points or fails cleanly; it never reads past the end.", "quantifier": "every byte string", "why_tests_cant": "truncated sequences at the very end are easily missed", "anchors": ["lib/unicode.fu: codepoints"]}
{"id": "C22", "title": "Path normalisation keeps meaning and is idempotent", "statement": "Normalising a path resolves '.' and '..' without changing which directory entry it designates, a normalised path contains no empty, '.' or resolvable '..' components, and normalising twice equals normalising once; relative and join invert each other on normalised paths.", "quantifier": "every path string", "why_tests_cant": "arbitrary mixes of separators, dots and parent hops", "anchors": ["lib/path.fu: normalize, relative, join, dirname, filename, ext, noext"]}
{"id": "C23", "title": "levenshtein computes the edit distance", "statement": "levenshtein(a,b) equals the least number of single-character insertions, deletions and substitutions that turn a into b.", "quantifier": "every pair of strings", "why_tests_cant": "minimality over all edit scripts cannot be sampled", "anchors": ["src/levenshtein.fu: levenshtein"]}
{"id": "C24", "title": "Variable-length integers round-trip", "statement": "Parsing what appendVarint wrote returns the value and leaves the cursor exactly after it, whatever follows.", "quantifier": "every encodable integer and every suffix", "why_tests_cant": "all values and concatenations", "anchors": ["src/helpers.fu: parseVarint, appendVarint", "src/lifetime.fu: parse7bit, append7bit"]}
{"id": "C25", "title": "shuffle permutes", "statement": "shuffle returns a permutation of its input with no out-of-range access, for every random stream, and every permutation is reachable.", "quantifier": "every array and every random number stream", "why_tests_cant": "n! outputs and 2^64 seeds", "anchors": ["lib/shuffle.fu", "lib/rand.fu"]}
{"id": "C26", "title": "Mixing rounds and random steps are bijective", "statement": "The random state update is a bijection on 64-bit states fixing zero only, so a non-zero seed never degenerates; each tea round is invertible.", "quantifier": "every 64-bit state and 32-bit key", "why_tests_cant": "2^64 states", "anchors": ["lib/rand.fu", "lib/tea.fu: r4, r8, r16"]}
{"id": "C27", "title": "The lexer always terminates with faithful token positions", "statement": "For every source text lexing terminates with tokens in source order, every identifier/number/operator token's text is the exact source slice at its recorded position, tokens never overlap, and only whitespace and comments lie between tokens.", "quantifier": "every source byte string", "why_tests_cant": "arbitrary byte strings", "anchors": ["src/lexer.fu: lex"]}
{"id": "C28", "title": "Operators lex by longest match", "statement": "An operator run is split greedily: each operator token is the longest known operator that prefixes the remaining run.", "quantifier": "every run of operator characters", "why_tests_cant": "all concatenations of operator characters", "anchors": ["src/lexer.fu: MBOPS, MBOPS_maxLen"]}
{"id": "C29", "title": "Integer literals parse exactly or are rejected", "statement": "A decimal, hex, octal or binary literal is accepted exactly when its mathematical value fits the 64-bit range, the parsed value is the mathematical value, and the reported minimal sizes are the smallest types that hold it.", "quantifier": "every digit string and base", "why_tests_cant": "overflow detection is only wrong for particular wrapped products", "anchors": ["src/intlit.fu: Intlit"]}
{"id": "C30", "title": "Lifetime encodings round-trip and union is set union", "statement": "Re-encoding a parsed lifetime gives the same lifetime, and Lifetime_union denotes the union of the regions of its operands, hence is commutative, associative and idempotent.", "quantifier": "every pair of well-formed lifetimes", "why_tests_cant": "unbounded region and path structure", "anchors": ["src/lifetime.fu: parsePaths, appendPaths, Paths_union, Lifetime_union"]}
{"id": "C31", "title": "Lifetime intersection tests are exact", "statement": "hasInter answers true exactly when the two lifetimes denote overlapping storage paths (one path a prefix of the other), so the borrow checker never misses an overlap.", "quantifier": "every pair of lifetimes", "why_tests_cant": "unbounded paths", "anchors": ["src/lifetime.fu: Paths_inter, Paths_hasInter, Lifetime_hasInter"]}
{"id": "C32", "title": "Usage bit shifts are inverse", "statement": "Moving usage flags into and out of a field nesting level loses nothing: shifting left then right over the same flat count restores the flags.", "quantifier": "every usage word and every flat offset/count", "why_tests_cant": "64-bit words x offsets", "anchors": ["src/usage.fu: USAGE_shiftLeft, USAGE_shiftRight"]}
{"id": "C33", "title": "Type assignability is a preorder on canonical types", "statement": "Canonical type assignability is reflexive and transitive and a specialised type is assignable only if every one of its arguments is.", "quantifier": "every pair and triple of canonical type strings", "why_tests_cant": "nested argument lists are unbounded", "anchors": ["src/canon.fu: isCanonAssignable"]}
{"id": "C34", "title": "The lock-free stack neither loses nor duplicates nodes", "statement": "Under every interleaving of concurrent push and pop calls, each node pushed is popped at most once, no node is lost, and the history is linearizable to a LIFO stack.", "quantifier": "every number of threads, every interleaving of atomic steps", "why_tests_cant": "schedules are unbounded and ABA races are practically untestable", "anchors": ["include/lockfree/stack.hpp: push, pop"]}
{"id": "C35", "title": "Reference counts free a buffer exactly once", "statement": "Under every interleaving of threads copying, dropping and testing uniqueness of shared buffers, the buffer is freed exactly once, by the last owner, never while another owner remains, and a successful uniqueness test implies sole ownership.", "quantifier": "every number of threads and every interleaving", "why_tests_cant": "schedules are unbounded", "anchors": ["include/fu/mem/arc.h", "include/fu/mem/arc.cpp: ARC_incr, ARC_decr, ARC_unique"]}
{"id": "C36", "title": "Parallel loops cover every index exactly once", "statement": "The batches produced for a parallel loop are disjoint, contiguous, in order, and together cover 0..size-1 exactly.", "quantifier": "every size, batch size and batch limit", "why_tests_cant": "integer division over all sizes", "anchors": ["include/par/parfor.cpp"]}
{"id": "C37", "title": "Parallel loops wait for all work and cannot hang", "statement": "parfor returns only after every batch has run exactly once, no matter which threads run them, and no schedule leaves the caller waiting for ever with no thread able to make progress.", "quantifier": "every worker count, batch count and interleaving", "why_tests_cant": "lost wake-ups depend on rare interleavings", "anchors": ["include/par/parfor.cpp", "include/lockfree/stack.hpp"]}
{"id": "C38", "title": "Pool slots are never handed out twice", "statement": "Pool alloc never returns a slot that is still allocated, freed slots are reused before growing, and live slots keep their contents.", "quantifier": "every alloc/free history", "why_tests_cant": "unbounded histories", "anchors": ["lib/ev/Pool.fu"]}
{"id": "C39", "title": "HTTP responses declare their exact body length", "statement": "The Content-Length written into a response equals the byte length of the body for every body of at most 999999999 bytes and the header block stays well formed.", "quantifier": "every body length in range", "why_tests_cant": "a billion lengths", "anchors": ["lib/ev/HTTP.fu: respond"]}
{"id": "C40", "title": "HTTP request parsing does not depend on how bytes are fragmented", "statement": "Feeding a request to the parser in any split of reads yields the same request as feeding it at once.", "quantifier": "every request and every fragmentation", "why_tests_cant": "exponentially many fragmentations", "anchors": ["lib/ev/HTTP.fu: tryParseRequest"]}
{"id": "C41", "title": "Generated C++ identifiers never collide with C++ keywords", "statement": "The identifier emitted for any fu identifier is never a reserved C++ keyword and distinct fu identifiers stay distinct.", "quantifier": "every identifier", "why_tests_cant": "all identifiers", "anchors": ["src/cpp.fu: ID"]}
{"id": "C42", "title": "Test-diff serialisation is order preserving and duplicate free", "statement": "Serialising test diffs keeps the first occurrence of each line in order and drops later duplicates.", "quantifier": "every list of entries", "why_tests_cant": "unbounded lists", "anchors": ["src/testdiff.fu"]}
{"id": "C43", "title": "ASCII case mapping is sound", "statement": "lower and upper change exactly ASCII letters, leave every other byte and the length alone, are idempotent, and lower of upper equals lower.", "quantifier": "every byte string", "why_tests_cant": "all byte strings", "anchors": ["lib/ascii.fu"]}
{"id": "C44", "title": "Prelude list functions meet their list specifications", "statement": "reverse, partition, map, all, some, resize, clamp, min and max and slice functions equal the standard list functions, and their in-place (stealing) variants give the same results as the copying ones.", "quantifier": "every array and predicate", "why_tests_cant": "unbounded arrays", "anchors": ["src/prelude.fu"]}
{"id": "C45", "title": "Short reads and writes lose nothing", "statement": "Whatever sizes the operating system transfers per call, a file write either reports failure or has written all bytes in order, and exhaustive reading returns the whole stream in order.", "quantifier": "every content and every schedule of partial transfers and interrupts", "why_tests_cant": "the kernel chooses the schedule", "anchors": ["lib/file.fu", "lib/FD.fu: read_exhaustive, write"]}
{"id": "C46", "title": "Decimal parsing inverts decimal printing", "statement": "Parsing the decimal text of a 32-bit unsigned or signed integer at any offset, followed by anything that does not start with a digit, returns that integer and leaves the cursor exactly after the text.", "quantifier": "all integers, all surrounding text", "why_tests_cant": "ranges over all integers and contexts", "anchors": ["src/helpers.fu: parse10u32, parse10s32"]}
{"id": "C47", "title": "trim removes exactly the surrounding blanks", "statement": "trim returns the middle of the string: what it removes on either side has no visible character (a byte above space as a signed char), and the result is empty or starts and ends with a visible character; it never reads out of bounds.", "quantifier": "all byte strings", "why_tests_cant": "all strings", "anchors": ["src/helpers.fu: trim", "lib/ascii.fu: trim"]}
{"id": "C48", "title": "leftpad pads to exactly the requested width", "statement": "With a non-empty pad leftpad terminates and returns the string preceded by pad characters, max(len, width) bytes long.", "quantifier": "all strings, widths and pads", "why_tests_cant": "termination and all inputs", "anchors": ["src/helpers.fu: leftpad"]}
{"id": "C49", "title": "Random numbers are never handed out twice", "statement": "Within 2^64-1 calls of next_u64, made by any number of threads in any interleaving and with any spurious compare-exchange failures, no two calls return the same number, and the numbers handed out are exactly the sequential generator's sequence in order.", "quantifier": "every clock reading at start-up, every number of threads, every interleaving, every pattern of spurious failures", "why_tests_cant": "the period is 2^64-1 and a lost update needs one particular interleaving", "anchors": ["lib/rand.fu: next_u64, rand_u64_seed"]}
{"id": "C50", "title": "Byte-string hashing is total and separates strings differing in one block", "statement": "Hashing any byte string terminates without reading out of bounds, and two strings of the same length that differ inside a single 8-byte block never have the same 64-bit hash; in particular strings of equal length up to 8 bytes never collide.", "quantifier": "every byte string, every position of the difference", "why_tests_cant": "all 2^64 block values at every position", "anchors": ["lib/tea.fu: hash, r16"]}
{"id": "C51", "title": "Digests are faithful", "statement": "The full-length base-62 and base-16 digests of a hash have a fixed length, use only digits and letters, and two hashes with the same digest are equal.", "quantifier": "every 64-bit hash value", "why_tests_cant": "2^64 values", "anchors": ["lib/tea.fu: digest62, digest16, hash62, hash16"]}
{"id": "C52", "title": "In-place writes after a uniqueness test are ordered after former owners' reads", "statement": "When a vector finds itself the sole owner of a buffer and then writes it in place or frees it, every access any former owner made through another vector sharing that buffer happens before the write or free; likewise for the deallocation by the last owner's decrement.", "quantifier": "every number of threads and handles, every interleaving, every value a relaxed load may return", "why_tests_cant": "memory ordering bugs are invisible on strongly ordered hardware and depend on schedules", "anchors": ["include/fu/mem/arc.h: unique, decr, incr", "include/fu/vec.h: slow_check_unique, SHARED__Dealloc"]}
{"id": "C53", "title": "Number of worker threads", "statement": "The default number of workers is at least one and at most the number of cores (one if unknown); fu_NUM_WORKER_THREADS is read as a decimal number exactly when it is at most four characters, all digits, and anything else disables the workers and prints an error.", "quantifier": "every core count and every string", "why_tests_cant": "unbounded set of strings and core counts", "anchors": ["include/par/parfor.cpp: WorkerSet_Create"]}
{"id": "C54", "title": "Intersection of lifetimes", "statement": "Lifetime_inter denotes exactly the storage both lifetimes denote. (False of this code when a region has several paths or ranges overlap without nesting; proved: it invents nothing for nested ranges, is empty exactly when there is no overlap, and is exact for one path per region.)", "quantifier": "every pair of well-formed lifetimes", "why_tests_cant": "unbounded regions and paths", "anchors": ["src/lifetime.fu: Paths_inter, Lifetime_inter"]}
{"id": "C55", "title": "Field, dereference and join of lifetimes", "statement": "Taking a field of a lifetime selects exactly that part of the last step of every path, stays within the storage of the value, composes (a field of a field is a field), and disjoint fields do not overlap; a dereference appends a step; a join places the child's paths within the parent's.", "quantifier": "every well-formed lifetime, every field range and child path list", "why_tests_cant": "unbounded regions and paths", "anchors": ["src/lifetime.fu: Lifetime_op_field, Lifetime_op_deref, Lifetime_op_join"]}
{"id": "C56", "title": "hasTemporary and hasStatic", "statement": "hasTemporary (hasStatic) answers whether the lifetime contains the temporary (a static) region. (hasStatic has false positives in this code when the number of the last region takes several bytes.)", "quantifier": "every well-formed lifetime", "why_tests_cant": "unbounded lifetimes", "anchors": ["src/lifetime.fu: hasTemporary, hasStatic, Lifetime_AAR"]}
{"id": "C57", "title": "Packed declaration names read back", "statement": "A Target made from a module number, a global index and a local index gives back exactly those three; different triples give different Targets; isArg is true exactly for negative local indices; a Target written to a string (alone, as a global, as part of an overload-set type name) reads back unchanged with the reading position just past it; a scope entry gives back its target and its shadowing mark, and setting or clearing the search memo changes neither. This needs module and global indices below 2^20 and local indices within 2^19 of zero: nothing checks it, and beyond it different declarations collide.", "quantifier": "every module/global/local index within capacity, every surrounding string, every list of targets", "why_tests_cant": "2^60 triples, unbounded strings and lists", "anchors": ["src/module.fu: Target, modid, globid, locid, sign_rotate, sign_unrotate, isArg, parseLocalOrGlobal, appendLocalOrGlobal, parseGlobal, appendGlobal", "src/types.fu: packAddrOfFn, unpackAddrOfFn", "src/scope.fu: ScopeItem"]}
{"id": "C58", "title": "Locals keep their names while arguments are added", "statement": "Whatever sequence of arguments and locals is declared in a function, each one's index is distinct, keeps naming that declaration after any later declarations (late implicit arguments, which are stored in front, included), and is negative exactly for arguments.", "quantifier": "every sequence of declarations", "why_tests_cant": "unbounded sequences of interleaved declarations", "anchors": ["src/module.fu: indexOfLocal, nextIndexOfLocal", "src/scope.fu: Scope_create"]}
{"id": "C59", "title": "Order of evaluation of arguments", "statement": "Arguments are visited exactly once each: by-value ones first, then mutable references and implicit ones, in source order within each group (right-to-left calls: the first argument last), numbered consecutively and with only the final one marked last; the backward visit gives exactly the opposite order with the same marks.", "quantifier": "every number of arguments and every combination of argument kinds", "why_tests_cant": "2^n combinations of argument kinds", "anchors": ["src/module.fu: argsForward, argsReverse"]}
{"id": "C60", "title": "Names of user types read back", "statement": "The canonical name made for a user type (enum, flags or other; with or without a primitive base; with or without a generic label) gives back exactly the module and index it was made from, so different user types never share a name.", "quantifier": "every kind, primitive base, module, index, label and hash", "why_tests_cant": "unbounded labels, 2^62 module/index pairs, 2^64 hashes", "anchors": ["src/usertypes.fu: createUserTypeCanon, parseUserTypeCanon", "src/quals.fu: basePrimPrefixLen"]}
{"id": "C61", "title": "Which types fit which", "statement": "Every type is accepted where it is expected itself; a mutable reference is accepted only from a mutable reference, a reference (outside argument position) only from a reference, nothing but never itself fits never, and zeroes fit every plain value type. The common supertype found for two types accepts both of them, the search for it always ends, and their intersection is accepted wherever either was expected.", "quantifier": "every pair of types: all names, qualifier sets, value facts and lifetimes", "why_tests_cant": "unbounded type names and lifetimes, 2^32 qualifier sets", "anchors": ["src/types.fu: isAssignable, isAssignableAsArgument, type_trySuper, type_tryIntersect, definitType"]}
{"id": "C62", "title": "Relaxing loses only what nobody needs", "statement": "Relaxing a type for a slot removes exactly the qualifiers it reports: those inside the permitted mask that the slot does not require. The slot accepts the relaxed type exactly when it accepted the original, and the relaxed type accepts the original. What may be relaxed about a return type is nothing unless the result borrows from an argument; then mutability, and copy and resize only together and only for a direct borrow.", "quantifier": "every type, slot, mask and lifetime", "why_tests_cant": "unbounded lifetimes and 2^96 combinations of masks", "anchors": ["src/types.fu: will_relax, try_relax, mask_retval_relaxable"]}
{"id": "C63", "title": "A name means what is visible", "statement": "However many functions and blocks were declared, entered and left, and whatever was looked up before, asking the scope again and again for a name yields exactly the declarations of that name visible at that point - innermost and latest first - then the matching fields, then the extra candidates, each once, and then nothing; no lookup fails or goes on for ever. Earlier lookups leave no trace in the answers of later ones.", "quantifier": "every history of declarations, blocks, nested functions, autocall searches and interleaved lookups, every name", "why_tests_cant": "unbounded histories; lookups leave skip-the-rest marks behind in the shared scope", "anchors": ["src/scope.fu: search, ScopeItem_canSkipRest_set, Scope_set, Scope_pop", "src/solver.fu: ScopeSkip_push, solveBlock, trySolveFn"]}
{"id": "C64", "title": "Walking a scope", "statement": "Walking a scope's table forwards visits exactly the entries not hidden by a skip, from the given position on, in order and once each; walking it backwards visits the same entries in the opposite order; counting counts them. The skips made on entering a function are always ordered, disjoint and not empty, and hide exactly what they are made to hide.", "quantifier": "every table, every set of skips and every start position", "why_tests_cant": "unbounded tables and skip lists", "anchors": ["src/scope.fu: each, reveach, count", "src/solver.fu: ScopeSkip_push"]}
{"id": "C65", "title": "Exports and imports", "statement": "A module exports exactly its own declarations, in the order declared, public ones apart from private ones; importing the public part gives exactly the public ones and importing the private part exactly the others, with no trace of lookups made while the module was being solved. Searching a name in another module finds exactly its declarations of that name and then its fields.", "quantifier": "every module scope, every name", "why_tests_cant": "unbounded scopes", "anchors": ["src/scope.fu: Scope_exports, search", "src/solver.fu: _Scope_import__forceCopy"]}
{"id": "C66", "title": "Searching two scopes at once", "statement": "When candidates for an implicit call are searched in the caller's scope united with the callee's, exactly the declarations that either of the two sees are found.", "quantifier": "every pair of scopes", "why_tests_cant": "unbounded skip lists", "anchors": ["src/solver.fu: LocalScope_union"]}
{"id": "C67", "title": "Server output is sent exactly", "statement": "On one connection of the HTTP server, whatever arrives and however the system splits the writes (fewer bytes than offered, or try again later), the bytes that have gone out followed by the bytes still waiting are exactly everything the server has said so far, in order: nothing is lost, repeated or reordered. Writing never fails an assertion.", "quantifier": "every history of arriving chunks and write results on a connection, every request handler", "why_tests_cant": "unbounded histories; every split of every write", "anchors": ["lib/ev/HTTP.fu: socket_event", "lib/ev/Loop.fu: write", "lib/FD.fu: write"]}
{"id": "C68", "title": "Legacy substring search", "statement": "lfind gives the index of the first occurrence of the needle in the haystack (or in the given window), or -1 exactly when there is none; has says whether there is one; lmatch says whether the needle occurs at the given position; rmatch says whether the haystack ends with the needle.", "quantifier": "every haystack, needle and window, also overlapping in memory", "why_tests_cant": "all strings; the wrong answers of rmatch depend on memory outside the strings", "anchors": ["include/fu/vec/LEGACY_find.h: lfind, has, lmatch, rmatch"]}
{"id": "C69", "title": "Expressions are grouped by the operator table", "statement": "Every expression the user writes with the documented precedences (prefix tighter than binary, the binary levels from * to |>, assignments, conditionals and <| to the right, all others to the left; member access, calls, indexing and postfix operators tightest) is read completely and as the tree those precedences demand, and conversely whatever the parser accepts is such an expression and the tree is its tree; no text has two readings.", "quantifier": "every token sequence, every expression of any size and nesting", "why_tests_cant": "precedence errors show only in particular combinations of operators and nesting; there are infinitely many expressions", "anchors": ["src/parser.fu: parseExpression, tryParseExpressionTail, tryParseBinary, parseExpressionHead, parsePrefix, parseCallArgs, parseCallExpression, setupOperators"]}
{"id": "C70", "title": "Auto-named arguments", "statement": "An argument written `:expr` or `?:expr` is passed under the name of its expression: the name itself, the member or the function called, NAME in `_ ? NAME : _`, `NAME || _`, `_ && NAME`, the first operand's otherwise.", "quantifier": "every argument expression", "why_tests_cant": "the rule is recursive over expressions of any shape", "anchors": ["src/parser.fu: getAutoName, parseCallArgs, createArgID"]}
{"id": "C71", "title": "Reading an expression terminates", "statement": "Whatever tokens a source file contains, reading an expression ends, with a tree or an error, and the depth of recursion is at most linear in the number of tokens.", "quantifier": "every token sequence", "why_tests_cant": "non-termination shows only on particular malformed inputs", "anchors": ["src/parser.fu: parseExpression, parseCallArgs, tryParseExpressionTail"]}
{"id": "C72", "title": "Emitted C++ literals denote the program's bytes", "statement": "The C++ string or character literal emitted for a fu literal is read by a conforming C++ compiler as exactly the bytes of the fu literal, as many of them, whatever bytes they are (control characters, NUL, quotes, backslashes, bytes above 127, hex digits after an escape) and whatever code follows; the emitted text is one line of ASCII.", "quantifier": "every byte string and every following text", "why_tests_cant": "the interaction of escapes with the next byte covers all pairs of bytes at all positions", "anchors": ["src/codegen.fu: escapeStringLiteral, cgStringLiteral, cgCharLiteral, xHH, hex"]}
{"id": "C73", "title": "Emitted names are C++ identifiers and operators", "statement": "Any fu name (function, operator, generated name) that is not empty and does not begin with a digit is emitted as a C++ identifier that is no keyword; distinct names get distinct C++ names; the symbol of an operator overload is the operator characters of its name.", "quantifier": "every name", "why_tests_cant": "names are arbitrary byte strings", "anchors": ["src/codegen.fu: valid_identifier, valid_operator", "src/cpp.fu: ID"]}
{"id": "C74", "title": "Local names resolve to the right variable", "statement": "In the C++ emitted for a function body, no block declares a name twice, and every emitted name refers, by C++ scoping, to the local variable the fu program meant, or to a global when it meant a global; this holds for equal names, shadowing, names that look numbered, and globals named like locals.", "quantifier": "every function body: any nesting of blocks and any sequence of declarations and mentions", "why_tests_cant": "collisions depend on the combination of names and scopes in the whole function", "anchors": ["src/codegen.fu: localID, rootNS, cgBlock, binding"]}
{"id": "C75", "title": "Closure ids round-trip", "statement": "The name a closure is passed under gives back exactly the module, function, variable and revision it was made from, and no name a program can write is mistaken for one.", "quantifier": "every target and revision", "why_tests_cant": "four 32-bit numbers", "anchors": ["src/hacks.fu: serialize, tryParseClosureID"]}
{"id": "C76", "title": "Compiling a program compiles every file of it against its imports, and succeeds exactly when it can", "statement": "Compiling a file f with an arbitrary front end (parser, import resolution, checker): the compilation succeeds exactly when f has a meaning - all files reachable by imports exist and parse, there is no circle, and each passes the checks against the outputs of its imports (and none is the built-in prelude). Then every reachable file has the output that the definition by recursion over imports gives; the parallel mode gives the very same result as the sequential one.", "quantifier": "every front end, every set of files, every import graph, both modes, any fuel (for success) or fuel above the number of files (for the equivalence)", "why_tests_cant": "quantifies over all import graphs and all behaviours of the front end; wrong levels or a module compiled before its import show only for particular graphs", "anchors": ["src/compiler.fu compile_lexParseDeps", "src/compiler.fu compile", "src/compiler.fu compile_solveCodegen", "src/context.fu getModule", "src/context.fu setModule"]}
{"id": "C77", "title": "Import circles are found, the compiler stops, and its errors are true", "statement": "The discovery of dependencies never recurses deeper than the number of files; a program with an import circle is never compiled; and every error reported from a clean start has a reason of that kind in a file of the program: a circle error a circle (or an import of the prelude), a missing-file error a missing file, a user error a parse or check error of a reachable file. Internal errors do not occur.", "quantifier": "every front end, every finite set of files, every import graph including self-imports and nested circles, both modes", "why_tests_cant": "non-termination and misattributed errors depend on the shape of the import graph; there are infinitely many", "anchors": ["src/compiler.fu compile_lexParseDeps", "src/compiler.fu compile"]}
{"id": "C78", "title": "Watch mode: an incremental rebuild gives what a clean build gives", "statement": "After any history of edits and builds, failed ones included, in which no edit changes what the imports of an unchanged file stand for: pruning ends, the next build, if it succeeds, leaves every file of the program with exactly the output a clean build of the present files gives; it succeeds exactly when a clean build does and no module outside the program is without output; only modules whose imports lead to a module without output are compiled again. Two findings are proved: an abandoned module whose file changes or vanishes makes every later build fail, and a new file that redirects an import is not noticed.", "quantifier": "every front end, every finite history of edits and builds from a clean start, every target file, both modes", "why_tests_cant": "ranges over all histories of edits, failures and rebuilds; stale outputs only appear after particular sequences", "anchors": ["src/compiler.fu watch_pruneModules", "src/compiler.fu compile_and_build", "src/context.fu updateFile", "src/compiler.fu compile"]}
{"id": "C79", "title": "Which file an import stands for", "statement": "An import stands for the first of the files the rules name: `n.fu`, then `n/n.fu`, then `n/item.fu`, each looked for in the importing directory, its parents from the inside out, and the library directory; if there is none, for a file given by the test suite; else it stays unresolved. This holds for every sequence of imports of a build, whatever was asked before, provided no two lookups of different names in different directories amount to the same path; for plain names it suffices that no importing directory, and none above, is called like an imported module. Without the condition it is false: two findings are proved.", "quantifier": "every file system, every sequence of imports, every directory and name (of any length)", "why_tests_cant": "the answers are cached, so each depends on the whole history of lookups; the failures need particular combinations of directory and module names", "anchors": ["src/context.fu resolveFile", "src/context.fu tryResolve", "lib/path.fu dirname"]}
{"id": "C80", "title": "A build reads every file once and refuses names that differ in case only", "statement": "However the disk changes while a build runs, all accesses to a file give the content found at the first one; a file with content is refused exactly when another accessed file with content has the same name up to the case of ASCII letters; the only other errors are those of the operating system. A file consisting of one vertical tab is the exception (a theorem).", "quantifier": "every sequence of accesses, every state of the disk at each of them, every path without a zero byte", "why_tests_cant": "ranges over all histories of accesses and of changes of the disk in between", "anchors": ["src/context.fu getFile", "src/context.fu setFile", "lib/ascii.fu lower"]}
{"id": "C81", "title": "An incremental build gives what a build from scratch gives", "statement": "In one workspace, after any number of builds of any programs with any edits of sources and headers in between and meanwhile, a build that succeeds gives exactly the executable that compiling and linking everything anew with the present files and options gives; if no file changes while it runs, it fails exactly if that fails. Required: hashes do not collide, size and modification time show changes made during the build, an object is determined by options, text and the tree of included texts, includes are not circular and are all listed, and the options outside the key stay the same. Without the last two it is false: three findings are proved.", "quantifier": "every history of builds, every set of units and headers at each of them, every change while a build runs, every compiler and linker", "why_tests_cant": "ranges over all histories of edits and builds; stale objects appear only after particular sequences and races", "anchors": ["src/build.fu build", "src/build.fu getIncludeHash", "src/build.fu buildTarget", "src/build.fu buildUnit", "src/build.fu crosscheckHeaders_beforePersistingTempObjects"]}
{"id": "C82", "title": "Which headers of a text count for the cache", "statement": "A text is cut at every `#include`; an include is found exactly in those pieces that begin with blanks and a name in quotes or angle brackets without blanks inside; all of them are found, in order.", "quantifier": "every text", "why_tests_cant": "ranges over all texts; a missed include means stale objects later", "anchors": ["src/build.fu parseIncludes"]}
{"id": "C83", "title": "Concatenation, slices and swaps behave as on immutable lists", "statement": "Whatever overload of the concatenation operator is chosen (either operand temporary or kept, whole vector, view or single item, the operands sharing storage or being the same vector), the result holds the items of the left operand followed by those of the right, and every operand that was not consumed keeps its value. slice and substr give exactly the items between the two positions (forced into range in release builds) and a kept source is unchanged. Swapping two items exchanges exactly these and only in this variable; an out-of-range position trips the bounds check. None of it touches freed or uninitialised memory, and nothing leaks.", "quantifier": "every program mixing vector operations with concatenations, slices and swaps; every item type, size, sharing pattern and position", "why_tests_cant": "The result depends on overload, storage class (inline, unique, shared), reference counts and aliasing between operands; tests sample a few combinations of an unbounded space.", "anchors": ["include/fu/vec/concat.h operator+", "include/fu/vec/concat_one.h operator+", "include/fu/vec/LEGACY_slice.h slice, substr", "include/fu/vec/view_swap.h view_swap", "include/fu/vec.h UNSAFE__init_copy"]}
{"id": "C84", "title": "A call gives every parameter the argument the reader expects", "statement": "In an accepted call, an argument written `name: value` goes to the parameter of that name, positional arguments go in order to the parameters nobody names (after those left to `using`), a parameter that gets nothing takes its default, the implicit in scope or a `using`, and the argument order of a fully named call does not matter. No argument goes to two parameters; without optional `name?:` arguments none is lost. With no `using` in scope a call is accepted exactly when it has no more arguments than parameters, every name is a parameter's and used once, every required parameter gets an argument, `name!` parameters are named and the types fit. A rest parameter collects the remaining positional arguments.", "quantifier": "all parameter lists (required, defaulted, implicit, injected, must-name, rest), all argument lists, all answers of the type checker and all numbers of usings in scope", "why_tests_cant": "the reordering is a counting argument over arbitrary mixes of named, optional and positional arguments, defaults, implicits and usings; tests cover a few short signatures", "anchors": ["src/solver.fu: reorderByArgIDs, reorderByNumUsings, collectNamedArgs, tryMatchCall, CallerNode, doUpdateScope, solveStruct", "src/parser.fu: parseArgsDecl"]}
{"id": "C85", "title": "An event loop keeps its connections apart", "statement": "A program that runs `Loop` is told of each accepted connection once; every later event of it carries the tag the program gave it in `socket_accepted`, comes while its descriptor is open and before its `socket_closed`, which comes exactly once, right after its descriptor has been closed, and with that tag; after that the same descriptor number can be a new connection with a new tag. No event is delivered that says neither readable nor writeable.", "quantifier": "all programs (what callbacks do), all kernel answers, all epoll reports and batches, all lengths of run (Linux, servers, sockets, watches and signals; no child processes)", "why_tests_cant": "the tag, the descriptor and the state bits are packed in 64 bits and events arrive in batches in any order; descriptor numbers are reused; the order of callbacks has to be right in every run", "anchors": ["lib/ev/Loop.fu: Loop, ksfd_pack, ksfd_unpack, ipv4_listen, watch_files, unsubscribeAndClose, wakeUp_forRecvOrWrite"]}
{"id": "C86", "title": "An event loop closes what it opened, once, and nothing else", "statement": "Every descriptor the loop opens (listening, accepted, watch, signal and epoll descriptors) is closed by it exactly once, at the latest when the loop returns; it never closes a descriptor it does not own, in particular one whose number the program has got in the meantime; and none of its assertions can fail.", "quantifier": "all programs, all kernel answers including failures of every system call, all runs", "why_tests_cant": "leaks and double closes show only when a particular system call fails or when a number is reused between two steps", "anchors": ["lib/ev/Loop.fu: Loop, ipv4_listen, watch_files, unsubscribeAndClose", "lib/FD.fu: close", "lib/signal.fu: unblock"]}
{"id": "C87", "title": "An event loop wakes a connection exactly when it should", "statement": "The handler of a connection is called exactly when there is input it has not read or room it has not filled, and is told which; after it returns, the connection is watched for input exactly if its input has not ended and nothing is unread, for room exactly if its output has not ended and no room is left, and always for the peer's hang-up; no live connection is ever forgotten. A connection is closed only after an error, after it has ended, or when its handler ignores input; output left over is not lost and the error is reported.", "quantifier": "all histories of a connection: all epoll reports, all sequences of reads, writes, closes and promises of its handler, all kernel answers", "why_tests_cant": "a lost wake-up hangs one connection in one interleaving; all combinations of the eight state bits with all reports have to be right", "anchors": ["lib/ev/Loop.fu: Loop (SocketState, read, write, mustClose, wakeUp_forRecv, wakeUp_forWrite, new_state), wakeUp_forRecvOrWrite"]}
{"id": "C88", "title": "Starting a child process leaks nothing and connects its streams", "statement": "`spawn(argv, child, stdout, stderr, stdin)` either fails, and then leaves no descriptor open and reports no child, or succeeds, and then leaves open exactly one descriptor for each stream asked for as Pipe, recorded in `child`, which `close` of the child closes; it closes only descriptors it opened, each once, and no assertion fails. The child starts with its standard streams connected as asked: to its end of the pipe, to the parent's stream, or to /dev/null; and with no other end of the pipes, so the parent sees end of file when the child is done.", "quantifier": "all combinations of Ignore/Parent/Pipe for the three streams, all answers of pipe2 and posix_spawnp including failures at every point, all descriptor numbers", "why_tests_cant": "leaks are on error paths and inherited descriptors show up as hangs; the order of file actions matters only for particular descriptor numbers", "anchors": ["lib/spawn.fu: spawn, pipe, close, close_one, close_both, close_one_lax, PosixPipe, ChildStream"]}
{"id": "C89", "title": "The captured output of a child is what it wrote", "statement": "`spawn(argv, stdout, stderr, status)` appends to `stdout` and `stderr` exactly what the child wrote to each stream, in order, and all of it when it returns without an error; it never spins.", "quantifier": "all interleavings of the child's writes and closes with the parent's poll and read calls, all partial reads, all errors", "why_tests_cant": "loss depends on the interleaving of two processes and on which stream ends first", "anchors": ["lib/spawn.fu: spawn (ReadFD, ReadPollFD, the poll loop)"]}
{"id": "C90", "title": "Children in an event loop get their own events, and nothing of theirs is left open", "statement": "While a program runs an event loop, the children it starts with spawn are announced once; every child_event, out_read/err_read and signal is for a child that has been announced and not yet announced closed; reads are of that child's own open pipe; child_closed comes once, after all the child's pipes are closed; the loop closes only descriptors it opened, holds at most one of its own and four per child not yet waited for, and no assertion fails. When the loop returns only the program's own descriptors are open and every child not yet waited for has been sent SIGTERM once.", "quantifier": "all programs (any descriptors opened and closed and any children spawned from any callback), all answers of the kernel (descriptors, process numbers, refused epoll_ctl, pidfd_open errors), all batches of events, debug and release builds", "why_tests_cant": "The order in which the kernel reports the descriptors of a child within a batch, the reuse of record slots, process numbers and descriptors, and what callbacks do between two events make unboundedly many schedules.", "anchors": ["lib/ev/Loop.fu: spawn", "lib/ev/Loop.fu: wakeUp_forChild", "lib/ev/Loop.fu: Loop (child_process_pidfd..child_process_stderr)", "lib/ev/Loop.fu: unsubscribeAndClose", "lib/ev/Pool.fu: Pool"]}
{"id": "C91", "title": "Conditionals keep their meaning through folding, inlining and borrow checking", "statement": "Whatever is known about the operands of `&&`, `||`, `!` and `if` (always true, always false, does not end), the tree the compiler makes of a conditional runs the same operands in the same order, stops at the same one, leaves the same block or the function where the source does and has the same value. That holds after solving, after inlining any number of times, and after the pass that checks borrows has folded it again; and what the compiler then claims about the whole (always true, always false, never ends) is true.", "quantifier": "for every conditional built of any operands, nested to any depth, with any true facts about the types of the operands, any expected type, any interpretation of what is not a conditional, any state it is run in", "why_tests_cant": "A test runs one program with the few facts its operands happen to have; the folding loops remove, merge and trim operands by combinations of facts, positions and expected types, without bound on their number.", "anchors": ["src/solver.fu: tryAbstractEvalAsBool, createBlock, solveIf, createIf, solveOr, createOr, solveAnd, createAnd, createAndOr_staticEvalFold, createAndOr_staticEvalTrim, solveNot, createNot, solveNodes", "src/solver.fu: inlineExpression", "src/solver.fu: bck_if, bck_and_or, bck_not, bck_block", "src/types.fu: type_trySuper, definitType"]}
{"id": "C92", "title": "The C++ written for an expression means the expression", "statement": "The text the compiler writes for a solved expression is read by a C++ compiler in exactly one way, and whatever order C++ then picks for the operands it may order, the evaluation ends with the same value and the same variables as the expression of the language: operands from left to right, `&&` and `||` stopping at the operand that decides, integers wrapping at their width, the temporaries holding what they were given.", "quantifier": "for every expression of variables, literals, fields, calls, prefix and binary operators, assignments, increments, `!`, `if`, `&&`, `||` and copies, nested to any depth; every mode it is asked for in; every world (what variables hold, what functions and operators of structs do, including not coming back); every state; every order of evaluation C++ allows", "why_tests_cant": "One C++ compiler picks one order of evaluation and one test has one nesting of operators; a missing parenthesis, temporary or cast shows only for some nesting, some order and some values.", "anchors": ["src/codegen.fu: cgNode, cgCall, emitPrefixOp, emitPostfixOp, emitBinaryOp, emitFunctionCall, unpromote, binSkipParens, ooeWrap", "src/codegen.fu: isPointlessMustSeq, isFieldChain, TEMPVAR_init, TEMPVAR_consume", "src/codegen.fu: cgIf, cgAnd, cgOr, via, cgAndOr_concat, cgNot, cgCopyOrMove, cgCopy, cgMove"]}
{"id": "C93", "title": "The C++ written for the statements of a function does what they do", "statement": "The text the compiler writes for the body of a function is read by a C++ compiler in exactly one way, and running it ends as the body does: the same statements, conditions and loop steps are run in the same order, `break`, `continue`, labelled jumps and `return` (with its value) leave exactly the loop, block or function they name, `on enter` blocks run once before the first turn, and if one of the two does not come to an end neither does the other.", "quantifier": "for every function body of expression statements, `if`, `&&` and `||` statements, blocks, `for`, `while`, `do … while` and `on enter` loops and jumps out of any enclosing block, nested to any depth; every world, every state, any number of turns of its loops, every order of evaluation C++ leaves open", "why_tests_cant": "Whether a pair of curlies, a label or a `goto` may be left out depends on what is nested in what; a test has one nesting, and a label that lands one statement too late shows only when the jump is taken in the right loop.", "anchors": ["src/codegen.fu: cgStatements, cgNodes, blockWrapSubstatement, cgBlock, cgJump, findBlock", "src/codegen.fu: cgIf, cgAnd, cgOr, cgAndOr_concat, cgLoop"]}
{"id": "C94", "title": "Which loop, block or function a jump leaves", "statement": "`break` leaves the innermost loop around it, or, in a lambda with no loop of its own around the jump, the function the lambda is passed to; `break :L` leaves the innermost block or loop labelled L; `continue` leaves the body of the innermost loop, or the lambda; `continue :L` leaves the body of the innermost loop labelled L, or what is immediately in the block L; `return` leaves the innermost function that is not a lambda, `return :F` the innermost one of that name; and where there is no such thing it is an error. What is being compiled between the declaration of a function and its use is never left.", "quantifier": "for every nesting, to any depth, of blocks, heads, bodies, steps and `on enter` blocks of loops, functions and lambdas, all labels, and everything hidden at each function", "why_tests_cant": "The lookup goes through one stack that also holds whatever functions are being solved in between, so its answer depends on the nesting and on the order functions are solved in; the comments in the source tell of a `continue` that went wrong only under some orders.", "anchors": ["src/solver.fu: Scope_lookupReturn, Scope_lookupLabel", "src/solver.fu: solveLoop, solveBlock, solveFnDef", "src/scope.fu: reveach, ScopeSkip_push"]}
{"id": "C95", "title": "The command line means what it says", "statement": "Given options, a source file and flags to pass on, `fu` compiles that file with exactly what the options ask for, however they are written (words, single letters, letters together) and in whatever order; options that contradict each other or ask twice are refused; nothing that is not such a command line is accepted; and reading the command line always comes to an end.", "quantifier": "for every list of options of any length, every way of writing each, every order, all paths, every file, all flags for the C++ compiler and linker; and, for what is refused, every list of words", "why_tests_cant": "There is a command line for every list of options; a test has one, and an option parser that loses an option only behind another, or reads a path as an option, passes tests that do not have that pair.", "anchors": ["src/cli.fu: cli_handle", "src/build.fu: tryGetScheme, BuildScheme"]}
{"id": "C96", "title": "The cache of template instances does not change what a call gets", "statement": "Template functions are instantiated once per list of argument types and the instance (or the refusal) is remembered. What a call gets from the memory is what it would have got without it: an instance of the template it names, in its scope, made for types that come to the same signature; a refusal exactly when the template refuses its types; never an instance that has been thrown away; no two finished instances of one template with the same argument types; and the book-keeping never stops the compiler.", "quantifier": "for every history of calls, matches, rejections, instances made and signatures published, of any length, with calls nested to any depth; all templates, scopes and lists of argument types, and every behaviour of the solver within the stated laws", "why_tests_cant": "What a call finds in the memory depends on all calls before it and on those in progress; two names that coincide, or a name left behind, show only for particular orders of particular types.", "anchors": ["src/solver.fu: mangleArgTypes, trySpecialize, doTrySpecialize (setSpec, resetSpec, resetMangle, SPECFAIL, updateScope), destroyOverload"]}
{"id": "C97", "title": "An accepted function never uses a reference that a write invalidated", "statement": "When the compiler's borrow checker accepts a function, then in every run of it - whichever branches are taken, whichever early exits happen and however often the loops go round - no local reference is used after a write that invalidates it, unless it was bound again in between (references that may become copies aside). And the checker never stops with an internal error at the binding of a reference.", "quantifier": "every function body built from reads, writes, bindings, blocks with labels, conditionals, short-circuit expressions, loops and jumps; every relation saying which write invalidates which references; every run of it, of any length", "why_tests_cant": "The checker looks at each loop once and at each branch once; that this covers all numbers of iterations and all combinations of branches is a statement about unboundedly many runs of every function.", "anchors": ["src/solver.fu: Events_merge, Events_restore, branch, bck_trackRead, bck_trackWrites, bck_trackInit, bck_let, bck_loop, bck_if, bck_and_or, bck_block, bck_node, propagateType (write_loop_start, read_loop_start)"]}
{"id": "C98", "title": "A write invalidates the references that point into what it writes", "statement": "After any sequence of reference bindings (each to any of several variables and places in them), and whichever of these each reference was actually bound to, a write through a variable invalidates every other reference whose storage overlaps the storage written, except the references the write goes through. If no reference is conditional it invalidates exactly those. Recording a binding never stops the compiler with an internal error.", "quantifier": "every sequence of bindings in which references are bound once and before their use, every outcome of the conditional ones, every write (any variable, any places in it)", "why_tests_cant": "The aliasing relation is built incrementally from the bindings; that it covers every pair of overlapping references is a statement about all binding graphs and all ways they can turn out at run time.", "anchors": ["src/solver.fu: Reference_trackLocalRef, bck_trackWrites, callarg_trackWrites, bck_let", "src/lifetime.fu: Lifetime_hasInter, Lifetime_op_join"]}
{"id": "C99", "title": "A bitmap font file reads back as its characters", "statement": "Reading a well-formed BDF file succeeds without errors and gives a font with exactly the characters written in it: each glyph, as enumerated by the font, has the bounding box and the pixels its rows spell in hexadecimal (cut or padded to the width), its advance is the one written, and looking a code point up leads to the last character that has it. On any file, however malformed, reading never indexes outside the pixels, every glyph enumerated has exactly width times height pixels, every code point leads to an existing glyph, and lines that follow never change a glyph that is complete.", "quantifier": "every file; every list of up to 65536 well-formed characters of any names, code points, advances, boxes and rows; any head", "why_tests_cant": "The text of the file, the number and the sizes of the characters are unbounded, and the wrong readings need particular malformed files (32768 rows in one character; as many rejected pixels as accepted glyphs).", "anchors": ["lib/ui/BDF.fu: parse", "lib/ui/BitmapFont.fu: each", "lib/ui/Font.fu: width, height, stride"]}
{"id": "C100", "title": "mkdir_p makes the directory and all it is in", "statement": "After mkdir_p(path), unless the system forbids it, the directory and all directories it is in exist, and the answer is 0 when they were made. Whatever happens, nothing else is made and nothing is removed, each directory is made inside one that exists, and 0 means that the directory was made by this call.", "quantifier": "every path without NUL bytes (relative or absolute, with any repeated or trailing slashes), every set of existing directories, every working directory, whatever the system forbids", "why_tests_cant": "Paths, depths and the directories that are there already are unbounded; the failure needs two or more missing levels at once.", "anchors": ["lib/fs.fu: mkdir_p", "src/build.fu: write_file"]}
{"id": "C101", "title": "A bitmap font written as source code comes back the same", "statement": "A bitmap font written with EmbeddedBitmapFont_emit, compiled and unpacked, draws every code point with the same shape as the font it was made from: every point that is not blank is black, every other is white; a code point without a glyph is drawn as code point 0. Nothing aborts on the way. The numbers and lists written read back as they were; the bits are the pixels; moving the glyphs into boxes of one size changes no point; a measured character's box is the smallest around its black pixels.", "quantifier": "every font with up to 65536 code points that has the characters x, p, b and H: any number of glyphs, each of any box and pixels, any table", "why_tests_cant": "The glyphs, the boxes and the pixels are unbounded and the fault needs a particular font: glyphs not in the order of their code points, or a font box larger than its glyphs.", "anchors": ["lib/ui/EmbeddedBitmapFont.fu: EmbeddedBitmapFont_emit, EmbeddedBitmapFont, bytes_to_bits, bits_to_bytes, measure", "lib/ui/BitmapFont.fu: make_mono_bounds, each"]}
{"id": "C102", "title": "Functions are replaced while the program runs", "statement": "A function marked for replacement can always be called: what is called is its fallback or something the system found under its own name in a library, whatever happens in whatever order. A reload brings the library file that is there now and replaces every function announced that it has; a failed reload changes nothing. Once hotswap::here() was called, only here() replaces anything, and no signal is lost: if a call of here() begins and is over after a signal, wherever in the program the signal came, a reload began after it. The files are as they were afterwards, and the callback is called once for each signal.", "quantifier": "every sequence of announcements, calls of here(), signals (also between any two statements of here()), builds and callbacks; whatever the system answers", "why_tests_cant": "The order of signals, builds and calls is unbounded and the answers of the system are its own; the lost signal would need one to come between two statements.", "anchors": ["include/dl/hotswap.cpp: try_reload, doReload, onManualReload, onSIGUSR1_reloadLibs, hotswap_init, hotswap_here", "lib/hotswap.fu: here"]}
{"id": "C103", "title": "Directories are walked and each file is found once", "statement": "fs::readdir gives the caller's block each entry of a directory but . and .., once and in the directory's order, with its name, its type and a path that means it, until the block leaves; every directory opened is closed however the block leaves, also out of several recursions; errors of opening are returned. watch.fu finds, with it, each source file at any depth below src and lib exactly once and nothing else, and ends unless a chain of directories goes on for ever. fs::executable gives the path of the running program.", "quantifier": "every directory tree (of any depth, also with unreadable directories and unknown types), every block of the caller's, every path", "why_tests_cant": "Trees, names and what a caller's block does are unbounded; descriptors left open show only after many walks.", "anchors": ["lib/fs.fu: readdir, executable", "lib/unsafe.fu: cstr_view_or_copy", "include/fu/str.h: cstr2vec_copy", "watch.fu: collect"]}
{"id": "C104", "title": "Signals blocked are let through again, and no others", "statement": "signal::block blocks the signals asked for besides those blocked already, and says which it blocked; unblock lets through exactly those, whatever was done between, so that the thread's mask is what it was before, however such pairs (event loops) are nested; the descriptor made for them is closed; when the system refuses nothing is blocked, and errors are answered.", "quantifier": "every list of signals, every mask before, every answer of the system, every nesting", "why_tests_cant": "Which signals are blocked before depends on the program around; nestings are unbounded.", "anchors": ["lib/signal.fu: block, unblock", "lib/ev/Loop.fu: Loop (479, 515)"]}
{"id": "C105", "title": "Parallel each, zip and map give what the sequential ones give", "statement": "par::map gives as many results as there are items, in order, each what the block gives for the item at its index; par::each visits each item once, par::zip each pair up to the shorter's length, and the rest is as it was. The result does not depend on the number of threads, the schedule or the batch size; no two blocks are ever at the same index, and none is outside the array.", "quantifier": "every array (of any length), block, number of workers, batch size and interleaving of the blocks' steps", "why_tests_cant": "Interleavings of the steps of blocks on many threads cannot be enumerated or forced by a test.", "anchors": ["lib/par.fu: each, zip, map, parallel_for", "include/par/parfor.cpp: parallel_for"]}
{"id": "C106", "title": "An int literal has the type wanted if it suits, else the smallest default that holds it", "statement": "An int literal gets the type that is wanted of it (the user's own primitive too) whenever that holds the value and neither the u suffix nor the sign speaks against it; else u32 or u64 if it is written with a u or in a base other than ten without a minus, i32 or i64 if not, the smaller one that holds it. The type given always holds the value. There is an error exactly if the literal is no 64-bit number or no such type is left. It is known to be true in conditions exactly if it is not zero. A real literal is f32 if that is wanted and f64 if not.", "quantifier": "every literal (sign, base, digits and separators of any number, suffix) and every type wanted", "why_tests_cant": "2^64 values in four bases against every type wanted, with a boundary at each size; a wrong one compiles and is cut off silently in C++.", "anchors": ["src/solver.fu: solveInt, solveReal, getBasePrim", "src/intlit.fu: Intlit"]}
{"id": "C107", "title": "Fields are where they are said to be, and different fields never overlap", "statement": "The parts of a struct lie one after the other; what is kept of a field reads back as the number of parts before it and in it. The lifetime of a chain of fields a.b.c is exactly that part of the value's lifetime, so that the lifetimes of two chains overlap exactly if one is a field of the other. A place that is printed in a message names fields that lead to that same place.", "quantifier": "every program of struct declarations (any number, nesting and size), every chain of fields of a value and every local, argument or reference the value lives in", "why_tests_cant": "The places depend on the whole nest of declarations; a wrong one shows only as a missed or a false borrow error for some pair of fields of some large type.", "anchors": ["src/solver.fu: field_packOffset, field_unpackOffset, __solveStruct, make_field_reference, str (lifetimes)", "src/context.fu: getFlatCount", "src/types.fu: make_field_reference", "src/lifetime.fu: Lifetime_op_field, Lifetime_hasInter"]}
{"id": "C108", "title": "The snippet in an error message shows the source as it is, with the tokens marked", "statement": "For tokens that begin in the text (or right after the end of their line): the lines shown are exactly those from the first token's to the last's and two more on each side (none on a side where no context is asked for), in order, each with its number if it has a token or is between such lines, and byte for byte as in the text; each token shown is between the codes for bad and plain in its line, up to the end of the line, and nothing else is marked. The tokens shown do not overlap, and one is left out only if a shown one begins in it. Wherever the tokens are, nothing is read or written out of bounds. With the codes stripped, the text seen is the plain text, without its last byte.", "quantifier": "every text, every list of tokens (any number, in any order), every choice of context", "why_tests_cant": "The positions shift with every code that is put into the line; a wrong one shows only for some arrangement of several tokens on the same line.", "anchors": ["src/fail.fu: formatCodeSnippet", "src/ansi.fu: strip, RESET, DIM, BAD", "src/module.fu: LineColChars"]}
{"id": "C109", "title": "exec returns all a command writes, after what the string held", "statement": "exec runs the command it is given, and appends all the command writes to the string, in order and whatever the pieces it comes in and whatever memory the string has to spare; the status is the system's. If the pipe cannot be opened, or closing it fails, that error is returned. Whatever the system does, nothing is written out of bounds, what the string held stays, and what is added is a beginning of the output.", "quantifier": "every command and output (any length), every string with any spare memory, every schedule of partial reads and errors", "why_tests_cant": "The system chooses the pieces, and two ways of reading (into the string or through a buffer) alternate with the string's memory.", "anchors": ["lib/exec.fu: exec"]}
{"id": "C110", "title": "A literal is given the type wanted wherever in an expression its value comes from", "statement": "Where a type is wanted that an expression has not got, and the expression's value can only come from literals and empty values (through any nest of conditionals, blocks and named arguments), the compiler gives all of them one type; it never fails at that, an int is never given a type that does not hold it, and where all ints suit the number type that is wanted it is that one. No other expression's type is changed, nor a block's that is left through its label. Two expressions that must have one type (the branches of a conditional) get the one theirs have in common after at most one of them was given the other's type that way; an int beside something with a number type of its own gets that type if it suits.", "quantifier": "every expression (any nest of conditionals, blocks and arguments, any literals), every type wanted", "why_tests_cant": "The finding of the type and the giving of it are two walks over any nest of expressions, which must agree; a literal given a type that does not hold it is cut off silently in C++.", "anchors": ["src/solver.fu: tryRetyping, applyRetype, convertToSuperType, solveString, definitWrap", "src/types.fu: definitType, type_trySuper"]}
