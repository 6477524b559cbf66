# Formal model of hdachev/fu in Lean 4

(Written by `tools/design.py` from `tools/design.md`, `tools/plan.json`, `properties.jsonl` and `MANIFEST.json`.)

## Scope

`fu` is a systems language with a self-hosting compiler (`src/*.fu`), a C++ runtime
(`include/fu`, `include/par`, `include/lockfree`) and a standard library (`lib/*.fu`).
The model lives in `lean/Verif/`.  Per area, `X.lean` holds the model: definitions that follow the code function by
function, each citing the file and lines it models and saying where it simplifies.  `XSpec.lean`, or the beginning of
`XProps.lean`, holds a small specification that does not mention the model; `XProps.lean`, `XTheorems.lean` and the other
files of the area hold the lemmas, the property theorems (their doc comments begin with the property's number) and examples
showing that concrete, non-trivial cases meet their hypotheses.

## Trusted base

* Lean 4.33.0's kernel, and the three standard axioms `propext`, `Classical.choice`, `Quot.sound` (per theorem: see
  *Axioms* below).  No axioms of our own, no compiled evaluation; concrete computations are checked by the kernel
  (`decide`, `decide +kernel`).
* The reading of the source: the models are written by hand from the text of `/repo`.  The tool chain - the fu compiler
  that turns `src/*.fu` into `src/*.fu.cpp`, the C++ compiler, libc, the operating system - is trusted to mean what the
  source says.  Where `.fu` and its emitted `.fu.cpp` differ in a way that matters (for instance the signedness of bytes) the model follows
  the emitted code and says so.
* C++/fu semantics assumed: two's-complement 32/64-bit integers, signed `char`, little-endian memory where the code selects
  it, relocation of objects by `memcpy`.  Sizes and positions that the code keeps in `i32` are natural numbers in the models
  unless a comment says otherwise (inputs below 2 GB).  Atomics: the reference counts (C35, C52) have a release/acquire model with stale relaxed reads; the
  lock-free stack and the parallel loops are interleavings of sequentially consistent steps.
* Faults (out-of-bounds access, failed assertion, undefined behaviour, a loop without end) are outcomes of the models, so
  that "never faults" is a theorem and not an assumption.  Fuel arguments only exist where the code's recursion is not
  structural; running out is an outcome distinct from every result, and theorems show it does not occur (or, where the code does not
  terminate, that it does).

## What is modelled

| source | modules |
|--------|---------|
| include/fu/vec.h, include/fu/mem/arc.{h,cpp}, packing of the vector header | `Pack`, `Alloc`, `Vec*`, `Arc*` |
| include/fu/vec_range.h | `Range*` |
| include/fu/vec/LEGACY_cmp.h, LEGACY_find.h | `Cmp*` |
| include/fu/decstr.cpp, lib/decstr.fu | `Decstr*` |
| include/lockfree/stack.hpp | `Treiber*` |
| include/par/parfor.{hpp,cpp} | `Parfor*` |
| src/prelude.fu (search, split, join, replace, comparison, list functions) | `Prelude*` |
| src/lexer.fu, src/intlit.fu | `Lexer*`, `Intlit*` |
| src/parser.fu (expressions, operator table, call arguments) | `Parse*` |
| src/helpers.fu | `Helpers*` |
| src/lifetime.fu, src/usage.fu | `Lifetime*`, `Usage*` |
| src/canon.fu, src/usertypes.fu, src/quals.fu | `Canon*` |
| src/types.fu | `Types*` |
| src/scope.fu, scope bookkeeping of src/solver.fu | `Scope*` |
| src/module.fu (targets, extended arguments), evaluation order | `Target*` |
| src/flat.fu | `Flat*` |
| src/cpp.fu | `Cpp*` |
| src/codegen.fu: literals, identifiers, operators, names of locals; src/hacks.fu: closure ids | `Cgen*` |
| src/compiler.fu (discovery of imports, order of compilation, watch mode), src/context.fu (module list) | `Compile*` |
| src/context.fu (file lookup, file contents) | `Resolve*` |
| src/build.fu (include hashes, object and executable cache) | `Build*` |
| src/levenshtein.fu, src/testdiff.fu | `Levenshtein*`, `Testdiff*` |
| lib/BitSet.fu, lib/hash.fu, lib/path.fu, lib/unicode.fu, lib/ascii.fu, lib/tea.fu, lib/rand.fu, lib/shuffle.fu | `BitSet*`, `Hash*`, `Path*`, `Unicode*`, `Ascii*`, `Tea*`, `Rand*` |
| lib/file.fu, lib/FD.fu | `Fd*` |
| lib/ev/Pool.fu, lib/ev/HTTP.fu | `Pool*`, `Http*` |

## What is not modelled

The solver proper (type inference, overload resolution, ownership analysis: src/solver.fu beyond its scopes), code
generation (src/codegen.fu beyond literals, names and evaluation order), statements, functions and types in src/parser.fu, the
rest of the build driver (src/build.fu: tests, output of sources; src/cli.fu), process, signal and terminal handling (lib/spawn.fu, lib/signal.fu, lib/ui), hot swapping, profiling and printing.
Floating-point arithmetic is only modelled as bit patterns.  Per function, simplifications are in the comments of the
models.

## Properties

@@PROPERTIES@@

## Findings

Where a property is false of the code, the full statement is kept in `properties.jsonl`, the true part is proved under the
suffix `_partial`, and the failure is itself a theorem.  The most important:

* `a[i](x)` and `a++(x)` lose what is called: only the arguments remain (`Parse.callee_dropped`, src/parser.fu:2444-2485).
* `:c ? a : b` and `:a && b` take the first name, contrary to the comment (`Parse.autoname_if`, `autoname_and`, src/parser.fu:2412-2421).
* A growing hash map can strand entries so that they are no longer found (`HashBug`, lib/hash.fu:275-276).
* The relaxed uniqueness test of shared buffers races with former owners' reads (`Arc.unique_relaxed_race`).
* Tags of the task stack wrap after 2^19 changes: ABA (`Treiber` C34).
* Header packing fails for item sizes 5, 7, 13, 14, 15 (C05); `pop` on an empty vector and inserting out of range corrupt in release mode (C04); splicing from oneself is wrong in some cases (C08); a range's `append` with `del > 0` (C09).
* Reading a file in several short reads corrupts it; a write of 0 bytes reports success (C45).
* HTTP requests must arrive in one read (C40); bodies of 10^9 bytes and more break the length field (C39).
* `==` of legacy vectors compares addresses first, and only a part of wide items (C07); `rmatch` reads past the end (C68).
* `Lifetime_inter` loses places and invents others (C54); `hasStatic` has false positives (C56).
* Paths: `..` cancels a preceding `..` or the root (C22).  UTF-8 decoding reads one byte past a truncated sequence (C21).
* `BitSet.add_range` loses members, `has_missing` runs out of bounds (C16).
* `type_trySuper(zeroes, never)` does not end (C61); assignability is not transitive (C33); packed targets collide beyond capacity (C57).
* Watch mode: a module that is no longer imported and then changes makes every rebuild fail (`Compile.watch_orphan_fails`); a new file that redirects an import goes unnoticed (`Compile.watch_redirect_stale`, C78).
* Import lookups are cached by directory and name joined: a file in a directory called `n` cannot import a module `n/n.fu` from above or from the library (`Resolve.resolve_hidden_by_miss`), and answers depend on earlier imports (`resolve_order_dependent`, C79).
* The object cache ignores `--cflags` and `-I` (`Build.cflags_ignored`), the files the runtime includes (`runtime_stale`), and part of circularly included headers (`circular_includes_stale`, C81).
* Autocall lookups spoil later lookups (C63); the union of two scopes hides too much (C66).
* The C++ names of `do` and `dO` collide (C41).  `remove(predicate)` on trivial types always asserts (src/prelude.fu:545).  `leftpad` with an empty pad does not end (C48).

## Testing the theorems

`seeded/LOG.jsonl` records, for each edit of a model that a realistic bug would make, the theorems that then fail.  An edit
that falsified a claim while everything still proved led to a stronger theorem (field `tightened`).

## Axioms

@@AXIOMS@@
