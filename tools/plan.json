{
 "C01": "`VecModel`: a heap of reference-counted blocks, every slot constructed or not, headers inline/heap/shared; `_Splice` and every operation of include/fu/vec.h as its sequence of slot accesses, undefined behaviour being an outcome. Invariant `Core` (VecInv), preserved by `_Splice` (VecSplice, VecSplice2) and every operation (VecOps, VecOps2), gives a refinement to independent lists (VecSpec) by induction over arbitrary programs (VecRefine).",
 "C02": "`VecModel`: a heap of reference-counted blocks, every slot constructed or not, headers inline/heap/shared; `_Splice` and every operation of include/fu/vec.h as its sequence of slot accesses, undefined behaviour being an outcome. Invariant `Core` (VecInv), preserved by `_Splice` (VecSplice, VecSplice2) and every operation (VecOps, VecOps2), gives a refinement to independent lists (VecSpec) by induction over arbitrary programs (VecRefine).",
 "C03": "`VecModel`: a heap of reference-counted blocks, every slot constructed or not, headers inline/heap/shared; `_Splice` and every operation of include/fu/vec.h as its sequence of slot accesses, undefined behaviour being an outcome. Invariant `Core` (VecInv), preserved by `_Splice` (VecSplice, VecSplice2) and every operation (VecOps, VecOps2), gives a refinement to independent lists (VecSpec) by induction over arbitrary programs (VecRefine).",
 "C04": "Same model; the list specification of splicing with clamped arguments, and witnesses where the code does not clamp.",
 "C05": "`Pack`: the header as a `BitVec` word with the rotation packing; bit-level lemmas for all words, item size by item size class.",
 "C06": "`Alloc`: `next_pow2`, `RoundUp` and the byte counts, for all 32-bit sizes, by arithmetic.",
 "C07": "`Cmp`: vectors as (address, size) in a common memory; `memcmp`/`==`/`<` by induction on bytes; counterexamples for shared storage and wide items.",
 "C08": "`VecModel` with the source inside the target's own storage; case analysis on the code's pointer tests; witnesses where the test is wrong.",
 "C09": "`Range`: the packed trims and every operation as 32-bit arithmetic followed by vector operations of `VecModel`; refinement to windows of lists (RangeSpec), by induction over programs mixing vectors and nested ranges.",
 "C10": "`Prelude`: the loops of src/prelude.fu; equality with declarative first-occurrence, split and glue specifications, by induction.",
 "C100": "Model visit with its buffer (NUL written and restored), mkdir(2) on a set of directories; visit_eq removes the buffer; strong induction on the position of the last slash.",
 "C101": "Model emit and unpack loop by loop (bit packing, hexadecimal text, table, common box, copying, measuring). Specification: the ink of a point of a glyph, a reader of lists of numbers. Loop invariants for packing, unpacking, copying and measuring; then compose.",
 "C102": "A machine of small steps: announcements, the statements of here(), signals, builds; what the system answers is in the event. Invariants over runs for validity and for the signal that waits; rename and path lemmas for the files.",
 "C103": "The caller's block is a tree of actions (done, recurse and go on, leave), the walk a recursion bounded by a number that all results are shown not to depend on; found files against an inductive relation over the system's listings.",
 "C104": "Masks as functions of the signal, the program's own masks as 32 bits; the loops over bits by induction, nesting by induction on a tree.",
 "C105": "A transition system: batches over the ranges of C36's model, each with its index and its block's variables, steps in any interleaving; an invariant saying for each index that it is done, at a point of its own visit, or untouched.",
 "C106": "The parse of C29 with the choice of the type on top; the literal is given by its sign, base and digits and its value is mathematical, so the theorems speak of the number, not of the parser's sizes.",
 "C107": "Declarations solved in order with 32-bit counts and the packed number; a relation counting parts and one placing chains of fields as specification, joined with the lifetimes of C30, C31 and C55.",
 "C108": "formatCodeSnippet with its loops and bounds as they are; segments of a line between codes, and a relation between a text with codes and what is seen, as specification.",
 "C109": "The loop with the string as content and spare memory and an oracle for the system; prefix and whole-stream theorems by induction on what is left.",
 "C11": "`Prelude`: the loops of src/prelude.fu; equality with declarative first-occurrence, split and glue specifications, by induction.",
 "C110": "The two walks over a tree of expressions with solveInt and solveReal as in C106; a relation between the expression before and after as specification.",
 "C12": "`Prelude`: the loops of src/prelude.fu; equality with declarative first-occurrence, split and glue specifications, by induction.",
 "C13": "`Prelude` comparators for integers, arrays, structs, unions; total-order laws by induction on structure.",
 "C14": "`Decstr`: digit recursion over all `BitVec 64`; an independent numeral reader.",
 "C15": "`BitSet` on byte lists; refinement to predicates on naturals, induction over histories; loops by invariants; witnesses for `add_range` and `has_missing`.",
 "C16": "`BitSet` on byte lists; refinement to predicates on naturals, induction over histories; loops by invariants; witnesses for `add_range` and `has_missing`.",
 "C17": "`Hash`: the Robin-Hood index, buckets and data array with every access checked and every loop fuelled; invariant on the index (HashIndex), preserved by insertion, growth, removal, compaction; refinement to finite maps over all histories; counterexample histories (HashBug).",
 "C18": "`Hash`: the Robin-Hood index, buckets and data array with every access checked and every loop fuelled; invariant on the index (HashIndex), preserved by insertion, growth, removal, compaction; refinement to finite maps over all histories; counterexample histories (HashBug).",
 "C19": "`Flat`: sorted arrays with binary search; refinement to sets, maps and multisets over all histories.",
 "C20": "`Unicode`: encoder and decoder loops; round trip by induction on the code points; exact condition for an out-of-bounds read.",
 "C21": "`Unicode`: encoder and decoder loops; round trip by induction on the code points; exact condition for an out-of-bounds read.",
 "C22": "`Path`: component-wise specification (a walk over directories), the loops of lib/path.fu by invariants; witnesses for parent hops.",
 "C23": "`Levenshtein`: the single-row dynamic programme, equal to an inductively defined least edit cost.",
 "C24": "`Helpers`: varint writer and reader; round trip in any context; malformed input.",
 "C25": "`Rand`, `Tea`: bijections by explicit inverses; full period by linear algebra over GF(2) checked in the kernel (`Gf2`, certificates in `RandData`); shuffle by permutation invariant.",
 "C26": "`Rand`, `Tea`: bijections by explicit inverses; full period by linear algebra over GF(2) checked in the kernel (`Gf2`, certificates in `RandData`); shuffle by permutation invariant.",
 "C27": "`Lexer`: the whole of `lex` on byte strings; a separate grammar of pieces (LexerSpec); soundness and completeness by induction on the source.",
 "C28": "`Lexer`: the whole of `lex` on byte strings; a separate grammar of pieces (LexerSpec); soundness and completeness by induction on the source.",
 "C29": "`Intlit`: literal parsing with wrapping 64-bit arithmetic, exact against the mathematical value.",
 "C30": "`Lifetime`: the byte-level encoder, decoder, merge and path operations; a semantics of lifetimes as sets of places; exactness by induction on regions and paths; counterexamples where the code loses or invents places.",
 "C31": "`Lifetime`: the byte-level encoder, decoder, merge and path operations; a semantics of lifetimes as sets of places; exactness by induction on regions and paths; counterexamples where the code loses or invents places.",
 "C32": "`Usage`: masks of any width; bit lemmas.",
 "C33": "`Canon`: canonical names as byte strings, with the scanning loops; names described by trees (CanonSpec); the textual decision equals the decision on trees.",
 "C34": "`Treiber`: transition system of loads, stores and compare-exchanges by any number of threads; inductive invariant and linearisation; ABA execution when tags wrap.",
 "C35": "`Arc`: transition system with release/acquire message passing and stale relaxed reads; inductive invariant over all executions; racing execution for the relaxed uniqueness test.",
 "C36": "`Parfor`: batch arithmetic, and a transition system of user threads, workers, task stack, counters, mutexes and condition variables; inductive invariants, progress measure.",
 "C37": "`Parfor`: batch arithmetic, and a transition system of user threads, workers, task stack, counters, mutexes and condition variables; inductive invariants, progress measure.",
 "C38": "`Pool`: slots, free list and masks; invariant over histories of alloc, free and write.",
 "C39": "`Http`: one connection with its buffers; an independent reader of responses; schedules of partial reads and writes.",
 "C40": "`Http`: one connection with its buffers; an independent reader of responses; schedules of partial reads and writes.",
 "C41": "`Cpp`: identifier mangling and the keyword table; exact set of collisions.",
 "C42": "`Testdiff`: serialisation with `std::sort` replaced by its contract.",
 "C43": "`Ascii`, `Helpers`: character mapping and trimming on signed bytes, list induction.",
 "C44": "`Prelude`: reverse, partition, remove, map, resize, min/max, clamp, steal as loops; list specifications.",
 "C45": "`Fd`: read and write loops against an arbitrary schedule of transfer sizes; induction over schedules; corrupting schedules.",
 "C46": "`Helpers`: decimal parsing against `Decstr`, padding loop.",
 "C47": "`Ascii`, `Helpers`: character mapping and trimming on signed bytes, list induction.",
 "C48": "`Helpers`: decimal parsing against `Decstr`, padding loop.",
 "C49": "`Rand`: the shared generator state as an atomic cell; interleavings as lists of steps; injectivity from full period.",
 "C50": "`Tea`: block loop and digest alphabet; injectivity of the round function.",
 "C51": "`Tea`: block loop and digest alphabet; injectivity of the round function.",
 "C52": "`Arc`: transition system with release/acquire message passing and stale relaxed reads; inductive invariant over all executions; racing execution for the relaxed uniqueness test.",
 "C53": "`Parfor`: batch arithmetic, and a transition system of user threads, workers, task stack, counters, mutexes and condition variables; inductive invariants, progress measure.",
 "C54": "`Lifetime`: the byte-level encoder, decoder, merge and path operations; a semantics of lifetimes as sets of places; exactness by induction on regions and paths; counterexamples where the code loses or invents places.",
 "C55": "`Lifetime`: the byte-level encoder, decoder, merge and path operations; a semantics of lifetimes as sets of places; exactness by induction on regions and paths; counterexamples where the code loses or invents places.",
 "C56": "`Lifetime`: the byte-level encoder, decoder, merge and path operations; a semantics of lifetimes as sets of places; exactness by induction on regions and paths; counterexamples where the code loses or invents places.",
 "C57": "`Target`: packing into 64-bit words and strings; round trips within capacity, collisions beyond.",
 "C58": "`Target`: packing into 64-bit words and strings; round trips within capacity, collisions beyond.",
 "C59": "`Target`: the two evaluation-order functions as permutations of argument positions.",
 "C60": "`Canon`: canonical names as byte strings, with the scanning loops; names described by trees (CanonSpec); the textual decision equals the decision on trees.",
 "C61": "`Types`: the decision procedures of src/types.fu over (name, quals, lifetime) with the name comparison of `Canon`; algebraic laws.",
 "C62": "`Types`: the decision procedures of src/types.fu over (name, quals, lifetime) with the name comparison of `Canon`; algebraic laws.",
 "C63": "`Scope`: items, skips, the packed skip-the-rest marks, search loops; invariant over all histories of declarations, blocks, functions and lookups; counterexamples for autocall and union.",
 "C64": "`Scope`: items, skips, the packed skip-the-rest marks, search loops; invariant over all histories of declarations, blocks, functions and lookups; counterexamples for autocall and union.",
 "C65": "`Scope`: items, skips, the packed skip-the-rest marks, search loops; invariant over all histories of declarations, blocks, functions and lookups; counterexamples for autocall and union.",
 "C66": "`Scope`: items, skips, the packed skip-the-rest marks, search loops; invariant over all histories of declarations, blocks, functions and lookups; counterexamples for autocall and union.",
 "C67": "`Http`: one connection with its buffers; an independent reader of responses; schedules of partial reads and writes.",
 "C68": "`Cmp`: LEGACY_find.h over `memmem`; first-occurrence specification shared with C10.",
 "C69": "`Parse`: the expression parser as mutually recursive functions on tokens; a grammar of expressions with two-sided levels (ParseSpec); completeness by induction on the expression (ParseComplete), soundness by induction on the calls (ParseSound), meaning of trees (ParseProps).",
 "C70": "`Parse`: `getAutoName` as recursion on nodes, against the rule in its comment.",
 "C71": "`Parse`: every function consumes tokens; a linear bound on the depth of calls (ParseTerm).",
 "C72": "`Cgen`: the escaping loop with signed comparisons; an independent reader of C++ literals (`CgenSpec`); induction over the string.",
 "C73": "`Cgen`: the backward replacement loop equals a byte-wise map; identifiers specified from [lex.name]; keyword table from `Cpp`.",
 "C74": "`Cgen.localID` and `emit` (`CgenNames`) over histories; simulation between the emitter's used-name list and C++ scopes (`CgenNameSpec`).",
 "C75": "`Cgen.serialize`, `tryParseClosureID` over the varints of `Helpers` (C24).",
 "C76": "Model the module list, the recursive discovery and the level loop; invariant: a module with an order has imports with smaller orders; induction over levels; specification Means is an inductive relation over files.",
 "C77": "Measure: files without a module that was read. Errors: files being read are on the import path to the current one.",
 "C78": "Weak invariant between builds (an import has the output used or none), preserved by edits; pruning turns it into the strong one; then C76's argument applies.",
 "C79": "Model the cached recursive lookup with the cache as a function; specification: the first existing of an explicit list of places. Invariant: each cache entry is the code of the answer for the one (directory, name) that has this key. Findings by computation.",
 "C80": "Invariant between the file map and the log of accesses; one step; induction over the session; the specification is shown to be deterministic.",
 "C81": "Model hashing with its memo table, the keys, compilation, the check of headers and the two caches. Lemma: the hash of a header determines its tree of texts. Invariant: every cached object is right for its key. Induction over builds.",
 "C82": "Directive as an inductive relation on pieces; the scanner's loop equals a list recursion.",
 "C83": "Model each overload over the vector model (VecExpr), specify on lists (VecExprSpec), extend the refinement of C01 to the larger language (VecExprProps).",
 "C84": "model parseArgsDecl, the arity loop, reorderByArgIDs, reorderByNumUsings, tryMatchCall's argument loops and CallerNode; specify the binding by a declarative function `expect` and prove the loops compute it",
 "C85": "model Loop as a transition system whose inputs are kernel answers and callback actions; a reader of the trace (EvSpec) keeps descriptor owners and live connections; invariant ties its tables to the interest list and must_close",
 "C86": "the same invariant: the open descriptors of the process are the program's, must_close, the signal descriptor and the one in hand",
 "C87": "specify a connection by four facts (input unread, room, ended in, ended out) and how a turn changes them; prove the state bits are those facts and the armed events are the ones the facts ask for",
 "C88": "model spawn's calls over a set of open descriptors with arbitrary answers, and the posix_spawn file actions as operations on a descriptor table",
 "C89": "small-step model of the poll loop and two pipes under an arbitrary schedule; invariant got ++ unread = sent; at the end both pipes are empty",
 "C90": "Model of the record of a child (four descriptors in a 128-bit word, in a Pool), spawn, the events of the pid descriptor and the three pipes, the end of the loop; the reader of the trace as specification; an invariant that ties records, interest list, pending events, must_close, must_sigkill and the pool, kept by every step.",
 "C91": "A denotational meaning of source and of solved trees (state, value, jump, exit, divergence) in FoldSpec; the functions of the solver one by one in Fold; equality of meanings and truth of the claimed facts by induction over trees and over the folding loop, with the labels around an expression tracked so that an operand can be moved into a block.",
 "C92": "Three layers: the emitter as a function to pieces of text (Verif.CgExpr); C++ as a longest-match lexer plus a precedence grammar given as a relation, proved unambiguous (Verif.CgText, Verif.CppGram); two semantics, of the language (deterministic, left to right) and of C++ (a relation: any permutation of the operands, integral promotions, anything can happen on undefined behaviour) (Verif.CgMean). cg_reads, by induction over expressions: the text reads as the tree meant. The simulation (Verif.CgMain): every C++ evaluation of that tree has the outcome of the language, by induction with the freshness of temporaries as an invariant.",
 "C93": "The emitter as a function from statement trees to tokens (Verif.CgStmt); the grammar of C++ statements as a relation, with the dangling else, proved to read in one way (Verif.CppStmt, Verif.CppStmtRead); two semantics, one of the language where a jump carries the number of the block it leaves (Verif.StmtRun), one of C++ with break, continue, goto and labels (Verif.CppStmt). Simulation by induction on the statement (Verif.StmtSim, StmtSim2, StmtLoop): the invariant relates the blocks around to the labels written, and says that labels are numbered apart. Loops with `on enter` are rewritten first, which is proved to change nothing (Verif.StmtFlat).",
 "C94": "The stack is built by the pushes of solveBlock, solveLoop and solveFnDef for a list of places, with what a function hides as an arbitrary list; the lookups are the code's loops over reveach. An induction on the places gives the visible part of the stack, a second one each lookup; the specification goes from the inside out and knows no stack.",
 "C95": "cli_handle as a loop over an index into argv with fuel; the specification is a list of options, a relation of how they are written, and a record of what they ask for that does not depend on order. Induction on the way of writing gives what is read, induction on the fuel that nothing else is, and a measure of the letters left that it ends.",
 "C96": "Names as byte strings, built as the code builds them (serializeType of C-model Canon, decimal ids of Decstr); the cache as a map, running specializations as a stack of frames, each event one piece of doTrySpecialize. Invariant over all histories: every name a frame owns is bound to what the frame is working on, and names determine template and types. On top of it a semantic invariant relating every binding to what the solver would decide.",
 "C97": "Model the walk bck_node with its events, the used-in-a-loop set and the loop starts that propagateType computes backwards; give the function language a big-step semantics with bad references, jumps and unbounded iteration that knows nothing of the checker; prove soundness by induction on the function, for loops with the invariant that what the second time round could find bad and unnoticed is not read in the loop (a second induction over the walk, about variables older than the loop).",
 "C98": "Model Reference_trackLocalRef over a graph of parents and invalidations, and what bck_trackWrites takes from it; give every variable a place (root and steps) determined by what each reference was bound to; prove by induction over the bindings that overlapping references are connected.",
 "C99": "Model parse byte by byte (scan, step) with 16 and 32 bit numbers; prove that it goes line by line; an invariant of the state gives safety; run one character's lines symbolically, then fold over the characters of a written file."
}