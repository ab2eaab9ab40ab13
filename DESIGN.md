# Formal model of Schnek in Lean 4 — design

## Trusted base

* Lean 4.33.0's kernel. Theorems depend on at most the three standard axioms `propext`,
  `Classical.choice`, `Quot.sound`. No axioms of our own, no `sorry`, no `native_decide`,
  no `bv_decide`.
* The hand translation from C++ to Lean. Each definition in `lean/Verif/Model/*` cites
  the file and lines it models and says where it simplifies.

## Conventions of the model

* `Array<int,rank>` is a function `Fin n → ℤ`. C++ `int` is modelled as ℤ: signed overflow is
  outside of the model unless a theorem speaks about it explicitly (C116–C119 repeat the index
  arithmetic with 32 bits).
* `double`/`float` arithmetic is replaced by an exact ordered field (ℚ or any linear ordered
  field) where the property is about formulas. Where rounding decides (process cuts, lazy
  allocation statistics) the rounded quantity is an arbitrary oracle, so that the theorem holds
  for every rounding. `Model/Binary64.lean` is IEEE 754 binary64 itself; C121 repeats the
  coordinates of fields with it, C122 the times of diagnostics, C123 the choice of the process layout, C124 accumulation and sums over
  processes, C125 local extents.
* C++ undefined behaviour (null dereference, access outside of a buffer, use after free,
  division by zero, iterator range of another container) is a distinct outcome of the model,
  never a default value.
* Loops are translated to structural recursion on the loop counter; loops whose termination is
  itself a property get a step relation or fuel, and termination is a theorem.

## Layout

* `lean/Verif/Model/…` the code, function by function.
* `lean/Verif/Spec/…`  what the properties mean, written without the model.
* `lean/Verif/Lemma/…` auxiliary lemmas.
* `lean/Verif/Props/…` the property theorems, each followed by an `example` showing that the
  hypotheses can be met.

## Plan per property

| id | modelled | how proved |
|----|----------|------------|
| C01, C03 | `Range::begin/end/iterator::increment/==` as a state machine (pos, atEnd) | iterated increment = spec enumeration, by induction on rank; negation for empty ranges |
| C02 | recursive `forEach` with its mutable position | trace = spec enumeration by induction on the remaining dimensions |
| C04–C06 | `get`, `updateDataFast`, `stride`, `updateSizeInfo` | mixed radix induction on rank |
| C07 | storage as buffer + address arithmetic; writes, fills, `+=` | from C04/C05 injectivity |
| C08 | the three checking policies as functions returning value / abort + error state | componentwise |
| C09, C10 | heap of buffers, share records with callback sets, live objects; construct / copy / assign / resize / destroy steps; use-after-free and out-of-sync as outcomes | inductive invariant over all histories; negation for assignment |
| C11 | lazy allocation with the floating point decisions as oracles | invariant size ≤ bufSize; negation for assignment |
| C12 | views + shared callbacks | negation |
| C13 | Field constructors and resizes | linear arithmetic |
| C14 | conversions over a linear ordered field | field_simp / floor lemmas |
| C15, C16 | Boundary domains | linear arithmetic per dimension |
| C17–C19 | exchange / accumulate as loops over two parallel range iterators | loop = simultaneous assignment, then induction over dimensions |
| C20–C22 | sieve, factorize, distribute | induction; negation for optimality |
| C23, C24 | init's integer arithmetic with an arbitrary monotone cut function | telescoping |
| C25, C26 | all processes' local grids as one state; sendrecv as simultaneous neighbour permutation | refinement of the global periodic field |
| C27 | mixed radix id | injectivity |
| C28 | bytes, memcpy as encode/decode with fixed size | list induction |
| C29, C30 | grammar as an inductive syntax, semantic actions, `BinaryOp` flattening | structural induction against a left-to-right reference semantics; negation for mixed types |
| C31–C33 | expression objects | structural induction |
| C34–C37 | dependency map, Kahn's algorithm as in the code | graph reachability, loop invariants |
| C38–C41 | block tree with variables and cursor | induction on depth / on histories |
| C42, C43 | parser actions on the two cursors | simulation invariant over all token histories |
| C44, C45 | Block tree, getData, initAll | structural induction |
| C46–C48 | diagnostics as state machines | invariants |
| C49, C50 | sub-grid, fill_field | from C01, C07 |
| C51–C53 | small | direct |
| C54, C84–C88 | the generated tables of `deckscanner.cpp` verbatim, the interpreter loop with its gotos as a step function, the refill of the buffer | derivatives of the patterns of `deckscanner.rl` as certificates for the states (checked by the kernel for all states and bytes), simulation of the buffered loop by longest-match tokenisation; non-termination by a loop invariant |
| C89–C93 | the generated tables of `deckgrammar.inc` verbatim, `Parse` with its stack of 100 entries, overflow and error handling as a step function, arbitrary actions | LALR(1) items with lookaheads as certificates for the states (checked by the kernel for all states and tokens): completeness by induction over derivations, soundness by an invariant on the stack, termination by a measure, correct prefix property by viable items; unambiguity as a corollary |
| C94–C98 | the text as bytes; scanner, lemon parser and the actions of `deckgrammar.y` on `ParserToken`s composed as in `Parser::parse`; the spec says which tokens a statement has | every statement has a derivation whose evaluation is the statement's effect, and every derivation is of this form (by cases over the rules); unambiguity (C91) and C84, C89, C90, C93 give the rest; insertion of layout by the states reachable after a match |
| C55 | as C13, with the callback that a resize of a copy triggers | equivalence |
| C56 | all processes' local grids as one state, two buffered phases per dimension | invariant over the dimensions, sums over fibres of the periodic map |
| C57, C58 | as C34–C37 | graph reachability |
| C59–C64 | statements as semantic actions on the variable store and the block tree, parse-time constant folding, final `updateAll` | induction over statement lists, store invariants |
| C65 | as C44 | case analysis; negation |
| C66, C67 | file name substitution; diagnostics as state machines | list reasoning; simulation of two histories |
| C68–C71 | HDF5 datasets as functions from positions to values, hyperslab selections, file handle table | refinement to the global field; histories |
| C72 | static members as global state | induction over calls; negation |
| C73–C75 | sub-grid and transform storages over a base grid | from C07, C08 |
| C76–C78 | arrays, means, stream output as lists of characters | direct / induction on rank |
| C79–C82 | serial and MPI subdivision initialisation side by side | linear arithmetic, from C23 |
| C99–C101 | the references, the manager's maps and both output files as text; the spec reads the written files back with a small BibTeX and LaTeX reader | induction over the calls (sorted map insertion) and over the characters of the output |
| C102, C103 | `grow` as a loop over the directions with an argument that may refer to a limit of the range; projections | componentwise; negation for aliased arguments and empty ranges |
| C104 | `getBoundaryDomain` and the sub-grid made of it | from C49; negation for one ghost layer |
| C105, C106 | every process executes its own instruction list of `exchange`/`accumulate`; `MPI_Sendrecv` as post, receive and return in any interleaving, FIFO channels, messages buffered or not | lockstep execution (C25, C56) as reference; invariant: a process is at most one round away from its neighbours as far as the messages in the channels tell; progress at the process that is furthest behind; measure for the bound |
| C107 | a stencil program around `exchangeCode` | induction over the time steps with C25, then as C105 |
| C108 | `forEach` of both sequential policies with a function object that has a state and gets the position by reference | loop rule for each level, induction over the dimensions; negation for objects with state and for functions that change the position |
| C109 | calls as programs of reads and writes, interleaved in any way | invariant over interleavings for race-free functions; negation for two increments |
| C110 | `BlockContainer`, `ChildBlock::preInit` during the calls of `initAll` | from C45 (the order of the calls); sorted lists |
| C111 | composition: text, tokens, statements, variables, parameters, program variables | C149 + C41 + frame rule + C59 + C62; invariant for variables that are never assigned to |
| C112 | programs as lists of calls on variables (lenses) of the process data; `exchangeData` with its two `MPI_Sendrecv`, the second with counts known only at run time; `MPI_Allreduce` as entering and leaving | the invariant of C105 with a second kind of round for collective calls; lifting of C25/C56 along a lens; C83; induction over the program. `sumReduce(double)` and `avgReduce(double)` are left out: their result depends on the order in which MPI adds |
| C113 | function registries as handles to shared maps; the standard functions with the mathematical library as a parameter | invariant that relates handles to their origins; the last registration by reverse induction |
| C114 | block class registries as handles to shared maps of descriptors; references to descriptors | the same invariant, with the origin of each reference; negation for registering again |
| C115 | output streams with a buffer of any size, on a disk shared by several diagnostics and processes | simulation of the calls of C46/C47 by streams; frame rule for files nobody else opens; C66 for the names |
| C116–C119 | iterators, loops, offsets, boundaries, fields, exchange once more with `int` of 32 and `ptrdiff_t` of 64 bits, overflow as a distinct outcome (`none`) | equality with the functions on ℤ under explicit limits, so that C01–C07, C10–C19, C25 carry over; bounds on the partial offsets by induction; overflow for all ranges beyond the limits |
| C120 | programs with `if` and `while`; each process has a list of what it still has to do and evaluates conditions with its own data when it gets there; beginning a statement is an instruction that changes no data | the run of all processes together yields a common history of data and remaining statements; every state under a schedule lies on this history (lock step simulation by the program of C112); for programs that do not end, a history longer than the number of steps; a two process counterexample if decisions differ |
| C121 | IEEE 754 binary64: values `m·2^e`, operations round the exact rational result to the nearest value, ties to even; overflow and division by zero have no result; `positionToIndex` and `indexToPosition` with each operation rounded | rounding is monotone, the nearest value and has a relative error of 2^-53; forward error analysis; dyadic numbers for the exact case; the failing round trip computed with explicit significands |
| C122 | physical time diagnostics and a simulation that uses `adjustDeltaT`, with all times in binary64 | invariant: the time is not after the next double after `nextOutput`; the sum advances by more than one double; relative error of a sum by induction |
| C123 | `equalFactors` of C20–C22 with binary64 operations; `sqrt` is any function that returns a nearest double | relative errors through the recursion; costs are fractions with a common denominator |
| C124 | `accumulate` of C19, C56 and C106 for any type with an operation `+`, no laws assumed; `double` as the instance with rounding; `sumReduce`, `avgReduce` of `double` as reductions in any order | run the code on pairs of a value and the multiset of the summands it was made from; error bound by induction over the order of the sum |
| C125 | `getInnerExtent` and `indexToPosition` of local fields in binary64 | error bounds of C121 composed with those of the local limits; witnesses by evaluation |
| C126 | the simulation of C107, the HDF5 functions of C68, and the simulation again, on two process layouts | composition of `C107_simulation`, `C68_mpi_partial` and `C68_read`; `evolve` is additive in the number of steps; `C126_grids` shows that the grids assumed always exist |
| C127 | `resize` with `new` throwing (`Model/AllocationFailure.lean`), as an additional step of the heap model of C08–C10 | every reachable heap differs from one that meets the invariant of C08 only in the members of grids whose record has no buffer (`Mends`); all operations preserve this; `Stale`: a data pointer is that of the record, or freed |
| C128 | the parallel programs of C112 with processes that stop at any time and messages that get lost (`Model/Crash.lean`) | each such run is a run without failure in which some messages are not yet received (`crash_shadow`); the invariant of C105 places each process in the common history, which is determined by the program (`rounds_unique`) |
| C129 | attribute objects (shared by streams), variables of the program with addresses and lifetimes, and the calls that change them (`Model/HdfAttributes.lean`); only the first process creates attributes although parallel HDF5 requires the creation to be collective, this is not modelled | induction over the calls; the objects are described by the last call of `set` for each name, the memory by the last assignment |
| C130 | the model of C41 to C64 (`Model/Deck.lean`) | invariant over the statements: every registered member still has the value it was made with (`einv_after`) |
| C131 | several calls of `parse`: the variables and the current block stay in the parser, the tree of blocks is new (`Model/Files.lean`); lifetimes of blocks made for earlier files are not modelled | reading only adds (`Later`); the variable of a parameter of a further root block is in no block, so no statement can assign to it (`run_orphan`) |
| C132 | `ParametersGroup` as a set of ids (`Model/ParametersGroup.lean`); iterators know the set they belong to, so that `hasElements` is undefined | an id is the old one or one not in use before (`NewIds`); ids change exactly with accepted assignments (`id_iff`) |
| C133 | `+=`, `-=` of two sub-grids with one base grid: every step reads the grid as the steps before left it (`Model/SubGridShared.lean`) | the window of the second, shifted, is visited in the same order; induction on the loop with the condition that nothing that is still to be read has been written; a concrete overlap for the negation |
| C134 | objects at addresses, each with the buffers and the communicator it refers to; what has been created and not freed (`Model/SubdivisionLifetime.lean`) | invariant over all histories: what is live belongs to exactly one object; concrete histories for the negation |
| C135 | the tree of blocks of C42 with all shared pointers to blocks (program, `BlockTree` and tokens that keep it, `parent`, `children`); a block may be destroyed when there is no pointer to it; diagnostics have the streams of C115 (`Model/BlockLifetime.lean`) | invariant: what has a pointer to it exists, parent and child point to each other; every file's tree is made by these steps |
| C136 | the objects of one stream in all processes, with the flags of `setActive`, the communicators and open files; MPI and HDF5 by their rules for collective calls (`HdfActive`) | explicit state after each round (choose, open, transfers, close), induction over rounds |
| C137 | objects of class `Array` with their policy and elements with or without values, programs as sequences of operations on them (`ArrayObjects`) | simulation between the program with and without checks, invariant (lengths and policies), closed forms of the loops |
| C138 | what an exception leaves behind: `update` (`evaluateThrow`, `updateThrow` in `Model/Dependencies.lean`) `evaluateParameters` (`evaluateParametersThrow` in `Model/Blocks.lean`) and `fill_field` (`fillThrow` in `Model/FieldTools.lean`); exceptions by type mismatches in `boost::get` of `Parameter::update` are left out | failed updates are a further step of the histories of C35, the invariant holds for the variables evaluated so far; evaluating a list does not depend on what its variables held before; for parameters the loop is cut where the exception is, in the list sorted by blocks and names |
| C139 | which exception an action throws and the lines of tokens on the parser's stack (`Model/ParserError.lean`: `lineAct`, `excAct`, `ParsesExc`) beside the actions of C94; the wording of messages and the file name in `getFilename` are left out | a forest of the grammar is evaluated by the actions with lines (`LemonMap`: projecting the lines away gives the run of C94); an invariant of the value of every nonterminal (`Good`, `Reads`) is shown for all 48 rules, and from it what each throwing action says (`tells_rule`); `LemonSound` gives the action that throws and what has been reduced before it |
| C140 | the evaluation of expressions with exceptions and undefined behaviour told apart (`Model/Fault.lean`: `Expr.tryEval`); `Expr.eval`, on which all earlier theorems rest, is its projection (`C140_refines`) | mutual induction on expressions, operands and arguments: a fault is traced to the part of the expression that has it (`reason`), and a part without value makes the whole have none (`strict`); induction on the grammar's derivations for the types (`refs_expression`) |
| C141 | everything from the text of the file to the program's variables: scanner, parser, blocks, dependency map and updater together (`Spec/Session.lean`: what a program can do, and the value a file gives to a variable); no new model definitions | the file is read with the invariant that definitions only mention declared variables and that the formula of a read-only parameter is the program's variable (`Lemma/SessionDeck.lean`); each step of a session is a step of the histories of C35 (`session_inv`), whose result is turned into the value of the file by induction along the graph of formulas; the tests of testsuite/test_parser.cpp follow for all values of `xi` and `yi` (`Props/UnitTests.lean`) |
| C142 | the same together with `fill_field`; no new model definitions | each cell is a step of the session of C141 that changes only the coordinates, followed by an update; C141 gives the value at each cell, and that value does not depend on what the steps before have left in the computed variables. Proved for exact arithmetic on positions |
| C143 | threads that perform single reads and writes of the static variables (`Model/Singleton.lean`), sequentially consistent; the C++ standard calls this a data race and promises less | invariants over all schedules; a concrete schedule for the negation |
| C144 | template recursion as functions on lists (`Model/TypeList.lean`) | induction on the list |
| C145 | `boost::lexical_cast` between text and numbers as functions on lists of characters, `double` as in C121 (`Model/NumberText.lean`; the library is not in the repository: what is modelled is its documented behaviour); a grammar for the text of numbers (`Spec/NumberText.lean`) | the functions accept exactly the grammar; the decimal number with 17 digits is closer to the double it stands for than half the distance to the next one; tokens of the scanner matched against the grammar |
| C146 | average, variance and size of the buffer of one grid in exact rational arithmetic, with the condition and the extra room of `resizeImpl` (`Model/LazyStatistics.lean`; the decision to reallocate and the size of an allocation are those of `Model/Allocation.lean`, where the statistics are inputs) | the comparison without square roots equals the one with them; bounds by induction over the history; settling from the geometric decay of the average and the variance; the late throwing away from bounds on the deviations going back from the variance at the end |
| C147 | evaluation of expressions and `update` once more, with functions that change the outside world and a record of the calls (`Model/Calls.lean`; the effects are arbitrary) | induction over the expression; the loop of an update over the list of C34, with the invariant of C35 without its claims on values; the functions of the built expression against those of the text by induction over the derivation; without effects it equals the update of C35 |
| C148 | the parameters of the classes of diagnostics, the members of a block after evaluation, and the list of the diagnostic manager (`Model/DiagnosticDeck.lean`, on top of `Model/Deck.lean`, `Model/Blocks.lean` and `Model/Diagnostic.lean`) | C111 gives the values of the members; with these C115, C46 and C47 give the files and times |
| C149 | the parser of `Model/Lemon.lean` and the text level of C94, derivations of any size | the run of a derivation that needs more than the stack (`Lemma/LemonOverflow.lean`): the state in which a token is lost is above the first four entries, and for all such states, the next two tokens that the grammar allows are an error in the initial state (a check of the table by the kernel, over all states); with `deck_run` this is an equivalence |
| C150 | the members of grid diagnostics and readers as grid objects of `Model/Allocation.lean` with the contents of the buffers, `init`, and the datasets of `Model/Hdf.lean` | the copies made by `init` share the data of the field; sharing is an invariant of all later steps (C09); C68 for what is written and read |
| C151 | the parser of `Model/Lemon.lean`; sums, products, parentheses, calls and declarations of every length as sequences of tokens | derivations of every length with the exact number of stack entries they need; C149 |
| C152 | sub-grid objects with the address of the base grid, on top of the heap of `Model/Allocation.lean` (`Model/SubGridHistory.lean`) | the limits change only by operations on the sub-grid; a grid stays alive until it is destroyed (case analysis of the operations); C09 for the elements |
| C153 | reference counts over the objects of the file after reading (`Model/VarLifetime.lean`), graph of pointers stated from blocks, declarations and formulas (`Spec/VarLifetime.lean`) | invariant: what an existing object points to exists; a set in which each object is pointed to from the set is never destroyed; without pointers from outside, going backwards along pointers in a finite graph ends in a cycle |
| C154 | loop with the range as an arbitrary function of the number of the round (`Model/RangeChange.lean`) | each step goes up in lexicographic order and stays in the bounding box, so the loop ends; a position inside of all ranges is not jumped over (first differing component); induction over the loop |
| C155 | the text of the sequence of elements and separators of C78, `double` with six significant digits (`Model/GridText.lean`); words of a text (`Spec/GridText.lean`) | every separator but the last is whitespace and not empty, induction over the elements; the texts of C145 for the numbers |
| C156 | the text of a list of settings, numbers or strings (`Spec/SettingsText.lean`, `Spec/MixedSettings.lean`, `Spec/AssignedSettings.lean`, `Spec/TypedSettings.lean`) or of nested blocks of settings (`Spec/BlockFile.lean`), the scanner, the parser and the statements as modelled for C54, C94, C59 | the tokens of one line in front of a text that is read, from the derivatives of the patterns; the statements of the tokens; induction over the settings, and over the tree of blocks, for the variables, no cycle at the end |
| C157 | the statements as modelled for C41 and C59 (`Model/Deck.lean`) | both directions; for lists by induction over the declarations, which are stored last to first: values of built expressions do not change while new variables are added (`evaluate_later`), and each stored name is new for the rest |
| C158 | the statements as modelled for C42 (`Model/Deck.lean`), the allowed classes of the program (`Spec/BlockNesting.lean`) | invariant over all statements: the classes allowed inside a class are those of the program, although `get` registers unknown classes, and every block is allowed in the one around it; names as in C38, braces as in C43 |
| C83 | MPI reductions as folds over any bracketing and order | commutative monoid |

## What the code violates

The claims below are false of the code at the pinned commit. For each there is a theorem
`Cxx_violated_…` with a witness, and a theorem that says what does hold.

| id | what happens | where |
|----|--------------|-------|
| C03, C18 | the iterator of an empty range yields one index outside of the range; exchange without ghost cells therefore accesses a cell outside of the grid | `range.hpp` iterator, `domainsubdivision.t` |
| C09, C10, C11 | assigning to a grid that shares data leaves the old share's callback in place; the callback of a destroyed grid is called; the lazy allocation's buffer size is not copied | `single-array-grid-storage-base`, `lazy-array-allocation` |
| C11 | `LazyArrayGridStorage` cannot be resized as the code stands: the lazy policy declares its indices and ranges with `size_t`, the storage class passes `int` arrays, and there is no conversion between them, so that instantiating `resize` does not compile. The model is the policy with `int` indices (what `size_t` arithmetic of the same numbers gives), so that the claims are about the algorithm | `single-array-allocation.hpp` 181-184, `single-array-storage-base.hpp` 358-361 |
| C12 | copies of a resized Kokkos grid keep the old view | `kokkos-grid-storage` |
| C22 | the smallest prime factor of the process count always goes to dimension 0 | `util/factor.cpp` |
| C23, C80 | the lower limit of the global domain is ignored in the cuts | `mpisubdivision.t` |
| C26 | the size of the communication buffers overflows `int` for large faces | `mpisubdivision.t` |
| C30 | `10.0-3-2` is 9.0: all-integer right operands are evaluated first | `deckgrammar.y`, `expression.t` |
| C37, C57, C58 | `recreate` throws; entries without variable stay in the map | `dependencies.cpp` |
| C39 | `exists` disagrees with `getVariable` (enclosing blocks, null pointer, separator) | `variables/variables.cpp` |
| C43 | missing closing braces are accepted | `deckgrammar.y` |
| C45 | `initAll` of a block at depth two or more does not terminate | `block.cpp` |
| C46, C47, C48, C66, C67 | appending diagnostics without open file after a restart; late outputs; unset clocks dereferenced; `#p#t` ambiguous; single-output diagnostics desynchronise the time step | `diagnostic.*` |
| C52 | `drand()` can return 1 | `functions.cpp` |
| C53, C76 | mixed-type array expressions are evaluated in `int`; NaN compares `<`; `crossProduct` with aliased result | `array*.{hpp,t}` |
| C54 | the scanner never returns if a token, string or `//` comment has 128 characters or more | `deckscanner.rl` |
| C55 | copies of a resized field keep their own ghost width | `field.t` |
| C60, C61, C63 | definitions are re-evaluated at the end, so later assignments change earlier definitions; parameters without value are usable; declaration lists do not see their own names | `deckgrammar.y`, `parsertoken.*` |
| C62, C64, C65 | two parameters of one name; blocks below a root without factory are lost; pointers hide objects | `block*.{cpp,hpp}` |
| C68–C71 | Fortran-ordered grids are permuted; unsigned comparison; dataset name collisions; double close | `hdfdiagnostic`, `hdf5` streams |
| C72–C75 | static adder; one shared value slot; unchecked windows; stale dimensions | `fieldtools`, `gridtransform`, `subgrid` |
| C79, C81 | serial and MPI `init` interpret their limits differently; serial `exchangeData` aliases its buffers; MPI `exchangeData` with buffers that share data resizes, and thereby empties, the input before it has been sent | `domainsubdivision` |
| C85–C88 | a final `//` comment without line break is tokenised; unclosed strings and comments drop the rest silently; `e+5` is a number; escapes are kept | `deckscanner.rl` |
| C89, C90 | a stack overflow of the lemon parser drops the tokens read so far without notice: long sums are rejected, and a file that does not follow the grammar is accepted with an assignment missing | `deckgrammar.y` (no `%stack_overflow`), `deckgrammar.inc` |
| C96 | after a stack overflow a correct text is rejected, with the error reported at a token that is not wrong | `deckgrammar.y` |
| C94, C95, C97, C98 | an empty file is rejected; everything after an illegal character or in an unclosed string or comment is ignored and the file is accepted; a missing final line break after a comment changes the result; long names make the scanner loop for ever | `deckscanner.rl`, `parser.cpp` |
| C93 | a syntax error at the end of the file (also of an empty file) is a `ParserInternalError`, unknown outside of `parser.cpp`, without position | `parser.cpp` |
| C100, C101 | `school` and `organization` are stored in the wrong field and never written; a reference of the base class has an uninitialised type; a second reference with a known key is dropped | `tools/literature.cpp` |
| C102, C103 | `r.grow(r.getHi(0))` grows by changing amounts; the projection of an empty range may have cells | `range.hpp` |
| C108 | `forEach` passes the function object by value at every level, so each call works on a fresh copy and state is lost; the position is passed by non-const reference, so a function can change the loop | `range-iteration.hpp` |
| C109 | functions whose calls conflict | `kokkos-iteration.hpp` (inherent in parallel loops) |
| C109 | `forEach` with Kokkos does not wait for the calls it has started; there is no `fence` in it, unlike the other policies the program may go on before the calls are made | `kokkos-iteration.hpp` 94-106, 116-137 |
| C114 | registering a block class again discards its children, and references to it dangle | `blockclasses.cpp` |
| C115 | appending: executing step 0 twice loses all later output, a run that does not begin at step 0 writes nothing, and several processes write to one file (`#p` is not replaced); all without a message | `diagnostic.t`, `diagnostic.cpp` |
| C116 | every loop over a non-empty range that contains the largest `int` overflows | `range.hpp`, `range-iteration.hpp` |
| C117 | the offset of large grids far from the origin overflows 64 bits; `-getLo(0)` overflows for the smallest `int`; `getSize()` of a 65536 × 65536 grid is 0 | `single-array-storage-base.hpp` |
| C118 | the local domains overflow if the global domain ends less than the number of ghost cells below the largest `int` | `mpisubdivision.t` |
| C119 | `positionToIndex` converts a `double` that does not fit to `int`; ghost cells of large fields overflow | `field.t` |
| C121 | `positionToIndex(indexToPosition(29))` is 28 for 100 cells in [0, 1] (rounding); the offset can be 1 | `field.t` |
| C122 | outputs are not at multiples of `deltaTime` (rounding of the sum); an output can be stepped over by one double; when `deltaTime` is lost in `nextOutput += deltaTime` there is output in each step | `diagnostic.cpp` |
| C125 | two processes may compute different positions for one cell (6 cells on 2 processes, extent 0 to 1, cell 2), so filling ghost cells and exchanging them give different values; the last process may end before the upper end of the extent (49 cells) | `domainsubdivision.hpp` `getInnerExtent`, `field.t` |
| C127 | after a `resize` that throws, all elements of the grid and of its copies are inaccessible (freed memory or NULL) and their ranges disagree; with the lazy policy the next smaller `resize` succeeds without allocating memory, because `bufSize` was set before `new` threw | `single-array-allocation.hpp` 336-369, 445-492 |
| C129 | `HdfAttributes::set(name, value)` keeps the address of the value: the file gets the value at the time of writing, and a temporary or a local variable is read after its end | `hdfdiagnostic.t` 34-51, 304-318 |
| C131 | a second file read with the same parser cannot set the parameters of its root block: `addVariable` fails silently because the name exists, the parameter is linked to a variable that has no name | `blockparameters.hpp` 186, `parser.cpp` 70-77 |
| C131 | a file that ends inside a block, or is rejected there, makes the next file start inside this block; after an error, declarations before the error remain, and the corrected file is rejected | `parser.cpp` 55-101 |
| C132 | a parameter that is set in the file leaves the groups it was added to, because assignment replaces the id of the variable; `hasElements` erases a range of iterators of another set, which is undefined | `variables.cpp` 106-116, `blockparameters.cpp` 32-56 |
| C133 | sub-grids of one grid that overlap: if the second starts earlier in the order of the iteration, cells are read after they have been changed (adding the window that lies one cell lower gives running sums) | `grid.t` 415-436, 474-495 |
| C12 | a Kokkos grid constructed without arguments reports a range of one cell but has no memory for it | `kokkos-storage.hpp` 226-233 |
| C134 | a copy of an MPI subdivision object shares the buffers and the communicator with the original, and both free them; a second `init` loses those of the first | `mpisubdivision.t` 64-150 |
| C135 | a block and its parent hold `shared_ptr`s to each other: no block of a tree with two or more blocks is ever destroyed; a diagnostic that appends closes its file only in its destructor, so at the end of the program the text in the stream's buffer is lost | `block.hpp` 69, 70, `diagnostic.t` |
| C135 | `parse` does not free the parser when an exception is thrown (`ParseFree` is skipped); its tokens hold `shared_ptr`s to the `BlockTree`, so the outermost block of a rejected file is never destroyed | `parser.cpp` 84-95, `parsercontext.hpp` 44, `C135_violated_rejected` |
| C136 | `makeMPIGroup` does not set `commSet`: an input stream with inactive processes opens its second file with all processes and hangs; an output stream keeps the communicator of its first file, so that a changed choice hangs; a choice made in some processes only hangs; no attributes are written if process 0 is inactive; `readGrid` fails in inactive processes; copies are active everywhere, and a copy of a used output stream has an uninitialised property list | `hdfdiagnostic.cpp`, `hdfdiagnostic.t` |
| C139 | an integer literal that does not fit into `int` (`int a = 99999999999;`) or a number out of the range of `double` is reported by `boost::bad_lexical_cast`, which is neither a `ParserError` nor an `EvaluationException`: a program that follows the manual is terminated without a line number | `C139_violated_number` |
| C139 | a division of integers by zero or an overflow in a constant of the file (`int a = 1/0;`) is not reported by an exception, but is undefined behaviour (on most machines the program is killed by a signal) | `C139_violated_division` |
| C141 | a formula that cannot be evaluated while the file is read (`n = s;` with the read-only string `s = "abc"`) is not reported: the exception is caught in `DependencyMap::updateAll`. If no independent parameter is added, `update` succeeds and the program's `n` becomes 0 | `C141_violated_swallowed` |
| C143 | two threads that call `instance()` for the first time at once get different objects, and what the first one registers is lost; two objects made at once by two threads can have the same id | `C143_violated_threads`, `C143_violated_ids` |
| C145 | a point alone (`x = .;`) and an exponent alone (`x = e+5;`) are literals for the scanner, but they have no value: the file is rejected by `boost::bad_lexical_cast` instead of a syntax error | `C145_violated_no_digit` |
| C146 | lazy storage reallocates at every resize when the size alternates between N and N+1 (N ≥ 100): `ptrdiff_t diff` cuts off the deviation, the variance goes to zero, and one element less is enough to throw the buffer away | `C146_violated_alternating` |
| C148 | `interval = 0` in a setup file is accepted; each execution of the diagnostic then takes the remainder of a division by zero | `C148_violated_zero` |
| C150 | the bounds of a grid diagnostic are taken when it is initialised: after the field has been resized the dataset has the old extents, and the output fails if the field has been made smaller | `C150_violated_resized` |
| C150 | after an assignment to the field the diagnostic goes on writing the old values | `C150_violated_assigned` |
| C150 | the default constructor of `HDFGridReader` is declared (hdfdiagnostic.hpp 299) but not defined, so that a program with a class derived from it cannot be linked unless it provides one | (not a statement about executions) |
| C151 | a sum of 49 numbers is accepted as the first statement of a setup file, and is a syntax error after another statement | `C151_place` |
| C104 | the boundary of a staggered field with one ghost layer is an empty sub-grid; assigning to it still sets the ghost layer (or aborts) | `boundary.t`, `subgrid.t` |
| C152 | after the base grid has been made smaller, a sub-grid reaches outside of the memory of the grid; `GridAssertCheck` and `GridDebugCheck` of sub-grid and grid compare with the limits of the sub-grid only | `C152_violated_shrunk` |
| C152 | a sub-grid of a grid object that has been destroyed is unusable although a copy of the grid keeps the data alive | `C152_violated_destroyed` |
| C153 | a file with at least one block in it leaks all its blocks of variables and variables: parent and child hold each other by `shared_ptr` | `C153_violated_blocks` |
| C153 | a variable assigned a formula with itself in it (`x = x + 1;`) is never destroyed | `C153_violated_cycles` |
| C154 | a loop over a range that gets smaller passes positions outside of the range | `C154_violated_outside` |
| C154 | a range-based `for` over a range does not end if the lower limit of the range is raised in the loop | `C154_violated_saved` |
| C155 | the text of a grid with one index, or of an array, does not end with a separator: outputs that are appended to a file run into each other (`1 2` and `5 6` give `1 25 6`) | `C155_violated_followed` |
| C155 | diagnostics write `double` with six digits (the line that set the precision is commented out): values are lost | `C155_violated_double` |
| C156 | `int n = -2147483648;` is rejected: the sign is an operator, and the digits alone are no `int` | `C156_violated_least` |
| C156 | the file of a program that has no settings is empty, and rejected | `C156_violated_none` |
| C156 | `double x = 12;`, which is what a program writes for the value 12.0 of type `double`, is rejected by every program (see C157) | `C156_violated_whole_double` |
| C157 | `double x = 3;` is refused everywhere ("Can't convert expression to float"): a declaration requires the type of the expression to be the declared one, an assignment converts | `C157_violated_integer_for_float` |
| C158 | a program that does not restrict blocks accepts blocks of unknown classes; the text "Unknown block class" is only used when the class of the current block is unknown | `C158_violated_unknown_class` |

Seen while reading, outside of the properties: `SerialSubdivision` and `MPICartSubdivision` hide
`accumulate(grid)` (no `using`); a second `init` of the MPI subdivision leaks its buffers;
`UNARY_EXPR` has template parameters that cannot be deduced; `SubGridStorage` and
`GridTransformStorage` lack `RangeType`; the checking policy of `GridTransform` is declared
`template<int>` but used with `size_t`; the scanner computes with a stale or null `te` (formally
undefined, harmless in practice), keeps its buffer in a static variable, and reads `char` as
signed (the tables rely on it).

## Modelled and not modelled

Modelled: ranges and iteration, storage orders, single array and lazy allocation with shared data,
Kokkos storage (as views), checking policies, arrays and array expressions, fields and coordinates,
boundaries, serial and MPI subdivision (init, exchange, accumulate, exchangeData, extents; exchange, accumulate, exchangeData and reductions also with processes at their own pace,
reductions), process factorisation, data buffers, sub-grids and transformed grids, field filling,
text output, the deck scanner (tables and driver), the lemon parser (tables and driver), the deck
grammar's semantic actions and `ParserToken`, `Parser::parse` from text to result,
expressions, variables, blocks, block classes, parameters, dependencies and updates, shared block
data, the block life cycle, diagnostics and their manager, HDF5 streams, unique ids, random
numbers, literature references and their output files, function objects in `forEach`, parallel
iteration with Kokkos (calls interleaved at the level of single reads and writes), block containers,
function and block class registries with the standard functions, text files of diagnostics with their
streams and buffers, singletons and ids with threads, lists of types, the conversion
between numbers and text.

Not modelled: other template meta-programming (compile-time dispatch), logging, threads except in C143 and parallel iteration, the internals of MPI,
HDF5 and Kokkos (only the documented effect of the calls that are made), IEEE rounding (except C121–C125 and C145, see
conventions), signed `int` overflow (except C26, C83 and, for ranges, grids, boundaries, fields and ghost cell exchange, C116–C119), stack unwinding of C++ exceptions (except a throwing `resize`, C127),
the command line programs and the functional-test codes.
