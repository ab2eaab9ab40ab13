{"id": "C01", "title": "Range iterator enumerates a non-empty range exactly once", "statement": "For a range whose bounds satisfy lo<=hi in every dimension, stepping an iterator from begin() until it compares equal to end() produces every index with lo<=index<=hi exactly once, produces nothing else, and produces them in lexicographic order (last dimension fastest).", "quantifier": "every rank, every pair of corner indices with lo<=hi componentwise", "why_tests_cant": "The property ranges over all ranks and all integer corners; a test enumerates a few small boxes.", "anchors": ["src/grid/range.hpp: Range::iterator::increment, begin, end, operator=="]}
{"id": "C02", "title": "forEach policies visit every index of the range exactly once, in the documented order", "statement": "RangeCIterationPolicy::forEach calls the functor once for every index inside the range and for no other index, in lexicographic order; RangeFortranIterationPolicy::forEach visits the same set of indices, once each, with the first dimension fastest. An empty range produces no call at all.", "quantifier": "every rank, every pair of corners (including empty ranges)", "why_tests_cant": "Unbounded ranks and extents; order and multiplicity must hold for all of them.", "anchors": ["src/grid/iteration/range-iteration.hpp: RangeCIterationPolicy::forEach, RangeFortranIterationPolicy::forEach"]}
{"id": "C03", "title": "Iterating an empty range produces no element", "statement": "For a range that contains no index (hi<lo in some dimension) begin()==end(), i.e. a loop over the range has no iteration. (FINDING: violated. The iterator always produces at least one index, and that index is outside of the range; Range iterator and forEach disagree on every empty range.)", "quantifier": "every rank >= 1, every range with hi<lo in some dimension", "why_tests_cant": "The claim is about all empty ranges; the negation needs a proof that every empty range misbehaves, not just one.", "anchors": ["src/grid/range.hpp: Range::begin, Range::end, Range::iterator::increment", "src/grid/iteration/range-iteration.hpp"]}
{"id": "C04", "title": "C-order storage is a bijection from the index range to the buffer", "statement": "For a grid with C-ordered single array storage and range lo..hi, the addresses of different indices of the range are different, every address lies inside the allocated buffer [0,size), and every buffer slot is the address of some index of the range.", "quantifier": "every rank >= 1, every lo<=hi", "why_tests_cant": "Address arithmetic must be injective and in bounds for all shapes; tests cover a handful of shapes.", "anchors": ["src/grid/gridstorage/single-array-storage-base.hpp: SingleArrayGridCOrderStorageBase::get, updateDataFast", "src/grid/gridstorage/single-array-allocation.hpp: updateSizeInfo"]}
{"id": "C05", "title": "Fortran-order storage is a bijection from the index range to the buffer", "statement": "Same as C04 for the Fortran-ordered storage policy.", "quantifier": "every rank >= 1, every lo<=hi", "why_tests_cant": "Same as C04.", "anchors": ["src/grid/gridstorage/single-array-storage-base.hpp: SingleArrayGridFortranOrderStorageBase::get, updateDataFast"]}
{"id": "C06", "title": "Strides and raw iteration order match index order", "statement": "Increasing index component d by one moves the address by exactly stride(d); iterating the raw storage with begin()/end() visits the elements in lexicographic index order for the C storage and in first-dimension-fastest order for the Fortran storage, so raw iteration order equals the order of the matching forEach policy.", "quantifier": "every rank >= 1, every lo<=hi, every dimension, every pair of neighbouring indices", "why_tests_cant": "Holds for every shape or for none; numerical kernels rely on it for arbitrary sizes.", "anchors": ["src/grid/gridstorage/single-array-storage-base.hpp: stride, begin, end, get", "src/grid/iteration/range-iteration.hpp"]}
{"id": "C07", "title": "A grid behaves like a map from indices to values", "statement": "After writing v at index i, reading index i returns v and reading any other index of the range returns what it returned before. Assigning a scalar to the grid makes every index read that scalar. The operators += and -= with a grid of the same shape act elementwise.", "quantifier": "every rank, shape, storage order, pair of indices inside the range, values and sequence of writes", "why_tests_cant": "Aliasing between two indices would only show for particular shapes and index pairs.", "anchors": ["src/grid/grid.hpp, src/grid/grid.t: GridBase::operator[], operator=, operator+=, operator-=", "src/grid/gridstorage/single-array-storage-base.hpp: get"]}
{"id": "C08", "title": "Debug bounds checking clamps, assert bounds checking aborts, exactly on out-of-range indices", "statement": "GridDebugCheck returns the index unchanged and raises no error when the index is inside the grid; otherwise it returns the nearest index inside the grid and raises the error flag. GridAssertCheck aborts exactly if the index is outside. With either policy, no access to a (non-empty) grid leaves the allocated buffer.", "quantifier": "every rank, range lo<=hi, every integer index", "why_tests_cant": "Out-of-range indices form an infinite set in each dimension combination.", "anchors": ["src/grid/gridcheck.hpp: GridDebugCheck::check, GridAssertCheck::check, GridNoArgCheck::check", "src/grid/grid.hpp: operator()"]}
{"id": "C09", "title": "Copies of a grid share data and shape through every history of resizes", "statement": "Copy construction and assignment make grids share one buffer. Through any history of construct/copy/assign/resize/destroy operations, every live grid's range describes the buffer it points to, so every in-range access is in bounds and grids sharing data agree on their range. (FINDING: violated by assignment to a grid that already shares data with others: the old share keeps updating it.)", "quantifier": "every history of construct, copy-construct, assign, resize and destroy operations on any number of grids", "why_tests_cant": "Histories are unbounded interleavings of operations on a growing set of objects.", "anchors": ["src/grid/gridstorage/single-array-allocation.hpp: SingleArrayInstantAllocation (constructors, operator=, destructor, resizeImpl, updateSizeInfo), SingleArrayAllocationData::update"]}
{"id": "C10", "title": "Grid memory is released exactly once and never used afterwards", "statement": "Through any history of construct/copy/resize/destroy operations no buffer is freed twice, no live grid refers to a freed buffer, and after the last sharing grid is destroyed its buffer is free (no leak). No update callback of a destroyed grid is ever invoked. (FINDING: the callback clause is violated when a grid is re-assigned and then destroyed.)", "quantifier": "every history of operations", "why_tests_cant": "Use-after-free needs specific operation orders of unbounded length.", "anchors": ["src/grid/gridstorage/single-array-allocation.hpp: SingleArrayAllocationData, newData, deleteData, destructor, operator="]}
{"id": "C11", "title": "Lazy reallocation always leaves enough room", "statement": "With lazy allocation, after any history of resizes the allocated buffer is at least as large as the current grid, no matter how the running average and variance evolve; a resize to a larger size than the buffer always reallocates. (FINDING: assignment copies the data but not the buffer size, after which a resize can leave a buffer smaller than the grid.)", "quantifier": "every sequence of sizes, every rounding behaviour of the statistics", "why_tests_cant": "The reallocation decision depends on the full floating point history of sizes.", "anchors": ["src/grid/gridstorage/single-array-allocation.hpp: SingleArrayLazyAllocation::resizeImpl, newData, operator="]}
{"id": "C12", "title": "Kokkos grids that share data stay consistent under resize", "statement": "After resizing one of several copies of a Kokkos-backed grid, each copy's range matches the memory it addresses. (FINDING: violated; the other copies receive the new range but keep the old view.)", "quantifier": "every set of copies, every sequence of resizes", "why_tests_cant": "Depends on which copy is resized and on the history.", "anchors": ["src/grid/gridstorage/kokkos-storage.hpp: resize, update"]}
{"id": "C13", "title": "Field: inner range is the requested range and ghost cells surround it", "statement": "A Field created (or resized) with a size, with lo/hi limits or with a range and g ghost cells has exactly the requested inner range, and its full range is the inner range grown by g cells on every side.", "quantifier": "every rank, size, limits and number of ghost cells", "why_tests_cant": "All sizes and ghost widths, through three constructor families and three resize families.", "anchors": ["src/grid/field.t: Field constructors, resize", "src/grid/field.hpp: getInnerLo, getInnerHi, getInnerRange"]}
{"id": "C14", "title": "Field: index and position conversions are inverse", "statement": "In exact arithmetic indexToPosition(i) maps to a position whose positionToIndex is (i, offset 0); for every position p, positionToIndex yields the unique index i and offset in [0,1) with p = indexToPosition(i)+offset*dx. Inner cell faces map onto the physical domain boundaries.", "quantifier": "every domain with nonzero length, every grid range with at least one inner cell, both staggers, every ghost width, all indices and positions", "why_tests_cant": "Continuum of positions.", "anchors": ["src/grid/field.t: positionToIndex, indexToPosition"]}
{"id": "C15", "title": "Boundary: ghost domains and inner domain partition the local domain", "statement": "The inner domain together with the union of all 2*rank ghost domains is the local domain; the inner domain is disjoint from every ghost domain; the two ghost domains of one dimension are disjoint when the inner domain is not empty.", "quantifier": "every rank, domain and ghost width with a non-empty inner domain", "why_tests_cant": "All sizes and all ghost widths.", "anchors": ["src/grid/boundary.t: getGhostDomain, getInnerDomain"]}
{"id": "C16", "title": "Boundary: the source domain is the opposite ghost domain shifted by one period", "statement": "In each dimension, the lower ghost domain shifted up by the inner width is the upper source domain and the upper ghost domain shifted down by the inner width is the lower source domain; source domains lie outside the ghost layers of that dimension iff the inner width is at least the ghost width. Matching domains contain the same number of cells.", "quantifier": "every rank, domain, ghost width and dimension", "why_tests_cant": "Off-by-one errors for particular widths.", "anchors": ["src/grid/boundary.t: getGhostSourceDomain, getGhostDomain"]}
{"id": "C17", "title": "Serial exchange implements periodic boundary conditions including edges and corners", "statement": "After exchange(grid) on a serial subdivision every cell of the local domain (ghost cells, edges and corners included) holds the value that the periodically wrapped inner cell had before, and inner cells are unchanged, provided the inner width in every dimension is at least the ghost width and the ghost width is at least one.", "quantifier": "every rank, domain, ghost width >= 1, every cell value type and contents", "why_tests_cant": "Corners are filled only by the combination of all dimensions in sequence; all ranks and sizes.", "anchors": ["src/grid/domainsubdivision.t: SerialSubdivision::exchange", "src/grid/domainsubdivision.hpp: DomainSubdivision::exchange(GridType&)"]}
{"id": "C18", "title": "Exchange with zero ghost cells does nothing", "statement": "With ghost width 0, exchange(grid) leaves the grid unchanged and touches no cell outside of it. (FINDING: violated; because empty ranges are iterated once, exchange reads the cell past the upper end of the grid and writes it into the first cell.)", "quantifier": "every rank >= 1 and domain", "why_tests_cant": "Needs a statement over all domains; also an edge case never exercised by tests.", "anchors": ["src/grid/domainsubdivision.t: SerialSubdivision::exchange", "src/grid/range.hpp: iterator"]}
{"id": "C19", "title": "Serial accumulate sums all periodic images", "statement": "After accumulate(grid) every cell of the local domain holds the sum of the previous values of all cells of the local domain that are periodic images of it, provided the inner width in each dimension is at least twice the ghost width; inner cells are right already if the inner width is at least the ghost width.", "quantifier": "every rank, domain, ghost width >= 1, contents in any commutative monoid", "why_tests_cant": "Interaction of sequential passes over all dimensions, all sizes.", "anchors": ["src/grid/domainsubdivision.t: SerialSubdivision::accumulate", "src/grid/domainsubdivision.hpp: DomainSubdivision::accumulate(GridType&)"]}
{"id": "C20", "title": "equalFactors always returns a factorisation of the process count", "statement": "equalFactors(number, nfact, factors, box) fills nfact factors, each at least 1, whose product is exactly number.", "quantifier": "every number >= 1, every number of factors >= 1, every box (weights)", "why_tests_cant": "All process counts and box shapes; a wrong product would crash MPI_Cart_create only for some counts.", "anchors": ["src/util/factor.cpp: equalFactors, distribute, factorize, makePrimes"]}
{"id": "C21", "title": "Prime factorisation is correct and complete", "statement": "The internal factorisation used by equalFactors yields only prime numbers, in non-decreasing order, whose product is the input.", "quantifier": "every number >= 1", "why_tests_cant": "All natural numbers.", "anchors": ["src/util/factor.cpp: makePrimes, factorize"]}
{"id": "C22", "title": "equalFactors chooses the process layout that best fits the box", "statement": "Among all ways of writing the process count as an ordered product the returned layout minimises the sum of factor/box-width (the cost the code compares). (FINDING: violated; the smallest prime factor always goes to dimension 0.)", "quantifier": "every process count and box", "why_tests_cant": "Optimality quantifies over all alternative factorisations.", "anchors": ["src/util/factor.cpp: distribute"]}
{"id": "C23", "title": "MPI subdivision tiles the global domain", "statement": "For global range 0..H in each dimension the inner domains of all processes are pairwise disjoint and together cover exactly the global range, whatever the floating point rounding of the cut positions. (FINDING: for a global lower bound other than 0 the first process does not start at the global lower bound.)", "quantifier": "every process layout, every H, every monotone rounding of the cut positions", "why_tests_cant": "All process counts and sizes, all roundings.", "anchors": ["src/grid/mpisubdivision.t: MPICartSubdivision::init"]}
{"id": "C24", "title": "MPI subdivision is balanced", "statement": "The inner widths of any two processes along one dimension differ by at most 2 cells.", "quantifier": "every number of processes along the dimension, every width", "why_tests_cant": "All sizes.", "anchors": ["src/grid/mpisubdivision.t: MPICartSubdivision::init"]}
{"id": "C25", "title": "MPI exchange reproduces the serial periodic exchange", "statement": "If before exchange(grid) every process' inner cells agree with one global field, then after exchange on all processes every local cell, ghost cells and corners included, agrees with the periodic extension of that global field.", "quantifier": "every process layout, every domain whose local inner widths are at least the ghost width, every field contents", "why_tests_cant": "Distributed state of arbitrarily many processes.", "anchors": ["src/grid/mpisubdivision.t: MPICartSubdivision::exchange", "src/grid/domainsubdivision.hpp: exchange(GridType&)"]}
{"id": "C26", "title": "MPI communication buffers are large enough and matched", "statement": "The send and receive buffers allocated by init hold exactly the number of cells written to and read from them by exchange and accumulate in each dimension, and the message sent to a neighbour has the length the neighbour expects.", "quantifier": "every layout, dimension and domain", "why_tests_cant": "Buffer overruns for particular shapes.", "anchors": ["src/grid/mpisubdivision.t: init (exchSize), exchange, accumulate"]}
{"id": "C27", "title": "Unique process ids", "statement": "getUniqueId is different for different processes and lies in 0..procCount-1.", "quantifier": "every process layout and pair of processes", "why_tests_cant": "All layouts.", "anchors": ["src/grid/mpisubdivision.t: getUniqueId"]}
{"id": "C28", "title": "Binary buffers round-trip", "statement": "Reading a DataBuffer element by element yields exactly the sequence that was written into it by makeBuffer, in order, for any element type that is trivially copyable.", "quantifier": "every element size, every sequence of values", "why_tests_cant": "All sequences and element sizes.", "anchors": ["src/util/databuffer.hpp, src/util/databuffer.t: DataBuffer"]}
{"id": "C29", "title": "Setup file arithmetic follows the usual precedence and associativity (single type)", "statement": "For expressions whose operands all have one numeric type, the value of a parsed expression is the value obtained by the usual rules: ^ before unary sign before * and / before + and -, equal precedence evaluated left to right, parentheses respected, although the grammar is right recursive.", "quantifier": "every expression of the grammar, every valuation of the operators and operands", "why_tests_cant": "Infinite set of expressions of unbounded depth.", "anchors": ["parser/deckgrammar.y: expression, unsigned_expression, signed_term_expression, term_expression, exp_expression, atomic_expression", "src/variables/expression.hpp: BinaryOp, UnaryOp", "src/parser/parsertoken.t: assignBinaryOperator, assignUnaryOperator"]}
{"id": "C30", "title": "Setup file arithmetic follows the usual associativity for mixed integer/float expressions", "statement": "The value of a mixed int/float expression equals left-to-right evaluation with promotion to float. (FINDING: violated; 10.0-3-2 evaluates to 9.0 because the all-integer right operand is evaluated first.)", "quantifier": "every mixed expression", "why_tests_cant": "Infinite set of expressions.", "anchors": ["src/parser/parsertoken.t: TypePromoter, assignBinaryOperator", "src/variables/expression.hpp: BinaryOp, TypecastOp"]}
{"id": "C31", "title": "Constant expressions are really constant", "statement": "If an expression reports to be constant its value does not depend on any external value, now or later, so replacing it by its value at parse time does not change any later evaluation.", "quantifier": "every expression, every pair of environments that agree on constant variables", "why_tests_cant": "All expressions and all future states.", "anchors": ["src/variables/expression.hpp: isConstant", "src/variables/function_expression.hpp: FunctionExpression::isConstant", "src/parser/parsertoken.cpp: evaluateVisitor"]}
{"id": "C32", "title": "Reported dependencies are complete", "statement": "The value of an expression depends only on the variables listed by getDependencies and on external values: two states that agree on those give the same value. Functions registered as always-updating are always reported through the special dependency.", "quantifier": "every expression and pair of states", "why_tests_cant": "All expressions and states.", "anchors": ["src/variables/expression.hpp: getDependencies", "src/variables/function_expression.hpp: FunctionExpression::getDependencies"]}
{"id": "C33", "title": "Function calls check arity and pass arguments in order", "statement": "A call in a setup file is rejected exactly when the number of arguments differs from the number of parameters of the registered function; otherwise the function receives the values of the arguments in the order written, each converted to the parameter type.", "quantifier": "every registered function, every argument list", "why_tests_cant": "All arities and argument lists.", "anchors": ["src/variables/function_expression.hpp: FunctionExpressionConverter::makeList, evaluate", "src/parser/parsertoken.cpp: assignFunction", "parser/deckgrammar.y: expressionlist"]}
{"id": "C34", "title": "Update lists are topologically ordered and complete", "statement": "For an acyclic set of variables the update list contains exactly those variables that (transitively) depend on one of the independent variables and on which one of the dependent parameters (transitively) depends, each exactly once, and every variable comes after all listed variables it depends on.", "quantifier": "every finite acyclic dependency graph, every set of independent and dependent variables", "why_tests_cant": "All graphs.", "anchors": ["src/variables/dependencies.cpp: DependencyMap::constructMap, makeUpdatePredecessors, makeUpdateFollowers, makeUpdateOrder"]}
{"id": "C35", "title": "After an update the dependent parameters are current", "statement": "If before changing the independent values all variables were current, then after changing them and calling update() every dependent parameter has the value that evaluating everything from scratch would give. This holds after any history of the updater, including calls of update() that failed.", "quantifier": "every acyclic dependency graph, every change of the independent values", "why_tests_cant": "All graphs and values.", "anchors": ["src/variables/dependencies.hpp: DependencyUpdater::update", "src/variables/dependencies.cpp: makeUpdateOrder"]}
{"id": "C36", "title": "Cyclic definitions are detected", "statement": "The computation of the update order terminates for every graph and aborts exactly when the relevant part of the graph contains a cycle.", "quantifier": "every finite dependency graph", "why_tests_cant": "All graphs, including cyclic ones.", "anchors": ["src/variables/dependencies.cpp: makeUpdateOrder"]}
{"id": "C37", "title": "A dependency map can be recreated", "statement": "Calling recreate() on a dependency map brings it up to date with the variables. (FINDING: violated; recreate() throws as soon as there is one non-constant variable.)", "quantifier": "every variable tree with at least one non-constant variable", "why_tests_cant": "All trees.", "anchors": ["src/variables/dependencies.cpp: recreate, constructMapRecursive"]}
{"id": "C38", "title": "Variable lookup follows lexical scoping", "statement": "Looking up a plain name yields the variable of the innermost enclosing block that declares it; a path a:b:c is resolved at the innermost enclosing block that has a child named a and then strictly downwards; otherwise the lookup fails with an exception. Declaring or shadowing a variable in an inner block does not change lookups from outside.", "quantifier": "every block tree, every block, every name or path", "why_tests_cant": "All trees and paths.", "anchors": ["src/variables/variables.cpp: BlockVariables::getVariable"]}
{"id": "C39", "title": "exists() agrees with getVariable()", "statement": "exists(name) returns true exactly if getVariable(name) succeeds. (FINDING: violated; exists never searches enclosing blocks, dereferences a null pointer for an unknown name in the root block, and splits paths at '.' instead of ':'.)", "quantifier": "every block tree, block and name", "why_tests_cant": "All trees and names.", "anchors": ["src/variables/variables.cpp: BlockVariables::exists, getVariable"]}
{"id": "C40", "title": "Names are unique within a block and declarations are never overwritten", "statement": "Through any sequence of declarations and block creations, adding a variable or a block whose name is already taken in the current block is rejected and leaves the existing one in place; all others are added and can be found afterwards.", "quantifier": "every sequence of operations", "why_tests_cant": "Unbounded sequences.", "anchors": ["src/variables/variables.cpp: addVariable, addChild, VariableStorage::createBlock, cursorUp"]}
{"id": "C41", "title": "Read-only variables keep their value and every variable keeps its type", "statement": "No sequence of assignments in a setup file changes a read-only variable or the type of any variable; a rejected assignment leaves the variable unchanged.", "quantifier": "every sequence of assignments", "why_tests_cant": "Unbounded sequences.", "anchors": ["src/variables/variables.cpp: Variable::operator=", "src/parser/parsertoken.cpp: updateVariable"]}
{"id": "C42", "title": "Block nesting: variable cursor and block tree stay in step", "statement": "While parsing any sequence of block starts and ends, the current block of the variable storage and the current block of the block tree correspond; blocks without a registered factory attach the factories' blocks inside them to the nearest enclosing created block; a closing brace without opening brace is an error.", "quantifier": "every sequence of block starts and ends, every set of registered factories", "why_tests_cant": "Unbounded nesting.", "anchors": ["src/parser/parsertoken.cpp: createBlock, endBlock", "src/variables/block.cpp: BlockTree::addChild, moveDown, moveUp", "src/variables/variables.cpp: VariableStorage"]}
{"id": "C43", "title": "Missing closing braces are reported", "statement": "A setup file in which some block is not closed is rejected. (FINDING: violated; the grammar treats braces as independent statements and nothing checks the nesting at the end of the file.)", "quantifier": "every setup file with more opening than closing braces", "why_tests_cant": "All files.", "anchors": ["parser/deckgrammar.y: statement", "src/parser/parser.cpp: Parser::parse"]}
{"id": "C44", "title": "Shared data lookup between blocks", "statement": "retrieveData(key) finds the data registered under key by the block itself or offered by the closest enclosing block. A block offers under a key what it has registered itself; otherwise, for a key name.rest, what is registered under rest in a child called name or highest below it. If no enclosing block offers the key, the highest registration anywhere in the tree is found. It fails with an exception if there is none or if the choice is ambiguous.", "quantifier": "every block tree and key", "why_tests_cant": "All trees.", "anchors": ["src/variables/block.hpp: Block::getData, retrieveData"]}
{"id": "C45", "title": "Block lifecycle visits every block once, parents before children", "statement": "initAll runs each lifecycle phase for every block of the tree exactly once, parents before children and siblings in order, and finishes one phase for the whole tree before the next one starts. (FINDING: calling initAll from a block at depth two or more never terminates.)", "quantifier": "every block tree, every block from which initAll is called", "why_tests_cant": "All trees.", "anchors": ["src/variables/block.cpp: Block::initAll, evaluateParameters, registerHierarchy, preInitHierarchy, initHierarchy, postInitHierarchy"]}
{"id": "C46", "title": "Interval diagnostics write exactly at multiples of the interval", "statement": "An interval diagnostic writes at time step t iff t is a multiple of its interval or t is negative (final output); in append mode the file is opened once at step 0 and never re-opened; on non-master processes a single-output diagnostic writes nothing. (FINDING: a run that does not begin at step 0 makes an appending diagnostic write although no file was opened.)", "quantifier": "every interval >= 1, every sequence of time steps", "why_tests_cant": "All step sequences.", "anchors": ["src/diagnostic/diagnostic.cpp: IntervalDiagnostic::execute"]}
{"id": "C47", "title": "Physical time diagnostics hit their output times", "statement": "If a simulation advances with the step returned by adjustDeltaT, it never steps over the next output time of any physical time diagnostic; each diagnostic's k-th output happens exactly at delay+k*deltaTime (exact arithmetic). (FINDING: false for a run that begins after an output was due - all missed outputs are written late, one per step; an appending diagnostic in a run that does not begin at time 0 writes without an open file.)", "quantifier": "every set of diagnostics, every sequence of proposed time steps", "why_tests_cant": "Unbounded runs and continuous step sizes.", "anchors": ["src/diagnostic/diagnostic.cpp: DeltaTimeDiagnostic::execute, DiagnosticManager::adjustDeltaT"]}
{"id": "C48", "title": "Diagnostic manager never uses an unset clock", "statement": "execute() either throws VariableNotInitialisedException or dereferences only clocks that have been set. If the clocks that are needed have been set, every diagnostic that was constructed is executed once, in the order of construction, with the rank and the master flag that were set last. (FINDING: violated when both kinds of diagnostics exist but only one clock has been set; the manager also goes on calling diagnostics that have been destroyed.)", "quantifier": "every sequence of set-up calls", "why_tests_cant": "All histories.", "anchors": ["src/diagnostic/diagnostic.cpp: DiagnosticManager::execute, adjustDeltaT, addIntervalDiagnostic, addDeltaTimeDiagnostic, setTimeCounter, setPhysicalTime, setMaster, setRank"]}
{"id": "C49", "title": "Sub-grids are windows onto their base grid", "statement": "Reading or writing a sub-grid at an index of its domain reads or writes the base grid at the same index; all other cells of the base grid are unchanged. Iterating a sub-grid visits the cells of its domain only.", "quantifier": "every base grid, every non-empty domain inside it, every index and sequence of writes", "why_tests_cant": "All shapes.", "anchors": ["src/grid/subgrid.hpp, src/grid/subgrid.t"]}
{"id": "C50", "title": "Filling a field evaluates the formula at every cell position", "statement": "After fill_field every cell of the field (ghost cells included) holds the formula's value at that cell's physical position.", "quantifier": "every field, every formula of the coordinates", "why_tests_cant": "All field shapes and formulas.", "anchors": ["src/tools/fieldtools.t: fill_field"]}
{"id": "C51", "title": "Generated ids are unique", "statement": "No two objects created with Unique ids ever have the same id; copies of a variable and targets of an assignment take over the id of their source, and otherwise ids of variables differ.", "quantifier": "every sequence of creations and copies", "why_tests_cant": "Unbounded sequences.", "anchors": ["src/util/unique.hpp: Unique", "src/variables/variables.cpp: Variable"]}
{"id": "C52", "title": "Random integers stay in range", "statement": "drand() returns a value in [0,1] and irand(n) a value in 0..n-1. (FINDING: violated for the largest values of rand().)", "quantifier": "every pair of rand() outcomes", "why_tests_cant": "A test would need to hit one of RAND_MAX^2 outcomes.", "anchors": ["src/functions.cpp: drand, irand"]}
{"id": "C53", "title": "Array arithmetic and comparison are componentwise", "statement": "Array expressions (also when the target appears on the right hand side) evaluate componentwise; == is componentwise equality and != its negation; <= is the componentwise (partial) order. (FINDING: expressions that combine double arrays with an int number or an int array are evaluated in int; < and <= hold for components that are NaN.)", "quantifier": "every length, contents and expression", "why_tests_cant": "All expression trees.", "anchors": ["src/grid/array.hpp, src/grid/array.t, src/grid/arrayexpression.hpp"]}
{"id": "C54", "title": "Scanner result does not depend on buffering", "statement": "The token sequence produced for an input depends only on the characters of the input, not on where the 128 character read buffer boundaries fall. (FINDING: violated for tokens, string literals or // comments that do not fit into the buffer: scanning never terminates.)", "quantifier": "every input text", "why_tests_cant": "All inputs and all alignments of tokens to buffer boundaries.", "anchors": ["parser/deckscanner.rl: DeckScanner::do_scan"]}
{"id": "C55", "title": "Copies of a field agree on the inner range after a resize", "statement": "Copies of a Field share their cells. After one copy is resized to an inner range r with g ghost cells every copy reports r as its inner range. (FINDING: violated; the copies receive the new full range but keep their own number of ghost cells.)", "quantifier": "every field, every range and number of ghost cells", "why_tests_cant": "All combinations of old and new ghost widths.", "anchors": ["src/grid/field.t: Field copy constructor, resize", "src/grid/field.hpp: getInnerRange", "src/grid/gridstorage/single-array-allocation.hpp: updateSizeInfo"]}
{"id": "C57", "title": "updateAll evaluates every variable after what it depends on", "statement": "DependencyMap::updateAll leaves every non-constant variable with the value of its definition (or unchanged if that cannot be evaluated) and fails only if a variable depends on itself. (FINDING: violated after the map has been used by an updater with a definition that refers to a constant: an entry without variable is left in the map and updateAll fails.)", "quantifier": "every variable tree, every state", "why_tests_cant": "All dependency graphs and values.", "anchors": ["src/variables/dependencies.cpp: DependencyMap::updateAll, makeUpdateOrder, makeUpdatePredecessors"]}
{"id": "C58", "title": "Independent parameters nothing depends on are harmless", "statement": "Adding a read-only parameter as an independent one never changes what is updated unless a dependent parameter depends on it, and update() works afterwards. (FINDING: violated for read-only constants: if a definition refers to the constant, the update list contains a null pointer.)", "quantifier": "every variable tree, every read-only parameter", "why_tests_cant": "All graphs.", "anchors": ["src/variables/dependencies.cpp: DependencyUpdater::addIndependent, makeUpdateFollowers", "src/variables/blockparameters.hpp: addConstant"]}
{"id": "C59", "title": "After reading a file every variable is up to date", "statement": "When Parser::parse returns, every variable that is not constant holds the value of its defining expression in the final state of all variables, unless that expression cannot be evaluated. Constant variables, the block tree and the program's variables are as the statements left them. Reading an accepted file fails exactly if some variable depends on itself, directly or through others.", "quantifier": "all programs (block classes, parameters, functions) and all files that are accepted statement by statement", "why_tests_cant": "The dependency graph is arbitrary: the order of evaluation must be right for every acyclic graph, and every cycle must be found.", "anchors": ["src/parser/parser.cpp: Parser::parse", "src/variables/dependencies.cpp: DependencyMap::updateAll", "src/variables/dependencies.cpp: makeUpdateOrder"]}
{"id": "C60", "title": "Statements take effect in order", "statement": "A declaration or assignment uses the values that variables have at that point of the file: a variable keeps the value it was given until a later statement assigns to it. In particular `x = x + 1` adds one to x.", "quantifier": "all programs, all accepted files, every declaration and everything after it", "why_tests_cant": "It quantifies over everything that may follow in the file, and over all expressions.", "anchors": ["src/parser/parsertoken.cpp: storeVariable, updateVariable, evaluateVisitor", "src/parser/parser.cpp: Parser::parse"]}
{"id": "C61", "title": "A parameter without value cannot be used", "statement": "Using a parameter that has neither a default nor been assigned a value yet is an error.", "quantifier": "all programs, files, parameters and expressions", "why_tests_cant": "All places where an expression may refer to a parameter, at any point of a file.", "anchors": ["src/variables/blockparameters.hpp: addParameter", "src/variables/variables.cpp: Variable::isInitialised", "src/parser/parsertoken.cpp: evaluateVisitor"]}
{"id": "C63", "title": "Declaration lists", "statement": "In `int a = e1, b = e2, ...;` every name becomes a new variable of the current block with the declared type, holding the value of its expression or being defined by it, and each expression sees the names declared before it in the list.", "quantifier": "all programs, all accepted files, all declaration lists", "why_tests_cant": "Lists of any length, with arbitrary expressions, in any context.", "anchors": ["src/parser/parsertoken.cpp: storeVariable, append", "parser/deckgrammar.y: declarationlist"]}
{"id": "C64", "title": "No block of a file is lost", "statement": "Every block made by a factory while reading a file descends from the block returned by Parser::parse, so that it takes part in initialisation and shared data.", "quantifier": "all programs, all files, all blocks made", "why_tests_cant": "Any nesting of blocks with and without factories.", "anchors": ["src/variables/block.cpp: BlockTree::addChild, moveUp, moveDown", "src/parser/parser.cpp: Parser::parse", "src/parser/parsertoken.cpp: createBlock"]}
{"id": "C62", "title": "Evaluating parameters copies the values of the file into the program", "statement": "After a file has been read, evaluateParameters() of a block sets, for every read-write parameter of the block and of all blocks below it, the program's variable to the value the parameter has in the file, with the type of the parameter, and changes nothing else; it throws exactly if one of these parameters has no value or its defining expression cannot be evaluated. (FINDING: violated if a class registers two parameters with the same name: the file's assignments go to the first, the program reads the second.)", "quantifier": "all programs, files, blocks", "why_tests_cant": "All block trees, expressions and orders of parameters.", "anchors": ["src/variables/blockparameters.hpp: ConcreteParameter::evaluate, BlockParameters::addParameter, BlockParameters::evaluate", "src/variables/block.cpp: Block::evaluateParameters"]}
{"id": "C65", "title": "Retrieving a pointer finds values and pointers alike", "statement": "retrieveData(key, T*&) finds the closest registration under the key, whether the block registered an object of type T or a pointer to one. (FINDING: a pointer registered anywhere in the tree hides objects registered in the block itself.)", "quantifier": "all block trees, keys and registrations", "why_tests_cant": "All trees and all mixtures of registrations.", "anchors": ["src/variables/block.hpp: Block::retrieveData, Block::getData"]}
{"id": "C66", "title": "Output file names keep steps and processes apart", "statement": "A file name without placeholders is used unchanged; with #t in the name one process never uses the same name for two different steps (all negative steps are the final one); with #p different processes never use the same name for the same step; with both, different (process, step) pairs never share a name. (FINDING: with #p directly followed by #t process 1 at step 11 and process 11 at step 1 share a file; diagnostics that append ignore #p, so all processes open the same file.)", "quantifier": "every file name, all ranks and steps", "why_tests_cant": "All names, ranks and steps; collisions occur only for particular combinations.", "anchors": ["src/diagnostic/diagnostic.cpp: DiagnosticInterface::parsedFileName, IntervalDiagnostic::execute"]}
{"id": "C67", "title": "All processes take the same time step", "statement": "Processes that have the same physical time diagnostics and have executed them at the same times get the same step from adjustDeltaT. (FINDING: false with a single-output diagnostic: processes other than the master never advance its next output time.)", "quantifier": "every set of diagnostics, every common history of executions", "why_tests_cant": "Unbounded histories on several processes.", "anchors": ["src/diagnostic/diagnostic.cpp: DeltaTimeDiagnostic::execute, DiagnosticManager::adjustDeltaT"]}
{"id": "C68", "title": "Fields survive HDF5 output and input", "statement": "When all processes write the inner part of a field the dataset has the extents of the global domain and holds the value of every cell at its position relative to the domain minimum, in whatever order the processes write; reading with any other decomposition gives every process the values of its own cells and leaves its other cells unchanged. (FINDING: grids in Fortran order are written with permuted cells; without parallel HDF5 the ghost cells are written too and the extents are those of the local grid, and a dataset larger than the grid is read without a test, overwriting other memory.)", "quantifier": "every rank, domain, decomposition, order of writing and contents", "why_tests_cant": "All decompositions and schedules; tests cover a few.", "anchors": ["src/diagnostic/hdfdiagnostic.t: HdfOStream::writeGrid, HdfIStream::readGrid, CopyToContainer"]}
{"id": "C69", "title": "A local part outside of the global domain is reported", "statement": "writeGrid and readGrid stop with an error message exactly if the local part does not lie in the global domain. (FINDING: the test uses unsigned numbers and is passed if the local part begins before the global domain.)", "quantifier": "every local part and global domain", "why_tests_cant": "All boxes, wrap-around of unsigned numbers.", "anchors": ["src/diagnostic/hdfdiagnostic.t: HdfOStream::writeGrid, HdfIStream::readGrid"]}
{"id": "C70", "title": "Dataset names in a file do not collide and reading follows writing", "statement": "Any number of grids can be written into one file one after the other, under a name set with setBlockName or the default name, and an input stream that makes the same calls reads the same data in the same order. (FINDING: writing fails after setBlockName with a name used before, also with a name that ends in a number such as a1 after two outputs under a; as HDFGridDiagnostic sets the same name for each output, a diagnostic that appends fails at its second output.)", "quantifier": "every sequence of setBlockName and write calls", "why_tests_cant": "All call sequences.", "anchors": ["src/diagnostic/hdfdiagnostic.cpp: HdfStream::setBlockName, getNextBlockName", "src/diagnostic/hdfdiagnostic.t: HDFGridDiagnostic::write"]}
{"id": "C71", "title": "HDF5 files are closed exactly once", "statement": "Every file that a stream opens is closed exactly once, at the latest by the destructor, and a stream with a file id has that file open. (FINDING: false for copies of streams, for assignment, and for an output stream that is opened again without close.)", "quantifier": "every sequence of construction, open, close, copy, assignment and destruction of any number of streams", "why_tests_cant": "All histories.", "anchors": ["src/diagnostic/hdfdiagnostic.cpp: HdfStream, HdfIStream::open, HdfOStream::open, close"]}
{"id": "C72", "title": "A field filler fills what it has been told, with the coordinates given", "statement": "After set(coords, updater)(field, value)... calls on a FieldFiller, fillFields fills exactly the fields given to that filler since its last clear, each using the coordinate array and the updater of the call it was given in.", "quantifier": "every sequence of set and clear calls on any number of fillers", "why_tests_cant": "A single filler behaves correctly; the property is about all histories with several fillers, coordinate arrays or updaters.", "anchors": ["src/tools/fieldtools.hpp: FieldFiller::set, fieldAdder"]}
{"id": "C73", "title": "A transformed grid shows the transformed values of its base grid", "statement": "Reading element i of a GridTransform gives the transformation of element i of the base grid, whatever other elements are accessed before the value is used; writing is not possible or goes to the element written.", "quantifier": "every base grid, transformation, pair of indices and order of accesses", "why_tests_cant": "Tests read one element at a time; the claim is about all interleavings of accesses.", "anchors": ["src/grid/gridtransform.hpp: GridTransformStorage::get"]}
{"id": "C74", "title": "A sub-grid never reaches outside of its window", "statement": "Whatever index is used to access a sub-grid, no cell of the base grid outside of the sub-grid's domain is read or written, and a sub-grid cannot be created for a domain that leaves the base grid.", "quantifier": "every base grid, domain, checking policies of sub-grid and base grid, index", "why_tests_cant": "All indices and domains.", "anchors": ["src/grid/subgrid.hpp: SubGridStorage::get", "src/grid/subgrid.t: SubGrid constructors"]}
{"id": "C75", "title": "The dimensions reported by a sub-grid are the extents of its domain", "statement": "getDims of a sub-grid equals getHi - getLo + 1 in each dimension after construction and after every resize.", "quantifier": "every sub-grid and every sequence of resizes", "why_tests_cant": "All sequences of resizes.", "anchors": ["src/grid/subgrid.t: SubGridStorage constructors and resize"]}
{"id": "C76", "title": "crossProduct stores the cross product", "statement": "After crossProduct(result, a, b) the array result holds the cross product of a and b as they were before the call, and no other array has changed; result may be a or b. (FINDING: violated if result is a or b.)", "quantifier": "every pair of arrays of length three, every choice of the result array", "why_tests_cant": "All values, and aliasing of the arguments.", "anchors": ["src/functions.hpp: crossProduct"]}
{"id": "C77", "title": "mean is the average", "statement": "mean(begin, end) of a non-empty sequence is the sum of the values divided by their number, and lies between any bounds of the values.", "quantifier": "every non-empty sequence of values (exact arithmetic)", "why_tests_cant": "Unbounded sequences.", "anchors": ["src/algo.t: mean"]}
{"id": "C78", "title": "Text output of grids and arrays", "statement": "Writing a grid to a stream writes every element exactly once, the first index running fastest, elements of a row separated by a space, rows followed by a newline (rank 2 and above) and two-dimensional slices by another one (rank 3 and above). A grid without elements writes nothing. Arrays are written in order, separated by spaces.", "quantifier": "every rank, range and contents", "why_tests_cant": "All ranges and ranks.", "anchors": ["src/datastream.t: operator<<"]}
{"id": "C56", "title": "MPI accumulate sums all copies of a cell", "statement": "After all processes have called accumulate(grid) on an MPI subdivision, each cell of each local domain holds the sum of the values which all copies of that cell had before, in all processes, inner and ghost cells alike, with the global domain continued periodically; in particular all copies agree. No memory outside of the grids and the exchange buffers is accessed, and cells outside of the local domain are unchanged.", "quantifier": "every number of dimensions, every number of processes per dimension (1 and 2 included, where neighbours coincide), every placement of the cuts with inner width at least twice the ghost width (inner and upper ghost cells: at least the ghost width), every contents of the grids", "why_tests_cant": "All process grids, sizes and contents; MPI tests run a few fixed configurations.", "anchors": ["src/grid/mpisubdivision.t: MPICartSubdivision::accumulate", "src/grid/domainsubdivision.hpp: DomainSubdivision::accumulate"]}
{"id": "C79", "title": "Serial and MPI subdivisions are interchangeable", "statement": "Initialised by the same call init(low, high, delta), a serial subdivision and an MPI subdivision with a single process have the same local domain and the same inner domain, and getGlobalDomain excludes the ghost cells for both, as documented.", "quantifier": "every limit and every ghost width", "why_tests_cant": "All limits and ghost widths; there is no test comparing the two classes.", "anchors": ["src/grid/domainsubdivision.t: SerialSubdivision::init", "src/grid/domainsubdivision.hpp: SerialSubdivision::getGlobalDomain", "src/grid/mpisubdivision.t: MPICartSubdivision::init"]}
{"id": "C80", "title": "Physical extents of the local domains", "statement": "getInnerExtent(globalExtent) gives extents of the inner domains which tile the global extent, each in proportion to its inner cells; a field created with the local inner limits and this extent assigns the same physical position to a cell index as a field on the whole domain would, whichever process asks.", "quantifier": "every global extent, every subdivision, every process, cell index, staggering and ghost width", "why_tests_cant": "All subdivisions, extents and indices.", "anchors": ["src/grid/domainsubdivision.hpp: DomainSubdivision::getInnerExtent", "src/grid/field.t: indexToPosition", "examples/example_mpisub.cpp"]}
{"id": "C81", "title": "Exchanged buffers are independent", "statement": "After exchangeData(dim, orientation, in, out), out holds the data received and is independent of in: changing one buffer later does not change the other one.", "quantifier": "every history of the two buffers", "why_tests_cant": "All histories of sharing between grids.", "anchors": ["src/grid/domainsubdivision.t: SerialSubdivision::exchangeData", "src/grid/mpisubdivision.t: MPICartSubdivision::exchangeData"]}
{"id": "C82", "title": "Boundary flags", "statement": "isBoundLo(dim) (isBoundHi(dim)) is true in exactly those processes whose inner domain touches the lower (upper) end of the global domain in this dimension.", "quantifier": "every subdivision without empty inner domains, every process and dimension", "why_tests_cant": "All process grids and cuts.", "anchors": ["src/grid/mpisubdivision.hpp: isBoundLo, isBoundHi"]}
{"id": "C83", "title": "Reductions over processes", "statement": "maxReduce and minReduce return the largest and the smallest of the values of all processes, sumReduce(int) their sum, and avgReduce(int) their mean rounded towards zero, in every order in which MPI combines the values, provided that the sum of the absolute values fits in an int.", "quantifier": "every number of processes, all values, every order and association of the reduction", "why_tests_cant": "All orders of combination, all values and process numbers.", "anchors": ["src/grid/mpisubdivision.t: avgReduce, maxReduce, minReduce, sumReduce"]}
{"id": "C84", "title": "The scanner divides a deck into longest matches", "statement": "For every deck text whose tokens fit the read buffer, the scanner returns exactly the tokens obtained by repeatedly taking the longest prefix that matches one of the patterns of the deck language (the first pattern among equally long ones), each labelled with the line it ends in; it never reads outside its buffer, and this division is unique.", "quantifier": "every byte sequence given as deck text, every buffer size the tokens fit into", "why_tests_cant": "All texts; the generated table-driven automaton has hundreds of transitions, stored matches and backtracking.", "anchors": ["parser/deckscanner.rl", "src/parser/internal/deckscanner.cpp: DeckScanner::do_scan and the _deck_* tables"]}
{"id": "C85", "title": "Comments yield no tokens", "statement": "A // comment up to the end of its line and a /* */ comment contribute nothing to the token sequence, the text after them is scanned as if they were not there, and their line breaks are counted. (FINDING: violated for a // comment in the last line of a deck that does not end with a line break: its text is scanned as tokens.)", "quantifier": "every comment text and every following text", "why_tests_cant": "All comment texts and positions.", "anchors": ["parser/deckscanner.rl", "src/parser/internal/deckscanner.cpp: DeckScanner::do_scan"]}
{"id": "C86", "title": "Malformed deck text is reported", "statement": "If a deck text is not a sequence of tokens, the scan reports this with the line number; if it is, nothing is reported. (FINDING: violated for string literals and comments that are never closed: the rest of the deck is dropped silently; and the report is only a message on standard error, the truncated token sequence is used.)", "quantifier": "every deck text", "why_tests_cant": "All malformed texts.", "anchors": ["parser/deckscanner.rl", "src/parser/internal/deckscanner.cpp: DeckScanner::do_scan"]}
{"id": "C87", "title": "Names are read as names", "statement": "A name (letter or underscore followed by letters, digits, underscores) that is not a type keyword is read as one identifier with exactly this text, whatever follows it, also when it begins with a keyword. (FINDING: violated for the names e and E directly before a sign and a digit: e+5 is read as one number.)", "quantifier": "every name and every text that follows it", "why_tests_cant": "All names and contexts.", "anchors": ["parser/deckscanner.rl", "src/parser/internal/deckscanner.cpp: DeckScanner::do_scan"]}
{"id": "C88", "title": "String literals denote their text", "statement": "The value of a string literal is the text between its quotes, whatever it contains, with a backslash allowing the quote itself to appear. (FINDING: the backslash is kept in the value, so a value that contains the quote without a backslash before it cannot be written.)", "quantifier": "every text between quotes of either kind and every text that follows", "why_tests_cant": "All literals.", "anchors": ["parser/deckscanner.rl", "src/parser/internal/deckscanner.cpp: DeckScanner::do_scan"]}
{"id": "C89", "title": "A setup file that follows the grammar is executed", "statement": "If the tokens of a setup file have a derivation in the deck grammar, the parser executes the semantic actions of this derivation, each once, bottom up and from left to right, and accepts the file, or stops at the first exception that an action throws. (FINDING: violated for statements that need more than 100 parser stack entries: a sum of fifty or more numbers is rejected with a syntax error.)", "quantifier": "every token sequence with a derivation, every semantics of the rules, every program state", "why_tests_cant": "All derivations of all lengths; the parser is a set of compressed LALR tables.", "anchors": ["parser/deckgrammar.y", "src/parser/deckgrammar.inc: Parse, yy_find_shift_action, yy_find_reduce_action, yy_shift, yy_reduce, yyStackOverflow", "src/parser/parser.cpp: Parser::parse"]}
{"id": "C90", "title": "A setup file that is accepted follows the grammar", "statement": "If the parser accepts a setup file, its tokens have a derivation in the deck grammar and the actions of this derivation have been executed bottom up and from left to right. (FINDING: violated: when the parser stack overflows, the tokens read so far are dropped without notice, so that a file that does not follow the grammar can be accepted with an assignment missing.)", "quantifier": "every token sequence, every semantics of the rules, every program state", "why_tests_cant": "All token sequences.", "anchors": ["parser/deckgrammar.y", "src/parser/deckgrammar.inc: Parse, yyStackOverflow, yy_accept", "src/parser/parser.cpp: Parser::parse"]}
{"id": "C91", "title": "A setup file has only one meaning", "statement": "The deck grammar is unambiguous: a token sequence has at most one derivation.", "quantifier": "every token sequence and every two derivations of it", "why_tests_cant": "All derivations; ambiguity of a context free grammar is not decidable in general.", "anchors": ["parser/deckgrammar.y"]}
{"id": "C92", "title": "Parsing always ends", "statement": "For every token sequence the parser comes to an end, in exactly one way: it accepts, reports a syntax error or passes on the exception of an action. It never fails an assertion or accesses its stack out of bounds.", "quantifier": "every token sequence, every semantics of the rules, every program state", "why_tests_cant": "All token sequences, of every length.", "anchors": ["src/parser/deckgrammar.inc: Parse, yy_reduce, yy_shift", "src/parser/parser.cpp: Parser::parse"]}
{"id": "C93", "title": "Syntax errors are reported where they are", "statement": "A syntax error is reported as ParserError with the position of the first token that cannot follow the tokens before it in any setup file, and the tokens before it can be continued to a setup file. (FINDING: violated for files that end too early, the empty file among them: the exception is of a type that is not known outside of parser.cpp and has no position.)", "quantifier": "every token sequence that does not follow the grammar", "why_tests_cant": "All token sequences; the correct prefix property of the compressed tables with default reductions.", "anchors": ["src/parser/deckgrammar.inc: Parse, yy_syntax_error", "src/parser/parser.cpp: Parser::parse, ParserInternalError"]}
{"id": "C94", "title": "A setup file has the effect of its statements", "statement": "If the text of a setup file consists of statements (declarations, assignments, block starts and ends), reading it executes these statements once each, in their order, until one throws, and then updates the dependent variables; blanks, comments and the way the text is cut into tokens have no other effect, and the tokens can be read as statements with one effect only. (FINDING: violated for files without any statement, which are rejected with an internal error, and for single statements that overflow the parser stack.)", "quantifier": "every text, every list of statements it stands for, every program state", "why_tests_cant": "All texts and all statement sequences of every length; scanner tables, parser tables and semantic actions have to fit together.", "anchors": ["src/parser/parser.cpp: Parser::parse", "src/parser/internal/deckscanner.cpp: DeckScanner::do_scan", "parser/deckgrammar.y", "src/parser/parsertoken.cpp: ParserToken", "src/parser/parsertoken.t: ParserToken"]}
{"id": "C95", "title": "Only setup files made of statements are accepted", "statement": "A setup file is accepted only if its text is a sequence of statements of which none throws, and then the resulting variables and blocks are the ones these statements make. (FINDING: violated: everything after a character that cannot begin a token, or in an unclosed string or comment, is ignored and the file is accepted without it.)", "quantifier": "every text, every program state", "why_tests_cant": "All texts.", "anchors": ["src/parser/parser.cpp: Parser::parse", "src/parser/internal/deckscanner.cpp: DeckScanner::do_scan", "parser/deckgrammar.y", "src/parser/parsertoken.cpp"]}
{"id": "C96", "title": "The line of a syntax error is the line where the statements end", "statement": "The line reported with a syntax error is the line of a token of the text such that the tokens before it can be continued to a valid file, while no sequence of statements begins with these tokens and the token itself.", "quantifier": "every text that is rejected with a syntax error", "why_tests_cant": "All texts with errors at any place.", "anchors": ["src/parser/parser.cpp: Parser::parse", "src/parser/internal/deckscanner.cpp: DeckScanner::do_scan"]}
{"id": "C97", "title": "The layout of a setup file does not matter", "statement": "Two texts with the same tokens are read with the same result, up to the line numbers of syntax errors, which are the lines of the same token; inserting blanks and comments between tokens does not change the result. (FINDING: violated for a text that ends with a // comment without a line break: appending a line break changes the file from rejected to accepted.)", "quantifier": "every two texts with the same tokens; every text, token boundary and inserted layout", "why_tests_cant": "All texts, all places, all layouts.", "anchors": ["src/parser/internal/deckscanner.cpp: DeckScanner::do_scan", "src/parser/parser.cpp: Parser::parse"]}
{"id": "C98", "title": "Reading a setup file comes to an end", "statement": "For every text, reading it ends and has exactly one result: the file is accepted or an exception is thrown. (FINDING: violated for texts with a token of 128 or more characters, for which the scanner never returns.)", "quantifier": "every text, every program state", "why_tests_cant": "Termination for all texts.", "anchors": ["src/parser/parser.cpp: Parser::parse", "src/parser/internal/deckscanner.cpp: DeckScanner::do_scan", "src/parser/deckgrammar.inc: Parse"]}
{"id": "C99", "title": "The literature document cites every method and reference", "statement": "After any calls of LiteratureManager::addReference, the LaTeX document written by writeInformation cites every key that has been added, and the key of the library itself, exactly once, and lists with each key exactly the descriptions that have been added with it, each once.", "quantifier": "every sequence of added descriptions and references, every title and file name without characters that end a line or an item", "why_tests_cant": "All sequences of calls, with repeated and conflicting keys and descriptions.", "anchors": ["src/tools/literature.cpp: LiteratureManager::addReference, writeInformation", "src/tools/literature.hpp"]}
{"id": "C100", "title": "The BibTeX file tells every reference that has been added", "statement": "After any calls of LiteratureManager::addReference, the BibTeX file has one entry for every key, with the type, the key and every non-empty field of a reference that was added with it; if a key always comes with the same reference every reference added is told by an entry. (FINDING: a reference made with the LiteratureReference constructor alone has an uninitialised type that is read; a second, different reference with the same key is dropped silently.)", "quantifier": "every sequence of added references with balanced braces in their fields", "why_tests_cant": "All sequences of calls and all field contents.", "anchors": ["src/tools/literature.cpp: LiteratureManager::addReference, writeBibTex, LiteratureReference::writeBibTex", "src/tools/literature.hpp"]}
{"id": "C101", "title": "The constructors of literature references store their arguments", "statement": "The constructor of every kind of literature reference stores its key, its type and every argument in the field of the same name, and leaves the other fields empty. (FINDING: violated by theses, proceedings, articles in proceedings and manuals: school and organization are stored in another field and never appear.)", "quantifier": "every publication type and all argument strings", "why_tests_cant": "All argument values for all constructors.", "anchors": ["src/tools/literature.cpp: LiteratureArticle ... LiteratureUnpublished", "src/tools/literature.hpp"]}
{"id": "C102", "title": "Growing a range adds the cells within that distance", "statement": "range.grow(s) for a range that is not empty contains exactly the cells that are at most s away from a cell of the range in every direction, grow(-s) exactly those all of whose neighbours up to distance s are in the range, and growing by s and -s restores the range; the same per direction for an array of distances. (FINDING: violated if the argument refers to a limit of the range itself, which changes while it is used.)", "quantifier": "every rank, range, distance and cell", "why_tests_cant": "All ranges of all ranks, including empty ones and aliased arguments.", "anchors": ["src/grid/range.hpp: Range::grow"]}
{"id": "C103", "title": "The projection of a range consists of the projected cells", "statement": "projectDim(dim) contains exactly the cells obtained by leaving out the coordinate dim of a cell of the range, and project<k>() those obtained by keeping the first k coordinates. (FINDING: violated for ranges that are empty in a direction that is left out.)", "quantifier": "every rank, range, direction and cell", "why_tests_cant": "All ranges of all ranks.", "anchors": ["src/grid/range.hpp: Range::project, projectDim", "src/grid/array.hpp: Array::project"]}
{"id": "C104", "title": "The boundary of a field", "statement": "getGhostBoundary(dim, bound, field) returns a sub-grid of exactly the ghost cells of the field on that side; on the lower side of a direction in which the field is staggered the ghost layer next to the inner cells, which lies on the physical boundary, is left out. Assigning a value to the sub-grid sets these cells and no other. (FINDING: violated for staggered fields with one ghost layer: the boundary has no cells, but the assignment sets the whole ghost layer, or an assertion fails, depending on the checking policy.)", "quantifier": "every rank, boundary width, range, direction, side, staggering and value", "why_tests_cant": "All sizes, ghost widths and staggerings.", "anchors": ["src/grid/boundary.t: Boundary::getGhostBoundary, getBoundaryDomain", "src/grid/subgrid.t"]}
{"id": "C105", "title": "exchange works at any pace of the processes", "statement": "If all processes call exchange(grid), then under every interleaving of the processes, and whether MPI buffers messages or not, there is no deadlock, every process returns after a bounded number of steps, no process accesses memory outside of its grid or buffers or receives a message that does not fit, no message is left over, and afterwards every cell of the local domain, ghost cells, edges and corners included, holds the value of the periodically continued global field.", "quantifier": "every number of processes in every dimension, every schedule, every choice of buffered messages, every contents of grids and buffers, every rank and size with inner domains at least as wide as the ghost layer and buffers whose size fits int", "why_tests_cant": "The number of interleavings is exponential, and whether MPI buffers a message depends on its size and the implementation.", "anchors": ["src/grid/mpisubdivision.t: MPICartSubdivision::exchange", "src/grid/domainsubdivision.hpp: DomainSubdivision::exchange"]}
{"id": "C106", "title": "accumulate works at any pace of the processes", "statement": "If all processes call accumulate(grid), then under every interleaving of the processes, and whether MPI buffers messages or not, there is no deadlock, every process returns after a bounded number of steps, no process accesses memory outside of its grid or buffers, no message is left over, and afterwards a cell holds the sum over all cells of the local domains that stand for the same global cell.", "quantifier": "every number of processes in every dimension, every schedule, every choice of buffered messages, every contents of grids and buffers, every commutative addition", "why_tests_cant": "All interleavings and all implementations of MPI.", "anchors": ["src/grid/mpisubdivision.t: MPICartSubdivision::accumulate", "src/grid/domainsubdivision.hpp: DomainSubdivision::accumulate"]}
{"id": "C107", "title": "A parallel simulation computes what the serial one computes", "statement": "A program that repeatedly computes new inner cells of its local grid from cells at a distance of at most the ghost width and then calls exchange(grid) ends under every schedule without deadlock, and its cells, ghost cells included, are those of the same computation on the periodic global field; so the result is the same for every number of processes, every admissible number of ghost cells and every schedule.", "quantifier": "every stencil (also one that depends on position and time), every number of time steps, every number of processes, every schedule and every initial field", "why_tests_cant": "All schedules, numbers of processes, stencils and numbers of steps.", "anchors": ["src/grid/mpisubdivision.t: MPICartSubdivision::init, exchange", "src/grid/domainsubdivision.hpp: DomainSubdivision::exchange"]}
{"id": "C108", "title": "forEach calls the function it was given", "statement": "RangeCIterationPolicy::forEach and RangeFortranIterationPolicy::forEach behave like a loop that calls the function object they were given once for every index of the range, in C or Fortran order.", "quantifier": "every range of every rank, every function object (also one with state, or one that changes the position it is called with)", "why_tests_cant": "All function objects, ranges and ranks; the usual test passes a lambda without state.", "anchors": ["src/grid/iteration/range-iteration.hpp: RangeCIterationPolicy::forEach, RangeFortranIterationPolicy::forEach, internal::RangeCIterationPolicyImpl, internal::RangeFortranIterationPolicyImpl"]}
{"id": "C109", "title": "Parallel forEach has the result of the sequential one", "statement": "RangeKokkosIterationPolicy::forEach(range, func) calls the function for the indices of the range in any order and at the same time, and memory is afterwards as after RangeCIterationPolicy::forEach.", "quantifier": "every range of every rank, every function as a program that reads and writes memory, every interleaving of the single reads and writes", "why_tests_cant": "The number of interleavings is exponential, and a race shows up only in some of them.", "anchors": ["src/grid/iteration/kokkos-iteration.hpp: RangeKokkosIterationPolicy::forEach"]}
{"id": "C110", "title": "A block container lists its child blocks", "statement": "While initAll runs, BlockContainer<T>::childBlocks() lists exactly the child blocks of the type T, in the order of the setup file and each once, in init and postInit of every block. Before preInit it lists none, and in preInit of a block it lists those before that block in the file. If initAll is called again every child is listed once more.", "quantifier": "every setup file, every tree of blocks, every assignment of containers and child types, every block on which initAll is called, every moment of its run", "why_tests_cant": "All files and trees of blocks, and all moments.", "anchors": ["src/variables/blockcontainer.hpp: BlockContainer::addChild, ChildBlock::preInit, childBlocks", "src/variables/block.cpp: Block::initAll"]}
{"id": "C111", "title": "What the setup file says arrives in the program", "statement": "When the text of a setup file has been read and the parameters of the blocks have been evaluated, the program's variable for a parameter has the value of the expression that the last assignment in the text gives to it, converted to the type of the variable: the value at that point of the file if the expression is constant, or else the value with the final values of all variables. If the text does not assign to it, it has a default value, and the variable has that.", "quantifier": "every program (classes of blocks, parameters, functions), every text that is accepted and whose tokens are statements (see C54, C89 and C149 for the others), every block and parameter that is not read-only", "why_tests_cant": "All texts and programs: the scanner, the parser, the variables and the blocks have to fit together.", "anchors": ["src/parser/internal/deckscanner.cpp: DeckScanner::do_scan", "parser/deckgrammar.y", "src/parser/parsertoken.cpp: ParserSub::updateVariable, createBlock", "src/variables/block.cpp: Block::evaluateParameters", "src/variables/blockparameters.hpp: BlockParameters::addParameter, ConcreteParameter::evaluate"]}
{"id": "C112", "title": "Parallel programs work under every schedule", "statement": "A program that all processes execute, and that consists of computations with the process's own data and of calls of exchange, accumulate, exchangeData and the reductions of MPICartSubdivision, ends in every process without deadlock and without an access outside of a grid or buffer. Messages of different calls are not confused. Afterwards the data of all processes are those that result if each call in turn does what it is documented to do, whatever the speed of the processes and whichever messages MPI buffers.", "quantifier": "every sequence of calls on any variables of the program, every number of processes, dimensions and ghost cells (each process has at least as many cells as ghost cells), all data that meet the requirements of each call, every interleaving of the processes and every choice of buffered messages", "why_tests_cant": "All programs and all interleavings; a confusion of messages or a deadlock depends on the speed of the processes.", "anchors": ["src/grid/mpisubdivision.t: MPICartSubdivision::exchange, accumulate, exchangeData, sumReduce, avgReduce, maxReduce, minReduce", "src/grid/domainsubdivision.hpp: DomainSubdivision::exchange, accumulate"]}
{"id": "C113", "title": "Function registries find the function registered last", "statement": "A name in an expression of a setup file refers to the function that has been registered last under that name, in the registry of the parser or in a copy of it, and to none if there is none; a call is accepted exactly if the number of arguments is right, and evaluates the arguments in order, converted to the parameter types. registerAllFunctions, registerCMath, registerUtilityFunctions and registerSpecialFunctions register exactly the documented functions, each with the parameters, result type and value its name says, and change no other name and no unrelated registry.", "quantifier": "every sequence of creating, copying and registering, every name, every list of arguments, every floating point type and mathematical library", "why_tests_cant": "All histories of registrations in registries that share data; a test tries a few names.", "anchors": ["src/variables/function_expression.hpp: FunctionRegistry, registerFunction, getExpression", "src/variables/function_expression.cpp: registerCMath, registerUtilityFunctions, registerSpecialFunctions, registerAllFunctions"]}
{"id": "C114", "title": "Block class registries keep what they are told", "statement": "A block class is known exactly if it has been registered or requested, in the registry or in a copy of it. A block class may contain a child exactly if the child has been added to it, and blocks of the class are made with the C++ class that has been set last. A program that only uses references it got from the registry has no undefined behaviour.", "quantifier": "every sequence of creating and copying registries, registering classes, adding children and setting C++ classes", "why_tests_cant": "All histories of registrations, with copies that share data and references that are kept.", "anchors": ["src/variables/blockclasses.hpp: BlockClasses, BlockClassDescriptor, registerBlock, get, hasChild, addChild, setClass", "src/variables/blockclasses.cpp"]}
{"id": "C115", "title": "Diagnostics leave complete text files", "statement": "A file diagnostic leaves in the file of each step at which output is due the text the field had at that step; with append, one file contains the texts of all these steps in order. Other files are not changed. If the program stops at any point, all outputs before the last are complete, and the last file contains the beginning of its text. Diagnostics that write at the same time, in one process or in several, do not disturb each other.", "quantifier": "every list of steps and texts, every interval, every file name, every way the stream buffers its output, every point at which the program stops, every interleaving of several diagnostics or processes", "why_tests_cant": "All histories, crash points, buffer states and interleavings.", "anchors": ["src/diagnostic/diagnostic.t: SimpleFileDiagnostic::open, write, close, SimpleDiagnostic::~SimpleDiagnostic", "src/diagnostic/diagnostic.hpp: SimpleFileDiagnostic", "src/diagnostic/diagnostic.cpp: IntervalDiagnostic::execute, DeltaTimeDiagnostic::execute, parsedFileName"]}
{"id": "C116", "title": "Loops over ranges with 32 bit indices", "statement": "With indices of type int (32 bits, signed overflow undefined) a range iterator and the forEach functions visit exactly the indices of a range, in their order, without overflow, for every range whose upper limits are less than the largest int. (False for every non-empty range that contains the largest int: each loop increments the index past it.)", "quantifier": "all ranks, all ranges of ints, all functors and states", "why_tests_cant": "Tests do not use ranges next to the limits of int, and overflow does not show as a failure in a test build.", "anchors": ["src/grid/range.hpp Range::iterator::increment", "src/grid/iteration/range-iteration.hpp RangeCIterationPolicy::forEach, RangeFortranIterationPolicy::forEach"]}
{"id": "C117", "title": "Element access with 32 bit indices and 64 bit offsets", "statement": "With int of 32 bits and ptrdiff_t of 64 bits, accessing the elements of a grid makes no overflow and maps the indices of the grid one to one to the allocated elements, if no lower limit is the smallest int, the extents are ints, and the number of elements times the rank is at most 2^32 or the grid contains the origin and has less than 2^63 elements. getSize() is the number of elements if that is less than 2^31. (False for larger grids far from the origin, where the offset overflows; for a lower limit equal to the smallest int; and getSize() of a 65536 x 65536 grid is 0.)", "quantifier": "all ranks, both storage orders, all ranges, all indices", "why_tests_cant": "Needs all sizes and positions of grids up to billions of elements; modular arithmetic makes most overflows invisible.", "anchors": ["src/grid/gridstorage/single-array-storage-base.hpp updateDataFast, get, getSize", "src/grid/gridstorage/single-array-allocation.hpp resize"]}
{"id": "C118", "title": "Ghost cell exchange with 32 bit indices", "statement": "With int of 32 bits the ghost cell, source, boundary and inner domains, the local domains of the processes of an MPI subdivision, and the exchange and accumulate operations make no overflow and have the results of C13-C19 and C25, if the local domain lies strictly between the smallest int and the largest int (serial), or the global domain plus two layers of ghost cells is smaller than 2^31 (MPI). (False for a global domain that ends at the largest int.)", "quantifier": "all ranks, domains, numbers of ghost cells, process grids and grid contents", "why_tests_cant": "Tests use small domains near the origin.", "anchors": ["src/grid/boundary.t", "src/grid/domainsubdivision.t SerialSubdivision", "src/grid/mpisubdivision.t MPICartSubdivision::init, exchange"]}
{"id": "C119", "title": "Fields with 32 bit indices", "statement": "A field can be made or resized without overflow if and only if its limits, extended by the ghost cells, are ints, and these are then the limits of the grid. For positions in the domain and indices of the field the conversions between position and index make no overflow. (False for positions far outside of the domain, where the conversion of a double to int is undefined, and the limits are not checked.)", "quantifier": "all ranks, limits, sizes, numbers of ghost cells, domains, staggerings and positions", "why_tests_cant": "Needs all sizes up to the limits of int and all positions.", "anchors": ["src/grid/field.t Field::Field, resize, positionToIndex, indexToPosition", "src/grid/range.hpp Range::grow"]}
{"id": "C120", "title": "Parallel programs with branches and loops do not deadlock if the processes decide alike", "statement": "Let all processes execute one program that consists of computations with the own data, calls of exchange, accumulate, exchangeData and the reductions, and of branches and loops whose conditions each process evaluates with its own data (for example the result of a reduction). If, when all processes go together, they come to the same decision each time and meet the requirements of each call, then under every schedule and every choice of MPI whether to buffer messages nobody does anything that is not allowed, and until all have finished there is a process that can go on, even if the program never ends. If the program ends when all processes go together, then it ends under every schedule after a bounded number of steps, no message is left, and the data are the same under all schedules. If only one of two processes calls a reduction, there is a deadlock.", "quantifier": "all subdivisions with domains at least as wide as the ghost region, all programs (nested branches and loops of any kind and depth), all data, all conditions, all interleavings of the processes, all choices which messages MPI buffers", "why_tests_cant": "A test executes one program with a few processes and sees a few of the interleavings; whether a loop that runs until a reduction says so can get out of step, or a message of one round can be taken for that of another, depends on the schedule.", "anchors": ["src/grid/mpisubdivision.t: exchange, accumulate, exchangeData, avgReduce, sumReduce, maxReduce, minReduce", "src/grid/domainsubdivision.hpp: DomainSubdivision::exchange, accumulate"]}
{"id": "C121", "title": "Conversions between positions and indices in double arithmetic", "statement": "With double arithmetic (IEEE 754, rounding to nearest) positionToIndex is monotone: a larger position never has a smaller index. Both versions give the same index; the offset is between 0 and 1, and less than 1 if the index is not negative. For a field whose limits are at most M (M <= 2^26), a position in the domain or within one domain width of it gets an index and an offset that stand for a position at most M/2^45 cell widths away, and the index is the exact one unless the position is that close to a grid point. indexToPosition is as accurate, and positionToIndex of its result is the index, or the index before with an offset close to 1. If the cell width is a power of two and the domain starts at a multiple of it, the conversions are exact and inverse to each other. In general they are not inverse to each other: with 100 cells in the domain from 0 to 1, positionToIndex(indexToPosition(29)) is 28.", "quantifier": "all fields with limits up to 2^26, all domains with double limits from 2^-400 to 2^400, staggered or not, all ghost widths, all positions and indices", "why_tests_cant": "Rounding errors depend on every bit of the domain limits and of the position; tests sample a few. The test suite compares with a tolerance and cannot show that the index is off by at most one for all of them.", "anchors": ["src/grid/field.t: Field::positionToIndex", "src/grid/field.t: Field::indexToPosition"]}
{"id": "C122", "title": "Diagnostics at physical times in double arithmetic", "statement": "With double arithmetic for times (nextOutput += deltaTime, adjustDeltaT, and now += dt in the simulation): the time step that adjustDeltaT returns is positive and at most the one asked for; a reduced time step still increases the time; and it leads at most to the next double after the next output of any diagnostic, and not beyond the next output if that is at most twice the present time. In a simulation of at most 2^49 deltaTime that starts at or before the first output, output number k takes place at delay + deltaTime + ... + deltaTime added up in double, or at the next double; none is left out and none is repeated; this time differs from delay + k*deltaTime by a relative error of at most (k+2)/2^52; and output k goes to file number k. It is not exact: with deltaTime 0.1 output 10 is before time 1, an output can be stepped over by one double, and when deltaTime is lost in the sum there is output in each step.", "quantifier": "all lists of diagnostics, all start times, all sequences of time steps, all k up to 2^50", "why_tests_cant": "Rounding errors accumulate over a simulation and depend on every bit of the time steps; a test runs one short simulation.", "anchors": ["src/diagnostic/diagnostic.cpp: DeltaTimeDiagnostic::execute", "src/diagnostic/diagnostic.cpp: DiagnosticManager::adjustDeltaT"]}
{"id": "C123", "title": "The process layout with double arithmetic", "statement": "equalFactors computes the square root and the costs of layouts in double. int(floor(sqrt(number))) is the integer square root for every positive int, so all primes that are needed are found. The layout that is returned costs at most the factor 1 + (d+3)/2^50 more, for d dimensions, than any layout in which the number of processes along dimension 0 is a multiple of the smallest prime factor of the process count. If the cost of a layout times the product of the weights, times d+3, is less than 2^50, the returned layout is at least as good as that layout: rounding has no effect.", "quantifier": "all process counts, all positive int weights, all numbers of dimensions up to 2^48, all competing layouts", "why_tests_cant": "Whether rounding changes a comparison depends on every bit of the weights; a test tries a few grids.", "anchors": ["src/util/factor.cpp: equalFactors", "src/util/factor.cpp: distribute"]}
{"id": "C124", "title": "Accumulation and sums over processes with rounding", "statement": "For every element type with an operation +, even one that is neither commutative nor associative, accumulate(grid) leaves in each cell a sum, in some order and bracketing, of exactly the copies of that cell in all processes (ghost cells and periodic images included), each of them once; this holds for the serial and the MPI subdivision and under every schedule of the processes. If the inner widths are at least twice the ghost width, all copies of a cell then hold the very same value, so that no differences due to rounding arise between processes. For double the result differs from the exact sum by at most ((1+2^-53)^(k-1) - 1) times the sum of the absolute values of the k copies, and it is exact for whole numbers up to 2^53. The same bound holds for sumReduce(double); avgReduce(double) has it with exponent k, plus 2^-1075 for underflow.", "quantifier": "all grids, dimensions, ghost widths, process layouts, schedules, element types and values", "why_tests_cant": "The order of the additions depends on the layout, and the effect of the order depends on every bit of the values.", "anchors": ["src/grid/domainsubdivision.t: SerialSubdivision::accumulateDim", "src/grid/mpisubdivision.t: MPICartSubdivision::accumulate", "src/grid/mpisubdivision.t: MPICartSubdivision::sumReduce", "src/grid/mpisubdivision.t: MPICartSubdivision::avgReduce"]}
{"id": "C125", "title": "Processes agree on the positions of cells", "statement": "With double arithmetic the local extents returned by getInnerExtent tile the global extent without gaps: each process begins exactly where the one before ends. A local field with this extent assigns to each of its cells, ghost cells included, a position that differs from the exact one by at most (N+K)/2^47 cell widths (N cells, the extent beginning at most K cell widths from the origin), so two processes differ by at most twice that. If the cell width is a power of two and the lower end a multiple of it, all positions are exact. In general all processes should assign the same position to the same cell, and the last process should end at the upper end of the global extent.", "quantifier": "all global domains with at most 2^26 cells and lower limit 0, all extents from 2^-300 to 2^300, all process layouts, ghost widths up to the local width, all cells", "why_tests_cant": "Rounding errors depend on every bit of the extent and on the layout; most layouts show no difference.", "anchors": ["src/grid/domainsubdivision.hpp: DomainSubdivision::getInnerExtent", "src/grid/field.t: Field::indexToPosition"]}
{"id": "C126", "title": "A saved simulation can be continued by any number of processes", "statement": "Take a time stepping program on a domain with lower limit 0, stop it after k steps, let all processes write their grids (in C order, inner domain as local domain) into a file with parallel HDF5, start the program again with any other process layout and number of ghost cells, let all processes read the file and make m more steps. Then the file holds the global field after k steps, whatever the layout, the schedule and the order of the writes, the second run cannot get stuck, and the result in every cell, ghost cells included, is that of an uninterrupted run of k+m steps.", "quantifier": "all initial fields, all stencils within the ghost width, all k and m, all pairs of process layouts, all schedules and buffering choices of both runs, all orders in which the processes write", "why_tests_cant": "The number of pairs of layouts, schedules, stopping points and contents is unbounded.", "anchors": ["src/grid/mpisubdivision.t: MPICartSubdivision::exchange, MPICartSubdivision::init", "src/diagnostic/hdfdiagnostic.t: HdfOStream::writeGrid, HdfIStream::readGrid", "src/diagnostic/hdfdiagnostic.hpp: GridContainer"]}
{"id": "C127", "title": "Grids survive running out of memory", "statement": "A resize of a grid may throw because memory cannot be allocated, at any time and any number of times, and the program may catch the exception and go on. No memory is freed twice or lost, and no destroyed grid is called back, whatever follows. Grids that do not share data with the grid keep their range and elements. Grids that share data with it should keep their elements, or be empty, or at least be usable again after the next successful resize.", "quantifier": "all histories of constructions, copies, assignments, resizes, failing resizes and destructions of any number of grids, of any rank, both storage orders, standard and lazy allocation", "why_tests_cant": "Memory does not run out in tests, and the failure may happen in any resize of any history.", "anchors": ["src/grid/gridstorage/single-array-allocation.hpp: SingleArrayInstantAllocation::resizeImpl, SingleArrayInstantAllocation::newData, SingleArrayInstantAllocation::deleteData, SingleArrayLazyAllocation::resizeImpl, SingleArrayLazyAllocation::newData"]}
{"id": "C128", "title": "A process that stops does not spoil the results of the others", "statement": "If processes of a parallel program stop at any time (killed, or ended by an exception), then no other process ever does anything that is not allowed, and each process, whenever it is between two calls of the subdivision, has exactly the data which it would have there without failure. A process that needs data of a stopped process waits in the call in which it needs them; it neither goes on with other data nor is told of the failure.", "quantifier": "all programs made of computations, exchange, accumulate, exchangeData and reductions; all process layouts, schedules and buffering choices; all sets of processes that stop, all points at which they stop, and all losses of messages under way", "why_tests_cant": "The number of crash points, sets of crashed processes and schedules is unbounded.", "anchors": ["src/grid/mpisubdivision.t: MPICartSubdivision::exchange, MPICartSubdivision::accumulate, MPICartSubdivision::exchangeData, MPICartSubdivision::sumReduce, MPICartSubdivision::maxReduce, MPICartSubdivision::minReduce, MPICartSubdivision::avgReduce"]}
{"id": "C129", "title": "Attributes of a dataset are those that were set", "statement": "A dataset written to an HDF5 file has exactly one attribute for each name for which set has been called for the attributes object the stream refers to. It has the type and the number of elements of the last such call, and the value that was given to set. Copies of a stream refer to the same object, and an object can be changed after it was given to a stream.", "quantifier": "all sequences of creating attribute objects and streams, copying streams, calling set and setAttributes, assigning and destroying variables, and writing datasets; all names, types and values", "why_tests_cant": "Objects are shared between streams and point to variables of the program, so the result depends on the order of all calls before; the number of such histories is unbounded.", "anchors": ["src/diagnostic/hdfdiagnostic.hpp: HdfAttributes, HdfStream::setAttributes, HDFGridDiagnostic::getAttributes", "src/diagnostic/hdfdiagnostic.t: HdfAttributes::set, HdfOStream::writeGrid, HDFGridDiagnostic::write", "src/diagnostic/hdfdiagnostic.cpp: HdfStream::HdfStream, HdfStream::setAttributes"]}
{"id": "C130", "title": "Reading a setup file does not change the variables of the program", "statement": "While a setup file is read, after it was rejected at any point, and after it was accepted, every member of a block that is registered as a parameter has the value it had when the block was made, except that read-only parameters with a default have been set to it. Members get values of the file only when the parameters are evaluated.", "quantifier": "all programs (classes of blocks with parameters of different names), all files and all points at which they are rejected", "why_tests_cant": "It must hold for every file and every position of an error, with any number of blocks.", "anchors": ["src/variables/blockparameters.hpp: BlockParameters::addParameter, BlockParameters::addConstant", "src/parser/parser.cpp: Parser::parse", "src/parser/parsertoken.cpp: createBlock, updateVariable, storeVariable"]}
{"id": "C131", "title": "A parser can be used for several files", "statement": "If several files are read with the same Parser, then names declared by earlier files stay declared with the same type, read-only ones keep their definition, members of blocks made earlier are not changed, and a name cannot be declared twice in the same block. Each file is read from the outermost level, its statements set the parameters of the blocks made for it, and an error in one file does not prevent reading the next.", "quantifier": "all programs and all sequences of files, accepted or rejected", "why_tests_cant": "The state left in the parser depends on all files read before and on where they ended.", "anchors": ["src/parser/parser.cpp: Parser::parse", "src/parser/parser.hpp: Parser", "src/parser/parsercontext.hpp: ParserContext", "src/variables/variables.cpp: BlockVariables::addVariable"]}
{"id": "C132", "title": "A parameter added to a ParametersGroup is an element of it", "statement": "A parameter or variable that has been added to a ParametersGroup is an element of the group, and others are not, whatever has been read from the setup file since. The group can be asked which of a set of ids it does not contain.", "quantifier": "all programs, all files, all points at which the group is made and at which it is asked", "why_tests_cant": "It must hold for every sequence of statements between making the group and asking it.", "anchors": ["src/variables/blockparameters.cpp: ParametersGroup::add, ParametersGroup::isElement, ParametersGroup::hasElements", "src/variables/blockparameters.hpp: ParametersGroup::addArray", "src/variables/variables.cpp: Variable::operator="]}
{"id": "C133", "title": "Adding one part of a grid to another part of the same grid", "statement": "Adding or subtracting two sub-grids of the same size that refer to the same grid combines each cell of the first with what the corresponding cell of the second held before the operation, and changes no other cell.", "quantifier": "all grids and contents, all pairs of windows of the same size, all operations", "why_tests_cant": "Whether a cell has been changed before it is read depends on the position of the two windows and on the order of the iteration, in any rank.", "anchors": ["src/grid/grid.t: operator+=, operator-=", "src/grid/subgrid.hpp: storage_iterator"]}
{"id": "C134", "title": "Subdivision objects free what they create exactly once", "statement": "In every program, the buffers and the communicator that an MPI domain subdivision creates are freed exactly once, are not used after that, and nothing is left when all subdivision objects have been destroyed.", "quantifier": "all sequences of constructing, initialising, copying, assigning, using and destroying subdivision objects", "why_tests_cant": "It must hold for every history of the objects; a double free or a leak shows only for particular histories.", "anchors": ["src/grid/mpisubdivision.t: MPICartSubdivision::MPICartSubdivision, init, ~MPICartSubdivision", "src/grid/mpisubdivision.hpp: sendarr, recvarr, comm"]}
{"id": "C135", "title": "Blocks live as long as the program uses them", "statement": "No block made for a setup file is destroyed while the program can still get to it from a block it has a pointer to. When the program has given up its last pointer, all blocks are destroyed, so that diagnostics that append to a file leave a complete file when the program ends. (FINDING: violated; a block and its parent have shared pointers to each other, so no block of a tree with two or more blocks is ever destroyed, and the last part of the output of a diagnostic that appends, or all of it, is lost; and after a file has been rejected the outermost block is never destroyed even if it is the only one, because the parser is not freed and the tokens on its stack keep the tree of blocks.)", "quantifier": "every setup file, every sequence of copying and giving up pointers to blocks, every sequence of diagnostic outputs, every way the stream buffers its output", "why_tests_cant": "It must hold for all histories of pointers and for all files; what is lost depends on the size of the buffer.", "anchors": ["src/variables/block.hpp: Block::parent, Block::children, BlockTree", "src/variables/block.cpp: BlockTree::addChild, moveUp", "src/parser/parser.cpp: Parser::parse", "src/diagnostic/diagnostic.hpp: SimpleFileDiagnostic::output", "src/diagnostic/diagnostic.t: SimpleDiagnostic::~SimpleDiagnostic", "src/parser/parser.cpp: Parser::parse, ParseFree"]}
{"id": "C136", "title": "Only the chosen processes take part in parallel output", "statement": "With parallel HDF5, setActive chooses for each process whether it takes part in the files of a stream. When all processes make the same calls (setActive in all of them or in none, open, writeGrid or readGrid, close) then no process waits forever, exactly the active processes open each file, with a communicator that consists of them in the order of their ranks, each transfer takes place in the active processes, with its attributes, and the other processes do nothing. The choice holds until it is changed, and copies of the stream have it too.", "quantifier": "all numbers of processes, all choices of active processes, all sequences of files and of transfers, input and output streams", "why_tests_cant": "Whether a process waits forever depends on the choices in all processes and on the history of the stream in each of them; tests run with one process.", "anchors": ["src/diagnostic/hdfdiagnostic.hpp: HdfStream::setActive", "src/diagnostic/hdfdiagnostic.cpp: HdfStream::makeMPIGroup, HdfIStream::open, HdfOStream::open, HdfStream::HdfStream", "src/diagnostic/hdfdiagnostic.t: HdfOStream::writeGrid, HdfIStream::readGrid"]}
{"id": "C137", "title": "The checking policy of arrays catches every index outside", "statement": "With ArrayAssertArgCheck a program never accesses an element outside of an array, whatever indices it uses with [] and at, in projectDim or as argument of fill, including negative ones: it is stopped exactly when the same program with ArrayNoArgCheck would access an element outside of an array. If it is not stopped then the same program with ArrayNoArgCheck (switched by a typedef, for all or some arrays) sees the same values and ends with the same arrays. Within the array, reading and setting an element, the constructors, copies between policies, assignment (also to itself), fill (also with one of its own elements), project, projectDim, sum, product and sqr act on exactly the elements they name.", "quantifier": "all sequences of operations on any number of arrays of any lengths, all indices of type size_t, all element values, all mixtures of the policies", "why_tests_cant": "An access outside of an array often goes unnoticed; that none is missed by the checks, and that switching them off changes nothing else, concerns all programs and all indices.", "anchors": ["src/grid/arraycheck.hpp: ArrayNoArgCheck, ArrayAssertArgCheck", "src/grid/array.hpp: Array", "src/grid/array.t: Array::at, operator[], constructors, fill, project, projectDim, sum, product, sqr, operator="]}
{"id": "C138", "title": "Errors while values are computed do no harm", "statement": "If an expression throws an exception while DependencyUpdater::update() computes it (for example a string that is no number), then no variable of the program has been changed, each variable of the file has its old value or the value of its definition, and what need not be updated is untouched; the next call of update() does the same as if the failed call had not been made. If evaluateParameters() throws (a parameter without value, or one whose expression throws), then the program's variables of the parameters that come before it have the values of the file, all others and the variables of the file are unchanged. If an evaluation throws while fill_field() fills a field, then the cells reached before hold the value of the formula at their positions, all others are unchanged, and the updater can be used further.", "quantifier": "all histories of an updater including earlier failures, all definitions, all changes of the program's variables between calls; all setup files and all points of failure", "why_tests_cant": "An exception may come from any expression of any file at any time; the state it leaves must be sound for each of them and for all that happens afterwards.", "anchors": ["src/variables/dependencies.hpp: DependencyUpdater::update", "src/variables/variables.cpp: Variable::evaluateExpression", "src/variables/blockparameters.hpp: ConcreteParameter::evaluate, BlockParameters::evaluate", "src/variables/block.cpp: Block::evaluateParameters", "src/tools/fieldtools.t: fill_field"]}
{"id": "C139", "title": "Errors in a setup file are reported truthfully", "statement": "If reading a setup file is ended by an exception other than a syntax error, the exception tells the truth about one statement of the file: a ParserError carries the line of the name, keyword or brace at fault, and what the message says is so (the variable is unknown, is declared already, is read-only, has no value, the value is not of the declared type, the block is not allowed or exists already, there is an extra brace); a FunctionNotFoundException names a function called there that is not registered, a WrongNumberOfArgsException belongs to a call with another number of arguments than the function has, any other EvaluationException to a constant after '=' that contains a reason to fail (C140). All statements before it have been executed, and it has changed nothing except that variables may have been declared. A file with a statement that cannot be executed never goes unreported. The exceptions are ParserErrors and EvaluationExceptions, as the manual says.", "quantifier": "all setup files (texts), all programs that register block classes, parameters and functions, all points of the file at which reading fails", "why_tests_cant": "There are infinitely many wrong files; tests show the message and line of a few. The line travels through the parser's stack in tokens that are copied and merged by dozens of actions, so a wrong line can appear in any combination of them.", "anchors": ["src/parser/parsertoken.hpp: ParserError, ParserException", "src/parser/parsertoken.cpp: ParserDriver::assignIdentifier, storeVariable, updateVariable, ensureVariable, createBlock, endBlock", "src/parser/tokenlist.hpp: Token", "src/parser/deckgrammar.inc: yy_reduce", "src/variables/function_expression.hpp: FunctionRegistry::getExpression", "docs/manual/reading-setup-files/error-handling.rst"]}
{"id": "C140", "title": "An expression that has no value fails for a reason that is in it", "statement": "Evaluating an expression gives a value unless it contains a reason to fail, and then it always fails, in the way that belongs to a reason it contains: TypeCastException exactly where a text that is to be converted into a number is not a number; an exception of a registered function where the function throws for the values of its arguments; undefined behaviour (not an exception) where an operation on two integers overflows or divides by zero, where the smallest integer is negated, or where a double out of range is converted to int. A constant of a setup file never fails because a variable holds another type than the one it is used with. An expression of doubles without functions always has a value.", "quantifier": "all expressions of any size that can be built (all operators, conversions, functions, variables), all values of the variables, all registered functions, all setup files read before", "why_tests_cant": "The operands of chained operators are merged into one list while the expression is built, and conversions are inserted; that no value is passed over and no other exception can come out must hold for every nesting and all values.", "anchors": ["src/variables/expression.hpp: Expression::eval, BinaryOp::eval, TypecastOp::eval, ReferencedValue::eval, TypeCastException", "src/variables/operators.hpp: OperatorAdd, OperatorDivide, OperatorNeg, OperatorExponent", "src/variables/function_expression.hpp: FunctionExpression::eval, FunctionExpressionConverter::evaluate", "src/parser/parsertoken.t: TypePromoter"]}
{"id": "C141", "title": "The program's variables follow the formulas of the setup file", "statement": "A program reads a setup file, makes a dependency map and an updater, and then works with them in any order: it adds independent (read-only) and dependent parameters, removes the dependent ones, changes its own variables and calls update. After every successful update, each variable of the program that belongs to a dependent parameter has the value that the text of the file gives to that parameter for the present values of the read-only parameters: the constants of the file, and formulas applied to the values of the variables named in them, through any number of intermediate variables and blocks. The read-only parameters are not changed. A parameter that the file makes a constant gets its value at once when it is added. update always ends, with this result or with the exception of a formula. The value is determined by the read-only parameters alone.", "quantifier": "all programs (block classes, parameters, registered functions), all setup files of any length that are accepted, all histories of calls on the updater and changes of the program's variables, failed updates included", "why_tests_cant": "The tests run two independent loops over a few dozen values with one fixed file. The updater only evaluates what lies between the independent and the dependent variables, in an order computed from the graph of formulas and cached between calls; that nothing stale is used must hold for every file and every history.", "anchors": ["src/variables/dependencies.hpp: DependencyUpdater::update, DependencyMap", "src/variables/dependencies.cpp: DependencyUpdater::addIndependent, DependencyUpdater::addDependent, DependencyMap::updateAll, DependencyMap::makeUpdateList", "src/parser/parser.cpp: Parser::parse", "src/variables/blockparameters.hpp: ConcreteParameter", "testsuite/test_parser.cpp: parser_dependency, parser_precedence_add_1, parser_precedence_mult_1"]}
{"id": "C142", "title": "fill_field fills a field with the formula of the setup file", "statement": "A program reads a setup file in which a parameter is given by a formula of the coordinates, however indirectly. Whatever the program has done before with its updater, if the coordinates are independent parameters then fill_field(field, coords, value, updater, parameter) leaves the range of the field alone and gives each of its cells, ghost cells included, the value that the text of the file gives to the parameter when the coordinates are those of that cell; the other read-only parameters have the values they have when fill_field is called. If the file makes the parameter a constant, all cells get that constant. The same holds if the parameter has been added to the updater before. If a formula cannot be evaluated in some cell, the cells reached before hold their values, the others what they held before, and the updater can be used further.", "quantifier": "all programs, all accepted setup files of any length, all histories of the updater, all fields (any number of dimensions, any range, staggering and ghost cells), all parameters", "why_tests_cant": "No test of the project calls fill_field. A test checks a few cells of one field with one formula; that no cell gets the value of its neighbour, or of an earlier field, depends on how the updater caches and orders evaluations between cells and must hold for every file, field and history.", "anchors": ["src/tools/fieldtools.t: fill_field", "src/variables/dependencies.hpp: DependencyUpdater::update, DependencyUpdater::clearDependent, DependencyUpdater::addDependent", "src/parser/parser.cpp: Parser::parse", "src/grid/field.t: Field::indexToPosition", "docs/manual/reading-setup-files/filling-fields.rst", "examples/example_setup_fillfield.cpp"]}
{"id": "C143", "title": "Objects shared by the whole program: one instance, different ids", "statement": "All calls of instance() of a singleton (the diagnostic manager, the literature manager, shared block data) return the same object, which is created once, and never a null pointer; all objects with Unique ids have different ids.", "quantifier": "any number of threads, each with any number of calls, and every interleaving of their accesses", "why_tests_cant": "Schedules: whether two threads get different objects depends on the interleaving of single reads and writes, which a test does not control.", "anchors": ["src/util/singleton.hpp: Singleton::instance, CreateUsingNew::create", "src/util/unique.hpp: Unique"]}
{"id": "C144", "title": "Lists of types are indexed from 0", "statement": "TypeList<Types...>::get<n>::type is the n-th type of the list, counted from 0, for every n below size, which is the number of types; for every other n the program is rejected. TypeAtNonStrict<List, n, Default>::Result is the n-th type or, if there is none, the default type.", "quantifier": "all lists of types of any length, all n", "why_tests_cant": "The project's test uses one list of three types; templates are instantiated only for the lists that appear in a program.", "anchors": ["src/generic/typelist.hpp: TypeList, TypeList::get, internal::TypeListGet", "src/typetools.hpp: TypeAtNonStrict, Typelist", "testsuite/generic/test_typelist.cpp"]}
{"id": "C145", "title": "Numbers in setup files and numbers as text", "statement": "An integer literal in a setup file stands for the number with its digits, and a literal with a point or an exponent stands for the double closest to the decimal number written; a literal without a value is not accepted. A string is converted to a number exactly if it is the text of a number of that type, and to this number. A number that is converted to a string and back, through variables of a setup file, is the same number. Texts that are put together from digits are the number with all the digits (the manual: \"12\" + \"34\" is 1234).", "quantifier": "all setup files and all literals in them, all strings, all values of type int and double", "why_tests_cant": "There are 2^64 doubles and infinitely many texts; whether 17 digits bring back every double is a theorem about rounding, not a matter of samples.", "anchors": ["src/parser/parsertoken.cpp: ParserToken::assignInteger, ParserToken::assignFloat", "src/variables/expression.hpp: FastCast, LexicalCast, TypecastOp::eval", "parser/deckscanner.rl", "docs/manual/reading-setup-files/error-handling.rst"]}
{"id": "C146", "title": "Lazy storage: bounded memory, few reallocations", "statement": "A grid with lazy storage that is resized to any sequence of sizes never allocates more than five times the largest size it had (or ten elements). If its size stays the same, then from some point on it is not reallocated any more and the memory it does not need has been given back down to 100 elements. Memory is thrown away only after many resizes with low usage: if a resize gives back 14 elements or more, then none of the 20 resizes before it needed the whole buffer or allocated memory. (FINDING: sizes that alternate between N and N+1, for any N from 100 on, make every resize from some point on free the buffer and allocate another one, because the deviation from the average is cut off to an integer and the variance goes to zero.)", "quantifier": "every sequence of sizes, every history before it", "why_tests_cant": "The decision depends on a running average and variance over the whole history; that a grid settles is a statement on unbounded sequences.", "anchors": ["src/grid/gridstorage/single-array-allocation.hpp: SingleArrayLazyAllocation::resizeImpl, newData", "docs/manual/multi-dimensional-grids/storage-policies.rst"]}
{"id": "C147", "title": "Each function call of a formula is made exactly once per update", "statement": "Registered functions may change the outside world (count their calls, draw random numbers). The evaluation of a formula calls each function in its text exactly once, the arguments from the left to the right and before the function. An update that ends normally evaluates each variable that depends on an independent variable (or contains a function registered to be updated always) and is needed for a dependent one exactly once, and no other: it makes the calls of these evaluations and no others, and each of these variables holds the value its formula has with the final values of the others. Functions in constant formulas are not called in updates. A function to be updated always is called in each update that needs it, whether anything has changed or not. If there is an exception, only some of the first of these calls have been made.", "quantifier": "every set of formulas, every registered function with every effect, every history of the updater, every exception", "why_tests_cant": "The unit test counts the calls for four formulas; the claim is on all dependency graphs and all functions with side effects.", "anchors": ["src/variables/expression.hpp: BinaryOp::eval, UnaryOp::eval", "src/variables/function_expression.hpp: FunctionExpression::eval", "src/variables/dependencies.hpp: DependencyUpdater::update", "testsuite/test_parser.cpp: parser_count_evaluations"]}
{"id": "C148", "title": "The setup file decides what a diagnostic writes, and when", "statement": "A diagnostic is a block of the setup file. When the file has been read and the parameters have been evaluated, an interval diagnostic writes the text of its field at each step that is a multiple of `interval` (100 if the file does not say), and at the final step, to the file called `file`, in which the placeholders are replaced, or all to one file if `append` is set; it writes nothing else. A physical time diagnostic writes at the times delay, delay + deltaTime, and so on, with the values of the setup file or the defaults 0 and 1. All diagnostics of the file take part in the simulation. A diagnostic without `file` is an error. What it writes is the field that its block sees under the name that the file gives as `field`; if there is none, or more than one, an exception is thrown. (FINDING: `interval = 0` is accepted, and the program then divides by zero.)", "quantifier": "every text of a setup file, every program and class of diagnostics, every step, text of the field, buffer and disk", "why_tests_cant": "No unit test reads a setup file with a diagnostic. The claim connects the scanner, the parser, the variables, the parameters, the manager and the files, for all setup files and all runs.", "anchors": ["src/diagnostic/diagnostic.cpp: DiagnosticInterface::initParameters, IntervalDiagnostic::initParameters, DeltaTimeDiagnostic::initParameters, IntervalDiagnostic::execute", "src/diagnostic/diagnostic.t: SimpleDiagnostic::initParameters", "src/variables/blockparameters.hpp: addParameter, evaluate", "src/parser/parser.cpp: Parser::parse", "examples/example_diagnostic_simple.setup"]}
{"id": "C149", "title": "A setup file that follows the grammar is executed as a whole or ends with an exception", "statement": "Whatever the length and the nesting of its statements, a setup file whose tokens are statements is never accepted with a part of it missing: if it is accepted, the variables and blocks are those that all of its statements make; otherwise the program gets the exception of a statement, or, when and only when the derivation needs more than 100 entries of the parser's stack and no earlier action throws, a syntax error at a token of the file. So the loss of tokens after an overflow of the stack (C90) can only go unnoticed in files that do not follow the grammar.", "quantifier": "every sequence of tokens that follows the grammar, every set of semantic actions, every state of the program; every text of a setup file", "why_tests_cant": "The parser empties its stack without notice when it overflows and goes on with the next token. That what follows can never be taken for the beginning of a statement depends on all states of the table and on all continuations of all derivations.", "anchors": ["src/parser/deckgrammar.inc: yy_shift, yyStackOverflow, Parse", "parser/deckgrammar.y", "src/parser/parser.cpp: Parser::parse"]}
{"id": "C150", "title": "Grid diagnostics write, and grid readers fill, the field of the program", "statement": "An HDF5 grid diagnostic or reader that is initialised with a grid or field of the program refers to the elements of that field from then on, whatever the program does with it short of assigning to it or destroying it: the values that are written are those that the field has at the time of output, not those it had when the diagnostic was initialised, and a reader writes the values of the file to the inner cells of the field and changes nothing else. The part of the domain that belongs to the process is the inner part of the field. If the fields of all processes together cover a domain, the dataset has the extents of the domain and all values. (This needs the field to keep its range: the bounds are taken when the diagnostic is initialised.)", "quantifier": "every history of grids before and after the diagnostic is initialised, all ranges, numbers of ghost cells, values, both allocation policies, any number of processes", "why_tests_cant": "That the copies made at initialisation share the memory of the field, and go on sharing it when grids are copied, resized and destroyed, is a property of all histories. A test has one history.", "anchors": ["src/diagnostic/hdfdiagnostic.t: HDFGridDiagnostic::init, HDFGridDiagnostic::write, HDFGridReader::init, HDFGridReader::read, CopyToContainer", "src/diagnostic/hdfdiagnostic.hpp: GridContainer", "src/grid/gridstorage/single-array-allocation.hpp", "src/variables/block.hpp: retrieveData"]}
{"id": "C151", "title": "How long the parts of a statement may be", "statement": "In a setup file whose other statements have no more than 98 tokens and none of whose actions throws, an assignment of a sum or of a product of names, numbers and strings is accepted if and only if it has no more than 49 operands (48 if it is not the first statement of the file), parentheses are accepted up to a depth of 95 (94), and a function may have any number of arguments, a declaration any number of variables, and the file any number of statements. (FINDING: what is accepted depends on the place of the statement in the file.)", "quantifier": "every number of operands, parentheses, arguments, variables and statements; all operators and kinds of operands; all values of the tokens, actions that do not throw, and states of the program", "why_tests_cant": "That there is no limit for arguments and declarations, and exactly one for sums, products and parentheses, is a statement about files of every length and about the table of a generated parser.", "anchors": ["src/parser/deckgrammar.inc: Parse, yy_shift, yyStackOverflow", "parser/deckgrammar.y"]}
{"id": "C152", "title": "Sub-grids follow their base grid", "statement": "While a program goes on creating, copying, assigning, resizing and destroying grids and sub-grids, a sub-grid on a grid that is still alive keeps its limits, and shows at every position inside of its limits the element that the base grid, and every grid sharing data with it, has at that position now; different positions show different elements; copies of a sub-grid show the same elements. (FINDING: false when the base grid is made smaller, which no checking policy notices, and when the base grid object is destroyed although a copy keeps its data alive.)", "quantifier": "every history of operations on any number of grids and sub-grids, every rank, range and storage order, both allocation policies, all checking policies of grids and sub-grids", "why_tests_cant": "The claim is about every interleaving of operations on grids that share data and on windows that hold addresses of them.", "anchors": ["src/grid/subgrid.hpp: SubGridStorage, SubGrid", "src/grid/subgrid.t", "src/grid/gridstorage/single-array-allocation.hpp", "src/grid/grid.hpp: GridBase"]}
{"id": "C153", "title": "The variables of a setup file live as long as they are used", "statement": "After a setup file has been read, every block of variables and every variable the program can get to from a pointer it has, by going to the surrounding block, to the blocks inside, to the variables of a block and to the variables in formulas, exists, whatever pointers the program has given up; when the program has no pointers left, everything is destroyed. (FINDING: the second half is false of every file with a block in it: block and surrounding block hold each other by shared pointers, and none of the variables of the file is ever destroyed; the same of a variable assigned a formula with itself in it.)", "quantifier": "every program, every setup file, every set of pointers the program has after reading, every sequence of copying and destroying pointers", "why_tests_cant": "The claim ranges over every graph of blocks and formulas and over every order in which pointers are given up.", "anchors": ["src/variables/variables.hpp: Variable, BlockVariables", "src/variables/variables.cpp: BlockVariables::addChild", "src/variables/expression.hpp: ReferencedValue", "src/variables/block.hpp"]}
{"id": "C154", "title": "Loops over a range that changes", "statement": "A loop with the iterators of a range ends whatever is done to the range inside of the loop, as long as the range exists and its limits stay bounded; it passes no position twice and passes every position that is inside of the range all the time; if the range only grows, every position is inside of the range when it is passed. (FINDING: positions outside of the range are passed when the range gets smaller; a loop whose end iterator was obtained before the loop, as in the range-based for and in all loops of the library, does not end if the lower limit is raised; the range has to outlive the iterators.)", "quantifier": "every rank, every sequence of changes of the range during the loop, both ways to obtain the end iterator", "why_tests_cant": "The claim ranges over every sequence of changes made between any two steps of the loop.", "anchors": ["src/grid/range.hpp: Range::iterator, Range::begin, Range::end", "src/tools/fieldtools.t", "src/grid/domainsubdivision.t"]}
{"id": "C155", "title": "The text of grids and arrays can be read again", "statement": "The words of the text that is written for a grid or an array are the texts of its elements, each once and in order, so that a grid of int can be read again; this is so as well if further grids are written to the same stream. (FINDING: for grids with one index, and for arrays, the last number is joined with the first number of what follows, also in the file of a diagnostic that appends; doubles are written with six digits, so that different grids have the same text.)", "quantifier": "every rank, every range, all values of the elements, every text that follows", "why_tests_cant": "The claim ranges over all grids and all values.", "anchors": ["src/datastream.t: operator<<", "src/diagnostic/diagnostic.t: SimpleFileDiagnostic::open, SimpleFileDiagnostic::write"]}
{"id": "C156", "title": "A setup file made by a program is read again", "statement": "If a program writes a setup file with one line `int name = value;`, `double name = value;` or `string name = \"text\";` for each of its settings, this file is accepted by a program that uses the library, whatever the names and the values and however many there are, and afterwards the root block has for each name a variable of this type with this value, and no other new variables. The same holds if settings, and values `name = value;` for parameters of the classes of the blocks, lie in blocks, which may contain further blocks: every block is there, of its class, with its settings and with these values of its parameters, and with nothing else than these and the parameters of its class; when the parameters are evaluated, the variables of the program for each block get these values. If instead the lines are `name = value;` or `name = \"text\";` for parameters of the reading program, of the type of the value or one it converts to, then the program's variables get these values, converted, when the parameters are evaluated, and those without a line in the file get their defaults. (FINDING: this is false for the smallest int, whose digits are converted without the sign, for a file without settings, and for values of type double that are whole numbers.)", "quantifier": "every number of settings, every depth of blocks, all names, all values of int, all texts that can stand between quotes, every program that reads the file", "why_tests_cant": "The claim ranges over all lists of names and values, through scanner, parser, and the execution of the statements.", "anchors": ["src/parser/parser.cpp: Parser::parse", "src/parser/internal/deckscanner.cpp: DeckScanner::do_scan", "parser/deckgrammar.y", "src/parser/parsertoken.cpp: ParserToken::storeVariable"]}
{"id": "C157", "title": "Which declarations and assignments are accepted", "statement": "A declaration `type name = expression, ...;` is accepted, wherever it stands in a setup file, exactly if every name has an expression that means something there, is of a type that can be converted to the declared one and, if it is constant, can be evaluated, and if the names are different and none of them is already the name of a variable of the current block. An assignment `name = expression;` is accepted exactly if the expression means something there, the name means a variable that can be written to, and the value, if it is constant, can be computed and converted to the type of the variable. (FINDING: declarations do not convert: `double x = 3;` is refused in every program, although the assignment `x = 3;` to a variable of type double is accepted.)", "quantifier": "every program, every file read before the statement, all names, types, lists and expressions", "why_tests_cant": "Acceptance depends on all declarations and blocks read before, and the claim is an equivalence: it also says that nothing else is refused.", "anchors": ["src/parser/parsertoken.cpp: ParserToken::storeVariable, ParserToken::updateVariable, ParserToken::ensureVariable", "parser/deckgrammar.y", "src/variables/variables.cpp: BlockVariables::addVariable, VariableStorage::addVariable"]}
{"id": "C158", "title": "Which blocks and closing braces are accepted", "statement": "The beginning of a block `class name {` is accepted, wherever it stands in a setup file, exactly if the program knows the class, no block of this name lies in the current block and, in a program that restricts blocks, the class is one of those it allows in the class of the current block. A closing brace is accepted exactly if there are more opening than closing braces before it. So at any point of reading a file all blocks lie where the program allows it, and blocks in the same block have different names. (FINDING: a program that does not restrict blocks accepts blocks of classes it does not know: a misspelt class is not reported, and no block is made.)", "quantifier": "every program, every file read before the statement, all classes and names", "why_tests_cant": "Acceptance depends on the whole history of blocks, and on the classes registered while reading; the claim is an equivalence for all of them.", "anchors": ["src/parser/parsertoken.cpp: ParserToken::createBlock, ParserToken::endBlock", "src/variables/blockclasses.cpp: BlockClasses::hasChild, BlockClasses::get", "src/variables/variables.cpp: VariableStorage::createBlock, BlockVariables::addChild"]}
