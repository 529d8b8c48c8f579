# Design: a Lean model of ETR and proofs of its semantic properties

ETR (`/repo`) is a header-only C++20 expression-template library that gives R-like
vectors and matrices.  This document fixes, before any proof is written, what is
modelled, how each property of `properties.jsonl` is stated and proved, and what has
to be trusted.  A section at the end records every disagreement found between a
property (what a user relies on), the code, and the model.

## 1. Trusted base

* The Lean 4.33.0 kernel.
* The axioms `propext`, `Classical.choice`, `Quot.sound` (each theorem depends on a
  subset of these; the list per theorem is printed by `#print axioms`, and section 6
  summarises it).  No own axioms, no `sorry`, no `native_decide`, no `bv_decide`.
* The translation of the C++ code into Lean, done by hand.  Each model definition
  cites file and lines.  The source was read as text, it was not compiled or run.
  As a check of the translation, `Verif/Tests/*` evaluates the model on the assertions
  of the repository's own tests (`/repo/tests/*.cpp`): the model agrees with every
  assertion repeated there (vectors used as index or bound are given by their elements).
  Not repeated: vectors of 50000 and more elements, printing, types, the values of libm
  functions, `Borrow::init` (`Borrow_Tests.cpp` 78-88), a block that reads uninitialised
  memory (113-122), and vectors as bounds of `colon` with an index (`Colon_Tests.cpp`
  208-322).  For `vector_numeric(SIZE_MAX)` and the largest double
  the model has UB, so the test can observe anything.  These evaluations are tests, not
  proofs.
* The C++ rules used in the translation: overload resolution and `if constexpr`
  branches are resolved by hand and recorded in the comment of the definition; a full
  expression keeps its temporaries alive; undefined behaviour (UB) is a separate
  outcome, it is never given a convenient value.
* Simplifications (each repeated at the definition concerned):
  - `double` is modelled by binary64 with round-to-nearest-even over the rationals,
    with infinities, overflow, subnormals and one NaN; the sign of zero is not kept.
  - `std::size_t` is a natural number below 2^64 with explicit wrap-around wherever
    the code can wrap; `int` is an integer in `[-2^31, 2^31)`, overflow is UB, and the
    `size_t` to `int` conversion wraps (two's complement).
  - libm functions (`sin`, `pow`, ...) are parameters: theorems hold for every choice.
  - R functions called by `Distri.hpp` (`dnorm`, ...) are parameters.
  - The heap is a list of blocks; `new[]` of more than 2^60 elements or on a failing
    entry of the fault schedule throws `std::bad_alloc`; fresh cells are indeterminate
    and reading one is UB.
  - Exceptions thrown by `ass` are modelled as an outcome that keeps the state reached
    so far (no rollback), which is what C++ does.

## 2. Modelled and not modelled

| code | modelled in | notes |
|---|---|---|
| `Core/Utils.hpp` `isDoubleInt`, `d2i`, `ass`, `warn` | `Base/*`, `Model/Utils` | all |
| `Core/MatrixParameter.hpp` | `Model/Store` | all |
| `Core/BaseStore.hpp` | `Model/Store`, `Model/Print` (`showVec`), `Model/RIface` (`initSEXP`) | all |
| `Core/Borrow.hpp` | `Model/Store`, `Model/Machine` | a borrowed vector is a `Store` with the flag `bor`; own `resize`, assignment, destructor |
| `Core/BorrowSEXP.hpp`, `Derivatives/AllVars.hpp` 59-66 (`initBorrowSEXP`) | `Model/BorrowSEXP` | element type `double`; operands of expressions are vectors of this kind |
| `Core/SubsetClass.hpp` | `Model/Expr`, `Model/Machine`, `Model/Helper` | element access, size, assignment, iteration |
| `Core/Traits.hpp` | `Model/Traits`, `Model/Deriv` | all element functions |
| `Core/Reflection.hpp` | `Model/Reflect` | `printAST` string processing; `demangle` is a parameter |
| `UnaryCalculations.hpp`, `BinaryCalculations.hpp` | `Model/Expr`, `Model/Typed` | size, element, dimensions; element types at the nodes |
| `Vector/*.hpp` | `Model/Machine`, `Model/Helper`, `Model/Condition`, `Model/Deriv` | constructors, assignment, conversion, conditions, iteration |
| `Subsetting/*.hpp` | `Model/Subset`, `Model/MatSubset`, `Model/At` | all index kinds |
| `Allocation/*.hpp`, `Coca.hpp` | `Model/Alloc`; `Model/Deriv` (`setCon`), `Model/DerivAlloc` | both variants |
| `Interpolation.hpp` | `Model/Interp` | over an arbitrary arithmetic; theorems for ordered fields and for binary64 (`pow` is a parameter, at most one unit in the last place off) |
| `Helper.hpp`, `Printing.hpp` | `Model/Helper`, `Model/Print` | all |
| `Derivatives/*.hpp`, `Vector/DerivativeCalc.hpp` | `Model/Deriv`, `Model/DerivF64` | over any arithmetic: the reals, binary64 |
| `SEXPConversions.hpp` | `Model/RIface` | `cpp2R` of vectors, with the depth of the protection stack |
| `Vector/VectorClass.hpp` 98-191 (Rcpp, Armadillo) | `Model/RIface` | `fromForeign`, `toVector`, `toMatrix` |
| `Distri.hpp` | `Model/Distri`, `Model/DistriLock`, `Model/Threads` | length/recycling logic; the mutex and the random number state; calls in several threads, with atomic steps |
| operations and subsets kept in variables (`auto e = a + b;`), read, printed and written through | `Model/Held`, `Model/HeldRead` | table of objects with references; temporaries end with the declaration |
| loops by reference (`for (auto& i : v)`, also over a subset): Vector/VectorClass.hpp 61-74, Core/Utils.hpp 47-52 | `Model/RefLoop` | a body is a list of statements, each with the current value of the element; assignments to the element convert by `operator RetType` |
| user programs over `AllVars` with `if`, `for` and `while`: Derivatives/AllVars.hpp 18-37 (public arrays), Vector/VectorClass.hpp 40-41 | `Model/DerivControl` | conditions compare elements of the arrays and numbers; `while` with a bound on the rounds (`none` if it is reached); the number of rounds of a `for` is fixed before the loop |
| user programs with `if`, `while`, range-for, blocks with local vectors, `throw`, `try` and `catch` | `Model/Control` | scalar variables are Lean variables; identifiers are not reused; handlers see the message |
| user functions called from R | `Model/RCall` | arguments copied into vectors, body, `cpp2R`, destruction; `longjmp` of R errors is modelled as an exception |
| `/repo/examples/fibonacci.cpp`, `bubblesort.cpp` | `Model/Examples` | functions that no longer exist are replaced by their successors |

Not modelled: template type computation itself (`Concepts.hpp`, `Types.hpp`, deduction
failures), the formatting of a single number by a stream, memory management inside R, concurrency
outside the distribution functions (the only lock is the one around the random generators).

## 3. Architecture of the Lean project

* `Verif/Base`   outcomes (`ok`, `thr`, `ub`), the state monad, machine integers, `F64`.
* `Verif/Model`  the code, function by function, computable.
* `Verif/Spec`   small specifications that do not use model helpers (lists, maps, ℝ).
* `Verif/Lemmas` helper lemmas (rounding, heap, stores, expressions, index arithmetic).
* `Verif/Props`  the property theorems, with a non-vacuity `example` beside each.
* `Verif/Tests`  the repository's tests, evaluated on the model.

Outcome discipline.  A model function returns `Out α = ok a | thr msg | ub kind`, or is a
state transformer `σ → Out α × σ`.  A property of the form "never UB" is a statement that
`ub` is not returned; "is rejected" is a statement that `thr` is returned with the state
as stated.

Storage machine.  `Heap V` (list of blocks with live flag, owner kind, cells
`Option V`), `Store` (pointer, size, capacity, allocated flag, matrix parameter), and a machine
`Mach` whose state is a heap plus, for each vector, the two stores `d` and `temp` and the flag
`bor` (borrowed), and whose commands are the public operations.  The invariant: a non-null pointer designates a
live block obtained by `new[]`, `sz` and `capacity` do not exceed its length, cells below
`sz` are initialised (where claimed), different stores own different blocks, and every
live `new`-ed block is owned by exactly one store.  It is proved for each command and
lifted to all histories by induction.  Element type is a parameter.

Expressions are a deep embedding (`leaf`, `rvec`, `scal`, `un`, `bin`, `sub`) whose
element functions are arbitrary partial functions, so that each theorem covers every
operator and every element type combination.  Lazy evaluation by index (`operator[]`) is
related to eager list semantics by induction over the tree.

## 4. Properties: what is modelled, how it is proved

Status "true" means the full statement is expected to be provable from the code as it is;
"false" means that the code violates it: the negation is proved on a concrete witness and
the largest sensible part is kept as a `_partial` theorem.

| id | expected | plan |
|---|---|---|
| C01 | true (lengths < 2^30) | `pushBack` on heap stores; invariant `repr store list`; induction over the pushed list |
| C02 | true for the op set without copy of moved-in vectors | store invariant over histories ⇒ `get` is `ok`/`thr`, never `ub` |
| C03 | true | Hoare-style lemmas for the three branches of `resize` |
| C04 | false | witness: `Vec(int)`-style store resized into its uninitialised slack; stale values after shrinking; partial: the element kept/zero when capacity is exceeded or the store was built by `SI{n}` and never shrunk |
| C05 | true | rounding error analysis of binary64 product `n * 1.15` for all n |
| C06 | no leak: true; no double free or use after free: true for the op set without fill-from-temporary, copy of moved-in vectors and failing allocations | ownership invariant, induction over histories; full destruction leaves no live block. For the leaks a weaker invariant (every live block belongs to a store with `allocated`), which every operation keeps without restrictions |
| C07 | false (moved-in source, dims) | witness; partial for sources with `sz ≤ capacity` |
| C08 | false (shorter source) | witness; partial for sources at least as long |
| C09 | false (temporary source) | witness; partial for scalar and lvalue sources |
| C10 | false (`resize`, `realloc` growth) | witness with fault schedule; `C10_resize_dangling` for every growing `resize` that throws; partial for `init` on unallocated store, for every construction after any history (frame predicate `Building`), for `push_back` |
| C11 | true | assignment on the machine: evaluate into `temp`, swap; induction over expression |
| C12 | false (default constructed) | witness: third step throws; partial: initialised variables, any history |
| C13 | false (stale dims) | witness; partial: source is a matrix, or target was not one |
| C14 | true | from `resize 1` and write |
| C15 | true | move and converting constructors |
| C16 | false (≥ 2^31) | witness on `moveit` at size 2^31; exact characterisation of the length in every state (owning and borrowing vectors) |
| C17 | true up to 2^59 elements; r*c wraps modulo 2^64 | constructors |
| C18 | true for initialised variables | refinement: machine history ↔ lists, windows and arrays of the caller, induction over program; rejected statements with their messages (`Spec.rejects`) |
| C19 | true without `fill(temporary)` | foreign block frame invariant over histories |
| C20 | false for n < s | decision theorem of the code (accept iff s ≤ n ≤ c); witness |
| C21 | false via `fill(temporary)` | witness; partial for all other operations |
| C22 | true | one-step recycling law |
| C23 | true | induction over trees: lazy = eager |
| C24 | false for non-conformable | witness; partial for conformable |
| C25 | false for dims | witness: matrix flag lost; element part proved |
| C26 | false for NaN, |a-b|=1e-3 | exact characterisation for all doubles |
| C27 | true | trait functions |
| C28 | true | exactness in range; outside range is UB in the model |
| C29–C35 | mixed | `calcIndVector` for each kind vs. list specification; frame lemmas; witnesses for long index vectors, mid-way failures, expressions |
| C36–C41 | mixed | generic column-major index function; one theorem per kind; witnesses for double/double, fractional, per-dimension checks |
| C42 | false for temporaries (0-based) | decision theorems for all overloads |
| C43 | false | witness; characterisation of what it does |
| C44 | true for indices not longer than the vector | index map composition |
| C45–C52 | mixed | allocation functions; colon with machine integers and with binary64; warnings as output list |
| C53–C57 | mixed | `cmr` over an ordered field, locality over any arithmetic, UB outcome for out-of-range read |
| C58–C63 | mixed | dual-number refinement of straight-line programs and `HasDerivAt` over ℝ |
| C64–C72 | mixed | direct |
| C66, C75, C76 | false for NA, reuse, rejected objects, empty objects | exact characterisation over every target state |
| C67 | false | in-place operations: induction over histories; vector assignment: two-state invariant (R memory in `d` / in `temp`) over all histories |
| C73, C74 | mixed | logical operands and integer powers in the trait functions |
| C77 | false for a loop over a vector that grows in the body | simulation of the machine by list semantics, induction over the program and the number of rounds; rejected operations throw, handlers continue from there |
| C78 | false for n = 2 and from n = 79 | C77 and induction over the loop; the sequence in double precision is exact up to 2^53 |
| C79 | false as written (default constructed `temp`), for one element, with NaN | C77; every exchange removes an inversion |
| C80 | false for dims | direct |
| C81 | false for store assignment and subset assignment | triples "ends normally or changes no observable part", for every operation; induction over histories |
| C82 | holds, for all sizes and failing allocations | the invariant "every live block belongs to a store with `allocated`" (Lemmas/Blocks.lean) and "what does not exist owns nothing"; an injection of the live blocks into the slots of existing vectors |
| C83 | holds | potential: allocations so far + slots whose capacity is below the length of their vector; no operation increases it |
| C84 | false after initialisation from a temporary | exact step, induction over the pushed list with the invariant `c0 * 2^k <= capacity < 2 * length` after `k` allocations |
| C85 | colon proved, vector_* false for used constants | loop invariant over the cells of the constant, for every previous buffer |
| C86 | false for vector_integer | the fractional part of a double is 0 or at least 2^-1074, rounding is monotone |
| C87 | false for indices out of range | structural induction over the expression: evaluating the plugged expression = evaluating with the named list; dimensions likewise |
| C88 | false for vectors assigned to matrices, and for sin | operations preserve dimensions and lengths (closure under bind and loops), then induction over the expression and the program |
| C89 | Model/Held.lean: table of operation objects with references, temporaries end with the declaration; Spec/Held.lean: names as abbreviations, `inlined` | Invariant between object table and meanings of names; dead references stay dead; an expression that reads a dead number has no element; equality of runs with the inlined program |
| C90 | Spec/Shape.lean: shapes (length, optional dimensions) and their change by each command, no elements and no memory | Each operation sets the length and keeps or sets the dimensions; simulation of the machine by the shapes for every command; `Well` is kept by commands that fit. With `push_back` (Spec/Append.lean): the invariant also says which vectors have a capacity below their length |
| C91 | Spec/ControlSafe.lean: permitted programs (every reached operation allowed, body of a loop over a vector leaves it where it is), operations that occur in a program, programs without handlers | Frame lemma: operations on other vectors keep the members of a vector; conditions, index arguments and ranges make no memory error; induction over programs with invariants of the rounds; trace of performed operations and of the destructions at the end of blocks, composed into a history, hence reachability; identifiers are not reused, so a block ends without memory of its own; for all programs: scopes as maps from variables to kinds of memory (`WellScoped`), invariant that every block belongs to an existing vector and that the scope describes the machine (`SC`, Props/ControlMemory.lean), the vector that a declaration makes (Lemmas/Names.lean) |
| C92 | Spec/RCall.lean: the arguments as variables with lists and shapes; what R gets for a list and dimensions | Explicit result of reading an R object into a new vector; simulation of the body (C63), shapes (C90), safety (C91); `cpp2R` of an evaluated expression; destruction of all vectors leaves no owned block |
| C93 | Spec/SexpOwn.lean: lists with optional dimensions, operations as functions on them | Ownership invariant of vector and buffer relative to the heap before (old blocks unchanged, every new live block owned), preserved by replacing a block, changing cells and exchanging the two blocks; induction over the operations |
| C94 | Spec/Deriv.lean: `Vals.elem` with comparisons as one or zero, `Piece`, `Mixed`, `Steady`; derivatives in the sense of Mathlib | The invariant of C58 for the larger class: the `bool`-typed expressions are exactly the comparisons and their products, their values are zero or one, and a comparison of continuous functions is locally constant away from its switching points |
| C95 | Spec/Deriv.lean: `Vals.args`, `Vals.given` (the values as a function of the shift `t` of the independent vector), `FirstUses`, `FitsKinds` | The invariant of C58 with a set of pending variables that have a value and no derivative yet; reading a pending variable seeds it with ones or zeros without changing any value, and seeding commutes with the element loop of the assignment |
| C96 | state equality before and after, `SameVar` | The index list stays empty; the assignment of a vector fails at `resize(0)` or at the comparison of lengths before anything is stored, the loop of the assignment of a number runs zero times |
| C97 | `Rounds` (inductive definition of the complete rounds) | Relation `InRounds` between the model with and without the lock, closed under sequencing and loops: same outcome and vector, log of complete rounds followed by a cut one |
| C98 | Spec/Typed.lean: same formula up to types, same numbers, exact integer lists with recycling | Induction over formulas: the typed element tracks the element computed with doubles, with the type of each node as part of the invariant; integer operations inside the 32-bit range agree with rounded double operations |
| C99 | depth of the stack before and after | Case analysis along `cpp2R`; an exception of the loop is the exception of an element |
| C100 | numbers taken by all threads = the first numbers of the stream | Transition system of threads whose steps are the logs of C97; invariant over all schedules (`SeqInv`); for the negation a schedule for any two threads |
| C101 | which elements depend on a missing value (`Hit`, an inductive relation on formulas) | Induction over typed formulas; NaN of IEEE operations characterised by cases |
| C102 | exchange of operands as an inductive relation on expressions and statements (`Swap`, `SwapCmd`), on formulas (`TSwap`) | Expressions: induction gives equal size, flags, dimensions, elements; statements: a success-preserving relation on computations that is closed under sequencing and loops; programs: induction over the list; programs with control flow (`SwapProg`): induction over the program, inside it over the rounds |
| C103 | `Written` (what a list looks like after writing) and `Gather`, related by laws on lists | C33 and the subset theorem give the lists; uniqueness of `Written`, composition for equal and disjoint positions |
| C104 | progress and release, stated with the schedule (`count`) and the owners of the mutexes | invariant of every run: a mutex belongs to the thread it is local to, and is locked exactly when the next step of that thread is not `lock` |
| C105 | `Changes` (target and vectors read of a statement), `Apart` (no common memory), `Independent`, `Interleaved` | a statement is a change of one vector that depends on the lists it reads; changes of vectors that are apart commute; interleavings by induction, moving one statement to the front at a time; C18 carries this over to the library.  Programs that catch exceptions: `attempts` (naive) and `catchAll` (library) record the outcome of every statement; a rejected statement is a change of its target, too; programs with control flow (`Rearranged`, Props/CommuteControl.lean): invariant that borrowing vectors have different arrays (`Sepd`), induction over the relation |
| C106 | `Grid` (53 bits, exponent from -1074), `Nearest`, `Rounded` | the rounded number is the nearest multiple of the unit in the last place; numbers that are no multiples lie below the power of two under the exact result and are farther away; uniqueness by parity |
| C107 | `over`: a formula read over a kind of numbers (`rational`, `withError`, `counted`, `representable`) | `Describes`: the kind of numbers describes the computed element, one induction over formulas for all kinds; half a unit in the last place; `(1 - 2^-53)^n` and Bernoulli's inequality |
| C108 | `dualSteps`: values with derivatives over a kind of numbers (`Spec/Dual.lean`) | `Carries`: the kind of numbers describes the arithmetic; one simulation (`DRel`) for binary64 and for the real numbers, combined with `C58_partial` |
| C109 | `NProg.over`: a program read over a kind of numbers (`Spec/NumProg.lean`) | `Describes.eval` (formulas on naive values), `NRel` (simulation of the naive semantics of C77 by the program over the kind of numbers), `Decides` (comparisons that are certain come out so), `run_empty`; loop invariants `sumState`, `eulerState`, `halveState` |
| C110 | first element, compared with zero as a number; named vectors of logicals (`plainLogical`) | Integers read from a formula are 32-bit integers, so that conversions keep whether a number is zero; C70 for the warning |
| C111 | lists; the name of the loop is a position (`Spec/RefLoop.lean`) | The simulation of C77 for the programs in the body; a write through the pointer is the write to the element while the vector keeps its memory |
| C112 | statements and tests that happen in a run on real numbers, `HasDerivAt` along the change of the independent variable (`Spec/DerivControl.lean`) | The invariant of C95 holds after every statement; stored values depend continuously on the change, so that a test of different numbers has the same result for all small changes and the run is the same |
| C113 | `SelectIn`, `TSelectIn` (`Spec/Pushdown.lean`): the formula with every vector replaced by its selection | Induction over the formula: at element `i` every node of the second form reads position `ind[i % n]` of its operand; conversions of a selection are the identity on named vectors |
| C114 | set of possible outcomes `Can`, programs with another order `ReorderProg` (`Spec/Order.lean`) | Induction over the expression: a success needs success of both operands; statements and programs by the simulation of C102 with exchanged operands, used in both directions |
| C115 | `LeavesAlone` (`Spec/Alone.lean`) | The operations of a program are a history (C91) none of whose operations has the vector as target; frame lemma for the data member over all operations (`Lemmas/Alone.lean`), frame of C07 and C19 for the memory |
| C116 | `plainOf`, `PlainValues`, `PlainRun`, `PlainProg` (`Spec/DerivPlain.lean`): the formula over plain vectors, evaluated by the typed operators of `Model/Typed` | Induction over the formula with the type (`bool` or `double`) of every node; computing derivatives changes neither values nor constants; induction over the program |
| C117 | `SameExpr`, `SameCmd`, `SameProg`, `SameView`, `SameEnd` (`Spec/Data.lean`): the same text over corresponding data, and what can be seen of two states | Logical relation: heaps whose blocks agree in length and state and whose cells correspond, with equal objects; every operation of stores and vectors preserves it; induction over formulas, histories and programs |

## 5. Disagreements between property, code and model

Each row is a place where the code does not do what the property says.  The negation is proved by the
theorem named in the last column; the property is kept as `_partial` for the cases in which it holds.
Paths are relative to `/repo/include/etr_bits`.

| property | what the code does | where | theorem |
|---|---|---|---|
| C02, C07 | a vector initialised from a temporary keeps `capacity` 0; its copy allocates 0 elements and is read out of bounds | `Vector/Constructors.hpp`, `Core/BaseStore.hpp` copy constructor | `C02_false_copied`, `C07_false_moved_in` |
| C04 | `resize` within the capacity does not initialise new elements: they are indeterminate, or hold old values | `Core/BaseStore.hpp` 259-279 | `C04_false_uninitialised`, `C04_false_stale` |
| C07 | the copy constructor drops the matrix attribute | `Core/BaseStore.hpp` copy constructor | `C07_false_dims` |
| C08 | store assignment from a shorter source keeps the old length | `Core/BaseStore.hpp` `operator=` | `C08_false_shorter_source` |
| C09 | the member function `fill` of a vector takes a number; a vector given to it is converted to its first element | `Vector/VectorClass.hpp` 87 | `C09_member_characterised`, `C09_false_member` |
| C09, C19, C21 | `fill(temporary)` takes the pointer of the source, which then is freed twice, and for a borrowed vector drops the memory of the caller | `Core/BaseStore.hpp`, `Core/Borrow.hpp` `fill` | `C09_false_fill_temporary`, `C21_false_fill_temporary`, `C21_false_fill_temporary_new`, `C19_false` |
| C06 | `resize` releases the memory before `new[]` fails, the destructor releases it again | `Core/BaseStore.hpp` 259-279, 236-246 | `C06_false` |
| C10 | `resize` and `realloc` free or forget the old block before `new[]` can fail | `Core/BaseStore.hpp` 259-279, `realloc` | `C10_false_resize`, `C10_resize_dangling`, `C10_false_push_back` |
| C11 | an assignment of 2^31 elements leaves a vector of another length (`int` in `moveit`) | `Core/BaseStore.hpp` 295-307 | `C11_false_length` |
| C12, C18 | after the first vector assignment to a default constructed vector every later one throws | `Core/BaseStore.hpp` `moveit`, `Vector/AssignmentOperator.hpp` | `C12_false_default_constructed`, `C12_false_second_assignment`, `C18_false` |
| C13 | assigning a vector that is not a matrix keeps the old dimensions | `Vector/AssignmentOperator.hpp` 106-108 and so on | `C13_false_stale_dims` |
| C16 | `moveit` keeps sizes in an `int` | `Core/BaseStore.hpp` `moveit` | `C16_false_length` |
| C17 | `rows * cols` wraps around modulo 2^64 | `Vector/Constructors.hpp` 117-119 | `C17_false_mat_wraps` |
| C20 | a borrowed vector rejects fewer values than it has elements, although they fit | `Vector/AssignmentOperator.hpp`, borrowed branch | `C20_false_shorter` |
| C24 | dimensions are the maxima of the operands; the product need not be the length | `BinaryCalculations.hpp` 43-84 | `C24_false_nonconformable`, `C24_false_long_vector` |
| C25, C64 | a unary function of a matrix is not a matrix | `UnaryCalculations.hpp` 16-22 | `C25_false_dims`, `C64_dim_false` |
| C26 | `==` has the tolerance 1e-3 and fails for NaN; it is not transitive; integers overflow in the difference | `Core/Traits.hpp` 147, 219 | `C26_false`, `C26_not_transitive`, `C26_false_int_overflow` |
| C29, C52 | doubles outside of `int` (NaN, infinities) and `INT_MIN` are undefined as index or size | `Core/Utils.hpp` 16-22, `Subsetting/VectorSubsetting.hpp` | `C29_false_undefined`, `C52_false` |
| C31, C44 | a subset reads index `i` modulo the length of the *vector*, so that longer index vectors wrap around | `Core/SubsetClass.hpp`, `BinaryCalculations.hpp` | `C31_false`, `C44_false` |
| C33 | a subset assignment with more indices than elements repeats the first positions | same | `C33_false_long`, `C33_false_long_same` |
| C34 | an index out of range is found after earlier elements have been written | `Vector/AssignmentOperator.hpp` | `C34_false`, `C34_false_scalar` |
| C35 | indices of expressions, subsets and longer index vectors wrap around; an empty vector divides by zero; a negative double element is undefined | `Core/SubsetClass.hpp`, `Subsetting/VectorSubsetting.hpp` 62 | `C35_false_*` |
| C36 | a matrix subset with a mask and an index vector is not a matrix; a full subset of an expression loses the dimensions; repeated cells beyond the size wrap around | `Subsetting/MatrixSubsetting.hpp` | `C36_false_*` |
| C37, C41 | two double indices: `c - 1 * nr + (r - 1)` | `Subsetting/MatrixSubsetting.hpp` 236 | `C37_false`, `C41_false` |
| C38 | a fractional column next to a vector of doubles is not truncated | `Subsetting/MatrixSubsetting.hpp` 440 | `C38_false_column` |
| C39, C42 | only the position is checked, not row and column | `Subsetting/at.hpp` 53-134, `MatrixSubsetting.hpp` | `C39_false`, `C42_false_row` |
| C40 | most masks are not recycled; longer masks wrap around | `Subsetting/MatrixSubsetting.hpp` 84-99 and so on | `C40_false`, exactly `C40_characterised` |
| C42 | `at` of a temporary counts from 0 | `Subsetting/at.hpp` 17-28 | `C42_false_temporary` |
| C43 | comparisons of numbers are subset by their 0/1 values as positions, not as masks | `Subsetting/VectorSubsetting.hpp` | `C43_false_double`, `C43_false_int` |
| C32 | an empty mask divides by zero | `Subsetting/VectorSubsetting.hpp` 40-52 | `C32_false_empty_mask` |
| C45 | `vector_logical` of a variable converts the size to `bool` | `Allocation/AllocationUtils.hpp` 51, `Vector.hpp` | `C45_false_logical` |
| C46 | `rows * cols` wraps around | `Allocation/Matrix.hpp` | `C46_false_overflow` |
| C47, C50, C64, C76 | empty vectors are rejected (constructor with size 0) | `Core/BaseStore.hpp` | `C47_false_empty`, `C50_false_empty`, `C64_empty_false`, `C76_empty_false` |
| C48 | overflow for large ranges and at the ends of `int` | `Allocation/Colon.hpp` 24-46 | `C48_false` |
| C49 | the length and the loop round differently | same; exactly when: `C49_iff`, all pairs: `C49_characterised` | `C49_false` |
| C51 | `matrix` and `cmr` print their warning exactly in the wrong case | `Allocation/Matrix.hpp` 48-95, `Interpolation.hpp` 159-178 | `C51_false_matrix`, `C51_cmr_characterised` |
| C54, C56 | in the last interval `back()` reads behind the time vector | `Interpolation.hpp` 115-144 | `C54_false`, `C56_false` |
| C55 | in binary64 the result for points on a straight line is off by rounding | `Interpolation.hpp` 148-156 | `C55_false_rounding`; how far: `C55_binary64_partial`, `C55_line_binary64_partial` |
| C57 | `li` reads the element behind the last one and so always throws | `Interpolation.hpp` 10-48 | `C57_false` |
| C58, C63 | an assignment that changes the length of a variable it reads throws | `Vector/AssignmentOperator.hpp` 196-213 | `C58_false`, `C63_false` |
| C59 | the quotient is divided by the square of the derivative of the divisor | `Core/Traits.hpp` | `C59_false` |
| C60 | `sinus` has no inner derivative, or takes the cosine of the derivative | `Core/Traits.hpp`, `Derivatives/DerivTypes.hpp` | `C60_false` |
| C61 | the derivative recycles each leaf, the value recycles each operand | `Derivatives/DerivTypes.hpp` | `C61_false` |
| C62 | the kind of the independent variable is ignored; values of borrowed variables and of variables that hold R objects go to the buffer with the same index | `Vector/AssignmentOperator.hpp` 178-213 | `C62_kind_false`, `C62_borrow_false`, `C62_sexp_false` |
| C64 | `length` converts to `int` | `Helper.hpp` 85-101 | `C64_length_false` |
| C66 | NA of logical objects is lost; an R vector assigned to a matrix stays a matrix | `Core/BaseStore.hpp` 188-233 | `C66_logical_false`, `C66_reuse_false` |
| C67 | vector assignment swaps the memory of R into `temp`; growing, `push_back`, a second object, copy assignment of a longer data member and `fill(temporary)` free it | `Core/BorrowSEXP.hpp` | `C67_*_false` |
| C68 | `Vec<BaseType> res(n)` makes one element; only the first elements are used | `Distri.hpp` 18, 33 | `C68_*_false` |
| C69 | iterating over a subset visits the first elements of the vector | `Vector/VectorClass.hpp` 61-74 | `C69_subset_false`, `C69_subset_undefined` |
| C70 | an operation on an empty vector divides by zero | `BinaryCalculations.hpp` 95-105 | `C70_empty_false` |
| C71 | `back()` is `p[sz]` | `Core/BaseStore.hpp`, `Core/Borrow.hpp` | `C71_false`, `C71_borrow_false` |
| C73 | sums and products of logicals are logical | `Core/Traits.hpp` 235-340 | `C73_false_sum` |
| C74 | the power of integers is converted to `int` | `Core/Traits.hpp` | `C74_false_negative`, `C74_false_overflow` |
| C75 | the old memory is freed before the type is checked | `Core/BaseStore.hpp` 188-233 | `C75_false` |
| C77 | a range-for loop keeps a pointer to the elements; `push_back` on the same vector in the body frees them | `Core/Utils.hpp` 47-52 | `C77_false` |
| C78 | the 79th number is rounded; `colon(3, 2)` counts down and the index 0 is rejected | `/repo/examples/fibonacci.cpp` | `C78_false`, `C78_two_false` |
| C79 | `temp` is declared without a value, so that the second exchange throws (C12); one element: `colon(1, 0)`; NaN is not ordered | `/repo/examples/bubblesort.cpp` | `C79_false`, `C79_single_false`, `C79_nan_false` |
| C80 | the move constructor of a store leaves the matrix attribute behind | `Core/BaseStore.hpp` 45-52 | `C80_false` |
| C81 | a store that is assigned a shorter one reads behind the end of the source after it has overwritten its first elements; a subset assignment writes the elements before it meets the bad index | `Core/BaseStore.hpp` 130-145, `Vector/AssignmentOperator.hpp` | `C81_false_store`, `C81_false_subset` |
| C83 | the capacity passes through `int` in `moveit`: with 2^32 elements every assignment allocates | `Core/BaseStore.hpp` 295-307 | `C83_false` |
| C84 | a vector initialised from a temporary takes over its memory but not its capacity (0): neither branch of `push_back` applies and the value is lost | `Vector/Constructors.hpp`, `Core/BaseStore.hpp` 331-348 | `C84_false` |
| C85 | `vector_*<Idx>` resizes the constant; if its memory is sufficient the old elements stay, and elements between the old length and the capacity are uninitialised | `Allocation/Vector.hpp` 99-254, `Core/BaseStore.hpp` 259-279 | `C85_false`, `C85_false_uninit` |
| C85 | `colon<Idx>` of doubles: when the steps pass the end early an old element of the constant follows the sequence | `Allocation/Colon.hpp` 249-273 | `C85_colon_double_false` |
| C86 | `vector_integer(3.5)` converts the size to `int` before the check and does not warn; `vector_logical` of a variable converts it to `bool` (one element) | `Allocation/AllocationUtils.hpp` 51-56 | `C86_false` |
| C87 | `(v + 10)(9)` with three elements gives the last one, `Vec t = v + 10; t(9)` throws | `Core/SubsetClass.hpp`, `Core/BaseStore.hpp` | `C87_false` |
| C88 | a matrix that is assigned a vector keeps its dimensions; the sinus of a matrix is a vector (`UnaryOperation::im` asks numbers, not vectors) | `Vector/AssignmentOperator.hpp` 230-238, `UnaryCalculations.hpp` 16-22 | `C88_false`, `C88_sin_false` |
| C89 | `auto e = (a + b) * c;`, `auto e = a + 1;` and `auto s = subset(a + b, i);` can be used like the expression itself | Operations hold references to their operands and subsets hold a pointer; temporaries are gone at the end of the declaration | Using such a variable is undefined behaviour (`C89_false`, `C89_literal_false`, `C89_subset_false`, `C89_temporary`); tests/Borrow_Tests.cpp 143 declares such a variable |
| C90 | A matrix has rows times columns elements | Assignment without a matrix on the right, `resize`, a number and `push_back` change the length and keep the dimensions | `C90_false`; `m(i, j)` within the dimensions can then lie outside of the memory |
| C90 | Operands of different dimensions are rejected or give consistent dimensions | Rows and columns are maximised separately, the length is the larger length | 2x3 + 3x2 is a 3x3 matrix with 6 elements (`C90_operands_false`) |
| C90 | A copy of a matrix is a matrix | The copy constructor of the owning store does not copy the dimensions (the borrowing one does) | `C90_copy_false` |
| C91 | A loop over a vector visits its elements whatever the body does | The iterators are pointers; a body that makes the vector longer releases the memory they point to | `C91_false` (with C77) |
| C92 | A function that assigns a longer or shorter vector to a matrix argument can return it | The vector keeps the dimensions of the matrix, and `cpp2R` throws "size does not match ncol*nrow" | `C92_false` (with C90) |
| C93 | Binding a vector to an R object gives it the dimensions of the R object | `operator=(SEXP)` sets the dimensions only if the R object is a matrix; a vector that was a matrix keeps its old dimensions | `C93_false` |
| C93 | `resize` to more elements keeps the elements and fills up with zeros | Beyond the capacity all elements become zero; within the capacity the new elements keep whatever the memory holds, possibly nothing | `C93_resize_false`, `C93_resize_characterised` |
| C94 | The sum of two comparisons is the number of those that hold | The operands are `bool`, so the result is converted to `bool`: the sum is 1 if one of them holds | `C94_false`, `C94_sum_characterised` |
| C95 | `x = x * x` with a handed-in independent `x = 3` has the derivative 6 | the assignment makes room for the derivative of `x` before it is seeded, so it is 0 | `C95_false` |
| C95 | the derivative with respect to a variable that holds an R object does not depend on buffers with the same index | the first variable with the index that is read is seeded, whatever its kind: `a * s` has the derivative of `s * a` only when the buffer `a` has another index | `C95_kind_false` |
| C95 | `initBorrow` makes the variables show the given vectors | it assigns to vectors that borrow nothing and always throws | `C95_borrow_false` |
| C96 | `x(k) = 5.0` with a `std::size_t` index `k` stores 5 in the k-th element, or does not compile | `calcIndVector` has no branch for the type, the index list stays empty and nothing is stored | `C96_write_characterised`, `C96_false_write` |
| C96 | `w + x(k)` with a `std::size_t` index adds the k-th element of `x` | the empty subset makes the element access compute `i % 0` | `C96_false_read` |
| C97 | `rnorm(n, mean, sd)` with `n` of 2 or more releases the lock and writes the random number state back | the store to the second element throws between `m.lock()` and `m.unlock()`; the mutex is destroyed while locked | `C97_false` |
| C97 | `punif` with an empty `lower` reports the error with the lock released | `lower[0]` throws between `m.lock()` and `m.unlock()` | `C97_false_lower` |
| C98 | the sum of two logical vectors is the sum of the numbers | the common type of `bool` and `bool` is `bool`: the sum of TRUE and TRUE is TRUE | `C98_false_logical` |
| C98 | a formula with a double operand that is stored in a double vector is computed without overflow | subformulas of integers are computed in `int`: `65536L * 65536L + 1.0` has undefined behaviour | `C98_false_overflow` |
| C99 | an exception while the elements are computed leaves nothing on the protection stack | the exception leaves `cpp2R` between `PROTECT` and `UNPROTECT` | `C99_false` |
| C100 | the mutex keeps other threads out while R's random numbers are in use | every call declares its own `std::mutex m`, which no other thread can see; two threads can take the same random numbers | `C100_false`, `C100_twice_false` |
| C101 | comparing a missing value gives a missing value | it gives `FALSE`, for all six operators | `C101_compare_false` |
| C101 | a missing integer stays missing | it is the smallest `int`: adding 1 gives -2147483647, negation overflows, `isNA` is `FALSE` | `C101_integer_false` |
| C101 | a missing index is rejected | NaN is converted to `std::size_t`, the missing integer is decremented: undefined behaviour | `C101_index_false` |
| C102 | `x == y` and `y == x` agree | for integers `-2147483648 == 0` is `FALSE` and `0 == -2147483648` overflows | `C102_equal_false` |
| C103 | `v(I) = v(I)` changes nothing | with an index vector longer than `v` it changes the length of `v` | `C103_false_long` |
| C107 | the relative error of a formula is small | `(x + y) - x` for `2^53` and `1` is 0, the exact value is 1 (cancellation, as in every binary64 computation) | `C107_relative_false` |
| C108 | the relative error of a derivative is small | `c = (b + a) - b` with `b = a * 2^53` has derivative 1, the stored derivative is 0 (cancellation) | `C108_relative_false` |
| C109 | the relative error of a program is small | two rounds of `y = y + 1` from `2^53`, then `y = y - 2^53`: 0 is stored, the exact value is 2 (cancellation and absorption) | `C109_relative_false` |
| C109 | a loop runs as often as over the rational numbers | `while (x < 1) x = x + 0.1` from 0 makes 11 rounds; with the same double for 0.1, the exact sum reaches 1 after 10 | `C109_decision_false` |
| C105 | an overwritten assignment can be left out | `Vec a; a = e; a = f;` throws, `Vec a; a = f;` does not (C12) | `C105_overwritten_false` |
| C105 | the order of independent statements does not matter | if memory runs out, the order decides which of them throws | `C105_memory_false` |
| C110 | a condition with several elements is reported | `if (v < w)` and `if (b(i))` print nothing, whatever the lengths: the type of the converted element is `double`; only a named vector of logicals is reported | `C110_false` |
| C110 | NaN is no condition (an error in R) | it counts as true | `C110_false_nan` |
| C111 | the loop over `v(ind)` runs over the selected elements | it runs over the first elements of `v`, as many as there are indices: `for (auto& i : v(3)) i = 0;` changes the first element | `C111_subset_false` |
| C111 | the same with repeated indices | with more indices than elements the loop reads and writes beyond the memory | `C111_subset_false_undefined` |
| C112 | `while (1 < x[0]) x = x / 2` for `x = 4` given by `initBuffer` has the derivative 1/4 | the derivative 0 is stored, since `x` is assigned by the first statement that reads it | `C112_false` |
| C112 | a program that computes `b = a` for every `a` has the derivative 1 | with a branch for `a = 0` only, the derivative of the branch (0) is stored | `C112_false_equal` |

Found while reading, outside of the properties: `Rf_IsLogical` in `Core/BorrowSEXP.hpp` 61 and 122 is not a function of R;
`Vec::operator=(SEXP)` calls `d.initSEXP`, which `BorrowSEXP` does not have, so that `AllVars::initBorrowSEXP` cannot compile;
`examples/fibonacci.cpp` uses `vector`, `subassign` and `subset`, which no longer exist.

Limits of the model, stated at the definitions: lengths are bounded where the code keeps them in an `int`; the sign of zero and the
payload of NaN are not kept; operands are evaluated from left to right (C114 shows that success and result do not depend on this).

## 6. Axioms

No axiom is declared.  `#print axioms` of every theorem in `MANIFEST.json` gives a subset of `propext`, `Classical.choice` and
`Quot.sound`; no theorem uses compiled evaluation (`decide +kernel` is checked by the kernel).
