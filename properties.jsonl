{"id": "C01", "title": "push_back appends", "statement": "Starting from an empty store, after pushing any finite sequence of values the store reports exactly that many elements and reading index i returns the i-th pushed value; no value is lost, duplicated or reordered across reallocations, and no push fails (as long as memory is available and the length stays below the 32-bit limit the code uses internally).", "quantifier": "every finite sequence of pushed values (every length below the stated limit, every content)", "why_tests_cant": "Correctness across every doubling reallocation for every length and content is an induction; a test only sees a few lengths.", "anchors": [{"file": "include/etr_bits/Core/BaseStore.hpp", "symbols": ["push_back", "realloc"]}]}
{"id": "C02", "title": "Checked element access never leaves the vector", "statement": "For every store obtained by any history of construction, resize, push_back, fill, copy, element writes and assignment, indexing with i returns the i-th element when i is below the reported size and throws otherwise; it never reads or writes memory outside the store's own allocation.", "quantifier": "every history of store operations and every index", "why_tests_cant": "The claim is about all histories of operations and all indices; memory errors may stay silent in a test run.", "anchors": [{"file": "include/etr_bits/Core/BaseStore.hpp", "symbols": ["operator[]", "resize", "push_back", "realloc", "fill"]}]}
{"id": "C03", "title": "resize contract", "statement": "resize(0) is rejected and changes nothing. resize(n) with n>=1 makes size() equal n. If n does not exceed the capacity, all elements that remain in range keep their values; if n exceeds the capacity, every element of the resized vector is zero. A vector that borrows the memory of the caller cannot grow: resize(n) beyond its capacity throws and changes nothing.", "quantifier": "every state of a vector that a program can reach and every requested size n up to 2^59 (beyond that the number of bytes overflows)", "why_tests_cant": "Which branch is taken depends on the hidden capacity, i.e. on the whole history of the vector; tests sample only few histories.", "anchors": [{"file": "include/etr_bits/Core/BaseStore.hpp", "symbols": ["resize", "init", "fill"]}, {"file": "include/etr_bits/Vector/VectorClass.hpp", "symbols": ["resize"]}]}
{"id": "C04", "title": "resize never exposes garbage", "statement": "After resize(n) every element with index below n has a determinate value: an element that existed before (kept) or zero.", "quantifier": "every vector state and every requested size n", "why_tests_cant": "Whether stale or uninitialised memory becomes visible depends on the hidden capacity and on earlier sizes; a test that happens to read zeros proves nothing.", "anchors": [{"file": "include/etr_bits/Core/BaseStore.hpp", "symbols": ["BaseStore(int)", "resize", "init"]}]}
{"id": "C05", "title": "Allocated memory always covers the requested size", "statement": "For every requested size n>=1, the block that is allocated for n elements (capacity computed in double precision as n times 1.15 and truncated) has at least n elements.", "quantifier": "every n >= 1 up to the limit at which the double to integer conversion overflows", "why_tests_cant": "Floating-point rounding could make the truncated product smaller than n for some n; there are 2^63 candidates.", "anchors": [{"file": "include/etr_bits/Core/BaseStore.hpp", "symbols": ["BaseStore(std::size_t)", "BaseStore(int)", "init", "resize", "realloc"]}]}
{"id": "C06", "title": "No double free, use after free or leak in any history", "statement": "In any history of creating, copying, assigning, resizing, appending to, swapping, and destroying vectors (including operations that throw), no memory block is freed twice, used after being freed, or freed by anyone but its owner, and once every vector is destroyed no allocated block is left.", "quantifier": "every finite history of operations over any number of vectors", "why_tests_cant": "Ownership bugs only appear for particular interleavings of operations; the set of histories is infinite.", "anchors": [{"file": "include/etr_bits/Core/BaseStore.hpp", "symbols": ["BaseStore", "~BaseStore", "init", "resize", "moveit", "realloc", "push_back", "operator="]}, {"file": "include/etr_bits/Vector/Constructors.hpp", "symbols": ["Vec(Vec<T2, R2, Trait2> &&)"]}]}
{"id": "C07", "title": "Copies are equal and independent", "statement": "Copy-constructing a vector from another one yields a vector with the same length, the same elements and the same matrix dimensions; afterwards modifying either one never changes the other.", "quantifier": "every source vector (in every state reachable through the public API) and every later modification", "why_tests_cant": "The claim covers every reachable source state, in particular states produced by moving temporaries into vectors, which tests rarely copy.", "anchors": [{"file": "include/etr_bits/Core/BaseStore.hpp", "symbols": ["BaseStore(const BaseStore&)"]}, {"file": "include/etr_bits/Vector/Constructors.hpp", "symbols": ["Vec(Vec<T2, R2, Trait2> &&)"]}]}
{"id": "C08", "title": "Store assignment makes the target equal to the source", "statement": "After assigning one store to another, the target has the length and elements of the source, whatever the two lengths were.", "quantifier": "every pair of stores of arbitrary sizes and capacities", "why_tests_cant": "The behaviour depends on the relation of two sizes and capacities; the set of pairs is infinite.", "anchors": [{"file": "include/etr_bits/Core/BaseStore.hpp", "symbols": ["operator=", "realloc", "resize"]}]}
{"id": "C09", "title": "fill keeps the vector usable", "statement": "fill(value) makes all elements equal to value; fill(vector of the same length) makes the elements equal to that vector; fill with a vector of different length is rejected and changes nothing. After a fill, later resize and element operations stay inside allocated memory.", "quantifier": "every vector state, every filling value or vector, every later operation", "why_tests_cant": "The damage done by filling from a temporary only shows up in later operations on particular capacity histories.", "anchors": [{"file": "include/etr_bits/Core/BaseStore.hpp", "symbols": ["fill"]}, {"file": "include/etr_bits/Core/Borrow.hpp", "symbols": ["fill"]}]}
{"id": "C10", "title": "Failed allocations leave a destroyable object", "statement": "If an allocation fails (std::bad_alloc) in the middle of an operation, the object can still be destroyed and used without undefined behaviour.", "quantifier": "every operation that allocates and every allocation failure point", "why_tests_cant": "Failure points are crash points: every allocation of every history can be the failing one.", "anchors": [{"file": "include/etr_bits/Core/BaseStore.hpp", "symbols": ["init", "resize", "realloc", "BaseStore(std::size_t)"]}]}
{"id": "C11", "title": "Assignment takes a snapshot of the right-hand side", "statement": "After x = e, x has the length of e and its i-th element is the value that e[i] had before the assignment, even if x occurs in e (directly, recycled, or subsetted).", "quantifier": "every expression e, every vector x and every state, including all alias patterns", "why_tests_cant": "The set of expressions and alias patterns is infinite.", "anchors": [{"file": "include/etr_bits/Vector/AssignmentOperator.hpp", "symbols": ["operator=(const Vec<T2, R2, Trait2>&)", "operator=(const Vec<T, R, Trait>&)"]}, {"file": "include/etr_bits/Core/BaseStore.hpp", "symbols": ["moveit"]}]}
{"id": "C12", "title": "A variable can be assigned any number of times", "statement": "A vector variable can be assigned arbitrarily often: for every history of assignments of non-empty expressions to it, each assignment succeeds.", "quantifier": "every initial construction of the variable and every history of assignments", "why_tests_cant": "A bug that only appears on the k-th assignment for a specific way of constructing the variable is a property of histories.", "anchors": [{"file": "include/etr_bits/Vector/AssignmentOperator.hpp", "symbols": ["operator="]}, {"file": "include/etr_bits/Core/BaseStore.hpp", "symbols": ["resize", "moveit"]}, {"file": "include/etr_bits/Vector/Constructors.hpp", "symbols": ["Vec()"]}]}
{"id": "C13", "title": "Matrix attribute follows the assigned value", "statement": "After x = e, x is a matrix if and only if e is a matrix, and then it has the dimensions of e.", "quantifier": "every previous state of x and every expression e", "why_tests_cant": "Depends on the previous (possibly stale) attribute of x, i.e. on the history.", "anchors": [{"file": "include/etr_bits/Vector/AssignmentOperator.hpp", "symbols": ["operator="]}, {"file": "include/etr_bits/Core/MatrixParameter.hpp", "symbols": ["setMatrix"]}]}
{"id": "C14", "title": "Scalar assignment yields a length-one vector", "statement": "After x = s for a scalar s, x has length one and x[0] equals s; for a borrowed vector only the first element of the borrowed memory changes.", "quantifier": "every state of x and every scalar", "why_tests_cant": "Depends on capacity and allocation state of x; all states are required.", "anchors": [{"file": "include/etr_bits/Vector/AssignmentOperator.hpp", "symbols": ["operator=(const TD)"]}]}
{"id": "C15", "title": "Initialisation from a temporary keeps length, elements and dimensions", "statement": "Initialising a vector from a temporary vector (c(...), colon, matrix, rep, an arithmetic expression, ...) yields the same length, elements (converted to the element type) and dimensions, and the temporary does not free the elements.", "quantifier": "every non-empty temporary with up to 2^30 elements and every element type pair (sizes pass through int)", "why_tests_cant": "Move, copy and converting paths are selected by type; each must hold for every length and content.", "anchors": [{"file": "include/etr_bits/Vector/Constructors.hpp", "symbols": ["Vec(Vec<T2, R2, Trait2> &&)", "Vec(const Vec<T2, R2, Trait2> &&)"]}]}
{"id": "C16", "title": "Length is preserved by assignment for every representable length", "statement": "Assignment preserves the length of the right-hand side for every length that fits in memory.", "quantifier": "every length", "why_tests_cant": "Lengths of 2^31 and above cannot be exercised in unit tests.", "anchors": [{"file": "include/etr_bits/Core/BaseStore.hpp", "symbols": ["moveit", "realloc", "push_back"]}]}
{"id": "C17", "title": "Constructors establish size, values and dimensions", "statement": "Vec(SI{n}) has n zero elements; Vec(s) for a scalar s has the single element s; Vec(r,c) is an r by c matrix of zeros and Vec(r,c,v) of v's; Vec(p,n) holds a copy of n elements at p; a zero size is rejected.", "quantifier": "every size, value, pointer content", "why_tests_cant": "All sizes and values, including products r*c that wrap around.", "anchors": [{"file": "include/etr_bits/Vector/Constructors.hpp", "symbols": ["Vec(SI)", "Vec(int)", "Vec(std::size_t)", "Vec(double)", "Vec(std::size_t, std::size_t)", "Vec(BaseType*, std::size_t)"]}, {"file": "include/etr_bits/Core/BaseStore.hpp", "symbols": ["BaseStore(std::size_t)"]}]}
{"id": "C18", "title": "Straight-line programs compute what they say", "statement": "A program made of declarations, vector and scalar assignments, element writes, fills, resizes and subset assignments over any number of vectors computes for each variable exactly the list of values given by naive list semantics. A vector that borrows an array of the caller is a window on that array: its writes appear in the array and in every vector that borrows it. Otherwise variables never influence each other except through the expressions written.", "quantifier": "every program, every initial content, every set of arrays of the caller and every way in which vectors share them", "why_tests_cant": "Infinite set of programs; separation between variables is a global invariant.", "anchors": [{"file": "include/etr_bits/Vector/AssignmentOperator.hpp", "symbols": ["operator="]}, {"file": "include/etr_bits/Core/BaseStore.hpp", "symbols": ["moveit", "resize"]}, {"file": "include/etr_bits/Core/SubsetClass.hpp", "symbols": ["operator[]"]}, {"file": "include/etr_bits/Core/Borrow.hpp", "symbols": ["resize", "fill", "operator[]"]}]}
{"id": "C19", "title": "Borrowed vectors work in place and stay within the borrowed range", "statement": "Reads and writes through a borrowed vector access exactly the caller's memory: element i is memory cell i; no operation of a borrowed vector changes a cell outside the borrowed range, and other memory is untouched.", "quantifier": "every borrowed range, every history of operations on the borrowed vector", "why_tests_cant": "Frame condition over all histories and all memory cells.", "anchors": [{"file": "include/etr_bits/Core/Borrow.hpp", "symbols": ["operator[]", "resize", "set", "Borrow(T*, std::size_t)"]}, {"file": "include/etr_bits/Vector/AssignmentOperator.hpp", "symbols": ["operator="]}]}
{"id": "C20", "title": "Assigning to a borrowed vector succeeds exactly when it fits, otherwise memory is untouched", "statement": "Assigning n>=1 values to a borrowed vector of current length s and borrowed capacity c succeeds whenever n<=c, in which case the first n cells hold the values; in all other cases it throws and the borrowed memory is unchanged.", "quantifier": "every s, c, n and content", "why_tests_cant": "Decision boundary over three unbounded numbers plus a frame condition on failure.", "anchors": [{"file": "include/etr_bits/Vector/AssignmentOperator.hpp", "symbols": ["operator="]}]}
{"id": "C21", "title": "Borrowing never frees the caller's memory", "statement": "No operation on a borrowed vector releases or replaces the caller's memory block.", "quantifier": "every operation history on borrowed vectors", "why_tests_cant": "A wrong free corrupts the heap silently; must hold for all histories.", "anchors": [{"file": "include/etr_bits/Core/Borrow.hpp", "symbols": ["fill", "~Borrow", "operator="]}]}
{"id": "C22", "title": "Element-wise arithmetic with recycling", "statement": "For vectors a,b (or a scalar and a vector) and every binary operator, a op b has the length of the longer operand and its i-th element is op applied to a[i mod |a|] and b[i mod |b|].", "quantifier": "every operator, operands of any non-zero lengths and any contents, every index", "why_tests_cant": "All length combinations and indices.", "anchors": [{"file": "include/etr_bits/BinaryCalculations.hpp", "symbols": ["BinaryOperation::operator[]", "BinaryOperation::size"]}]}
{"id": "C23", "title": "Nested expressions evaluate compositionally", "statement": "An arbitrarily nested expression over non-empty vectors and scalars has the value obtained by evaluating the sub-expressions to full vectors and applying the operators element-wise with recycling; evaluating any element never throws or has undefined behaviour, provided the element operations themselves are defined.", "quantifier": "every expression tree and every index", "why_tests_cant": "Lazy index arithmetic (nested modulo) must agree with eager evaluation for all trees; induction over trees is needed.", "anchors": [{"file": "include/etr_bits/BinaryCalculations.hpp", "symbols": ["BinaryOperation::operator[]"]}, {"file": "include/etr_bits/UnaryCalculations.hpp", "symbols": ["UnaryOperation::operator[]"]}]}
{"id": "C24", "title": "Result dimensions of binary operations are consistent", "statement": "The result of a binary operation is a matrix iff an operand is a matrix; its dimensions are those of the matrix operand(s), and number of rows times number of columns equals the length of the result.", "quantifier": "every pair of operands with consistent dimensions", "why_tests_cant": "All dimension pairs; the consistency is a global invariant used by printing and subsetting.", "anchors": [{"file": "include/etr_bits/BinaryCalculations.hpp", "symbols": ["im", "nr", "nc", "size"]}]}
{"id": "C25", "title": "Unary functions are element-wise and keep dimensions", "statement": "f(a) for a unary function f has the length of a, element i is f(a[i]), and f of a matrix is a matrix with the same dimensions.", "quantifier": "every unary function, every operand and index", "why_tests_cant": "All operands; the dimension rule is about every matrix.", "anchors": [{"file": "include/etr_bits/UnaryCalculations.hpp", "symbols": ["UnaryOperation::operator[]", "UnaryOperation::im", "UnaryOperation::size"]}]}
{"id": "C26", "title": "Comparison operators are consistent with each other", "statement": "For every pair of elements, == and != give opposite answers, < and >= give opposite answers, > and <= give opposite answers, and x==x holds.", "quantifier": "every pair of doubles including infinities and NaN", "why_tests_cant": "2^128 pairs; the exceptional pairs lie at exact rounding boundaries.", "anchors": [{"file": "include/etr_bits/Core/Traits.hpp", "symbols": ["EqualTrait", "UnEqualTrait", "SmallerTrait", "SmallerEqualTrait", "LargerTrait", "LargerEqualTrait"]}]}
{"id": "C27", "title": "Division of integers is real division", "statement": "Dividing integer or logical elements never performs integer division: the result is the double quotient; division by zero yields an infinity or NaN, never a trap.", "quantifier": "every pair of element types and every pair of values", "why_tests_cant": "All value pairs including zero divisors.", "anchors": [{"file": "include/etr_bits/Core/Traits.hpp", "symbols": ["DivideTrait"]}]}
{"id": "C28", "title": "Integer element arithmetic is exact or flagged", "statement": "For integer vectors, +, - and * deliver the exact mathematical result whenever it is representable as a 32-bit integer.", "quantifier": "every pair of 32-bit integers", "why_tests_cant": "2^64 pairs per operator; overflow boundary.", "anchors": [{"file": "include/etr_bits/Core/Traits.hpp", "symbols": ["PlusTrait", "MinusTrait", "TimesTrait"]}]}
{"id": "C29", "title": "Scalar index selects the 1-based element", "statement": "v(i) for 1<=i<=length(v) (i an int, or a double whose integer part is i) denotes exactly the i-th element for reading and writing; any other i is rejected with an error at the latest when the element is accessed, and v is not changed.", "quantifier": "every vector and every integer or double index", "why_tests_cant": "All indices including 0, negatives (which wrap to huge unsigned values) and fractional doubles.", "anchors": [{"file": "include/etr_bits/Subsetting/VectorSubsetting.hpp", "symbols": ["calcIndVector"]}, {"file": "include/etr_bits/Core/SubsetClass.hpp", "symbols": ["operator[]"]}, {"file": "include/etr_bits/Subsetting/UtilsSubsetting.hpp", "symbols": ["convertSizeSubsetting"]}]}
{"id": "C30", "title": "Logical scalar index", "statement": "v(TRUE) denotes all elements of v in order; v(FALSE) is rejected.", "quantifier": "every non-empty vector with fewer than 2^31 elements; for v(FALSE) every vector", "why_tests_cant": "All lengths.", "anchors": [{"file": "include/etr_bits/Subsetting/VectorSubsetting.hpp", "symbols": ["calcIndVector"]}]}
{"id": "C31", "title": "Index-vector subsetting returns the addressed elements", "statement": "v(idx) for an index vector idx has length |idx| and its k-th element is element idx[k] (1-based) of v, also with repeated and permuted indices and whatever the length of idx.", "quantifier": "every vector, every in-range index vector of any length, every position", "why_tests_cant": "All index vectors; the failing ones are longer than the vector itself.", "anchors": [{"file": "include/etr_bits/Subsetting/VectorSubsetting.hpp", "symbols": ["calcIndVector"]}, {"file": "include/etr_bits/Core/SubsetClass.hpp", "symbols": ["operator[]"]}]}
{"id": "C32", "title": "Logical mask subsetting", "statement": "v(mask) consists, in order, of exactly those elements of v whose recycled mask entry is TRUE; a mask that selects nothing is rejected.", "quantifier": "every vector with fewer than 2^31 elements and every non-empty mask of any length", "why_tests_cant": "All masks and lengths.", "anchors": [{"file": "include/etr_bits/Subsetting/VectorSubsetting.hpp", "symbols": ["calcIndVector"]}]}
{"id": "C33", "title": "Subset assignment changes exactly the addressed elements", "statement": "After v(idx) = e with |e| = |idx|, each addressed element holds the value of the last e[k] addressed to it (e evaluated before any write), and every other element and the length of v are unchanged.", "quantifier": "every vector, index set and right-hand side, including right-hand sides that read v", "why_tests_cant": "Frame condition over all positions and index sets, aliasing.", "anchors": [{"file": "include/etr_bits/Vector/AssignmentOperator.hpp", "symbols": ["operator="]}, {"file": "include/etr_bits/Core/SubsetClass.hpp", "symbols": ["operator[]", "resize"]}]}
{"id": "C34", "title": "Rejected subset assignment leaves the vector unchanged", "statement": "If a subset assignment is rejected (length mismatch or out-of-range index) the vector is unchanged.", "quantifier": "every vector, index vector and right-hand side", "why_tests_cant": "Failure at any position of the write loop is a crash point; all positions must be considered.", "anchors": [{"file": "include/etr_bits/Vector/AssignmentOperator.hpp", "symbols": ["operator="]}]}
{"id": "C35", "title": "Out-of-range indices are rejected for every kind of subsetted object", "statement": "Subsetting a vector, a temporary, or an arithmetic expression with an index outside 1..length is rejected, at the latest when the element is read.", "quantifier": "every subsettable object and every index", "why_tests_cant": "All indices for all expression trees.", "anchors": [{"file": "include/etr_bits/Core/SubsetClass.hpp", "symbols": ["operator[]"]}, {"file": "include/etr_bits/BinaryCalculations.hpp", "symbols": ["operator[]"]}, {"file": "include/etr_bits/Subsetting/VectorSubsetting.hpp", "symbols": ["subset"]}]}
{"id": "C36", "title": "Matrix subsetting addresses row and column", "statement": "m(r,c), for every combination of logical, integer, double scalars and logical, integer, double vectors, denotes the sub-matrix of the cells addressed by the row and column index, in column-major order, with dimensions #rows x #columns when the result is two-dimensional.", "quantifier": "every matrix shape, every index pair of every kind in range", "why_tests_cant": "All shapes and index values for each of the kinds; the index formula must be right for every shape.", "anchors": [{"file": "include/etr_bits/Subsetting/MatrixSubsetting.hpp", "symbols": ["calcIndMatrix"]}]}
{"id": "C37", "title": "Matrix element by two doubles", "statement": "m(r,c) with two double scalars denotes the element in row trunc(r) and column trunc(c).", "quantifier": "every matrix shape and every pair of in-range double indices", "why_tests_cant": "The formula coincides with the right one on some shapes; only a statement over all shapes settles it.", "anchors": [{"file": "include/etr_bits/Subsetting/MatrixSubsetting.hpp", "symbols": ["calcIndMatrix"]}]}
{"id": "C38", "title": "Fractional indices are truncated uniformly", "statement": "In every index position, a fractional double index denotes the same element as its integer part.", "quantifier": "every in-range double index in each position", "why_tests_cant": "Rounding and truncation for all doubles.", "anchors": [{"file": "include/etr_bits/Subsetting/MatrixSubsetting.hpp", "symbols": ["calcIndMatrix"]}, {"file": "include/etr_bits/Subsetting/VectorSubsetting.hpp", "symbols": ["calcIndVector"]}, {"file": "include/etr_bits/Allocation/AllocationUtils.hpp", "symbols": ["convertSize"]}]}
{"id": "C39", "title": "Each matrix index is checked against its own dimension", "statement": "m(r,c) and at(m,r,c) with r outside 1..nrow or c outside 1..ncol is rejected.", "quantifier": "every matrix and every index pair", "why_tests_cant": "All out-of-range pairs; some alias another cell.", "anchors": [{"file": "include/etr_bits/Subsetting/MatrixSubsetting.hpp", "symbols": ["calcIndMatrix"]}, {"file": "include/etr_bits/Subsetting/at.hpp", "symbols": ["at"]}]}
{"id": "C40", "title": "Logical row and column masks select by recycled mask", "statement": "A logical mask used as row (column) index selects exactly the rows (columns) whose recycled mask entry is TRUE, in order.", "quantifier": "every matrix shape and every mask with at least one TRUE", "why_tests_cant": "All masks, including those shorter or longer than the dimension.", "anchors": [{"file": "include/etr_bits/Subsetting/MatrixSubsetting.hpp", "symbols": ["calcIndMatrix"]}]}
{"id": "C41", "title": "Matrix subset assignment updates exactly the addressed cells", "statement": "After m(r,c) = e the addressed cells hold the values of e in column-major order, all other cells and the shape of m are unchanged, and reading m(r,c) back returns e.", "quantifier": "every matrix, in-range duplicate-free row and column index, right-hand side", "why_tests_cant": "Frame condition over all cells and shapes.", "anchors": [{"file": "include/etr_bits/Subsetting/MatrixSubsetting.hpp", "symbols": ["calcIndMatrix"]}, {"file": "include/etr_bits/Vector/AssignmentOperator.hpp", "symbols": ["operator="]}]}
{"id": "C42", "title": "at() is 1-based, checked, and reads and writes the element", "statement": "at(v,i) refers to the i-th element (1-based) for named vectors and for temporaries alike; out-of-range i throws and nothing is modified.", "quantifier": "every vector or temporary and every index", "why_tests_cant": "All indices and object categories.", "anchors": [{"file": "include/etr_bits/Subsetting/at.hpp", "symbols": ["at"]}]}
{"id": "C43", "title": "A comparison can be used as a logical index", "statement": "v(a == b) (and the other comparisons) selects the elements of v for which the comparison holds.", "quantifier": "every v, a, b", "why_tests_cant": "All contents.", "anchors": [{"file": "include/etr_bits/Subsetting/VectorSubsetting.hpp", "symbols": ["calcIndVector"]}, {"file": "include/etr_bits/BinaryCalculations.hpp", "symbols": ["operator=="]}]}
{"id": "C44", "title": "Subsets of subsets compose", "statement": "Subsetting a subset denotes the composition of the index maps: element k of (v(i))(j) is v[i[j[k]]].", "quantifier": "every vector and index vectors in range", "why_tests_cant": "All compositions.", "anchors": [{"file": "include/etr_bits/Core/SubsetClass.hpp", "symbols": ["operator[]"]}, {"file": "include/etr_bits/Subsetting/VectorSubsetting.hpp", "symbols": ["subset"]}]}
{"id": "C45", "title": "vector_numeric / vector_integer / vector_logical create the requested length", "statement": "Each of the three functions called with a size n>=1 (given as an int, a double or a one-element vector; as a temporary or as a named variable) returns a vector of n zero elements; sizes below 1 are rejected.", "quantifier": "every size value, argument kind and value category", "why_tests_cant": "All sizes for each overload; one overload ignores the size.", "anchors": [{"file": "include/etr_bits/Allocation/Vector.hpp", "symbols": ["vector_numeric", "vector_integer", "vector_logical"]}, {"file": "include/etr_bits/Allocation/AllocationUtils.hpp", "symbols": ["createRVec", "convertSize"]}]}
{"id": "C46", "title": "matrix() builds a column-major matrix", "statement": "matrix(s,r,c) is r x c filled with s; matrix(v,r,c) with |v| = r*c has element (i,j) = v[j*r+i]; other lengths are rejected; r and c are the recorded dimensions and r*c is the length.", "quantifier": "every filler, r and c", "why_tests_cant": "All shapes including overflow of r*c.", "anchors": [{"file": "include/etr_bits/Allocation/Matrix.hpp", "symbols": ["matrix", "matrixInternal"]}, {"file": "include/etr_bits/Vector/Constructors.hpp", "symbols": ["Vec(std::size_t, std::size_t)"]}]}
{"id": "C47", "title": "rep repeats", "statement": "rep(x,times) has length |x|*times and element i is x[i mod |x|]; times below 1 is rejected.", "quantifier": "every x and times", "why_tests_cant": "All lengths and counts.", "anchors": [{"file": "include/etr_bits/Allocation/Rep.hpp", "symbols": ["rep", "repInternal"]}]}
{"id": "C48", "title": "colon on integers is the arithmetic sequence", "statement": "colon(a,b) on integers returns a,a+1,...,b if a<=b and a,a-1,...,b otherwise.", "quantifier": "every pair of 32-bit integers", "why_tests_cant": "2^64 pairs, overflow at the ends.", "anchors": [{"file": "include/etr_bits/Allocation/Colon.hpp", "symbols": ["colonInternal"]}]}
{"id": "C49", "title": "colon on doubles is the arithmetic sequence", "statement": "colon(a,b) on doubles returns a, a+1, ... (or a, a-1, ...) with trunc(|b-a|+1) elements, all between a and b.", "quantifier": "every pair of doubles", "why_tests_cant": "Floating-point rounding for all pairs of doubles decides whether length and loop agree.", "anchors": [{"file": "include/etr_bits/Allocation/Colon.hpp", "symbols": ["colonInternal"]}]}
{"id": "C50", "title": "coca concatenates in order", "statement": "coca(x1,...,xn) is the concatenation of its arguments in order, converted to the common element type; the total length is the sum of the lengths.", "quantifier": "every number, kind, type and content of arguments", "why_tests_cant": "Infinite set of argument lists.", "anchors": [{"file": "include/etr_bits/Coca.hpp", "symbols": ["coca", "determine_type", "forEachArg"]}]}
{"id": "C51", "title": "Warnings are issued exactly when announced", "statement": "The warning 'has more than one element' is printed by rep, colon, matrix and cmr exactly when the argument has more than one element.", "quantifier": "every argument length", "why_tests_cant": "Iff over all lengths.", "anchors": [{"file": "include/etr_bits/Allocation/Rep.hpp", "symbols": ["rep"]}, {"file": "include/etr_bits/Allocation/Colon.hpp", "symbols": ["colon"]}, {"file": "include/etr_bits/Allocation/Matrix.hpp", "symbols": ["matrix"]}, {"file": "include/etr_bits/Interpolation.hpp", "symbols": ["cmr"]}, {"file": "include/etr_bits/Core/Utils.hpp", "symbols": ["warn"]}]}
{"id": "C52", "title": "Size conversion is total on doubles", "statement": "Converting a double to a size yields its integer part when it is at least 1 (and representable), rejects everything else, and never has undefined behaviour.", "quantifier": "every double including NaN, infinities and huge values", "why_tests_cant": "2^64 doubles; undefined behaviour is invisible to tests.", "anchors": [{"file": "include/etr_bits/Allocation/AllocationUtils.hpp", "symbols": ["convertSize"]}, {"file": "include/etr_bits/Core/Utils.hpp", "symbols": ["isDoubleInt"]}, {"file": "include/etr_bits/Subsetting/UtilsSubsetting.hpp", "symbols": ["convertSizeSubsetting"]}]}
{"id": "C53", "title": "Interpolation clamps outside the time range and checks its arguments", "statement": "cmr(t,time,par) throws if the lengths differ or are below 4; it returns par[first] for t before the first time and par[last] for t after the last time.", "quantifier": "every t, time and par vector", "why_tests_cant": "All real t and all vectors.", "anchors": [{"file": "include/etr_bits/Interpolation.hpp", "symbols": ["cmrInternal"]}]}
{"id": "C54", "title": "Interpolation passes through the given points", "statement": "For strictly increasing times, cmr(time[i],time,par) = par[i] for every i.", "quantifier": "every strictly increasing time vector of every length >= 4, every parameter vector, every knot", "why_tests_cant": "All data sets and knots.", "anchors": [{"file": "include/etr_bits/Interpolation.hpp", "symbols": ["cmrInternal"]}]}
{"id": "C55", "title": "Interpolation is local, linear in the data and reproduces straight lines in the interior", "statement": "Between two interior knots the result depends only on the four neighbouring points, is linear in par, approaches the knot values at both ends, and is exact for affine data.", "quantifier": "every strictly increasing time vector, parameters, and t in an interior interval", "why_tests_cant": "Continuum of inputs.", "anchors": [{"file": "include/etr_bits/Interpolation.hpp", "symbols": ["cmrInternal"]}]}
{"id": "C56", "title": "Interpolation reads only the given vectors", "statement": "cmr never reads outside the time and parameter vectors.", "quantifier": "every t within the time range", "why_tests_cant": "Out-of-bounds reads are silent.", "anchors": [{"file": "include/etr_bits/Interpolation.hpp", "symbols": ["cmrInternal"]}, {"file": "include/etr_bits/Vector/VectorClass.hpp", "symbols": ["back"]}]}
{"id": "C57", "title": "Linear interpolation", "statement": "li(t,time,par) returns the linear interpolation of the points and the boundary values outside the range.", "quantifier": "every t, time and par", "why_tests_cant": "All inputs.", "anchors": [{"file": "include/etr_bits/Interpolation.hpp", "symbols": ["li"]}]}
{"id": "C58", "title": "Derivatives of programs built from +, -, * and division by constants are exact", "statement": "After any straight-line program over derivative variables that uses +, -, *, division by constants, constants and copies on equally long (or scalar) vectors, the stored derivative of every variable is the true derivative of its value with respect to the independent variable.", "quantifier": "every program, every vector length, every real input values", "why_tests_cant": "Induction over programs and a limit statement over the reals.", "anchors": [{"file": "include/etr_bits/Derivatives/DerivTypes.hpp", "symbols": ["QuarternyType", "BinaryType"]}, {"file": "include/etr_bits/Vector/DerivativeCalc.hpp", "symbols": ["walkTD"]}, {"file": "include/etr_bits/Vector/AssignmentOperator.hpp", "symbols": ["operator="]}, {"file": "include/etr_bits/Derivatives/VarPointer.hpp", "symbols": ["getDeriv", "setDeriv"]}, {"file": "include/etr_bits/Core/Traits.hpp", "symbols": ["TimesDerivTrait", "PlusDerivTrait", "MinusDerivTrait", "DivideByConstantDerivTrait"]}]}
{"id": "C59", "title": "Derivative of a quotient", "statement": "The stored derivative of a / b is (a'b - ab')/b^2.", "quantifier": "every a, b with b nonzero, and their derivatives", "why_tests_cant": "Continuum of inputs.", "anchors": [{"file": "include/etr_bits/Core/Traits.hpp", "symbols": ["DivideDerivTrait"]}, {"file": "include/etr_bits/Derivatives/DerivTypes.hpp", "symbols": ["QuarternyType"]}]}
{"id": "C60", "title": "Derivative of sinus", "statement": "The stored derivative of sinus(e) is cos(e)*e'.", "quantifier": "every expression e and values", "why_tests_cant": "Continuum of inputs, all expressions.", "anchors": [{"file": "include/etr_bits/Core/Traits.hpp", "symbols": ["SinusDerivTrait"]}, {"file": "include/etr_bits/Derivatives/DerivTypes.hpp", "symbols": ["UnaryType"]}]}
{"id": "C61", "title": "Values and derivatives are recycled consistently", "statement": "For operands of different lengths the derivative of element i is computed from the same operand elements as the value of element i.", "quantifier": "every expression over vectors of arbitrary lengths", "why_tests_cant": "All combinations of lengths; disagreement only for misaligned lengths.", "anchors": [{"file": "include/etr_bits/Derivatives/DerivTypes.hpp", "symbols": ["QuarternyType"]}, {"file": "include/etr_bits/Derivatives/VarPointer.hpp", "symbols": ["getVal", "getDeriv"]}, {"file": "include/etr_bits/BinaryCalculations.hpp", "symbols": ["operator[]"]}]}
{"id": "C62", "title": "Seeding", "statement": "Assigning a constant to the independent variable sets its derivative to 1 in every element; assigning a constant to any other variable sets its derivative to 0; no other variable's derivative changes.", "quantifier": "every set of variables, every index and kind of the independent variable, every constant vector", "why_tests_cant": "All variable tables and histories.", "anchors": [{"file": "include/etr_bits/Vector/AssignmentOperator.hpp", "symbols": ["operator="]}, {"file": "include/etr_bits/Derivatives/AllVars.hpp", "symbols": ["resizeDerivs"]}]}
{"id": "C63", "title": "Self-referential derivative assignments", "statement": "b = f(a,b) updates the value and derivative of b from the old value and derivative of b, whatever the lengths of a and b.", "quantifier": "every expression reading the assigned variable, every pair of lengths", "why_tests_cant": "Depends on the order of in-place updates for all lengths.", "anchors": [{"file": "include/etr_bits/Vector/AssignmentOperator.hpp", "symbols": ["operator="]}, {"file": "include/etr_bits/Derivatives/VarPointer.hpp", "symbols": ["getDeriv", "setDeriv"]}]}
{"id": "C64", "title": "isNA, isInf, length and dim", "statement": "isNA/isInf return a vector of the same length flagging exactly the NaN/infinite elements; length returns the number of elements; dim of a matrix returns (rows, columns) and of a non-matrix is rejected.", "quantifier": "every vector", "why_tests_cant": "All contents and lengths.", "anchors": [{"file": "include/etr_bits/Helper.hpp", "symbols": ["isNA", "isInf", "length", "dim"]}]}
{"id": "C65", "title": "Printing a matrix shows every cell in row order", "statement": "print(m) outputs, line by line, row i of m: the elements (i,1),...,(i,ncol).", "quantifier": "every matrix with rows times columns elements, every state of the stream", "why_tests_cant": "All shapes.", "anchors": [{"file": "include/etr_bits/Printing.hpp", "symbols": ["print"]}]}
{"id": "C66", "title": "R round trip", "statement": "Converting an R vector or matrix to a Vec and back yields the same elements and dimensions.", "quantifier": "every R vector/matrix of the supported types", "why_tests_cant": "All contents and shapes.", "anchors": [{"file": "include/etr_bits/SEXPConversions.hpp", "symbols": ["cpp2R"]}, {"file": "include/etr_bits/Core/BaseStore.hpp", "symbols": ["BaseStore(SEXP)"]}]}
{"id": "C67", "title": "Borrowed R objects are modified in place and never freed", "statement": "Assigning to a vector that borrows an R object updates the R object (when the size fits) and never frees memory that belongs to R.", "quantifier": "every R object and every history of assignments", "why_tests_cant": "Frees of foreign memory are silent; all histories.", "anchors": [{"file": "include/etr_bits/Core/BorrowSEXP.hpp", "symbols": ["resize", "moveit", "operator=", "~BorrowSEXP"]}, {"file": "include/etr_bits/Vector/AssignmentOperator.hpp", "symbols": ["operator="]}]}
{"id": "C68", "title": "Distribution functions are vectorised with recycling", "statement": "Each density/probability/quantile function returns a vector whose length is the maximum argument length and whose i-th element is the scalar function of the recycled arguments; each random generator returns the requested number of values.", "quantifier": "every argument length combination", "why_tests_cant": "All length combinations.", "anchors": [{"file": "include/etr_bits/Distri.hpp", "symbols": ["dunif_etr", "punif_etr", "qunif_etr", "runif_etr", "dnorm_etr"]}]}
{"id": "C69", "title": "Range-for iteration visits the elements in order", "statement": "Iterating over a vector, a borrowed vector or a subset visits exactly its elements in order.", "quantifier": "every vector or subset", "why_tests_cant": "All contents, index vectors.", "anchors": [{"file": "include/etr_bits/Vector/VectorClass.hpp", "symbols": ["begin", "end"]}, {"file": "include/etr_bits/Core/BaseStore.hpp", "symbols": ["begin", "end"]}]}
{"id": "C70", "title": "Conversion to a scalar uses the first element", "statement": "Converting a vector expression to a scalar (e.g. in an if condition) yields its first element; an empty vector is rejected.", "quantifier": "every expression", "why_tests_cant": "All expressions.", "anchors": [{"file": "include/etr_bits/Vector/VectorClass.hpp", "symbols": ["operator RetType"]}]}
{"id": "C71", "title": "back() is the last element", "statement": "back() refers to the last element of a non-empty vector.", "quantifier": "every non-empty vector", "why_tests_cant": "Out-of-bounds reads are silent and depend on capacity.", "anchors": [{"file": "include/etr_bits/Vector/VectorClass.hpp", "symbols": ["back"]}, {"file": "include/etr_bits/Core/BaseStore.hpp", "symbols": ["back"]}, {"file": "include/etr_bits/Core/Borrow.hpp", "symbols": ["back"]}]}
{"id": "C72", "title": "The printed expression tree is the type name", "statement": "The tree printer outputs the type name with line breaks and indentation inserted only after angle brackets: the printed lines, stripped of the inserted tabs and joined, give back the name, and the number of tabs of each line is the bracket depth at its start.", "quantifier": "every type name with balanced brackets", "why_tests_cant": "All strings.", "anchors": [{"file": "include/etr_bits/Core/Reflection.hpp", "symbols": ["printAST", "demangle"]}]}
{"id": "C73", "title": "Logical elements take part in arithmetic as 0 and 1", "statement": "When a logical element is an operand of +, -, * or /, the result is the one obtained by treating TRUE as the number 1 and FALSE as the number 0; in particular TRUE + TRUE is 2.", "quantifier": "every pair of elements at least one of which is logical, every arithmetic operator", "why_tests_cant": "All pairs of element types and values, including results of comparisons inside larger expressions.", "anchors": [{"file": "include/etr_bits/Core/Traits.hpp", "lines": "235-276", "symbols": ["PlusTrait", "MinusTrait", "TimesTrait", "DivideTrait"]}]}
{"id": "C74", "title": "The power of integers is the real power", "statement": "Raising an integer element to an integer power gives the real power of the two numbers, also for negative exponents and for results outside the integer range.", "quantifier": "every pair of integer elements", "why_tests_cant": "2^64 pairs.", "anchors": [{"file": "include/etr_bits/Core/Traits.hpp", "lines": "268-276", "symbols": ["PowTrait"]}]}
{"id": "C75", "title": "A rejected R object changes nothing", "statement": "Assigning an R object of another type than the vector's element type throws and leaves the vector as it was.", "quantifier": "every vector and every R object of another type", "why_tests_cant": "All vector states and R objects; the damage shows only at the next access.", "anchors": [{"file": "include/etr_bits/Core/BaseStore.hpp", "lines": "188-233", "symbols": ["initSEXP"]}, {"file": "include/etr_bits/Vector/AssignmentOperator.hpp", "lines": "242-248", "symbols": ["operator="]}]}
{"id": "C76", "title": "Rcpp and Armadillo round trip", "statement": "Converting an Rcpp or Armadillo vector or matrix to a Vec, whatever the Vec held before, and back yields the same elements and dimensions.", "quantifier": "every Rcpp/Armadillo vector and matrix, every previous state of the Vec", "why_tests_cant": "All contents, shapes and previous states.", "anchors": [{"file": "include/etr_bits/Vector/VectorClass.hpp", "lines": "98-191", "symbols": ["operator=", "operator Rcpp::NumericVector", "operator arma::mat"]}]}
{"id": "C77", "title": "Control flow over vector values", "statement": "A C++ program that combines vector operations with if, while, range-for loops over a vector or over colon(a, b), blocks with local vectors, throw and try blocks with handlers that see the message, where conditions and scalar variables are read from the first element of an expression, computes what the same program computes on ordinary lists of values (and, for vectors that borrow, on the arrays of the caller); in particular it terminates within the same number of rounds. An operation that is rejected throws its message, and the handler continues with the state in which the operation was rejected.", "quantifier": "every program built from these constructs, every nesting, every number of rounds", "why_tests_cant": "Programs and histories are unbounded; the loop range is a temporary vector whose lifetime and memory depend on what the body does.", "anchors": [{"file": "include/etr_bits/Core/Utils.hpp", "lines": "47-52", "symbols": ["It"]}, {"file": "include/etr_bits/Core/BaseStore.hpp", "lines": "308-309", "symbols": ["begin", "end"]}, {"file": "include/etr_bits/Vector/VectorClass.hpp", "lines": "43-74", "symbols": ["operator RetType", "begin", "end"]}]}
{"id": "C78", "title": "The Fibonacci example", "statement": "The program of examples/fibonacci.cpp, for any length n, fills the vector with the first n Fibonacci numbers.", "quantifier": "every length n", "why_tests_cant": "The example runs with n = 20 only; rounding, the direction of colon(3, n) and the bounds of the indices matter for other n.", "anchors": [{"file": "examples/fibonacci.cpp", "lines": "6-13", "symbols": ["main"]}]}
{"id": "C79", "title": "The bubble sort example", "statement": "The function bs of examples/bubblesort.cpp terminates for every vector and leaves it sorted in ascending order, with the same elements.", "quantifier": "every vector", "why_tests_cant": "All contents and lengths; termination and sortedness need an induction over the exchanges.", "anchors": [{"file": "examples/bubblesort.cpp", "lines": "4-22", "symbols": ["bs"]}]}
{"id": "C80", "title": "Moving a store", "statement": "Move construction of a vector's storage hands over the elements and the matrix dimensions; the moved-from storage is empty, and destroying both, in either order, releases the memory exactly once.", "quantifier": "every storage state and both orders of destruction", "why_tests_cant": "A double release shows only with particular destruction orders and heap states.", "anchors": [{"file": "include/etr_bits/Core/BaseStore.hpp", "lines": "45-60", "symbols": ["BaseStore(BaseStore<T> &&)", "~BaseStore"]}]}
{"id": "C81", "title": "A failed operation changes nothing", "statement": "If a construction, assignment, element write, subset assignment, resize, fill, push_back or store assignment ends with an exception, every vector that existed before, the target included, still has the same length, elements and dimensions.", "quantifier": "every reachable program state, every operation and every point at which it can throw", "why_tests_cant": "The throwing point may lie anywhere inside the evaluation of an expression of any shape, in any state of the two buffers of the target.", "anchors": [{"file": "include/etr_bits/Vector/AssignmentOperator.hpp", "symbols": ["operator="]}, {"file": "include/etr_bits/Core/BaseStore.hpp", "lines": "130-145", "symbols": ["operator="]}, {"file": "include/etr_bits/Core/BaseStore.hpp", "lines": "259-293", "symbols": ["resize", "operator[]"]}]}
{"id": "C82", "title": "Memory in use is proportional to the number of vectors", "statement": "After every operation of every program the library holds at most two blocks of memory per existing vector: no block is kept after its vector is gone, whatever was assigned, resized, appended or thrown in between.", "quantifier": "every sequence of declarations, assignments, element writes, resizes, fills with a number or a named vector, appends, store assignments and destructions, of any length and sizes, with any exceptions and failing allocations on the way", "why_tests_cant": "A leak can need a particular order of assignments, exceptions and reallocations; a test observes one order.", "anchors": [{"file": "include/etr_bits/Core/BaseStore.hpp", "lines": "36-348", "symbols": ["BaseStore", "~BaseStore", "resize", "moveit"]}, {"file": "include/etr_bits/Vector/AssignmentOperator.hpp", "symbols": ["operator="]}]}
{"id": "C83", "title": "Repeated assignments of one length do not allocate again and again", "statement": "A program that keeps assigning right-hand sides of the same length to the same vectors (one fixed length per vector) allocates at most two blocks per vector in total, however many assignments and element writes are performed and however many of them throw.", "quantifier": "every reachable starting state, every finite set of vectors with one length each, every number and order of assignments of any expressions of that length, element writes, subset writes and fills", "why_tests_cant": "The bound is on the total over an unbounded number of iterations.", "anchors": [{"file": "include/etr_bits/Core/BaseStore.hpp", "lines": "259-279", "symbols": ["resize"]}, {"file": "include/etr_bits/Core/BaseStore.hpp", "symbols": ["moveit"]}, {"file": "include/etr_bits/Vector/AssignmentOperator.hpp", "symbols": ["operator="]}]}
{"id": "C84", "title": "push_back appends to every vector and allocates rarely", "statement": "In every program state, pushing values v1..vn to the store of a vector that owns its memory makes the vector its old elements followed by v1..vn, leaves all other vectors as they were, and allocates at most log2(n) + 2 blocks in total.", "quantifier": "every reachable state, every vector that owns its memory (however it was constructed and whatever was done to it), every finite sequence of values", "why_tests_cant": "What push_back does depends on the relation of capacity and length that the whole history of the vector has produced, and the bound on the allocations is about all n.", "anchors": [{"file": "include/etr_bits/Core/BaseStore.hpp", "lines": "313-348", "symbols": ["realloc", "push_back"]}, {"file": "include/etr_bits/Core/BaseStore.hpp", "lines": "295-307", "symbols": ["moveit"]}]}
{"id": "C85", "title": "vector_* and colon in derivative programs do not depend on what the constant held before", "statement": "vector_integer/numeric/logical<Idx>(av, k) gives k zeros and colon<Idx>(av, a, b) gives the sequence from a to b, whatever the constant Idx was used for before.", "quantifier": "every previous content, length and capacity of the constant, every size and every pair of ends", "why_tests_cant": "The result depends on the history of the constant: only particular orders of lengths leave old or uninitialised elements behind.", "anchors": [{"file": "include/etr_bits/Allocation/Vector.hpp", "lines": "99-254", "symbols": ["vector_integer", "vector_numeric", "vector_logical"]}, {"file": "include/etr_bits/Allocation/Colon.hpp", "lines": "248-476", "symbols": ["colonInternalDerivs", "colon"]}, {"file": "include/etr_bits/Core/BaseStore.hpp", "lines": "259-279", "symbols": ["resize"]}]}
{"id": "C86", "title": "Fractional sizes and indices are announced", "statement": "A double used as a size or index is rounded down; a warning is printed exactly when it is not an integer.", "quantifier": "every double from 1 to 2^31, for vectors of every length", "why_tests_cant": "Iff over all doubles; whether the difference to the integer part survives rounding is a question for every binary exponent.", "anchors": [{"file": "include/etr_bits/Core/Utils.hpp", "lines": "16-22", "symbols": ["isDoubleInt"]}, {"file": "include/etr_bits/Allocation/AllocationUtils.hpp", "symbols": ["convertSize", "createRVec"]}, {"file": "include/etr_bits/Subsetting/UtilsSubsetting.hpp", "symbols": ["convertSizeSubsetting"]}]}
{"id": "C87", "title": "Naming an intermediate result does not change the result", "statement": "`Vec t = f; x = e;` and `x = e` with the operations of f written in place of t give x the same length, elements and dimensions.", "quantifier": "every pair of expressions e and f (t may occur any number of times), every state a program can reach, every conversion of the element type", "why_tests_cant": "Equivalence of two programs for every expression tree; a test compares two fixed expressions.", "anchors": [{"file": "include/etr_bits/BinaryCalculations.hpp", "symbols": ["BinaryOperation", "operator+", "operator*"]}, {"file": "include/etr_bits/Vector/AssignmentOperator.hpp", "symbols": ["operator="]}, {"file": "include/etr_bits/Core/SubsetClass.hpp", "symbols": ["Subset::operator[]"]}]}
{"id": "C88", "title": "Matrices keep their shape in programs with derivatives", "statement": "After `x = e` the variable x is a matrix if and only if e is one, with the rows and columns of e, and rows times columns is its length.", "quantifier": "every expression over variables and constants, every state of the variables, programs of any length", "why_tests_cant": "The dimensions depend on all operands and on what the variable was before; all expressions and histories.", "anchors": [{"file": "include/etr_bits/Vector/AssignmentOperator.hpp", "lines": "172-239", "symbols": ["operator="]}, {"file": "include/etr_bits/Derivatives/VarPointer.hpp", "symbols": ["setMatrix"]}, {"file": "include/etr_bits/Derivatives/AllVars.hpp", "symbols": ["im", "nr", "nc"]}]}
{"id": "C89", "title": "An expression kept in a variable is an abbreviation of its text, and must be built from names only", "statement": "Let a program declare operations and subsets with `auto e = ...;`, change vectors and numbers, and later assign from these variables. If every operand in the declarations is itself a name (a vector, a number variable or an earlier declared expression) and all of these are still in scope, then the program does exactly what the program does in which every use is replaced by the text of the declaration, evaluated at the time of the use: same elements, same exceptions, same undefined behaviour, same memory. Conversely an assignment from a variable whose declaration has an operand without a name (a nested operation, a literal, the result of a function), or one of whose names has left its scope, never ends normally, whatever the program does before and afterwards. The same holds for reading an element e[i], for converting e to a number and for print(e), and writing a number to a held subset of a vector writes to the vector as writing to the subset itself does.", "quantifier": "all programs of machine operations, declarations of arbitrary expressions, assignments to number variables, assignments from held expressions and ends of scope; all element functions, element values and allocation results", "why_tests_cant": "A dangling reference often still shows the old values on the stack, so a test of `auto e = (a + b) * c; r = e;` can pass by accident; which combinations of declarations, later changes and scopes are valid is a statement about all programs.", "anchors": [{"file": "include/etr_bits/BinaryCalculations.hpp", "lines": "19-31,88-107,147-170", "symbols": ["BinaryOperation", "operator+"]}, {"file": "include/etr_bits/UnaryCalculations.hpp", "lines": "9-15,39-52", "symbols": ["UnaryOperation"]}, {"file": "include/etr_bits/Core/SubsetClass.hpp", "lines": "7-16,33-48", "symbols": ["Subset"]}, {"file": "include/etr_bits/Vector/AssignmentOperator.hpp", "lines": "51-76,106-108", "symbols": ["operator="]}, {"file": "include/etr_bits/Printing.hpp", "lines": "39-87", "symbols": ["print"]}]}
{"id": "C90", "title": "Lengths and dimensions after any program are determined by its shapes alone, and matrices keep rows times columns elements when shapes are respected", "statement": "After every program of declarations, assignments, subset assignments, fills, resizes, `push_back` and ends of scope that ends normally, `size()` of every vector and whether it is a matrix with which `nr()` and `nc()` follow from the shapes written in the program alone: a declaration from an expression takes the length and dimensions of the expression; an assignment takes the length, and the dimensions if the right-hand side is a matrix (otherwise the old dimensions stay); a number gives length 1, `resize(n)` length n, both keep the dimensions; `push_back` adds one to the length, except for vectors that were initialised from a temporary and have not been given a new value or length since (C84), which it leaves as they are; a subset assignment never shortens and never changes dimensions; a copy of an owning matrix has the length but is no matrix; a copy of a borrowing matrix is one. If moreover operands of one expression fit together (matrices with equal dimensions, other parts not longer) and no matrix is given another length without new dimensions (also not by `push_back`), then every matrix has exactly rows times columns elements, so that every `m(i, j)` within the dimensions is an element.", "quantifier": "all programs (any number of commands, variables, sizes up to 2^30, up to 2^29 elements before a `push_back`), all element types and element functions, all allocation results", "why_tests_cant": "Stale dimensions only show when a matrix is later used with indices that lie within the dimensions and outside of the memory; which sequences of commands lead there is a statement about all programs.", "anchors": [{"file": "include/etr_bits/Vector/AssignmentOperator.hpp", "lines": "35-48,51-108,110-237", "symbols": ["operator="]}, {"file": "include/etr_bits/Vector/Constructors.hpp", "lines": "9-213", "symbols": ["Vec"]}, {"file": "include/etr_bits/Core/BaseStore.hpp", "lines": "25-44,130-145,259-279", "symbols": ["BaseStore", "resize", "operator=", "setMatrix"]}, {"file": "include/etr_bits/Core/MatrixParameter.hpp", "symbols": ["MatrixParameter"]}, {"file": "include/etr_bits/BinaryCalculations.hpp", "lines": "32-86", "symbols": ["nr", "nc", "im"]}, {"file": "include/etr_bits/Core/BaseStore.hpp", "lines": "331-348", "symbols": ["push_back"]}]}
{"id": "C91", "title": "Programs with branches, loops, blocks and handlers make no memory error and leak nothing", "statement": "Whatever branches, `while` loops, range-for loops over vectors or over `colon(a, b)`, blocks with local vectors, `try` blocks with handlers, index arguments and scalar variables a program has: what it does to the vectors is what the sequence of its performed operations does, each of which occurs in the program or destroys a vector at the end of a block; without handlers, only the last operation may have failed, and after a failure nothing else is performed but the destructions in the blocks that are left. If the operations it reaches respect their preconditions (C06), ranges have at most 2^30 elements and no body of a loop over a vector moves the memory of that vector (writing its elements is fine), then the program reads and writes no memory outside of live blocks, neither in its operations nor in its conditions, index arguments and loop heads; it ends, normally or with an exception, in a state that an allowed history of operations reaches; at the end of a block, also one left by an exception, all memory still in use belongs to vectors that existed before; and after the destruction of the vectors nothing is leaked. Also without these preconditions, whatever the sizes and shapes are: unless the behaviour is undefined, a block that is left, normally or by an exception, releases all memory that was allocated in it, also that of vectors that live for one round of a loop.", "quantifier": "all programs with arbitrarily nested control flow, all numbers of rounds, all element types and functions, all initial states reached by allowed operations, all allocation results", "why_tests_cant": "A test runs one path through the branches and loops; that no path, with any number of rounds, leads to an access outside of live memory is a statement about all paths.", "anchors": [{"file": "include/etr_bits/Core/Utils.hpp", "lines": "47-52", "symbols": ["It"]}, {"file": "include/etr_bits/Vector/VectorClass.hpp", "lines": "61-74", "symbols": ["begin", "end"]}, {"file": "include/etr_bits/Core/BaseStore.hpp", "lines": "259-309", "symbols": ["resize", "push_back", "begin", "end"]}, {"file": "include/etr_bits/Allocation/Colon.hpp", "lines": "24-46", "symbols": ["colonInternal"]}, {"file": "include/etr_bits/Subsetting/VectorSubsetting.hpp", "lines": "15-89", "symbols": ["calcIndVector", "subset"]}, {"file": "include/etr_bits/Core/BaseStore.hpp", "lines": "236-246", "symbols": ["~BaseStore"]}]}
{"id": "C92", "title": "A function called from R returns what it computes from its arguments and leaks nothing", "statement": "A function that copies its R arguments into vectors (`Vec<T> x; x = s;`), runs a program on them and returns `cpp2R(e)` gives back to R the elements that naive semantics computes from the elements of the arguments: as an R matrix with the dimensions of the expression if it is one, otherwise as an R vector. It does not throw when the operations respect the dimensions. Whatever the arguments are (other types, empty) and whatever branches and loops the function has, the call makes no memory error, and when it returns or throws all memory of its vectors has been released.", "quantifier": "all numbers of arguments, all element values, lengths and dimensions, all programs with control flow, all result expressions, all conversions of elements", "why_tests_cant": "A test calls one function with a few arguments; the statement is about the interplay of argument conversion, an arbitrary computation and the conversion of the result.", "anchors": [{"file": "include/etr_bits/SEXPConversions.hpp", "lines": "38-129", "symbols": ["cpp2R"]}, {"file": "include/etr_bits/Core/BaseStore.hpp", "lines": "188-246", "symbols": ["initSEXP", "~BaseStore"]}, {"file": "include/etr_bits/Vector/AssignmentOperator.hpp", "lines": "244-247", "symbols": ["operator=(SEXP)"]}, {"file": "include/etr_bits/Vector/Constructors.hpp", "lines": "115", "symbols": ["Vec"]}]}
{"id": "C93", "title": "Vectors of the R-borrowing kind with memory of their own act like lists, and binding shows the R object", "statement": "A vector whose data member is a BorrowSEXP and that has memory of its own (because it started empty, or is a copy of a vector that borrows an R object, or is a variable filled by initBorrowSEXP) acts like a list with optional dimensions: after any sequence of push_back, element writes, assignments of numbers and of expressions over it and other vectors, fill and resize it has the elements and dimensions that naive list semantics computes, exceptions are thrown exactly for writes out of range, resize(0) and expressions that throw, and change nothing, no other memory (in particular none of R) is touched, and its destruction gives back all its memory. Binding it to an R object (x.d = s) gives its own memory back and shows the elements and the dimensions of the R object.", "quantifier": "all sequences of operations, all element values, all lengths up to the int limits, all expressions, all other vectors and R objects", "why_tests_cant": "The ownership flags, pointers and capacities of the vector and of its buffer are exchanged by every assignment; a test sees a few histories and neither leaks nor writes into memory of R.", "anchors": [{"file": "include/etr_bits/Core/BorrowSEXP.hpp", "lines": "28-273", "symbols": ["BorrowSEXP", "operator=", "~BorrowSEXP", "init", "resize", "moveit", "realloc", "push_back", "fill"]}, {"file": "include/etr_bits/Vector/AssignmentOperator.hpp", "lines": "77-88,146-157", "symbols": ["operator="]}, {"file": "include/etr_bits/Derivatives/AllVars.hpp", "lines": "59-66", "symbols": ["initBorrowSEXP"]}]}
{"id": "C94", "title": "Piecewise functions written with comparisons have the right values and derivatives", "statement": "In a program over derivative variables that uses +, -, *, division by constants and the comparisons <, >, <=, >=, ==, != (with the tolerance of the library), constants and copies on equally long or scalar vectors, every stored value is the value over the real numbers with a comparison counted as one or zero, and every element of get_derivs is the derivative of that element with respect to the independent variable, provided that no comparison is at a point where its result changes.", "quantifier": "all programs, all expressions, all lengths, all real values", "why_tests_cant": "The results of comparisons have type bool and the result type of an operator is computed from its operands, so whether a value or a derivative is converted to bool depends on the whole expression; a test sees a few expressions.", "anchors": [{"file": "include/etr_bits/Core/Traits.hpp", "lines": "43-340", "symbols": ["EqualDerivTrait", "SmallerDerivTrait", "LargerDerivTrait", "SmallerEqualDerivTrait", "LargerEqualDerivTrait", "UnEqualDerivTrait"]}, {"file": "include/etr_bits/Vector/DerivativeCalc.hpp", "lines": "104-174", "symbols": ["walkTD"]}, {"file": "include/etr_bits/Vector/AssignmentOperator.hpp", "lines": "172-239", "symbols": ["operator="]}, {"file": "include/etr_bits/Derivatives/DerivTypes.hpp", "lines": "85-150", "symbols": ["getVal", "getDeriv"]}]}
{"id": "C95", "title": "Derivatives with respect to a vector handed in by the caller", "statement": "After the caller hands vectors to a table of derivative variables (initBuffer, initBorrow, initBorrowSEXP), a program over these variables computes the values over the real numbers, and get_derivs of every variable that is not empty returns the derivatives with respect to the elements of the handed-in vector that was declared independent.", "quantifier": "all numbers and lengths of vectors, all real values, all programs over +, -, *, division by constants and comparisons, every choice of the independent variable, of any kind", "why_tests_cant": "The derivative of a handed-in vector is set up at the first moment some expression reads it, which may be any operand of any statement of the program; a test fixes one program, and the existing ones start from assignments instead.", "anchors": [{"file": "include/etr_bits/Derivatives/AllVars.hpp", "lines": "39-67", "symbols": ["initBuffer", "initBorrow", "initBorrowSEXP"]}, {"file": "include/etr_bits/Derivatives/VarPointer.hpp", "lines": "146-182", "symbols": ["getDeriv"]}, {"file": "include/etr_bits/Vector/AssignmentOperator.hpp", "lines": "172-239", "symbols": ["operator="]}, {"file": "include/etr_bits/Derivatives/getDerivs.hpp", "symbols": ["get_derivs"]}]}
{"id": "C96", "title": "An index of any arithmetic type selects its element or is rejected", "statement": "v(k) with k of any arithmetic C++ type (std::size_t, long, unsigned, float, ... as well as int and double) designates the k-th element of v for reading and writing, or the program is rejected with an error; it never goes on silently.", "quantifier": "every state, vector, index value and right-hand side", "why_tests_cant": "Whether a call does anything depends on the static type of the index, and a silently ignored store shows only when the element is looked at later; the existing tests use int, double and bool indices only.", "anchors": [{"file": "include/etr_bits/Subsetting/VectorSubsetting.hpp", "lines": "15-89", "symbols": ["calcIndVector", "subset"]}, {"file": "include/etr_bits/Vector/VectorClass.hpp", "lines": "194-196", "symbols": ["operator()"]}, {"file": "include/etr_bits/Subsetting/UtilsSubsetting.hpp", "lines": "21-39", "symbols": ["convertSizeSubsetting"]}]}
{"id": "C97", "title": "Distribution functions release the lock and write back the random number state", "statement": "Every distribution function (d/p/q/r of uniform, normal, log-normal and gamma) calls R only between taking the lock and releasing it and between GetRNGstate and PutRNGstate, and on every way out of the function, by return or by exception, the lock is free and the state of the random numbers has been written back.", "quantifier": "every call with arguments of any length and content, every function of R, every way out", "why_tests_cant": "A missing release after an exception does not change any value that a test could compare; it shows as undefined behaviour when the mutex is destroyed and as a random number stream that depends on earlier failures.", "anchors": [{"file": "include/etr_bits/Distri.hpp", "lines": "11-702", "symbols": ["dunif_etr", "runif_etr", "punif_etr", "qunif_etr", "rnorm_etr", "rlnorm_etr", "rgamma_etr"]}]}
{"id": "C98", "title": "The value of a formula does not depend on the element types of its vectors", "statement": "A formula of +, -, *, /, comparisons, unary operators and subsets over vectors that hold the same numbers has the same length and the same elements (or the same exception), whether the vectors are logical, integer or double; formulas of +, -, * and unary minus over whole numbers give the exact whole numbers as long as all intermediate results fit in 32 bits.", "quantifier": "every formula, every choice of element types of its vectors and arithmetic operands, every content", "why_tests_cant": "The type at each node is computed from the types below it, so the combinations of formula, types and values are unbounded.", "anchors": [{"file": "include/etr_bits/BinaryCalculations.hpp", "lines": "19-120", "symbols": ["BinaryOperation"]}, {"file": "include/etr_bits/UnaryCalculations.hpp", "lines": "9-60", "symbols": ["UnaryOperation"]}, {"file": "include/etr_bits/Core/SubsetClass.hpp", "lines": "73-138", "symbols": ["Subset"]}, {"file": "include/etr_bits/Core/Traits.hpp", "lines": "235-378", "symbols": ["PlusTrait", "MinusTrait", "TimesTrait", "DivideTrait", "MinusUnaryTrait"]}]}
{"id": "C99", "title": "Returning a vector to R leaves the protection stack as it was", "statement": "cpp2R gives the new R object protection while its elements are computed and removes it again: on every way out, by return or by exception, the protection stack of R is as it was before the call.", "quantifier": "every vector, operation or subset, every content, every way out", "why_tests_cant": "An unbalanced stack changes no value; it is seen only as a warning or a leak after many failures.", "anchors": [{"file": "include/etr_bits/SEXPConversions.hpp", "lines": "38-129", "symbols": ["cpp2R"]}]}
{"id": "C100", "title": "Distribution functions may be called from several threads", "statement": "When several threads call the distribution functions, at most one of them is between reading and writing back the state of R's random numbers at any time, and the random numbers that the calls take are the numbers of the stream, each of them once and in order.", "quantifier": "every number of threads, all calls, every order in which the threads take their steps", "why_tests_cant": "Whether two threads meet inside the functions depends on the scheduler; a test that runs a billion times may never see the bad order.", "anchors": [{"file": "include/etr_bits/Distri.hpp", "lines": "11-700", "symbols": ["dunif_etr", "punif_etr", "qunif_etr", "runif_etr", "dnorm_etr", "pnorm_etr", "qnorm_etr", "rnorm_etr"]}]}
{"id": "C101", "title": "Missing values stay missing", "statement": "A value computed from a missing value of R is missing: arithmetic and comparisons of a missing element give a missing element, isNA finds exactly the missing elements, and an index that is missing is rejected or gives a missing element, for numeric, integer and logical vectors.", "quantifier": "every formula, every element type, every position, every index vector", "why_tests_cant": "Missing values can be at any position of any operand under recycling and nesting; tests place them in a few.", "anchors": [{"file": "include/etr_bits/Core/Traits.hpp", "lines": "235-378", "symbols": ["PlusTrait", "MinusTrait", "TimesTrait", "DivideTrait", "EqualTrait", "SmallerTrait", "MinusUnaryTrait"]}, {"file": "include/etr_bits/Helper.hpp", "lines": "13-60", "symbols": ["isNA"]}, {"file": "include/etr_bits/Core/BaseStore.hpp", "lines": "188-233", "symbols": ["initSEXP"]}, {"file": "include/etr_bits/Subsetting/VectorSubsetting.hpp", "lines": "15-69", "symbols": ["calcIndVector"]}]}
{"id": "C102", "title": "Operands of commutative operators can be exchanged", "statement": "Exchanging the operands of + and *, of == and !=, and of a comparison together with mirroring it, anywhere in the expressions of a program, does not change what the program does: every vector has the same elements, length and matrix dimensions afterwards, and no undefined behaviour appears.", "quantifier": "every program, every number and depth of exchanged operations, every mixture of scalars, vectors, matrices and subsets, every state", "why_tests_cant": "Length, matrix flag, rows, columns and elements are decided by separate case distinctions for scalar-left, scalar-right and two vectors; tests use few of the combinations, and seldom both orders.", "anchors": [{"file": "include/etr_bits/BinaryCalculations.hpp", "lines": "19-120", "symbols": ["BinaryOperation"]}, {"file": "include/etr_bits/Core/Traits.hpp", "lines": "235-338", "symbols": ["PlusTrait", "TimesTrait", "EqualTrait", "UnEqualTrait", "SmallerTrait", "LargerTrait"]}, {"file": "include/etr_bits/Vector/AssignmentOperator.hpp", "lines": "44-237", "symbols": ["operator="]}]}
{"id": "C103", "title": "Reading and writing a selection fit together", "statement": "After v(I) = e the selection v(I) reads as e, v(I) = v(I) changes nothing, of two assignments to the same selection the second one wins, assignments to disjoint selections can be done in either order, and for a permutation I the statements v = v(I); v(I) = v restore v.", "quantifier": "every vector, owned or borrowed, every kind of index argument, every right-hand side, every reachable state", "why_tests_cant": "Reads and writes of selections are separate code with their own index computations and temporaries; a law relates two calls for every selection and every content, of which tests see a few.", "anchors": [{"file": "include/etr_bits/Core/SubsetClass.hpp", "lines": "55-138", "symbols": ["operator[]"]}, {"file": "include/etr_bits/Vector/AssignmentOperator.hpp", "lines": "89-105", "symbols": ["operator="]}, {"file": "include/etr_bits/Vector/AssignmentOperator.hpp", "lines": "158-171", "symbols": ["operator="]}, {"file": "include/etr_bits/Subsetting/VectorSubsetting.hpp", "lines": "15-69", "symbols": ["calcIndVector"]}]}
{"id": "C104", "title": "Distribution functions in several threads never wait for each other", "statement": "If several threads call density, probability and random number functions that return, then under every order of their steps each thread that has not finished can go on, each thread finishes after the steps of its calls, and a call holds its mutex exactly while it computes a value, so that no mutex is locked when it is destroyed.", "quantifier": "any number of threads, any lists of calls that return, every schedule of the steps", "why_tests_cant": "A deadlock or a mutex destroyed while it is locked depends on the schedule; a test runs a few of infinitely many.", "anchors": [{"file": "include/etr_bits/Distri.hpp", "lines": "15-23", "symbols": ["dunif_etr"]}, {"file": "include/etr_bits/Distri.hpp", "lines": "35-40", "symbols": ["dunif_etr"]}]}
{"id": "C105", "title": "Independent statements can be exchanged, overwritten assignments can be left out", "statement": "Two neighbouring statements (assignment of a vector, a number or a selection, element write, fill, resize, push_back) that change different vectors without common memory, and of which none reads what the other one changes, can be exchanged without changing any vector or array of the caller at the end of the program. An assignment to a vector followed by an assignment to the same vector that does not read it can be left out. Two groups of statements that are independent in this sense (the work of two threads that take turns) can be executed in every order that keeps the order inside of the groups. This also holds when statements throw exceptions that the program catches: each statement is performed in one order exactly if it is in the other one, and throws the same message otherwise. The same holds inside of branches, loops, blocks with local vectors and handlers.", "quantifier": "every program before and after the statements, every pair of such statements, every two groups of them of any length and every interleaving, vectors that own their elements and vectors that borrow arrays of the caller", "why_tests_cant": "It relates two programs for every context; hidden sharing (temporaries, moved memory, capacities) between variables shows only in particular histories.", "anchors": [{"file": "include/etr_bits/Vector/AssignmentOperator.hpp", "symbols": ["operator="]}, {"file": "include/etr_bits/Core/BaseStore.hpp", "symbols": ["BaseStore", "resize", "fill", "push_back"]}, {"file": "include/etr_bits/Core/Borrow.hpp", "symbols": ["fill", "resize"]}]}
{"id": "C106", "title": "Arithmetic on doubles is correctly rounded", "statement": "For elements of type double the operators +, -, * and / give the binary64 number nearest to the exact result, in a tie the one with the even last digit, and an infinite value with the right sign on overflow. An int operand is converted without error, so that a mixed operation and the quotient of two integers are rounded once. A result is NaN exactly if an operand is NaN or for inf - inf, 0 * inf, 0 / 0 and inf / inf. The sign of zero is not considered.", "quantifier": "all pairs of elements", "why_tests_cant": "There are 2^128 pairs of doubles; errors of conversions and double rounding show in few of them.", "anchors": [{"file": "include/etr_bits/Core/Traits.hpp", "lines": "235-270", "symbols": ["PlusTrait", "MinusTrait", "TimesTrait", "DivideTrait"]}]}
{"id": "C107", "title": "The rounding error of a formula on doubles is bounded", "statement": "An assignment x = e with a formula e of +, -, *, /, unary minus and subsets on vectors of doubles stores numbers close to the exact values of the formula (with the recycling of R): each operation passes on the errors of its operands and adds at most half a unit in the last place. For positive data and formulas of +, * and / the relative error is at most n * 2^-52, where n is the number of operations an element went through. If the exact result of every operation is a binary64 number (for example whole numbers up to 2^53), the exact values are stored.", "quantifier": "all formulas, all vectors of doubles, all elements", "why_tests_cant": "Tests compare with results that were computed in double precision themselves, for a few formulas and numbers; a bound for all formulas needs induction over the formula.", "anchors": [{"file": "include/etr_bits/Core/Traits.hpp", "lines": "235-378", "symbols": ["PlusTrait", "MinusTrait", "TimesTrait", "DivideTrait", "MinusUnaryTrait"]}, {"file": "include/etr_bits/BinaryCalculations.hpp", "lines": "97-107", "symbols": ["operator[]"]}, {"file": "include/etr_bits/UnaryCalculations.hpp", "lines": "45-52", "symbols": ["operator[]"]}]}
{"id": "C108", "title": "Derivatives in binary64 are within a computable bound of the exact derivatives", "statement": "A program of +, -, *, division by constants, constants and copies on derivative variables runs in binary64 as over the real numbers, and each stored value and each number returned by get_derivs differs from the exact value, or from the exact derivative of that value with respect to the independent variable, by at most a bound that follows from the program: every operation passes on the errors of its operands by the product and quotient rules and adds half a unit in the last place. If the exact result of every operation is a binary64 number, the exact values and derivatives are stored.", "quantifier": "all programs in these operations on equally long or scalar vectors, all constants, all elements", "why_tests_cant": "Tests compare a few derivatives with expected numbers up to a tolerance; that the error stays within a bound for every program and all numbers needs induction over programs and expressions.", "anchors": [{"file": "include/etr_bits/Core/Traits.hpp", "lines": "43-230", "symbols": ["PlusDerivTrait", "MinusDerivTrait", "TimesDerivTrait", "DivideDerivTrait"]}, {"file": "include/etr_bits/Vector/AssignmentOperator.hpp", "symbols": ["operator="]}, {"file": "include/etr_bits/Derivatives/getDerivs.hpp", "lines": "12-20", "symbols": ["get_derivs"]}]}
{"id": "C109", "title": "Rounding error of numerical programs with loops", "statement": "A program on vectors of doubles (declarations, assignments of formulas of +, -, *, / and subsets, writes to elements, blocks, loops over colon(a, b), if and while with comparisons) whose comparisons are certain, that is, the error bounds of the compared values cannot change the outcome, finishes, and every element of every vector differs from what the program computes over the rational numbers by at most a bound that follows from the program: every operation passes on the errors of its operands and adds half a unit in the last place. With positive numbers, additions, products and quotients only, an element that went through n roundings has a relative error of at most n * 2^-52; in particular a loop that adds up n positive numbers has a relative error of at most (n - 1) * 2^-52. If the exact result of every operation is a binary64 number, the exact values are stored.", "quantifier": "all programs in these constructs, all numbers of rounds, all data, all elements", "why_tests_cant": "Tests run single formulas on a few numbers; how errors accumulate over any number of rounds, with all the temporary vectors, reallocations and assignments in between, needs induction over programs.", "anchors": [{"file": "include/etr_bits/Core/Traits.hpp", "lines": "43-230", "symbols": ["PlusTrait", "MinusTrait", "TimesTrait", "DivideTrait"]}, {"file": "include/etr_bits/Vector/AssignmentOperator.hpp", "symbols": ["operator="]}, {"file": "include/etr_bits/Core/BaseStore.hpp", "lines": "308-309", "symbols": ["begin", "end"]}]}
{"id": "C110", "title": "A condition with more than one element is reported", "statement": "When a vector expression is the condition of if or while, its first element decides (true if it is not zero), and the warning \"Error in if: the condition has length > 1\" is printed exactly if the condition has more than one element.", "quantifier": "all formulas of operators, comparisons, functions and selections over vectors of logicals, integers and doubles, all lengths and elements", "why_tests_cant": "The warning is chosen at compile time from the element type of the expression; a test sees the types that it uses, the claim is about every type of expression.", "anchors": [{"file": "include/etr_bits/Vector/VectorClass.hpp", "lines": "43-54", "symbols": ["operator RetType"]}, {"file": "include/etr_bits/BinaryCalculations.hpp", "lines": "24", "symbols": ["BinaryOperation::RetType"]}, {"file": "include/etr_bits/Core/Traits.hpp", "lines": "25-33", "symbols": ["UnaryTrait", "BinaryTrait"]}]}
{"id": "C111", "title": "A loop by reference changes the elements it runs over", "statement": "In for (auto& i : v) the name i stands for the current element: reading i gives the element, and an assignment to i changes that element of v and nothing else. After for (auto& i : v) i = f(i) the vector holds f of each of its former elements, in order; if the body throws, the elements changed before keep their new values. For a subset, for (auto& i : v(ind)) runs over the selected elements of v.", "quantifier": "all programs before the loop, all vectors that own or borrow their memory, all bodies of statements without operations on the vector itself, all functions f, all lengths", "why_tests_cant": "The iterators are raw pointers into the memory of the vector; that they stay valid and that no other vector is changed depends on every program that may have produced the vector and on every loop body.", "anchors": [{"file": "include/etr_bits/Vector/VectorClass.hpp", "lines": "61-74", "symbols": ["Vec::begin", "Vec::end"]}, {"file": "include/etr_bits/Core/Utils.hpp", "lines": "47-52", "symbols": ["It::operator*", "It::operator++"]}, {"file": "include/etr_bits/Vector/VectorClass.hpp", "lines": "43-54", "symbols": ["operator RetType"]}]}
{"id": "C112", "title": "Derivatives of programs with branches and loops", "statement": "After variables were given values (initBuffer, initBorrowSEXP), a program of assignments between derivative variables inside if, for and while, whose conditions compare elements of the variables, ends with the values that the same program computes on numbers; and if these values, as functions of the elements of the independent variable, are differentiable at the given point, get_derivs returns their derivatives.", "quantifier": "all programs of assignments, if, for and while, all numbers of rounds, all given vectors", "why_tests_cant": "Which assignments are executed depends on the values and loops repeat them without bound; the claim relates every run to a limit over all small changes of the input.", "anchors": [{"file": "include/etr_bits/Derivatives/AllVars.hpp", "lines": "18-37", "symbols": ["AllVars"]}, {"file": "include/etr_bits/Vector/VectorClass.hpp", "lines": "40-41", "symbols": ["Vec::operator[]"]}, {"file": "include/etr_bits/Derivatives/DerivTypes.hpp", "symbols": ["getDeriv", "getVal"]}, {"file": "include/etr_bits/Derivatives/getDerivs.hpp", "lines": "12-20", "symbols": ["get_derivs"]}]}
{"id": "C113", "title": "Selecting elements and computing can be exchanged", "statement": "For a formula of element-wise operations over vectors of one length n < 2^31 and numbers, and an index argument that selects positions within these vectors (a single index, a logical, or a vector of integers, doubles or logicals), selecting elements of the formula, (f(a, b, ...))(I), has the same length and the same outcome at every element (value, exception, undefined behaviour) as the formula of the selections, f(a(I), b(I), ...); assigning the one or the other stores the same elements. For formulas over named vectors of logicals, integers and doubles this includes the element types: the same number arrives in a target of any element type.", "quantifier": "all formulas, all vector contents and element functions, all index arguments within range, all target element types", "why_tests_cant": "The law is about every tree of operations and every index argument; the two sides build different trees, recycle at different nodes and convert element types at different nodes.", "anchors": [{"file": "include/etr_bits/Core/SubsetClass.hpp", "lines": "67-138", "symbols": ["Subset::operator[]"]}, {"file": "include/etr_bits/Subsetting/VectorSubsetting.hpp", "symbols": ["subset", "calcIndVector"]}, {"file": "include/etr_bits/BinaryCalculations.hpp", "lines": "97-120", "symbols": ["BinaryOperation::operator[]", "BinaryOperation::size"]}, {"file": "include/etr_bits/UnaryCalculations.hpp", "lines": "45-60", "symbols": ["UnaryOperation::operator[]"]}]}
{"id": "C114", "title": "The order in which the compiler evaluates operands does not matter", "statement": "C++ leaves open which operand of a binary operation is evaluated first. Whatever order a compiler chooses at each operation: an element of an expression has the same value or fails in every order; a statement succeeds in every order or in none and leads to the same state (elements, lengths, dimensions, memory); a program with branches, loops, blocks and handlers of exceptions, compiled in one or the other order outside of the bodies of try, ends normally in both or in none, in the same state and with the same warnings.", "quantifier": "all expressions, element functions, statements, programs, states and choices of the order", "why_tests_cant": "A test runs with the order of one compiler; the claim is about all choices at all operations of all programs.", "anchors": [{"file": "include/etr_bits/BinaryCalculations.hpp", "lines": "97-120", "symbols": ["BinaryOperation::operator[]"]}, {"file": "include/etr_bits/Vector/AssignmentOperator.hpp", "lines": "44-110", "symbols": ["Vec::operator="]}]}
{"id": "C115", "title": "A program changes only the vectors that it operates on", "statement": "Let a program with branches, loops, local variables, blocks, exceptions and handlers contain no operation on a given vector; it may read the vector, copy it, and use it in expressions. However the program ends, normally or with an exception, the vector has the length and the dimensions it had before, without any condition on the program except that it has no undefined behaviour. If the vector has memory of its own and the operations of the program are allowed (sizes up to 2^30, copies of vectors with enough capacity, successful allocations) then also all its elements are as before. A cell of an array of the caller that no borrowed vector reaches keeps its value.", "quantifier": "all programs, states, vectors, element types and numbers of rounds", "why_tests_cant": "A test compares some vectors after some programs; that nothing else is changed is a statement about all programs and all other vectors, and about memory that is released and handed out again.", "anchors": [{"file": "include/etr_bits/Vector/AssignmentOperator.hpp", "lines": "44-110", "symbols": ["Vec::operator="]}, {"file": "include/etr_bits/Core/BaseStore.hpp", "lines": "103-330", "symbols": ["BaseStore"]}, {"file": "include/etr_bits/Core/Borrow.hpp", "lines": "12-176", "symbols": ["Borrow"]}]}
{"id": "C116", "title": "Recording derivatives does not change the values", "statement": "A formula over derivative variables and constants of type double (operators +, -, *, /, the comparisons and sinus, nested in any way) has the same number of elements as the same formula over plain vectors with the same contents, and every element read within that size is the same double, bit for bit, comparisons counting as one or zero; an operand without elements gives the same undefined behaviour. After a program of coca/scalarDeriv statements and assignments to buffer variables, with if, for and while on elements of the variables, that ends normally, every variable and constant holds what the same program over plain vectors gives, along the same branches. In particular two runs from the same values that end normally end with the same values, whichever variable is the independent one and whatever the derivatives are.", "quantifier": "all formulas, programs, contents (including not-a-number, infinities and signed zeros), independent variables and library functions sin, cos, pow", "why_tests_cant": "The overloads for derivative variables are a second implementation of every operator; a test compares them with the plain ones for a few formulas and numbers, and would miss a difference at a not-a-number or in one nesting.", "anchors": [{"file": "include/etr_bits/BinaryCalculations.hpp", "symbols": ["BinaryOperation", "operator[]"]}, {"file": "include/etr_bits/Core/Traits.hpp", "symbols": ["PlusDerivTrait", "TimesDerivTrait", "DivideDerivTrait", "UnEqualDerivTrait"]}, {"file": "include/etr_bits/Vector/AssignmentOperator.hpp", "lines": "172-239", "symbols": ["operator="]}, {"file": "include/etr_bits/Derivatives/AllVars.hpp", "lines": "18-158", "symbols": ["AllVars"]}]}
{"id": "C117", "title": "What happens to elements does not depend on what they are", "statement": "Take two programs with the same text that differ in the numbers, the element types and the functions applied to elements, such that corresponding functions take corresponding elements to corresponding elements and fail in the same way. Then every operation has the same outcome in both (the same exception with the same message, the same kind of undefined behaviour, or none), the same memory allocations fail, all lengths and dimensions are equal at every point, and reading an element gives corresponding elements. For programs with if, while, for, blocks and try this also needs that conditions agree on corresponding elements; then the warnings are equal too. In particular: if the functions applied to elements never fail, the exceptions, lengths and dimensions of a history do not depend on the numbers at all; and if a translation of the numbers commutes with the functions, the translated program computes the translated numbers.", "quantifier": "all element types, correspondences between elements, histories of operations, programs with control flow, and sequences of failing allocations", "why_tests_cant": "It compares all pairs of executions of all programs over all data; a test runs one program on a few numbers and cannot show that no other number (not-a-number, infinities, the largest integer) makes a vector change its length or an operation throw.", "anchors": [{"file": "include/etr_bits/Core/BaseStore.hpp", "symbols": ["resize", "fill", "moveit", "push_back", "operator[]", "operator="]}, {"file": "include/etr_bits/Core/Borrow.hpp", "symbols": ["resize", "operator[]"]}, {"file": "include/etr_bits/Vector/AssignmentOperator.hpp", "symbols": ["operator="]}, {"file": "include/etr_bits/Vector/Constructors.hpp", "symbols": ["Vec"]}, {"file": "include/etr_bits/BinaryCalculations.hpp", "symbols": ["BinaryOperation", "operator[]", "size"]}, {"file": "include/etr_bits/UnaryCalculations.hpp", "symbols": ["UnaryOperation", "operator[]", "size"]}]}
