{"claims": [
 {"property": "C01", "status": "proved", "theorems": ["ETR.C01_push_back_appends", "ETR.C01_limit_is_sharp"], "note": "All finite sequences of pushes below the limit of the 32-bit size arithmetic; the limit is shown to be sharp."},
 {"property": "C02", "status": "partial", "theorems": ["ETR.Mach.C02_read_partial", "ETR.Mach.C02_write_partial", "ETR.Mach.C02_no_memory_error_partial", "ETR.Mach.C02_false_copied"], "note": "Proved for every history of the machine except that a copy of a moved-in vector can have capacity below its size (C02_false_copied); every other access is ok or throws."},
 {"property": "C03", "status": "proved", "theorems": ["ETR.Mach.C03_resize_zero", "ETR.Mach.C03_resize", "ETR.Mach.C03_resize_borrowed"], "note": "resize(0) rejected, resize(n) for owned and borrowed vectors; n up to 2^59 (beyond that the byte size of the block overflows)."},
 {"property": "C04", "status": "partial", "theorems": ["ETR.Mach.C04_false_uninitialised", "ETR.Mach.C04_false_stale", "ETR.Mach.C04_determinate_partial"], "note": "False of the code: uninitialised slack and stale values are exposed (two witnesses); determinacy proved when the capacity is exceeded or the vector shrinks."},
 {"property": "C05", "status": "proved", "theorems": ["ETR.C05_capacity_covers_size", "ETR.C05_capacity_defined", "ETR.C05_capacity_covers_size_int"], "note": "Rounding analysis of the binary64 product for every n that can be allocated; both the size_t and the int constructor."},
 {"property": "C06", "status": "partial", "theorems": ["ETR.Mach.C06_no_memory_error_partial", "ETR.Mach.C06_no_leak_partial", "ETR.Mach.C06_no_leak", "ETR.Mach.C06_false"], "note": "Ownership invariant for all histories; histories that fill from a temporary vector or copy a moved-in vector are excluded because the code violates the claim there (C09_false_fill_temporary, C07_false_moved_in), and a failed allocation in resize leads to a double free (C06_false). The part about leaks holds without restrictions on sizes, copies and failing allocations: C06_no_leak."},
 {"property": "C07", "status": "partial", "theorems": ["ETR.Mach.C07_independent", "ETR.Mach.C07_copy_partial", "ETR.Mach.C07_false_dims", "ETR.Mach.C07_false_moved_in"], "note": "Independence proved for all histories; equality of the copy fails for the matrix attribute and for moved-in sources (witnesses); proved otherwise."},
 {"property": "C08", "status": "partial", "theorems": ["ETR.C08_false_shorter_source", "ETR.C08_assign_partial"], "note": "False for shorter sources (witness); proved for sources at least as long as the target."},
 {"property": "C09", "status": "partial", "theorems": ["ETR.Mach.C09_fill_value", "ETR.Mach.C09_fill_value_borrowed", "ETR.Mach.C09_fill_vector_partial", "ETR.Mach.C09_temporary_partial", "ETR.Mach.C09_false_fill_temporary", "ETR.Mach.C09_member_characterised", "ETR.Mach.C09_false_member"], "note": "fill(value) proved for owned and borrowed vectors; fill(vector) proved for lvalue sources; filling from a temporary takes over its memory, and the result is a proper vector if the vector was as large as its capacity (C09_temporary_partial); otherwise a later resize shows memory outside of the block (C09_false_fill_temporary). These are about the data member; the member function fill of the vector class converts its argument to one number, the first element (C09_member_characterised, C09_false_member)."},
 {"property": "C10", "status": "partial", "theorems": ["ETR.C10_first_allocation_partial", "ETR.Store.C10_construction_partial", "ETR.Store.C10_push_back_partial", "ETR.Store.C10_resize_dangling", "ETR.C10_false_resize", "ETR.C10_false_push_back"], "note": "False for resize and push_back (witnesses with a failing allocation). Proved: first allocations of a store; every construction that throws after any history leaves all vectors and all memory as they were and leaks nothing (C10_construction_partial); a push_back that throws keeps elements, memory and destructibility (C10_push_back_partial; only the capacity is wrong). C10_resize_dangling: every resize beyond the capacity that throws leaves the freed pointer behind, so the failure is not an exception but the rule."},
 {"property": "C11", "status": "partial", "theorems": ["ETR.Mach.C11_snapshot_partial", "ETR.Mach.C11_false_length"], "note": "Proved for all initialised variables and all expressions, lengths below 2^30 (moveit keeps sizes in int); missing: variables in the state left by the default constructor, which C12 shows to be rejected. C11_false_length: an assignment of 2^31 elements leaves a vector with another length."},
 {"property": "C12", "status": "partial", "theorems": ["ETR.Mach.C12_assignable_partial", "ETR.Mach.C12_false_default_constructed", "ETR.Mach.C12_false_second_assignment"], "note": "False for default constructed variables (two witnesses); proved for initialised ones, any number of assignments."},
 {"property": "C13", "status": "partial", "theorems": ["ETR.Mach.C13_dims_partial", "ETR.Mach.C13_stale_partial", "ETR.Mach.C13_false_stale_dims"], "note": "Holds if the source is a matrix or the target was not one; otherwise the old dimensions stay (witness and exact characterisation)."},
 {"property": "C14", "status": "proved", "theorems": ["ETR.Mach.C14_scalar", "ETR.Mach.C14_scalar_borrowed"], "note": "Owned and borrowed vectors."},
 {"property": "C15", "status": "proved", "theorems": ["ETR.Mach.C15_same_type", "ETR.Mach.C15_expression"], "note": "Initialisation from a temporary of the same type and from any expression."},
 {"property": "C16", "status": "partial", "theorems": ["ETR.Mach.C16_length_partial", "ETR.Mach.C16_false_length", "ETR.Mach.C16_characterised", "ETR.Mach.C16_borrowed"], "note": "False from 2^31 elements on (C16_false_length). C16_characterised: in every state, an assignment to a vector that owns its memory keeps the length exactly for fewer than 2^31 elements. C16_borrowed: a borrowing vector keeps every length."},
 {"property": "C17", "status": "partial", "theorems": ["ETR.Mach.C17_size", "ETR.Mach.C17_size_zero", "ETR.Mach.C17_mat_zero", "ETR.Mach.C17_scalar", "ETR.Mach.C17_mat", "ETR.Mach.C17_false_mat_wraps", "ETR.Mach.C17_pointer"], "note": "All constructors, for sizes up to 2^59 (C17_size, C17_mat, C17_pointer). C17_false_mat_wraps: rows times columns is computed modulo 2^64, so that a matrix can have fewer elements than its dimensions say."},
 {"property": "C18", "status": "partial", "theorems": ["ETR.Mach.C18_exceptions_partial", "ETR.Mach.C18_program_agreement_partial", "ETR.Mach.C18_false"], "note": "Refinement of the machine to naive list semantics for all programs over vectors that own their elements and vectors that borrow arrays of the caller (any sharing); missing: commands on which C12, C20, C31 and C16 show the code to differ (default constructed targets, borrowing targets that would shrink, longer index vectors, lengths above 2^30). C18_exceptions_partial: programs that catch the exceptions of their statements: each statement ends as in the naive semantics, with the same message, and the lists at the end agree. C18_false: a program with two assignments to a default constructed vector throws."},
 {"property": "C19", "status": "partial", "theorems": ["ETR.Mach.C19_in_place", "ETR.Mach.C19_frame_partial", "ETR.Mach.C19_false"], "note": "Reads and writes act on the caller's cells; frame theorem for all histories except filling from a temporary vector, which C19_false shows to be a violation."},
 {"property": "C20", "status": "partial", "theorems": ["ETR.Mach.C20_throw_untouched", "ETR.Mach.C20_fits_partial", "ETR.Mach.C20_shorter_rejected", "ETR.Mach.C20_false_shorter"], "note": "The code accepts iff s <= n <= c; n < s is rejected although it fits (witness). Fewer values than the current length are always rejected (C20_shorter_rejected). Rejection leaves the memory untouched."},
 {"property": "C21", "status": "partial", "theorems": ["ETR.Mach.C21_never_freed_partial", "ETR.Mach.C21_false_fill_temporary", "ETR.Mach.C21_false_fill_temporary_new"], "note": "False when filling from a temporary (witnesses); proved for all other operations and histories."},
 {"property": "C22", "status": "proved", "theorems": ["ETR.C22_recycling", "ETR.C22_scalar"], "note": "All operators, all lengths."},
 {"property": "C23", "status": "proved", "theorems": ["ETR.C23_compositional"], "note": "Induction over expression trees."},
 {"property": "C24", "status": "partial", "theorems": ["ETR.C24_matrix_iff", "ETR.C24_dims_partial", "ETR.C24_false_nonconformable", "ETR.C24_false_long_vector"], "note": "Matrix flag proved for all; dimensions and rows*columns = length fail for non-conformable operands and longer vectors (witnesses), proved otherwise."},
 {"property": "C25", "status": "partial", "theorems": ["ETR.C25_elementwise_partial", "ETR.C25_false_dims", "ETR.C25_numeric_partial"], "note": "Elements proved, also for the functions of the C library on int and bool elements (C25_numeric_partial); the matrix attribute is lost (witness)."},
 {"property": "C26", "status": "partial", "theorems": ["ETR.Trait.C26_order_partial", "ETR.Trait.C26_order_meaning", "ETR.Trait.C26_int_partial", "ETR.Trait.C26_false_int_overflow", "ETR.Trait.C26_equality_iff_partial", "ETR.Trait.C26_reflexive_iff", "ETR.Trait.C26_tolerance", "ETR.Trait.C26_false", "ETR.Trait.C26_not_transitive"], "note": "False for NaN and for |a-b| = 1e-3, and == is not transitive; exact characterisation of when the claims hold."},
 {"property": "C27", "status": "proved", "theorems": ["ETR.Trait.C27_quotient", "ETR.Trait.C27_by_zero", "ETR.Trait.C27_total"], "note": "All element types, including division by zero."},
 {"property": "C28", "status": "proved", "theorems": ["ETR.Trait.C28_exact", "ETR.Trait.C28_mixed", "ETR.Trait.C28_minus_unary"], "note": "Exact in range; outside the range the model has undefined behaviour, as C++ does."},
 {"property": "C29", "status": "partial", "theorems": ["ETR.Mach.C29_write", "ETR.Mach.C29_write_reject_partial", "ETR.C29_read_int", "ETR.C29_read_double", "ETR.C29_reject_partial", "ETR.C29_false_undefined"], "note": "Reading and writing of every in-range index proved for vectors below 2^31 elements; rejection proved for non-empty vectors and indices whose evaluation is defined. Missing: INT_MIN and doubles outside the int range, whose evaluation is undefined in the code (C29_false_undefined), and empty vectors (division by zero, C35_false_empty)."},
 {"property": "C30", "status": "proved", "theorems": ["ETR.C30_true", "ETR.C30_false_rejected"], "note": "v(TRUE) for every denoting object, v(FALSE) rejected for every object."},
 {"property": "C31", "status": "partial", "theorems": ["ETR.C31_partial", "ETR.C31_double_partial", "ETR.C31_wraps", "ETR.C31_false"], "note": "False for index vectors longer than the vector (C31_false); proved for index vectors not longer than the vector, for every k; C31_wraps gives the exact result of the code for every length."},
 {"property": "C32", "status": "proved", "theorems": ["ETR.C32_mask", "ETR.C32_nothing", "ETR.C32_false_empty_mask"], "note": "Every non-empty mask, recycled; a mask that selects nothing throws. The empty mask, excluded by the claim, divides by zero (C32_false_empty_mask)."},
 {"property": "C33", "status": "partial", "theorems": ["ETR.Mach.C33_partial", "ETR.Mach.C33_scalar_partial", "ETR.Mach.C33_false_long", "ETR.Mach.C33_false_long_same"], "note": "Proved for vectors that own or borrow their memory and index arguments with at most length(v) positions, right-hand side may read v; only vectors borrowing the same memory change with v; false for longer index vectors (two witnesses)."},
 {"property": "C34", "status": "partial", "theorems": ["ETR.Mach.C34_length", "ETR.Mach.C34_prefix_partial", "ETR.Mach.C34_scalar_prefix_partial", "ETR.Mach.C34_first_partial", "ETR.Mach.C34_false", "ETR.Mach.C34_false_scalar"], "note": "Length mismatch proved. False for an out-of-range index after the first position (witnesses for vector and scalar right-hand sides); the exact state after the error is proved for vector and scalar right-hand sides (C34_prefix_partial, C34_scalar_prefix_partial)."},
 {"property": "C35", "status": "partial", "theorems": ["ETR.C35_rejected_partial", "ETR.C35_false_empty", "ETR.C35_false_expression", "ETR.C35_expression_accepts", "ETR.C35_false_subset", "ETR.C35_false_long", "ETR.C35_false_negative"], "note": "Proved for named vectors and temporary vectors with defined index evaluation; false for expressions, subsets, longer index vectors, negative double index vectors and empty vectors (five witnesses). C35_expression_accepts: an arithmetic operation accepts every positive int index and recycles."},
 {"property": "C36", "status": "partial", "theorems": ["ETR.C36_elements_partial", "ETR.C36_shape_partial", "ETR.C36_false_shape", "ETR.C36_false_expression", "ETR.C36_false_repeated"], "note": "Proved for all 36 combinations of index kinds except two doubles (C37), a fractional double column next to a vector of doubles (C38) and masks that need recycling (C40), provided not more cells are addressed than the matrix has; false dimensions, expressions and repeated cells: three witnesses."},
 {"property": "C37", "status": "partial", "theorems": ["ETR.C37_characterised", "ETR.C37_one_row_partial", "ETR.C37_false"], "note": "False as soon as the matrix has more than one row (witness). Exact characterisation of the addressed position; the property holds iff the matrix has one row."},
 {"property": "C38", "status": "partial", "theorems": ["ETR.C38_matrix_partial", "ETR.C38_false_column", "ETR.C38_vector_partial"], "note": "Proved for vector subsetting and for matrix subsetting except two doubles (C37); false for a fractional column next to a vector of doubles (witness)."},
 {"property": "C39", "status": "partial", "theorems": ["ETR.C39_characterised", "ETR.C39_column_partial", "ETR.C39_false", "ETR.C39_columns_partial"], "note": "False: only the flat position is checked (witness). Exact characterisation for two int indices, and proof that a column out of range with a row in range is rejected, for two int indices and for numeric indices of all kinds (C39_columns_partial)."},
 {"property": "C40", "status": "partial", "theorems": ["ETR.C40_characterised", "ETR.C40_numbers_characterised", "ETR.C40_short_iff", "ETR.C40_recycled_columns_partial", "ETR.C40_recycled_partial", "ETR.C40_full_length_partial", "ETR.C40_false"], "note": "Proved for masks of full length, and for shorter masks of rows and of columns when the other index is a single number (recycled); false for other short masks and for longer masks (C40_false). C40_characterised: the exact cells for masks of any length next to another mask or TRUE; C40_short_iff: when a short mask selects as expected."},
 {"property": "C41", "status": "partial", "theorems": ["ETR.Mach.C41_partial", "ETR.Mach.C41_false"], "note": "Proved for matrices owning or borrowing their memory, index combinations as in C36 without repeated rows or columns. C41_false: with two numbers of type double another element is written (C37)."},
 {"property": "C42", "status": "partial", "theorems": ["ETR.Mach.C42_read_partial", "ETR.Mach.C42_read_double_partial", "ETR.Mach.C42_double_partial", "ETR.Mach.C42_write_partial", "ETR.Mach.C42_matrix_partial", "ETR.Mach.C42_not_matrix", "ETR.Mach.C42_matrix_write_partial", "ETR.Mach.C42_matrix_characterised", "ETR.Mach.C42_matrix_column", "ETR.Mach.C42_false_row", "ETR.C42_temporary_characterised", "ETR.C42_false_temporary", "ETR.C42_temporary_not_matrix", "ETR.C42_temporary_matrix_partial"], "note": "Proved for named vectors (owning or borrowing), int and double indices, reads and writes, and for in-range rows and columns of matrices; a row and a column on a vector and columns out of range are rejected without a change; exact condition for the rejection of positive rows and columns; double indices below 1 are rejected in every overload (C42_double_partial). False for temporaries, which count from 0, and for rows out of range (witnesses)."},
 {"property": "C43", "status": "partial", "theorems": ["ETR.C43_logical_partial", "ETR.C43_false_double", "ETR.C43_double_characterised", "ETR.C43_false_int"], "note": "False for comparisons of doubles and of integers (witnesses, with exact characterisation of what happens); proved for logical operands."},
 {"property": "C44", "status": "partial", "theorems": ["ETR.C44_partial", "ETR.C44_wraps", "ETR.C44_false"], "note": "Proved when the inner and outer index vectors are not longer than what they index; false otherwise (witness). C44_wraps gives the exact result of the code for index vectors of every length."},
 {"property": "C45", "status": "partial", "theorems": ["ETR.C45_partial", "ETR.C45_reject_partial", "ETR.C45_logical_variable_characterised", "ETR.C45_false_logical"], "note": "Proved for all three functions, sizes in the range of int, given as number or one-element vector; false for vector_logical of a named non-const variable, which always has length 1 (exact characterisation and witness). Doubles outside the range of int are undefined (C52)."},
 {"property": "C46", "status": "partial", "theorems": ["ETR.C46_scalar_partial", "ETR.C46_vector_partial", "ETR.C46_reject_partial", "ETR.C46_false_overflow"], "note": "Proved for products below 2^59, all kinds of size arguments; false when the product wraps around modulo 2^64 (witness)."},
 {"property": "C47", "status": "partial", "theorems": ["ETR.C47_scalar_partial", "ETR.C47_vector_partial", "ETR.C47_reject_partial", "ETR.C47_false_empty"], "note": "Proved for numbers and non-empty vectors, length below 2^59, times below 1 rejected; the empty vector is rejected instead of returned (witness)."},
 {"property": "C48", "status": "partial", "theorems": ["ETR.C48_partial", "ETR.C48_characterised", "ETR.C48_false"], "note": "False: overflow at the ends and for large ranges (witnesses). Proved for exactly the pairs where nothing overflows (C48_characterised shows that all others are undefined)."},
 {"property": "C49", "status": "partial", "theorems": ["ETR.C49_partial", "ETR.C49_false", "ETR.C49_characterised", "ETR.C49_iff"], "note": "False: length and loop disagree after rounding (two witnesses). Proved for all pairs on a common dyadic grid on which the steps are exact, which includes all integer-valued doubles with |b-a| < 2^31 - 1. C49_characterised says what happens for every pair of doubles (NaN and infinities included): undefined, numbers followed by zeros, or an exception; C49_iff says for which pairs the property holds."},
 {"property": "C50", "status": "partial", "theorems": ["ETR.C50_partial", "ETR.C50_false_empty"], "note": "Any number, kind and type of arguments, total length between 1 and 2^31-1; the empty concatenation is rejected (witness)."},
 {"property": "C51", "status": "partial", "theorems": ["ETR.C51_rep_partial", "ETR.C51_rep_vector_partial", "ETR.C51_colon_partial", "ETR.C51_colon_double_partial", "ETR.C51_matrix_characterised", "ETR.C51_false_matrix", "ETR.C51_cmr_characterised"], "note": "Proved for rep (scalar and vector values), colon of integers and colon of doubles on a dyadic grid. False for matrix (exact characterisation: inverted) and for cmr (exact characterisation: inverted for every size)."},
 {"property": "C52", "status": "partial", "theorems": ["ETR.C52_partial", "ETR.C52_undefined_characterised", "ETR.C52_false", "ETR.C52_vector_partial", "ETR.C52_index_partial"], "note": "False: undefined for NaN, infinities and values outside int (exact characterisation, witnesses); proved for all doubles in the range of int, for int and for vectors used as a size."},
 {"property": "C53", "status": "proved", "theorems": ["ETR.C53_checked", "ETR.C53_clamped"], "note": "Every arithmetic (binary64 included) and every pair of vectors; when a time point is before the first and after the last time (times not sorted) the first value wins."},
 {"property": "C54", "status": "partial", "theorems": ["ETR.C54_exact_partial", "ETR.C54_binary64_partial", "ETR.C54_false"], "note": "False: at the last but one knot memory behind the time vector is read (witness). Proved for all other knots, exactly in real arithmetic and in binary64 as long as the slopes do not overflow; below 2^31 points."},
 {"property": "C55", "status": "partial", "theorems": ["ETR.C55_local_partial", "ETR.C55_linear_partial", "ETR.C55_affine_partial", "ETR.C55_ends_partial", "ETR.C55_neighbours_partial", "ETR.C55_false_rounding", "ETR.C55_binary64_partial", "ETR.C55_line_binary64_partial"], "note": "Exact arithmetic over an ordered field (real numbers for the limits); interior intervals with four neighbours, below 2^31 points. C55_neighbours_partial: locality holds in every arithmetic, in particular bit for bit in binary64. C55_false_rounding: in binary64 straight lines are not reproduced exactly. C55_binary64_partial: in binary64 the result is off from the Hermite interpolation by at most 2^-42 times the largest of the four values (C55_line_binary64_partial: for points on a line, off from the line; interior intervals, lengths and values between 2^-200 and 2^200, pow within one unit in the last place)."},
 {"property": "C56", "status": "partial", "theorems": ["ETR.C56_partial", "ETR.C56_characterised", "ETR.C56_false"], "note": "False for t in the last interval (exact characterisation, witness); proved for all other t and arbitrary, also unsorted, time vectors."},
 {"property": "C57", "status": "partial", "theorems": ["ETR.C57_false"], "note": "False for all inputs: li always throws."},
 {"property": "C58", "status": "partial", "theorems": ["ETR.Deriv.C58_partial", "ETR.Deriv.C58_false"], "note": "Every program from fresh variables over exact real arithmetic, values and get_derivs. False when a variable that is read by its own new value changes its length: the program throws (witness). Borrowed variables are not covered; for the rounding error in binary64 see C108."},
 {"property": "C59", "status": "partial", "theorems": ["ETR.Deriv.C59_characterised", "ETR.Deriv.C59_iff", "ETR.Deriv.C59_partial", "ETR.Deriv.C59_false"], "note": "False: divided by the square of the derivative of b (witness). Exact formula for every arithmetic, and over the reals exactly the cases in which it is right (C59_iff); proved for constant divisors."},
 {"property": "C60", "status": "partial", "theorems": ["ETR.Deriv.C60_var_characterised", "ETR.Deriv.C60_partial", "ETR.Deriv.C60_expr_characterised", "ETR.Deriv.C60_false"], "note": "False: no inner derivative for variables, and cosine of the derivative for other expressions (both characterised exactly, witness); proved for variables with derivative one."},
 {"property": "C61", "status": "partial", "theorems": ["ETR.Deriv.C61_partial", "ETR.Deriv.C61_false"], "note": "Proved when operand lengths divide the length of the operand expression they are in; false for other lengths (witness 2, 3, 6)."},
 {"property": "C62", "status": "partial", "theorems": ["ETR.Deriv.C62_partial", "ETR.Deriv.C62_characterised", "ETR.Deriv.C62_kind_false", "ETR.Deriv.C62_borrow_false", "ETR.Deriv.C62_sexp_false"], "note": "Proved for buffer variables (C62_characterised: for an independent variable of any kind the index alone decides); false when the independent variable is borrowed (kind ignored) and for borrowed variables and variables that hold R objects (values go to the buffer with the same index; C62_borrow_false, C62_sexp_false)."},
 {"property": "C63", "status": "partial", "theorems": ["ETR.Deriv.C63_partial", "ETR.Deriv.C63_characterised", "ETR.Deriv.C63_false"], "note": "Proved for every expression when the variable is as long as the new value; when it is shorter and its derivative is read, the assignment never succeeds (C63_characterised, all states)."},
 {"property": "C64", "status": "partial", "theorems": ["ETR.C64_isNA_partial", "ETR.C64_isInf_partial", "ETR.C64_empty_false", "ETR.C64_length_partial", "ETR.C64_length_false", "ETR.C64_dim_partial", "ETR.C64_dim_rejects", "ETR.C64_dim_false"], "note": "Proved for expressions with at least one element and fewer than 2^31 elements, rows and columns. False for isNA/isInf of an empty vector (rejected), for the length of vectors with 2^31 to 2^32-1 elements (negative) and for dim of an element-wise function of a matrix (witnesses)."},
 {"property": "C65", "status": "proved", "theorems": ["ETR.C65_print", "ETR.C65_vector", "ETR.C65_history", "ETR.C65_stream"], "note": "Every matrix whose size is rows times columns, on every stream state; how one number is rendered is left to the stream (parameter)."},
 {"property": "C66", "status": "partial", "theorems": ["ETR.C66_characterised", "ETR.C66_number_partial", "ETR.C66_logical_partial", "ETR.C66_logical_false", "ETR.C66_reuse_false"], "note": "Exact characterisation for every target state: the round trip gives the same object if and only if the object is a matrix or the target was not one before, and the element conversion is invertible. Holds for numbers; false for logical NA and for an R vector assigned to a Vec that was a matrix (witnesses)."},
 {"property": "C67", "status": "partial", "theorems": ["ETR.Sexp.C67_inplace_partial", "ETR.Sexp.C67_assign_characterised", "ETR.Sexp.C67_assign_false", "ETR.Sexp.C67_grow_false", "ETR.Sexp.C67_push_false", "ETR.Sexp.C67_again_false", "ETR.Sexp.C67_copy_partial", "ETR.Sexp.C67_copy_false", "ETR.Sexp.C67_fill_partial", "ETR.Sexp.C67_fill_false"], "note": "Proved for every history of element writes, numbers, fill and resize that fit into the R object. Vector assignments of the same length: exact characterisation, the R object is updated only by every second assignment, and destruction after an odd number frees the memory of R. Longer vectors, push_back and a second R object free it at once (witness theorems for all inputs). On the data member: copy assignment and fill from named vectors work in place when they fit (C67_copy_partial, C67_fill_partial); a longer source or the result of a function frees the memory of R (C67_copy_false, C67_fill_false)."},
 {"property": "C68", "status": "partial", "theorems": ["ETR.C68_density_characterised", "ETR.C68_probability_characterised", "ETR.C68_density_partial", "ETR.C68_probability_partial", "ETR.C68_density_false", "ETR.C68_probability_false", "ETR.C68_runif_partial", "ETR.C68_rnorm_partial", "ETR.C68_rnorm_false", "ETR.C68_generator_characterised", "ETR.C68_gamma_partial", "ETR.C68_gamma_probability_partial", "ETR.C68_rgamma_partial", "ETR.C68_rgamma_characterised", "ETR.C68_rgamma_false"], "note": "Density, distribution and quantile functions: exact characterisation, only the first elements are used and one element is returned; so the property holds when all arguments have one element and fails for every call with a longer argument. runif gives the requested number of values (1 to 2^31-1, one number); the other generators work only for one value (C68_rnorm_false; the exception stated there is raised while the lock is held, see C97_false). All generators give exactly one value if one of the arguments does not have exactly one element, whatever was requested (exact characterisation)."},
 {"property": "C69", "status": "partial", "theorems": ["ETR.C69_vector_partial", "ETR.C69_subset_characterised", "ETR.C69_subset_partial", "ETR.C69_subset_false", "ETR.C69_subset_undefined"], "note": "Proved for vectors that own or borrow their memory. Subsets: the loop visits the first elements of the vector whatever the indices are, so the property holds exactly if these are the selected elements (C69_subset_partial); witnesses."},
 {"property": "C70", "status": "partial", "theorems": ["ETR.C70_first_partial", "ETR.C70_eval_partial", "ETR.C70_empty_partial", "ETR.C70_empty_false"], "note": "Proved for every expression with at least one element and for empty named or temporary vectors; an operation on an empty vector divides by zero (witness)."},
 {"property": "C71", "status": "partial", "theorems": ["ETR.C71_characterised", "ETR.C71_borrow_false", "ETR.C71_false"], "note": "False for every vector: back() gives the element behind the last one. Exact characterisation for constructed vectors after any writes (invalid access below 7 elements, otherwise 0), always invalid for borrowed ones."},
 {"property": "C72", "status": "proved", "theorems": ["ETR.C72_tree", "ETR.C72_strip", "ETR.C72_lines_unique", "ETR.C72_characterised"], "note": "Every name in which no prefix closes more brackets than it opens (in particular every balanced one)."},
 {"property": "C73", "status": "partial", "theorems": ["ETR.Trait.C73_false_sum", "ETR.Trait.C73_logical_partial", "ETR.Trait.C73_logical_int", "ETR.Trait.C73_logical_double", "ETR.Trait.C73_mixed_partial", "ETR.Trait.C73_logical_iff"], "note": "False for two logical operands (witness); proved for every operator on a logical with an integer or double (C73_mixed_partial), and for two logicals exactly when it holds (C73_logical_iff)."},
 {"property": "C74", "status": "partial", "theorems": ["ETR.Trait.C74_false_negative", "ETR.Trait.C74_false_overflow", "ETR.Trait.C74_exact_partial", "ETR.Trait.C74_double", "ETR.Trait.C74_characterised"], "note": "False for negative exponents and on overflow (witnesses); proved for exact results in range and for double operands; C74_characterised gives the result for every pair of integers, whatever the C library function returns."},
 {"property": "C75", "status": "partial", "theorems": ["ETR.C75_rejects", "ETR.C75_new_partial", "ETR.C75_false"], "note": "Always throws; a vector without memory is unchanged. False for every vector with elements: they are freed, the size stays, every access dereferences null."},
 {"property": "C76", "status": "partial", "theorems": ["ETR.C76_vector_partial", "ETR.C76_matrix_partial", "ETR.C76_empty_false"], "note": "Proved for every object with 1 to 2^31-1 elements and every previous state. False for empty objects, which are rejected."},
 {"property": "C77", "status": "partial", "theorems": ["ETR.C77_partial", "ETR.C77_diverges_partial", "ETR.C77_throws_partial", "ETR.C77_false"], "note": "Proved for every program of which the naive semantics has a result, over owning and borrowing vectors, for any nesting and number of rounds, termination and non-termination within the bound included. Missing: what the naive semantics excludes - operations on a vector while a range-for loop runs over it (C77_false: push_back in such a loop reads freed memory), ranges beyond 2^29, undefined element operations, exceptions while a variable declared by Vec x; is assigned; exceptions of the program and of operations are covered (C77_throws_partial: message, state and handler as in naive semantics) - vectors of length 0, positions that do not exist, lengths that differ, borrowed vectors that would grow or shrink, index arguments that are rejected, element functions and conversions that throw; an assignment that throws changes nothing, a subset assignment has done the writes before the position that does not exist, a condition computes its first element only, the operations excluded in C18."},
 {"property": "C78", "status": "partial", "theorems": ["ETR.C78_partial", "ETR.C78_exact_partial", "ETR.C78_false", "ETR.C78_two_false"], "note": "For 3 to 2^29 elements the vector holds the sequence computed in double precision, up to 78 elements exactly the Fibonacci numbers; false for every length from 79 on (rounding) and for n = 2, where colon counts down. The example itself uses functions that no longer exist; the model uses their successors."},
 {"property": "C79", "status": "partial", "theorems": ["ETR.C79_partial", "ETR.C79_false", "ETR.C79_single_false", "ETR.C79_nan_false"], "note": "Proved for every vector with 2 to 2^29 elements and an initialised variable temp: termination with a bound on the number of passes, same elements, sorted if no element is NaN. False for the program as written (temp is declared without value, second exchange throws), for one element and with NaN (witnesses)."},
 {"property": "C80", "status": "partial", "theorems": ["ETR.C80_partial", "ETR.C80_false"], "note": "Elements, emptiness and single release proved for every storage state; the matrix dimensions are not handed over (witness)."},
 {"property": "C81", "status": "partial", "theorems": ["ETR.Mach.C81_partial", "ETR.Mach.C81_history_partial", "ETR.Mach.C81_false_store", "ETR.Mach.C81_false_subset"], "note": "Proved for every operation except two, for every reachable state, every throwing point and by induction for histories. False for the assignment of a shorter store and for a subset assignment with an index out of range (witnesses). Failed allocations are treated in C10. Operations outside Allowed (see C06) are not covered."},
 {"property": "C82", "status": "proved", "theorems": ["ETR.Mach.C82_two_blocks_per_vector"], "note": "C82_two_blocks_per_vector: histories of any length and of any sizes, with exceptions and failing allocations, counted after each operation. Hypotheses: the operations are applied to vectors that exist, and push_back and store assignment (deleted for borrowed memory) to vectors that own theirs. fill from a temporary is not among the operations of a history (C09)."},
 {"property": "C83", "status": "partial", "theorems": ["ETR.Mach.C83_two_allocations_partial", "ETR.Mach.C83_false"], "note": "Proved with a potential function for histories of any length, for vectors that own or borrow their memory; Allowed excludes lengths above 2^30. C83_false: with 2^32 elements each of any number of assignments allocates a block, because the capacity passes through an int."},
 {"property": "C84", "status": "partial", "theorems": ["ETR.Mach.C84_program", "ETR.Mach.C84_characterised", "ETR.Mach.C84_false", "ETR.Mach.C84_push_many_partial", "ETR.Mach.C84_assigned_partial"], "note": "False for vectors initialised from a temporary and not assigned since: the value is lost without an error (witness; exact characterisation for every reachable state; C84_program: which vectors these are follows from the program text). Proved for all others, in particular for every vector after a successful assignment, with the bound on the allocations; up to 2^29 elements. Other vectors: non-empty and owning (borrowed ones are C19)."},
 {"property": "C85", "status": "partial", "theorems": ["ETR.C85_colon_double_characterised", "ETR.C85_colon_double_false", "ETR.C85_colon_partial", "ETR.C85_colon_double_partial", "ETR.C85_vector_partial", "ETR.C85_vector_length", "ETR.C85_vector_argument_partial", "ETR.C85_vector_characterised", "ETR.C85_colon_argument_partial", "ETR.C85_colon_double_argument_partial", "ETR.C85_false", "ETR.C85_false_uninit"], "note": "colon: proved for every previous state of the constant (integers: all ends for which the length and the last step fit into int; doubles: dyadic grid as in C49; C85_colon_double_characterised: every pair of doubles whose length fits into int, where rounding can leave an old element of the constant behind the sequence, C85_colon_double_false). Vectors as arguments: the first elements count (C85_colon_argument_partial, C85_colon_double_argument_partial). vector_*: zeros if the memory of the constant is not sufficient; false otherwise, the old elements stay (exact characterisation, witness) or uninitialised memory is shown (witness)."},
 {"property": "C86", "status": "partial", "theorems": ["ETR.C86_size", "ETR.C86_index", "ETR.C86_numeric", "ETR.C86_integer_characterised", "ETR.C86_logical_characterised", "ETR.C86_false"], "note": "Proved for the size conversion, for a double as index and for vector_numeric, for every double (binary64 number) from 1 below 2^31. False for vector_integer and vector_logical, which convert the size to int or bool first and never warn (exact characterisations, witness)."},
 {"property": "C87", "status": "partial", "theorems": ["ETR.Mach.C87_declare_partial", "ETR.Mach.C87_assign_partial", "ETR.Mach.C87_borrow_partial", "ETR.Mach.C87_false"], "note": "Proved for declarations, for assignments to a vector that owns its memory and for assignments to a vector that borrows it (C87_borrow_partial), for all expressions whose operations do not exhibit undefined behaviour and lists up to 2^30 elements. False if an index of a subset is out of range (witness): the expression repeats the last element, the named vector throws. Missing: longer lists."},
 {"property": "C88", "status": "partial", "theorems": ["ETR.Deriv.C88_assign_characterised", "ETR.Deriv.C88_partial", "ETR.Deriv.C88_constants", "ETR.Deriv.C88_shape_partial", "ETR.Deriv.C88_false", "ETR.Deriv.C88_sin_false"], "note": "Exact effect of every successful assignment on all lengths and dimensions, for every state in which no constant is a matrix (which no program changes, C88_constants), every kind of variable and every arithmetic. The property holds when e contains a matrix outside of sin or x is not a matrix, and rows times columns stays the length for all programs whose operands fit together. False for a matrix that is assigned a vector (keeps its old dimensions) and for sin of a matrix (not a matrix)."},
 {"property": "C89", "status": "partial", "theorems": ["ETR.HState.C89_partial", "ETR.HState.C89_lists_partial", "ETR.HState.C89_characterised", "ETR.HState.C89_temporary", "ETR.HState.C89_false", "ETR.HState.C89_literal_false", "ETR.HState.C89_subset_false", "ETR.HState.C89_read_partial", "ETR.HState.C89_read_temporary", "ETR.HState.C89_write_partial", "ETR.HState.C89_write_gone"], "note": "C89_partial: for all programs, execution with held expressions equals execution of the program with every use replaced by the expanded text (names in scope, operands named). C89_lists_partial: together with C18 the vectors show the lists of the naive semantics. C89_characterised: in every state that a program reaches, a use is the assignment of the expansion if there is one, and otherwise never ends normally. C89_temporary: a declaration on a temporary is unusable for all earlier and later programs. C89_false, C89_literal_false, C89_subset_false: `auto e = (a + b) * a;`, `auto e = a + 1;`, `auto s = subset(a + b, ...);` followed by a use are undefined behaviour. C89_read_partial, C89_read_temporary: the same for e[i], the conversion to a number and print(e). C89_write_partial: writing a number through a held subset of a vector. C89_write_gone: undefined if the vector no longer exists. Missing: writing vectors through held subsets, subsets of held expressions as targets, held expressions inside of branches and loops."},
 {"property": "C90", "status": "proved", "theorems": ["ETR.Mach.C90_append", "ETR.Mach.C90_append_expressions", "ETR.Mach.C90_append_matrices", "ETR.Mach.C90_characterised", "ETR.Mach.C90_expressions", "ETR.Mach.C90_matrices", "ETR.Mach.C90_matrix_expressions", "ETR.Mach.C90_false", "ETR.Mach.C90_operands_false", "ETR.Mach.C90_copy_false"], "note": "C90_characterised: exact length and dimensions of every variable after every covered program that ends normally (failed commands change nothing, C81). C90_expressions: the same for every expression. C90_matrices, C90_matrix_expressions, C90_append_matrices: programs that respect the shapes keep rows times columns equal to the length. The condition is needed: C90_false: a vector assigned to a matrix, resize, a number, push_back leave the old dimensions with another length; C90_operands_false: 2x3 + 3x2 gives a 3x3 matrix with 6 elements; C90_copy_false: a copy of a matrix is no matrix. C90_append, C90_append_expressions: the same characterisation for programs with push_back (Spec/Append.lean; it does nothing to a vector that was initialised from a temporary and not given a new value or length since, C84)."},
 {"property": "C91", "status": "partial", "theorems": ["ETR.C91_block", "ETR.C91_no_leak", "ETR.C91_trace", "ETR.C91_stops", "ETR.C91_reach_partial", "ETR.C91_no_memory_error_partial", "ETR.C91_no_leak_partial", "ETR.C91_block_partial", "ETR.C91_false"], "note": "C91_trace: for every program and every outcome there is a list of operations of the program, and of destructions at the end of blocks, whose execution has the same effect. C91_stops: without handlers nothing but destructions is performed after a failure. C91_reach_partial, C91_no_memory_error_partial, C91_block_partial, C91_no_leak_partial: under the stated preconditions. C91_false: a loop over a vector whose body appends to it reads released memory. C91_block, C91_no_leak: without preconditions on sizes and shapes, every program that compiles (its operations are applied to vectors in scope, appending to vectors that own their memory only) and does not run into undefined behaviour releases all memory of a block at its end, also one left by an exception and with allocations that fail. Missing: absence of memory errors is shown for programs that respect the preconditions of C06 only (otherwise the library does have undefined behaviour, see C07, C09)."},
 {"property": "C92", "status": "partial", "theorems": ["ETR.C92_returns_partial", "ETR.C92_shapes_partial", "ETR.C92_fits_partial", "ETR.C92_no_leak_partial", "ETR.C92_type_rejected", "ETR.C92_false"], "note": "C92_returns_partial: elements for all programs with control flow, dimensions from the final state. C92_shapes_partial: dimensions computed from those of the arguments, for sequences of operations. C92_fits_partial: no exception when the shapes are respected. C92_no_leak_partial: no memory error and no leak, for any arguments. C92_type_rejected: an argument of another type makes the call throw before the body starts (nothing printed), whatever the function and the later arguments are, without a leak. C92_false: a matrix argument that was given a vector of another length cannot be returned, empty arguments make an assignment throw, other types are rejected. Missing: arguments are not empty and have at most 2^30 elements, errors raised by R itself are exceptions in the model (R would use longjmp and skip destructors)."},
 {"property": "C93", "status": "partial", "theorems": ["ETR.Sexp.C93_list_partial", "ETR.Sexp.C93_copy_partial", "ETR.Sexp.C93_copy_empty", "ETR.Sexp.C93_fill_temporary_partial", "ETR.Sexp.C93_init_partial", "ETR.Sexp.C93_bind_partial", "ETR.Sexp.C93_resize_characterised", "ETR.Sexp.C93_false", "ETR.Sexp.C93_resize_false"], "note": "C93_list_partial, C93_copy_partial, C93_init_partial: from the empty vector, from a copy of a vector that borrows an R object, from initBorrowSEXP, for every sequence of operations. C93_copy_empty: the copy of an empty vector throws. C93_bind_partial: binding after any such sequence. C93_fill_temporary_partial: fill from a function result takes its elements over, releases the old memory once and leaves the result without memory. C93_false: binding to an R vector without dimensions keeps the dimensions of an earlier matrix. C93_resize_false: resize to more elements than the vector has can lose the elements and can leave elements without a value. C93_resize_characterised: resize of a non-empty vector to more elements gives zeros beyond the capacity and keeps the elements within it. Assignments of expressions that throw leave the vector as it was. Missing: elements added within the capacity, lists of more than 2^29 or 2^30 elements; expressions over vectors of other kinds than the R-borrowing one."},
 {"property": "C94", "status": "partial", "theorems": ["ETR.Deriv.C94_partial", "ETR.Deriv.C94_sum_characterised", "ETR.Deriv.C94_false"], "note": "C94_partial: every program in which no sum or difference has comparisons on both sides. C94_sum_characterised: such a sum is whether one of the comparisons holds, such a difference whether exactly one holds. C94_false: (a < b) + (a <= b) is stored as 1 instead of 2. Missing: those sums and differences, assignments in which a variable that is read by its own new value changes its length (C58_false), variables that borrow, rounding of binary64."},
 {"property": "C95", "status": "partial", "theorems": ["ETR.Deriv.C95_partial", "ETR.Deriv.C95_false", "ETR.Deriv.C95_borrow_false", "ETR.Deriv.C95_sexp_partial", "ETR.Deriv.C95_kind_false"], "note": "C95_partial: initBuffer with any non-empty vectors, then every program in which a handed-in variable is not assigned by the first statement that reads it. C95_false: after handing in x = 3, x = x * x stores the derivative 0 instead of 6. C95_sexp_partial: the same for initBuffer and initBorrowSEXP together, for programs that read variables of both kinds and assign to buffers (copies also to variables that hold R objects), with an independent variable of either kind whose index no variable of the other kind uses. C95_kind_false: without that condition the order of the operands of a product decides which variable is seeded. C95_borrow_false: initBorrow throws for every vector, since the variables borrow nothing yet. Missing: such first statements, matrices, assignments that change the length of a variable they read (C58_false), sums of two comparisons (C94_false), rounding of binary64."},
 {"property": "C96", "status": "partial", "theorems": ["ETR.C96_partial", "ETR.C96_write_characterised", "ETR.C96_assign_partial", "ETR.C96_false_write", "ETR.C96_false_read"], "note": "C96_partial and C96_assign_partial: with an index that is neither bool, int, double nor a vector, x = v(k) and v(k) = e throw in every state and change no variable, and no element of v(k) can be read. C96_write_characterised and C96_false_write: v(k) = number does nothing and reports nothing. C96_false_read: w + v(k) is undefined behaviour (remainder by zero). For int and double see C29."},
 {"property": "C97", "status": "partial", "theorems": ["ETR.C97_partial", "ETR.C97_exception_characterised", "ETR.C97_exception_partial", "ETR.C97_false", "ETR.C97_false_lower"], "note": "C97_partial: a call that returns has called R in complete rounds only, with the lock free in the end, and gives the result of the model without the lock (C68). C97_exception_partial, C97_exception_characterised: an exception raised while R is not in use leaves everything in order; one that is raised inside of a round leaves the lock taken, and the destruction of the locked mutex is undefined behaviour. C97_false: rnorm, rlnorm and rgamma asked for two or more values. C97_false_lower: a missing value for lower."},
 {"property": "C98", "status": "partial", "theorems": ["ETR.C98_partial", "ETR.C98_exact_partial", "ETR.C98_false_logical", "ETR.C98_false_overflow"], "note": "C98_partial: for two typings of the same formula, with no +, -, * of two logical operands, either the elements agree (also exceptions and other undefined behaviour) or one evaluation overflows int. C98_exact_partial: exact integers, no overflow possible while all intermediate results fit. C98_false_logical: TRUE + TRUE is TRUE; C98_false_overflow: 65536L * 65536L + 1.0. The power operator is left out (see C74); element types other than bool, int, double are left out."},
 {"property": "C99", "status": "partial", "theorems": ["ETR.C99_same", "ETR.C99_partial", "ETR.C99_named", "ETR.C99_false"], "note": "C99_partial: balanced on return, and on every exception except one that an element of the expression throws after the allocation; C99_named: balanced always for a named vector; C99_same: the value is that of the model without the stack (C66, C92); C99_false: a subset with an index beyond the end leaves the object protected."},
 {"property": "C100", "status": "partial", "theorems": ["ETR.C100_partial", "ETR.C100_one_partial", "ETR.C100_false", "ETR.C100_twice_false"], "note": "C100_partial: in every run in which at most one thread computes a value at any time (a lock of the caller, or one thread: C100_one_partial) the numbers are taken once and in order, for calls that return. C100_false, C100_twice_false: the mutex is a local variable of each call, so that any two threads with a value to compute can be inside together and take the same number. Calls that throw: see C97."},
 {"property": "C101", "status": "partial", "theorems": ["ETR.C101_partial", "ETR.C101_isNA_partial", "ETR.C101_compare_false", "ETR.C101_integer_false", "ETR.C101_index_false", "ETR.C101_logical_false"], "note": "C101_partial, C101_isNA_partial: an element of a formula is NaN, and found by isNA, exactly when it is computed by arithmetic from a NaN or by an invalid operation of IEEE arithmetic. NA and NaN are one value in the model. False: comparisons of a missing value are FALSE, == and != alike (C101_compare_false); the missing integer is an ordinary number, found by nothing (C101_integer_false); the missing logical becomes TRUE (C101_logical_false, C66_logical_false); a missing value in an index vector is undefined behaviour (C101_index_false)."},
 {"property": "C102", "status": "partial", "theorems": ["ETR.C102_partial", "ETR.C102_typed_partial", "ETR.C102_equal_partial", "ETR.C102_equal_characterised", "ETR.C102_equal_false", "ETR.C102_control_partial"], "note": "C102_partial: for arbitrary element functions, a program whose statements all succeed leads to the same state, including memory, after operands of mirrored operations are exchanged anywhere. C102_typed_partial: this holds for + * < > <= >= on bool, int, double in every formula, for targets of every type. C102_equal_partial: == and != unless both operands are integers; C102_equal_characterised: for two integers exactly unless they differ by 2^31. C102_control_partial: the same for programs with if, while, range-for, blocks and try (outside of the bodies of try), including the warnings. Missing: which error is reported if both operands fail. False for == of integers, whose difference overflows in one order only (C102_equal_false)."},
 {"property": "C103", "status": "partial", "theorems": ["ETR.Mach.C103_written_is_read_partial", "ETR.Mach.C103_write_back_partial", "ETR.Mach.C103_second_wins_partial", "ETR.Mach.C103_disjoint_partial", "ETR.Mach.C103_permutation_partial", "ETR.Mach.C103_false_long"], "note": "All five laws for selections with at most as many positions as the vector has elements, up to 2^30 (C103_written_is_read_partial, C103_write_back_partial, C103_second_wins_partial, C103_disjoint_partial, C103_permutation_partial). False for longer index vectors: v(I) = v(I) changes the length of v (C103_false_long)."},
 {"property": "C104", "status": "proved", "theorems": ["ETR.C104_progress", "ETR.C104_locked"], "note": "C104_progress: every schedule of any number of threads, for calls that return. C104_locked: while a thread computes a value the mutex of its call is locked by it. (The property is about calls that return; for calls that throw inside of a value, where the mutex stays locked, see C97.)"},
 {"property": "C105", "status": "partial", "theorems": ["ETR.C105_partial", "ETR.C105_interleaved_partial", "ETR.C105_overwritten_partial", "ETR.C105_overwritten_false", "ETR.C105_memory_false", "ETR.C105_control_partial", "ETR.C105_exceptions_partial", "ETR.C105_turns_partial", "ETR.C105_overwritten_exceptions_partial"], "note": "C105_partial, C105_overwritten_partial, C105_interleaved_partial (every interleaving of two independent groups of statements): for programs that have a meaning in the naive semantics of C18. C105_exceptions_partial, C105_turns_partial, C105_overwritten_exceptions_partial: the same for programs that catch the exceptions of their statements; every statement has the same outcome (performed or the same message). C105_control_partial: exchanges and omissions at any number of places of a program with if, while, range-for, blocks with local vectors and handlers (outside of the bodies of try). C105_overwritten_false: with a default constructed vector an overwritten assignment cannot be left out. C105_memory_false: if the memory suffices for one of two statements only, the order decides which one throws. Missing: the operations excluded in C18."},
 {"property": "C106", "status": "proved", "theorems": ["ETR.C106_double", "ETR.C106_integer", "ETR.C106_nan", "ETR.C106_infinite"], "note": "C106_double, C106_integer: the result of an operation is the one that the definition of rounding to nearest (`Nearest`, stated without the rounding function of the model) determines. C106_nan: when a result is NaN. C106_infinite: infinite operands. The hardware is taken to follow IEEE 754; the theorems say that the arithmetic of the model is that of IEEE 754 and that the element functions round once. The sign of zero is not modelled, quotients by zero are left out except for C106_nan."},
 {"property": "C107", "status": "partial", "theorems": ["ETR.C107_error_partial", "ETR.C107_relative_partial", "ETR.C107_exact_partial", "ETR.C107_whole", "ETR.C107_relative_false", "ETR.C107_assignment_partial"], "note": "C107_error_partial: the running error bound, C107_assignment_partial: the same for an assignment in a reachable state (at most 2^30 elements). C107_relative_partial: relative error of formulas of +, *, / on positive data with intermediate values in 2^-1000..2^1000 and n <= 2^40. C107_exact_partial, C107_whole: exactness. C107_relative_false: with subtraction no relative bound holds. Missing: the functions of the C library and the power operator, whose accuracy the standard does not fix; vectors of int and bool inside the formula (see C98); formulas whose results overflow."},
 {"property": "C108", "status": "partial", "theorems": ["ETR.Deriv.C108_error_partial", "ETR.Deriv.C108_exact_partial", "ETR.Deriv.C108_computes_partial", "ETR.Deriv.C108_relative_false"], "note": "C108_error_partial: running error bounds for values and derivatives, against the real-number semantics and HasDerivAt of C58. C108_exact_partial: exactness when all results are binary64 numbers. C108_computes_partial: the stored numbers are determined by rounding each operation of the product rule, NaN and infinities included. C108_relative_false: no relative bound holds (cancellation). Missing: sin, division by variables (C59, C60: the code is wrong there), comparisons, variables that hold R objects, and programs in which a variable read by its own new value changes its length (C58_false)."},
 {"property": "C109", "status": "partial", "theorems": ["ETR.C109_error_partial", "ETR.C109_relative_partial", "ETR.C109_exact_partial", "ETR.C109_sum", "ETR.C109_euler", "ETR.C109_relative_false", "ETR.C109_log", "ETR.C109_decision_false"], "note": "C109_error_partial, C109_relative_partial, C109_exact_partial: every program of these constructs, on the memory model (runs to the end, no UB, no exception), against the program read over the rational numbers. C109_sum and C109_euler: closed bounds for the summation loop and for explicit Euler steps, for all data and numbers of rounds up to 2^29. C109_log: a while loop that halves 2^m until 1 is reached ends after m rounds, exactly. C109_relative_false: no relative bound holds with subtractions. C109_decision_false: a while loop that adds 0.1 until 1 is reached makes one round more than over the rational numbers. Decisions (if, while) are covered where the error bounds cannot change the outcome of the comparison. Missing: decisions too close to call, functions such as sin and exp (the model has no accuracy for them), vectors of int and bool, vectors that borrow."},
 {"property": "C110", "status": "partial", "theorems": ["ETR.C110_characterised", "ETR.C110_partial", "ETR.C110_false", "ETR.C110_false_nan"], "note": "C110_false: comparisons and selections with several elements decide by the first one without a warning (RetType of an operation is double, the branch with the warning is not compiled). C110_partial: the claim for named vectors of logicals. C110_characterised: value and warning of every condition. C110_false_nan: NaN counts as true."},
 {"property": "C111", "status": "partial", "theorems": ["ETR.C111_partial", "ETR.C111_throws_partial", "ETR.C111_map_partial", "ETR.C111_subset_characterised", "ETR.C111_subset_partial", "ETR.C111_subset_false", "ETR.C111_subset_false_undefined"], "note": "C111_partial, C111_throws_partial: any program of C77 and then the loop, with the vectors and arrays of the naive semantics, also after an exception; C111_map_partial: i = f(i) gives the mapped list, other vectors (not on the same borrowed array) keep theirs. Vectors that are not subsets; bodies without operations on the vector itself. C111_subset_false: the loop over v(3) changes the first element; C111_subset_characterised: it runs over the first elements, as many as there are indices; C111_subset_partial: the claim for subsets of the first elements; C111_subset_false_undefined: with more indices than elements it leaves the memory."},
 {"property": "C112", "status": "partial", "theorems": ["ETR.Deriv.C112_partial", "ETR.Deriv.C112_power", "ETR.Deriv.C112_false", "ETR.Deriv.C112_false_equal", "ETR.Deriv.C112_rejects"], "note": "C112_partial: every program, if the statements that are executed satisfy the conditions of C95_sexp_partial and no test that is made compares equal numbers; then the same statements are executed for all small changes. C112_power: b = 1 and n times b = b * a gives a^n and n * a^(n-1), for every n and every vector a. C112_rejects: a test that reads beyond the end throws. C112_false: handing in x = 4, while (1 < x[0]) x = x / 2 stores the derivative 0 instead of 1/4. C112_false_equal: at a = 0 the branch taken only for a = 0 gives the derivative 0 of the differentiable function b = a. Missing: tests of equal numbers, the gaps of C95, conditions other than comparisons of elements joined by not, and, or."},
 {"property": "C113", "status": "proved", "theorems": ["ETR.C113_exchange", "ETR.C113_assign", "ETR.C113_typed", "ETR.C113_needs_range", "ETR.C113_needs_length", "ETR.C113_needs_named"], "note": "C113_exchange: the law for arbitrary element functions. C113_assign: assignments of the two forms store the same. C113_typed: with element types, for formulas over named vectors. The conditions of the statement are needed: C113_needs_range (beyond the end the formula is recycled while the vectors throw), C113_needs_length (recycled operands), C113_needs_named (formulas that contain selections already: integers become doubles)."},
 {"property": "C114", "status": "proved", "theorems": ["ETR.C114_value", "ETR.C114_left_first", "ETR.C114_statement", "ETR.C114_program", "ETR.C114_which_failure"], "note": "C114_value: elements, with the order chosen anew at each operation and each reading; C114_left_first: the order of the model is one of them. C114_statement, C114_program: one order per operation of the program. C114_which_failure: which failure it is does depend on the order, so that the statement says nothing about it."},
 {"property": "C115", "status": "proved", "theorems": ["ETR.C115_shape", "ETR.C115_vector", "ETR.C115_caller", "ETR.C115_needs_own"], "note": "C115_shape: length and dimensions, no condition but the absence of undefined behaviour (failing allocations included). C115_vector: elements of vectors with memory of their own, for permitted programs (Permits, as in C91). C115_caller: the array of the caller. C115_needs_own: two vectors that borrow the same memory do influence each other."},
 {"property": "C116", "status": "proved", "theorems": ["ETR.C116_formula", "ETR.C116_program", "ETR.C116_plain_unique", "ETR.C116_control", "ETR.C116_seed"], "note": "C116_formula (elements), C116_program (programs whose assigned variables are buffers; variables of the other kinds have their values written to the buffer with the same index, see C62), C116_control (if, for and while, from any contents), C116_plain_unique and C116_seed (values independent of the independent variable and of the derivatives, for runs that end normally)."},
 {"property": "C117", "status": "proved", "theorems": ["ETR.C117_history", "ETR.C117_outcome", "ETR.C117_program", "ETR.C117_shape", "ETR.C117_translate", "ETR.C117_needs"], "note": "C117_history, C117_outcome: histories from the start, exceptions caught after each operation. C117_program: programs with control flow. C117_shape: functions that never fail. C117_translate: a translation that commutes with the functions. C117_needs: the conditions on the functions and on the conditions of if are needed."}
]}
