{
 "claims": [
  {
   "property": "C01",
   "status": "proved",
   "theorems": [
    "Verif.IntMath.C01_floor_div_c",
    "Verif.IntMath.C01_floor_div_fortran",
    "Verif.IntMath.C01_overflow_pair",
    "Verif.IntMath.C01_spec_unique"
   ],
   "note": "C and Fortran floor division at every supported width; the one overflowing pair (minimum, -1) is stated separately."
  },
  {
   "property": "C02",
   "status": "proved",
   "theorems": [
    "Verif.IntMath.C02_modulo_c",
    "Verif.IntMath.C02_modulo_fortran",
    "Verif.IntMath.C02_divmod_identity"
   ],
   "note": "Modulo in C and Fortran, and the divmod identity."
  },
  {
   "property": "C03",
   "status": "partial",
   "theorems": [
    "Verif.IntMath.C03_gcd_c",
    "Verif.IntMath.C03_gcd_fortran",
    "Verif.IntMath.C03_lcm_c_partial",
    "Verif.IntMath.C03_lcm_zero_violated"
   ],
   "note": "gcd proved; lcm proved except lcm(0, 0), where the generated C divides by zero (C03_lcm_zero_violated)."
  },
  {
   "property": "C04",
   "status": "proved",
   "theorems": [
    "Verif.IntMath.C04_factorial_c",
    "Verif.IntMath.C04_factorial_fortran",
    "Verif.IntMath.C04_factorial_negative"
   ],
   "note": "factorial for all arguments whose result fits; negative arguments stated separately."
  },
  {
   "property": "C05",
   "status": "partial",
   "theorems": [
    "Verif.IntMath.C05_round_c_partial",
    "Verif.IntMath.C05_round_nonneg_digits",
    "Verif.IntMath.C05_round_fortran_partial",
    "Verif.IntMath.C05_round_c_ties",
    "Verif.IntMath.C05_spec_unique",
    "Verif.IntMath.C05_round_c_violated",
    "Verif.IntMath.C05_round_fortran_violated",
    "Verif.IntMath.C05_sign"
   ],
   "note": "round(x, -d): value within half a unit and correct off ties; ties are not rounded to even in general (C05_round_c_violated, C05_round_fortran_violated)."
  },
  {
   "property": "C06",
   "status": "partial",
   "theorems": [
    "Verif.AugOps.C06_binary_ops_c",
    "Verif.AugOps.C06_augassign_c_partial",
    "Verif.AugOps.C06_mod_exact_partial",
    "Verif.AugOps.C06_mod_violated",
    "Verif.AugOps.C06_augassign_fortran",
    "Verif.AugOps.C06_augassign_c_defined"
   ],
   "note": "Augmented assignment equals the binary operation except `%=` in C (C06_mod_violated)."
  },
  {
   "property": "C07",
   "status": "partial",
   "theorems": [
    "Verif.AugOps.C07_true_div_c_partial",
    "Verif.AugOps.C07_true_div_fortran",
    "Verif.AugOps.C07_bool_violated",
    "Verif.AugOps.C07_true_div_c_bool_exact"
   ],
   "note": "True division converts operands to floating point first, except two booleans in C (C07_bool_violated)."
  },
  {
   "property": "C08",
   "status": "proved",
   "theorems": [
    "Verif.Loops.C08_range_loop_c",
    "Verif.Loops.C08_range_exists"
   ],
   "note": "C range loop runs exactly Python's range for any body that leaves the bounds and the loop variable unchanged; no overflow past the end assumed."
  },
  {
   "property": "C09",
   "status": "partial",
   "theorems": [
    "Verif.Loops.C09_bounds_reevaluated_violated",
    "Verif.Loops.C09_bounds_modified_violated",
    "Verif.Loops.C09_bounds_once_fortran"
   ],
   "note": "Holds in Fortran; violated in C, where bounds are re-evaluated at each iteration. For C, C08_range_loop_c is the part that holds (bounds not modified)."
  },
  {
   "property": "C10",
   "status": "proved",
   "theorems": [
    "Verif.Loops.C10_range_loop_fortran"
   ],
   "note": "Fortran DO loop runs exactly Python's range, any non-zero step."
  },
  {
   "property": "C11",
   "status": "partial",
   "theorems": [
    "Verif.Loops.C11_comprehension_size_partial",
    "Verif.Loops.C11_nested_size_partial",
    "Verif.Loops.C11_negative_step_violated",
    "Verif.Loops.C11_negative_step_wrong",
    "Verif.Loops.C11_empty_range_violated"
   ],
   "note": "Size of comprehensions over range; negative literal steps and empty ranges with reversed bounds violate it."
  },
  {
   "property": "C12",
   "status": "partial",
   "theorems": [
    "Verif.Loops.C12_zip_partial",
    "Verif.Loops.C12_zip_violated",
    "Verif.Loops.C12_enumerate",
    "Verif.Loops.C12_product"
   ],
   "note": "enumerate and product proved; zip proved unless literal and run-time lengths are mixed (C12_zip_violated)."
  },
  {
   "property": "C13",
   "status": "partial",
   "theorems": [
    "Verif.Slices.C13_index_partial",
    "Verif.Slices.C13_minus_zero_violated",
    "Verif.Slices.C13_indices_fortran_partial",
    "Verif.Slices.C13_tuple_of_tuples_violated"
   ],
   "note": "All in-range indices, literal or run-time, C and Fortran, all ranks; excluded and violated: literal -0 in Fortran, run-time negative indices into nested tuples in Fortran."
  },
  {
   "property": "C14",
   "status": "partial",
   "theorems": [
    "Verif.Slices.C14_slice_length_partial",
    "Verif.Slices.C14_out_of_range_violated",
    "Verif.Slices.C14_reversed_violated",
    "Verif.Slices.C14_runtime_step_violated"
   ],
   "note": "Bounds inside the sequence and in order, positive or negative literal step; clamping, reversed bounds and negative run-time steps are violated."
  },
  {
   "property": "C15",
   "status": "partial",
   "theorems": [
    "Verif.Slices.C15_slice_c_partial",
    "Verif.Slices.C15_negative_step_refused",
    "Verif.Slices.C15_empty_violated"
   ],
   "note": "Non-empty in-range slices select Python's elements (contract of STC's cspan_slice assumed); negative steps are refused; empty slices violate it."
  },
  {
   "property": "C16",
   "status": "partial",
   "theorems": [
    "Verif.Slices.C16_slice_fortran_partial",
    "Verif.Slices.C16_runtime_step_violated",
    "Verif.Slices.C16_minus_zero_violated"
   ],
   "note": "In-range slices with any step, except a positive run-time step with explicit stop under allow_negative_index (violated) and literal -0 bounds (violated)."
  },
  {
   "property": "C17",
   "status": "partial",
   "theorems": [
    "Verif.Slices.C17_index_of_slice_partial",
    "Verif.Slices.C17_negative_step_stop_violated",
    "Verif.Slices.C17_negative_index_violated"
   ],
   "note": "Non-negative indices of in-range slices; violated for negative indices and for an omitted start with negative step and explicit stop."
  },
  {
   "property": "C18",
   "status": "partial",
   "theorems": [
    "Verif.Views.C18_view_partial",
    "Verif.Views.C18_order_partial",
    "Verif.Views.C18_slice_partial",
    "Verif.Views.C18_owned",
    "Verif.Views.C18_nondivisible_violated",
    "Verif.Views.C18_negative_stride_violated",
    "Verif.Views.C18_zero_stride_violated"
   ],
   "note": "Missing: strides that do not divide each other, negative or zero strides, empty views. Three counterexamples proved (wrong element read for a[:, ::2, :], negative bounds, division by zero)."
  },
  {
   "property": "C19",
   "status": "partial",
   "theorems": [
    "Verif.Exprs.C19_round_trip_partial",
    "Verif.Exprs.C19_converted_partial",
    "Verif.Exprs.C19_nested_comparison_violated",
    "Verif.Exprs.C19_nested_condition_violated",
    "Verif.Exprs.C19_and_operands_violated"
   ],
   "note": "Printed Python text parses uniquely and has the value of the user expression under every interpretation of the operators, for expressions without implicit conversions, left-nested comparisons or conditional conditions; the three excluded cases are proved to fail."
  },
  {
   "property": "C20",
   "status": "partial",
   "theorems": [
    "Verif.Exprs.C20_round_trip_partial",
    "Verif.Exprs.C20_iff_partial",
    "Verif.Exprs.C20_band_eq_violated",
    "Verif.Exprs.C20_eq_lt_violated",
    "Verif.Exprs.C20_bool_xor_and_violated",
    "Verif.Exprs.C20_truth_of_band_violated"
   ],
   "note": "Printed C text parses uniquely (C11 grammar) to the intended expression exactly for the nestings in CSafe (iff); four violating nestings shown concretely."
  },
  {
   "property": "C21",
   "status": "partial",
   "theorems": [
    "Verif.Exprs.C21_round_trip_partial",
    "Verif.Exprs.C21_iff_partial",
    "Verif.Exprs.C21_eqv_and_violated",
    "Verif.Exprs.C21_not_band_violated",
    "Verif.Exprs.C21_or_neqv_violated",
    "Verif.Exprs.C21_bor_and_violated",
    "Verif.Exprs.C21_not_not_violated"
   ],
   "note": "Printed Fortran text parses uniquely (F2018 grammar) to the intended expression exactly for the nestings in FSafe (iff, when no == compares a boolean with a number); five violating nestings shown concretely."
  },
  {
   "property": "C22",
   "status": "proved",
   "theorems": [
    "Verif.Exprs.C22_erase",
    "Verif.Exprs.C22_value",
    "Verif.Exprs.C22_rebuild"
   ],
   "note": "Node built from an expression erases to it up to and/or grouping, which never changes the value; rebuilding inserts nothing further."
  },
  {
   "property": "C23",
   "status": "partial",
   "theorems": [
    "Verif.Simplify.C23_add_partial",
    "Verif.Simplify.C23_minus_partial",
    "Verif.Simplify.C23_mul_partial",
    "Verif.Simplify.C23_div_partial",
    "Verif.Simplify.C23_gt",
    "Verif.Simplify.C23_rounding_violated"
   ],
   "note": "Exact arithmetic (no rounding, no infinities); rounding violation shown for 53-bit floats. Complex numbers, strings and arrays are not modelled."
  },
  {
   "property": "C24",
   "status": "partial",
   "theorems": [
    "Verif.Simplify.C24_add_minus_partial",
    "Verif.Simplify.C24_regroup_violated",
    "Verif.Simplify.C24_mul_partial",
    "Verif.Simplify.C24_mul_violated",
    "Verif.Simplify.C24_div"
   ],
   "note": "Type preserved up to pyccel's == on types; violated for x * 1.0 and for regrouped literals of mixed Python/NumPy types."
  },
  {
   "property": "C25",
   "status": "proved",
   "theorems": [
    "Verif.Simplify.C25_not",
    "Verif.Simplify.C25_and",
    "Verif.Simplify.C25_or"
   ],
   "note": "Proved for argument lists of any length."
  },
  {
   "property": "C26",
   "status": "partial",
   "theorems": [
    "Verif.Flow.C26_chain",
    "Verif.Flow.C26_pruning_partial",
    "Verif.Flow.C26_dead_removed",
    "Verif.Flow.C26_nan_guard_violated"
   ],
   "note": "Full for the chain built by the syntactic stage. Pruning: for every sound static evaluation of conditions (SymPy is a parameter). SymPy's rule Eq(x, x) = true is unsound for NaN, so `if x != x:` is dropped: C26_nan_guard_violated. The splitting of `a is not None and ...` is in C106."
  },
  {
   "property": "C27",
   "status": "partial",
   "theorems": [
    "Verif.Flow.C27_chain_partial",
    "Verif.Flow.C27_evaluated_twice_violated",
    "Verif.Flow.C27_wrong_value_violated"
   ],
   "note": "Proved when the operands between the first and the last have no effects; otherwise they are evaluated twice (two violations)."
  },
  {
   "property": "C28",
   "status": "partial",
   "theorems": [
    "Verif.Names.C28_fresh",
    "Verif.Names.C28_incremented",
    "Verif.Names.C28_c_keywords",
    "Verif.Names.C28_c_while_violated"
   ],
   "note": "Holds for the reserved words of the checkers; the C keyword while is misspelt whie in the list (unreachable from Python, where while is reserved)."
  },
  {
   "property": "C29",
   "status": "proved",
   "theorems": [
    "Verif.Names.C29_kept",
    "Verif.Names.C29_prefixed",
    "Verif.Names.C29_module_wrapper_kept",
    "Verif.Names.C29_private"
   ],
   "note": "A name without a clash is kept"
  },
  {
   "property": "C30",
   "status": "partial",
   "theorems": [
    "Verif.Names.C30_distinct_in_scope",
    "Verif.Names.C30_new_name_fresh",
    "Verif.Names.C30_distinct_visible_partial",
    "Verif.Names.C30_late_outer_name_violated",
    "Verif.Names.C30_late_outer_prefix_violated",
    "Verif.Names.C30_stable_partial",
    "Verif.Names.C30_renamed_violated"
   ],
   "note": "Within a scope: all histories. Across nested scopes: only if no outer name chosen later equals an inner one (counterexamples for Fortran and C). A symbol may be renamed by get_new_name (counterexample)."
  },
  {
   "property": "C31",
   "status": "partial",
   "theorems": [
    "Verif.Names.C31_innermost",
    "Verif.Names.C31_local_first",
    "Verif.Names.C31_insert_local",
    "Verif.Names.C31_find_all_violated",
    "Verif.Names.C31_find_all_partial"
   ],
   "note": "find_all prefers an import to a local definition of the same name, unlike find (counterexample)."
  },
  {
   "property": "C32",
   "status": "partial",
   "theorems": [
    "Verif.Names.C32_inverse_in_scope",
    "Verif.Names.C32_inverse_visible_partial",
    "Verif.Names.C32_captured_violated"
   ],
   "note": "Within a scope: all histories. Across nested scopes under the restriction of C30."
  },
  {
   "property": "C33",
   "status": "partial",
   "theorems": [
    "Verif.Ast.C33_history_partial",
    "Verif.Ast.C33_users_exact",
    "Verif.Ast.C33_augassign_violated",
    "Verif.Ast.C33_assign_same_violated",
    "Verif.Ast.C33_reused_violated",
    "Verif.Ast.C33_get_attribute_nodes",
    "Verif.Ast.C33_get_user_nodes",
    "Verif.Ast.C33_is_user_of",
    "Verif.Ast.C33_is_user_of_below"
   ],
   "note": "All histories of creation, insertion, attribute assignment, invalidation and substitution under stated discipline; searches proved exact on arbitrary graphs. Undisciplined uses violate it: AugAssign printing, reassigning the same body, replacement inside another original."
  },
  {
   "property": "C34",
   "status": "partial",
   "theorems": [
    "Verif.Types.C34_defined",
    "Verif.Types.C34_commutative",
    "Verif.Types.C34_idempotent",
    "Verif.Types.C34_python",
    "Verif.Types.C34_numpy_promotion",
    "Verif.Types.C34_promotion_unique",
    "Verif.Types.C34_weak_operand",
    "Verif.Types.C34_associative_partial",
    "Verif.Types.C34_associative_mixed_violated",
    "Verif.Types.C34_upper_bound_partial",
    "Verif.Types.C34_lossy_int64_violated",
    "Verif.Types.C34_division",
    "Verif.Types.C34_bitwise_partial",
    "Verif.Types.C34_bitwise_commutative_partial",
    "Verif.Types.C34_bitwise_weak_violated",
    "Verif.Types.C34_negated_bool_violated"
   ],
   "note": "Scalar numeric types: addition and bitwise tables against Python's rules and NumPy's smallest-common-safe-type definition; associativity only without mixing Python and NumPy types (violated otherwise, as in NumPy); int64 with float64 is lossy; &,|,^ with a Python int and unary minus on bool violated."
  },
  {
   "property": "C35",
   "status": "partial",
   "theorems": [
    "Verif.Types.C35_arithmetic",
    "Verif.Types.C35_bitwise_partial",
    "Verif.Types.C35_switch",
    "Verif.Types.C35_bitwise_rank_violated"
   ],
   "note": "Arithmetic proved for all ranks; bitwise operators keep the rank of the first operand: partial for first operand of larger rank, violated otherwise."
  },
  {
   "property": "C36",
   "status": "partial",
   "theorems": [
    "Verif.Types.C36_array",
    "Verif.Types.C36_one_level_partial",
    "Verif.Types.C36_nested_violated"
   ],
   "note": "Arrays proved; lists/sets/tuples proved for one level; dropping two or more levels is shown to be always wrong."
  },
  {
   "property": "C37",
   "status": "partial",
   "theorems": [
    "Verif.Types.C37_rank",
    "Verif.Types.C37_sound_partial",
    "Verif.Types.C37_rejects",
    "Verif.Types.C37_accepts",
    "Verif.Types.C37_commutative_partial",
    "Verif.Types.C37_hidden_one_violated",
    "Verif.Types.C37_rejected_offset_violated"
   ],
   "note": "Relative to the stated laws of sympy (structure SymAlg). Unknown extents that are 1 at run time are mishandled (violated)."
  },
  {
   "property": "C38",
   "status": "partial",
   "theorems": [
    "Verif.Containers.C38_insert",
    "Verif.Containers.C38_pop_partial",
    "Verif.Containers.C38_pop_violated",
    "Verif.Containers.C38_pop_raises_violated",
    "Verif.Containers.C38_reverse",
    "Verif.Containers.C38_min_max",
    "Verif.Containers.C38_min_max_int",
    "Verif.Containers.C38_extend",
    "Verif.Containers.C38_extend_self_partial",
    "Verif.Containers.C38_extend_self_violated",
    "Verif.Containers.C38_extend_display_partial",
    "Verif.Containers.C38_extend_display_violated"
   ],
   "note": "Proved: insert, reverse, min/max, extend with another list, pop with absent/literal/non-negative index. Refuted: pop with a negative run-time index is undefined; IndexError is undefined behaviour; a.extend(a) in C reads through a dangling iterator; a.extend([len(a), len(a)]) evaluates elements late. Out of scope: sort, reverse in C (STC's own)."
  },
  {
   "property": "C39",
   "status": "partial",
   "theorems": [
    "Verif.Containers.C39_update",
    "Verif.Containers.C39_terminates",
    "Verif.Containers.C39_assign_fortran_partial",
    "Verif.Containers.C39_assign_c_partial",
    "Verif.Containers.C39_assign_self_violated",
    "Verif.Containers.C39_assign_union_violated",
    "Verif.Containers.C39_assign_union_fortran_violated",
    "Verif.Containers.C39_assign_inter_violated",
    "Verif.Containers.C39_isdisjoint",
    "Verif.Containers.C39_pop_partial",
    "Verif.Containers.C39_pop_violated",
    "Verif.Containers.C39_discard_partial",
    "Verif.Containers.C39_remove_violated",
    "Verif.Containers.C39_min_max"
   ],
   "note": "Proved: all update forms with all aliasing and iteration orders, termination of the erasing loops, isdisjoint, min/max. Assignments proved unless the target occurs on the right; refuted there: C clears or drops the target before evaluating, both languages overwrite it before the arguments are read. pop of an empty set and remove of a missing element do not raise."
  },
  {
   "property": "C40",
   "status": "partial",
   "theorems": [
    "Verif.Containers.C40_history_partial",
    "Verif.Containers.C40_popitem_partial",
    "Verif.Containers.C40_popitem_violated",
    "Verif.Containers.C40_new_key_violated",
    "Verif.Containers.C40_missing_key_violated"
   ],
   "note": "Histories without popitem, with assignment only to existing keys, and without KeyError refine Python in every storage order; popitem removes a pair but not the last; new keys are undefined; KeyError is undefined behaviour."
  },
  {
   "property": "C41",
   "status": "partial",
   "theorems": [
    "Verif.Containers.C41_partial",
    "Verif.Containers.C41_alias_drop",
    "Verif.Containers.C41_steal_violated",
    "Verif.Containers.C41_drop_twice_violated",
    "Verif.Containers.C41_overwrite_violated"
   ],
   "note": "All properly used histories free every object exactly once; steal leaves its source owning (double free if both are dropped), drop twice frees twice, assignment over an owner leaks."
  },
  {
   "property": "C42",
   "status": "partial",
   "theorems": [
    "Verif.Vectors.C42_partial",
    "Verif.Vectors.C42_elementwise_partial",
    "Verif.Vectors.C42_fortran_partial",
    "Verif.Vectors.C42_lowered_partial",
    "Verif.Vectors.C42_overlap_violated",
    "Verif.Vectors.C42_fusion_violated",
    "Verif.Vectors.C42_fused_broadcast_violated",
    "Verif.Vectors.C42_list_violated",
    "Verif.Vectors.C42_transpose_violated",
    "Verif.Vectors.C42_broadcast_violated",
    "Verif.Vectors.C42_reversed_violated",
    "Verif.Vectors.C42_mixed_violated"
   ],
   "note": "Proved for every block, array contents and sizes, in C and in Fortran, if no statement reads what it has written at an earlier index, statements that may share a loop keep apart, slices without start go up and dimensions that are repeated have the literal size 1; with syntactic conditions that imply this (C42_elementwise_partial, where the lowering is also shown to succeed), and without any of them for Fortran if only scalars are broadcast. Violated for overlapping slices, for fused statements, for lists, for in-place transposition, for operands with one element at run time, for reversed slices, and by an exception when a list assignment stands between two loops. Not modelled: np.cross, concatenation, AugAssign, variables that share memory."
  },
  {
   "property": "C43",
   "status": "partial",
   "theorems": [
    "Verif.Calls.C43_accepted_partial",
    "Verif.Calls.C43_sound_partial",
    "Verif.Calls.C43_kwonly_positional_violated",
    "Verif.Calls.C43_duplicate_violated",
    "Verif.Calls.C43_empty_kwargs_violated",
    "Verif.Calls.C43_starred_violated",
    "Verif.Calls.C43_wrapper_partial",
    "Verif.Calls.C43_invalid_format_violated",
    "Verif.Calls.C43_uninitialised_violated",
    "Verif.Calls.C43_none_violated",
    "Verif.Calls.C43_renamed_violated"
   ],
   "note": "Calls inside translated code: completeness and soundness of argument binding; calls from Python through the wrapper: exact equivalence with Python binding. Exclusions are each shown necessary by a _violated theorem (keyword-only by position, duplicate keyword with **kwargs, empty **kwargs, starred arguments in *args, invalid or incomplete parse formats, None for a defaulted parameter, renamed parameters)."
  },
  {
   "property": "C44",
   "status": "partial",
   "theorems": [
    "Verif.Calls.C44_partial",
    "Verif.Calls.C44_posonly_violated"
   ],
   "note": "Proved when positional-only parameters have no default; C44_posonly_violated shows defaults shifted otherwise."
  },
  {
   "property": "C45",
   "status": "partial",
   "theorems": [
    "Verif.Calls.C45_partial",
    "Verif.Calls.C45_flag_partial",
    "Verif.Calls.C45_same_choice_partial",
    "Verif.Calls.C45_ambiguous_violated",
    "Verif.Calls.C45_default_violated"
   ],
   "note": "Dispatch from Python chooses the first accepting overload for unambiguous values; flags stay below the product of type counts; same choice as at compile time for exact types. Violated for empty lists (C45_ambiguous_violated) and overloads differing on a defaulted parameter (C45_default_violated)."
  },
  {
   "property": "C46",
   "status": "partial",
   "theorems": [
    "Verif.Text.C46_c_literal",
    "Verif.Text.C46_c_plain_literal",
    "Verif.Text.C46_layout_partial",
    "Verif.Text.C46_layout_violated"
   ],
   "note": "The literal is read back for every string. The layout keeps it unless the string has one of six characters that only str.splitlines takes for the end of a line (C46_layout_violated)."
  },
  {
   "property": "C47",
   "status": "partial",
   "theorems": [
    "Verif.Text.C47_fortran_literal",
    "Verif.Text.C47_layout_partial",
    "Verif.Text.C47_layout_violated"
   ],
   "note": "The expression is read back for every string. The layout keeps it with the same exception as C46 (C47_layout_violated)."
  },
  {
   "property": "C48",
   "status": "partial",
   "theorems": [
    "Verif.Text.C48_c_print_partial",
    "Verif.Text.C48_fortran_print_partial",
    "Verif.Text.C48_percent_violated",
    "Verif.Text.C48_singleton_list_violated",
    "Verif.Text.C48_array_separator_violated",
    "Verif.Text.C48_nested_string_violated",
    "Verif.Text.C48_empty_set_violated",
    "Verif.Text.C48_fortran_bool_violated"
   ],
   "note": "C and Fortran print what Python prints, for all nested arguments and separators, outside of the cases shown by the six theorems \u2026_violated (per cent signs, lists of one element, arrays followed by an argument, strings in containers, empty sets, computed Booleans in Fortran). The conversion of numbers is not modelled."
  },
  {
   "property": "C49",
   "status": "partial",
   "theorems": [
    "Verif.Text.C49_wrap_partial",
    "Verif.Text.C49_length",
    "Verif.Text.C49_long_name_violated",
    "Verif.Text.C49_deep_violated",
    "Verif.Text.C49_loop_violated"
   ],
   "note": "Wrapping ends, keeps the statements and limits the length, for lines indented by at most 64 characters without overlong names; violated for a long name at a large indentation, an IndexError at 68 blanks, an endless loop at 65."
  },
  {
   "property": "C50",
   "status": "proved",
   "theorems": [
    "Verif.Text.C50_c_text",
    "Verif.Text.C50_fortran_text",
    "Verif.Text.C50_c_margin",
    "Verif.Text.C50_c_balanced",
    "Verif.Text.C50_python"
   ],
   "note": "The text is preserved for all inputs and all regular expressions; margins in C; Python."
  },
  {
   "property": "C51",
   "status": "partial",
   "theorems": [
    "Verif.Text.C51_flat",
    "Verif.Text.C51_merged",
    "Verif.Text.C51_add",
    "Verif.Text.C51_append",
    "Verif.Text.C51_join",
    "Verif.Text.C51_printed_partial",
    "Verif.Text.C51_printed_violated"
   ],
   "note": "All string operations preserve the text; the printed form is read back if there are no two macros in a row (C51_printed_violated)."
  },
  {
   "property": "C52",
   "status": "partial",
   "theorems": [
    "Verif.Locks.C52_released_partial",
    "Verif.Locks.C52_set_released_partial",
    "Verif.Locks.C52_released_violated",
    "Verif.Locks.C52_one_at_a_time",
    "Verif.Locks.C52_exclusive_partial",
    "Verif.Locks.C52_exclusive_violated",
    "Verif.Locks.C52_no_deadlock_partial",
    "Verif.Locks.C52_set_no_deadlock_partial",
    "Verif.Locks.C52_no_deadlock_violated"
   ],
   "note": "proved for a common working directory (at most one compilation at a time, no deadlock, everything can finish, locks released); exclusive access in different directories for dependencies of depth one; violated when an acquisition fails in __enter__ (locks leak), when linking transitive dependencies from another directory (their locks are not taken), and by opposite import orders in different directories (deadlock)"
  },
  {
   "property": "C53",
   "status": "proved",
   "theorems": [
    "Verif.Build.C53_has_errors",
    "Verif.Build.C53_printed",
    "Verif.Build.C53_raises"
   ],
   "note": "refinement of the registry to the list of messages since the last reset, for all histories"
  },
  {
   "property": "C54",
   "status": "partial",
   "theorems": [
    "Verif.Cache.C54_type_partial",
    "Verif.Cache.C54_equal_partial",
    "Verif.Cache.C54_different_partial",
    "Verif.Cache.C54_same_object_partial",
    "Verif.Cache.C54_type_violated",
    "Verif.Cache.C54_equal_violated",
    "Verif.Cache.C54_same_object_violated",
    "Verif.Cache.C54_self_equal_violated",
    "Verif.Cache.C54_symmetric_violated",
    "Verif.Cache.C54_self_equal_partial"
   ],
   "note": "histories with Final at the outside only; violated for list[Final[int]], for more than 128 tuple types, for Final[np.int64] == itself, and == is not symmetric with unknown types"
  },
  {
   "property": "C55",
   "status": "partial",
   "theorems": [
    "Verif.Loops.C55_reduce_partial",
    "Verif.Loops.C55_sum_value",
    "Verif.Loops.C55_min_value",
    "Verif.Loops.C55_max_value",
    "Verif.Loops.C55_target_clobbered_violated",
    "Verif.Loops.C55_min_empty_violated"
   ],
   "note": "sum/min/max over generators; violated if the target occurs in the generator, and for min/max of an empty generator."
  },
  {
   "property": "C56",
   "status": "partial",
   "theorems": [
    "Verif.Memory.C56_same_paths",
    "Verif.Memory.C56_dynamic_partial",
    "Verif.Memory.C56_first_partial",
    "Verif.Memory.C56_first_fortran_partial",
    "Verif.Memory.C56_distinct_vectors",
    "Verif.Memory.C56_bare_return_violated",
    "Verif.Memory.C56_return_in_loop_violated",
    "Verif.Memory.C56_loop_in_branch_violated",
    "Verif.Memory.C56_same_shape_violated",
    "Verif.Memory.C56_del_violated",
    "Verif.Memory.C56_branch_status_violated"
   ],
   "note": "freed exactly once and no undefined behaviour on all paths in C if no shape is literal (and x is not assigned in a loop inside an if, bare return excluded), and in C and Fortran if the first assignment is at the top level or in all branches of an if at the top level; negations for bare return, return in a loop before the first assignment, loops inside a branch, same literal shape after a conditional first assignment, del, status copied between branches"
  },
  {
   "property": "C57",
   "status": "partial",
   "theorems": [
    "Verif.Slices.C57_tuple_slice_partial",
    "Verif.Slices.C57_tuple_step_violated"
   ],
   "note": "Step 1 with any bounds; other steps are ignored by the code (violated)."
  },
  {
   "property": "C58",
   "status": "partial",
   "theorems": [
    "Verif.Names.C58_intrinsic_captured_violated"
   ],
   "note": "Only the failure is proved."
  },
  {
   "property": "C59",
   "status": "partial",
   "theorems": [
    "Verif.Flow.C59_c_partial",
    "Verif.Flow.C59_fortran_partial",
    "Verif.Flow.C59_elif_violated",
    "Verif.Flow.C59_and_violated",
    "Verif.Flow.C59_fortran_merge_violated"
   ],
   "note": "C: arguments of integer min/max which are not variables or literals are computed in front of the whole statement; proved when those that Python might skip cannot raise, violated otherwise. Fortran: proved for every choice of the processor when what Python might skip cannot raise, violated otherwise."
  },
  {
   "property": "C60",
   "status": "partial",
   "theorems": [
    "Verif.Flow.C60_c_partial",
    "Verif.Flow.C60_test_frozen_violated"
   ],
   "note": "Proved for tests without min/max of compound arguments; with one the test is computed once in front of the loop and never again (C60_test_frozen_violated: an endless loop)."
  },
  {
   "property": "C61",
   "status": "partial",
   "theorems": [
    "Verif.Flow.C61_c_partial",
    "Verif.Flow.C61_fortran_partial"
   ],
   "note": "Whole pipeline (syntactic flattening, pruning, C or Fortran structure) for programs satisfying the conditions of C59 and C60. min/max stands for all expressions which need code in front of the statement; text of expressions is in area Exprs."
  },
  {
   "property": "C62",
   "status": "partial",
   "theorems": [
    "Verif.Ast.C62_substitute_partial",
    "Verif.Ast.C62_shared_violated",
    "Verif.Ast.C62_cyclic_violated"
   ],
   "note": "Exact effect on every node of an acyclic graph with sharing, when no replacement contains an original; otherwise violated for shared nodes (C62_shared_violated, C62_cyclic_violated)."
  },
  {
   "property": "C63",
   "status": "partial",
   "theorems": [
    "Verif.Text.C63_c_comment_partial",
    "Verif.Text.C63_c_docstring_partial",
    "Verif.Text.C63_c_comment_violated",
    "Verif.Text.C63_fortran_comment",
    "Verif.Text.C63_fortran_docstring_partial",
    "Verif.Text.C63_fortran_docstring_violated"
   ],
   "note": "Fortran comments are inert for all texts; C comments and docstrings unless they contain the comment terminator; Fortran docstrings unless a line begins with a dollar sign; violated otherwise."
  },
  {
   "property": "C64",
   "status": "partial",
   "theorems": [
    "Verif.Build.C64_status_partial",
    "Verif.Build.C64_status_explained",
    "Verif.Build.C64_message_partial",
    "Verif.Build.C64_completed",
    "Verif.Build.C64_fresh",
    "Verif.Build.C64_status_violated",
    "Verif.Build.C64_message_violated"
   ],
   "note": "status 0 iff everything asked for was completed, if every PyccelError is reported (all but broadcast) and without --syntax-only; a status other than 0 always comes with a message or a traceback; violated for shapes that do not fit in NumPy functions (status 0, nothing built) and for errors found when the wrapper is printed (the message is lost in a TypeError)"
  },
  {
   "property": "C65",
   "status": "partial",
   "theorems": [
    "Verif.Build.C65_stages_partial",
    "Verif.Build.C65_stages_violated"
   ],
   "note": "all options but --syntax-only; violated for --syntax-only, which does everything"
  },
  {
   "property": "C66",
   "status": "partial",
   "theorems": [
    "Verif.Build.C66_source_kept_partial",
    "Verif.Build.C66_source_kept_violated"
   ],
   "note": "kept with another output folder; violated without --output"
  },
  {
   "property": "C67",
   "status": "partial",
   "theorems": [
    "Verif.Build.C67_parallel_partial",
    "Verif.Build.C67_parallel_violated"
   ],
   "note": "all outcomes but errors that Pyccel reports; violated for these: the other processes wait for ever"
  },
  {
   "property": "C68",
   "status": "partial",
   "theorems": [
    "Verif.Memory.C68_first_partial",
    "Verif.Memory.C68_dynamic_partial",
    "Verif.Memory.C68_first_fortran_partial",
    "Verif.Memory.C68_loop_violated",
    "Verif.Memory.C68_len_violated",
    "Verif.Memory.C68_matrix_fortran_violated"
   ],
   "note": "same conditions; negations for literal shapes in loops, len in loops, square matrices in Fortran"
  },
  {
   "property": "C69",
   "status": "partial",
   "theorems": [
    "Verif.Memory.C69_first_partial",
    "Verif.Memory.C69_dynamic_partial",
    "Verif.Memory.C69_first_fortran_partial",
    "Verif.Memory.C69_function_violated",
    "Verif.Memory.C69_operand_violated",
    "Verif.Memory.C69_branch_violated"
   ],
   "note": "same conditions; negations for x = np.sin(x), x = y + x, x = x + 1 in a branch"
  },
  {
   "property": "C70",
   "status": "partial",
   "theorems": [
    "Verif.Memory.C70_partial",
    "Verif.Memory.C70_violated"
   ],
   "note": "right with at most one temporary array; negation with two"
  },
  {
   "property": "C71",
   "status": "partial",
   "theorems": [
    "Verif.Assigns.C71_partial",
    "Verif.Assigns.C71_scalars_partial",
    "Verif.Assigns.C71_accepted",
    "Verif.Assigns.C71_index_violated",
    "Verif.Assigns.C71_swap_violated",
    "Verif.Assigns.C71_alias_violated",
    "Verif.Assigns.C71_group_violated"
   ],
   "note": "Proved for all nested assignments in which a target that is needed later can be recognised (`Asgs.Good`), and without conditions for scalar variables. Fails for variables needed in indices, for indices that are expressions, for elements that are the same by the values of their indices, and for variables in groups."
  },
  {
   "property": "C72",
   "status": "partial",
   "theorems": [
    "Verif.Assigns.C72_unpack_partial",
    "Verif.Assigns.C72_unpack_violated",
    "Verif.Assigns.C72_rebuild_partial",
    "Verif.Assigns.C72_rebuild_violated"
   ],
   "note": "Proved for unpacking when no target is an element of what is unpacked, and for building a tuple when only the first expression reads it. Fails otherwise."
  },
  {
   "property": "C73",
   "status": "partial",
   "theorems": [
    "Verif.Assigns.C73_partial",
    "Verif.Assigns.C73_violated"
   ],
   "note": "A single target gets the value and other variables keep theirs. Fails for every assignment with several targets that is translated."
  },
  {
   "property": "C74",
   "status": "partial",
   "theorems": [
    "Verif.Wrapper.C74_partial",
    "Verif.Wrapper.C74_numpy_bool_violated",
    "Verif.Wrapper.C74_overflow_violated",
    "Verif.Wrapper.C74_null_violated",
    "Verif.Wrapper.C74_fortran_violated",
    "Verif.Wrapper.C74_surrogate_violated"
   ],
   "note": "Proved for all signatures and values that are `Plain`, which names exactly what is lost: NumPy booleans, integers beyond 64 bits, null characters, surrogates, text beyond ASCII in Fortran. Arrays are not modelled."
  },
  {
   "property": "C75",
   "status": "proved",
   "theorems": [
    "Verif.Wrapper.C75_safe",
    "Verif.Wrapper.C75_history"
   ],
   "note": "For all histories of calls without arrays."
  },
  {
   "property": "C76",
   "status": "partial",
   "theorems": [
    "Verif.Wrapper.C76_count_partial",
    "Verif.Wrapper.C76_scalars_partial",
    "Verif.Wrapper.C76_containers_violated",
    "Verif.Wrapper.C76_error_violated",
    "Verif.Wrapper.C76_set_violated"
   ],
   "note": "The number of lost references is counted exactly for successful calls; zero for scalars and results without sets and dictionaries; negations for container arguments (always), errors (always), sets as results."
  },
  {
   "property": "C77",
   "status": "partial",
   "theorems": [
    "Verif.Wrapper.C77_partial",
    "Verif.Wrapper.C77_total_partial",
    "Verif.Wrapper.C77_operator_partial",
    "Verif.Wrapper.C77_operator_violated"
   ],
   "note": "Exact condition for TypeError and no change; progress if no string has surrogates; negation for operators with a left operand of another type."
  },
  {
   "property": "C78",
   "status": "partial",
   "theorems": [
    "Verif.Wrapper.C78_partial",
    "Verif.Wrapper.C78_twice_violated",
    "Verif.Wrapper.C78_fortran_violated"
   ],
   "note": "Proved in C if no object is passed for two changeable arguments; negations for f(l, l) and for Fortran."
  },
  {
   "property": "C79",
   "status": "partial",
   "theorems": [
    "Verif.Aliases.C79_partial",
    "Verif.Aliases.C79_loop_violated",
    "Verif.Aliases.C79_loop_freed_violated",
    "Verif.Aliases.C79_del_violated",
    "Verif.Aliases.C79_del_argument_violated",
    "Verif.Aliases.C79_argument_violated",
    "Verif.Aliases.C79_return_violated",
    "Verif.Aliases.C79_return_copy_violated"
   ],
   "note": "Proved for all accepted functions without the cases that `clean` names, each with a negation: assignment to an argument, del of shared arrays or arguments, assignment after a return in a branch, assignment and sharing in the same loop."
  },
  {
   "property": "C80",
   "status": "partial",
   "theorems": [
    "Verif.Aliases.C80_partial",
    "Verif.Aliases.C80_freed_partial",
    "Verif.Aliases.C80_base_violated",
    "Verif.Aliases.C80_local_violated"
   ],
   "note": "Results proved for functions that are `clean` and `direct` (in loops and after a return, pointers are only assigned from variables with own arrays); freed memory for all `clean` ones; negations for pointers assigned from pointers in loops."
  },
  {
   "property": "C81",
   "status": "partial",
   "theorems": [
    "Verif.Inline.C81_partial",
    "Verif.Inline.C81_parameter_violated",
    "Verif.Inline.C81_return_violated",
    "Verif.Inline.C81_result_violated",
    "Verif.Inline.C81_argument_violated",
    "Verif.Inline.C81_capture_violated",
    "Verif.Inline.C81_while_violated",
    "Verif.Inline.C81_conditional_violated",
    "Verif.Inline.C81_order_violated",
    "Verif.Inline.C81_last_violated",
    "Verif.Inline.C81_removed_violated",
    "Verif.Inline.C81_element_violated"
   ],
   "note": "Proved for all programs that are `clean`; each exclusion in `clean` has a negation: returned parameters, return before the end, result variable that is also an argument, arguments with effects, captured module variables, calls with statements in conditions of while and in conditional expressions, order of effects."
  },
  {
   "property": "C82",
   "status": "partial",
   "theorems": [
    "Verif.Inline.C82_partial",
    "Verif.Inline.C82_names",
    "Verif.Inline.C82_parameter_violated"
   ],
   "note": "Proved for all programs without assignment to parameters of @inline functions, for which there is a negation."
  },
  {
   "property": "C83",
   "status": "partial",
   "theorems": [
    "Verif.Floats.C83_rounding",
    "Verif.Floats.C83_partial",
    "Verif.Floats.C83_fortran",
    "Verif.Floats.C83_odd_violated",
    "Verif.Floats.C83_range_violated"
   ],
   "note": "Fortran: proved for all numbers that fit into 64 bits. C: all but odd integers between 2**52 and 2**53, for which there is a negation."
  },
  {
   "property": "C84",
   "status": "partial",
   "theorems": [
    "Verif.Floats.C84_partial",
    "Verif.Floats.C84_half_violated",
    "Verif.Floats.C84_product_violated",
    "Verif.Floats.C84_fortran_violated"
   ],
   "note": "Proved in C if the product with 10**n is exact and no half; negations for halves, rounded products and Fortran."
  },
  {
   "property": "C85",
   "status": "partial",
   "theorems": [
    "Verif.Floats.C85_partial",
    "Verif.Floats.C85_integers",
    "Verif.Floats.C85_fortran_partial",
    "Verif.Floats.C85_violated",
    "Verif.Floats.C85_range_violated"
   ],
   "note": "Proved: at most one too large, exactly if the quotient is rounded to an integer; exact for integers. Negations: 1.0 // 0.1, range in Fortran."
  },
  {
   "property": "C86",
   "status": "partial",
   "theorems": [
    "Verif.Floats.C86_partial",
    "Verif.Floats.C86_identity_violated"
   ],
   "note": "Proved for all finite numbers in both languages; signed zeros, infinities and NaN are not modelled; negation of the identity with //."
  },
  {
   "property": "C87",
   "status": "partial",
   "theorems": [
    "Verif.Floats.C87_partial",
    "Verif.Floats.C87_order",
    "Verif.Floats.C87_violated"
   ],
   "note": "Proved for integers of 53 bits; for all integers the order is not reversed; negation for larger ones."
  },
  {
   "property": "C88",
   "status": "partial",
   "theorems": [
    "Verif.Floats.C88_partial",
    "Verif.Floats.C88_violated"
   ],
   "note": "Proved for integers of 53 bits; negation for larger ones."
  },
  {
   "property": "C89",
   "status": "partial",
   "theorems": [
    "Verif.Floats.C89_partial",
    "Verif.Floats.C89_violated",
    "Verif.Floats.C89_negative_violated"
   ],
   "note": "Proved for results of 53 bits; negations for larger results and negative exponents. pow of the C library is taken to be rounded correctly."
  },
  {
   "property": "C90",
   "status": "partial",
   "theorems": [
    "Verif.Floats.C90_partial",
    "Verif.Floats.C90_lists",
    "Verif.Floats.C90_bools"
   ],
   "note": "Proved for all forms in C; Fortran's minval, complex numbers and sets are not modelled."
  },
  {
   "property": "C91",
   "status": "partial",
   "theorems": [
    "Verif.Imports.C91_partial",
    "Verif.Imports.C91_hoisted_violated",
    "Verif.Imports.C91_after_main_violated",
    "Verif.Imports.C91_local_violated",
    "Verif.Imports.C91_same_name_violated",
    "Verif.Imports.C91_extensions_violated"
   ],
   "note": "Proved for all projects in which imports come first, local names are used for one module, and names mean the same file everywhere. Negations for imports after statements, statements after the main block, local imports, reused names and several extension modules."
  },
  {
   "property": "C92",
   "status": "partial",
   "theorems": [
    "Verif.Imports.C92_once",
    "Verif.Imports.C92_partial",
    "Verif.Imports.C92_loaded_partial",
    "Verif.Imports.C92_early_partial",
    "Verif.Imports.C92_early_violated",
    "Verif.Imports.C92_crash_violated",
    "Verif.Imports.C92_alias_violated",
    "Verif.Imports.C92_local_violated"
   ],
   "note": "Proved: nothing is freed twice; everything of plainly imported modules is freed; only modules that have run. Negations: two intermediate results (a variable in use is freed, or IndexError), import with as, local imports."
  },
  {
   "property": "C93",
   "status": "partial",
   "theorems": [
    "Verif.Imports.C93_order",
    "Verif.Imports.C93_error",
    "Verif.Imports.C93_partial",
    "Verif.Imports.C93_flat",
    "Verif.Imports.C93_violated"
   ],
   "note": "Proved: the order found is right; if none is found, directories depend on each other in a circle; flat projects. Negation: circular directories without circular files."
  },
  {
   "property": "C94",
   "status": "partial",
   "theorems": [
    "Verif.Imports.C94_partial",
    "Verif.Imports.C94_circle_violated",
    "Verif.Imports.C94_python_violated"
   ],
   "note": "Proved if there is no circle; with a circle the search never ends (proved for all of them), although Python runs such programs."
  },
  {
   "property": "C95",
   "status": "partial",
   "theorems": [
    "Verif.Imports.C95_partial",
    "Verif.Imports.C95_violated"
   ],
   "note": "Proved if names mean the same file everywhere; negation for relative names."
  },
  {
   "property": "C96",
   "status": "partial",
   "theorems": [
    "Verif.Imports.C96_partial",
    "Verif.Imports.C96_violated"
   ],
   "note": "Proved for names without double or final underscores; negation for others."
  },
  {
   "property": "C97",
   "status": "partial",
   "theorems": [
    "Verif.Lifetimes.C97_partial",
    "Verif.Lifetimes.C97_vars_partial",
    "Verif.Lifetimes.C97_violated_function",
    "Verif.Lifetimes.C97_violated_nested",
    "Verif.Lifetimes.C97_violated_local",
    "Verif.Lifetimes.C97_violated_setter",
    "Verif.Lifetimes.C97_violated_made",
    "Verif.Lifetimes.C97_violated_resize",
    "Verif.Lifetimes.C97_violated_inner",
    "Verif.Lifetimes.C97_violated_python"
   ],
   "note": "Proved for all programs in which only methods store pointers, in attributes of their own object, no objects are inside objects, and attributes of objects read from attributes are not assigned. Negations for each condition. When exceptions are raised is not part of it."
  },
  {
   "property": "C98",
   "status": "partial",
   "theorems": [
    "Verif.Lifetimes.C98_partial",
    "Verif.Lifetimes.C98_end_partial",
    "Verif.Lifetimes.C98_violated_view",
    "Verif.Lifetimes.C98_violated_self",
    "Verif.Lifetimes.C98_violated_getter",
    "Verif.Lifetimes.C98_violated_number",
    "Verif.Lifetimes.C98_violated_replaced"
   ],
   "note": "Proved, with the conditions of C97, for programs that store only numbers and arrays of their own in existing objects. Negations: cycles, a structure lost with each read of an attribute, numbers and old arrays kept (for all lengths of loops)."
  },
  {
   "property": "C99",
   "status": "partial",
   "theorems": [
    "Verif.Layout.C99_fortran_partial",
    "Verif.Layout.C99_c_partial",
    "Verif.Layout.C99_once_partial",
    "Verif.Layout.C99_vectors_partial",
    "Verif.Layout.C99_pointer_violated",
    "Verif.Layout.C99_order_violated"
   ],
   "note": "Proved for indices and bounds in range (others: C13 to C16) in both languages, given that each name has one type; and, with the types that pyccel infers, for programs that give each name an array once, and for programs with one-dimensional arrays. Negations: a name of a matrix that is later set to a matrix of the other order, because the types of pointers are not compared."
  },
  {
   "property": "C100",
   "status": "partial",
   "theorems": [
    "Verif.Layout.C100_same_iff",
    "Verif.Layout.C100_fresh_partial",
    "Verif.Layout.C100_rows_partial",
    "Verif.Layout.C100_violated_step",
    "Verif.Layout.C100_violated_column",
    "Verif.Layout.C100_copied_partial"
   ],
   "note": "Exact condition for any strides; new arrays, rows and ranges of rows, and all results that Fortran copies are right. Negations: slices with a step, columns."
  },
  {
   "property": "C101",
   "status": "partial",
   "theorems": [
    "Verif.Layout.C101_variable_partial",
    "Verif.Layout.C101_list_partial",
    "Verif.Layout.C101_nested_partial",
    "Verif.Layout.C101_violated_ndmin",
    "Verif.Layout.C101_violated_single",
    "Verif.Layout.C101_transpose_partial"
   ],
   "note": "Proved for variables of any rank, order and ndmin, nested lists of any depth, lists of arrays except one-element lists of matrices and ndmin with order F; transposition in all orders. Negations for both exceptions."
  },
  {
   "property": "C102",
   "status": "partial",
   "theorems": [
    "Verif.Layout.C102_fortran_partial",
    "Verif.Layout.C102_violated_vector",
    "Verif.Layout.C102_violated_order",
    "Verif.Layout.C102_violated_mixed",
    "Verif.Layout.C102_c_partial",
    "Verif.Layout.C102_violated_shared"
   ],
   "note": "Fortran: operands of one order; C: any strides, result apart from the operands. Negations: vector times column-major matrix, order='F', mixed orders, overlapping result."
  },
  {
   "property": "C103",
   "status": "partial",
   "theorems": [
    "Verif.Layout.C103_axis_partial",
    "Verif.Layout.C103_violated_keepdims",
    "Verif.Layout.C103_fused_partial",
    "Verif.Layout.C103_violated_fused"
   ],
   "note": "All ranks and sets of axes; keepdims only with non-negative axes. Two statements sharing loops: last axis right. Negations: keepdims with a negative axis, first axis in a shared loop."
  },
  {
   "property": "C104",
   "status": "partial",
   "theorems": [
    "Verif.Layout.C104_c_partial",
    "Verif.Layout.C104_extremum_partial",
    "Verif.Layout.C104_violated_sum",
    "Verif.Layout.C104_violated_amax",
    "Verif.Layout.C104_violated_empty",
    "Verif.Layout.C104_initial_partial",
    "Verif.Layout.C104_violated_factor",
    "Verif.Layout.C104_violated_subtracted"
   ],
   "note": "Target apart from the array (or its first element for extrema); Fortran sums with an initial value not as factors or subtracted. Negations for each."
  },
  {
   "property": "C105",
   "status": "partial",
   "theorems": [
    "Verif.Loops.C105_c_iff",
    "Verif.Loops.C105_fortran_iff",
    "Verif.Loops.C105_break_partial",
    "Verif.Loops.C105_violated_last",
    "Verif.Loops.C105_violated_empty"
   ],
   "note": "Exact condition in C and Fortran: the loop is left by break, or the range is empty and the variable already had the start value. Negations: a loop that ends (last + step), an empty range (start)."
  },
  {
   "property": "C106",
   "status": "partial",
   "theorems": [
    "Verif.Optional.C106_optional_c_partial",
    "Verif.Optional.C106_optional_fortran_partial",
    "Verif.Optional.C106_returns_partial",
    "Verif.Optional.C106_condition_partial",
    "Verif.Optional.C106_split_tests_partial",
    "Verif.Optional.C106_augassign_then_assign_violated",
    "Verif.Optional.C106_augassign_changes_caller_violated",
    "Verif.Optional.C106_augassign_fortran_violated",
    "Verif.Optional.C106_test_in_loop_violated",
    "Verif.Optional.C106_test_below_assignment_violated",
    "Verif.Optional.C106_two_tests_violated",
    "Verif.Optional.C106_elif_violated",
    "Verif.Optional.C106_compare_none_violated",
    "Verif.Optional.C106_or_fortran_violated",
    "Verif.Optional.C106_while_and_merge_fortran_violated",
    "Verif.Optional.C106_nested_test_refused"
   ],
   "note": "Simulation of whole programs (calls, loops, if/elif/else, conditional expressions) in C and Fortran for the programs that obey a decidable discipline: numbers are read only where a test dominates, no test against None below a conditional assignment, loops assign only what was assigned before. Outside it: ten negations (stale copy after +=, caller's variable changed, tests in loops and below assignments, two tests before else, elif conditions computed early, comparison with an absent argument, Fortran evaluation of both operands). Missing: arrays and other types."
  },
  {
   "property": "C107",
   "status": "partial",
   "theorems": [
    "Verif.Optional.C107_fortran_call_partial",
    "Verif.Optional.C107_keywords",
    "Verif.Optional.C107_arguments_partial",
    "Verif.Optional.C107_none_by_position_violated"
   ],
   "note": "Exact condition for Fortran (no None before another positional argument), keyword arguments always, C always. Negation: f(None, 3) in Fortran."
  },
  {
   "property": "C108",
   "status": "partial",
   "theorems": [
    "Verif.Scalars.C108_c_partial",
    "Verif.Scalars.C108_fortran_partial",
    "Verif.Scalars.C108_python_types_partial",
    "Verif.Scalars.C108_python_compiles_partial",
    "Verif.Scalars.C108_operator_types_iff",
    "Verif.Scalars.C108_unary_types_iff",
    "Verif.Scalars.C108_store_partial",
    "Verif.Scalars.C108_violated_promotion",
    "Verif.Scalars.C108_violated_overflow",
    "Verif.Scalars.C108_violated_bool_sum",
    "Verif.Scalars.C108_violated_shift",
    "Verif.Scalars.C108_violated_compile",
    "Verif.Scalars.C108_violated_neg_bool",
    "Verif.Scalars.C108_violated_invert",
    "Verif.Scalars.C108_violated_abs",
    "Verif.Scalars.C108_violated_and",
    "Verif.Scalars.C108_violated_mod",
    "Verif.Scalars.C108_violated_short_circuit"
   ],
   "note": "Whole expressions by induction, in C and Fortran, where pyccel's types agree with NumPy's and no operation overflows its type; exact conditions for the agreement of types per operator; exact condition for compilation in Fortran of expressions of bool and int; sums and products of one NumPy type have NumPy's wrapped value after assignment. Eleven negations (integer promotion before a comparison, overflow, 32-bit sums of truth values, shifts by 64, -2**63 % -1, code that gfortran rejects, -b, ~ and abs of NumPy integers, evaluation of both operands of and). Missing: real and complex operands."
  },
  {
   "property": "C109",
   "status": "partial",
   "theorems": [
    "Verif.Scalars.C109_sized_iff",
    "Verif.Scalars.C109_int_partial",
    "Verif.Scalars.C109_float_iff",
    "Verif.Scalars.C109_violated_int32",
    "Verif.Scalars.C109_violated_float32"
   ],
   "note": "Exact table for all pairs of types (exhaustive). Negations: int32 or int64 with float32 or complex64, float with float32."
  },
  {
   "property": "C110",
   "status": "partial",
   "theorems": [
    "Verif.Infer.C110_partial",
    "Verif.Infer.C110_wide_partial",
    "Verif.Infer.C110_numpy_partial",
    "Verif.Infer.C110_sequences_partial",
    "Verif.Infer.C110_numpy_sequences_partial",
    "Verif.Infer.C110_check_partial",
    "Verif.Infer.C110_check_aug_partial",
    "Verif.Infer.C110_one_type",
    "Verif.Infer.C110_violated_tuple",
    "Verif.Infer.C110_violated_return",
    "Verif.Infer.C110_violated_shorter",
    "Verif.Infer.C110_violated_copy",
    "Verif.Infer.C110_violated_list",
    "Verif.Infer.C110_violated_weak",
    "Verif.Infer.C110_violated_ternary",
    "Verif.Infer.C110_violated_no_return"
   ],
   "note": "Simulation of all programs by induction where every value has the type of its target; the check of pyccel is proved to be enough for all programs on numbers, lists and tuples with one element type, with numbers of Python and 64-bit NumPy types, and with NumPy numbers of any size; an accepted assignment keeps kind and size of the numbers. Eight negations (elements of tuples and lists are not checked, shorter tuples, copied tuples, int and int64 count as equal, ternary, paths without return). Missing: arrays, objects, functions that call each other; real numbers are exact."
  },
  {
   "property": "C111",
   "status": "partial",
   "theorems": [
    "Verif.Stubs.C111_partial",
    "Verif.Stubs.C111_injective_partial",
    "Verif.Stubs.C111_violated_empty_tuple"
   ],
   "note": "Round trip from the printer through the textX grammar (modelled as a parsing expression grammar on characters) and the semantic stage, by mutual induction on types and annotations; injectivity follows. Negation: the empty tuple is printed as tuple[()], which the grammar cannot read. Missing: scalars on the heap; the import lines of the stub are taken as given."
  },
  {
   "property": "C112",
   "status": "partial",
   "theorems": [
    "Verif.Stubs.C112_partial",
    "Verif.Stubs.C112_exact_partial",
    "Verif.Stubs.C112_violated_moved",
    "Verif.Stubs.C112_violated_last",
    "Verif.Stubs.C112_violated_error"
   ],
   "note": "Exact characterisation: the parameter list is preserved if and only if there are no positional-only parameters, no keyword-only parameters or a *args. Negations: the last ordinary parameter becomes keyword-only (for all such functions), or the stub is a syntax error. Missing: defaults of positional-only parameters (C44)."
  },
  {
   "property": "C113",
   "status": "partial",
   "theorems": [
    "Verif.Stubs.C113_partial",
    "Verif.Stubs.C113_violated_dict",
    "Verif.Stubs.C113_violated_order",
    "Verif.Stubs.C113_violated_letter"
   ],
   "note": "Soundness and completeness against an inductive specification of annotations, by induction on the annotation. Negations: unions in dictionaries are zipped, orders are ignored for unions of element types, unknown orders are taken for F. Missing: Final, Annotated, strings inside annotations."
  },
  {
   "property": "C114",
   "status": "partial",
   "theorems": [
    "Verif.Operands.C114_iff_partial",
    "Verif.Operands.C114_value_partial",
    "Verif.Operands.C114_violated_left",
    "Verif.Operands.C114_violated_right",
    "Verif.Operands.C114_violated_bool",
    "Verif.Operands.C114_violated_condition"
   ],
   "note": "Exact characterisation by induction on expressions, with the C grammar of C20: the printed text is read with the right value, for all operations, if and only if np.where is never an operand, the argument of bool or a condition. Negations with numbers. Missing: casts between number types; the other operators (C20)."
  },
  {
   "property": "C115",
   "status": "partial",
   "theorems": [
    "Verif.Operands.C115_iff_partial",
    "Verif.Operands.C115_value_partial",
    "Verif.Operands.C115_violated_sum",
    "Verif.Operands.C115_violated_pow",
    "Verif.Operands.C115_violated_pow_pow",
    "Verif.Operands.C115_violated_matmul",
    "Verif.Operands.C115_violated_arange",
    "Verif.Operands.C115_violated_norm_inverse",
    "Verif.Operands.C115_violated_norm_negative"
   ],
   "note": "Exact characterisation by induction on expressions, with the Fortran grammar of C21: the text is read with the right value, for all operations, if and only if calls that are printed as operators stand where their level is accepted and spliced arguments are tight enough. Negations for np.sum, math.pow, @, np.arange and two norms. Missing: casts between number types; the other operators (C21)."
  },
  {
   "property": "C116",
   "status": "partial",
   "theorems": [
    "Verif.Hoist.C116_iff_partial",
    "Verif.Hoist.C116_atleast_partial",
    "Verif.Hoist.C116_runs",
    "Verif.Hoist.C116_violated_scalar_call",
    "Verif.Hoist.C116_violated_nested_calls",
    "Verif.Hoist.C116_violated_root"
   ],
   "note": "Exact characterisation by induction on expressions: in every run, for every behaviour of the functions, each function is called as often as in Python if and only if no call lies in something that is visited twice (arguments of an array-valued call that is moved, array operators in arguments, the base of ** 0.5); it is never called less often. Negations: y = 1 + f(a * s(n)) calls s twice in both languages; nested array-valued calls and ** 0.5 in C. Missing: indexed calls, inlined functions, methods, tuples."
  },
  {
   "property": "C117",
   "status": "partial",
   "theorems": [
    "Verif.Hoist.C117_partial",
    "Verif.Hoist.C117_violated_moved_call",
    "Verif.Hoist.C117_violated_moved_past_read",
    "Verif.Hoist.C117_violated_moved_operator",
    "Verif.Hoist.C117_violated_operand_order"
   ],
   "note": "Simulation proof for every meaning of the functions and every order of evaluation, for statements without repeated calls in which whatever stays in an operand commutes with what is moved out of later operands and with the other operands. Negations: calls moved before earlier calls and reads, array operators moved before earlier calls, order of operands. Missing: necessity of the second condition; interleaved evaluation of operands."
  },
  {
   "property": "C118",
   "status": "partial",
   "theorems": [
    "Verif.Hoist.C118_iff_partial",
    "Verif.Hoist.C118_violated_nested_calls"
   ],
   "note": "Exact characterisation: printable in Fortran if and only if no array-valued call lies in something that is visited twice. Negation: x = g(f(h(n)))."
  },
  {
   "property": "C119",
   "status": "partial",
   "theorems": [
    "Verif.Fills.C119_c_iff_partial",
    "Verif.Fills.C119_fortran_iff_partial",
    "Verif.Fills.C119_fortran_partial",
    "Verif.Fills.C119_violated_single",
    "Verif.Fills.C119_violated_negative",
    "Verif.Fills.C119_violated_empty",
    "Verif.Fills.C119_violated_operand"
   ],
   "note": "Exact characterisation for C (any number of columns) and for Fortran (one dimension, any elementwise expression around the call). Negations: one element gives stop instead of start; the last element of an integer array is rounded towards zero; no element writes in front of the array in Fortran; 2 * linspace(...) ends with stop in Fortran. Numbers are rational: rounding is not modelled. Missing: complex numbers, the inferred element type."
  },
  {
   "property": "C120",
   "status": "partial",
   "theorems": [
    "Verif.Fills.C120_c_iff_partial",
    "Verif.Fills.C120_fortran_iff_partial",
    "Verif.Fills.C120_partial",
    "Verif.Fills.C120_violated_empty",
    "Verif.Fills.C120_violated_fraction"
   ],
   "note": "Exact characterisation for C and Fortran; true for floating point types and for integers, if the length is not negative (C). Negations: np.arange(5, 2) in C; fractional steps with an integer type. Numbers are rational: rounding is not modelled."
  },
  {
   "property": "C121",
   "status": "partial",
   "theorems": [
    "Verif.Funcs.C121_partial",
    "Verif.Funcs.C121_violated_alias",
    "Verif.Funcs.C121_violated_axisc",
    "Verif.Funcs.C121_violated_broadcast",
    "Verif.Funcs.C121_violated_runtime_one",
    "Verif.Funcs.C121_violated_two"
   ],
   "note": "Proved for every rank, size and choice of axes, with broadcasting, if the result is a third array of NumPy's shape and the dimensions of size one are visible to the compiler. Negations: a = np.cross(a, b); axisc; broadcasting with axis=0; a dimension of size one known only at run time; vectors of two elements. Numbers are rational: rounding is not modelled."
  },
  {
   "property": "C122",
   "status": "partial",
   "theorems": [
    "Verif.Funcs.C122_int_partial",
    "Verif.Funcs.C122_c_iff_partial",
    "Verif.Funcs.C122_fortran_iff_partial",
    "Verif.Funcs.C122_violated_nan"
   ],
   "note": "Exact: right for all integers and, for real numbers, exactly if the number is not NaN. Negative zero is not modelled; complex numbers are not modelled."
  },
  {
   "property": "C123",
   "status": "partial",
   "theorems": [
    "Verif.Funcs.C123_partial",
    "Verif.Funcs.C123_unique_partial",
    "Verif.Funcs.C123_violated_nan"
   ],
   "note": "Proved for all non-empty arrays without NaN in both languages. Negation: arrays with a NaN. Not modelled: the initial argument (fcode.py prints maxval of a complex array for it)."
  },
  {
   "property": "C124",
   "status": "partial",
   "theorems": [
    "Verif.Strings.C124_fortran_iff_partial",
    "Verif.Strings.C124_c_iff_partial",
    "Verif.Strings.C124_violated_blank",
    "Verif.Strings.C124_violated_nul",
    "Verif.Strings.C124_violated_value"
   ],
   "note": "Exact in both languages for all strings. Negations: trailing blanks in Fortran, null characters in C, int(s != t) and (s != t) == True in C."
  },
  {
   "property": "C125",
   "status": "partial",
   "theorems": [
    "Verif.Strings.C125_c_argument_iff_partial",
    "Verif.Strings.C125_fortran_argument_iff_partial",
    "Verif.Strings.C125_result_iff_partial",
    "Verif.Strings.C125_round_trip_iff_partial",
    "Verif.Strings.C125_violated_accent",
    "Verif.Strings.C125_violated_nul"
   ],
   "note": "Exact: C for strings without null characters, Fortran arguments for ASCII strings. Negations: '\u00e9' as a Fortran argument, null characters in C. The wrapper's memory management of these strings is not modelled."
  },
  {
   "property": "C126",
   "status": "partial",
   "theorems": [
    "Verif.Strings.C126_iff_partial",
    "Verif.Strings.C126_violated_copy",
    "Verif.Strings.C126_violated_self",
    "Verif.Strings.C126_violated_branch",
    "Verif.Strings.C126_violated_loop",
    "Verif.Strings.C126_violated_return"
   ],
   "note": "Exact: right if and only if every assignment on the path is harmless and every local variable that is not returned has a value. Negations: t = s with a long string (freed twice), s = str(s) (use after free), assignment in a branch not taken, first assignment in a loop, return through a result variable. Not modelled: strings in containers, assigned arguments, allocation failure; the allocation flags are an input (C68 models how they are computed)."
  },
  {
   "property": "C127",
   "status": "partial",
   "theorems": [
    "Verif.Strings.C127_iff_partial",
    "Verif.Strings.C127_violated"
   ],
   "note": "Exact: right if and only if the string is ASCII. Negation: '\u00e9'."
  },
  {
   "property": "C128",
   "status": "partial",
   "theorems": [
    "Verif.Recursion.C128_iff_partial",
    "Verif.Recursion.C128_violated_mutual",
    "Verif.Recursion.C128_violated_nested",
    "Verif.Recursion.C128_violated_order"
   ],
   "note": "Exact if no @inline function mentions itself: legal if and only if every function that leads to itself does so by a direct call. Negations: mutual recursion, a nested function that calls its host, recursion through an @inline function that stands first in the file. Not modelled: calls through function arguments, several versions of one function, functions of other modules."
  },
  {
   "property": "C129",
   "status": "partial",
   "theorems": [
    "Verif.Recursion.C129_partial",
    "Verif.Recursion.C129_violated"
   ],
   "note": "Proved if no @inline function leads to itself through @inline functions alone. Negation: a recursive @inline function that is @private or stands after its caller. Errors other than this one are not modelled."
  },
  {
   "property": "C130",
   "status": "partial",
   "theorems": [
    "Verif.Complex.C130_c_iff_partial",
    "Verif.Complex.C130_fortran_iff_partial",
    "Verif.Complex.C130_c_floats_iff_partial",
    "Verif.Complex.C130_fortran_reals_partial",
    "Verif.Complex.C130_violated_int",
    "Verif.Complex.C130_violated_inf",
    "Verif.Complex.C130_violated_single",
    "Verif.Complex.C130_violated_sign"
   ],
   "note": "Exact up to the signs of zeros for finite arguments in C and for every first argument in Fortran; exact for two float variables in C (bit by bit) and for two real variables in Fortran. Negations: integers with more than 24 bits and infinite imaginary parts in C, single precision sums in Fortran, the sign of a zero. Not modelled: overflow, strings."
  },
  {
   "property": "C131",
   "status": "partial",
   "theorems": [
    "Verif.Complex.C131_iff_partial",
    "Verif.Complex.C131_violated"
   ],
   "note": "Exact. Negation: a complex argument together with a real one is evaluated twice."
  },
  {
   "property": "C132",
   "status": "partial",
   "theorems": [
    "Verif.Complex.C132_c_iff_partial",
    "Verif.Complex.C132_violated"
   ],
   "note": "Exact up to the signs of zeros for x that is not infinite. Negation: n * 1j loses digits. Not modelled: differences, other operators, overflow."
  },
  {
   "property": "C133",
   "status": "partial",
   "theorems": [
    "Verif.Tests.C133_iff_partial",
    "Verif.Tests.C133_violated_value",
    "Verif.Tests.C133_violated_width",
    "Verif.Tests.C133_violated_call"
   ],
   "note": "Exact, with the types whose numbers are the same. Negations: 1.0 in [1, 2], np.int32 in a list of integers, a call that is dropped. Not modelled: NaN, strings and tuples as elements, how STC and gFTL search, user classes with __contains__."
  },
  {
   "property": "C134",
   "status": "partial",
   "theorems": [
    "Verif.Tests.C134_iff_partial",
    "Verif.Tests.C134_violated_optional",
    "Verif.Tests.C134_violated_types",
    "Verif.Tests.C134_violated_call",
    "Verif.Tests.C134_violated_order"
   ],
   "note": "Exact for the tests that are translated. Negations: b is True for an optional b that is None (undefined behaviour), two absent optional arguments of different types, a call that is dropped, None is x. Not modelled: operands that are arrays or containers."
  },
  {
   "property": "C135",
   "status": "partial",
   "theorems": [
    "Verif.Whole.C135_c_iff_partial",
    "Verif.Whole.C135_fortran_iff_partial",
    "Verif.Whole.C135_violated_long",
    "Verif.Whole.C135_violated_ceil"
   ],
   "note": "Exact in C and in Fortran for arguments for which Python raises nothing. Negations: long integers in C, math.ceil beyond 32 bits in Fortran. Not modelled: truth values as arguments, overflow of exponents."
  },
  {
   "property": "C136",
   "status": "partial",
   "theorems": [
    "Verif.Whole.C136_c_iff_partial",
    "Verif.Whole.C136_fortran_iff_partial",
    "Verif.Whole.C136_violated_floor",
    "Verif.Whole.C136_violated_single",
    "Verif.Whole.C136_violated_abs"
   ],
   "note": "Exact in C and in Fortran, bit by bit. Negations: np.floor of large and infinite numbers and of np.int32 in Fortran, np.abs of long integers in both."
  },
  {
   "property": "C137",
   "status": "partial",
   "theorems": [
    "Verif.Whole.C137_iff_partial",
    "Verif.Whole.C137_violated"
   ],
   "note": "Exact in C and in Fortran. Negation: math.trunc(x) is a floating-point number."
  },
  {
   "property": "C138",
   "status": "partial",
   "theorems": [
    "Verif.Clean.C138_kept_partial",
    "Verif.Clean.C138_all_partial",
    "Verif.Clean.C138_nothing_new",
    "Verif.Clean.C138_violated_link"
   ],
   "note": "Proved for all options but -n together with -p; the negation is a link to a folder, which that call removes. Nothing new ever appears (full). Not modelled: missing permissions, changes by others meanwhile."
  },
  {
   "property": "C139",
   "status": "partial",
   "theorems": [
    "Verif.Clean.C139_outside_partial",
    "Verif.Clean.C139_flat",
    "Verif.Clean.C139_violated"
   ],
   "note": "Proved for folders without symbolic links; with -n for all folders. Negation: a link to the folder of another project."
  },
  {
   "property": "C140",
   "status": "partial",
   "theorems": [
    "Verif.Clean.C140_clean_partial",
    "Verif.Clean.C140_succeeds_iff_partial",
    "Verif.Clean.C140_violated_dangling",
    "Verif.Clean.C140_violated_pipe",
    "Verif.Clean.C140_violated_folder"
   ],
   "note": "Proved for recursive calls in folders without links; the condition for success is exact for folders with files and folders only. Negations: a dangling link, -n -p with a folder. A file (not a folder) named __pyccel__* is not removed and not counted."
  },
  {
   "property": "C141",
   "status": "partial",
   "theorems": [
    "Verif.Params.C141_caller_partial",
    "Verif.Params.C141_values_partial",
    "Verif.Params.C141_violated"
   ],
   "note": "Proved for functions that assign no parameter as a whole, for all ways to share arrays; the values of the variables for different arrays in general. Negation: a = a + 1 changes the caller's array. Not modelled: arrays of different lengths, slices, aliases between local variables (C79)."
  },
  {
   "property": "C142",
   "status": "partial",
   "theorems": [
    "Verif.Params.C142_fortran_partial",
    "Verif.Params.C142_violated_fortran",
    "Verif.Params.C142_violated_rebind"
   ],
   "note": "C: C141_caller_partial covers shared arrays. Fortran: proved if no shared array is written through one of the parameters that share it. Negations: f(x, x) undefined in Fortran; a parameter assigned as a whole changes the other."
  },
  {
   "property": "C143",
   "status": "partial",
   "theorems": [
    "Verif.Iterate.C143_fortran_break",
    "Verif.Iterate.C143_fortran_iff",
    "Verif.Iterate.C143_fortran_ub_iff",
    "Verif.Iterate.C143_same_length_partial",
    "Verif.Iterate.C143_append_partial",
    "Verif.Iterate.C143_violated_append",
    "Verif.Iterate.C143_violated_freed",
    "Verif.Iterate.C143_violated_pop",
    "Verif.Iterate.C143_violated_remove"
   ],
   "note": "Proved: Fortran loops that break; the exact condition for the others; the exact condition for undefined behaviour; C and Fortran for bodies that keep the length; C for bodies that append, relative to Fortran. Negations: appended elements are not visited, appending without room reads freed memory, removing elements reads outside the list. Assumed: the containers of STC and gFTL behave as stated in Model.lean."
  },
  {
   "property": "C144",
   "status": "partial",
   "theorems": [
    "Verif.Iterate.C144_writes_partial",
    "Verif.Iterate.C144_violated",
    "Verif.Iterate.C144_violated_shorter"
   ],
   "note": "Proved for bodies that write elements. Negation: the name is given to another array in the loop."
  },
  {
   "property": "C145",
   "status": "partial",
   "theorems": [
    "Verif.Iterate.C145_fortran_once",
    "Verif.Iterate.C145_fortran_order_iff",
    "Verif.Iterate.C145_fortran_partial",
    "Verif.Iterate.C145_commutes_partial",
    "Verif.Iterate.C145_c_order_iff",
    "Verif.Iterate.C145_violated",
    "Verif.Iterate.C145_violated_break"
   ],
   "note": "Every item is visited once (Fortran in full; C by the assumption on the hash table). The order: exact conditions; bodies for which the order does not matter give Python's result. Negations: {2: 20, 1: 10} in Fortran."
  },
  {
   "property": "C146",
   "status": "partial",
   "theorems": [
    "Verif.Norm.C146_real_partial",
    "Verif.Norm.C146_fortran_partial",
    "Verif.Norm.C146_int_partial",
    "Verif.Norm.C146_int_float_partial",
    "Verif.Norm.C146_frobenius_partial",
    "Verif.Norm.C146_violated_overflow",
    "Verif.Norm.C146_violated_negative",
    "Verif.Norm.C146_violated_matrix"
   ],
   "note": "Exact real arithmetic. Proved for vectors that are not empty, for real numbers (C) and all (Fortran), integers in C under a bound, and the Frobenius norm. Negations: integers of 2^32 or more in C, negative orders of integers in C, order 1 of a matrix. Not modelled: axis, empty vectors."
  },
  {
   "property": "C147",
   "status": "partial",
   "theorems": [
    "Verif.Operators.C147_operator_partial",
    "Verif.Operators.C147_same_partial",
    "Verif.Operators.C147_accepts",
    "Verif.Operators.C147_augmented",
    "Verif.Operators.C147_augmented_iff",
    "Verif.Operators.C147_unsupported",
    "Verif.Operators.C147_violated_same",
    "Verif.Operators.C147_violated_reflected"
   ],
   "note": "Proved for operands of different types, and for equal types unless the class defines the reflected method only. Augmented assignment in full. Negations: a class with __radd__ only; x += y with __radd__ of y is refused. Not modelled: inheritance, NotImplemented."
  },
  {
   "property": "C148",
   "status": "partial",
   "theorems": [
    "Verif.Operators.C148_effect_partial",
    "Verif.Operators.C148_target_partial",
    "Verif.Operators.C148_refused",
    "Verif.Operators.C148_accepted_iff",
    "Verif.Operators.C148_violated_early",
    "Verif.Operators.C148_violated_none"
   ],
   "note": "Proved for methods in which nothing follows a return. Negations: an early return self is dropped; a method without return."
  },
  {
   "property": "C149",
   "status": "partial",
   "theorems": [
    "Verif.Repeats.C149_elements_partial",
    "Verif.Repeats.C149_length_partial",
    "Verif.Repeats.C149_repeat_iff",
    "Verif.Repeats.C149_violated",
    "Verif.Repeats.C149_violated_sum"
   ],
   "note": "Proved if no number of repetitions is negative, for all nestings; exact for a repetition of a variable. Negations: (1, 2) * -1. Not modelled: the target among the operands (C69), inhomogeneous tuples."
  },
  {
   "property": "C150",
   "status": "proved",
   "theorems": [
    "Verif.Link.C150_files_iff",
    "Verif.Link.C150_only_needed",
    "Verif.Link.C150_complete",
    "Verif.Link.C150_condition"
   ],
   "note": "Proved for the objects that pyccel makes (Made: objects without a file need none with one); C150_condition shows that this cannot be dropped."
  },
  {
   "property": "C151",
   "status": "partial",
   "theorems": [
    "Verif.Link.C151_libraries",
    "Verif.Link.C151_links_partial",
    "Verif.Link.C151_duplicates",
    "Verif.Link.C151_violated"
   ],
   "note": "Every library is given once (full); the links are found if no library occurs twice. Negation: --libs blas with a stub that asks for lapack,blas. Not modelled: shared libraries, libraries given as paths."
  },
  {
   "property": "C152",
   "status": "partial",
   "theorems": [
    "Verif.Link.C152_module_iff",
    "Verif.Link.C152_module_partial",
    "Verif.Link.C152_violated",
    "Verif.Link.C152_violated_program"
   ],
   "note": "Proved for modules if the flags of the user do not conflict with those of pyccel; exact condition. Negations: -O0 is overridden by -O3; programs are compiled without the flags of the user."
  },
  {
   "property": "C153",
   "status": "partial",
   "theorems": [
    "Verif.Link.C153_order_iff",
    "Verif.Link.C153_found_partial",
    "Verif.Link.C153_violated"
   ],
   "note": "Proved if no file is in two of the folders. Negation: any order of the folders is possible."
  },
  {
   "property": "C154",
   "status": "partial",
   "theorems": [
    "Verif.Link.C154_fresh_partial",
    "Verif.Link.C154_violated_options",
    "Verif.Link.C154_violated_time"
   ],
   "note": "Proved for histories in which the options and the compiler stay the same and times differ. Negations: other options; an upgrade in the same tick of the clock."
  },
  {
   "property": "C155",
   "status": "partial",
   "theorems": [
    "Verif.Omp.C155_fortran_partial",
    "Verif.Omp.C155_c_partial",
    "Verif.Omp.C155_sequential_partial",
    "Verif.Omp.C155_violated"
   ],
   "note": "Fortran: in full for the model; C: for bodies without vector statements, and with them if the turns are executed one after the other. Negation: a[i, :] = 1 in C, with a schedule that loses an element. Steps are sequentially consistent; the turns are threads. Not modelled: clauses (reduction, private), loops inside the body."
  },
  {
   "property": "C156",
   "status": "partial",
   "theorems": [
    "Verif.Omp.C156_c",
    "Verif.Omp.C156_fortran_iff",
    "Verif.Omp.C156_fortran_partial",
    "Verif.Omp.C156_violated"
   ],
   "note": "C in full; Fortran: exact condition. Negation: single nowait followed by single. Sections and single constructs in one block; nested blocks are separate."
  },
  {
   "property": "C157",
   "status": "partial",
   "theorems": [
    "Verif.Omp.C157_blocks_partial",
    "Verif.Omp.C157_loop_iff",
    "Verif.Omp.C157_critical_iff",
    "Verif.Omp.C157_violated",
    "Verif.Omp.C157_violated_critical"
   ],
   "note": "Proved without masked taskloop and for names of critical sections that do not contain a word for a loop; both conditions are necessary. Negations for both. Not modelled: Fortran; an end that does not match (OpenMP refuses it)."
  },
  {
   "property": "C158",
   "status": "partial",
   "theorems": [
    "Verif.Comments.C158_kept",
    "Verif.Comments.C158_place_partial",
    "Verif.Comments.C158_noElse_partial",
    "Verif.Comments.C158_violated_earlier_else",
    "Verif.Comments.C158_violated_next",
    "Verif.Comments.C158_violated_else_if",
    "Verif.Comments.C158_violated_inner"
   ],
   "note": "No comment is lost or exchanged with another (full). Their places: proved for programs without else and elif, and with them under the conditions of `careful`. Negations: an earlier else in the file; a comment in the statement after an else; a comment between else and if; a comment after an if in an else."
  },
  {
   "property": "C159",
   "status": "partial",
   "theorems": [
    "Verif.Comments.C159_comments_iff",
    "Verif.Comments.C159_comments_partial",
    "Verif.Comments.C159_groups",
    "Verif.Comments.C159_groups_joined",
    "Verif.Comments.C159_violated"
   ],
   "note": "Exact condition. Negation: a docstring with a line that begins with #. Not modelled: nested quotes in f-strings, the joining of lines with &."
  },
  {
   "property": "C160",
   "status": "partial",
   "theorems": [
    "Verif.Globals.Props.C160_partial",
    "Verif.Globals.Props.C160_global",
    "Verif.Globals.Props.C160_violated",
    "Verif.Globals.Props.C160_violated_loops",
    "Verif.Globals.Props.C160_violated_order",
    "Verif.Globals.Props.C160_violated_main"
   ],
   "note": "Proved for programs in which functions assign names of variables of the file only where they are visibly local. In general the compiled program is the Python program with `global` declarations, exactly characterised if the file calls no function itself. Negations: assignment in a function; shared loop counters; dependence on the order of calls; an annotation in the program. Not modelled: types, nested functions, methods, imported variables."
  },
  {
   "property": "C161",
   "status": "partial",
   "theorems": [
    "Verif.Globals.Props.C161_partial",
    "Verif.Globals.Props.C161_violated"
   ],
   "note": "Proved for importing files that assign no imported name, if the functions of the imported file assign none of its variables (C160). Negation: `from m import x` followed by `x = ...` changes the variable of m. Not modelled: functions of the importing file, renamed imports, `import m`."
  },
  {
   "property": "C162",
   "status": "partial",
   "theorems": [
    "Verif.BindC.Props.C162_partial",
    "Verif.BindC.Props.C162_violated_string"
   ],
   "note": "Proved for all signatures and calls, except strings with a default value that are omitted: negation, f() passes the empty string for `s: str = 'abc'`. Not modelled: arrays of rank above 1, strides (C18), instances, parsing of the argument tuple (C43)."
  },
  {
   "property": "C163",
   "status": "partial",
   "theorems": [
    "Verif.BindC.Props.C163_partial",
    "Verif.BindC.Props.C163_violated_order"
   ],
   "note": "Equality in Python's sense proved for all containers of numbers. Negation: the order of the items of a dictionary is lost."
  },
  {
   "property": "C164",
   "status": "partial",
   "theorems": [
    "Verif.BindC.Props.C164_args_partial",
    "Verif.BindC.Props.C164_results_partial",
    "Verif.BindC.Props.C164_violated_list",
    "Verif.BindC.Props.C164_violated_dict"
   ],
   "note": "Exact for arguments: released iff no tuple, list or set is passed. Results: lists and sets are released, dictionaries never. Negations: one block is lost with each call. Not modelled: the C wrapper of functions in C, strings, arrays (C80)."
  },
  {
   "property": "C165",
   "status": "partial",
   "theorems": [
    "Verif.Comps.Props.C165_range_spec",
    "Verif.Comps.Props.C165_list_c_partial",
    "Verif.Comps.Props.C165_list_fortran_partial",
    "Verif.Comps.Props.C165_array_c_partial",
    "Verif.Comps.Props.C165_array_fortran_partial",
    "Verif.Comps.Props.C165_inplace_partial",
    "Verif.Comps.Props.C165_violated_self",
    "Verif.Comps.Props.C165_violated_read",
    "Verif.Comps.Props.C165_violated_inplace",
    "Verif.Comps.Props.C165_violated_bound",
    "Verif.Comps.Props.C165_violated_same_variable"
   ],
   "note": "Proved in C and Fortran for lists and arrays if the variables of the clauses differ, the target does not occur in the comprehension (or an array is only read at or after the position being written), and: in C no variable of a clause occurs in the first iterable, in Fortran a clause has at most one condition. Arrays: exactly if the number of values is the allocated size (C11). Negations for each condition: x = [e for v in x] is empty. Not modelled: other iterables (zip, enumerate: C105), elements that are lists, overflow."
  },
  {
   "property": "C166",
   "status": "partial",
   "theorems": [
    "Verif.Comps.Props.C166_c_partial",
    "Verif.Comps.Props.C166_fortran_partial",
    "Verif.Comps.Props.C166_violated_variable"
   ],
   "note": "Proved for everything but the variables of the clauses; negation: a variable with the same name is overwritten."
  },
  {
   "property": "C167",
   "status": "partial",
   "theorems": [
    "Verif.Returns.Props.C167_partial",
    "Verif.Returns.Props.C167_one_value",
    "Verif.Returns.Props.C167_annotated",
    "Verif.Returns.Props.C167_one_return",
    "Verif.Returns.Props.C167_violated_order",
    "Verif.Returns.Props.C167_violated_twice"
   ],
   "note": "Proved if no result variable that the statement assigns is read by a later value of it; in particular for one value, for an annotated tuple and for functions with one return statement that names no variable twice. Negations: `return b + 1, a` beside `return a, b`; `return x, x` does not compile. Not modelled: tuples in tuples, types."
  },
  {
   "property": "C168",
   "status": "partial",
   "theorems": [
    "Verif.Returns.Props.C168_expression",
    "Verif.Returns.Props.C168_inline_fortran",
    "Verif.Returns.Props.C168_inline_c_partial",
    "Verif.Returns.Props.C168_branch_c",
    "Verif.Returns.Props.C168_violated_branch",
    "Verif.Returns.Props.C168_other_c",
    "Verif.Returns.Props.C168_violated_other",
    "Verif.Returns.Props.C168_max_partial",
    "Verif.Returns.Props.C168_max_c",
    "Verif.Returns.Props.C168_violated_max"
   ],
   "note": "Fortran: proved for all. C: proved for expressions, and for inline functions that end with an assignment to the returned variable or whose last assignment is augmented or uses an array; exact value of the others. Negations: an inline function that ends with if/else, or with an assignment to another variable, and max(e for i in range(n))."
  },
  {
   "property": "C169",
   "status": "partial",
   "theorems": [
    "Verif.Paths.Props.C169_partial",
    "Verif.Paths.Props.C169_violated",
    "Verif.Paths.Props.C169_violated_while"
   ],
   "note": "Proved (equivalence, any number of steps) for code in which no loop has an else block; negations: the else block of every for and while loop is dropped."
  },
  {
   "property": "C170",
   "status": "partial",
   "theorems": [
    "Verif.Paths.Props.C170_partial",
    "Verif.Paths.Props.C170_release_partial",
    "Verif.Paths.Props.C170_violated_release",
    "Verif.Paths.Props.C170_violated_effect",
    "Verif.Paths.Props.C170_violated_handler"
   ],
   "note": "Proved (equivalence) for Fortran and for C with the debug flags; for C with the release flags if no assertion fails and the conditions change nothing. Negations: with the release flags assertions are not checked and their conditions not evaluated; a caller cannot handle the AssertionError. Not modelled: messages, exit statuses."
  },
  {
   "property": "C171",
   "status": "partial",
   "theorems": [
    "Verif.Paths.Props.C171_exact",
    "Verif.Paths.Props.C171_partial",
    "Verif.Paths.Props.C171_violated"
   ],
   "note": "Proved if every path ends with return or none returns a value; exact result otherwise: an arbitrary value where Python gives None. Not modelled: functions with both `return` and `return v`."
  },
  {
   "property": "C172",
   "status": "partial",
   "theorems": [
    "Verif.Nested.Props.C172_fortran_partial",
    "Verif.Nested.Props.C172_c_partial",
    "Verif.Nested.Props.C172_agree",
    "Verif.Nested.Props.C172_violated"
   ],
   "note": "Proved for Fortran, and for C if no nested function leads to itself, when nested functions assign names of outer variables only where they are visibly their own; C and Fortran agree for everything that compiles. Negation: an assignment in a nested function changes the outer variable. Not modelled: functions nested twice, arrays."
  },
  {
   "property": "C173",
   "status": "partial",
   "theorems": [
    "Verif.Nested.Props.C173_partial",
    "Verif.Nested.Props.C173_violated"
   ],
   "note": "Proved for acyclic call graphs; negation: a recursive nested function that uses an outer variable does not compile in C."
  },
  {
   "property": "C174",
   "status": "partial",
   "theorems": [
    "Verif.Instances.Props.C174_compiled_objects_print_partial",
    "Verif.Instances.Props.C174_assignment_copies_violated",
    "Verif.Instances.Props.C174_pointer_constructed_violated",
    "Verif.Instances.Props.C174_name_kept_in_loop_violated",
    "Verif.Instances.Props.C174_own_array_argument_violated",
    "Verif.Instances.Props.C174_self_assignment_violated"
   ],
   "note": "Proved in C and Fortran if each variable either gets new objects or is another name, conditions and loops make objects only for variables that have one, variables that get new objects in loops have no other names, and a constructor's arguments do not read the array that it replaces. Negations for assignment between structures (copied), construction through a pointer, names kept in loops, own arrays as arguments, a = a. Not modelled: objects as arguments, results (C97) or attributes."
  },
  {
   "property": "C175",
   "status": "partial",
   "theorems": [
    "Verif.Instances.Props.C175_compiled_objects_release_partial",
    "Verif.Instances.Props.C175_released_twice_violated",
    "Verif.Instances.Props.C175_first_made_in_loop_violated",
    "Verif.Instances.Props.C175_made_in_branch_violated"
   ],
   "note": "Proved under the same conditions; negations: assignment between structures (double release in C), objects first made in loops (leak in C, error in Fortran) or in branches (C releases memory that was never set)."
  },
  {
   "property": "C176",
   "status": "partial",
   "theorems": [
    "Verif.TypeTests.Props.C176_isinstance_partial",
    "Verif.TypeTests.Props.C176_isinstance_ends",
    "Verif.TypeTests.Props.C176_numpy_scalars_violated",
    "Verif.TypeTests.Props.C176_none_violated"
   ],
   "note": "Proved for all tests that name none of the classes for which the answer is shown to be wrong (booleans of NumPy, np.float64 and float, np.complex128 and complex), and parameters that are not None; the search through base classes ends for every inheritance graph. Negations: each of these classes, and None for an optional parameter. Not modelled: classes such as object or np.number (rejected), dispatch between implementations (C45)."
  },
  {
   "property": "C177",
   "status": "partial",
   "theorems": [
    "Verif.PyOut.Props.C177_no_exception",
    "Verif.PyOut.Props.C177_accepted",
    "Verif.PyOut.Props.C177_dispatch_partial",
    "Verif.PyOut.Props.C177_exact_types_partial",
    "Verif.PyOut.Props.C177_bool_violated",
    "Verif.PyOut.Props.C177_float64_violated",
    "Verif.PyOut.Props.C177_empty_list_violated",
    "Verif.PyOut.Props.C177_no_body_violated"
   ],
   "note": "Proved: no exception in the tests, a body is only run for accepted arguments, and the right body is run if the types of different bodies cannot be confused. Negations: bool for int | bool, np.float64 for float | np.float64, empty lists, arrays that are not contiguous and None for optional arguments (no body is run)."
  },
  {
   "property": "C178",
   "status": "partial",
   "theorems": [
    "Verif.PyOut.Props.C178_module_partial",
    "Verif.PyOut.Props.C178_block_partial",
    "Verif.PyOut.Props.C178_source_partial",
    "Verif.PyOut.Props.C178_dead_branch_violated"
   ],
   "note": "Proved for programs in which every block is empty or contains a statement that is printed, which is shown to hold for sources without conditions known to be false; the reading of indented lines is shown to be unique. Negation: a block whose only statement is an if that is dropped. Not modelled: decorators, annotations, nested functions, classes, the text of statements."
  },
  {
   "property": "C179",
   "status": "partial",
   "theorems": [
    "Verif.PyOut.Props.C179_assign_partial",
    "Verif.PyOut.Props.C179_order_violated"
   ],
   "note": "Proved for new names and for copies between arrays of the same order. Negation: y[:, :] = x with different orders is printed with x.T. Not modelled: shapes that are broadcast."
  },
  {
   "property": "C180",
   "status": "proved",
   "theorems": [
    "Verif.Masks.Props.C180_fortran",
    "Verif.Masks.Props.C180_refused"
   ],
   "note": "Proved for array variables in Fortran (C has no translation and reports an error). Elements are modelled as integers of which only the comparison with 0 matters."
  },
  {
   "property": "C181",
   "status": "partial",
   "theorems": [
    "Verif.Masks.Props.C181_partial",
    "Verif.Masks.Props.C181_members_partial",
    "Verif.Masks.Props.C181_rank_violated"
   ],
   "note": "Proved for arrays with one dimension: indices, their order and the allocated length. Negation: arrays with more dimensions are refused. Reassigning the array itself (a = np.nonzero(a)[0]) is part of C69."
  },
  {
   "property": "C182",
   "status": "partial",
   "theorems": [
    "Verif.Masks.Props.C182_c_partial",
    "Verif.Masks.Props.C182_reads_partial",
    "Verif.Masks.Props.C182_calls_partial",
    "Verif.Masks.Props.C182_calls_iff_partial",
    "Verif.Masks.Props.C182_reads_violated",
    "Verif.Masks.Props.C182_calls_violated"
   ],
   "note": "Proved for expressions without calls that do not read the array; if they read it, an exact condition; the number of calls is shown to be n times that of Python. Negations: x = np.full(3, x[0] + 1), np.full(3, f(0)), np.full(0, f(0)). Not modelled: conversion of the fill value to the element type; Fortran (a scalar assigned to an array, computed once)."
  },
  {
   "property": "C183",
   "status": "partial",
   "theorems": [
    "Verif.Source.C183_partial",
    "Verif.Source.C183_comment_violated",
    "Verif.Source.C183_hash_violated",
    "Verif.Source.C183_oneline_violated",
    "Verif.Source.C183_docstring_violated",
    "Verif.Source.C183_inherited"
   ],
   "note": "Proved for sources whose headers are simple (comments with one #, one colon at the end) and whose other lines do not look like the definition of a method. Negations: comments left of the function, comments with two #, methods on one line, documentation strings that show the definition. Inherited methods make the translation fail. Not modelled: the replacement of type variables in signatures, the text of the signature itself."
  },
  {
   "property": "C184",
   "status": "partial",
   "theorems": [
    "Verif.Source.C184_partial",
    "Verif.Source.C184_chain_partial",
    "Verif.Source.C184_complete_partial",
    "Verif.Source.C184_shadow_violated",
    "Verif.Source.C184_library_violated",
    "Verif.Source.C184_module_violated"
   ],
   "note": "Proved for all chains of calls when names mean the same in all modules involved and do not hide built-in functions. Negations: the user's own max; from numpy import sum as total; a function of another module. Not modelled: variables of the context, functions of the file itself."
  },
  {
   "property": "C185",
   "status": "partial",
   "theorems": [
    "Verif.Dot.C185_c_partial",
    "Verif.Dot.C185_operand",
    "Verif.Dot.C185_fortran",
    "Verif.Dot.C185_augmented_partial",
    "Verif.Dot.C185_plus_iff_partial",
    "Verif.Dot.C185_minus_violated",
    "Verif.Dot.C185_alias_violated",
    "Verif.Dot.C185_type_violated"
   ],
   "note": "Proved for Fortran; in C for assignments to places outside the vectors, and for operands of expressions without restriction. The exact effect of += and -= in C is proved (the product is always added). Negations: x -= a @ b, a[0] = a @ b, an element of an integer array as target. Exact numbers: rounding is not modelled; type conversion is a parameter."
  },
  {
   "property": "C186",
   "status": "partial",
   "theorems": [
    "Verif.Dot.C186_phase_partial",
    "Verif.Dot.C186_phase_real_iff_partial",
    "Verif.Dot.C186_phase_violated",
    "Verif.Dot.C186_polar",
    "Verif.Dot.C186_rect",
    "Verif.Dot.C186_roundtrip",
    "Verif.Dot.C186_sqrt",
    "Verif.Dot.C186_csqrt"
   ],
   "note": "Proved over the real and complex numbers (Mathlib); rounding, overflow (math.sqrt(x*x) does not overflow after the rewriting) and signed zeros are not modelled. Negation: cmath.phase of a negative number of a real type."
  },
  {
   "property": "C187",
   "status": "partial",
   "theorems": [
    "Verif.Finals.C187_partial",
    "Verif.Finals.C187_store_iff",
    "Verif.Finals.C187_whole",
    "Verif.Finals.C187_element_violated",
    "Verif.Finals.C187_call_violated",
    "Verif.Finals.C187_row_violated",
    "Verif.Finals.C187_pointer_violated",
    "Verif.Finals.C187_name",
    "Verif.Finals.C187_fortran_partial",
    "Verif.Finals.C187_local_violated"
   ],
   "note": "Proved for accepted modules whose marked arrays are assigned only as a whole or by slices, passed only to marked parameters, and have one name; for Fortran code that compiles only the last condition is needed for parameters. Negations: an element, a call, a row with a name (both languages), a pointer that is set again (both languages), a local variable. Loops and branches are not modelled."
  },
  {
   "property": "C188",
   "status": "partial",
   "theorems": [
    "Verif.Finals.C188_iff_partial",
    "Verif.Finals.C188_number",
    "Verif.Finals.C188_negative_violated"
   ],
   "note": "Exactly which expressions are accepted is proved; the negation is `b = -a` with a marked array."
  },
  {
   "property": "C189",
   "status": "partial",
   "theorems": [
    "Verif.Session.C189_partial",
    "Verif.Session.C189_here_partial",
    "Verif.Session.C189_path_violated",
    "Verif.Session.C189_other_violated",
    "Verif.Session.C189_failed_violated",
    "Verif.Session.C189_load_violated",
    "Verif.Session.C189_suffix"
   ],
   "note": "Proved for all histories and failures, for the modules that the folders of the calls do not provide (or provide as what is found anyhow). Negations: each successful call leaves the current folder in sys.path, so that later imports find other files; also after errors; the folder __epyccel__ stays if the module cannot be loaded."
  },
  {
   "property": "C190",
   "status": "proved",
   "theorems": [
    "Verif.Session.C190_own",
    "Verif.Session.C190_clean"
   ],
   "note": "Proved. That two processes do not hold the same lock is an assumption about the library filelock. For the language Python the folder must have no library of that name."
  },
  {
   "property": "C191",
   "status": "proved",
   "theorems": [
    "Verif.Session.C191_found",
    "Verif.Session.C191_restored"
   ],
   "note": "Proved, for a search path that is not empty; that a file uses the modules that it used when it was built is assumed."
  },
  {
   "property": "C192",
   "status": "partial",
   "theorems": [
    "Verif.Display.Props.C192_partial",
    "Verif.Display.Props.C192_new_partial",
    "Verif.Display.Props.C192_ndmin_partial",
    "Verif.Display.Props.C192_swap_violated",
    "Verif.Display.Props.C192_rows_violated",
    "Verif.Display.Props.C192_ndmin_violated",
    "Verif.Display.Props.C192_display_violated"
   ],
   "note": "Proved for regular lists of any depth if no element is computed from an element of the target that is written before it (in particular if the target is not read), and for ndmin with an array. Negations: np.array([x[1], x[0]]) assigned to x does not swap elements or rows; with ndmin, members of a list of arrays are lost and lists of numbers are not translated."
  },
  {
   "property": "C193",
   "status": "partial",
   "theorems": [
    "Verif.Literals.C193_int_partial",
    "Verif.Literals.C193_min_violated",
    "Verif.Literals.C193_float_partial",
    "Verif.Literals.C193_float32_partial",
    "Verif.Literals.C193_halfway_violated",
    "Verif.Literals.C193_overflow_violated",
    "Verif.Literals.C193_float32_overflow_violated"
   ],
   "note": "Proved for integers below 2^63, for all decimal numbers that are finite, and for np.float32 if the double is not halfway between two singles. Negations: np.float32(1.0000000596046448) is 1 in Python and the next number in C and Fortran; 1e400 is printed as the name inf; np.float32(1e39) and -9223372036854775808 are not valid in Fortran. Subnormal numbers are left out."
  },
  {
   "property": "C194",
   "status": "partial",
   "theorems": [
    "Verif.Literals.C194_c_partial",
    "Verif.Literals.C194_assign_violated",
    "Verif.Literals.C194_expression_violated",
    "Verif.Literals.C194_nan_partial",
    "Verif.Literals.C194_tests_partial"
   ],
   "note": "Proved for the constants in C and for the tests in both languages. Negations: x = math.inf stores the largest finite number in Fortran, and math.inf in other expressions is printed as a name that is not declared; math.nan is reported as an error."
  },
  {
   "property": "C195",
   "status": "partial",
   "theorems": [
    "Verif.Config.C195_outside_partial",
    "Verif.Config.C195_partial",
    "Verif.Config.C195_violated",
    "Verif.Config.C195_part_violated"
   ],
   "note": "Proved for names of one folder, and for all names that nothing outside of the folder of the configurations is changed. Negations: pyccel config remove . deletes all configurations; remove gnu/STC deletes a part of one."
  },
  {
   "property": "C196",
   "status": "partial",
   "theorems": [
    "Verif.Config.C196_partial",
    "Verif.Config.C196_cli_partial",
    "Verif.Config.C196_dot_violated",
    "Verif.Config.C196_vendor_violated",
    "Verif.Config.C196_nested_violated",
    "Verif.Config.C196_link_violated"
   ],
   "note": "Proved for all histories with names of one folder that are not built-in, if the library can be built and the path has no symbolic links; for the command line if the name has no dot. Negations: names with a dot are not accepted by the command line; names of built-in compilers are never used; nested names block others; with a symbolic link nothing can be registered or removed."
  },
  {
   "property": "C197",
   "status": "partial",
   "theorems": [
    "Verif.Config.C197_others_partial",
    "Verif.Config.C197_repair_partial",
    "Verif.Config.C197_interrupted_violated",
    "Verif.Config.C197_failed_violated"
   ],
   "note": "Proved: other families are not changed at any crash point, and remove followed by register repairs. Negations: an interrupted registration leaves a family that cannot be used or registered; a failed build leaves the family registered."
  },
  {
   "property": "C198",
   "status": "partial",
   "theorems": [
    "Verif.ConfigCheck.C198_usable_partial",
    "Verif.ConfigCheck.C198_accepted_partial",
    "Verif.ConfigCheck.C198_exec_violated",
    "Verif.ConfigCheck.C198_flags_violated",
    "Verif.ConfigCheck.C198_tool_violated",
    "Verif.ConfigCheck.C198_export_violated"
   ],
   "note": "Proved: everything usable is accepted; what is accepted has only C and Fortran, the right outer types, and paths that are absolute and exist. Negations: no compiler; flags that are not strings; flags of tools after the first; exports of registered families are never accepted."
  },
  {
   "property": "C199",
   "status": "partial",
   "theorems": [
    "Verif.Locate.C199_relative_partial",
    "Verif.Locate.C199_script_partial",
    "Verif.Locate.C199_installed_partial",
    "Verif.Locate.C199_sibling_violated",
    "Verif.Locate.C199_package_violated",
    "Verif.Locate.C199_skip_violated",
    "Verif.Locate.C199_clash_violated",
    "Verif.Locate.C199_space_violated",
    "Verif.Locate.C199_init_violated"
   ],
   "note": "Proved: imports with dots in front (exactly, if no folder has a module and a folder of one name); files below the folder of the script in packages with __init__.py; modules of installed packages. Negations: absolute imports in packages are taken as relative; installed packages with a module of the same name; missing packages in the middle are skipped; module and package of one name; folders without __init__.py; packages next to the script are not found."
  },
  {
   "property": "C200",
   "status": "partial",
   "theorems": [
    "Verif.Captured.C200_c_partial",
    "Verif.Captured.C200_fortran_partial",
    "Verif.Captured.C200_fortran_power_violated",
    "Verif.Captured.C200_fortran_operators_violated",
    "Verif.Captured.C200_c_sign_violated"
   ],
   "note": "Proved: C, for the nestings of C20 and no minus sign directly in front of a negative float (one reading, and it is the user's expression with the numbers); Fortran, for the nestings of C21 and no negative float. Negations: Fortran x ** n and a * x, a + x with a negative float; C -x with a negative float."
  },
  {
   "property": "C201",
   "status": "proved",
   "theorems": [
    "Verif.CTypes.C201_declarations",
    "Verif.CTypes.C201_printed"
   ],
   "note": "Proved for all types whose keys and elements of sets are hashable, as in Python; C201_printed: the file is printed if no list, set or dictionary holds an array or a tuple (pyccel reports an error otherwise)."
  },
  {
   "property": "C202",
   "status": "partial",
   "theorems": [
    "Verif.Lambdify.C202_value_partial",
    "Verif.Lambdify.C202_out_partial",
    "Verif.Lambdify.C202_signature",
    "Verif.Lambdify.C202_keyword_violated",
    "Verif.Lambdify.C202_braces_violated",
    "Verif.Lambdify.C202_same_name_violated",
    "Verif.Lambdify.C202_numpy_violated",
    "Verif.Lambdify.C202_no_arguments_violated",
    "Verif.Lambdify.C202_out_name_violated"
   ],
   "note": "Proved if the names of the arguments are different, are Python names and not numpy (nor out with use_out). Negations: symbols named like keywords, names with braces, two symbols of one name, a symbol numpy, a symbol out and no arguments with use_out."
  },
  {
   "property": "C203",
   "status": "partial",
   "theorems": [
    "Verif.Sizes.Props.C203_exact_partial",
    "Verif.Sizes.Props.C203_integers",
    "Verif.Sizes.Props.C203_accepted_partial",
    "Verif.Sizes.Props.C203_ceiling_type",
    "Verif.Sizes.Props.C203_power_of_two_step",
    "Verif.Sizes.Props.C203_step_violated",
    "Verif.Sizes.Props.C203_floor_violated",
    "Verif.Sizes.Props.C203_power_violated",
    "Verif.Sizes.Props.C203_product_violated"
   ],
   "note": "Proved in exact arithmetic when the only negative exponent is -1, for expressions of integers with any rounding, and for steps that are powers of two with IEEE rounding. Negations: range(1, n, 5), range(m // n), range(m // n**2), three independent loops."
  },
  {
   "property": "C204",
   "status": "partial",
   "theorems": [
    "Verif.Symbols.Props.C204_condition_partial",
    "Verif.Symbols.Props.C204_attributes_violated",
    "Verif.Symbols.Props.C204_rounding_violated",
    "Verif.Symbols.Props.C204_size_partial",
    "Verif.Symbols.Props.C204_size_violated"
   ],
   "note": "Proved for conditions and bounds whose variables and attributes have different last names, assuming that what SymPy finds out is right. Negations: a.x == b.x is taken to be true, range(a.x, b.x) is taken to be empty, (a + b) - a == b is taken to be true of floats."
  },
  {
   "property": "C205",
   "status": "partial",
   "theorems": [
    "Verif.ArrayCalls.Props.C205_same_result_partial",
    "Verif.ArrayCalls.Props.C205_left_operand_violated",
    "Verif.ArrayCalls.Props.C205_order_of_calls_violated",
    "Verif.ArrayCalls.Props.C205_and_violated",
    "Verif.ArrayCalls.Props.C205_conditional_violated",
    "Verif.ArrayCalls.Props.C205_twice_violated",
    "Verif.ArrayCalls.Props.C205_nested_conditional_violated",
    "Verif.ArrayCalls.Props.C205_condition_later_violated",
    "Verif.ArrayCalls.Props.C205_elif_violated",
    "Verif.ArrayCalls.Props.C205_arrays_violated",
    "Verif.ArrayCalls.Props.C205_while_violated",
    "Verif.ArrayCalls.Props.C205_moved",
    "Verif.ArrayCalls.Props.C205_moved_rhs"
   ],
   "note": "Proved for programs in which these calls come first in their statements and are not in the test of a while or an elif; all of them are moved before the statement, from left to right and each once, but those in the first branch of a conditional expression that is assigned twice. Negations: a[0] + f(a)[0], g(1) + f(a)[0], c and f(a)[0], y = f(a)[0] if c else 7 (called in any case, and twice), f(a)[0] if g(a)[0] else 7, x = f(a) if c else g(b) for arrays, elif f(a)[0], while 0 < f(a)[0]. Calls whose arguments are calls are not modelled."
  }
 ]
}
