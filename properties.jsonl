{"id": "C01", "title": "Integer floor division in generated code equals Python's //", "statement": "For two integers x and y with y != 0, the value computed by the code pyccel generates for `x // y` (C and Fortran run-time helper) is Python's floor division, i.e. the unique q with q*y <= x < (q+1)*y (mirrored for y<0), whenever the result is representable; the fixed-width (wrap-around) computation agrees with the unbounded one except for the single overflowing pair (INT_MIN, -1).", "quantifier": "all integers x, all non-zero integers y, every machine width", "why_tests_cant": "2^128 operand pairs for int64; sign and boundary combinations interact", "anchors": ["pyccel/stdlib/math/pyc_math_c.h: py_floor_div_*", "pyccel/stdlib/math/pyc_math_f90.F90: pyc_floor_div_*", "pyccel/codegen/printing/ccode.py: CCodePrinter._print_PyccelFloorDiv"]}
{"id": "C02", "title": "Integer modulo in generated code equals Python's %", "statement": "For integers a and b with b != 0, the value generated code computes for `a % b` is Python's modulo: it lies in [0,b) for b>0 and (b,0] for b<0, is congruent to a modulo b, and together with floor division satisfies (a//b)*b + a%b == a.", "quantifier": "all integers a, all non-zero integers b", "why_tests_cant": "infinite operand space with four sign cases", "anchors": ["pyccel/stdlib/math/pyc_math_c.h: pyc_modulo", "pyccel/codegen/printing/ccode.py: CCodePrinter._print_PyccelMod"]}
{"id": "C03", "title": "math.gcd and math.lcm terminate and return the mathematical gcd / lcm", "statement": "math.gcd(a,b) in generated code terminates for every pair of integers and returns the non-negative greatest common divisor; math.lcm(a,b) returns the non-negative least common multiple. (lcm(0,0), which is 0 in Python, must not fault.)", "quantifier": "all pairs of integers, including zeros and negatives", "why_tests_cant": "termination and number-theoretic meaning cannot be sampled; the loop uses an xor swap whose correctness is a bit-level identity", "anchors": ["pyccel/stdlib/math/pyc_math_c.c: pyc_gcd, pyc_lcm", "pyccel/stdlib/math/pyc_math_f90.F90: pyc_gcd_8, pyc_lcm_8"]}
{"id": "C04", "title": "math.factorial returns n!", "statement": "math.factorial(n) in generated code returns n! for every n >= 0 for which n! is representable; for negative n (ValueError in Python) the C version returns 0.", "quantifier": "all integers n", "why_tests_cant": "unbounded n; wrap-around boundary", "anchors": ["pyccel/stdlib/math/pyc_math_c.c: pyc_factorial", "pyccel/stdlib/math/pyc_math_f90.F90: pyc_factorial_8"]}
{"id": "C05", "title": "round(int, ndigits) uses banker's rounding", "statement": "round(i, ndigits) on integers in generated code returns the same integer as Python: i for ndigits >= 0, otherwise the multiple of 10**-ndigits nearest to i, ties going to the even multiple.", "quantifier": "all integers i, all integers ndigits", "why_tests_cant": "ties are a measure-zero family of inputs at every scale", "anchors": ["pyccel/stdlib/math/pyc_math_c.c: ipyc_bankers_round", "pyccel/stdlib/math/pyc_math_f90.F90: pyc_bankers_round_int"]}
{"id": "C06", "title": "`x op= y` means `x = x op y` in generated C", "statement": "For every augmented assignment accepted by pyccel on integers, the value left in x by the generated C statement equals the value Python leaves in x.", "quantifier": "all operators accepted by AugAssign, all integer operand values", "why_tests_cant": "operators whose C meaning differs from Python only on negative operands pass any test with positive data", "anchors": ["pyccel/ast/core.py: AugAssign", "pyccel/codegen/printing/ccode.py: CCodePrinter._print_AugAssign", "pyccel/parser/semantic.py: SemanticParser._visit_AugAssign"]}
{"id": "C07", "title": "True division of integers is real division", "statement": "`a / b` on any mix of bool and integer operands produces in generated C the rational quotient (up to floating-point rounding), never the truncated integer quotient.", "quantifier": "all argument type mixes, all values with non-zero divisor", "why_tests_cant": "type-mix times value space; only non-divisible operand pairs expose it", "anchors": ["pyccel/codegen/printing/ccode.py: CCodePrinter._print_PyccelDiv", "pyccel/codegen/printing/fcode.py: FCodePrinter._print_PyccelDiv"]}
{"id": "C08", "title": "for-range loops in generated C visit exactly Python's range", "statement": "A loop `for i in range(start, stop, step)` compiled to C executes its body exactly once for each element of Python's range(start, stop, step), in order, and terminates, for literal or run-time steps of either sign, provided the body modifies neither the loop variable nor the variables the bounds mention.", "quantifier": "all integers start, stop, all non-zero steps, all loop bodies (state transformers)", "why_tests_cant": "unbounded iteration spaces; direction depends on the run-time sign of step", "anchors": ["pyccel/codegen/printing/ccode.py: CCodePrinter._print_For", "pyccel/ast/builtins.py: PythonRange"]}
{"id": "C09", "title": "Loop bounds are evaluated once", "statement": "In Python the arguments of range() are evaluated once, before the loop; assignments in the body to the variables used in the bounds, or to the loop variable, do not change the sequence of iterations. The generated C loop must behave the same.", "quantifier": "all loop bodies, all bounds", "why_tests_cant": "requires all possible interactions between body and bounds", "anchors": ["pyccel/codegen/printing/ccode.py: CCodePrinter._print_For"]}
{"id": "C10", "title": "for-range loops in generated Fortran visit exactly Python's range", "statement": "A loop over range(start, stop, step) compiled to a Fortran DO loop executes its body exactly once for every element of Python's range, in order, for literal or run-time steps of either sign.", "quantifier": "all integers start, stop, all non-zero steps, all loop bodies", "why_tests_cant": "inclusive versus exclusive upper bound must be adjusted by the sign of the step for every step size", "anchors": ["pyccel/codegen/printing/fcode.py: FCodePrinter._print_PythonRange, _print_For"]}
{"id": "C11", "title": "The array allocated for a comprehension over range() has the number of elements of the range", "statement": "For [expr for i in range(start, stop, step)] (and nested loops whose bounds depend on outer indices) the size pyccel allocates for the result equals the number of times Python evaluates expr.", "quantifier": "all start, stop, all non-zero steps (literal or run-time), any nesting depth", "why_tests_cant": "ceil-division formula over unbounded integers and signs", "anchors": ["pyccel/parser/semantic.py: SemanticParser._visit_FunctionalFor"]}
{"id": "C12", "title": "zip / enumerate / product iterate as in Python", "statement": "Iterating zip(a, b, ...) runs exactly min(len(a), len(b), ...) times with element k of every argument in iteration k; enumerate(a, s) yields s+k together with a[k]; itertools.product visits the tuples in lexicographic order.", "quantifier": "all numbers of arguments, all lengths (literal or run-time)", "why_tests_cant": "length combinations of literal and dynamic sizes are unbounded", "anchors": ["pyccel/ast/builtins.py: PythonZip, PythonEnumerate", "pyccel/parser/semantic.py: SemanticParser._visit_For"]}
{"id": "C13", "title": "Negative indices address from the end", "statement": "An index expression a[i] whose index may be negative is translated to an access at i + len(a) if i < 0 and at i otherwise; for -len <= i < len the element read is the one Python reads, for literal and for run-time i, in C and (with the 0-based lower bound) in Fortran.", "quantifier": "all array lengths, all in-range indices, literal or run-time", "why_tests_cant": "unbounded sizes; literal and run-time paths differ", "anchors": ["pyccel/codegen/printing/ccode.py: CCodePrinter._print_IndexedElement", "pyccel/codegen/printing/fcode.py: FCodePrinter._print_IndexedElement", "pyccel/ast/variable.py: IndexedElement"]}
{"id": "C14", "title": "The length pyccel gives to a slice is Python's", "statement": "For a 1-d object of length n, the shape computed for a[start:stop:step] equals the number of elements Python's slice selects.", "quantifier": "all n, all start/stop (present or absent, in range or out of range), all non-zero steps", "why_tests_cant": "seven-way case split over unbounded integers", "anchors": ["pyccel/ast/variable.py: IndexedElement.__init__"]}
{"id": "C15", "title": "Slices printed in C select Python's elements", "statement": "The start/stop/step triple passed to the C slicing macro for a[start:stop:step] selects the elements (in order) that Python selects.", "quantifier": "all n, all in-range bounds, all supported steps", "why_tests_cant": "as C14, in the target language's slice semantics", "anchors": ["pyccel/codegen/printing/ccode.py: CCodePrinter._new_slice_with_processed_arguments"]}
{"id": "C16", "title": "Slices printed in Fortran select Python's elements", "statement": "The inclusive triplet lower:upper:stride printed for a[start:stop:step] selects exactly the elements (in order) that Python selects.", "quantifier": "all n, all in-range bounds, literal or run-time non-zero steps", "why_tests_cant": "inclusive upper bound needs sign-dependent correction for unbounded values", "anchors": ["pyccel/codegen/printing/fcode.py: FCodePrinter._new_slice_with_processed_arguments"]}
{"id": "C17", "title": "Indexing a slice equals slicing then indexing", "statement": "a[start:stop:step][i] is translated to a single access to a; the element read is the one Python reads.", "quantifier": "all n, start, stop, step, i in range", "why_tests_cant": "composition over unbounded integers", "anchors": ["pyccel/ast/variable.py: IndexedElement.__getitem__"]}
{"id": "C18", "title": "NumPy views passed from Python are addressed correctly", "statement": "When a (possibly strided) NumPy array is passed to a compiled function, element (i_1..i_k) seen by the compiled code is the element NumPy stores at that index, i.e. the base shape / upper bounds / strides computed by the wrapper describe the same memory offsets.", "quantifier": "all ranks, shapes, strides, both orderings", "why_tests_cant": "unbounded rank and stride space; only non-divisible strides expose the defect", "anchors": ["pyccel/stdlib/cwrapper/cwrapper.c: get_strides_and_shape_from_numpy_array"]}
{"id": "C19", "title": "Expressions printed as Python parse back to the same expression", "statement": "The text pyccel prints for an expression when the target language is Python parses, under Python's grammar (precedence, associativity, comparison chaining), to an expression with the same value.", "quantifier": "all finite operator expression trees of every depth", "why_tests_cant": "unboundedly many trees; parenthesisation depends on neighbouring precedences at every node", "anchors": ["pyccel/codegen/printing/pycode.py", "pyccel/ast/operators.py: PyccelOperator._handle_precedence"]}
{"id": "C20", "title": "Expressions printed as C parse back to the same expression", "statement": "The text pyccel prints for an expression in C parses, under C's operator precedence and associativity, to a C expression tree that is the intended translation of the Python tree.", "quantifier": "all finite operator expression trees of every depth", "why_tests_cant": "C's precedence table differs from Python's; only particular nestings expose a missing parenthesis", "anchors": ["pyccel/codegen/printing/ccode.py", "pyccel/ast/operators.py: PyccelOperator._handle_precedence"]}
{"id": "C21", "title": "Expressions printed as Fortran parse back to the same expression", "statement": "The text pyccel prints for an expression in Fortran parses, under Fortran's operator precedence and associativity, to a tree that is the intended translation of the Python tree.", "quantifier": "all finite operator expression trees of every depth, with boolean or numeric operands", "why_tests_cant": ".eqv./.neqv. have the lowest Fortran precedence; only particular nestings expose it", "anchors": ["pyccel/codegen/printing/fcode.py", "pyccel/ast/operators.py: PyccelOperator._handle_precedence"]}
{"id": "C22", "title": "Parenthesis insertion never changes the value", "statement": "Building an operator node inserts parentheses only around operands; stripping them gives back the tree the user wrote, so the value of the expression in Python semantics is unchanged.", "quantifier": "all expression trees", "why_tests_cant": "all trees", "anchors": ["pyccel/ast/operators.py: PyccelOperator._handle_precedence, PyccelAssociativeParenthesis"]}
{"id": "C23", "title": "Shape-arithmetic simplification preserves values", "statement": "PyccelAdd/PyccelMul/PyccelMinus/PyccelDiv/PyccelGt.make_simplified return an expression with the same value as the unsimplified operator applied to the same arguments, under every assignment of the variables.", "quantifier": "all pairs of argument expressions, all environments", "why_tests_cant": "rewrites depend on literal shapes; all environments needed", "anchors": ["pyccel/ast/operators.py: PyccelAdd.make_simplified, PyccelMul.make_simplified, PyccelMinus.make_simplified, PyccelDiv.make_simplified"]}
{"id": "C24", "title": "Shape-arithmetic simplification preserves the static type", "statement": "The simplified expression has the datatype of the unsimplified operator.", "quantifier": "all pairs of argument expressions", "why_tests_cant": "type mixes x literal shapes", "anchors": ["pyccel/ast/operators.py: PyccelMul.make_simplified"]}
{"id": "C25", "title": "Boolean simplification preserves truth value", "statement": "PyccelNot/PyccelAnd/PyccelOr.make_simplified return an expression with the same truth value as not/and/or of the arguments.", "quantifier": "all argument lists, all environments", "why_tests_cant": "arbitrary length lists with literals anywhere", "anchors": ["pyccel/ast/operators.py: PyccelNot, PyccelAnd, PyccelOr"]}
{"id": "C26", "title": "Dead branches are removed without changing behaviour", "statement": "Dropping statically-false sections of an if/elif/else chain and everything after a statically-true one executes the same body as Python would.", "quantifier": "all if-chains, all truth assignments", "why_tests_cant": "unbounded chains", "anchors": ["pyccel/parser/semantic.py: SemanticParser._visit_If", "pyccel/parser/syntactic.py: SyntaxParser._visit_If", "pyccel/codegen/printing/fcode.py: FCodePrinter._print_If"]}
{"id": "C27", "title": "Chained comparisons mean the conjunction of adjacent comparisons", "statement": "a op1 b op2 c ... is translated to an expression with the value of (a op1 b) and (b op2 c) and ..., evaluating each operand at most once, left to right, stopping at the first false comparison.", "quantifier": "all chain lengths, operators, operand expressions (with effects)", "why_tests_cant": "unbounded chains; effects", "anchors": ["pyccel/parser/syntactic.py: SyntaxParser._visit_Compare"]}
{"id": "C28", "title": "Generated names never collide with keywords or existing symbols", "statement": "The name returned by the collision-avoidance of each target language is neither a reserved word of that language nor one of the symbols it was given (case-insensitively for Fortran), and the search always terminates.", "quantifier": "all suggested names, all finite symbol sets", "why_tests_cant": "termination and freshness for every set of existing names", "anchors": ["pyccel/naming/languagenameclashchecker.py", "pyccel/naming/fortrannameclashchecker.py", "pyccel/naming/cnameclashchecker.py", "pyccel/utilities/strings.py: create_incremented_string"]}
{"id": "C29", "title": "A name without a clash is kept", "statement": "If the suggested name (after the documented mangling of dunder/private names) does not clash then it is the name used.", "quantifier": "all names, all symbol sets", "why_tests_cant": "all strings", "anchors": ["pyccel/naming/cnameclashchecker.py", "pyccel/naming/fortrannameclashchecker.py"]}
{"id": "C30", "title": "Distinct Python symbols of a scope get distinct target names", "statement": "After any history of symbol insertions and new-name requests in nested scopes, two different Python symbols visible in a scope have different target-language names, and a symbol's target name never changes.", "quantifier": "all histories of scope operations", "why_tests_cant": "histories", "anchors": ["pyccel/parser/scope.py: Scope.insert_symbol, get_new_name, get_new_incremented_symbol"]}
{"id": "C31", "title": "Scope lookup finds the innermost definition", "statement": "Scope.find(name) returns the object inserted in the innermost enclosing scope that defines name; inner insertions never affect what is found from outer scopes, and looking up is unaffected by unrelated insertions.", "quantifier": "all scope trees and insertion histories", "why_tests_cant": "histories x trees", "anchors": ["pyccel/parser/scope.py: Scope.find, insert_variable"]}
{"id": "C32", "title": "Symbol bookkeeping is a bijection: get_python_name inverts get_expected_name", "statement": "For a symbol inserted in a scope, get_python_name(get_expected_name(s)) == s after any history.", "quantifier": "all histories", "why_tests_cant": "histories", "anchors": ["pyccel/parser/scope.py: Scope.get_expected_name, get_python_name"]}
{"id": "C33", "title": "AST parent links stay consistent", "statement": "After any sequence of node constructions, substitutions and invalidations, a live node lists exactly those live nodes that hold it as an attribute as its users; a node is invalidated only when nothing uses it.", "quantifier": "all histories of AST edits", "why_tests_cant": "histories over shared graphs", "anchors": ["pyccel/ast/basic.py: PyccelAstNode.substitute, invalidate_node, remove_user_node, set_current_user_node"]}
{"id": "C34", "title": "Arithmetic type promotion is NumPy's / Python's", "statement": "The datatype pyccel gives to a binary arithmetic expression on two scalar types is the type NumPy/Python give: promotion is commutative, associative, idempotent, and an upper bound of both operand types.", "quantifier": "all pairs/triples of numeric types", "why_tests_cant": "the full table interacts through associativity for n-ary expressions", "anchors": ["pyccel/ast/datatypes.py", "pyccel/ast/numpytypes.py: NumpyNumericType.__add__"]}
{"id": "C35", "title": "Array type promotion takes the larger rank", "statement": "The type of an elementwise expression on arrays (arithmetic or bitwise) has the maximum of the operand ranks and does not depend on the operand order; a result of rank 2 or more is C-ordered exactly when an operand is.", "quantifier": "all ranks, orders, element types", "why_tests_cant": "all ranks", "anchors": ["pyccel/ast/numpytypes.py: NumpyNDArrayType.__add__, __and__"]}
{"id": "C36", "title": "switch_rank peels exactly the requested number of container levels", "statement": "For a nested homogeneous container type of rank r, switch_rank(k) is the type of what is left after r-k indexings.", "quantifier": "all nestings, all 0 <= k <= r", "why_tests_cant": "unbounded nesting", "anchors": ["pyccel/ast/datatypes.py: HomogeneousContainerType.switch_rank"]}
{"id": "C37", "title": "Broadcasting follows NumPy's rules", "statement": "broadcast(shape1, shape2) yields NumPy's broadcast shape for compatible shapes, is commutative, and rejects statically incompatible shapes.", "quantifier": "all pairs of shapes of any rank", "why_tests_cant": "unbounded rank", "anchors": ["pyccel/ast/operators.py: broadcast"]}
{"id": "C38", "title": "List methods in generated code match Python", "statement": "list.insert(i, x), pop, extend, reverse, and min/max of lists in generated code leave and return exactly what Python's do, in C and Fortran, for every list and index, also when the argument of extend reads or is the list itself.", "quantifier": "all lists, all integer indices, all arguments", "why_tests_cant": "unbounded", "anchors": ["pyccel/stdlib/STC_Extensions/List_extensions.h", "pyccel/stdlib/gFTL_functions/Vector_extensions.inc", "pyccel/codegen/printing/ccode.py: CCodePrinter._print_ListPop", "pyccel/codegen/printing/fcode.py: FCodePrinter._print_ListPop", "pyccel/parser/semantic.py: SemanticParser._build_ListExtend"]}
{"id": "C39", "title": "Set operations in generated code match Python", "statement": "union, intersection, difference, their update forms and operators, isdisjoint, pop, remove, discard, min, max on sets produce Python's result whatever the iteration order of the underlying container, for every aliasing between the target and the operands.", "quantifier": "all sets, all numbers of arguments, all aliasings, all iteration orders", "why_tests_cant": "unbounded, order-dependent mutation during iteration", "anchors": ["pyccel/stdlib/STC_Extensions/Set_extensions.h", "pyccel/stdlib/gFTL_functions/Set_extensions.inc", "pyccel/parser/semantic.py: SemanticParser._build_SetIntersection, _build_SetDifference, _ensure_inferred_type_matches_existing", "pyccel/codegen/printing/ccode.py: CCodePrinter._print_Allocate"]}
{"id": "C40", "title": "Dictionary operations match Python's", "statement": "Any history of d[k], d[k] = v, get, pop, popitem, in and clear on a dictionary returns in generated code what Python returns and leaves the same pairs, or raises where Python raises.", "quantifier": "all dicts, keys, histories, storage orders", "why_tests_cant": "unbounded", "anchors": ["pyccel/stdlib/STC_Extensions/Dict_extensions.h", "pyccel/stdlib/gFTL_functions/Map_extensions.inc"]}
{"id": "C41", "title": "Managed pointers never double free and never leak", "statement": "For any sequence of make / from_ptr / clone / steal / release / drop operations on managed pointers, each allocated object is freed at most once, and if every handle is dropped each object owned by a handle is freed exactly once; an unowned alias never frees.", "quantifier": "all operation histories", "why_tests_cant": "histories", "anchors": ["pyccel/stdlib/STC_Extensions/Managed_memory.h"]}
{"id": "C42", "title": "Vector statements lowered to loops compute NumPy's result", "statement": "A block of whole-array assignments, lowered to (fused) explicit loops, leaves every array with the contents NumPy's statement-by-statement semantics gives.", "quantifier": "all blocks, all array contents and sizes", "why_tests_cant": "aliasing and reads at shifted indices interact with fusion for all sizes", "anchors": ["pyccel/ast/utilities.py: collect_loops, expand_to_loops"]}
{"id": "C43", "title": "Call arguments are bound as Python binds them", "statement": "For a call accepted by Python, the value received by every parameter in generated code is the one Python binds (positional, keyword, default, *args, **kwargs).", "quantifier": "all signatures, all calls", "why_tests_cant": "combinatorial signature x call space", "anchors": ["pyccel/parser/semantic.py: SemanticParser._sort_function_call_args, _handle_function", "pyccel/ast/core.py: FunctionCall", "pyccel/ast/cwrapper.py: PyArg_ParseTupleNode", "pyccel/codegen/wrapper/c_to_python_wrapper.py: _unpack_python_args, _wrap_FunctionDefArgument"]}
{"id": "C44", "title": "Default values belong to the parameters Python gives them to", "statement": "The default attached to each parameter of a translated function is the default Python attaches to it.", "quantifier": "all signatures with positional-only, ordinary and keyword-only parameters", "why_tests_cant": "all signatures", "anchors": ["pyccel/parser/syntactic.py: SyntaxParser._visit_arguments"]}
{"id": "C45", "title": "Overloaded functions dispatch to the implementation whose types match", "statement": "When a function with several type signatures is called from Python, the implementation that runs is the one whose parameter types match the argument types; a call matching none raises TypeError.", "quantifier": "all numbers of parameters and signatures, all argument types", "why_tests_cant": "mixed-radix encoding must be injective for unbounded numbers of types and parameters", "anchors": ["pyccel/codegen/wrapper/c_to_python_wrapper.py: CToPythonWrapper._get_type_check_function, _wrap_Interface"]}
{"id": "C46", "title": "String literals survive printing in C", "statement": "The C string literal printed for a Python string denotes, under C's lexical rules, the same character sequence, also after the generated code has been split into lines and indented.", "quantifier": "all strings", "why_tests_cant": "all strings", "anchors": ["pyccel/codegen/printing/ccode.py: CCodePrinter._print_LiteralString"]}
{"id": "C47", "title": "String literals survive printing in Fortran", "statement": "The Fortran character expression printed for a Python string denotes the same character sequence, also after the generated code has been split into lines and indented.", "quantifier": "all strings", "why_tests_cant": "all strings", "anchors": ["pyccel/codegen/printing/fcode.py: FCodePrinter._print_LiteralString"]}
{"id": "C48", "title": "print() writes what Python's print writes", "statement": "The printf calls (C) and write statements (Fortran) generated for a call of print write exactly the characters that Python writes: the texts of the arguments with the separator between them and the end string after them.", "quantifier": "all lists of arguments (strings, numbers, Booleans, arrays, nested tuples, lists and sets), all separators and end strings", "why_tests_cant": "all strings and unbounded nesting; only some combinations expose it", "anchors": ["pyccel/codegen/printing/ccode.py: CCodePrinter._print_PythonPrint", "pyccel/codegen/printing/fcode.py: FCodePrinter._print_PythonPrint"]}
{"id": "C49", "title": "Fortran line wrapping preserves the program", "statement": "Breaking long Fortran lines with continuation markers terminates, and joining the result by Fortran's free-form continuation rules gives back the original line (up to blanks outside strings between tokens); every produced line respects the length limit when the tokens are short enough.", "quantifier": "all lines of any length", "why_tests_cant": "unbounded line lengths; quote and token positions", "anchors": ["pyccel/codegen/printing/fcode.py: FCodePrinter._wrap_fortran"]}
{"id": "C50", "title": "Indentation only changes leading whitespace", "statement": "Laying out the generated code (C, Fortran, Python) changes nothing but the white space at the beginning of lines. In C every line is indented by four blanks per open block, and blocks that close what they open have no influence on the lines after them; in Python every line is indented by four blanks.", "quantifier": "all sequences of lines", "why_tests_cant": "unbounded", "anchors": ["pyccel/codegen/printing/ccode.py: CCodePrinter.indent_code", "pyccel/codegen/printing/fcode.py: FCodePrinter.indent_code"]}
{"id": "C51", "title": "Flattening C string expressions preserves the text", "statement": "Flattening, joining and concatenating C string expressions (literals and format macros) preserve the string the expression denotes, and the C compiler reads the printed expression as that string.", "quantifier": "all nested expressions", "why_tests_cant": "unbounded nesting", "anchors": ["pyccel/ast/c_concepts.py: CStringExpression"]}
{"id": "C52", "title": "Compilations that run at the same time do not disturb each other", "statement": "Processes that compile and link modules at the same time never work on the same source or object file at once; a process that has ended (normally, by an exception or because it was killed) holds no lock; and the processes cannot block each other for ever. The same holds for FileLockSet, if the locks are taken in a common order.", "quantifier": "all numbers of processes, all dependency graphs, all interleavings, all failing commands, all points at which a process is killed", "why_tests_cant": "schedules and crash points: a test runs a few interleavings", "anchors": ["pyccel/codegen/compiling/basic.py: CompileObj.__enter__, __exit__, acquire_lock, release_lock, extra_modules", "pyccel/codegen/compiling/compilers.py: compile_module, compile_program, compile_shared_library", "pyccel/codegen/compiling/file_locks.py: FileLockSet"]}
{"id": "C53", "title": "Errors are never lost", "statement": "After any history of reports, resets, changes of the current file and of the mode, has_errors (has_warnings) is true iff an error (a warning) was recorded since the last reset; every message since the last reset is printed exactly once and the messages about one file in their order; a report raises an exception iff it is fatal or, in developer mode, an error that is not already being raised.", "quantifier": "all histories of reports", "why_tests_cant": "histories", "anchors": ["pyccel/errors/errors.py: Errors, ErrorInfo, ErrorsMode"]}
{"id": "C54", "title": "Types do not depend on what was compiled before", "statement": "Whatever annotations one process has met, an annotation yields a type that describes what was written; the same annotation yields types that compare equal (and the very same object while few types are in use), an annotation for other values one that compares different, and each type compares equal to itself.", "quantifier": "all histories of annotations in one process, all annotations", "why_tests_cant": "the caches keep 128 results and their keys are compared by a user-defined equality, so the result of a call can depend on any earlier call", "anchors": ["pyccel/ast/datatypes.py: FinalType.get_new, HomogeneousTupleType.get_new, HomogeneousListType.get_new, HomogeneousSetType.get_new, InhomogeneousTupleType.get_new, DictType.get_new, __eq__, __hash__", "pyccel/ast/numpytypes.py: NumpyNumericType.__eq__, NumpyNDArrayType.get_new", "pyccel/utilities/metaclasses.py: Singleton"]}
{"id": "C55", "title": "Reductions over comprehensions equal Python's", "statement": "x = sum/min/max(expr for ...) leaves in x the value Python computes.", "quantifier": "all generators, all expressions (including ones mentioning x)", "why_tests_cant": "unbounded iteration; self-reference of the target", "anchors": ["pyccel/parser/semantic.py: SemanticParser._assign_GeneratorComprehension"]}
{"id": "C56", "title": "Local arrays are freed exactly once and never used when they do not exist", "statement": "In a function, every array that is created by an assignment is freed exactly once, unless it is returned, on every path through the function; no path uses an array that has not been created, or creates one twice.", "quantifier": "all functions built from assignments, if, loops, break, continue, return and del; all paths through them; all shapes at run time", "why_tests_cant": "all programs and all paths; leaks are not observed by tests", "anchors": ["pyccel/parser/semantic.py: SemanticParser._ensure_inferred_type_matches_existing, _assign_lhs_variable, _visit_If, _visit_Return, _garbage_collector", "pyccel/codegen/printing/ccode.py: CCodePrinter._print_Allocate, _print_Deallocate, _print_Return", "pyccel/codegen/printing/fcode.py: FCodePrinter._print_Allocate, _print_Deallocate"]}
{"id": "C57", "title": "Slicing a tuple with elements of different types selects Python's elements", "statement": "t[start:stop:step] on a tuple whose elements have different types is the sub-tuple Python selects.", "quantifier": "all tuple lengths, all literal bounds (in range or not), all literal non-zero steps", "why_tests_cant": "bounds, signs and steps form an unbounded family", "anchors": ["pyccel/parser/semantic.py: SemanticParser._extract_indexed_from_var"]}
{"id": "C58", "title": "User variables never capture intrinsics called by generated Fortran", "statement": "A Python variable is never given, in Fortran, the name of an intrinsic procedure that the generated code calls for Python operators (modulo, merge, size, ...): otherwise the call is an array access to the variable.", "quantifier": "all variable names, all symbol sets", "why_tests_cant": "needs every combination of names and operators", "anchors": ["pyccel/naming/fortrannameclashchecker.py: keywords", "pyccel/codegen/printing/fcode.py: _print_PyccelMod, _print_IfTernaryOperator, _print_PyccelArraySize"]}
{"id": "C59", "title": "Conditions are evaluated only when Python reaches them", "statement": "The condition of an elif, the second operand of and/or, and the branches of a conditional expression are evaluated by the generated code only in executions where Python evaluates them, so that an error they are protected from cannot happen.", "quantifier": "all programs made of assignments, conditionals, loops, break, continue and return; all initial states; all choices a Fortran processor may make", "why_tests_cant": "the programs, the states and the processor's choices are unbounded", "anchors": ["pyccel/codegen/printing/ccode.py: CCodePrinter._print_If, _print_PythonMinMax, _print_CodeBlock", "pyccel/codegen/printing/fcode.py: FCodePrinter._print_IfTernaryOperator, _print_PyccelAnd", "pyccel/parser/semantic.py: SemanticParser._visit_CodeBlock"]}
{"id": "C60", "title": "The test of a while loop is evaluated before every iteration", "statement": "A generated while loop makes exactly the iterations the Python loop makes: its test is computed afresh from the current values before each of them.", "quantifier": "all tests, bodies, initial states, numbers of iterations", "why_tests_cant": "unbounded iterations; the failure is an endless loop", "anchors": ["pyccel/codegen/printing/ccode.py: CCodePrinter._print_While, _print_CodeBlock, _print_PythonMinMax", "pyccel/parser/semantic.py: SemanticParser._visit_While"]}
{"id": "C61", "title": "Structured programs are translated faithfully", "statement": "A program made of assignments, if/elif/else chains, while loops, break, continue and return, translated to C or Fortran, ends in the same way (end of block, return with a value, error, no end) with the same values of all user variables as in Python.", "quantifier": "all programs of this form, all initial states, any number of iterations", "why_tests_cant": "whole-program equivalence over unbounded programs and runs", "anchors": ["pyccel/parser/syntactic.py: SyntaxParser._visit_If", "pyccel/parser/semantic.py: SemanticParser._visit_If, _visit_IfSection, _visit_CodeBlock, _visit_While", "pyccel/codegen/printing/ccode.py: CCodePrinter._print_If, _print_While, _print_CodeBlock, _print_PythonMinMax", "pyccel/codegen/printing/fcode.py: FCodePrinter._print_If, _print_While"]}
{"id": "C62", "title": "Substitution in the AST replaces every occurrence and nothing else", "statement": "PyccelAstNode.substitute(original, replacement) replaces each occurrence of an original node in the tree below the node by its replacement, does not enter excluded nodes, and leaves every other node unchanged.", "quantifier": "all acyclic graphs of nodes (shared nodes included), all sets of originals and replacements", "why_tests_cant": "unbounded graphs with sharing; in-place mutation during traversal", "anchors": ["pyccel/ast/basic.py: PyccelAstNode.substitute"]}
{"id": "C63", "title": "Comments and docstrings have no effect on the generated program", "statement": "A Python comment or docstring becomes a C or Fortran comment that the compiler skips: it never ends early and never turns into a directive.", "quantifier": "all comments and docstring lines", "why_tests_cant": "all strings; only those with a comment terminator or a sentinel expose it", "anchors": ["pyccel/codegen/printing/ccode.py: CCodePrinter._print_Comment, _print_CommentBlock", "pyccel/codegen/printing/fcode.py: FCodePrinter._print_Comment, _print_CommentBlock", "pyccel/parser/syntactic.py: SyntaxParser._visit_CommentLine"]}
{"id": "C64", "title": "The exit status of the command line tells the truth", "statement": "The command `pyccel compile` ends with status 0 iff every stage that was asked for was completed without an error; otherwise the reason is printed.", "quantifier": "all options, all sequences of reports and exceptions in all stages, both modes", "why_tests_cant": "every way in which a stage can fail", "anchors": ["pyccel/commands/console.py: pyccel_command", "pyccel/codegen/pipeline.py: execute_pyccel", "pyccel/codegen/python_wrapper.py: create_shared_library", "pyccel/parser/semantic.py: _visit", "pyccel/ast/operators.py: broadcast"]}
{"id": "C65", "title": "Stage options stop the translation", "statement": "With --syntax-only, --semantic-only, --convert-only, a stub file, or Python as target, no stage after the last one that was asked for is begun.", "quantifier": "all combinations of options, all files", "why_tests_cant": "combinations of options and outcomes of stages", "anchors": ["pyccel/codegen/pipeline.py: execute_pyccel", "pyccel/commands/pyccel_compile.py: setup_pyccel_compile_parser"]}
{"id": "C66", "title": "The source file is not overwritten", "statement": "No translation writes to the Python file it reads: translating to Python without another output folder is refused.", "quantifier": "all files and output folders", "why_tests_cant": "all paths", "anchors": ["pyccel/commands/pyccel_compile.py: pyccel_compile", "pyccel/codegen/pipeline.py: execute_pyccel"]}
{"id": "C67", "title": "A parallel call of epyccel ends on all processes", "statement": "When epyccel is called with a communicator, every process ends: with the module if it was built, with the exception otherwise; no process waits for ever.", "quantifier": "all numbers of processes, all outcomes on the root process", "why_tests_cant": "deadlocks between processes", "anchors": ["pyccel/commands/epyccel.py: epyccel"]}
{"id": "C68", "title": "An array variable has the shape it has in Python at every point", "statement": "At every point of every path through a function an array variable has the shape that it has in Python, and what the program sees as its shape is that shape.", "quantifier": "all functions with reassignments of an array variable, all paths, all shapes", "why_tests_cant": "all programs, paths and shapes", "anchors": ["pyccel/parser/semantic.py: SemanticParser._ensure_inferred_type_matches_existing, _visit_If", "pyccel/ast/variable.py: Variable.set_changeable_shape, process_shape", "pyccel/codegen/printing/fcode.py: FCodePrinter._print_Allocate"]}
{"id": "C69", "title": "Reassigning an array evaluates the right-hand side with the old contents", "statement": "After `x = \u2026` the array variable holds what Python computes, also if the right-hand side reads `x` and the memory of `x` is allocated anew.", "quantifier": "all functions with reassignments of an array variable, all paths", "why_tests_cant": "all programs and paths", "anchors": ["pyccel/parser/semantic.py: SemanticParser._ensure_inferred_type_matches_existing", "pyccel/codegen/printing/ccode.py: CCodePrinter._print_Allocate", "pyccel/codegen/printing/fcode.py: FCodePrinter._print_Allocate"]}
{"id": "C70", "title": "Arrays of a module live as long as the module", "statement": "Arrays that the statements of a module create are freed when the module is freed, and temporary ones when its initialisation ends.", "quantifier": "all lists of arrays, all of which may be temporary", "why_tests_cant": "all modules", "anchors": ["pyccel/parser/semantic.py: SemanticParser._visit_Module"]}
{"id": "C71", "title": "Assignments with several targets happen at once", "statement": "An assignment `t1, ..., tn = e1, ..., en`, where targets are variables, elements and groups of these, leaves every variable and every array as in Python, where all expressions are evaluated before the first target is assigned; or the compiler reports an error.", "quantifier": "all lists of targets and expressions of any depth, all values of variables and arrays", "why_tests_cant": "all programs and states; which elements are the same depends on the values of indices", "anchors": ["pyccel/parser/semantic.py: SemanticParser._visit_Assign", "pyccel/ast/basic.py: PyccelAstNode.get_attribute_nodes, substitute"]}
{"id": "C72", "title": "Tuples are read before they or their targets change", "statement": "Unpacking an array, a list or a tuple into targets, and building a tuple variable anew from expressions, reads the old elements.", "quantifier": "all targets, all expressions, all contents", "why_tests_cant": "all programs and states", "anchors": ["pyccel/parser/semantic.py: SemanticParser._visit_Assign", "pyccel/ast/variable.py: Variable.__getitem__"]}
{"id": "C73", "title": "Chained assignments give every target the value", "statement": "After `x1 = ... = xn = e` every target has the value of `e`.", "quantifier": "all numbers of targets, all values", "why_tests_cant": "all programs and values", "anchors": ["pyccel/parser/syntactic.py: SyntaxParser._visit_Assign", "pyccel/parser/semantic.py: SemanticParser._visit_Assign"]}
{"id": "C74", "title": "Values pass unchanged between Python and compiled functions", "statement": "A compiled function called from Python with arguments of the declared types gets exactly their values, and the caller gets exactly the value the function returns.", "quantifier": "all signatures over booleans, integers, floats, strings, tuples, lists, sets and instances, all values, all functions, both languages", "why_tests_cant": "all values and signatures", "anchors": ["pyccel/codegen/wrapper/c_to_python_wrapper.py: CToPythonWrapper._extract_*_FunctionDefArgument", "pyccel/codegen/wrapper/c_to_python_wrapper.py: CToPythonWrapper._extract_*_FunctionDefResult", "pyccel/stdlib/cwrapper/cwrapper.c", "pyccel/ast/cwrapper.py: py_to_c_registry, c_to_py_registry"]}
{"id": "C75", "title": "A call from Python releases no object that is in use", "statement": "If the reference counts of all Python objects are at least the number of references to them before a call of a compiled function (on scalars, strings, tuples, lists, sets and instances), they are so after it, also for the result or exception, whether the call succeeds or not, for any history of calls.", "quantifier": "all heaps, signatures, arguments (also the same object several times), functions and histories of calls", "why_tests_cant": "all histories and object graphs", "anchors": ["pyccel/codegen/wrapper/c_to_python_wrapper.py: CToPythonWrapper._wrap_FunctionDef", "pyccel/codegen/wrapper/c_to_python_wrapper.py: CToPythonWrapper._extract_HomogeneousListType_FunctionDefArgument", "pyccel/codegen/wrapper/c_to_python_wrapper.py: CToPythonWrapper._extract_HomogeneousListType_FunctionDefResult", "pyccel/codegen/printing/cwrappercode.py: CWrapperCodePrinter"]}
{"id": "C76", "title": "A call from Python leaks nothing", "statement": "If the reference counts are exact before a call of a compiled function, they are exact after it: nothing remains that nobody can release.", "quantifier": "all heaps, signatures, arguments and functions", "why_tests_cant": "all object graphs; a leak is not visible in results", "anchors": ["pyccel/codegen/wrapper/c_to_python_wrapper.py: CToPythonWrapper._wrap_FunctionDef", "pyccel/codegen/wrapper/c_to_python_wrapper.py: CToPythonWrapper._get_check_function_call", "pyccel/codegen/wrapper/c_to_python_wrapper.py: CToPythonWrapper._extract_HomogeneousSetType_FunctionDefResult", "pyccel/codegen/wrapper/c_to_python_wrapper.py: CToPythonWrapper._extract_DictType_FunctionDefResult"]}
{"id": "C77", "title": "A call with wrong types raises TypeError and changes nothing", "statement": "A call from Python ends with a TypeError exactly if some argument (or operand of an operator) does not have the declared type, and then nothing has changed and the compiled function has not run; it never crashes.", "quantifier": "all signatures, all argument objects, all operands", "why_tests_cant": "all objects of all types", "anchors": ["pyccel/codegen/wrapper/c_to_python_wrapper.py: CToPythonWrapper._get_type_check_condition", "pyccel/codegen/wrapper/c_to_python_wrapper.py: CToPythonWrapper._get_untranslated_result", "pyccel/codegen/wrapper/c_to_python_wrapper.py: CToPythonWrapper._wrap_FunctionDef", "pyccel/codegen/printing/cwrappercode.py: CWrapperCodePrinter._print_PyClassDef"]}
{"id": "C78", "title": "Changes of list and set arguments are visible to the caller", "statement": "After a call of a compiled function from Python, a list or set passed as argument has the contents the function gave it, and nothing else has changed.", "quantifier": "all signatures, lists, sets, functions, also the same object for several arguments", "why_tests_cant": "all contents and aliasing patterns", "anchors": ["pyccel/codegen/wrapper/c_to_python_wrapper.py: CToPythonWrapper._extract_HomogeneousListType_FunctionDefArgument", "pyccel/codegen/wrapper/c_to_python_wrapper.py: CToPythonWrapper._extract_HomogeneousSetType_FunctionDefArgument"]}
{"id": "C79", "title": "Arrays shared by several variables behave as in Python", "statement": "In a compiled function with array variables that share data by p = y or p = y[...], every variable sees the elements that it sees in Python after any sequence of assignments, changes of contents, del, branches, loops and returns; memory is not used after it was freed and not freed twice; the caller's arrays end with the contents they have in Python.", "quantifier": "all functions over array variables that the compiler accepts, all expressions, all contents and shapes, all arguments (also overlapping ones), all executions, both languages", "why_tests_cant": "all programs and executions; use after free may go unnoticed", "anchors": ["pyccel/parser/semantic.py: SemanticParser._check_pointer_targets", "pyccel/parser/semantic.py: SemanticParser._indicate_pointer_target", "pyccel/parser/semantic.py: SemanticParser._assign_lhs_variable", "pyccel/parser/semantic.py: SemanticParser._ensure_inferred_type_matches_existing", "pyccel/parser/semantic.py: SemanticParser._ensure_target", "pyccel/parser/semantic.py: SemanticParser._visit_Del", "pyccel/codegen/printing/ccode.py: CCodePrinter._print_Deallocate, _print_AliasAssign", "pyccel/codegen/printing/fcode.py: FCodePrinter._print_Allocate, _print_Deallocate, _print_AliasAssign"]}
{"id": "C80", "title": "Returned arrays outlive the call and nothing else does", "statement": "The array that a compiled function returns can be read after the call, shares its memory with the same argument as in Python (which the wrapper keeps alive) or has its own; all other memory that the call allocated is freed.", "quantifier": "all accepted functions that return an array, all arguments, all executions, both languages", "why_tests_cant": "all programs and executions; lifetimes are not visible in results", "anchors": ["pyccel/parser/semantic.py: SemanticParser._check_pointer_targets", "pyccel/parser/semantic.py: SemanticParser._garbage_collector", "pyccel/parser/semantic.py: SemanticParser._visit_FunctionDef", "pyccel/parser/semantic.py: SemanticParser._visit_Return", "pyccel/codegen/wrapper/c_to_python_wrapper.py: CToPythonWrapper.connect_pointer_targets"]}
{"id": "C81", "title": "Calls of functions marked with @inline do the same as in Python", "statement": "In a compiled function that calls functions decorated with @inline, alone, in expressions or in each other, the variables, array elements and the sequence of calls of other functions are the same as in Python, where the decorator has no meaning.", "quantifier": "all programs with @inline functions that the compiler accepts, all nestings of calls, all operators and library functions, all executions", "why_tests_cant": "programs and executions are unbounded; tests call small functions with distinct names and plain arguments", "anchors": ["pyccel/parser/semantic.py: SemanticParser._visit_InlineFunctionCall", "pyccel/parser/semantic.py: SemanticParser._visit_Return", "pyccel/parser/semantic.py: SemanticParser._visit_CodeBlock", "pyccel/parser/semantic.py: SemanticParser._handle_function", "pyccel/parser/syntactic.py: SyntaxParser._visit_FunctionDef, _visit_Return", "pyccel/parser/scope.py: Scope.get_new_name"]}
{"id": "C82", "title": "A call of an @inline function changes no variable of the caller", "statement": "The body of a function decorated with @inline that is put in the place of a call gets its own variables: no variable of the caller or its module changes, other than the one the result is assigned to.", "quantifier": "all programs with @inline functions that the compiler accepts, all names, all nestings, all executions", "why_tests_cant": "all combinations of names and nestings of calls", "anchors": ["pyccel/parser/semantic.py: SemanticParser._visit_InlineFunctionCall", "pyccel/parser/scope.py: Scope.get_new_name, symbol_in_use"]}
{"id": "C83", "title": "round(x) of a float is Python's", "statement": "In compiled code round(x) of a float gives the nearest integer, the even one of two.", "quantifier": "all floating-point numbers, both languages", "why_tests_cant": "all numbers; the errors are at single numbers that tests do not try", "anchors": ["pyccel/codegen/printing/ccode.py: CCodePrinter._print_PythonRound", "pyccel/codegen/printing/fcode.py: FCodePrinter._print_PythonRound", "pyccel/stdlib/math/pyc_math_c.c: fpyc_bankers_round", "pyccel/stdlib/math/pyc_math_f90.F90: pyc_bankers_round_float"]}
{"id": "C84", "title": "round(x, n) of a float is Python's", "statement": "In compiled code round(x, n) gives the float nearest to the number with n decimal places that is nearest to x.", "quantifier": "all floating-point numbers and numbers of digits, both languages", "why_tests_cant": "all numbers; rounding errors of products depend on single bits", "anchors": ["pyccel/codegen/printing/ccode.py: CCodePrinter._print_PythonRound", "pyccel/codegen/printing/fcode.py: FCodePrinter._print_PythonRound", "pyccel/stdlib/math/pyc_math_c.c: fpyc_bankers_round", "pyccel/stdlib/math/pyc_math_f90.F90: pyc_bankers_round_float"]}
{"id": "C85", "title": "a // b of floats is Python's", "statement": "In compiled code a // b, if one of the operands is a float, is the largest integer that is not above the quotient.", "quantifier": "all floating-point numbers, divisor not zero, both languages", "why_tests_cant": "all pairs of numbers; wrong where the quotient is rounded to an integer", "anchors": ["pyccel/codegen/printing/ccode.py: CCodePrinter._print_PyccelFloorDiv", "pyccel/codegen/printing/fcode.py: FCodePrinter._print_PyccelFloorDiv"]}
{"id": "C86", "title": "a % b of floats is Python's", "statement": "In compiled code a % b of floats is what is left over after a // b, rounded to the nearest float, with the sign of b.", "quantifier": "all floating-point numbers, divisor not zero, both languages", "why_tests_cant": "all pairs of numbers", "anchors": ["pyccel/codegen/printing/ccode.py: CCodePrinter._print_PyccelMod", "pyccel/codegen/printing/fcode.py: FCodePrinter._print_PyccelMod", "pyccel/stdlib/math/pyc_math_c.h: pyc_fmodulo"]}
{"id": "C87", "title": "Integers and floats are compared by value", "statement": "In compiled code the comparison of an integer with a float has the result that it has in Python, where the values are compared exactly.", "quantifier": "all 64-bit integers, all floating-point numbers, all six comparisons, both languages", "why_tests_cant": "all pairs of numbers", "anchors": ["pyccel/codegen/printing/ccode.py: CCodePrinter._print_PyccelEq, _print_PyccelLt", "pyccel/codegen/printing/fcode.py: FCodePrinter._print_PyccelEq, _print_PyccelLt"]}
{"id": "C88", "title": "a / b of integers is the nearest float", "statement": "In compiled code a / b of integers is the floating-point number nearest to the quotient, as in Python.", "quantifier": "all 64-bit integers, divisor not zero, both languages", "why_tests_cant": "all pairs of numbers", "anchors": ["pyccel/codegen/printing/ccode.py: CCodePrinter._print_PyccelDiv", "pyccel/codegen/printing/fcode.py: FCodePrinter._print_PyccelDiv"]}
{"id": "C89", "title": "a ** b of integers is Python's", "statement": "In compiled C code a ** b of integers is the exact power, if it fits into 64 bits.", "quantifier": "all integers and exponents", "why_tests_cant": "all pairs of numbers; tests use small powers", "anchors": ["pyccel/codegen/printing/ccode.py: CCodePrinter._print_PyccelPow", "pyccel/parser/semantic.py: SemanticParser._visit_PyccelPow"]}
{"id": "C90", "title": "min and max choose the same value as Python", "statement": "In compiled C code min and max of several values or of a list return the value that Python returns: the first of those that no later one is less (greater) than, also if some values cannot be ordered (NaN).", "quantifier": "all numbers of values, all values, any order relation", "why_tests_cant": "all lists of values", "anchors": ["pyccel/codegen/printing/ccode.py: CCodePrinter._print_PythonMinMax", "pyccel/stdlib/STC_Extensions/Common_extensions.h", "pyccel/stdlib/STC_Extensions/List_extensions.h"]}
{"id": "C91", "title": "Modules run once, at the same moment as in Python", "statement": "If a compiled program consists of several files, the statements at the top of each module run once, when it is imported first, so that the program does what it does in Python.", "quantifier": "all projects: all sets of files with imports of each other, at the top or in functions, all statements, all initial states", "why_tests_cant": "all programs and all graphs of imports; tests have small ones", "anchors": ["pyccel/parser/semantic.py: SemanticParser._visit_Module", "pyccel/parser/semantic.py: SemanticParser._visit_Import", "pyccel/parser/semantic.py: SemanticParser._visit_Program", "pyccel/codegen/compiling/compilers.py: Compiler.compile_shared_library"]}
{"id": "C92", "title": "Memory of module variables is freed once, at the end", "statement": "Memory of variables at the top of files is freed once, not before the program ends if the program has access to it, and only for modules that were initialised.", "quantifier": "all projects and all executions", "why_tests_cant": "all graphs of imports and all executions; a double free or leak is not visible in results", "anchors": ["pyccel/parser/semantic.py: SemanticParser._visit_Module", "pyccel/parser/semantic.py: SemanticParser._garbage_collector"]}
{"id": "C93", "title": "Files are built in an order of their dependencies", "statement": "pyccel-make builds each file once, after the files that it imports, and refuses only circular dependencies.", "quantifier": "all projects with any tree of directories and dependencies", "why_tests_cant": "all trees and graphs", "anchors": ["pyccel/codegen/compiling/project.py: DirTarget, BuildProject", "pyccel/codegen/make_pipeline.py: execute_pyccel_make"]}
{"id": "C94", "title": "The search for imported files ends", "statement": "The search for the files of a program ends, also if files import each other.", "quantifier": "all projects", "why_tests_cant": "all graphs of imports; non-termination", "anchors": ["pyccel/parser/parser.py: Parser.parse, Parser.parse_sons"]}
{"id": "C95", "title": "An import refers to the file that Python loads", "statement": "Names imported from a module refer to the file that Python loads for the import statement in that file.", "quantifier": "all projects, all directories, relative names", "why_tests_cant": "all projects", "anchors": ["pyccel/parser/parser.py: Parser.parse_sons", "pyccel/parser/semantic.py: SemanticParser._visit_Import"]}
{"id": "C96", "title": "Build targets have different names", "statement": "Different files of a project get different target names in the generated build files.", "quantifier": "all sets of files", "why_tests_cant": "all names", "anchors": ["pyccel/codegen/make_pipeline.py: execute_pyccel_make"]}
{"id": "C97", "title": "Objects of compiled classes never touch freed memory", "statement": "A Python program which uses compiled classes never reads, writes or frees memory that has been freed, and prints what it prints in plain Python, whatever it creates, shares, deletes and in which order.", "quantifier": "all compiled files (classes, functions, methods) and all Python programs, of any length, that use them", "why_tests_cant": "all histories of creating, sharing and deleting objects; a use of freed memory often goes unnoticed", "anchors": ["pyccel/codegen/wrapper/c_to_python_wrapper.py: CToPythonWrapper._get_class_destructor", "pyccel/codegen/wrapper/c_to_python_wrapper.py: CToPythonWrapper._incref_return_pointer", "pyccel/codegen/wrapper/c_to_python_wrapper.py: CToPythonWrapper._save_referenced_objects", "pyccel/codegen/wrapper/c_to_python_wrapper.py: CToPythonWrapper._wrap_ClassDef", "pyccel/codegen/wrapper/c_to_python_wrapper.py: CToPythonWrapper._wrap_DottedVariable", "pyccel/parser/semantic.py: SemanticParser._visit_FunctionDef"]}
{"id": "C98", "title": "Memory of compiled classes is released", "statement": "Memory that a Python program can no longer reach is released; once all variables are deleted no memory of compiled objects is left.", "quantifier": "all compiled files and all Python programs, of any length", "why_tests_cant": "all histories; leaks are not visible in results", "anchors": ["pyccel/codegen/wrapper/c_to_python_wrapper.py: CToPythonWrapper._get_class_destructor", "pyccel/codegen/wrapper/c_to_python_wrapper.py: CToPythonWrapper._save_referenced_objects", "pyccel/codegen/wrapper/c_to_python_wrapper.py: CToPythonWrapper._wrap_DottedVariable"]}
{"id": "C99", "title": "Arrays of several dimensions keep their elements under transposition, slicing and both memory orders", "statement": "A program which creates arrays of any rank in either memory order, gives them further names, transposes and slices them, assigns elements through any name and prints elements and lengths prints the same in Fortran and C as in Python.", "quantifier": "all programs of such statements that Python runs without an exception, all ranks, shapes, orders and slices", "why_tests_cant": "all histories of views of views and all ranks; a wrong stride shows only for some shapes", "anchors": ["pyccel/codegen/printing/fcode.py: FCodePrinter._print_IndexedElement", "pyccel/codegen/printing/fcode.py: FCodePrinter._print_AliasAssign", "pyccel/codegen/printing/fcode.py: FCodePrinter._print_NumpyTranspose", "pyccel/codegen/printing/ccode.py: CCodePrinter._print_IndexedElement", "pyccel/codegen/printing/ccode.py: CCodePrinter._print_AliasAssign", "pyccel/ast/numpyext.py: NumpyTranspose"]}
{"id": "C100", "title": "Arrays returned to Python are the arrays of the function", "statement": "An array that a compiled function or method returns has, in Python, the shape and the elements that it has in the function.", "quantifier": "all ranks, shapes, strides, orders and contents", "why_tests_cant": "all strides: contiguous arrays, which tests return, are right", "anchors": ["pyccel/stdlib/cwrapper/cwrapper.c: to_pyarray", "pyccel/codegen/wrapper/c_to_python_wrapper.py: CToPythonWrapper._extract_NumpyNDArrayType_FunctionDefResult", "pyccel/codegen/wrapper/fortran_to_c_wrapper.py: FortranToCWrapper._extract_NumpyNDArrayType_FunctionDefResult"]}
{"id": "C101", "title": "np.array and transposition build the array written", "statement": "np.array of a variable, of a list of numbers or arrays or of nested lists, with any ndmin and order, and the transpose of an array, give in Fortran the array that NumPy gives.", "quantifier": "all ranks, shapes, nestings, ndmin and orders", "why_tests_cant": "all shapes and nestings; square or symmetric examples hide transpositions", "anchors": ["pyccel/codegen/printing/fcode.py: FCodePrinter._print_NumpyArray", "pyccel/codegen/printing/fcode.py: FCodePrinter._print_NumpyTranspose", "pyccel/ast/numpyext.py: NumpyArray"]}
{"id": "C102", "title": "np.matmul is the product of matrices", "statement": "np.matmul of matrices and vectors in any memory orders gives the product, and changes nothing but the result.", "quantifier": "all shapes, orders, strides and contents", "why_tests_cant": "all orders and overlaps of operands and result", "anchors": ["pyccel/codegen/printing/fcode.py: FCodePrinter._print_NumpyMatmul", "pyccel/codegen/printing/ccode.py: CCodePrinter._print_NumpyMatmul", "pyccel/stdlib/math/pyc_math_c.c: pyc_matmul, pyc_vecmatmul", "pyccel/ast/numpyext.py: NumpyMatmul"]}
{"id": "C103", "title": "Reductions along axes", "statement": "np.sum, np.amax and np.amin along axes of an array, with or without keepdims, give NumPy's result, also next to other statements.", "quantifier": "all ranks, shapes, sets of axes, keepdims", "why_tests_cant": "all ranks and axes, and all neighbours that share loops", "anchors": ["pyccel/ast/utilities.py: collect_loops", "pyccel/ast/numpyext.py: NumpySum", "pyccel/ast/numpyext.py: NumpyAmax"]}
{"id": "C104", "title": "Reductions of whole arrays", "statement": "A reduction of an array to a number gives NumPy's value in C and Fortran, wherever it is assigned and in whatever expression it stands.", "quantifier": "all contents, all targets of the assignment, all expressions", "why_tests_cant": "all expressions around the reduction and all overlaps with the target", "anchors": ["pyccel/codegen/printing/ccode.py: CCodePrinter._handle_numpy_functional", "pyccel/codegen/printing/ccode.py: CCodePrinter._print_NumpySum", "pyccel/codegen/printing/ccode.py: CCodePrinter._print_NumpyAmax", "pyccel/codegen/printing/fcode.py: FCodePrinter._print_NumpySum"]}
{"id": "C105", "title": "After a for loop the loop variable has Python's value", "statement": "After `for i in range(...)` the variable i has in the generated program the value that it has in Python.", "quantifier": "all ranges, all bodies which do not change the bounds, all states before the loop, loops left by break or at the end", "why_tests_cant": "all ranges and all states before the loop; tests seldom read the variable after the loop", "anchors": ["pyccel/codegen/printing/ccode.py: CCodePrinter._print_For", "pyccel/codegen/printing/fcode.py: FCodePrinter._print_For", "pyccel/codegen/printing/fcode.py: FCodePrinter._print_PythonRange"]}
{"id": "C106", "title": "Functions with optional arguments compute what Python computes", "statement": "A function some of whose parameters have the default None, called with or without these arguments, returns in the generated program what it returns in Python, does not read an absent argument, and leaves the variables of its caller alone.", "quantifier": "all functions built from assignments, augmented assignments, if/elif/else, while, conditional expressions, tests against None and calls, all arguments present or absent", "why_tests_cant": "all combinations of absent arguments on all paths; tests call each function with a few arguments", "anchors": ["pyccel/parser/semantic.py: SemanticParser._visit_IfSection, _visit_Assign, _visit_AugAssign, _visit_PyccelIs, _visit_FunctionDef", "pyccel/ast/builtins.py: PythonBool.__new__", "pyccel/codegen/printing/ccode.py: CCodePrinter._print_FunctionCall", "pyccel/codegen/printing/fcode.py: FCodePrinter._print_FunctionCall"]}
{"id": "C107", "title": "A call with None gives every parameter its own argument", "statement": "In a call f(a, None, b, k=c) of a function with optional parameters every parameter gets in the generated program the argument that it gets in Python.", "quantifier": "all argument lists, all positions of None, all numbers of positional arguments", "why_tests_cant": "all positions of None; tests leave out arguments at the end only", "anchors": ["pyccel/codegen/printing/fcode.py: FCodePrinter._print_FunctionCall, _print_FunctionCallArgument", "pyccel/codegen/printing/ccode.py: CCodePrinter._print_FunctionCall"]}
{"id": "C108", "title": "Integer and logical expressions have the value that Python and NumPy give them", "statement": "The value of an expression built from bool, int and NumPy integers with the operators + - * // % << >> & | ^ ~ - abs, comparisons, and/or/not and casts is the same in Python (with NumPy's types and wrap-around) and in the generated C and Fortran code.", "quantifier": "all expressions of any depth, all types of the variables, all values", "why_tests_cant": "all nestings of operators and mixtures of types at all values; tests check single operators on a few values", "anchors": ["pyccel/codegen/printing/ccode.py: CCodePrinter._print_PyccelFloorDiv, _print_PyccelMod, _print_PyccelLShift, _print_PyccelBitAnd, _print_PyccelInvert", "pyccel/codegen/printing/fcode.py: FCodePrinter._print_PyccelMod, _print_PyccelFloorDiv, _print_PyccelEq, _print_PyccelInvert", "pyccel/ast/bitwise_operators.py", "pyccel/ast/operators.py", "pyccel/ast/builtins.py: PythonAbs"]}
{"id": "C109", "title": "Mixed arithmetic is done in NumPy's precision", "statement": "The sum, difference or product of two numbers of different types is computed in the generated code in the precision in which NumPy computes it.", "quantifier": "all pairs of types", "why_tests_cant": "all pairs of types; a test with tolerance does not see the precision", "anchors": ["pyccel/codegen/printing/ccode.py: CCodePrinter._print_PyccelAdd, _print_PyccelMul", "pyccel/codegen/printing/fcode.py: FCodePrinter._print_PyccelAdd, _print_PyccelMul"]}
{"id": "C110", "title": "In an accepted program a variable has the type of every value that Python gives it", "statement": "If pyccel accepts a function, every value that Python assigns to a variable (or returns) has the type that pyccel gave to the variable, and the generated program holds the same value in it after every run.", "quantifier": "all programs with assignments, augmented assignments, branches, loops and returns, all values", "why_tests_cant": "the type of a variable is fixed by its first assignment in the text, but the values come from any path through the program", "anchors": ["pyccel/parser/semantic.py: SemanticParser._ensure_inferred_type_matches_existing, _assign_lhs_variable, _visit_Assign, _visit_AugAssign, _visit_Return", "pyccel/ast/builtins.py: PythonTuple, PythonList", "pyccel/ast/numpytypes.py: NumpyNumericType.__eq__", "pyccel/ast/operators.py: IfTernaryOperator"]}
{"id": "C111", "title": "The types that a stub file declares are those of the translated module", "statement": "The annotation that a stub file gives for a variable, an argument, a result or a function argument is read back as a declaration of exactly the same type: element types, number of dimensions, order, Final, memory, and the types of a function argument's own arguments.", "quantifier": "all types: numbers, strings, classes, arrays of any rank and order, tuples, lists, sets, dictionaries, Final, functions of functions, nested to any depth", "why_tests_cant": "stub files are how other modules see a translated module, and the nesting of types is unbounded", "anchors": ["pyccel/codegen/printing/pycode.py: PythonCodePrinter._get_type_annotation, _print_NumpyNDArrayType, _print_HomogeneousTupleType, _print_InhomogeneousTupleType", "pyccel/parser/grammar/types.tx", "pyccel/parser/semantic.py: SemanticParser._get_indexed_type, _visit_SyntacticTypeAnnotation"]}
{"id": "C112", "title": "A function that is imported through its stub file has the parameters of the original", "statement": "The parameter list that a stub file gives for a function is legal Python, and every parameter keeps its position, its kind (positional-only, ordinary, *args, keyword-only, **kwargs) and its default.", "quantifier": "all functions, with any number of parameters of every kind", "why_tests_cant": "the kinds of parameters interact, and tests only have a few of their combinations", "anchors": ["pyccel/codegen/printing/pycode.py: PythonCodePrinter._function_signature, _print_FunctionDefArgument", "pyccel/parser/syntactic.py: SyntaxParser._visit_arguments"]}
{"id": "C113", "title": "An annotation with named unions allows every combination of their members", "statement": "If an annotation is accepted, the types that it allows are exactly those it means: the name of a union stands for each of its members, in every position and in all combinations, and every array has the rank and the order that was written.", "quantifier": "all annotations of any depth, all unions named with TypeAlias", "why_tests_cant": "the number of combinations grows with the nesting, and a missing one only shows when it is called", "anchors": ["pyccel/parser/semantic.py: SemanticParser._get_indexed_type, _visit_SyntacticTypeAnnotation", "pyccel/ast/type_annotations.py: UnionTypeAnnotation"]}
{"id": "C114", "title": "A library call can be used as an operand (C)", "statement": "An expression in which calls of library functions are mixed with operators has in C the value that Python gives it: each call is one operand, and the operators around it are applied to its result.", "quantifier": "all expressions over numbers with signs, arithmetic, comparisons, bool, calls and np.where, of any depth", "why_tests_cant": "calls and operators combine in unboundedly many ways, and most combinations need no parentheses", "anchors": ["pyccel/codegen/printing/ccode.py: CCodePrinter._print_NumpyWhere, _print_PythonBool", "pyccel/ast/operators.py: PyccelOperator._handle_precedence"]}
{"id": "C115", "title": "A library call can be used as an operand, and operators in its arguments (Fortran)", "statement": "An expression in which calls of library functions are mixed with operators has in Fortran the value that Python gives it: each call is one operand of the operators around it, and each of its arguments may be any expression.", "quantifier": "all expressions over numbers and arrays with signs, arithmetic, comparisons, calls, np.where, math.pow, np.sum with an initial value, vector products, norms and np.arange, of any depth", "why_tests_cant": "calls and operators combine in unboundedly many ways, and most combinations need no parentheses", "anchors": ["pyccel/codegen/printing/fcode.py: FCodePrinter._print_MathPow, _print_NumpySum, _print_NumpyMatmul, _print_NumpyNorm, _print_NumpyArange", "pyccel/ast/operators.py: PyccelOperator._handle_precedence"]}
{"id": "C116", "title": "A call is made as often as it is written", "statement": "Executing a translated statement calls each of the user's functions exactly as often as executing the statement in Python does: no call is lost, repeated or made for a value that is not used.", "quantifier": "all statements with one expression built from calls (of number- and array-valued functions, with any number of arguments), operators and ** 0.5, of any depth; all behaviours of the functions; all orders of evaluation", "why_tests_cant": "which calls are repeated depends on how calls, array operators and powers are nested, and functions may have side effects", "anchors": ["pyccel/parser/semantic.py: SemanticParser._handle_function, _visit_FunctionCallArgument, _visit_PyccelPow, _visit_CodeBlock"]}
{"id": "C117", "title": "Calls see the same contents of arrays as in Python", "statement": "In a translated statement every call and every read of an array element or array operand happens in a state that cannot be told from the state in which Python makes it: the value and all side effects of the statement are Python's.", "quantifier": "all statements with one expression built from calls, elements, operators and ** 0.5, of any depth; all functions, operators and states; all orders in which the target evaluates operands", "why_tests_cant": "a difference shows only if a function changes an array which another part of the same statement reads", "anchors": ["pyccel/parser/semantic.py: SemanticParser._handle_function, _visit_FunctionCallArgument, _visit_CodeBlock", "pyccel/codegen/printing/ccode.py: CCodePrinter._print_FunctionCall"]}
{"id": "C118", "title": "A statement that can be translated to C can be translated to Fortran", "statement": "A statement with nested calls of the user's functions that can be printed in C can be printed in Fortran.", "quantifier": "all statements with one expression built from calls, operators and ** 0.5, of any depth", "why_tests_cant": "the failure depends on how array-valued calls are nested", "anchors": ["pyccel/codegen/printing/fcode.py: FCodePrinter._print_FunctionCall", "pyccel/parser/semantic.py: SemanticParser._handle_function"]}
{"id": "C119", "title": "np.linspace returns evenly spaced numbers", "statement": "The array that a translated program gets from numpy.linspace has NumPy's elements: start first, equal distances, stop last if it is included, rounded down for integer types; also if the call is part of a larger expression.", "quantifier": "all start and stop (numbers or arrays), all numbers of elements, literal and computed endpoint, integer and floating point types, all elementwise expressions around the call; up to rounding", "why_tests_cant": "boundary cases (no element, one element, negative integers, use as an operand) are printed by separate code in each language", "anchors": ["pyccel/ast/numpyext.py: NumpyLinspace", "pyccel/codegen/printing/ccode.py: CCodePrinter._print_NumpyLinspace", "pyccel/codegen/printing/fcode.py: FCodePrinter._print_NumpyLinspace"]}
{"id": "C120", "title": "np.arange returns NumPy's numbers", "statement": "The array that a translated program gets from numpy.arange has NumPy's length and elements.", "quantifier": "all start, stop and nonzero step, integer and floating point types; up to rounding", "why_tests_cant": "length and elements depend on the relation of three numbers and on conversions", "anchors": ["pyccel/ast/numpyext.py: NumpyArange", "pyccel/codegen/printing/fcode.py: FCodePrinter._print_NumpyArange", "pyccel/codegen/printing/ccode.py: CCodePrinter._print_Allocate"]}
{"id": "C121", "title": "np.cross returns NumPy's cross product", "statement": "The array that a translated program assigns from numpy.cross holds NumPy's cross products, also if the result replaces an operand, for every choice of the axes, with broadcasting, and no other array changes.", "quantifier": "all ranks, sizes, axes and values; operands and result that are the same array or different ones; sizes known when compiling or not", "why_tests_cant": "the property quantifies over ranks, axes, sizes and aliasing of three arrays", "anchors": ["pyccel/ast/numpyext.py: NumpyCross.insert_indices", "pyccel/parser/semantic.py: SemanticParser._build_NumpyCross", "pyccel/codegen/printing/ccode.py: CCodePrinter._print_NumpyCross", "pyccel/codegen/printing/fcode.py: FCodePrinter._print_NumpyCross", "pyccel/stdlib/math/pyc_math_f90.F90: cross_product_f64", "pyccel/ast/utilities.py: collect_loops"]}
{"id": "C122", "title": "np.sign returns NumPy's sign", "statement": "numpy.sign of an integer or a real number is the same in the translated program as in NumPy.", "quantifier": "all integers of every size and all real numbers, infinities and NaN", "why_tests_cant": "special values have to be right in two unrelated formulas", "anchors": ["pyccel/stdlib/math/pyc_math_c.h: PY_SIGN_TYPE", "pyccel/codegen/printing/fcode.py: FCodePrinter._print_NumpySign"]}
{"id": "C123", "title": "Minimum and maximum of complex arrays", "statement": "numpy.min and numpy.max of an array of complex numbers return the same number in the translated program as in NumPy: real parts first, then imaginary parts, NaN if there is one.", "quantifier": "all non-empty arrays of complex numbers of any length, with and without NaN", "why_tests_cant": "the comparison is written out by hand in two languages and folded over arrays of any length", "anchors": ["pyccel/stdlib/math/pyc_math_c.h: complex_min, complex_max", "pyccel/stdlib/math/pyc_math_f90.F90: amax_8, amin_8", "pyccel/codegen/printing/ccode.py: CCodePrinter._handle_numpy_functional"]}
{"id": "C124", "title": "Comparison of strings", "statement": "s == t and s != t on strings have Python's value in the translated program, as conditions, stored in variables and as numbers.", "quantifier": "all pairs of Python strings, in C and in Fortran, for every strcmp that conforms to the C standard", "why_tests_cant": "strings of all lengths with all code points, blanks and null characters", "anchors": ["pyccel/codegen/printing/ccode.py: CCodePrinter._print_PyccelEq, _print_PyccelNe", "pyccel/codegen/printing/fcode.py: FCodePrinter._print_PyccelEq, _print_PyccelNe"]}
{"id": "C125", "title": "Strings arrive unchanged", "statement": "A str argument passed from Python and a str result returned to Python have the same characters on both sides.", "quantifier": "all Python strings, in C and in Fortran", "why_tests_cant": "the number of bytes and of characters differ only for some strings", "anchors": ["pyccel/codegen/wrapper/c_to_python_wrapper.py: _extract_StringType_FunctionDefArgument, _extract_StringType_FunctionDefResult", "pyccel/codegen/wrapper/fortran_to_c_wrapper.py: _extract_StringType_FunctionDefArgument, _extract_StringType_FunctionDefResult"]}
{"id": "C126", "title": "String variables own their memory", "statement": "A translated C function with string variables reads no freed or uninitialised memory, frees every string once, leaves its arguments alone and returns a string of its own, whatever statements were executed.", "quantifier": "all functions with string variables, all paths through them and all strings, short or long", "why_tests_cant": "undefined behaviour depends on the path, on the order of assignments and on the lengths of the strings", "anchors": ["pyccel/parser/semantic.py: SemanticParser._ensure_inferred_type_matches_existing, _garbage_collector, _visit_Return", "pyccel/codegen/printing/ccode.py: CCodePrinter._print_Allocate, _print_Deallocate, _print_Assign, _print_Declare"]}
{"id": "C127", "title": "len of a string", "statement": "len(s) of a string is the number of its characters.", "quantifier": "all Python strings, in C and in Fortran", "why_tests_cant": "only strings with characters outside ASCII show the difference", "anchors": ["pyccel/parser/semantic.py: SemanticParser._build_PythonLen", "pyccel/codegen/printing/ccode.py: CCodePrinter._print_PyccelArrayShapeElement", "pyccel/codegen/printing/fcode.py: FCodePrinter._print_PyccelArrayShapeElement"]}
{"id": "C128", "title": "Functions that can be active twice are declared recursive", "statement": "In the generated Fortran program every function that can be invoked while it is active, directly or through other functions, is declared recursive, as Fortran 2003 requires.", "quantifier": "all modules with any functions that call each other, nested functions and @inline functions, in any order in the file, and all executions", "why_tests_cant": "call graphs of any shape; the order in which the compiler meets the functions depends on the calls", "anchors": ["pyccel/ast/core.py: FunctionCall.__init__, FunctionDef.set_recursive", "pyccel/parser/semantic.py: SemanticParser._visit_FunctionDef, _handle_function, _annotate_the_called_function_def, _visit_InlineFunctionCall, _visit_Module", "pyccel/codegen/printing/fcode.py: FCodePrinter.function_signature"]}
{"id": "C129", "title": "The translation of functions that call each other ends", "statement": "The translation of a module ends, translates every function exactly once, and leaves none out, however the functions call each other; recursive @inline functions are rejected with an error.", "quantifier": "all modules with any functions that call each other", "why_tests_cant": "call graphs of any shape, with cycles", "anchors": ["pyccel/parser/semantic.py: SemanticParser._visit_Module, _visit_FunctionDef, _visit_InlineFunctionCall, _annotate_the_called_function_def"]}
{"id": "C130", "title": "complex(a, b) is Python's number", "statement": "complex(a) and complex(a, b) have the real and imaginary part that Python gives them, for integers, floats and complex numbers of single and double precision, variables and literals.", "quantifier": "all values of the arguments, including infinities, NaN and signed zeros, and all combinations of literals and variables of the numeric types", "why_tests_cant": "a continuum of values; the errors show for long integers, infinities and zeros only", "anchors": ["pyccel/ast/builtins.py: PythonComplex.__new__, PythonComplex.__init__, PythonReal, PythonImag", "pyccel/codegen/printing/ccode.py: CCodePrinter._print_PythonComplex, _print_LiteralComplex, _print_LiteralImaginaryUnit, _print_PythonReal, _print_PythonImag", "pyccel/codegen/printing/fcode.py: FCodePrinter._print_PythonComplex, _print_LiteralComplex, _print_LiteralImaginaryUnit"]}
{"id": "C131", "title": "The arguments of complex() are evaluated once", "statement": "complex(a, b) evaluates each argument once.", "quantifier": "all combinations of types of arguments, literals and other expressions", "why_tests_cant": "an extra evaluation shows only if the expression has effects", "anchors": ["pyccel/ast/builtins.py: PythonComplex.__new__, PythonComplex.__init__", "pyccel/codegen/printing/ccode.py: CCodePrinter._print_PythonComplex", "pyccel/codegen/printing/fcode.py: FCodePrinter._print_PythonComplex"]}
{"id": "C132", "title": "Arithmetic with imaginary literals is Python's", "statement": "In the generated C, the sum and the product of an integer or float and a literal kj are the complex numbers that Python computes.", "quantifier": "all integers and floats x and all literals kj", "why_tests_cant": "the error shows for integers with more than 24 bits only", "anchors": ["pyccel/ast/literals.py: LiteralComplex, LiteralImaginaryUnit", "pyccel/codegen/printing/ccode.py: CCodePrinter._print_LiteralComplex, _print_LiteralImaginaryUnit, _print_PyccelAdd, _print_PyccelMul"]}
{"id": "C133", "title": "x in c is Python's test", "statement": "x in c for a list, a set or a dictionary c is true if and only if an element (a key) of c is equal to x, and the calls in x and c are made.", "quantifier": "all numbers x, all containers of numbers of any length, all pairs of types", "why_tests_cant": "containers of any length and any pair of types", "anchors": ["pyccel/parser/semantic.py: SemanticParser._visit_PyccelIn", "pyccel/ast/numpytypes.py: NumpyNumericType.__eq__", "pyccel/codegen/printing/ccode.py: CCodePrinter._print_PyccelIn", "pyccel/codegen/printing/fcode.py: FCodePrinter._print_PyccelIn"]}
{"id": "C134", "title": "x is y is Python's test", "statement": "When x is y or x is not y is translated, it is true exactly when it is in Python, and the calls in it are made.", "quantifier": "all operands: None, True, False, variables and calls of any numeric type, optional variables that are present or not", "why_tests_cant": "presence of arguments is known at run time only", "anchors": ["pyccel/parser/semantic.py: SemanticParser._visit_PyccelIs", "pyccel/codegen/printing/ccode.py: CCodePrinter._handle_is_operator", "pyccel/codegen/printing/fcode.py: FCodePrinter._print_PyccelIs, _print_PyccelIsNot, _handle_not_none"]}
{"id": "C135", "title": "int(), math.floor, math.ceil and math.trunc return Python's integer", "statement": "int(x), math.floor(x), math.ceil(x) and math.trunc(x), stored in a variable, are the integers that Python returns.", "quantifier": "all floats of single and double precision, all integers of 8 to 64 bits", "why_tests_cant": "the errors show for numbers beyond 2**31 or 2**53 only", "anchors": ["pyccel/ast/mathext.py: MathFloor, MathCeil, MathTrunc", "pyccel/ast/builtins.py: PythonInt", "pyccel/codegen/printing/ccode.py: CCodePrinter._print_PythonInt, _print_MathFunctionBase, _print_MathTrunc", "pyccel/codegen/printing/fcode.py: FCodePrinter._print_PythonInt, _print_MathFloor, _print_MathCeil, _print_MathTrunc"]}
{"id": "C136", "title": "np.floor, np.abs, math.fabs, float() and bool() return Python's value", "statement": "np.floor(x), np.abs(x), math.fabs(x), float(x) and bool(x), stored in a variable, are the values that Python and NumPy return.", "quantifier": "all floats of single and double precision including NaN, infinities and both zeros, all integers of 8 to 64 bits", "why_tests_cant": "a continuum of values; the errors show for large and special numbers only", "anchors": ["pyccel/ast/numpyext.py: NumpyFloor, NumpyAbs", "pyccel/ast/mathext.py: MathFabs", "pyccel/codegen/printing/ccode.py: CCodePrinter._print_NumpyUfuncBase, _print_MathFunctionBase, _print_PythonFloat, _print_PythonBool", "pyccel/codegen/printing/fcode.py: FCodePrinter._print_NumpyFloor, _print_NumpyUfuncBase, _print_MathFunctionBase, _print_PythonFloat, _print_PythonBool"]}
{"id": "C137", "title": "Calls have the type that they are declared with", "statement": "The expression printed for int, float, bool, math.floor, math.ceil, math.trunc, math.fabs, np.floor and np.abs has a type of the kind (integer, floating-point, logical) that the compiler gives to the call.", "quantifier": "all of these functions and all types of arguments", "why_tests_cant": "a wrong kind shows only where the kind matters: in formats, in integer operators, as an actual argument", "anchors": ["pyccel/ast/mathext.py: MathFunctionInt, MathTrunc", "pyccel/ast/numpyext.py: NumpyFloor, NumpyAbs", "pyccel/codegen/printing/ccode.py: CCodePrinter._print_MathTrunc, _print_NumpyUfuncBase", "pyccel/codegen/printing/fcode.py: FCodePrinter._print_MathTrunc, _print_NumpyFloor, _print_NumpyUfuncBase"]}
{"id": "C138", "title": "pyccel clean removes only what it is asked to remove", "statement": "pyccel clean, however it ends, leaves every file, link and folder as it was, except for the folders whose names begin with __pyccel__ or __epyccel__, the files *.pyccel, with -s the shared libraries and with -p the programs.", "quantifier": "all file systems (with links, pipes, devices, any order of the entries), all folders, all options", "why_tests_cant": "the file systems are unbounded trees; a file lost is lost", "anchors": ["pyccel/commands/pyccel_clean.py: pyccel_clean"]}
{"id": "C139", "title": "pyccel clean changes nothing outside the folder", "statement": "pyccel clean changes nothing outside the folders that it is given, and with -n nothing in the folders below.", "quantifier": "all file systems, all folders, all options", "why_tests_cant": "the file systems are unbounded; a link can lead anywhere", "anchors": ["pyccel/commands/pyccel_clean.py: pyccel_clean"]}
{"id": "C140", "title": "pyccel clean succeeds and leaves nothing behind", "statement": "pyccel clean ends without an exception, and then no folder of pyccel and none of the files that it is asked to remove are left.", "quantifier": "all file systems, all folders, all options", "why_tests_cant": "special files and combinations of options; folders of any depth", "anchors": ["pyccel/commands/pyccel_clean.py: pyccel_clean"]}
{"id": "C141", "title": "A function changes the arrays of its caller as in Python", "statement": "After a call of a translated function the arrays of the caller have the contents that they have after the call in Python: x[:] = e and x += e change them, x = e does not.", "quantifier": "all functions made of assignments to arrays, loops and tests, all contents, all numbers of arguments", "why_tests_cant": "the effect of an assignment depends on what the variable refers to; contents and programs are unbounded", "anchors": ["pyccel/parser/semantic.py: SemanticParser._ensure_inferred_type_matches_existing", "pyccel/ast/operators.py: broadcast", "pyccel/ast/core.py: FunctionDefArgument.inout", "pyccel/codegen/printing/fcode.py: FCodePrinter.function_signature, _print_Declare", "pyccel/codegen/printing/ccode.py: CCodePrinter.function_signature"]}
{"id": "C142", "title": "An array can be passed for several parameters", "statement": "A call f(x, x) that Python accepts has the same effect when it is translated.", "quantifier": "all functions made of assignments to arrays, loops and tests, all ways to share arrays among arguments", "why_tests_cant": "aliasing: compilers may assume that it does not occur", "anchors": ["pyccel/codegen/printing/fcode.py: FCodePrinter.function_signature, _print_Declare", "pyccel/parser/semantic.py: SemanticParser._ensure_inferred_type_matches_existing"]}
{"id": "C143", "title": "A loop over a list visits what Python visits", "statement": "for x in l executes its body for the elements for which Python does, in the same order, also when the body changes the list.", "quantifier": "all lists, all bodies (which append, remove or replace elements, or break), all capacities of the vector", "why_tests_cant": "the history of the changes to the list is unbounded, and the room left in a vector depends on it", "anchors": ["pyccel/codegen/printing/ccode.py: CCodePrinter._print_For", "pyccel/codegen/printing/fcode.py: FCodePrinter._print_For", "pyccel/ast/builtins.py: VariableIterator", "pyccel/ast/variable.py: Variable.shape_can_change"]}
{"id": "C144", "title": "A loop over an array visits what Python visits", "statement": "for x in a, for an array a, executes its body with the elements with which Python does, also when the body writes to the array or assigns its name.", "quantifier": "all arrays, all bodies", "why_tests_cant": "the interleaving of writes and visits is unbounded", "anchors": ["pyccel/codegen/printing/ccode.py: CCodePrinter._print_For", "pyccel/codegen/printing/fcode.py: FCodePrinter._print_For", "pyccel/ast/builtins.py: VariableIterator"]}
{"id": "C145", "title": "A loop over a dictionary or a set visits its items once, in Python's order", "statement": "A loop over the keys or items of a dictionary visits each once, in the order of insertion.", "quantifier": "all dictionaries with integer keys, all bodies, all orders of a hash table", "why_tests_cant": "the order depends on the table; dictionaries are unbounded", "anchors": ["pyccel/codegen/printing/ccode.py: CCodePrinter._print_For", "pyccel/codegen/printing/fcode.py: FCodePrinter._print_For"]}
{"id": "C146", "title": "np.linalg.norm computes NumPy's norm", "statement": "np.linalg.norm(x, ord) of a vector or matrix is NumPy's value, up to rounding.", "quantifier": "all vectors and matrices of integers and real numbers, all real orders", "why_tests_cant": "values, orders and sizes are unbounded", "anchors": ["pyccel/ast/numpyext.py: NumpyNorm", "pyccel/codegen/printing/ccode.py: CCodePrinter._print_NumpyNorm, _print_PyccelPow", "pyccel/codegen/printing/fcode.py: FCodePrinter._print_NumpyNorm"]}
{"id": "C147", "title": "An operator on objects calls the method that Python calls", "statement": "a op b and a op= b, where a class defines some of the methods __op__, __rop__ and __iop__, call the method that Python calls.", "quantifier": "all operators, all pairs of types, all sets of methods defined by the classes", "why_tests_cant": "every combination of defined methods", "anchors": ["pyccel/parser/semantic.py: magic_method_map, SemanticParser._create_PyccelOperator, _visit_AugAssign", "pyccel/ast/core.py: ClassDef.get_method"]}
{"id": "C148", "title": "An augmented assignment of an object has Python's effect", "statement": "After x op= y, where the class of x defines __iop__, the objects have the contents that they have in Python, and x is the same object as before if it is so in Python.", "quantifier": "all bodies of the method (statements, tests, loops and returns), all states", "why_tests_cant": "programs and states are unbounded", "anchors": ["pyccel/parser/semantic.py: SemanticParser._visit_Return, _visit_AugAssign, _visit_FunctionDef"]}
{"id": "C149", "title": "Sums and repetitions of tuples and lists have Python's elements", "statement": "x = e, where e is made of tuples (or lists) with + and *, gives x the elements that it has in Python.", "quantifier": "all nestings of sums and repetitions, all lengths, all numbers of repetitions", "why_tests_cant": "nestings, lengths and the number of repetitions are unbounded and known at run time only", "anchors": ["pyccel/parser/semantic.py: SemanticParser._create_Duplicate, _visit_PyccelAdd, _visit_PyccelMul", "pyccel/ast/core.py: Duplicate, Concatenate", "pyccel/ast/utilities.py: collect_loops"]}
{"id": "C150", "title": "A module is linked with the object files that it needs, and no others", "statement": "The object files on the command line of the linker are those of the module and of everything it needs, directly or not.", "quantifier": "all graphs of modules and libraries that pyccel can make", "why_tests_cant": "the graphs are unbounded", "anchors": ["pyccel/codegen/compiling/basic.py: CompileObj.extra_modules", "pyccel/codegen/compiling/library_config.py", "pyccel/codegen/utilities.py"]}
{"id": "C151", "title": "A static library is found after those that need it", "statement": "Libraries are given to the linker in an order in which every symbol that is needed is found, if the order given by the user has this property.", "quantifier": "all lists of libraries of modules, stubs and command lines, all sets of symbols", "why_tests_cant": "the order results from sets, lists and duplicates at every depth", "anchors": ["pyccel/codegen/compiling/basic.py: CompileObj.libs", "pyccel/codegen/compiling/compilers.py: Compiler._get_property, Compiler._get_compile_components"]}
{"id": "C152", "title": "The compiler obeys the flags of the user", "statement": "The module and the program are compiled with the flags of --flags, and these win over those that pyccel adds.", "quantifier": "all lists of flags, debug or not, modules and programs", "why_tests_cant": "the meaning of a list of flags depends on all of them", "anchors": ["pyccel/codegen/compiling/compilers.py: Compiler._get_flags", "pyccel/codegen/pipeline.py: execute_pyccel"]}
{"id": "C153", "title": "Header and module files are searched in the order of the folders", "statement": "A file that exists in several folders is taken from the first folder that the user gave.", "quantifier": "all lists of folders, all files, all orders of a set", "why_tests_cant": "the order of a set is not defined", "anchors": ["pyccel/codegen/compiling/basic.py: CompileObj.include"]}
{"id": "C154", "title": "The object files of the libraries are up to date", "statement": "A program is linked with object files of the libraries of pyccel that are made from the present sources with the present compiler and options.", "quantifier": "all histories of installations, upgrades and compilations, all clocks", "why_tests_cant": "histories and times are unbounded", "anchors": ["pyccel/codegen/utilities.py: recompile_object", "pyccel/codegen/compiling/library_config.py: StdlibInstaller.install_to"]}
{"id": "C155", "title": "A parallel loop gives Python's result for every schedule", "statement": "A loop with #$ omp parallel for whose turns are independent in Python leaves the memory as Python does, however the threads are scheduled.", "quantifier": "all bodies, all numbers of turns, all schedules of the steps of the threads, all memories", "why_tests_cant": "schedules cannot be chosen by a test", "anchors": ["pyccel/codegen/printing/ccode.py: CCodePrinter._print_CodeBlock", "pyccel/parser/scope.py: Scope.get_temporary_variable, Scope.insert_variable", "pyccel/parser/semantic.py: SemanticParser._visit_OmpAnnotatedComment"]}
{"id": "C156", "title": "A barrier is missing only where nowait is given", "statement": "The constructs single and sections end with a barrier in the generated program if and only if the user did not write nowait.", "quantifier": "all sequences of constructs in a block", "why_tests_cant": "a missing barrier shows only in some schedules; sequences are unbounded", "anchors": ["pyccel/parser/semantic.py: SemanticParser._visit_OmpAnnotatedComment", "pyccel/codegen/printing/fcode.py: FCodePrinter._print_Omp_End_Clause", "pyccel/codegen/printing/ccode.py: CCodePrinter._print_OmpAnnotatedComment"]}
{"id": "C157", "title": "An OpenMP construct encloses the statements that the user enclosed", "statement": "In the generated C, every construct stands before the loop that follows it or encloses exactly the statements up to its end.", "quantifier": "all nestings of annotated blocks and loops, all names of critical sections", "why_tests_cant": "nestings are unbounded, and combinations of constructs and names many", "anchors": ["pyccel/codegen/printing/ccode.py: CCodePrinter._print_OmpAnnotatedComment, _print_Omp_End_Clause", "pyccel/parser/semantic.py: SemanticParser._visit_Omp_End_Clause", "pyccel/parser/grammar/openmp.tx"]}
{"id": "C158", "title": "A comment or annotation stays where it stands", "statement": "The comments of a program, among them the annotations #$ omp, stand in the translated program between the same statements and in the same block as in the source.", "quantifier": "all programs as trees of statements, blocks, else and elif, of any depth, with comments at any place", "why_tests_cant": "every nesting of blocks and every place of comments; the effect shows only if the comment is an annotation", "anchors": ["pyccel/parser/extend_tree.py: extend_tree, insert_comments, get_last_lineno"]}
{"id": "C159", "title": "Comments are the lines that Python takes for comments", "statement": "A line of the source is treated as a comment or annotation only if Python treats it as a comment.", "quantifier": "all texts", "why_tests_cant": "texts are unbounded, and strings over several lines can contain anything", "anchors": ["pyccel/parser/extend_tree.py: get_comments", "pyccel/parser/syntactic.py: SyntaxParser._visit_CommentMultiLine"]}
{"id": "C160", "title": "Variables of functions are not variables of the file", "statement": "An assignment in a function makes a variable of this call; it changes no variable of the file and no variable of another call, so that the compiled program prints what the Python program prints.", "quantifier": "all programs with functions (also recursive), statements at the top of the file and under if __name__ == '__main__', with any names, and any number of steps", "why_tests_cant": "which variable a name means depends on all names of the file and on the order in which functions are called first", "anchors": ["pyccel/parser/scope.py: Scope.find", "pyccel/parser/semantic.py: SemanticParser._assign_lhs_variable, _visit_AnnotatedPyccelSymbol, _visit_FunctionDef, _annotate_the_called_function_def, _visit_Module", "pyccel/parser/syntactic.py: SyntaxParser._get_unique_name"]}
{"id": "C161", "title": "Assigning an imported name does not change the imported module", "statement": "A file that imports variables and functions from another file has its own variables: assigning one of them changes nothing in the other file, so that the compiled program prints what the Python program prints.", "quantifier": "all files with functions and variables, all lists of imported variables, all statements of the importing file, any number of steps", "why_tests_cant": "whether the assignment is seen depends on which functions of the imported file are called afterwards", "anchors": ["pyccel/parser/scope.py: Scope.find", "pyccel/parser/semantic.py: SemanticParser._visit_Import, _assign_lhs_variable"]}
{"id": "C162", "title": "Functions compiled to Fortran receive the arguments of the call", "statement": "In a call from Python of a function compiled to Fortran every parameter has the value that is given or its default, and is absent exactly if it is None; nothing else is passed and no absent argument is read.", "quantifier": "all functions with any number of parameters (numbers, arrays, strings, tuples, lists, sets; with and without defaults), all calls", "why_tests_cant": "each optional parameter doubles the number of cases, containers have any size", "anchors": ["pyccel/codegen/wrapper/fortran_to_c_wrapper.py: FortranToCWrapper._get_function_def_body, _extract_X_FunctionDefArgument", "pyccel/codegen/wrapper/c_to_python_wrapper.py: CToPythonWrapper._wrap_FunctionDefArgument, _extract_X_FunctionDefArgument", "pyccel/ast/core.py: FunctionCall.__init__"]}
{"id": "C163", "title": "Lists, sets and dictionaries returned from Fortran are unchanged", "statement": "A list, set or dictionary returned to Python by a function compiled to Fortran is the one that the Python function returns.", "quantifier": "all lists, sets and dictionaries of numbers", "why_tests_cant": "containers have any size and any elements", "anchors": ["pyccel/codegen/wrapper/fortran_to_c_wrapper.py: FortranToCWrapper._extract_HomogeneousListType_FunctionDefResult, _extract_HomogeneousSetType_FunctionDefResult, _extract_DictType_FunctionDefResult, _get_bind_c_array", "pyccel/codegen/wrapper/c_to_python_wrapper.py: CToPythonWrapper._extract_HomogeneousContainerType_FunctionDefResult, _extract_DictType_FunctionDefResult"]}
{"id": "C164", "title": "Memory of copied arguments and results is released", "statement": "All memory that the wrapper takes for arguments and results of a call of a function compiled to Fortran is released when the call ends, and no other memory is touched.", "quantifier": "all calls of all functions, repeated any number of times, all states of the memory", "why_tests_cant": "a leak is visible only after many calls", "anchors": ["pyccel/codegen/wrapper/c_to_python_wrapper.py: CToPythonWrapper._wrap_FunctionDef, _extract_X_FunctionDefArgument, _extract_X_FunctionDefResult", "pyccel/codegen/wrapper/fortran_to_c_wrapper.py: FortranToCWrapper._get_bind_c_array"]}
{"id": "C165", "title": "A comprehension gives its target the list that Python computes", "statement": "After `x = [e for ... if ... for ...]` or `x = np.array([e for ... ])` the variable x contains the values that Python computes, in their order, whether x is new or is used again.", "quantifier": "all elements, clauses, conditions and nestings, all ranges and sequences, all values of the variables, all earlier contents of x", "why_tests_cant": "nesting has any depth, the number of iterations depends on values, and reuse of x matters only in some states", "anchors": ["pyccel/parser/semantic.py: SemanticParser._visit_FunctionalFor, _visit_Assign", "pyccel/parser/syntactic.py: SyntaxParser._visit_ListComp", "pyccel/codegen/printing/ccode.py: CCodePrinter._print_FunctionalFor, _print_For, _print_Allocate", "pyccel/codegen/printing/fcode.py: FCodePrinter._print_FunctionalFor, _print_For, _print_Allocate"]}
{"id": "C166", "title": "A comprehension changes no other variable", "statement": "A comprehension changes its target and nothing else: other variables, in particular those with the names of its loop variables, and other lists and arrays keep their values.", "quantifier": "all comprehensions, all states before them", "why_tests_cant": "the state may hold any variables with any values", "anchors": ["pyccel/parser/scope.py: Scope.insert_variable", "pyccel/parser/semantic.py: SemanticParser._visit_FunctionalFor", "pyccel/codegen/printing/ccode.py: CCodePrinter._print_For"]}
{"id": "C167", "title": "A function returns the values that stand after return", "statement": "The caller of a function gets the values that the expressions of the executed return statement have at that moment, whichever variables the other return statements name.", "quantifier": "all functions with any number of return statements and values, all values of the variables", "why_tests_cant": "which names the results get depends on all return statements together, and the error shows only for some values", "anchors": ["pyccel/parser/syntactic.py: SyntaxParser._get_unique_name, _visit_FunctionDef", "pyccel/parser/semantic.py: SemanticParser._visit_Return, _visit_Assign", "pyccel/codegen/printing/ccode.py: CCodePrinter.function_signature", "pyccel/codegen/printing/fcode.py: FCodePrinter.function_signature"]}
{"id": "C168", "title": "A return statement that needs several statements returns their result", "statement": "`return e` returns the value of e also if e is a call of an inline function or the maximum of a generator, so that statements stand before the return in the generated code.", "quantifier": "all bodies of inline functions, all expressions, all arrays that are freed before, all values", "why_tests_cant": "bodies are nested to any depth and the C printer takes the last assignment of the text, which is right only for some paths", "anchors": ["pyccel/codegen/printing/ccode.py: CCodePrinter._print_Return", "pyccel/codegen/printing/fcode.py: FCodePrinter._print_Return", "pyccel/parser/semantic.py: SemanticParser._visit_Return, _handle_inline_function"]}
{"id": "C169", "title": "The else block of a loop runs when the loop ends without break", "statement": "After `for ... else` or `while ... else` the statements of the else block have run exactly if the loop ended without break, return or an exception.", "quantifier": "all nestings of loops and conditions, all statements, all numbers of iterations, all states", "why_tests_cant": "programs and numbers of iterations are unbounded", "anchors": ["pyccel/parser/syntactic.py: SyntaxParser._visit_For, _visit_While"]}
{"id": "C170", "title": "A failed assertion ends the execution and a passed one has no effect", "statement": "Where an assertion fails in Python, the compiled function stops and executes no later statement; where it holds, the function goes on in the state that Python has after evaluating the condition; a caller can handle the AssertionError.", "quantifier": "all programs with assertions anywhere, all conditions (also with effects), all states, the flags of debug and release mode", "why_tests_cant": "an assertion may stand anywhere and fail in any iteration; tests run in one mode", "anchors": ["pyccel/codegen/printing/ccode.py: CCodePrinter._print_Assert", "pyccel/codegen/printing/fcode.py: FCodePrinter._print_Assert", "pyccel/parser/syntactic.py: SyntaxParser._visit_Assert", "pyccel/compilers/default_compilers.py: release_flags"]}
{"id": "C171", "title": "A function that ends without return gives None", "statement": "A call of a compiled function gives the value of the executed return statement, and None (no value) if the function ends without one.", "quantifier": "all functions with any control flow, all states", "why_tests_cant": "whether a path ends without return depends on values in all iterations", "anchors": ["pyccel/parser/syntactic.py: SyntaxParser._visit_FunctionDef", "pyccel/parser/semantic.py: SemanticParser._visit_FunctionDef, _visit_Return"]}
{"id": "C172", "title": "A nested function uses the variables of the function around it as in Python", "statement": "A function that is defined inside a function reads, in every call, the values that the variables of the outer function have at that time, and what it assigns does not change them; also through calls of other nested functions.", "quantifier": "all nested functions, all call chains between them, all outer functions, arguments and states", "why_tests_cant": "call chains, loops and values are unbounded", "anchors": ["pyccel/parser/semantic.py: SemanticParser._visit_FunctionDef", "pyccel/codegen/printing/ccode.py: CCodePrinter.function_signature, _print_FunctionDef, _print_FunctionCall", "pyccel/codegen/printing/fcode.py: FCodePrinter._print_FunctionDef", "pyccel/ast/basic.py: PyccelAstNode.is_user_of"]}
{"id": "C173", "title": "Nested functions that pyccel accepts compile", "statement": "The generated code of a function with nested functions compiles: every variable that a nested function uses is declared in it, and every call passes what the called function needs.", "quantifier": "all sets of nested functions and all call graphs", "why_tests_cant": "call graphs have any size", "anchors": ["pyccel/parser/semantic.py: SemanticParser._visit_FunctionDef", "pyccel/codegen/printing/ccode.py: CCodePrinter._print_FunctionCall"]}
{"id": "C174", "title": "Variables of a compiled function refer to objects as in Python", "statement": "In a function that makes objects of a class, x = A(...) makes a new object and y = x makes y another name of it: the compiled function prints what Python prints, for all sequences of constructions, assignments, changes of attributes, conditions and loops.", "quantifier": "all functions made of constructions, assignments, attribute changes, conditions and loops; C and Fortran; all numbers of iterations", "why_tests_cant": "sharing depends on the history of assignments, which has any length", "anchors": ["pyccel/parser/semantic.py: SemanticParser._visit_FunctionCall, _ensure_target, _ensure_inferred_type_matches_existing, _indicate_pointer_target, _visit_Assign", "pyccel/codegen/printing/ccode.py: CCodePrinter._print_FunctionCall, _print_AliasAssign", "pyccel/codegen/printing/fcode.py: FCodePrinter._print_FunctionCall, _print_AliasAssign"]}
{"id": "C175", "title": "Objects of a compiled function release their memory exactly once", "statement": "When a function that makes objects ends, the memory of the arrays of all its objects has been released; none was released twice or used after its release.", "quantifier": "the same functions and executions", "why_tests_cant": "leaks and double releases depend on which branches and how many iterations are executed", "anchors": ["pyccel/parser/semantic.py: SemanticParser._garbage_collector, _visit_ClassDef, _ensure_inferred_type_matches_existing", "pyccel/codegen/printing/ccode.py: CCodePrinter._print_Deallocate", "pyccel/codegen/printing/fcode.py: FCodePrinter._print_Deallocate, _print_Allocate"]}
{"id": "C176", "title": "isinstance gives Python's answer", "statement": "In a compiled function isinstance(x, t) is True exactly if it is in Python, for every value that the function accepts and every class, tuple or union of classes t that pyccel accepts.", "quantifier": "all declared types, all classes of values, all nested tuples of classes, all inheritance graphs", "why_tests_cant": "classes form graphs of any shape; tuples nest to any depth", "anchors": ["pyccel/parser/semantic.py: SemanticParser._build_PythonIsInstance, get_cls_base", "pyccel/ast/class_defs.py: get_builtin_cls_base, BooleanClass", "pyccel/ast/operators.py: PyccelOr.make_simplified", "pyccel/ast/numpytypes.py: NumpyNumericType.__eq__, __hash__", "pyccel/stdlib/cwrapper/cwrapper.h: PyIs_Bool, PyIs_NativeFloat, PyIs_NativeInt"]}
{"id": "C177", "title": "Printed Python functions choose the body for the given types", "statement": "When a function with several declared types is translated to Python and its bodies differ, the printed function runs the body for the types that the arguments have, and never fails while it tests them.", "quantifier": "all sets of declared types, all bodies, all arguments", "why_tests_cant": "types nest to any depth and arguments are arbitrary", "anchors": ["pyccel/codegen/printing/pycode.py: PythonCodePrinter._print_Interface, get_type_checks, _get_numpy_name"]}
{"id": "C178", "title": "Printed Python text has the structure of the program", "statement": "The text printed for language='python' is a Python program, it can be read in one way only, and its functions, loops and branches do what those of the program did.", "quantifier": "all programs: any nesting of loops and branches, any statements and conditions", "why_tests_cant": "programs nest to any depth; the effect of statements is arbitrary", "anchors": ["pyccel/codegen/printing/pycode.py: PythonCodePrinter._print_CodeBlock, _print_If, _print_For, _print_While, _print_FunctionDef, _indent_codestring", "pyccel/parser/semantic.py: SemanticParser._visit_If, _visit_CodeBlock", "pyccel/ast/core.py: CodeBlock"]}
{"id": "C179", "title": "Printed assignments of arrays keep their values", "statement": "An assignment of an array, or of its transpose, to a name or to the elements of another array gives the same values in the printed Python code.", "quantifier": "all arrays, ranks, orders and both kinds of assignment", "why_tests_cant": "arrays of every shape and content", "anchors": ["pyccel/codegen/printing/pycode.py: PythonCodePrinter._print_Assign, _print_AliasAssign", "pyccel/parser/semantic.py: SemanticParser._visit_Assign, _ensure_target"]}
{"id": "C180", "title": "np.count_nonzero gives NumPy's result (Fortran)", "statement": "np.count_nonzero of an array, of all elements or along an axis, with or without keepdims, gives NumPy's numbers in an array of NumPy's shape.", "quantifier": "all ranks above 0, shapes, contents, orders, axes, keepdims", "why_tests_cant": "all ranks and shapes; the dimensions are reversed in Fortran for one of the orders", "anchors": ["pyccel/codegen/printing/fcode.py: FCodePrinter._print_NumpyCountNonZero, _print_PythonBool", "pyccel/ast/numpyext.py: NumpyCountNonZero"]}
{"id": "C181", "title": "np.nonzero finds the elements that are not zero (Fortran)", "statement": "np.nonzero(a) and np.where(a) give the indices of all elements that are not zero, in increasing order, in an array of just that length.", "quantifier": "all arrays", "why_tests_cant": "all lengths and contents", "anchors": ["pyccel/codegen/printing/fcode.py: FCodePrinter._print_NumpyNonZeroElement", "pyccel/ast/numpyext.py: NumpyNonZero, NumpyNonZeroElement", "pyccel/parser/semantic.py: SemanticParser._build_NumpyNonZero"]}
{"id": "C182", "title": "np.full computes the fill value once (C)", "statement": "After x = np.full(n, e) every element of x is the value that e had before the statement, and every call in e was made once.", "quantifier": "all lengths, all expressions with elements of arrays, operators and calls, all functions and states", "why_tests_cant": "the value of an expression can change while the array is filled; depends on length, contents and functions", "anchors": ["pyccel/codegen/printing/ccode.py: CCodePrinter.arrayFill", "pyccel/ast/numpyext.py: NumpyFull", "pyccel/parser/semantic.py: SemanticParser._visit_FunctionCallArgument"]}
{"id": "C183", "title": "The text that epyccel translates is the text of the function", "statement": "A function or a class given to epyccel is translated from its own source: whatever the indentation of the place where it is defined, every line is kept as it is, and only the header of each method is replaced by one line with the same name and the same signature.", "quantifier": "all sources: number and length of lines, indentation, comments, headers over several lines, number and order of methods", "why_tests_cant": "the lines are cut and searched as text; comments, strings and headers can have any form", "anchors": ["pyccel/commands/epyccel.py: get_source_code_and_context"]}
{"id": "C184", "title": "A name in a function given to epyccel refers to the object that Python finds", "statement": "When a function given to epyccel, or a function that it calls directly or not, uses a name that is not its own, the translated function uses the object that Python finds: around the definition, then in the module of that function, then among the built-in functions.", "quantifier": "all functions, modules, names and chains of calls", "why_tests_cant": "chains of calls of any length over any modules", "anchors": ["pyccel/commands/epyccel.py: get_source_code_and_context", "pyccel/parser/semantic.py: SemanticParser._visit_FunctionCall, _visit_PyccelSymbol", "pyccel/parser/syntactic.py: SyntaxParser._visit_Call", "pyccel/ast/builtins.py: builtin_functions_dict"]}
{"id": "C185", "title": "A dot product is NumPy's", "statement": "np.vecdot(a, b), np.matmul(a, b) and a @ b of two vectors give NumPy's sum, also when the result is assigned to an element of one of the vectors, with += or -=, or is an operand of an expression; nothing else changes.", "quantifier": "all lengths, strides, contents (complex numbers), targets and operators", "why_tests_cant": "all lengths and all overlaps of target and vectors", "anchors": ["pyccel/codegen/printing/ccode.py: CCodePrinter._inline_vecdot, _print_AugAssign, _print_Assign", "pyccel/codegen/printing/fcode.py: FCodePrinter._print_NumpyVecdot, _print_NumpyMatmul", "pyccel/ast/numpyext.py: NumpyVecdot, NumpyMatmul"]}
{"id": "C186", "title": "Functions of complex numbers that pyccel rewrites keep their values", "statement": "cmath.phase, cmath.polar and cmath.rect, and math.sqrt and cmath.sqrt of products, have the mathematical value of the Python function (up to rounding).", "quantifier": "all real and complex arguments", "why_tests_cant": "all numbers; the branch of the angle depends on the signs", "anchors": ["pyccel/parser/semantic.py: SemanticParser._build_MathSqrt, _build_CmathSqrt, _build_CmathPolar, _build_CmathRect, _build_CmathPhase"]}
{"id": "C187", "title": "What is marked as Final does not change", "statement": "In an accepted module a variable or parameter marked with typing.Final never gets another value, and the memory of a marked array is not written: not by assignments to elements, rows or slices, not through other names, not by functions that it is passed to.", "quantifier": "all modules with any functions, parameters, local variables and statements", "why_tests_cant": "all programs: the value can be changed along any chain of names and calls", "anchors": ["pyccel/parser/semantic.py: SemanticParser._visit_Assign, _visit_AugAssign, _infer_type, _ensure_inferred_type_matches_existing, _check_argument_compatibility, _visit_AnnotatedPyccelSymbol", "pyccel/ast/variable.py: IndexedElement", "pyccel/ast/numpytypes.py: NumpyNDArrayType.switch_rank", "pyccel/ast/datatypes.py: FinalType", "pyccel/ast/core.py: FunctionDefArgument.inout", "pyccel/codegen/printing/fcode.py: FCodePrinter._print_Declare"]}
{"id": "C188", "title": "What is marked as Final can be read", "statement": "An assignment to a new name whose expression only reads variables marked with typing.Final is accepted.", "quantifier": "all expressions and all types of variables", "why_tests_cant": "all expressions", "anchors": ["pyccel/parser/semantic.py: SemanticParser._visit_Assign, _infer_type", "pyccel/ast/operators.py: PyccelUnaryOperator", "pyccel/ast/numpytypes.py: NumpyNDArrayType.__add__"]}
{"id": "C189", "title": "Calls of epyccel do not change what Python imports later", "statement": "After any sequence of calls of epyccel, successful or not, sys.path is what it was, and import m gives the same module as if epyccel had not been called.", "quantifier": "all histories of calls, changes of the folder and imports; all folders and files; all steps at which a call can fail", "why_tests_cant": "all histories and all points of failure", "anchors": ["pyccel/commands/epyccel.py: epyccel_seq", "pyccel/codegen/pipeline.py: execute_pyccel"]}
{"id": "C190", "title": "Every call of epyccel gives its own module and leaves no state behind", "statement": "A call of epyccel returns the module that it has built, under a name that no loaded module and no other process has; modules that are loaded and their files stay as they are; whatever fails, the lock is released and pyccel is ready for the next call.", "quantifier": "all histories of calls in a process, all random tags, all names held by other processes, all steps at which a call can fail", "why_tests_cant": "all histories and all points of failure", "anchors": ["pyccel/commands/epyccel.py: get_unique_name, epyccel_seq", "pyccel/utilities/stage.py: PyccelStage"]}
{"id": "C191", "title": "A compiled module finds the compiled modules that it uses", "statement": "From any folder and with any sys.path, importing a compiled module also loads the compiled modules that it uses, each from its own folder; sys.path is the same afterwards, also if an import fails.", "quantifier": "all trees of modules, all search paths, all failures", "why_tests_cant": "all trees of modules and all points of failure", "anchors": ["pyccel/codegen/wrapper/c_to_python_wrapper.py: CToPythonWrapper._build_module_import_function, _build_module_init_function"]}
{"id": "C192", "title": "np.array builds the array written (C)", "statement": "After x = np.array(d, ndmin=k) in the generated C code, for a new variable or one of the same shape, x has the elements that Python gives it, all computed from the values before the assignment, and nothing else has changed.", "quantifier": "all lists of lists, of any depth, of numbers and arrays, all values of ndmin, all contents of the arrays", "why_tests_cant": "unbounded nesting and shapes, aliasing between the target and the elements", "anchors": ["pyccel/codegen/printing/ccode.py: CCodePrinter.copy_NumpyArray_Data, _flatten_list, _print_Assign", "pyccel/stdlib/STC_Extensions/CSpan_extensions.h: cspan_copy", "pyccel/ast/numpyext.py: NumpyArray, get_shape_of_multi_level_container"]}
{"id": "C193", "title": "Number literals keep their value", "statement": "An integer or decimal number written in a Python program, with or without a minus, and np.float32 of a decimal number, have the same value, to the last bit, in the generated C and Fortran code as in Python.", "quantifier": "all non-negative integers and decimal numbers, both languages, all functions repr that keep Python's promise", "why_tests_cant": "infinitely many numbers; rounding in two steps differs from rounding in one step only for special numbers", "anchors": ["pyccel/parser/syntactic.py: SyntaxParser._visit_Constant", "pyccel/ast/literals.py: LiteralInteger, LiteralFloat", "pyccel/ast/builtins.py: PythonFloat.__new__", "pyccel/codegen/printing/ccode.py: CCodePrinter._print_LiteralInteger, _print_LiteralFloat", "pyccel/codegen/printing/fcode.py: FCodePrinter._print_Literal"]}
{"id": "C194", "title": "Infinities and NaN keep their value and are recognised", "statement": "math.inf, -math.inf and math.nan have the same value in the generated code as in Python, and isfinite, isinf and isnan tell the values apart as in Python.", "quantifier": "both languages, all positions of the constant, all values of the argument", "why_tests_cant": "the values are special in each language and each context of an expression", "anchors": ["pyccel/codegen/printing/ccode.py: CCodePrinter._print_Constant, _print_NumpyIsInf, _print_MathIsinf", "pyccel/codegen/printing/fcode.py: FCodePrinter._print_Constant, _print_Assign, _print_NumpyIsInf, _print_MathIsnan", "pyccel/ast/mathext.py: math_constants"]}
{"id": "C195", "title": "pyccel config deletes only what it is asked to delete", "statement": "pyccel config remove FAMILY deletes the folder of this registered family and changes nothing else; pyccel config register changes no existing file.", "quantifier": "all names that can be given as a family, all contents of the file system", "why_tests_cant": "all strings as names of paths, destructive commands", "anchors": ["pyccel/commands/pyccel_config.py: pyccel_config_register, pyccel_config_remove"]}
{"id": "C196", "title": "A registered compiler is the one that is used", "statement": "After every sequence of the commands pyccel config register and pyccel config remove, each command has succeeded exactly if it should, and a family is used with the configuration that was registered last and not removed.", "quantifier": "all sequences of commands, names and configurations", "why_tests_cant": "histories of unbounded length over a file system", "anchors": ["pyccel/commands/pyccel_config.py: pyccel_config_register, pyccel_config_remove", "pyccel/codegen/compiling/compilers.py: Compiler.__init__", "pyccel/commands/argparse_helpers.py: compiler_choices, add_compiler_selection"]}
{"id": "C197", "title": "An interrupted or failed registration can be repeated", "statement": "When pyccel config register is interrupted at any moment, or fails, nothing is registered: other families are as before, and the command can be repeated.", "quantifier": "all moments of an interruption, all outcomes of the build of the library", "why_tests_cant": "crash points cannot be enumerated by tests", "anchors": ["pyccel/commands/pyccel_config.py: pyccel_config_register, pyccel_config_remove"]}
{"id": "C198", "title": "pyccel config check accepts what can be used", "statement": "pyccel config check accepts a JSON file exactly if it is a compiler configuration that can be used: settings for C or Fortran, with a compiler, names and flags that are strings, and paths that are absolute and exist; in particular what pyccel config export writes is accepted.", "quantifier": "all JSON files, all contents of the file system", "why_tests_cant": "JSON files of unbounded size and depth", "anchors": ["pyccel/commands/pyccel_config.py: pyccel_config_check, check_config_paths", "pyccel/codegen/compiling/compilers.py: Compiler.get_exec, Compiler.export_compiler_info", "pyccel/compilers/default_compilers.py: available_compilers"]}
{"id": "C199", "title": "Pyccel searches imported files where Python does", "statement": "The Python file that pyccel takes for the module of an import statement is the file that Python loads for it: for names with dots in front, for modules next to the script and for installed packages.", "quantifier": "all file systems, all values of sys.path, all folders of the importing file, all names of modules", "why_tests_cant": "unbounded trees of folders and packages", "anchors": ["pyccel/parser/base.py: get_filename_from_import", "pyccel/parser/parser.py: Parser.parse_sons"]}
{"id": "C200", "title": "A number captured from around a function has its value in every expression", "statement": "A function given to epyccel may use numbers defined around it. The generated code computes the same expression as Python with these numbers in place of their names, whatever the signs of the numbers and the operators around them.", "quantifier": "all expressions over captured names, all sets of names whose number is negative, C and Fortran", "why_tests_cant": "unbounded nesting of expressions, every combination of signs", "anchors": ["pyccel/parser/semantic.py: SemanticParser.env_var_to_pyccel, _visit_PyccelSymbol", "pyccel/ast/literals.py: convert_to_literal", "pyccel/codegen/printing/ccode.py: _print_LiteralFloat", "pyccel/codegen/printing/fcode.py: _print_LiteralFloat"]}
{"id": "C201", "title": "Container types in C are declared before they are used, once", "statement": "Whatever lists, sets, dictionaries and arrays a program uses, nested to any depth and met in any order, the generated C declares the type of each of them, after all the types it is made of, under a name that no other type has, and never twice.", "quantifier": "all lists of Python types, nested to any depth, in any order of use; any comparison of names", "why_tests_cant": "unbounded nesting and number of types, any order of use", "anchors": ["pyccel/codegen/printing/ccode.py: CCodePrinter.get_c_type, sort_imports, _print_Import, _get_stc_element_type_decl", "pyccel/codegen/printing/codeprinter.py: CodePrinter.add_import", "pyccel/ast/low_level_tools.py: MemoryHandlerType"]}
{"id": "C202", "title": "lambdify gives the function of the expression", "statement": "The function that pyccel.lambdify makes from a SymPy expression takes the arguments in the order of the dictionary, and returns the value of the expression for these values of its symbols; with use_out it writes this value to its last argument.", "quantifier": "all SymPy expressions, all dictionaries of symbols, with and without use_out, all values of the symbols", "why_tests_cant": "unbounded expressions and dictionaries, every name of a symbol", "anchors": ["pyccel/commands/lambdify.py: lambdify"]}
{"id": "C203", "title": "The size computed at run time for a comprehension is the number SymPy found", "statement": "The number of elements of a comprehension is found symbolically when the program is translated. The generated code computes, for all values of the variables, the value of this symbolic expression; and every such expression is accepted.", "quantifier": "all symbolic expressions, all values of the variables", "why_tests_cant": "unbounded expressions, every integer value of the variables, rounding of floating-point numbers", "anchors": ["pyccel/ast/sympy_helper.py: sympy_to_pyccel", "pyccel/parser/semantic.py: SemanticParser._visit_FunctionalFor"]}
{"id": "C204", "title": "A condition decided at translation has that value in every run", "statement": "If pyccel decides the condition of an if while translating, and drops the branch or the test, the condition has that value for all values of the variables and attributes in it; and the size it finds for a comprehension over a range is the length of the range for all of them.", "quantifier": "all conditions and bounds, all variables, attributes and elements of shapes in them, all values, every set of names in use", "why_tests_cant": "unbounded expressions, every assignment of values, every coincidence of names", "anchors": ["pyccel/ast/sympy_helper.py: pyccel_to_sympy", "pyccel/parser/semantic.py: SemanticParser._visit_IfSection, SemanticParser._visit_FunctionalFor"]}
{"id": "C205", "title": "Calls that return arrays are made when Python makes them", "statement": "A call of a function that returns an array, inside an expression, is made after what is on its left has been evaluated, only if Python reaches it, and again each time Python evaluates the expression; so the translated program ends with the same variables and arrays as the program.", "quantifier": "all programs of assignments, branches and loops, all expressions, whatever the functions read and change, all states and numbers of steps", "why_tests_cant": "unbounded programs and loops, functions with arbitrary effects on the arrays of the caller", "anchors": ["pyccel/parser/semantic.py: SemanticParser._handle_function, SemanticParser._visit_Assign, SemanticParser._visit_IfTernaryOperator, SemanticParser._visit_CodeBlock, SemanticParser._visit_While, SemanticParser._visit_IfSection"]}
