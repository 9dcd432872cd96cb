{
"C01": {
"note": "C and Fortran floor division at every supported width; the one overflowing pair (minimum, -1) is stated separately."
},
"C02": {
"note": "Modulo in C and Fortran, and the divmod identity."
},
"C03": {
"note": "gcd proved; lcm proved except lcm(0, 0), where the generated C divides by zero (C03_lcm_zero_violated)."
},
"C04": {
"note": "factorial for all arguments whose result fits; negative arguments stated separately."
},
"C05": {
"note": "round(x, -d): value within half a unit and correct off ties; ties are not rounded to even in general (C05_round_c_violated, C05_round_fortran_violated)."
},
"C06": {
"note": "Augmented assignment equals the binary operation except `%=` in C (C06_mod_violated)."
},
"C07": {
"note": "True division converts operands to floating point first, except two booleans in C (C07_bool_violated)."
},
"C08": {
"note": "C range loop runs exactly Python's range for any body that leaves the bounds and the loop variable unchanged; no overflow past the end assumed."
},
"C09": {
"note": "Holds in Fortran; violated in C, where bounds are re-evaluated at each iteration. For C, C08_range_loop_c is the part that holds (bounds not modified)."
},
"C10": {
"note": "Fortran DO loop runs exactly Python's range, any non-zero step."
},
"C100": {
"note": "Exact condition for any strides; new arrays, rows and ranges of rows, and all results that Fortran copies are right. Negations: slices with a step, columns."
},
"C101": {
"note": "Proved for variables of any rank, order and ndmin, nested lists of any depth, lists of arrays except one-element lists of matrices and ndmin with order F; transposition in all orders. Negations for both exceptions."
},
"C102": {
"note": "Fortran: operands of one order; C: any strides, result apart from the operands. Negations: vector times column-major matrix, order='F', mixed orders, overlapping result."
},
"C103": {
"note": "All ranks and sets of axes; keepdims only with non-negative axes. Two statements sharing loops: last axis right. Negations: keepdims with a negative axis, first axis in a shared loop."
},
"C104": {
"note": "Target apart from the array (or its first element for extrema); Fortran sums with an initial value not as factors or subtracted. Negations for each."
},
"C105": {
"note": "Exact condition in C and Fortran: the loop is left by break, or the range is empty and the variable already had the start value. Negations: a loop that ends (last + step), an empty range (start)."
},
"C106": {
"note": "Simulation of whole programs (calls, loops, if/elif/else, conditional expressions) in C and Fortran for the programs that obey a decidable discipline: numbers are read only where a test dominates, no test against None below a conditional assignment, loops assign only what was assigned before. Outside it: ten negations (stale copy after +=, caller's variable changed, tests in loops and below assignments, two tests before else, elif conditions computed early, comparison with an absent argument, Fortran evaluation of both operands). Missing: arrays and other types."
},
"C107": {
"note": "Exact condition for Fortran (no None before another positional argument), keyword arguments always, C always. Negation: f(None, 3) in Fortran."
},
"C108": {
"note": "Whole expressions by induction, in C and Fortran, where pyccel's types agree with NumPy's and no operation overflows its type; exact conditions for the agreement of types per operator; exact condition for compilation in Fortran of expressions of bool and int; sums and products of one NumPy type have NumPy's wrapped value after assignment. Eleven negations (integer promotion before a comparison, overflow, 32-bit sums of truth values, shifts by 64, -2**63 % -1, code that gfortran rejects, -b, ~ and abs of NumPy integers, evaluation of both operands of and). Missing: real and complex operands."
},
"C109": {
"note": "Exact table for all pairs of types (exhaustive). Negations: int32 or int64 with float32 or complex64, float with float32."
},
"C11": {
"note": "Size of comprehensions over range; negative literal steps and empty ranges with reversed bounds violate it."
},
"C110": {
"note": "Simulation of all programs by induction where every value has the type of its target; the check of pyccel is proved to be enough for all programs on numbers, lists and tuples with one element type, with numbers of Python and 64-bit NumPy types, and with NumPy numbers of any size; an accepted assignment keeps kind and size of the numbers. Eight negations (elements of tuples and lists are not checked, shorter tuples, copied tuples, int and int64 count as equal, ternary, paths without return). Missing: arrays, objects, functions that call each other; real numbers are exact."
},
"C111": {
"note": "Round trip from the printer through the textX grammar (modelled as a parsing expression grammar on characters) and the semantic stage, by mutual induction on types and annotations; injectivity follows. Negation: the empty tuple is printed as tuple[()], which the grammar cannot read. Missing: scalars on the heap; the import lines of the stub are taken as given."
},
"C112": {
"note": "Exact characterisation: the parameter list is preserved if and only if there are no positional-only parameters, no keyword-only parameters or a *args. Negations: the last ordinary parameter becomes keyword-only (for all such functions), or the stub is a syntax error. Missing: defaults of positional-only parameters (C44)."
},
"C113": {
"note": "Soundness and completeness against an inductive specification of annotations, by induction on the annotation. Negations: unions in dictionaries are zipped, orders are ignored for unions of element types, unknown orders are taken for F. Missing: Final, Annotated, strings inside annotations."
},
"C114": {
"note": "Exact characterisation by induction on expressions, with the C grammar of C20: the printed text is read with the right value, for all operations, if and only if np.where is never an operand, the argument of bool or a condition. Negations with numbers. Missing: casts between number types; the other operators (C20)."
},
"C115": {
"note": "Exact characterisation by induction on expressions, with the Fortran grammar of C21: the text is read with the right value, for all operations, if and only if calls that are printed as operators stand where their level is accepted and spliced arguments are tight enough. Negations for np.sum, math.pow, @, np.arange and two norms. Missing: casts between number types; the other operators (C21)."
},
"C116": {
"note": "Exact characterisation by induction on expressions: in every run, for every behaviour of the functions, each function is called as often as in Python if and only if no call lies in something that is visited twice (arguments of an array-valued call that is moved, array operators in arguments, the base of ** 0.5); it is never called less often. Negations: y = 1 + f(a * s(n)) calls s twice in both languages; nested array-valued calls and ** 0.5 in C. Missing: indexed calls, inlined functions, methods, tuples."
},
"C117": {
"note": "Simulation proof for every meaning of the functions and every order of evaluation, for statements without repeated calls in which whatever stays in an operand commutes with what is moved out of later operands and with the other operands. Negations: calls moved before earlier calls and reads, array operators moved before earlier calls, order of operands. Missing: necessity of the second condition; interleaved evaluation of operands."
},
"C118": {
"note": "Exact characterisation: printable in Fortran if and only if no array-valued call lies in something that is visited twice. Negation: x = g(f(h(n)))."
},
"C119": {
"note": "Exact characterisation for C (any number of columns) and for Fortran (one dimension, any elementwise expression around the call). Negations: one element gives stop instead of start; the last element of an integer array is rounded towards zero; no element writes in front of the array in Fortran; 2 * linspace(...) ends with stop in Fortran. Numbers are rational: rounding is not modelled. Missing: complex numbers, the inferred element type."
},
"C12": {
"note": "enumerate and product proved; zip proved unless literal and run-time lengths are mixed (C12_zip_violated)."
},
"C120": {
"note": "Exact characterisation for C and Fortran; true for floating point types and for integers, if the length is not negative (C). Negations: np.arange(5, 2) in C; fractional steps with an integer type. Numbers are rational: rounding is not modelled."
},
"C121": {
"note": "Proved for every rank, size and choice of axes, with broadcasting, if the result is a third array of NumPy's shape and the dimensions of size one are visible to the compiler. Negations: a = np.cross(a, b); axisc; broadcasting with axis=0; a dimension of size one known only at run time; vectors of two elements. Numbers are rational: rounding is not modelled."
},
"C122": {
"note": "Exact: right for all integers and, for real numbers, exactly if the number is not NaN. Negative zero is not modelled; complex numbers are not modelled."
},
"C123": {
"note": "Proved for all non-empty arrays without NaN in both languages. Negation: arrays with a NaN. Not modelled: the initial argument (fcode.py prints maxval of a complex array for it)."
},
"C124": {
"note": "Exact in both languages for all strings. Negations: trailing blanks in Fortran, null characters in C, int(s != t) and (s != t) == True in C."
},
"C125": {
"note": "Exact: C for strings without null characters, Fortran arguments for ASCII strings. Negations: 'é' as a Fortran argument, null characters in C. The wrapper's memory management of these strings is not modelled."
},
"C126": {
"note": "Exact: right if and only if every assignment on the path is harmless and every local variable that is not returned has a value. Negations: t = s with a long string (freed twice), s = str(s) (use after free), assignment in a branch not taken, first assignment in a loop, return through a result variable. Not modelled: strings in containers, assigned arguments, allocation failure; the allocation flags are an input (C68 models how they are computed)."
},
"C127": {
"note": "Exact: right if and only if the string is ASCII. Negation: 'é'."
},
"C128": {
"note": "Exact if no @inline function mentions itself: legal if and only if every function that leads to itself does so by a direct call. Negations: mutual recursion, a nested function that calls its host, recursion through an @inline function that stands first in the file. Not modelled: calls through function arguments, several versions of one function, functions of other modules."
},
"C129": {
"note": "Proved if no @inline function leads to itself through @inline functions alone. Negation: a recursive @inline function that is @private or stands after its caller. Errors other than this one are not modelled."
},
"C13": {
"note": "All in-range indices, literal or run-time, C and Fortran, all ranks; excluded and violated: literal -0 in Fortran, run-time negative indices into nested tuples in Fortran."
},
"C130": {
"note": "Exact up to the signs of zeros for finite arguments in C and for every first argument in Fortran; exact for two float variables in C (bit by bit) and for two real variables in Fortran. Negations: integers with more than 24 bits and infinite imaginary parts in C, single precision sums in Fortran, the sign of a zero. Not modelled: overflow, strings."
},
"C131": {
"note": "Exact. Negation: a complex argument together with a real one is evaluated twice."
},
"C132": {
"note": "Exact up to the signs of zeros for x that is not infinite. Negation: n * 1j loses digits. Not modelled: differences, other operators, overflow."
},
"C133": {
"note": "Exact, with the types whose numbers are the same. Negations: 1.0 in [1, 2], np.int32 in a list of integers, a call that is dropped. Not modelled: NaN, strings and tuples as elements, how STC and gFTL search, user classes with __contains__."
},
"C134": {
"note": "Exact for the tests that are translated. Negations: b is True for an optional b that is None (undefined behaviour), two absent optional arguments of different types, a call that is dropped, None is x. Not modelled: operands that are arrays or containers."
},
"C135": {
"note": "Exact in C and in Fortran for arguments for which Python raises nothing. Negations: long integers in C, math.ceil beyond 32 bits in Fortran. Not modelled: truth values as arguments, overflow of exponents."
},
"C136": {
"note": "Exact in C and in Fortran, bit by bit. Negations: np.floor of large and infinite numbers and of np.int32 in Fortran, np.abs of long integers in both."
},
"C137": {
"note": "Exact in C and in Fortran. Negation: math.trunc(x) is a floating-point number."
},
"C138": {
"note": "Proved for all options but -n together with -p; the negation is a link to a folder, which that call removes. Nothing new ever appears (full). Not modelled: missing permissions, changes by others meanwhile."
},
"C139": {
"note": "Proved for folders without symbolic links; with -n for all folders. Negation: a link to the folder of another project."
},
"C14": {
"note": "Bounds inside the sequence and in order, positive or negative literal step; clamping, reversed bounds and negative run-time steps are violated."
},
"C140": {
"note": "Proved for recursive calls in folders without links; the condition for success is exact for folders with files and folders only. Negations: a dangling link, -n -p with a folder. A file (not a folder) named __pyccel__* is not removed and not counted."
},
"C141": {
"note": "Proved for functions that assign no parameter as a whole, for all ways to share arrays; the values of the variables for different arrays in general. Negation: a = a + 1 changes the caller's array. Not modelled: arrays of different lengths, slices, aliases between local variables (C79)."
},
"C142": {
"note": "C: C141_caller_partial covers shared arrays. Fortran: proved if no shared array is written through one of the parameters that share it. Negations: f(x, x) undefined in Fortran; a parameter assigned as a whole changes the other."
},
"C143": {
"note": "Proved: Fortran loops that break; the exact condition for the others; the exact condition for undefined behaviour; C and Fortran for bodies that keep the length; C for bodies that append, relative to Fortran. Negations: appended elements are not visited, appending without room reads freed memory, removing elements reads outside the list. Assumed: the containers of STC and gFTL behave as stated in Model.lean."
},
"C144": {
"note": "Proved for bodies that write elements. Negation: the name is given to another array in the loop."
},
"C145": {
"note": "Every item is visited once (Fortran in full; C by the assumption on the hash table). The order: exact conditions; bodies for which the order does not matter give Python's result. Negations: {2: 20, 1: 10} in Fortran."
},
"C146": {
"note": "Exact real arithmetic. Proved for vectors that are not empty, for real numbers (C) and all (Fortran), integers in C under a bound, and the Frobenius norm. Negations: integers of 2^32 or more in C, negative orders of integers in C, order 1 of a matrix. Not modelled: axis, empty vectors."
},
"C147": {
"note": "Proved for operands of different types, and for equal types unless the class defines the reflected method only. Augmented assignment in full. Negations: a class with __radd__ only; x += y with __radd__ of y is refused. Not modelled: inheritance, NotImplemented."
},
"C148": {
"note": "Proved for methods in which nothing follows a return. Negations: an early return self is dropped; a method without return."
},
"C149": {
"note": "Proved if no number of repetitions is negative, for all nestings; exact for a repetition of a variable. Negations: (1, 2) * -1. Not modelled: the target among the operands (C69), inhomogeneous tuples."
},
"C15": {
"note": "Non-empty in-range slices select Python's elements (contract of STC's cspan_slice assumed); negative steps are refused; empty slices violate it."
},
"C150": {
"note": "Proved for the objects that pyccel makes (Made: objects without a file need none with one); C150_condition shows that this cannot be dropped."
},
"C151": {
"note": "Every library is given once (full); the links are found if no library occurs twice. Negation: --libs blas with a stub that asks for lapack,blas. Not modelled: shared libraries, libraries given as paths."
},
"C152": {
"note": "Proved for modules if the flags of the user do not conflict with those of pyccel; exact condition. Negations: -O0 is overridden by -O3; programs are compiled without the flags of the user."
},
"C153": {
"note": "Proved if no file is in two of the folders. Negation: any order of the folders is possible."
},
"C154": {
"note": "Proved for histories in which the options and the compiler stay the same and times differ. Negations: other options; an upgrade in the same tick of the clock."
},
"C155": {
"note": "Fortran: in full for the model; C: for bodies without vector statements, and with them if the turns are executed one after the other. Negation: a[i, :] = 1 in C, with a schedule that loses an element. Steps are sequentially consistent; the turns are threads. Not modelled: clauses (reduction, private), loops inside the body."
},
"C156": {
"note": "C in full; Fortran: exact condition. Negation: single nowait followed by single. Sections and single constructs in one block; nested blocks are separate."
},
"C157": {
"note": "Proved without masked taskloop and for names of critical sections that do not contain a word for a loop; both conditions are necessary. Negations for both. Not modelled: Fortran; an end that does not match (OpenMP refuses it)."
},
"C158": {
"note": "No comment is lost or exchanged with another (full). Their places: proved for programs without else and elif, and with them under the conditions of `careful`. Negations: an earlier else in the file; a comment in the statement after an else; a comment between else and if; a comment after an if in an else."
},
"C159": {
"note": "Exact condition. Negation: a docstring with a line that begins with #. Not modelled: nested quotes in f-strings, the joining of lines with &."
},
"C16": {
"note": "In-range slices with any step, except a positive run-time step with explicit stop under allow_negative_index (violated) and literal -0 bounds (violated)."
},
"C160": {
"note": "Proved for programs in which functions assign names of variables of the file only where they are visibly local. In general the compiled program is the Python program with `global` declarations, exactly characterised if the file calls no function itself. Negations: assignment in a function; shared loop counters; dependence on the order of calls; an annotation in the program. Not modelled: types, nested functions, methods, imported variables."
},
"C161": {
"note": "Proved for importing files that assign no imported name, if the functions of the imported file assign none of its variables (C160). Negation: `from m import x` followed by `x = ...` changes the variable of m. Not modelled: functions of the importing file, renamed imports, `import m`."
},
"C162": {
"note": "Proved for all signatures and calls, except strings with a default value that are omitted: negation, f() passes the empty string for `s: str = 'abc'`. Not modelled: arrays of rank above 1, strides (C18), instances, parsing of the argument tuple (C43)."
},
"C163": {
"note": "Equality in Python's sense proved for all containers of numbers. Negation: the order of the items of a dictionary is lost."
},
"C164": {
"note": "Exact for arguments: released iff no tuple, list or set is passed. Results: lists and sets are released, dictionaries never. Negations: one block is lost with each call. Not modelled: the C wrapper of functions in C, strings, arrays (C80)."
},
"C165": {
"note": "Proved in C and Fortran for lists and arrays if the variables of the clauses differ, the target does not occur in the comprehension (or an array is only read at or after the position being written), and: in C no variable of a clause occurs in the first iterable, in Fortran a clause has at most one condition. Arrays: exactly if the number of values is the allocated size (C11). Negations for each condition: x = [e for v in x] is empty. Not modelled: other iterables (zip, enumerate: C105), elements that are lists, overflow."
},
"C166": {
"note": "Proved for everything but the variables of the clauses; negation: a variable with the same name is overwritten."
},
"C167": {
"note": "Proved if no result variable that the statement assigns is read by a later value of it; in particular for one value, for an annotated tuple and for functions with one return statement that names no variable twice. Negations: `return b + 1, a` beside `return a, b`; `return x, x` does not compile. Not modelled: tuples in tuples, types."
},
"C168": {
"note": "Fortran: proved for all. C: proved for expressions, and for inline functions that end with an assignment to the returned variable or whose last assignment is augmented or uses an array; exact value of the others. Negations: an inline function that ends with if/else, or with an assignment to another variable, and max(e for i in range(n))."
},
"C169": {
"note": "Proved (equivalence, any number of steps) for code in which no loop has an else block; negations: the else block of every for and while loop is dropped."
},
"C17": {
"note": "Non-negative indices of in-range slices; violated for negative indices and for an omitted start with negative step and explicit stop."
},
"C170": {
"note": "Proved (equivalence) for Fortran and for C with the debug flags; for C with the release flags if no assertion fails and the conditions change nothing. Negations: with the release flags assertions are not checked and their conditions not evaluated; a caller cannot handle the AssertionError. Not modelled: messages, exit statuses."
},
"C171": {
"note": "Proved if every path ends with return or none returns a value; exact result otherwise: an arbitrary value where Python gives None. Not modelled: functions with both `return` and `return v`."
},
"C172": {
"note": "Proved for Fortran, and for C if no nested function leads to itself, when nested functions assign names of outer variables only where they are visibly their own; C and Fortran agree for everything that compiles. Negation: an assignment in a nested function changes the outer variable. Not modelled: functions nested twice, arrays."
},
"C173": {
"note": "Proved for acyclic call graphs; negation: a recursive nested function that uses an outer variable does not compile in C."
},
"C174": {
"note": "Proved in C and Fortran if each variable either gets new objects or is another name, conditions and loops make objects only for variables that have one, variables that get new objects in loops have no other names, and a constructor's arguments do not read the array that it replaces. Negations for assignment between structures (copied), construction through a pointer, names kept in loops, own arrays as arguments, a = a. Not modelled: objects as arguments, results (C97) or attributes."
},
"C175": {
"note": "Proved under the same conditions; negations: assignment between structures (double release in C), objects first made in loops (leak in C, error in Fortran) or in branches (C releases memory that was never set)."
},
"C176": {
"note": "Proved for all tests that name none of the classes for which the answer is shown to be wrong (booleans of NumPy, np.float64 and float, np.complex128 and complex), and parameters that are not None; the search through base classes ends for every inheritance graph. Negations: each of these classes, and None for an optional parameter. Not modelled: classes such as object or np.number (rejected), dispatch between implementations (C45)."
},
"C177": {
"note": "Proved: no exception in the tests, a body is only run for accepted arguments, and the right body is run if the types of different bodies cannot be confused. Negations: bool for int | bool, np.float64 for float | np.float64, empty lists, arrays that are not contiguous and None for optional arguments (no body is run)."
},
"C178": {
"note": "Proved for programs in which every block is empty or contains a statement that is printed, which is shown to hold for sources without conditions known to be false; the reading of indented lines is shown to be unique. Negation: a block whose only statement is an if that is dropped. Not modelled: decorators, annotations, nested functions, classes, the text of statements."
},
"C179": {
"note": "Proved for new names and for copies between arrays of the same order. Negation: y[:, :] = x with different orders is printed with x.T. Not modelled: shapes that are broadcast."
},
"C18": {
"note": "Missing: strides that do not divide each other, negative or zero strides, empty views. Three counterexamples proved (wrong element read for a[:, ::2, :], negative bounds, division by zero)."
},
"C180": {
"note": "Proved for array variables in Fortran (C has no translation and reports an error). Elements are modelled as integers of which only the comparison with 0 matters."
},
"C181": {
"note": "Proved for arrays with one dimension: indices, their order and the allocated length. Negation: arrays with more dimensions are refused. Reassigning the array itself (a = np.nonzero(a)[0]) is part of C69."
},
"C182": {
"note": "Proved for expressions without calls that do not read the array; if they read it, an exact condition; the number of calls is shown to be n times that of Python. Negations: x = np.full(3, x[0] + 1), np.full(3, f(0)), np.full(0, f(0)). Not modelled: conversion of the fill value to the element type; Fortran (a scalar assigned to an array, computed once)."
},
"C183": {
"note": "Proved for sources whose headers are simple (comments with one #, one colon at the end) and whose other lines do not look like the definition of a method. Negations: comments left of the function, comments with two #, methods on one line, documentation strings that show the definition. Inherited methods make the translation fail. Not modelled: the replacement of type variables in signatures, the text of the signature itself."
},
"C184": {
"note": "Proved for all chains of calls when names mean the same in all modules involved and do not hide built-in functions. Negations: the user's own max; from numpy import sum as total; a function of another module. Not modelled: variables of the context, functions of the file itself."
},
"C185": {
"note": "Proved for Fortran; in C for assignments to places outside the vectors, and for operands of expressions without restriction. The exact effect of += and -= in C is proved (the product is always added). Negations: x -= a @ b, a[0] = a @ b, an element of an integer array as target. Exact numbers: rounding is not modelled; type conversion is a parameter."
},
"C186": {
"note": "Proved over the real and complex numbers (Mathlib); rounding, overflow (math.sqrt(x*x) does not overflow after the rewriting) and signed zeros are not modelled. Negation: cmath.phase of a negative number of a real type."
},
"C187": {
"note": "Proved for accepted modules whose marked arrays are assigned only as a whole or by slices, passed only to marked parameters, and have one name; for Fortran code that compiles only the last condition is needed for parameters. Negations: an element, a call, a row with a name (both languages), a pointer that is set again (both languages), a local variable. Loops and branches are not modelled."
},
"C188": {
"note": "Exactly which expressions are accepted is proved; the negation is `b = -a` with a marked array."
},
"C189": {
"note": "Proved for all histories and failures, for the modules that the folders of the calls do not provide (or provide as what is found anyhow). Negations: each successful call leaves the current folder in sys.path, so that later imports find other files; also after errors; the folder __epyccel__ stays if the module cannot be loaded."
},
"C19": {
"note": "Printed Python text parses uniquely and has the value of the user expression under every interpretation of the operators, for expressions without implicit conversions, left-nested comparisons or conditional conditions; the three excluded cases are proved to fail."
},
"C190": {
"note": "Proved. That two processes do not hold the same lock is an assumption about the library filelock. For the language Python the folder must have no library of that name."
},
"C191": {
"note": "Proved, for a search path that is not empty; that a file uses the modules that it used when it was built is assumed."
},
"C192": {
"note": "Proved for regular lists of any depth if no element is computed from an element of the target that is written before it (in particular if the target is not read), and for ndmin with an array. Negations: np.array([x[1], x[0]]) assigned to x does not swap elements or rows; with ndmin, members of a list of arrays are lost and lists of numbers are not translated."
},
"C193": {
"note": "Proved for integers below 2^63, for all decimal numbers that are finite, and for np.float32 if the double is not halfway between two singles. Negations: np.float32(1.0000000596046448) is 1 in Python and the next number in C and Fortran; 1e400 is printed as the name inf; np.float32(1e39) and -9223372036854775808 are not valid in Fortran. Subnormal numbers are left out."
},
"C194": {
"note": "Proved for the constants in C and for the tests in both languages. Negations: x = math.inf stores the largest finite number in Fortran, and math.inf in other expressions is printed as a name that is not declared; math.nan is reported as an error."
},
"C195": {
"note": "Proved for names of one folder, and for all names that nothing outside of the folder of the configurations is changed. Negations: pyccel config remove . deletes all configurations; remove gnu/STC deletes a part of one."
},
"C196": {
"note": "Proved for all histories with names of one folder that are not built-in, if the library can be built and the path has no symbolic links; for the command line if the name has no dot. Negations: names with a dot are not accepted by the command line; names of built-in compilers are never used; nested names block others; with a symbolic link nothing can be registered or removed."
},
"C197": {
"note": "Proved: other families are not changed at any crash point, and remove followed by register repairs. Negations: an interrupted registration leaves a family that cannot be used or registered; a failed build leaves the family registered."
},
"C198": {
"note": "Proved: everything usable is accepted; what is accepted has only C and Fortran, the right outer types, and paths that are absolute and exist. Negations: no compiler; flags that are not strings; flags of tools after the first; exports of registered families are never accepted."
},
"C199": {
"note": "Proved: imports with dots in front (exactly, if no folder has a module and a folder of one name); files below the folder of the script in packages with __init__.py; modules of installed packages. Negations: absolute imports in packages are taken as relative; installed packages with a module of the same name; missing packages in the middle are skipped; module and package of one name; folders without __init__.py; packages next to the script are not found."
},
"C20": {
"note": "Printed C text parses uniquely (C11 grammar) to the intended expression exactly for the nestings in CSafe (iff); four violating nestings shown concretely."
},
"C200": {
"note": "Proved: C, for the nestings of C20 and no minus sign directly in front of a negative float (one reading, and it is the user's expression with the numbers); Fortran, for the nestings of C21 and no negative float. Negations: Fortran x ** n and a * x, a + x with a negative float; C -x with a negative float."
},
"C201": {
"note": "Proved for all types whose keys and elements of sets are hashable, as in Python; C201_printed: the file is printed if no list, set or dictionary holds an array or a tuple (pyccel reports an error otherwise)."
},
"C202": {
"note": "Proved if the names of the arguments are different, are Python names and not numpy (nor out with use_out). Negations: symbols named like keywords, names with braces, two symbols of one name, a symbol numpy, a symbol out and no arguments with use_out."
},
"C203": {
"note": "Proved in exact arithmetic when the only negative exponent is -1, for expressions of integers with any rounding, and for steps that are powers of two with IEEE rounding. Negations: range(1, n, 5), range(m // n), range(m // n**2), three independent loops."
},
"C204": {
"note": "Proved for conditions and bounds whose variables and attributes have different last names, assuming that what SymPy finds out is right. Negations: a.x == b.x is taken to be true, range(a.x, b.x) is taken to be empty, (a + b) - a == b is taken to be true of floats."
},
"C205": {
"note": "Proved for programs in which these calls come first in their statements and are not in the test of a while or an elif; all of them are moved before the statement, from left to right and each once, but those in the first branch of a conditional expression that is assigned twice. Negations: a[0] + f(a)[0], g(1) + f(a)[0], c and f(a)[0], y = f(a)[0] if c else 7 (called in any case, and twice), f(a)[0] if g(a)[0] else 7, x = f(a) if c else g(b) for arrays, elif f(a)[0], while 0 < f(a)[0]. Calls whose arguments are calls are not modelled."
},
"C21": {
"note": "Printed Fortran text parses uniquely (F2018 grammar) to the intended expression exactly for the nestings in FSafe (iff, when no == compares a boolean with a number); five violating nestings shown concretely."
},
"C22": {
"note": "Node built from an expression erases to it up to and/or grouping, which never changes the value; rebuilding inserts nothing further."
},
"C23": {
"note": "Exact arithmetic (no rounding, no infinities); rounding violation shown for 53-bit floats. Complex numbers, strings and arrays are not modelled."
},
"C24": {
"note": "Type preserved up to pyccel's == on types; violated for x * 1.0 and for regrouped literals of mixed Python/NumPy types."
},
"C25": {
"note": "Proved for argument lists of any length."
},
"C26": {
"note": "Full for the chain built by the syntactic stage. Pruning: for every sound static evaluation of conditions (SymPy is a parameter). SymPy's rule Eq(x, x) = true is unsound for NaN, so `if x != x:` is dropped: C26_nan_guard_violated. The splitting of `a is not None and ...` is in C106."
},
"C27": {
"note": "Proved when the operands between the first and the last have no effects; otherwise they are evaluated twice (two violations)."
},
"C28": {
"note": "Holds for the reserved words of the checkers; the C keyword while is misspelt whie in the list (unreachable from Python, where while is reserved)."
},
"C30": {
"note": "Within a scope: all histories. Across nested scopes: only if no outer name chosen later equals an inner one (counterexamples for Fortran and C). A symbol may be renamed by get_new_name (counterexample)."
},
"C31": {
"note": "find_all prefers an import to a local definition of the same name, unlike find (counterexample)."
},
"C32": {
"note": "Within a scope: all histories. Across nested scopes under the restriction of C30."
},
"C33": {
"note": "All histories of creation, insertion, attribute assignment, invalidation and substitution under stated discipline; searches proved exact on arbitrary graphs. Undisciplined uses violate it: AugAssign printing, reassigning the same body, replacement inside another original."
},
"C34": {
"note": "Scalar numeric types: addition and bitwise tables against Python's rules and NumPy's smallest-common-safe-type definition; associativity only without mixing Python and NumPy types (violated otherwise, as in NumPy); int64 with float64 is lossy; &,|,^ with a Python int and unary minus on bool violated."
},
"C35": {
"note": "Arithmetic proved for all ranks; bitwise operators keep the rank of the first operand: partial for first operand of larger rank, violated otherwise."
},
"C36": {
"note": "Arrays proved; lists/sets/tuples proved for one level; dropping two or more levels is shown to be always wrong."
},
"C37": {
"note": "Relative to the stated laws of sympy (structure SymAlg). Unknown extents that are 1 at run time are mishandled (violated)."
},
"C38": {
"note": "Proved: insert, reverse, min/max, extend with another list, pop with absent/literal/non-negative index. Refuted: pop with a negative run-time index is undefined; IndexError is undefined behaviour; a.extend(a) in C reads through a dangling iterator; a.extend([len(a), len(a)]) evaluates elements late. Out of scope: sort, reverse in C (STC's own)."
},
"C39": {
"note": "Proved: all update forms with all aliasing and iteration orders, termination of the erasing loops, isdisjoint, min/max. Assignments proved unless the target occurs on the right; refuted there: C clears or drops the target before evaluating, both languages overwrite it before the arguments are read. pop of an empty set and remove of a missing element do not raise."
},
"C40": {
"note": "Histories without popitem, with assignment only to existing keys, and without KeyError refine Python in every storage order; popitem removes a pair but not the last; new keys are undefined; KeyError is undefined behaviour."
},
"C41": {
"note": "All properly used histories free every object exactly once; steal leaves its source owning (double free if both are dropped), drop twice frees twice, assignment over an owner leaks."
},
"C42": {
"note": "Proved for every block, array contents and sizes, in C and in Fortran, if no statement reads what it has written at an earlier index, statements that may share a loop keep apart, slices without start go up and dimensions that are repeated have the literal size 1; with syntactic conditions that imply this (C42_elementwise_partial, where the lowering is also shown to succeed), and without any of them for Fortran if only scalars are broadcast. Violated for overlapping slices, for fused statements, for lists, for in-place transposition, for operands with one element at run time, for reversed slices, and by an exception when a list assignment stands between two loops. Not modelled: np.cross, concatenation, AugAssign, variables that share memory."
},
"C43": {
"note": "Calls inside translated code: completeness and soundness of argument binding; calls from Python through the wrapper: exact equivalence with Python binding. Exclusions are each shown necessary by a _violated theorem (keyword-only by position, duplicate keyword with **kwargs, empty **kwargs, starred arguments in *args, invalid or incomplete parse formats, None for a defaulted parameter, renamed parameters)."
},
"C44": {
"note": "Proved when positional-only parameters have no default; C44_posonly_violated shows defaults shifted otherwise."
},
"C45": {
"note": "Dispatch from Python chooses the first accepting overload for unambiguous values; flags stay below the product of type counts; same choice as at compile time for exact types. Violated for empty lists (C45_ambiguous_violated) and overloads differing on a defaulted parameter (C45_default_violated)."
},
"C46": {
"note": "The literal is read back for every string. The layout keeps it unless the string has one of six characters that only str.splitlines takes for the end of a line (C46_layout_violated)."
},
"C47": {
"note": "The expression is read back for every string. The layout keeps it with the same exception as C46 (C47_layout_violated)."
},
"C48": {
"note": "C and Fortran print what Python prints, for all nested arguments and separators, outside of the cases shown by the six theorems …_violated (per cent signs, lists of one element, arrays followed by an argument, strings in containers, empty sets, computed Booleans in Fortran). The conversion of numbers is not modelled."
},
"C49": {
"note": "Wrapping ends, keeps the statements and limits the length, for lines indented by at most 64 characters without overlong names; violated for a long name at a large indentation, an IndexError at 68 blanks, an endless loop at 65."
},
"C50": {
"note": "The text is preserved for all inputs and all regular expressions; margins in C; Python."
},
"C51": {
"note": "All string operations preserve the text; the printed form is read back if there are no two macros in a row (C51_printed_violated)."
},
"C52": {
"note": "proved for a common working directory (at most one compilation at a time, no deadlock, everything can finish, locks released); exclusive access in different directories for dependencies of depth one; violated when an acquisition fails in __enter__ (locks leak), when linking transitive dependencies from another directory (their locks are not taken), and by opposite import orders in different directories (deadlock)"
},
"C53": {
"note": "refinement of the registry to the list of messages since the last reset, for all histories"
},
"C54": {
"note": "histories with Final at the outside only; violated for list[Final[int]], for more than 128 tuple types, for Final[np.int64] == itself, and == is not symmetric with unknown types"
},
"C55": {
"note": "sum/min/max over generators; violated if the target occurs in the generator, and for min/max of an empty generator."
},
"C56": {
"note": "freed exactly once and no undefined behaviour on all paths in C if no shape is literal (and x is not assigned in a loop inside an if, bare return excluded), and in C and Fortran if the first assignment is at the top level or in all branches of an if at the top level; negations for bare return, return in a loop before the first assignment, loops inside a branch, same literal shape after a conditional first assignment, del, status copied between branches"
},
"C57": {
"note": "Step 1 with any bounds; other steps are ignored by the code (violated)."
},
"C58": {
"note": "Only the failure is proved."
},
"C59": {
"note": "C: arguments of integer min/max which are not variables or literals are computed in front of the whole statement; proved when those that Python might skip cannot raise, violated otherwise. Fortran: proved for every choice of the processor when what Python might skip cannot raise, violated otherwise."
},
"C60": {
"note": "Proved for tests without min/max of compound arguments; with one the test is computed once in front of the loop and never again (C60_test_frozen_violated: an endless loop)."
},
"C61": {
"note": "Whole pipeline (syntactic flattening, pruning, C or Fortran structure) for programs satisfying the conditions of C59 and C60. min/max stands for all expressions which need code in front of the statement; text of expressions is in area Exprs."
},
"C62": {
"note": "Exact effect on every node of an acyclic graph with sharing, when no replacement contains an original; otherwise violated for shared nodes (C62_shared_violated, C62_cyclic_violated)."
},
"C63": {
"note": "Fortran comments are inert for all texts; C comments and docstrings unless they contain the comment terminator; Fortran docstrings unless a line begins with a dollar sign; violated otherwise."
},
"C64": {
"note": "status 0 iff everything asked for was completed, if every PyccelError is reported (all but broadcast) and without --syntax-only; a status other than 0 always comes with a message or a traceback; violated for shapes that do not fit in NumPy functions (status 0, nothing built) and for errors found when the wrapper is printed (the message is lost in a TypeError)"
},
"C65": {
"note": "all options but --syntax-only; violated for --syntax-only, which does everything"
},
"C66": {
"note": "kept with another output folder; violated without --output"
},
"C67": {
"note": "all outcomes but errors that Pyccel reports; violated for these: the other processes wait for ever"
},
"C68": {
"note": "same conditions; negations for literal shapes in loops, len in loops, square matrices in Fortran"
},
"C69": {
"note": "same conditions; negations for x = np.sin(x), x = y + x, x = x + 1 in a branch"
},
"C70": {
"note": "right with at most one temporary array; negation with two"
},
"C71": {
"note": "Proved for all nested assignments in which a target that is needed later can be recognised (`Asgs.Good`), and without conditions for scalar variables. Fails for variables needed in indices, for indices that are expressions, for elements that are the same by the values of their indices, and for variables in groups."
},
"C72": {
"note": "Proved for unpacking when no target is an element of what is unpacked, and for building a tuple when only the first expression reads it. Fails otherwise."
},
"C73": {
"note": "A single target gets the value and other variables keep theirs. Fails for every assignment with several targets that is translated."
},
"C74": {
"note": "Proved for all signatures and values that are `Plain`, which names exactly what is lost: NumPy booleans, integers beyond 64 bits, null characters, surrogates, text beyond ASCII in Fortran. Arrays are not modelled."
},
"C75": {
"note": "For all histories of calls without arrays."
},
"C76": {
"note": "The number of lost references is counted exactly for successful calls; zero for scalars and results without sets and dictionaries; negations for container arguments (always), errors (always), sets as results."
},
"C77": {
"note": "Exact condition for TypeError and no change; progress if no string has surrogates; negation for operators with a left operand of another type."
},
"C78": {
"note": "Proved in C if no object is passed for two changeable arguments; negations for f(l, l) and for Fortran."
},
"C79": {
"note": "Proved for all accepted functions without the cases that `clean` names, each with a negation: assignment to an argument, del of shared arrays or arguments, assignment after a return in a branch, assignment and sharing in the same loop."
},
"C80": {
"note": "Results proved for functions that are `clean` and `direct` (in loops and after a return, pointers are only assigned from variables with own arrays); freed memory for all `clean` ones; negations for pointers assigned from pointers in loops."
},
"C81": {
"note": "Proved for all programs that are `clean`; each exclusion in `clean` has a negation: returned parameters, return before the end, result variable that is also an argument, arguments with effects, captured module variables, calls with statements in conditions of while and in conditional expressions, order of effects."
},
"C82": {
"note": "Proved for all programs without assignment to parameters of @inline functions, for which there is a negation."
},
"C83": {
"note": "Fortran: proved for all numbers that fit into 64 bits. C: all but odd integers between 2**52 and 2**53, for which there is a negation."
},
"C84": {
"note": "Proved in C if the product with 10**n is exact and no half; negations for halves, rounded products and Fortran."
},
"C85": {
"note": "Proved: at most one too large, exactly if the quotient is rounded to an integer; exact for integers. Negations: 1.0 // 0.1, range in Fortran."
},
"C86": {
"note": "Proved for all finite numbers in both languages; signed zeros, infinities and NaN are not modelled; negation of the identity with //."
},
"C87": {
"note": "Proved for integers of 53 bits; for all integers the order is not reversed; negation for larger ones."
},
"C88": {
"note": "Proved for integers of 53 bits; negation for larger ones."
},
"C89": {
"note": "Proved for results of 53 bits; negations for larger results and negative exponents. pow of the C library is taken to be rounded correctly."
},
"C90": {
"note": "Proved for all forms in C; Fortran's minval, complex numbers and sets are not modelled."
},
"C91": {
"note": "Proved for all projects in which imports come first, local names are used for one module, and names mean the same file everywhere. Negations for imports after statements, statements after the main block, local imports, reused names and several extension modules."
},
"C92": {
"note": "Proved: nothing is freed twice; everything of plainly imported modules is freed; only modules that have run. Negations: two intermediate results (a variable in use is freed, or IndexError), import with as, local imports."
},
"C93": {
"note": "Proved: the order found is right; if none is found, directories depend on each other in a circle; flat projects. Negation: circular directories without circular files."
},
"C94": {
"note": "Proved if there is no circle; with a circle the search never ends (proved for all of them), although Python runs such programs."
},
"C95": {
"note": "Proved if names mean the same file everywhere; negation for relative names."
},
"C96": {
"note": "Proved for names without double or final underscores; negation for others."
},
"C97": {
"note": "Proved for all programs in which only methods store pointers, in attributes of their own object, no objects are inside objects, and attributes of objects read from attributes are not assigned. Negations for each condition. When exceptions are raised is not part of it."
},
"C98": {
"note": "Proved, with the conditions of C97, for programs that store only numbers and arrays of their own in existing objects. Negations: cycles, a structure lost with each read of an attribute, numbers and old arrays kept (for all lengths of loops)."
},
"C99": {
"note": "Proved for indices and bounds in range (others: C13 to C16) in both languages, given that each name has one type; and, with the types that pyccel infers, for programs that give each name an array once, and for programs with one-dimensional arrays. Negations: a name of a matrix that is later set to a matrix of the other order, because the types of pointers are not compared."
}
}