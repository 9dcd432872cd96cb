# Formal model of pyccel in Lean 4 — design

## 1. What this is

`/repo` (pyccel at a pinned commit) is read as text.  Nothing of it is executed.  Each
modelled function is transcribed, branch by branch, into a small total Lean function whose
doc comment cites the file and lines it models and states every simplification.
Properties (`properties.jsonl`, ids `C01`, `C02`, …) are theorems about those functions.

Layout of `lean/Verif/<Area>/`:

* `Spec.lean`   – what Python / C / Fortran / NumPy *mean* (independent of the model);
* `Model.lean`  – transcription of the code, with `/repo` citations;
* `Lemmas.lean` – helper lemmas;
* `Props.lean`  – the property theorems (one section per property) with, beside each one,
  an `example` showing that a concrete non-trivial case meets the hypotheses.

Where the unchanged code violates the English property, a theorem ending in `_violated`
(or `_counterexample`) proves the negation on a concrete witness and a theorem ending in
`_partial` proves the property under the exact guard for which the code is right.

## 2. Trusted base

* Lean 4.33.0's kernel.  Axioms allowed: `propext`, `Classical.choice`, `Quot.sound`.
  No own axioms, no `sorry`/`admit`, no `native_decide`/`bv_decide`.
* The reading of the sources: each definition cites the lines it models.
* The specifications of the target languages (C precedence, Fortran DO semantics, …) in
  the `Spec.lean` files, which are written from the language standards.
* The run-time behaviour of compilers, NumPy, libc, floating point and the operating
  system is not modelled; where a property touches them the model takes the part that is
  logic and the property is marked `partial` or the restriction is noted.

## 3. Plan per property

| id | model | proof |
|----|-------|-------|
| C01 | `py_floor_div_*` macro over `Int` with C truncating `/`,`%`; `BitVec w` version | characterisation by inequality; width-w version agrees unless overflow |
| C02 | `pyc_modulo`, `MODULO` | range + congruence + divmod identity |
| C03 | gcd loop with fuel-free well-founded recursion, xor swap on `BitVec 64` | termination, equality with `Nat.gcd`; lcm |
| C04 | factorial loop | induction; wrap-around version agrees mod 2^64 |
| C05 | `ipyc_bankers_round` | negation at ties, `_partial` for non-ties |
| C06 | `_print_AugAssign` decision + C operators | case analysis; negation for `%=` |
| C07 | `_print_PyccelDiv` cast decision + C division typing | negation for bool; partial for integer types |
| C08–C10 | C `for` loop / Fortran DO as state machines over arbitrary body transformers | induction on iteration count vs `range` spec |
| C11, C12 | length formulas of range, zip, enumerate | integer arithmetic |
| C13–C17 | index/slice normalisation as integer functions | integer arithmetic vs Python slice spec |
| C18 | `get_strides_and_shape_from_numpy_array` on lists | induction on rank, divisibility guard; negation otherwise |
| C19–C22 | AST + `_handle_precedence` + printers to token lists; precedence-climbing grammar of each target as an inductive relation / parser | induction on trees; negations for the missing parentheses |
| C23–C25 | `make_simplified` on an expression AST with evaluator | case analysis |
| C26, C27 | if-chain and comparison lowering | induction on chains |
| C28–C32 | names as strings, scopes as trees, histories as op lists | pigeonhole for termination; invariant by induction |
| C33 | AST heap with user lists, ops | invariant by induction |
| C34–C36 | type tables, nested types | finite table by kernel `decide`, induction on nesting |
| C37 | `broadcast` on shape lists | induction |
| C38–C41 | STC/gFTL extension functions on lists, with the iteration order of sets and maps as a nondeterministic choice; set statements with variables; histories of dictionary and managed pointer operations | refinement to Python on lists, termination of the erasing loops, invariant over pointer histories |
| C42 | `collect_loops`, `insert_index`, `compatible_operation` and `insert_fors` on blocks of assignments of arrays of any rank, with broadcasting, transposition, reductions and lists; a store of elements, and out-of-bounds accesses as failures | an assignment as an action on a set of indices; splitting and swapping of actions; loop fusion by induction on the tree of loops; negations for overlaps |
| C43, C44 | argument sorting / default alignment on lists | refinement to Python binding spec |
| C45 | type-flag mixed radix encoding | injectivity by induction |
| C46–C51 | printers on `List Char` with lexers as specs | induction on strings |
| C52 | processes that take and release file locks, any interleaving, with failing commands, failing acquisitions and kills | invariant per process over all reachable states; termination measure |
| C53 | `Errors` as a dictionary of lists of messages | refinement to the list of messages since the last reset, over all histories |
| C54 | type objects with identities, the seven caches of 128 results, `==` and hash values | a registry of identities and distinct cache keys as invariants of all histories; positions in the cache for the identity of objects |
| C64, C65 | `execute_pyccel` and the command line over arbitrary stages (trees of visits, reports and exceptions) | induction on the trees, case analysis on the stages |
| C66, C67 | destination of translated Python files; broadcasts of `epyccel` | case analysis; negations |
| C55 | accumulation loop | induction |
| C56, C68, C69 | one array variable in functions with `if`, loops, `break`, `continue`, `return`: the textual allocation analysis, C and Fortran `Allocate`/`Deallocate`, all paths | invariants of the visitor by induction on programs, simulation of Python along every path; negations |
| C70 | the loop that moves deallocations into the initialisation of a module | list induction; negation for two temporaries |
| C71 | `_visit_Assign` for (nested) tuples of targets: the search for values that are still needed, the temporaries, the substitutions | simulation with pending substitutions by induction on the nested assignment; negations |
| C72, C73 | unpacking of variables, tuples built anew, chained assignment | list induction; negations |
| C74, C78 | the generated Python wrapper as operations on a heap of counted objects: checks, conversions, results, contents written back | induction on arguments, elements and result types; negations |
| C75, C76 | the reference counts of the same operations | every operation changes the counts by a known list of references (`Step`); composition; induction on histories; negations |
| C77 | the order of checks and conversions; operator slots | induction on arguments; negation for operators |
| C79 | Python objects with shared data; the analysis of pointers and targets in text order; memory that is allocated and freed | the analysis over-approximates what pointers can point to (induction on statements, closure for loops); simulation with an invariant on sharing and ownership; negations |
| C80 | the same, the targets recorded for the result, memory at the end | a second, exact relation for the result, intersected with the first; ownership invariant; negations |
| C81 | Python calls with their own variables; the replacement of calls by statements, with renaming and substitution of arguments | simulation by induction on programs and depth of calls: each name of a function stands for an expression of the caller; frame lemmas; negations |
| C82 | the same | the names assigned in generated statements are the caller's targets or new; negation |
| C83 | floating-point numbers as rationals with 53 bits; rounding to nearest as a relation and as a function (shown to be the same); the C and Fortran functions step by step | where the steps are exact or monotone, by bounds on units in the last place; computed negations |
| C84 | the same with the power of ten | exact products; computed negations |
| C85 | floor of the rounded quotient | monotonicity of rounding; distance of quotients of integers from integers; negations |
| C86 | fmod and the correction by the sign | fmod needs no rounding; cases by sign |
| C87, C88 | conversion of integers to floats | exact up to 53 bits; monotone; negations |
| C89 | power with floats | exact up to 53 bits; negations |
| C90 | the loops in C over arrays and lists | induction |
| C91 | files with statements that act on any world, imports, calls; Python's sys.modules against the generated init functions with their flags | simulation by induction on steps, with the files that are being initialised as a stack of growing rank |
| C92 | lists of variables to free, the loop that takes out intermediate results, free functions with flags | invariants of initialisation and of freeing; computed negations |
| C93 | targets of a directory, picked when all they need was picked, recursively | induction on depth; permutation and order; a set of targets that need each other on failure |
| C94, C95 | recursive search with dictionaries of names that are merged | rank of files; computed negations |
| C96 | joined names | cutting at the first double underscore |
| C97 | classes with attributes, functions and methods that store and return pointers, Python objects with reference counts and lists of what they keep, memory that can be freed | simulation of Python's heap with an invariant: counts, owners of memory, every pointer is kept alive by the object that has it |
| C98 | the same states | objects ordered by age; by induction a variable is found above each live object; loops by induction |
| C99 | programs over views (buffer, offset, strides); typing of rank and order; the Fortran and C programs printed | simulation: each variable of the printed program denotes the view of NumPy's variable with the indices reversed or not |
| C100 | `to_pyarray`, the copy in Fortran results | two stride lists address the same cells iff they agree on dimensions longer than 1 |
| C101 | `np.array` and transpose as printed in Fortran: `reshape` with `order`, `pad`, `transpose` | representation relation between NumPy arrays and Fortran arrays, induction over nestings |
| C102 | Fortran `matmul` expressions, the C loops over views | the same relation; loop invariants over the heap |
| C103 | `collect_loops` for reductions with axes: indices inserted where the axis is | induction over the dimensions |
| C104 | C loops for functionals, texts of sums | induction over the elements; texts evaluated by precedence |
| C105 | the loops of C08 with `break`, and the variable after them | invariant over the iterations: after k of them the counter is start + k * step |
| C106 | optional arguments: local copies, tests against None and their splitting, the meaning of the generated code with absent arguments | simulation by induction on statements, loops and depth of calls, for programs that pass a decidable check |
| C107 | the argument lists of calls printed in Fortran and C | exact characterisation by induction on the list |
| C108 | NumPy's integer arithmetic, the static types, the printed C and Fortran expressions and the semantics of both languages on fixed-width integers | simulation by induction on expressions; tables by exhaustive case analysis |
| C109 | C's and Fortran's conversion of mixed operands | exhaustive over all pairs of types |
| C110 | programs with numbers, tuples and lists; the inference in textual order with its checks; the generated program with conversions at assignments | simulation by induction on programs for a congruence of types; the check implies the hypothesis for closed sets of types |
| C111 | the printer of annotations, the grammar types.tx on characters, the semantic reading of annotations | round trip by mutual induction on types and function annotations |
| C112 | the printing of `/` and `*` in parameter lists, Python's grammar for them, `_visit_arguments` | case analysis on the kinds of parameters, exact condition |
| C113 | `_get_indexed_type`, orders and the removal of repeats | soundness and completeness against an inductive meaning of annotations |
| C114 | C texts of np.where, bool and calls, with the operators around them | the printed tree follows the C grammar exactly if the condition holds; a text and a tree determine the parentheses |
| C115 | Fortran texts of math.pow, np.sum, @, norms, np.arange and calls, with the operators around them | as C114, with the Fortran grammar |
| C116 | the visits of calls, arguments and powers by the semantic stage, with the statements they add | count the calls in all added statements by induction on expressions; a log of calls in every run |
| C117 | the same, with runs in every order of evaluation | runs equal left-to-right evaluation if operands commute; simulation of Python's evaluation |
| C118 | Fortran printing of array-valued calls | induction on expressions |
| C119 | the loops and the last assignment printed for linspace, with memory | invariant of the loops; compare the final contents with NumPy's elements |
| C120 | length and elements of arange | properties of ceil and truncation |
| C121 | the loops and the three assignments printed for np.cross, with a memory of several arrays and bounds | invariant over the iterations; injectivity of the written indices |
| C122 | the two formulas for np.sign on integers and on reals with infinities and NaN | case analysis |
| C123 | complex_min/complex_max and amin/amax folded over a list | both steps pick the smaller (larger) element of a total order; induction |
| C124 | `strcmp` by the standard's description, Fortran's blank-padded comparison, UTF-8 | UTF-8 is injective and commutes with stripping blanks and cutting at a null |
| C125 | the bytes and lengths used by the wrappers for str arguments and results | induction over the copying loops |
| C126 | short and heap strings, drop, structure copy, the statements executed | invariant (each buffer has one owner) for harmless paths; a shared or dangling buffer persists to the end |
| C127 | number of bytes | induction |
| C128 | the depth-first visit of the functions with statuses and marks; call stacks | the marks characterised by induction over the visit; stacks by induction |
| C129 | the same visit with fuel | lexicographic measure: unvisited functions, @inline functions that can still be reached, statements |
| C130 | the nodes that complex() becomes; values with infinities, NaN, signed zeros; C11 Annex G arithmetic and Fortran cmplx | cases on literals and types; rounding to 24 and 53 bits |
| C131 | the same nodes | counting occurrences |
| C132 | literals kj in C, float complex | rounding to 24 and 53 bits |
| C133 | equality of types, search | decision |
| C134 | the decision table for is; optional variables as values that may be absent | decision, for every environment |
| C135 | conversions with ranges and rounding; the printed calls | cases; whole numbers stay whole when rounded |
| C136 | the same, with NaN, infinities and signed zeros | cases; the floor of a number with b bits has b bits |
| C137 | the types of the printed expressions | cases |
| C138 | file systems as trees with links; the command | a relation kept by every removal |
| C139 | the same | links are needed to leave a folder |
| C140 | the same | nothing comes back; siblings do not disturb each other; depth of trees |
| C141 | Python's heap and environment; storage of the generated code | simulation |
| C142 | the same, with the rule of Fortran on aliased arguments | simulation |
| C143 | Python's loop as a relation; the loops of C (pointers) and Fortran (indices) | simulation with the number of elements left |
| C144 | the same for arrays | simulation |
| C145 | dictionaries in the order of insertion, of a table, sorted | permutations; insertion sort |
| C146 | sums of powers over the real numbers, with conversions to 64-bit integers | algebra on real powers |
| C147 | Python's dispatch of operators; the parser's | case analysis over all sets of methods |
| C148 | bodies of methods with returns | induction on statements |
| C149 | the lowering of sums and repetitions to stores | induction on expressions; stores fill the target |
| C150 | graphs of compile objects | induction on the graph |
| C151 | order of libraries, symbols that they define and need | order relations kept by removal of duplicates |
| C152 | lists of flags, the last one wins | induction on lists |
| C153 | folders as a set in any order | permutations |
| C154 | histories of writes, upgrades and uses | invariant |
| C155 | threads that take steps in any order on a memory | invariant of the schedule: what remains gives the final cells |
| C156 | the marking of ends in a block | induction on the sequence |
| C157 | the printing of annotated blocks | induction on blocks; all constructs of the grammar |
| C158 | trees with lines and columns; the insertion of comments | induction on the size of the tree: what is taken out comes back |
| C159 | Python's lexer for strings, line by line | induction on the lines |
| C160 | a language with functions; name lookup in scopes | each block is resolved as by a set of local names; simulation step by step |
| C161 | the same language with a second file; lookup in the imports of a scope | the copies stay equal to the originals; then the simulation of C160 |
| C162 | the C and the Fortran wrapper as programs on a heap; the tree of tests for optional arguments | induction over the tests; each argument is found unchanged in the heap |
| C163 | the loops that fill and read the arrays of a result; ordered sets and maps | loops as list functions; permutations |
| C164 | the same heap | the heap after a call, exactly |
| C165 | comprehensions as nested loops in C and Fortran on a state of variables, lists and arrays; Python's meaning in separate environments | induction over the clauses and over the iterations; the result is appended to what was emitted |
| C166 | the same loops | frame of every loop by induction; values of the index after the loops |
| C167 | names of the results, the assignments that a return statement becomes | induction over the values: earlier assignments change no later value |
| C168 | the statements before a return, the C printer's search for the last assignment | induction over the code: what is left out is the assignment of the value that is printed |
| C169 | loops with else blocks over abstract statements; what the parser keeps of them | simulation in both directions by induction over the steps |
| C170 | assertions in Fortran and in C with debug and release flags | the same simulation; for release only for outcomes without failure |
| C171 | the value of a call, functions with paths that do not return | simulation, and induction that code whose paths end with return does not end otherwise |
| C172 | nested functions in Fortran (shared variables) and in C (addresses passed through all calls, a memory of frames) | simulation of the C program by the Fortran program, which is the one of C160 |
| C173 | `global_vars` of nested functions and the arguments that calls pass | a rank of the call graph bounds the depth of the search |
| C174 | objects of a function: translation to structures and pointers; memory of C and Fortran; Python's references | simulation: an invariant links references with structures and pointers |
| C175 | the same programs | the invariant: each block of memory belongs to exactly one structure; induction over the deletions at the end |
| C176 | the search for base classes as a loop over a stack; types and families; what the wrapper accepts; Python's subclasses as an inductive relation | the loop collects exactly the reachable classes (induction over its steps), it ends (induction over the order of definition); cases over types |
| C177 | the tests and branches that are printed for functions with several types; Python's evaluation of tests, with exceptions | induction over types, arguments and groups of functions |
| C178 | printed lines with indentation; how Python reads lines, as an inductive relation; effects of programs as relations between states | mutual induction over programs; uniqueness of reading by induction |
| C179 | orders of arrays, aliases and copies | cases over orders and kinds of assignment, arrays arbitrary |
| C180 | the intrinsic functions printed for np.count_nonzero, on Fortran arrays with dimensions reversed or not | induction over shapes; permutations of the index tuples |
| C181 | pack with an implied loop and a mask; the length of the allocation | lists of any length |
| C182 | the loop that fills an array, with an expression that may read the array or call functions | induction over the elements |
| C183 | get_source_code_and_context on lines of characters: indentation, comments, regular expression, loop over the methods | induction over the pieces of the source, from the last |
| C184 | look-up of called names in the context of the first function | induction over chains of calls |
| C185 | the loop printed for a dot product, on a memory with arrays and views; the text printed for augmented assignments | induction over the length, with the contents of the target as invariant |
| C186 | the expressions that replace calls of cmath and math | theorems of Mathlib on Complex.arg, norm, exp and square roots |
| C187 | types with a mark for Final, the checks of assignments and calls, memory with shared names; the checks of a Fortran compiler for intent(in) | induction over statements and functions, with the set of places that are protected as invariant |
| C188 | the inferred types of expressions and the check of assignments | induction over expressions |
| C189 | a Python process with sys.path, sys.modules and files; epyccel as a program with try and finally in which steps fail | effect of one call by cases of the failing step, then induction over the history |
| C190 | the same | the same, with locks, stage and loaded modules as invariants |
| C191 | the printed import functions on trees of modules | mutual induction over the tree |
| C192 | the printed statements of an assignment of np.array in C, run one after the other | the statements are all subscripts in lexicographic order (mutual induction over the lists), then induction over the sorted list |
| C193 | literals from the source text over the tree and the printed text to the value that the compiler reads, with rounding to 53 and 24 bits | printed doubles: uniqueness of rounding; singles: between a double and a decimal number that is rounded to it there is no double, so no middle of two singles |
| C194 | the constants and tests as printed in both languages | cases |
| C195 | the file system as a function of paths; the two commands with the handling of paths of pathlib | the guard is a prefix test, and rmtree deletes extensions of a path |
| C196 | histories of the commands against a table of registered families | refinement: invariant between the file system and the table, induction over the history |
| C197 | the writes of a registration in order; an interruption is any prefix of them | what every prefix can have written; the same invariant after removal |
| C198 | JSON values, the file system as predicates on strings; the check as a Boolean function | both directions by cases on the JSON value; witnesses for the negations |
| C199 | the search of importlib (packages with and without `__init__.py`) as specification; get_filename_from_import over a file system | induction over the names of the module |
| C200 | the printed expressions of C20 and C21, where names of negative numbers become a sign and a number | the grammars of C20 and C21: the replacement commutes with reading |
| C201 | get_c_type as a function that collects imports and gives names, the sorting of imports, their printing; what each C type mentions as specification | invariant of the collected imports, induction on types (names are prefix codes), sorted lists |
| C202 | the definition that lambdify writes; names and definitions of Python as specification | induction on expressions |
| C203 | SymPy expressions, their conversion, the arithmetic of the generated code with a rounding | induction on expressions, exact floats |
| C204 | the map of symbols as a state, SymPy as a sound oracle over the symbols | invariant of the map, induction on conditions |
| C205 | statements with calls of arbitrary effect, the list of waiting assignments, new names | simulation, induction on programs and steps |
| C57 | slices of heterogeneous tuples at compile time | list arithmetic; negation for steps |
| C58 | Fortran intrinsic names vs the name clash checker | finite tables, negation for missing names |
| C62 | `substitute` on the same heap | traversal invariant, induction on depth |
| C63 | comment and docstring printers; C and Fortran rules for comments | induction on strings |
| C59–C61 | a statement language with `if`, `while`, conditions with effects; translation to C and Fortran | simulation by induction on execution |

Properties that need floating point rounding (complex/real arithmetic), compiler
behaviour or actual process scheduling beyond these models are not claimed.

## 4. What is modelled, area by area, and what is not

* **IntMath** (C01–C05): the arithmetic helpers of `stdlib/math/pyc_math_c.{h,c}`,
  `pyc_math_f90.f90` and the choice of helper in the printers.  C integers are `Int` with an
  explicit range or wrapped modulo `2^w`.  Not modelled: floating point helpers.
* **AugOps** (C06, C07): choice between `a op= b` and `a = a op b`, division casts.  Values
  are exact rationals where Python's are floats.
* **Loops** (C08–C12, C55, C105): `for` over `range`, `zip`, `enumerate`, comprehension sizes and
  reductions.  The loop body is an arbitrary state transformer.
* **Slices** (C13–C17, C57): index and slice normalisation and printing; arrays are
  functions on indices.
* **Views** (C18): strides, shapes and order flags of NumPy arrays given to compiled code.
* **Names** (C28–C32, C58): clash checkers, `Scope` tables, name generation.  Scopes are
  finite tables; strings are `String`.  Fortran's case folding is modelled on ASCII.
* **Exprs** (C19–C22): the expression printers produce token lists which are read by
  precedence parsers written from the three grammars.  Only the operators and calls named in
  `Exprs/Model.lean`; layout (spaces, line breaks) is handled in the text area.
* **Types** (C34–C37): scalar, array and container types and `broadcast`.
* **Simplify** (C23–C25): the simplifying constructors of operators on literals.
* **Flow** (C26, C27, C59–C61): `if`, `while`, chained comparisons, conditional expressions,
  C and Fortran printing of conditions; a big-step semantics with explicit effects.
* **Calls** (C43–C45): reading of parameter lists, argument sorting, the
  `PyArg_ParseTupleAndKeywords` wrapper (its behaviour is taken from CPython's documentation
  and implementation), overload dispatch.  Argument types and conversions are abstract.
* **Ast** (C33, C62): `PyccelAstNode` as a heap of numbered nodes with attribute and user
  lists; creation, insertion, attribute assignment, `invalidate_node`, `remove_user_node`,
  `substitute` and the searches.  Nodes are compared by identity; `dead` is ghost state.
* **Text** (C46–C51, C63): string literals, string expressions, `print`, comments,
  indentation and line breaking, on lists of characters.  The specification has readers for C
  string literals and comments, Fortran character expressions and continuation lines, and
  `printf`.  Numbers are given by the text they are printed as.  The regular expressions with
  which the Fortran printer finds blocks are arbitrary predicates.  White space is that of
  Python's `str.strip` on the characters listed in `Text/Spec.lean`.
* **Locks** (C52): `CompileObj.__enter__`/`__exit__` with the locks they take and the files that
  the commands inside the block use, `FileLockSet`, as programs of processes that run in any
  interleaving. Work may end with an exception, a process may be killed at any point, and an
  acquisition may fail. Not modelled: the locks of `library_config.py` and `utilities.py` (single
  locks around a copy), time-outs, the output files of the linker (they have no lock), re-entrant
  acquisition of one lock object.
* **Build** (C53, C64–C67): `Errors`, the visitors' exception handlers, `execute_pyccel`,
  `create_shared_library`, the exit of the command line, and the broadcasts of `epyccel`. What a
  stage does with a file is an arbitrary tree of reports, exceptions and visits. Not modelled:
  `pyccel make` and `pyccel wrap` (the same structure), time measurement, the parsing of arguments,
  positions in messages.

* **Cache** (C54): `get_new` of the parametrised types behind `functools.lru_cache`, `Singleton`,
  `__eq__`, `__hash__`, `rank` and `order` of all types, and Python's protocol for `==`.
  Not modelled: unions in annotations, the assertions on arguments, collisions of hash values, the
  caches of `__add__` and the other operators.
* **Containers** (C38–C41): `stdlib/STC_Extensions/{List,Set,Dict}_extensions.h`, `Managed_memory.h`,
  `stdlib/gFTL_functions/*.inc`, the printing of the container methods, the translation of
  `extend`, `update`, `intersection`, `difference` to loops and copies, and the reallocation of set
  variables before an assignment. Assumed: what STC and gFTL document (listed at the head of
  `Containers/Model.lean`). Not modelled: `sort`, STC's own `reverse`, `in` for lists, containers of
  containers (their elements are managed pointers only in C41), dictionaries built from
  comprehensions, printing.
* **Memory** (C56, C68–C70): how `SemanticParser` decides, in the order of the text, that an array is
  allocated or reallocated (`Allocate.status`, the literal shape of a variable, the branches of an
  `if` under construction), the `Deallocate` nodes of `return` and of the end of a function, and the
  printing of these nodes in C and Fortran.  One variable at a time; conditions are left open, so the
  theorems are about all paths.  Not modelled: aliases and pointer targets, arguments, arrays on the
  stack, class attributes, arrays allocated by a called function, constant conditions.
* **Vectors** (C42): `collect_loops` with the search for a loop to join, `insert_index`,
  `compatible_operation`, the temporaries for reductions, lists and tuples on the right-hand side,
  `insert_fors`, and the meaning of the resulting loops on a store of elements.  Elements are integers and
  the operators are arbitrary functions.  Assumed: a Fortran array assignment evaluates its right-hand
  side first and needs operands of the same shape, and selects the elements Python does (C16).  Not
  modelled: `np.cross`, concatenation and repetition, `AugAssign`, strings, variables that share memory,
  the rank of a left-hand side above that of the list.
* **Assigns** (C71–C73): `SemanticParser._visit_Assign` for several targets: the check for statements that
  are too complex, the temporaries for targets that are needed later (found with the `==` of the syntax
  tree), the substitutions in what follows, nested groups; the unpacking of variables, tuples that are
  built anew, and `SyntaxParser._visit_Assign` for chains.  Elements are integers, arrays have one
  dimension, operators are arbitrary functions.  Not modelled: slices, attributes and calls as
  targets, starred targets (an error), types of targets.
* **Wrapper** (C74–C78): `CToPythonWrapper` and `CWrapperCodePrinter` for functions and operator methods:
  type checks, conversions of scalars, strings, tuples, lists and sets, the result (also nested lists, tuples,
  sets, dictionaries), the contents written back to lists and sets in C, reference counts of all objects, and
  `cwrapper.c`.  Python's C API is modelled from its documentation (`PyList_SetItem` steals, and so on).
  The compiled function is arbitrary.  Not modelled: arrays, attributes and lifetimes of instances, optional
  arguments, interfaces, module initialisation, releasing of objects (counts only grow or shrink; an object
  with count zero would be free, which C75 excludes for those in use), memory of the C side.
* **Aliases** (C79, C80): array variables in `semantic.py` (owners, arguments, pointers; targets of pointers;
  the checks at assignments and `return`; what is freed at the end), and the generated allocations, pointer
  assignments and deallocations.  Expressions are arbitrary functions of the arrays they use.  Not modelled:
  arrays in containers and classes, optional arguments, temporary variables of the compiler, several results,
  evaluation of expressions element by element into memory they use (C42), whether a shape is known (C56, C68).
* **Inline** (C81, C82): `_visit_InlineFunctionCall` in `semantic.py` with the visits of expressions, assignments, `if`,
  `while` and `return` in the replaced body, the new names of `scope.py` and the names of results from
  `syntactic.py`.  Python's side evaluates calls with their own variables; operators, module variables and other
  functions are arbitrary, the latter may depend on all calls before.  Not modelled: keyword, default and `None`
  arguments, arrays as arguments, several results, methods, `for`, assignments with operators.
* **Floats** (C83-C90): what the printers generate for `round`, `//`, `%`, `/`, `**`, comparisons, `min` and `max`,
  with the functions of `stdlib/math` and `stdlib/STC_Extensions` they call.  Floating-point numbers are rationals with
  53 bits, every operation is rounded to nearest even; the range of exponents is unbounded.  Not modelled: overflow,
  subnormal numbers, infinities, NaN and signed zeros (except in C90), single precision, complex numbers.  `pow` of C
  and `**` of Fortran are taken to be rounded correctly.
* **Imports** (C91-C96): `parser/parser.py` (search for files), the parts of `semantic.py` for modules, imports and
  programs, `codegen/compiling/project.py` (order of targets) and target names of `make_pipeline.py`.  A statement that is no import or
  call is an arbitrary function on the world.  Not modelled: what names a module exports, `__init__.py`, modules of pyccel's own
  library, stub files, files that were compiled before (C30, C49), errors of Python in the middle of an import.
* **Lifetimes** (C97, C98): the parts of `c_to_python_wrapper.py` for classes (constructor, destructor, getters, setters, lists of referenced
  objects, results that are pointers) and the analysis of pointer targets in `semantic.py`.  Arrays have one element; attributes are
  numbers, arrays (owned or pointers), objects (pointers or inside).  Not modelled: magic methods, properties, inheritance, lists and
  dictionaries as attributes, slices of attributes, loops in function bodies, the garbage collector of Python.
* **Layout** (C99 to C104): arrays of any rank, their memory orders, strides, transposes, slices, results, `np.array`, `np.matmul` and
  reductions, in `fcode.py`, `ccode.py`, `numpyext.py`, `utilities.py` and `cwrapper.c`, `pyc_math_c.c`.  Elements are integers.  Fortran
  `reshape`, `transpose` and `matmul` are modelled after the standard.  Not modelled: types of elements, `np.linalg.norm`, stacks of matrices.
* **Optional** (C106, C107): functions with parameters whose default is `None`. Modelled: `treat_condition`, the local copies of optional
  arguments that are assigned, the folding of tests against `None`, `PythonBool` of optional variables, the initialisation of the copies,
  arguments of calls in C and Fortran. The generated programs run in a semantics where reading an absent argument is an error, with C's and
  Fortran's evaluation of `and`, `or` and conditional expressions. Not modelled: types other than integers, tuple targets, aliasing of
  arguments passed by reference.
- **Scalars** (C108, C109): expressions of truth values and integers. Modelled: the static types of operators, `_print_Pyccel*` of both printers with
  the casts they insert, C's integer promotion, undefined behaviour of overflow and shifts, two's complement bit operations, Fortran's kinds
  and logicals (which programs compile; evaluation of both operands of `.and.`), storing into a variable. Not modelled: real and complex
  values (C109 treats their types only).
- **Infer** (C110): the type of a variable is that of its first assignment in the text. Modelled: `_infer_type` for numbers, tuples and lists,
  `_ensure_inferred_type_matches_existing`, the splitting of tuples into one assignment per element, `x op= e`, `return`, and the
  generated program, in which values are converted when they are stored. Not modelled: arrays, dictionaries, sets and objects, rounding
  (C83-C88) and overflow (C108).
- **Stubs** (C111-C113): stub files (`.pyi`) and annotations. Modelled: the text of all types, the annotation grammar as a parsing
  expression grammar on characters, the meaning of annotations with unions named by `TypeAlias`, orders, `Final` and `Annotated`, and the
  parameter lists with `/` and `*`. Not modelled: import lines of stubs, strings inside annotations, decorators, classes.
- **Operands** (C114-C115): library calls as operands and operators in their arguments. Modelled: the parentheses inserted by operators
  around calls, the C text of `np.where` and `bool`, the Fortran texts of `math.pow`, `np.sum(initial=)`, `@` for vectors,
  `np.linalg.norm` of orders other than 0, 1, 2 and infinity, `np.arange`. Not modelled: casts, so that all operands are floating point
  numbers; printers which produce a plain call.
- **Hoist** (C116-C118): calls inside expressions. Modelled: the first and later visits of calls with array results, of arguments which
  are array operators, and of `** 0.5`, with the statements added before the current one; runs of the generated statements for
  arbitrary functions and every order of evaluation; the failure of the Fortran printer for nested array results. Not modelled: tuples,
  methods, indexed calls, inlined functions (C81-C82), conditional evaluation (C59-C60), unravelled loops (C42).
- **Fills** (C119-C120): `np.linspace` and `np.arange`. Modelled: step, elements, conversion, the additional assignment of the last element
  inside and outside loops, lengths and allocation. Simplified: rational numbers. Not modelled: complex numbers, inferred element types,
  the text of the arguments inside the printed expression (C115).
- **Funcs** (C121-C123): `np.cross`, `np.sign`, `np.min`/`np.max` of complex arrays. Modelled: the index lists of `insert_indices`, loop
  extents, the sequence of reads and writes with bounds, the shape of the created result; the sign formulas; the folds. Simplified: rational
  numbers, operands of `np.cross` are variables of the type of the result. Not modelled: rounding, casts, complex `np.sign`, `initial`.
- **Strings** (C124-C127): comparison, len, arguments and results, memory of `cstr` variables. Modelled: UTF-8, `strcmp` as any function
  with the standard's properties, blank padding, the copying loops of the wrappers, the small-string representation of STC (22 bytes), heap
  buffers, drop and structure copy. Simplified: a path is the list of statements executed; the allocation flag of an assignment is given.
- **Recursion** (C128, C129): how the semantic stage meets functions. Modelled: visit on first call, the provisional definition of the
  function being visited, @inline expansion, nested functions, the mark. Simplified: functions are numbers, one version each, bodies are lists
  of calls. Not modelled: function arguments, imports from other modules, types.
- **Complex** (C130-C132): complex(a, b) and imaginary literals. Modelled: the folding of literals, the nodes, the types and precisions of C
  and Fortran, C11 Annex G products of real and complex numbers. Not modelled: overflow and underflow, the recovery of products whose parts
  are both NaN.
- **Tests** (C133, C134): in and is. Modelled: equality of numeric types, the decision of the semantic stage, what the printed test reads.
  Simplified: a search returns whether an equal element exists. Not modelled: the container libraries, NaN.
- **Whole** (C135-C137): conversions between numbers. Modelled: the casts and library calls of both languages, their ranges (out of range is
  undefined), rounding to 24 and 53 bits, the conversion at an assignment. Not modelled: underflow and overflow of exponents, logical arguments.
- **Clean** (C138-C140): `pyccel clean`. Modelled: file systems with regular files, special files, symbolic links (followed at most 40 times)
  and folders; `os.listdir`, `os.path.isfile`, `os.access`, `os.remove`, `shutil.rmtree`; all options. Not modelled: permissions.
- **Params** (C141-C142): functions with array parameters. Modelled: `x = e`, `x[:] = e`, `x op= e` on arrays of one length, element by element,
  loops, tests, arguments that share arrays. Not modelled: slices, local pointers.
- **Iterate** (C143-C145): `for` over lists, arrays, dictionaries and sets. Modelled: the loops printed for C and Fortran, vectors with a buffer
  and a capacity. Assumed: STC and gFTL, see the head of Model.lean. Not modelled: `enumerate` and `zip` over them (C10).
- **Norm** (C146): `numpy.linalg.norm`, over the real numbers with infinity. Not modelled: rounding, `axis`, complex numbers.
- **Operators** (C147-C148): magic methods. Modelled: the search for the method, `__iop__` and its returns. Not modelled: types of arguments.
- **Repeats** (C149): `Concatenate` and `Duplicate`. Modelled: shapes and stores. Not modelled: inhomogeneous tuples, elements that are tuples.
- **Link** (C150-C154): command lines of compilers and linkers. Modelled: object files, libraries, flags, folders, the libraries of pyccel
  and their times. Not modelled: locks (C52), shared libraries.
- **Omp** (C155-C157): OpenMP annotations. Modelled: loops under all schedules with stores as steps, ends of constructs and `nowait`, braces in C.
  Not modelled: the text of clauses, the functions of the OpenMP library.
- **Comments** (C158-C159): `extend_tree`. Modelled: `get_comments` (without continuation lines), `insert_comments` for statements, blocks, `else`, `elif`.
  Not modelled: `try`, statements over several lines with comments inside.
- **Globals** (C160–C161): which variable a name refers to. Modelled: `Scope.find` with imports, the creation of variables by assignments and annotations, the declaration of results,
  the order in which functions are visited. Not modelled: types, nested functions, classes, renamed imports.
- **BindC** (C162–C164): the Fortran wrapper (`_get_function_def_body`, the conversion of arguments and results) and the C function around it.
  Modelled: tests for optional arguments, null pointers, default values, copy loops, `c_malloc`/`free`, completion of calls with defaults, keyword arguments.
  Not modelled: strides and ranks above 1, instances, conversion of numbers (C74), gFTL containers beyond their order.
- **Comps** (C165–C166): comprehensions that are assigned to lists and NumPy arrays: allocation of the target, nested loops, conditions.
  Modelled: both targets, reuse of the target (clear, reallocate, in place), bounds that C reads again in each iteration, loop variables that live in the function.
  Not modelled: other iterables than ranges, lists and arrays; elements that are not numbers; overflow.
- **Returns** (C167–C168): `return` statements: names of the result variables, the assignments to them, the statements of inlined functions and
  of `max` of a generator before the return, and how the C printer merges the last assignment into `return`.
  Modelled: integers, arrays that are read and freed, `if` and loops. Not modelled: types, strings, tuples in tuples.
- **Paths** (C169–C171): `else` blocks of loops, assertions and the ends of functions, in a language of blocks over abstract statements, conditions and values.
  Modelled: break, continue, return, failed assertions, other exceptions, the C macro `assert` with and without `NDEBUG`. Not modelled: messages of assertions, exit statuses; conditions and ranges are exact here (C08–C10, C59–C61).
- **Nested** (C172–C173): functions inside functions: the outer variables that a nested function needs, their addresses as arguments in C,
  a memory with one frame per call.  Name resolution and Fortran are those of **Globals**.
  Not modelled: functions nested twice, arrays, results of the outer function.
- **Instances** (C174–C175): objects that a compiled function makes: which variables are structures and which are pointers, deletion before a second construction, deletion at the end.
  Modelled: C and Fortran, one class with a number and an array, the check TARGET_ALREADY_IN_USE, conditions and loops, undefined memory.
  Not modelled: objects as arguments, results or attributes; several classes; methods other than the constructor.
- **TypeTests** (C176): isinstance, which pyccel decides while it translates.
  Modelled: built-in, NumPy and user classes, containers, Final, tuples and unions of classes, the checks of the wrapper.
  Not modelled: abstract classes; several implementations of a function (C45).
- **PyOut** (C177–C179): code printed as Python.
  Modelled: the choice between bodies for several types, indentation and blocks, dropped branches, assignments of arrays.
  Not modelled: annotations, decorators, imports of a module, expressions (C19), the statement that a line contains.
- **Masks** (C180–C182): np.count_nonzero and np.nonzero in Fortran, np.full in C; uses the arrays of **Layout**.
  Modelled: dim, reshape, reversal of dimensions, pack, the loop of arrayFill.
  Not modelled: element types and kinds, np.full in expressions, full_like.
- **Source** (C183, C184): what epyccel takes from a Python function: its text and the objects that its names refer to.
  Modelled: removal of the indentation, search of headers and of their ends, replacement; the order in which names are looked up.
  Not modelled: inspect, type variables, variables of the context.
- **Dot** (C185, C186): dot products of vectors; rewriting of functions of complex numbers.
  Modelled: the statements printed in C and Fortran, with views and overlaps; exact numbers.
  Not modelled: rounding; the products of matrices (**Layout**, C102).
- **Finals** (C187, C188): variables marked with typing.Final.
  Modelled: the types of expressions, the checks of assignments and calls, what is printed as intent(in).
  Not modelled: loops and branches; methods; the warnings of C compilers.
- **Session** (C189, C190, C191): Python processes that call epyccel, and imports of compiled modules.
  Modelled: sys.path, sys.modules, the files of modules, the choice of names, try and finally, failing steps.
  Not modelled: threads, interrupts between two steps, packages as objects.
- **Display** (C192): assignments `x = np.array(…)` in C.  Modelled: the three ways of copying (array, members, all
  elements), ndmin, reads of the target.  Not modelled: conversions of numbers, operators on arrays in lists.
- **Literals** (C193, C194): number literals, `np.float32` of them, `math.inf`, `math.nan`, `isfinite`, `isinf`,
  `isnan`.  Modelled: reading by Python, the literal in the tree, the printed text (`repr` is any function with
  Python's promise), reading by the compilers.  Not modelled: subnormal numbers, complex literals, other constants.
- **Config** (C195, C196, C197): registered compilers.  Modelled: paths (pathlib), the folders and files that register and
  remove write and delete, in order, `Compiler(family)`, the choices of the command line.  Not modelled: symbolic links
  below the folder, interruptions of remove, what the build of the library writes (arbitrary files below its folder).
- **ConfigCheck** (C198): `pyccel config check`.  Modelled: the exit status for every JSON value.  Not modelled: the
  messages, keys of objects that are given where a list of paths is expected, whether the compiler is installed.
- **Locate** (C199): the file of an import statement.  Modelled: the path that is built, the search of the package, the
  choice between Python files and stub files.  Not modelled: the folder of the stub file, modules that are not Python
  files, what importing a package executes, changes of sys.path, `from . import m`.
- **Captured** (C200): numbers that a function given to epyccel finds around it.  Modelled: the node of a negative integer
  and of a negative float in any expression of the area Exprs, the C and Fortran text as tokens, and `--` as one token of C.
  Not modelled: the digits (C193), complex numbers, captured strings, the rewriting of `x ** 2` and `x ** 0.5`,
  the smallest integer of a type.
- **CTypes** (C201): the declarations of containers in C.  Modelled: the names of types, the imports that are collected and
  merged by name, the key for sorting, which types a declaration mentions, the order of the header files.  Not modelled:
  classes, header files of modules of the user, `stc/common`, the other lines of a declaration, names of the user's
  variables that are names of types.
- **Lambdify** (C202): the Python function that lambdify writes.  Modelled: parameters, annotations, the two forms of the
  body.  Assumed of SymPy (its source is not in the repository): NumPyPrinter prints keywords with `_`, names without braces,
  and functions as `numpy.f`.  Not modelled: the docstring, the checks of types, the translation of the function.
- **Sizes** (C203): the conversion of SymPy expressions to pyccel's nodes and their values in C.  Modelled: every case of
  `sympy_to_pyccel` except tuples, the types of the nodes, rounding after each operation on floats.  Assumed of SymPy (its
  source is not in the repository): the form of `ceiling((n - a) / s)` and `floor(m / n)`, numbers come first in sums.  Not
  modelled: overflow, irrational powers, `pyccel_to_sympy`.
- **Symbols** (C204): how variables, attributes and elements of shapes become SymPy's symbols, for conditions and sizes.
  Modelled: the map of symbols and the used names, arithmetic, comparisons, connectives, the replacement of the condition.
  Assumed: what SymPy finds out is right for all values of its symbols (of its rules only `Eq(a, a)` is used, in the
  negations).  Not modelled: powers, `min`, `max`, NaN (C26), conditions with more than two operands of a connective.
- **ArrayCalls** (C205): calls that return arrays are assigned to new variables before the statement.  Modelled: operators,
  `and`, `or`, conditional expressions for numbers, calls with arbitrary effects on arrays, assignments, `if`, `elif`,
  `while`.  Not modelled: calls as arguments of these calls, `for`; operands of the translated program are evaluated from left to right.

## 5. Disagreements between code and properties

Each line is a theorem proving, on a concrete witness, that the unchanged code does not have
the property.  The matching `_partial` theorem carries the guard under which it does.

<!-- BEGIN GENERATED violations -->
* `Verif.IntMath.C03_lcm_zero_violated` — C03: the code violates `math.lcm(0, 0) == 0`: it divides by zero.
* `Verif.IntMath.C05_round_c_violated` — C05: the unchanged code violates the property in C: `round(15, -1)` is 20 in Python and 0 in generated C; `round(-5, -1)` is 0 in Python and 20 in generated C.
* `Verif.IntMath.C05_round_fortran_violated` — C05: the unchanged code violates the property in Fortran: `round(-25, -1)` is -20 in Python and -30 in generated Fortran; `round(15, -1)` is 20 in Python and 0.
* `Verif.AugOps.C06_mod_violated` — C06: the unchanged code violates the property for `%=`: `x = -7; x %= 3` leaves 2 in Python and -1 in generated C.
* `Verif.AugOps.C07_bool_violated` — C07: the unchanged code violates the property in C: `True / 2` is 0.5 in Python, 0 in C.
* `Verif.Loops.C09_bounds_reevaluated_violated` — C09: the unchanged code violates the property in C. `i = 3; for i in range(i): acc += [i]` appends 0, 1, 2 in Python; the generated C loop `for (i = 0; i < i; i += 1)` runs zero times.
* `Verif.Loops.C09_bounds_modified_violated` — C09, second violation: the body shortens the range it iterates over (`n = 3; for i in range(n): n = 0`): Python runs three iterations, the C loop one.
* `Verif.Loops.C105_violated_last` — C105 fails: after `for i in range(1, 6, 2): …` in Python `i` is 5; in C and in Fortran it is 7.
* `Verif.Loops.C105_violated_empty` — C105 fails: a loop over an empty range leaves the variable alone in Python; in C and in Fortran it gets the value of `start`.
* `Verif.Loops.C11_negative_step_violated` — C11: the unchanged code violates the property for a literal negative step. `range(3, 0, -5)` has one element but the allocated size is 0 (accepted); the generated loop then writes past the end of the array.
* `Verif.Loops.C11_empty_range_violated` — C11: bounds in the wrong order: `range(n, 3)` with `n = 5` is empty, but the run-time size computed is `3 - n = -2`.
* `Verif.Loops.C12_zip_violated` — C12: the unchanged code violates the property when literal and run-time lengths are mixed: zip of an array of literal length 3 with one of run-time length 2 reads out of bounds.
* `Verif.Loops.C55_target_clobbered_violated` — C55: the unchanged code violates the property when the target occurs in the generator: `n = 10; n = sum(n for i in range(3))` gives 30 in Python and 0 in the generated code.
* `Verif.Loops.C55_min_empty_violated` — C55: `min` of an empty generator raises `ValueError` in Python (there is no minimum); the generated code returns the largest 64-bit integer.
* `Verif.Slices.C13_minus_zero_violated` — C13: the literal index `-0` is `n` in generated Fortran instead of 0 (out of bounds).
* `Verif.Slices.C13_tuple_of_tuples_violated` — C13: an index into a tuple of tuples is printed from a condensed base (C order) while the indexed expression has no order: the sizes of the wrong dimensions are used for run-time negative indices. `t[i][j]` with `i = j = -1` on shape (2, 3) is position `[1][2]`; the printed (reversed) subscripts should be `(2, 1)` and are `(1, 2)`.
* `Verif.Slices.C14_out_of_range_violated` — C14: out-of-range bounds are not clamped: `a[0:10]` on 5 elements selects 5 elements in Python; the computed shape is 10.
* `Verif.Slices.C14_reversed_violated` — C14: bounds in the wrong order: `a[3:1]` is empty in Python; the computed shape is -2.
* `Verif.Slices.C14_runtime_step_violated` — C14: a run-time step that is negative (allowed by `allow_negative_index`) gives a negative shape: `a[4:1:s]` with `s = -1` selects 3 elements, the computed shape is -3.
* `Verif.Slices.C15_empty_violated` — C15: an empty slice (`a[2:2]`) is not a valid argument of `cspan_slice`.
* `Verif.Slices.C16_runtime_step_violated` — C16: with `allow_negative_index` and a positive run-time step the stop bound is printed as an inclusive bound: `a[0:4:s]` with `s = 2` selects elements 0 and 2 in Python, 0, 2 and 4 in Fortran.
* `Verif.Slices.C16_minus_zero_violated` — C15/C16: the literal bound `-0` is the length of the array instead of 0: `a[-0:]` is the whole array in Python and an empty section in Fortran.
* `Verif.Slices.C17_negative_step_stop_violated` — C17: with the start omitted and a negative step, the stop bound is used as the origin: `a[:2:-1][0]` on 5 elements is `a[4]` in Python and `a[2]` in the generated code.
* `Verif.Slices.C17_negative_index_violated` — C17: a negative index of a slice counts from the wrong end: `a[1:4][-1]` is `a[3]` in Python and `a[0]` in the generated code.
* `Verif.Slices.C57_tuple_step_violated` — C57: the step is ignored: `t[::2]` on 4 elements selects positions 0 and 2 in Python, all four in the generated code.
* `Verif.Views.C18_nondivisible_violated` — **C18 fails** for strides that do not divide each other: `a[:, ::2, :]` with `a` of shape `(2, 3, 5)` passes the ordering check, but the compiled code finds element `(0, 1, 0)` at item offset 5 where NumPy stores it at offset 10.
* `Verif.Views.C18_negative_stride_violated` — **C18 fails** for reversed views: `a[::-1]` with `a` of length 3 passes the ordering check, and the compiled code gets a slice with a negative upper bound and step.
* `Verif.Views.C18_zero_stride_violated` — **C18 fails** for broadcast views: `np.broadcast_to(x, (2, 3, 4))` with a 0-d `x` passes the ordering check and makes the wrapper divide by zero.
* `Verif.Names.C28_c_while_violated` — **C28 fails** for the C keyword `while`, misspelt `whie` in the list of reserved words.
* `Verif.Names.C58_intrinsic_captured_violated` — **C58 fails**: a Python variable named after one of these intrinsics keeps its name, so that in its scope the generated call refers to the variable.
* `Verif.Names.C30_late_outer_name_violated` — **C30 fails** when an outer symbol is inserted after a clash was resolved in a nested scope: in Fortran, with a global `x` and a local `X` (renamed `X_0001`), a global `x_0001` defined after the function gets the same name as the local.
* `Verif.Names.C30_late_outer_prefix_violated` — The same failure in C, without any renaming: a local variable `m__x` of a function of module `m`, and a global `x` defined after the function.
* `Verif.Names.C30_renamed_violated` — **C30 fails** (stability): in C, a function `Dummy_0000` nested in a function is called `m__f__Dummy_0000`, until a temporary is requested: then the symbol `Dummy_0000` refers to the temporary.
* `Verif.Names.C31_find_all_violated` — **C31 fails** for `find_all`: a name both defined and imported in a scope is found by `find` as its definition, by `find_all` as the import.
* `Verif.Names.C32_captured_violated` — **C32 fails** without that restriction: after the history of `C30_late_outer_prefix_violated` the name of the global `x`, seen from the function, is taken back to the local `m__x`.
* `Verif.Exprs.C19_nested_comparison_violated` — `(a < b) < c` is printed as the chain `a < b < c`: with `a = 3, b = 2, c = 1` the user's expression is `0 < 1`, true, and the printed one is false.
* `Verif.Exprs.C19_nested_condition_violated` — `x if (y if c else z) else w` is printed without the parentheses, which is not Python.
* `Verif.Exprs.C19_and_operands_violated` — `a and b` on integers is printed `bool(a) and bool(b)`: the value is a truth value instead of one of the operands.
* `Verif.Exprs.C20_band_eq_violated` — `(a & b) == c` is printed `a & b == c`, which C reads `a & (b == c)`.
* `Verif.Exprs.C20_eq_lt_violated` — `(a == b) < c` is printed `a == b < c`, which C reads `a == (b < c)`.
* `Verif.Exprs.C20_bool_xor_and_violated` — On booleans `a ^ b & c` is printed `a != b && c`, which C reads `(a != b) && c`.
* `Verif.Exprs.C20_truth_of_band_violated` — `(a & b) and c` on integers is printed `(a & b != 0) && ...`, where C reads `a & (b != 0)`.
* `Verif.Exprs.C21_eqv_and_violated` — On booleans `a == b and c` is printed `a .eqv. b .and. c`, read `a .eqv. (b .and. c)`.
* `Verif.Exprs.C21_not_band_violated` — On booleans `not (a & b)` is printed `.not. a .and. b`, read `(.not. a) .and. b`.
* `Verif.Exprs.C21_or_neqv_violated` — On booleans `a | b ^ c` is printed `a .or. b .neqv. c`, read `(a .or. b) .neqv. c`.
* `Verif.Exprs.C21_bor_and_violated` — On booleans `(a | b) and c` is printed `a .or. b .and. c`, read `a .or. (b .and. c)`.
* `Verif.Exprs.C21_not_not_violated` — `not not x` is printed `.not. .not. x`, which is not Fortran.
* `Verif.Types.C34_associative_mixed_violated` — **C34** is not associative when they are mixed: `(x + i) + f` and `x + (i + f)` with `x` a Python `float`, `i` an `int8`, `f` a `float32` have different types (NumPy behaves the same).
* `Verif.Types.C34_lossy_int64_violated` — **C34** is not lossless for `int64` with `float64`: `2^53 + 1` has no exact `float64`.
* `Verif.Types.C34_bitwise_weak_violated` — **C34** fails for `&`, `|`, `^` between a NumPy integer smaller than 64 bits and a Python `int`: pyccel gives `int64`, NumPy keeps the NumPy type.
* `Verif.Types.C34_negated_bool_violated` — **C34** fails for the unary operators on `bool`: Python's `-b` is an `int`, pyccel's is a `bool`, which cannot hold the value −1.
* `Verif.Types.C35_bitwise_rank_violated` — **C35** fails for `&`, `|`, `^`: the rank (and the order) are those of the first operand. For every element type and all ranks `1 ≤ r < s`, the expression on arrays of ranks `r` and `s` is given rank `r`, and the swapped expression rank `s`.
* `Verif.Types.C36_nested_violated` — **C36** fails whenever two or more levels of a list, set or tuple are dropped: the result, if any, has a rank smaller than the requested one.
* `Verif.Types.C37_hidden_one_violated` — **C37** fails when an unknown extent is 1 at run time: arrays of shapes `(n,)` and `(2*n+3,)` with `n = 1` broadcast in NumPy to `(5,)`, but pyccel gives the result the shape `(n,) = (1,)`; with the operands swapped it gives `(5,)`.
* `Verif.Types.C37_rejected_offset_violated` — **C37** also rejects shapes that NumPy accepts for some sizes: `(n,)` and `(n+1,)` are refused although with `n = 1` they broadcast to `(2,)`.
* `Verif.Simplify.C23_rounding_violated` — **C23** fails in floating-point arithmetic: with 53 significant bits, whatever the rounding to nearest, `(a - b) + b` with `a = 1`, `b = 2^60` is 0, but `make_simplified` returns `a`, whose value is 1.
* `Verif.Simplify.C24_regroup_violated` — **C24** fails when literals of mixed types are regrouped: `(x + int8(1)) + float32(2)` with `x` a Python `float` has type `float64`, its simplification `x + float32(3)` has type `float32`.
* `Verif.Simplify.C24_mul_violated` — **C24** fails for `x * 1.0`: the product of any integer `x` with the literal `1.0` is simplified to `x` itself, of an integer type, while the product is a real number.
* `Verif.Flow.C26_nan_guard_violated` — The branch guarded by `x != x` is dropped, because SymPy says the condition is false; Python takes it when `x` is NaN.
* `Verif.Flow.C27_evaluated_twice_violated` — With an effect in the middle the operand is evaluated twice: `0 < next() < 10`, where `next` increments a counter and returns it, leaves the counter at 2 instead of 1 and compares 1 and 2.
* `Verif.Flow.C27_wrong_value_violated` — The value can be wrong too: with `next` returning the counter before the increment, `-1 < next() < 1` is true in Python and false in the translation.
* `Verif.Flow.C59_elif_violated` — C: the argument of `min` in an `elif` is computed before the first condition is tested, so the division by zero it was protected from happens.
* `Verif.Flow.C59_and_violated` — C: the same with the second operand of `and`.
* `Verif.Flow.C59_fortran_merge_violated` — Fortran: a processor is allowed to evaluate both branches of `merge`, and then divides by zero.
* `Verif.Flow.C60_test_frozen_violated` — The test is computed once, in front of the loop: started with `x0 = 0`, the Python loop ends with `x0 = 2`, the C loop never ends.
* `Verif.Calls.C44_posonly_violated` — **C44 is violated** when positional-only parameters have defaults: in `def f(a=1, /, c=3)` Pyccel gives `c` the default of `a`.
* `Verif.Calls.C43_kwonly_positional_violated` — **C43 is violated**: in `def f(a, *, b)` the keyword-only `b` is accepted by position, where Python raises `TypeError`.
* `Verif.Calls.C43_duplicate_violated` — **C43 is violated**: in `def f(a, **k)` the call `f(1, a=2)` is accepted, where Python raises `TypeError` (multiple values for `a`).
* `Verif.Calls.C43_empty_kwargs_violated` — **C43 is violated**: `f(1)` for `def f(a, **k)` is valid Python but leaves Pyccel's call without a value for `k`.
* `Verif.Calls.C43_starred_violated` — **C43 is violated**: `f(*(1, 2), 3)` for `def f(*r)` is valid Python but is not translated.
* `Verif.Calls.C43_invalid_format_violated` — **C43 is violated**: no call to `def f(*, a, b=1)` from Python succeeds (the format `$O|O` is invalid), although `f(a=5)` is valid.
* `Verif.Calls.C43_uninitialised_violated` — **C43 is violated**: for `def f(a=1, *, b)` the call `f()` must be refused (`b` is missing), but the wrapper runs the function with an uninitialised `b`.
* `Verif.Calls.C43_none_violated` — **C43 is violated**: passing `None` (here `0`) for a parameter with default silently uses the default.
* `Verif.Calls.C43_renamed_violated` — **C43 is violated**: a parameter whose name clashes with a C keyword is renamed, and can no longer be given by keyword.
* `Verif.Calls.C45_ambiguous_violated` — **C45 is violated**: with overloads `(list[int], int)` and `(list[float], float)` the call `f([], 1.0)` is refused, although the second overload accepts it.
* `Verif.Calls.C45_default_violated` — **C45 is violated**: two overloads which differ only in the type of a parameter with default cannot be told apart; the second is never called.
* `Verif.Ast.C33_augassign_violated` — **C33 is violated** when a node in use is discarded: printing `x //= y` turns the statement (node 2, held by the block 3) into `x = x // y` and invalidates it. The block still holds it, the operands no longer know it as a user, and printing the block again fails with an `AssertionError`.
* `Verif.Ast.C33_assign_same_violated` — **C33 is violated** by assigning the body a function already has: the block is discarded and then used again; its statements no longer know it.
* `Verif.Ast.C33_reused_violated` — **C33 is violated** when a replacement is part of another original: in `f(g(h(x)), y)` the simultaneous substitution of `g(h(x))` by `a` and `y` by `h(x)` discards `h(x)` before using it; `x` no longer knows it as a user.
* `Verif.Ast.C62_shared_violated` — **C62 is violated** for shared nodes: in `f(g(x), g(x))`, both arguments being the same node, exchanging `x` and `y` leaves `g(x)` as it was.
* `Verif.Ast.C62_cyclic_violated` — **C62 is violated** for shared nodes: in the same `f(g(x), g(x))`, replacing `x` by `s(x)` makes `s(x)` its own argument: the tree has become cyclic.
* `Verif.Text.C46_layout_violated` — C46 fails: the blank after a line separator U+2028 inside a literal is lost, because the program is split into lines with `str.splitlines` and every line is stripped.
* `Verif.Text.C47_layout_violated` — C47 fails: the blank after a line separator U+2028 inside a literal is lost.
* `Verif.Text.C48_percent_violated` — C48 fails in C: a per cent sign in a string is taken for a conversion; `print("50% sure")` is undefined behaviour.
* `Verif.Text.C48_singleton_list_violated` — C48 fails in C and Fortran: a list with one element is printed with a comma, as only tuples are.
* `Verif.Text.C48_array_separator_violated` — C48 fails in C and Fortran: there is no separator after an array.
* `Verif.Text.C48_nested_string_violated` — C48 fails in C and Fortran: strings in a tuple are printed without quotes.
* `Verif.Text.C48_empty_set_violated` — C48 fails in C and Fortran: the empty set is printed as `{}`.
* `Verif.Text.C48_fortran_bool_violated` — C48 fails in Fortran: a true Boolean that is not a literal is followed by a blank too many.
* `Verif.Text.C49_long_name_violated` — C49 fails: a name that is too long for the room left is broken with blanks in it (Fortran allows 63 characters), so the statement changes.
* `Verif.Text.C49_deep_violated` — C49 fails: for a statement that is indented by 68 blanks (34 nested blocks) an `IndexError` is raised, because the position to start from is negative.
* `Verif.Text.C49_loop_violated` — C49 fails: if a line is indented by 65 characters the loop never ends, because nothing is taken from the line. (pyccel indents by an even number of blanks.)
* `Verif.Text.C51_printed_violated` — C51 fails: two macros in a row are printed as one name.
* `Verif.Text.C63_c_comment_violated` — C63 fails in C: `*/` in a Python comment ends the C comment, and the rest of the comment is compiled.
* `Verif.Text.C63_fortran_docstring_violated` — C63 fails in Fortran: a line of a docstring that begins with `$omp` becomes a directive.
* `Verif.Locks.C52_released_violated` — **C52** (released) fails if taking a lock fails inside `__enter__`: Python does not call `__exit__`, the locks taken before, the lock `compilation_in_progress` among them, stay held as long as the process lives, and other processes wait for ever.
* `Verif.Locks.C52_exclusive_violated` — **C52** (exclusive) fails in general: `__enter__` takes the locks of the direct dependencies, the linker reads the object files of all of them. In different working directories one process links a library with an object file (5) that another process is writing.
* `Verif.Locks.C52_no_deadlock_violated` — **C52** (no deadlock) fails in different working directories: two modules that import the same two modules in opposite orders can wait for each other.
* `Verif.Build.C64_status_violated` — **C64** fails for shapes that do not fit (`numpy.where`, `arctan2`, `linspace`): the command ends with status 0, prints nothing, and produces nothing.
* `Verif.Build.C64_message_violated` — **C64** (messages) fails for errors that are found when the wrapper is printed: the message is not shown, there is a traceback of a `TypeError` instead (`create_shared_library` returns `None`).
* `Verif.Build.C65_stages_violated` — **C65** fails for `--syntax-only`: all the other stages are done as well.
* `Verif.Build.C66_source_kept_violated` — **C66** fails without `--output`: whatever the file is, it is overwritten by its translation.
* `Verif.Build.C67_parallel_violated` — **C67** fails for every error that Pyccel finds: the root process raises it before the first broadcast, the other processes wait for ever.
* `Verif.Cache.C54_type_violated` — C54 fails: after a `list[Final[int]]`, such as `[x]` for a variable `x: Final[int]`, each `list[int]` of the process is a `list[Final[int]]`, whose items cannot be assigned ("Cannot modify variable marked as Final"): `Final[int]` and `int` are equal and have the same hash value, so the cache does not distinguish them.
* `Verif.Cache.C54_equal_violated` — C54 fails: after 128 other annotations of this kind a `tuple[int, float]` is a new object, which is not equal to the old one, though it describes the same type.
* `Verif.Cache.C54_same_object_violated` — C54 fails: one parametrised type more than in `C54_same_object_partial` and the object is a new one.
* `Verif.Cache.C54_self_equal_violated` — C54 fails: the object for `Final[np.int64]` is not equal to itself. So `[x, x]` with a variable `x: Final[np.int64]` is rejected ("Can't create an inhomogeneous list").
* `Verif.Cache.C54_symmetric_violated` — C54 fails: whether two types are equal depends on which of them is asked, when one is not known: `GenericType() == list[int]` but not `list[int] == GenericType()`.
* `Verif.Containers.C38_pop_violated` — C38 fails: with a negative index that is not a literal, `l.pop(i)` is undefined in C and in Fortran, whatever Python does.
* `Verif.Containers.C38_pop_raises_violated` — C38 fails: where Python raises IndexError, the generated code is undefined, for all lists and all indices.
* `Verif.Containers.C38_extend_self_violated` — C38 fails: `l.extend(l)` in C is undefined for every list that has no room for the result but for its last element (the iterator is not looked at after that one): the buffer of the list moves while the list is read.
* `Verif.Containers.C38_extend_display_violated` — C38 fails: after `a.extend([len(a), len(a)])` with `a = [5]` Python has `[5, 1, 1]` and the generated code `[5, 1, 2]`.
* `Verif.Containers.C39_assign_self_violated` — C39 fails: `a = a & b`, and `a = a - b`, in C leave `a` empty: the variable is cleared before its value is copied. For all sets `a` and all arguments, among which `a` may be.
* `Verif.Containers.C39_assign_union_violated` — C39 fails: `a = a | b` and `a = b | a` are undefined in C: the variable is dropped before the union is taken. For all sets.
* `Verif.Containers.C39_assign_union_fortran_violated` — C39 fails: `a = b | a` in Fortran leaves `b` in `a`: the target is overwritten before it is read.
* `Verif.Containers.C39_assign_inter_violated` — C39 fails: `a = b & a` leaves `b` in `a`, and `a = b - a` leaves `a` empty, in both languages and for all sets.
* `Verif.Containers.C39_pop_violated` — C39 fails: `s.pop()` of an empty set, which raises KeyError in Python, is undefined.
* `Verif.Containers.C39_remove_violated` — C39 fails: `s.remove(x)` of an element that is not there, which raises KeyError in Python, goes on as if nothing had happened, for all sets.
* `Verif.Containers.C40_popitem_violated` — C40 fails: `d.popitem()` does not return the pair that was inserted last, as Python's does, but the first one in the order of the table.
* `Verif.Containers.C40_new_key_violated` — C40 fails: `d[k] = v` with a key that is not there, which adds it in Python, is undefined, for all dictionaries, keys and values.
* `Verif.Containers.C40_missing_key_violated` — C40 fails: where Python raises KeyError the generated code is undefined, in all states.
* `Verif.Containers.C41_steal_violated` — C41 fails: `steal` leaves the handle it takes the object from responsible for it, so that dropping both frees the object twice.
* `Verif.Containers.C41_drop_twice_violated` — C41 fails: dropping a responsible handle twice frees its object twice: in every state, `drop` leaves the handle as it was.
* `Verif.Containers.C41_overwrite_violated` — C41 fails: assigning to a handle that is responsible for an object leaks the object: every handle is dropped at the end, and object 0 is never freed. (What `x = lst.pop()` twice in a program becomes.)
* `Verif.Memory.C56_bare_return_violated` — C56 fails: a bare `return` after the allocation loses the buffer in C: `x = np.zeros(n)`, `if a: return`.
* `Verif.Memory.C56_return_in_loop_violated` — C56 fails: so does a `return` in a loop whose text comes before the first assignment, when it is executed in a later iteration: `for …: if a: return 1` / `x = np.zeros(n)`.
* `Verif.Memory.C56_loop_in_branch_violated` — C56 fails: an array that is allocated in one branch and in a loop in another branch is taken to be unallocated in every iteration; C loses a buffer, Fortran allocates what is allocated: `if a: x = np.zeros(n)` / `else: for …: x = np.zeros(m)`.
* `Verif.Memory.C56_same_shape_violated` — C56 fails: after `if a: x = np.zeros(3)`, the assignment `x = np.ones(3)` is taken to need no allocation; if `a` does not hold, both languages use an array that does not exist.
* `Verif.Memory.C56_del_violated` — C56 fails: the same after `del x`.
* `Verif.Memory.C56_branch_status_violated` — C56 fails: the status of the last allocation of one branch is taken for the next branch, where Fortran then asks for the size of an array that is not allocated: `if a: x = np.zeros(n); x = np.zeros(m)` / `else: x = np.zeros(k)`.
* `Verif.Memory.C68_loop_violated` — C68 fails: in a loop, `x = np.ones(3)` before `x = np.zeros(4)` is taken to need no allocation; in the second iteration `x` keeps four elements in both languages.
* `Verif.Memory.C68_len_violated` — C68 fails: `x.shape` in a loop in front of an assignment with another shape stays what it was: `x = np.zeros(3)`, `for …: len(x)`; `x = np.zeros(4)`.
* `Verif.Memory.C68_matrix_fortran_violated` — C68 fails: in Fortran, a 2×2 matrix that becomes a 4×4 matrix is not reallocated (`x = np.zeros((n, n))` twice): four elements, and every new dimension is four.
* `Verif.Memory.C69_function_violated` — C69 fails: `x = np.zeros(n)`, `x = np.sin(x)`: in C the array is freed before the sine is taken; and in Fortran, for a matrix, the sizes of a deallocated array are asked for.
* `Verif.Memory.C69_operand_violated` — C69 fails: `x = y + x` for arrays whose shapes are not literal: the same, and in Fortran if the shape changes (`x` has one element).
* `Verif.Memory.C69_branch_violated` — C69 fails: `x = x + 1` in a branch after a branch that reallocates `x` is taken to need an allocation: `x = np.zeros(n)`, `if a: x = np.zeros(m)` / `else: x = x + 1`.
* `Verif.Memory.C70_violated` — C70 fails: with two temporary variables an array of the module is freed when the module is initialised (and a temporary variable when the module is freed), or the compiler stops with `IndexError`.
* `Verif.Vectors.C42_overlap_violated` — C42 fails: `v[1:] = v[:-1] + 1` is translated to C as a loop that goes up, which reads the elements it has just written.
* `Verif.Vectors.C42_fusion_violated` — C42 fails: `v[:-1] = w[:-1]` and `u[:-1] = v[1:]` are put into one loop in C, which reads elements of `v` before the first statement has written them.
* `Verif.Vectors.C42_fused_broadcast_violated` — C42 fails: with a matrix `x` whose rows have the length of `v`, `v[:] = w` and `x[:, :] = v` share the outer loop in C, and the first rows of `x` get the old elements of `v`.
* `Verif.Vectors.C42_list_violated` — C42 fails: `v[:] = [v[2], v[1], v[0]]` becomes three assignments, in C and in Fortran, and the last one reads what the first one wrote.
* `Verif.Vectors.C42_transpose_violated` — C42 fails: `x[:, :] = x.T` overwrites, in C and in Fortran, the upper half of the matrix before it is read.
* `Verif.Vectors.C42_broadcast_violated` — C42 fails: an operand that turns out to have one element is not repeated, its dimension being unknown when the code is generated; the C code reads past its end.
* `Verif.Vectors.C42_reversed_violated` — C42 fails: `v[:] = w[::-1]` reads `w[0]`, `w[-1]` and `w[-2]` in C, which do not exist.
* `Verif.Vectors.C42_mixed_violated` — C42 fails: pyccel stops with an exception if an array is assigned a list between two loops.
* `Verif.Assigns.C71_index_violated` — C71 fails: `i, x = 1, a[i]`: the search for variables that are still needed does not look into indices, and `x` becomes `a[1]`.
* `Verif.Assigns.C71_swap_violated` — C71 fails: `a[i + 1], a[j + 1] = a[j + 1], a[i + 1]`: indices that are not names or literals are never found to be equal, and there is no swap and no error.
* `Verif.Assigns.C71_alias_violated` — C71 fails: `a[i], x = 1, a[j]` when `i` and `j` are equal.
* `Verif.Assigns.C71_group_violated` — C71 fails: `(x, y), z = (1, 2), x`: variables in parentheses are never saved, and `z` becomes `1`.
* `Verif.Assigns.C72_unpack_violated` — C72 fails: `a[1], x = a`: `x` becomes the new `a[1]`.
* `Verif.Assigns.C72_rebuild_violated` — C72 fails: `t = (t[1], t[0], x)`: the elements are assigned one after the other.
* `Verif.Assigns.C73_violated` — C73 fails: whenever `x₁ = … = xₙ = e` with several targets is translated, every target gets another value than in Python: `x = y = (1, 2)` makes `x` `1` and `y` `2`. (`x = y = 1` stops with an exception.)
* `Verif.Wrapper.C74_numpy_bool_violated` — C74 fails: `np.True_` is accepted for a `bool` and arrives as `False`.
* `Verif.Wrapper.C74_overflow_violated` — C74 fails: an integer beyond 64 bits arrives as `-1`, and the caller gets a `SystemError`, because the exception set by the conversion is not looked at.
* `Verif.Wrapper.C74_null_violated` — C74 fails: in C, a string arrives without what follows a null character.
* `Verif.Wrapper.C74_fortran_violated` — C74 fails: in Fortran, the text `"éa"` arrives as `"é"`, because the number of characters is used for the number of bytes.
* `Verif.Wrapper.C74_surrogate_violated` — C74 fails: a string with a surrogate crashes the program.
* `Verif.Wrapper.C76_containers_violated` — C76 fails: every successful call of a function with a list, set or tuple among its arguments leaks at least one reference.
* `Verif.Wrapper.C76_error_violated` — C76 fails: every call that ends with a `TypeError` leaks at least two references.
* `Verif.Wrapper.C76_set_violated` — C76 fails: a set as result costs one reference for each element, although the arguments are scalars.
* `Verif.Wrapper.C77_operator_violated` — C77 fails: `x + y` crashes whenever `y` is an instance of a compiled class with addition and `x` is not (as in `1 + y`), because the wrapper is called with `x` as first operand and takes it for an instance.
* `Verif.Wrapper.C78_twice_violated` — C78 fails: the change of `a` is lost in `f(l, l)`.
* `Verif.Wrapper.C78_fortran_violated` — C78 fails: in Fortran, no change of a list or set is visible to the caller: no call changes any object.
* `Verif.Aliases.C79_loop_violated` — C79 fails: in a loop with `x = x + 1`, `print(p)` and `p = x` in this order, the compiler does not see that there is a pointer to `x` in the second iteration, because `p = x` comes last in the text. `x` is overwritten, and the new elements are printed.
* `Verif.Aliases.C79_loop_freed_violated` — C79 fails: the same with a shape that the compiler does not know. In C the memory is freed although `p` uses it.
* `Verif.Aliases.C79_del_violated` — C79 fails: `del x` frees the array of `x` although `p = x` uses it.
* `Verif.Aliases.C79_del_argument_violated` — C79 fails: `del a` for an argument frees the array of the caller (in C; the Fortran code is not valid).
* `Verif.Aliases.C79_argument_violated` — C79 fails: `a = a + 1` for an argument changes the array of the caller.
* `Verif.Aliases.C79_return_violated` — C79 fails: after a `return` in a branch the compiler has forgotten all pointers, so that `x = e` is accepted after `p = x`. The memory that `p` uses is freed.
* `Verif.Aliases.C79_return_copy_violated` — C79 fails: in the same place `x = y` is accepted, which is an error otherwise, and copies the elements of `y` to the memory of `x`, where `p` sees them.
* `Verif.Aliases.C80_base_violated` — C80 fails: in a loop with `r = p` and `p = b` in this order, `r` gets the targets that `p` had before the loop. The result uses the memory of `b`, but the wrapper keeps `a` alive.
* `Verif.Aliases.C80_local_violated` — C80 fails: the same with a local array, which is freed at the end: the elements of the result cannot be read.
* `Verif.Inline.C81_parameter_violated` — C81 fails: if a function returns its parameter, no assignment is generated; in `y = same(x)`, with `def same(a): return a`, `y` keeps its old value.
* `Verif.Inline.C81_return_violated` — C81 fails: `return` does not end a replaced function; the statements after it run too.
* `Verif.Inline.C81_result_violated` — C81 fails: in `x = f(x)` the result variable of `f` becomes `x`, which is also the argument: with `def f(a): r = 1; r = r + a; return r` the value is 2.
* `Verif.Inline.C81_argument_violated` — C81 fails: an argument is evaluated each time the parameter appears (or never): `double(ext(x))` with `def double(a): return a + a` calls `ext` twice.
* `Verif.Inline.C81_capture_violated` — C81 fails: a module variable in a replaced function of the same module is taken for a local variable of the caller with the same name.
* `Verif.Inline.C81_while_violated` — C81 fails: the statements for a call in the condition of `while` run once, before the loop.
* `Verif.Inline.C81_conditional_violated` — C81 fails: the statements for a call in `a if c else b` run whatever the condition is; `inv(x) if x else 0` divides by zero.
* `Verif.Inline.C81_order_violated` — C81 fails: the statements for a call in an expression run before everything else in the expression.
* `Verif.Inline.C81_last_violated` — C81 fails: in an expression the value of a call is the right-hand side of the last assignment in the function, even if this is not the assignment to the result, whose variable has no declaration then.
* `Verif.Inline.C81_removed_violated` — C81 fails: in an expression the variable for the result of a call is removed, even if it is used before the last assignment; the generated code has a variable without declaration.
* `Verif.Inline.C81_element_violated` — C81 fails: an argument that is an element of an array is read when the parameter is used, not when the function is called.
* `Verif.Inline.C82_parameter_violated` — C82 fails: if a function assigns its parameter, the variable of the caller that is the argument changes.
* `Verif.Floats.C83_odd_violated` — C83 fails: in C, `round(x)` of an odd integer `x` above `2 ^ 52` is `x + 1`: adding one half is rounded up.
* `Verif.Floats.C83_range_violated` — C83 fails: `round(x)` of a number that does not fit into 64 bits is undefined; in Python it is an integer.
* `Verif.Floats.C84_half_violated` — C84 fails: `round(0.125, 2)` is 0.13 in C and Fortran and 0.12 in Python.
* `Verif.Floats.C84_product_violated` — C84 fails: `round(2.675, 2)` is 2.68 in C and 2.67 in Python: the number is a bit below, but the product is rounded.
* `Verif.Floats.C84_fortran_violated` — C84 fails: in Fortran, `round(0.3, 1)` is not 0.3: it multiplies with 0.1.
* `Verif.Floats.C85_violated` — C85 fails: `1.0 // 0.1` is 10.0 in C and Fortran, and 9.0 in Python (0.1 is a bit more than a tenth).
* `Verif.Floats.C85_range_violated` — C85 fails: in Fortran, a quotient that does not fit into 64 bits is undefined.
* `Verif.Floats.C86_identity_violated` — C86 fails: `a // b` and `a % b` do not belong together, as they do in Python: `(a // b) * b + a % b` is not near `a`.
* `Verif.Floats.C87_violated` — C87 fails: the integer `2 ** 53 + 1` equals the float `2.0 ** 53` in compiled code; in Python it is greater.
* `Verif.Floats.C88_violated` — C88 fails: `a / 3` for `a = 2 ** 53 + 1` is not the nearest float: `a` is rounded before.
* `Verif.Floats.C89_violated` — C89 fails: `3 ** 39` fits into 64 bits, but C computes it with 53.
* `Verif.Floats.C89_negative_violated` — C89 fails: `2 ** -1` has the type of an integer in C and becomes 0; in Python it is 0.5.
* `Verif.Imports.C91_hoisted_violated` — C91 fails: an import is done before the statements above it. `print(0); import m` with `print(1)` in `m` prints 1 first.
* `Verif.Imports.C91_after_main_violated` — C91 fails: what follows the block `if __name__ == "__main__":` runs before it.
* `Verif.Imports.C91_local_violated` — C91 fails: an import in a function is done at its start.
* `Verif.Imports.C91_same_name_violated` — C91 fails: after `import a as k; import b as k`, the statements of `b` are never run.
* `Verif.Imports.C91_extensions_violated` — C91 fails: if Python imports two compiled modules that both import a third one, the statements of the third one are run twice.
* `Verif.Imports.C92_early_violated` — C92 fails: with two variables for intermediate results, 0 and 1, the first is freed, and then variable 2, that the program still uses.
* `Verif.Imports.C92_crash_violated` — C92 fails: with the second of them at the end, the translation stops with an `IndexError`.
* `Verif.Imports.C92_alias_violated` — C92 fails: the memory of a module that is imported with `as` is never freed.
* `Verif.Imports.C92_local_violated` — C92 fails: so is that of a module that is imported in a function or in the block of the main program.
* `Verif.Imports.C93_violated` — C93 fails: `a/x` imports `b/y`, which imports `a/z`. There is an order of the files, but none of the directories, and the build is refused.
* `Verif.Imports.C94_circle_violated` — C94 fails: if some file imports itself, directly or not, the search never ends; no error is reported.
* `Verif.Imports.C94_python_violated` — C94 fails: Python runs such programs.
* `Verif.Imports.C95_violated` — C95 fails: `main` has `from .m import f` and `from .sub.s import g`; `sub/s` has `from .m import h`, which is `sub/m`. Afterwards, calls of `f` in `main` go to `sub/m`. (Files: 0 `main`, 1 `m`, 2 `sub/s`, 3 `sub/m`. Names: 1 `.m`, 2 `.sub.s`.)
* `Verif.Imports.C96_violated` — C96 fails: if two other files have the same name, `a/b__c.py` and `a__b/c.py` both become `a__b__c`.
* `Verif.Lifetimes.C97_violated_function` — C97 fails: a function which is not a method and stores one argument in an attribute of another (`def link(a : A, y): a.x = y`) does not make `a` keep `y` alive. After `link(a, y); del y`, reading `a.x` reads freed memory.
* `Verif.Lifetimes.C97_violated_nested` — C97 fails: a method which stores its argument in an attribute of an attribute (`self.a.x = y`) makes `self` keep `y` alive, but not `self.a`: if `self` is deleted first, the other object points at freed memory.
* `Verif.Lifetimes.C97_violated_local` — C97 fails: the same with a local variable (`b = self.a; b.x = y`): nothing keeps `y` alive, not even `self`.
* `Verif.Lifetimes.C97_violated_setter` — C97 fails: `b.a.x = y` in the Python program. `b.a` is a temporary Python object; it keeps `y` alive instead of the object it stands for, and disappears at once.
* `Verif.Lifetimes.C97_violated_made` — C97 fails: a function which returns a new object built from its argument (`def make(y): return A(y)`) returns an object which does not keep `y` alive.
* `Verif.Lifetimes.C97_violated_resize` — C97 fails: a method which allocates an array attribute again (`self.d = np.full(5, 9)`) frees the array while the Python program still has a view of it.
* `Verif.Lifetimes.C97_violated_inner` — C97 fails: `m.inner`, for an object which is part of another one, is a Python object which frees memory that was never allocated on its own as soon as it is forgotten.
* `Verif.Lifetimes.C97_violated_python` — In each of these cases plain Python has no trouble.
* `Verif.Lifetimes.C98_violated_view` — C98 fails: `x = a.x; a.x = x` (reading an array attribute and assigning it again) makes `a` and the array refer to each other; neither is ever released.
* `Verif.Lifetimes.C98_violated_self` — C98 fails: a method which stores a pointer to its own attribute (`p = self.x; self.x = p`) makes the object refer to itself; it is never released.
* `Verif.Lifetimes.C98_violated_getter` — C98 fails: each time an attribute which is a pointer to an object is read (and each time a method returns such an object) a structure is allocated and lost, so that reading `b.a` in a loop uses more and more memory.
* `Verif.Lifetimes.C98_violated_number` — C98 fails: each time a number is assigned to an attribute (`a.n = 5`), the Python object for the number is kept alive until `a` is destroyed, so that assigning in a loop uses more and more memory, although there is one attribute.
* `Verif.Lifetimes.C98_violated_replaced` — C98 fails: an array which has been stored in an attribute stays alive until the object is destroyed, even when the attribute has since been given another array.
* `Verif.Layout.C99_pointer_violated` — C99 fails: a name of an array that is given a transposed array later keeps its first order, because the types of pointers are not compared. The program above is accepted; Python prints 5, and the generated programs print 0, in both languages.
* `Verif.Layout.C99_order_violated` — C99 fails: the same without a transposition, `y = a; y = b` with `b` in the other order.
* `Verif.Layout.C100_violated_step` — C100 fails: a slice with a step that is returned, `return x[0:5:2]`, is read without the step: 0, 1, 2 in place of 0, 2, 4.
* `Verif.Layout.C100_violated_column` — C100 fails: a column, `return x[:, 0]`, is read as a part of a row.
* `Verif.Layout.C101_violated_ndmin` — C101 fails: `np.array([[1, 2], [3, 4]], ndmin=3, order='F')` is transposed in its last two dimensions: element `[0, 0, 1]` is 3.
* `Verif.Layout.C101_violated_single` — C101 fails: `np.array([a])` with one matrix `a` is printed as `a`, which has not the rank of the result: no Fortran compiler accepts the assignment.
* `Verif.Layout.C102_violated_vector` — C102 fails: a vector times a square matrix in column-major order is printed `matmul(b, a)`, the matrix times the vector: `[1, 0]` times `[[1, 2], [3, 4]]` gives `[1, 3]` in place of `[1, 2]`.
* `Verif.Layout.C102_violated_order` — C102 fails: with `order='F'` the variable that takes the result has order `"F"`, but the expression printed does not depend on it: for arguments in row-major order the variable holds the transposed product.
* `Verif.Layout.C102_violated_mixed` — C102 fails: arguments of two different orders are refused by an exception of the translator.
* `Verif.Layout.C102_violated_shared` — C102 fails: in C the result is written while the operands are read. `y[:, :] = np.matmul(y, b)` with the identity for `b` and `y = [[1, 2], [3, 4]]` makes `y` zero in its first column.
* `Verif.Layout.C103_violated_keepdims` — C103 fails: with `keepdims=True` a negative axis is not found again and an assertion of the translator fails.
* `Verif.Layout.C103_violated_fused` — C103 fails: the same with `axis=0`: the columns are summed before the rows below are computed.
* `Verif.Layout.C104_violated_sum` — C104 fails: `x[0] = np.sum(x)` in C sums 0, not the old value, for the element assigned: with `x = [1, 2]` it gives 2.
* `Verif.Layout.C104_violated_amax` — C104 fails: `x[1] = np.amax(x)` in C loses the element assigned: with `x = [1, 5, 3]` it gives 3.
* `Verif.Layout.C104_violated_empty` — C104 fails: the largest element of an empty array is read from memory that does not belong to it, where NumPy raises an exception.
* `Verif.Layout.C104_violated_factor` — C104 fails: `3 * np.sum(a, initial=2)` is printed `3 * 2 + sum(a)`: with a sum of 5 it is 11, not 21.
* `Verif.Layout.C104_violated_subtracted` — C104 fails: `10 - np.sum(a, initial=2)` is printed `10 - 2 + sum(a)`.
* `Verif.Optional.C106_augassign_then_assign_violated` — C106 fails: `x += 1` changes the argument, and a later assignment makes the uses below it read a copy made at the beginning of the function. `f(3)` is 4 in Python and 3 in C.
* `Verif.Optional.C106_augassign_changes_caller_violated` — C106 fails: in C `x += 1` changes the variable of the caller. `f(3)` is 3 in Python and 4 in C.
* `Verif.Optional.C106_augassign_fortran_violated` — C106 fails: in Fortran the same function is not accepted by the compiler, because the argument has `intent(in)`.
* `Verif.Optional.C106_test_in_loop_violated` — C106 fails: in a loop, a test above an assignment is about the argument in every round. `f()` is 1 in Python and 3 in C and in Fortran.
* `Verif.Optional.C106_test_below_assignment_violated` — C106 fails: below an assignment under a condition, `x is None` is taken to be false. `f()` is 7 in Python and 8 in C and in Fortran.
* `Verif.Optional.C106_two_tests_violated` — C106 fails: with two tests in a condition that is followed by `else`, the remaining condition is computed when the first variable is absent. `f(None, 1)` is 2 in Python; the generated program reads `x`, which is absent.
* `Verif.Optional.C106_elif_violated` — C106 fails: a condition of an `elif` is computed before the `if`, also when an earlier branch excludes it. with `y` a number here: `f(5, 0)` is 1 in Python and divides by zero in the generated program.
* `Verif.Optional.C106_compare_none_violated` — C106 fails: `x == 3` and `not x` read an absent argument.
* `Verif.Optional.C106_or_fortran_violated` — C106 fails in Fortran: in `x is None or 3 < x` both operands are evaluated; C is right.
* `Verif.Optional.C106_while_and_merge_fortran_violated` — C106 fails in Fortran: tests are split off conditions of `if` only, not of `while` or of conditional expressions, where `merge` evaluates both values; C is right.
* `Verif.Optional.C107_none_by_position_violated` — C107 fails in Fortran: `f(None, 3)` is printed `f(3_i64)`, so that the first parameter gets the second argument. `f(3)` is 1 in Python and in C, and 2 in Fortran.
* `Verif.Scalars.C108_violated_promotion` — C108 fails: `x + x > 0` for the `int8` 100. NumPy reduces 200 to -56; C computes in `int` and compares 200.
* `Verif.Scalars.C108_violated_overflow` — C108 fails: `x + x` for the `int32` 2147483647 is -2 in NumPy; in C the overflow is undefined behaviour.
* `Verif.Scalars.C108_violated_bool_sum` — C108 fails: `(b + b) << 40` for `b = True` is `2**41` in Python; in C `b + b` is an `int` of 32 bits and the shift is undefined behaviour.
* `Verif.Scalars.C108_violated_shift` — C108 fails: `x >> 64` is 0 or -1 in Python; in C the shift is undefined behaviour.
* `Verif.Scalars.C108_violated_compile` — C108 fails: `b == 1`, `b % 2` and `-b` of a truth value, and `(x + 1) // x` of an `int8`, do not compile in Fortran.
* `Verif.Scalars.C108_violated_neg_bool` — C108 fails: `-b` of `b = True` is -1 in Python; pyccel gives it the type `bool`, and a variable that it is assigned to in C holds `True`.
* `Verif.Scalars.C108_violated_invert` — C108 fails: `~x + y` for an `int16` 300 and an `int8` 0 is the `int16` -301 in NumPy; pyccel gives it the type `int8`, and the variable that it is assigned to holds -45.
* `Verif.Scalars.C108_violated_abs` — C108 fails: `abs` of a NumPy integer or of a truth value is an integer; pyccel gives it the type `float`.
* `Verif.Scalars.C108_violated_and` — C108 fails: `x & 3` of an `int8` is an `int8` in NumPy; pyccel gives it the type `int64`.
* `Verif.Scalars.C108_violated_mod` — C108 fails: `-2**63 % -1` is 0 in Python; in C it is undefined behaviour (the division overflows).
* `Verif.Scalars.C108_violated_short_circuit` — C108 fails: `n != 0 and x // n > 1` for `n = 0` is `False` in Python; Fortran may evaluate both operands of `.and.` and then divides by zero.
* `Verif.Scalars.C109_violated_int32` — C109 fails: an `int32` and a `float32` are added as `float64` in NumPy; C and Fortran convert the integer to `float32`, which does not hold 16777217.
* `Verif.Scalars.C109_violated_float32` — C109 fails: `x * 0.1` of a `float32` is computed as `float32` in NumPy, and as `double` in C and Fortran.
* `Verif.Infer.C110_violated_tuple` — C110 fails: `t = (1, 2.5); t = (3.5, 4)` is accepted, and `t[0]` becomes 3.
* `Verif.Infer.C110_violated_return` — C110 fails: a function with `return 1, 2.5` in a branch and `return 3.5, 4` at the end is accepted, and returns 3 instead of 3.5.
* `Verif.Infer.C110_violated_shorter` — C110 fails: after `t = (1, 2.5, True)`, `t = (7, 8.5)` is accepted, and `t` still has three elements.
* `Verif.Infer.C110_violated_copy` — C110 fails: after `t = (1.5, 2)` and `h = (3.5, 4.5)`, `t = h` is accepted because the first elements have the same type, and `t[1]` becomes 4.
* `Verif.Infer.C110_violated_list` — C110 fails: `l = [1, 2]; l[0] = 2.5` is accepted, and `l[0]` becomes 2.
* `Verif.Infer.C110_violated_weak` — C110 fails: `x = 1; x = int64(1000); y = x + int8(1)`. The types `int` and `int64` count as equal, `x` stays an `int`, which has no size next to an `int8`; so `y` is an `int8` and becomes -23.
* `Verif.Infer.C110_violated_ternary` — C110 fails: `x = 1 if c else 2.5` is a `float` in the generated program and may be an `int` in Python.
* `Verif.Infer.C110_violated_no_return` — C110 fails: a function that returns a number on one path only is accepted. Where Python returns `None`, the generated function returns a variable that has no value.
* `Verif.Stubs.C111_violated_empty_tuple` — C111 fails: the type of an empty tuple is printed as `tuple[()]`, which is not in the grammar of annotations, so that the stub file cannot be read.
* `Verif.Stubs.C112_violated_moved` — C112 fails: the position of `*` is found before `/` is inserted, so that the last ordinary parameter becomes keyword-only. `def f(a, /, b, *, c)` is printed as `def f(a, /, *, b, c)`, and the call `f(1, 2, c=3)` is refused.
* `Verif.Stubs.C112_violated_last` — C112 fails: this happens to the last ordinary parameter of every function with positional-only and keyword-only parameters but no `*args`.
* `Verif.Stubs.C112_violated_error` — C112 fails: without ordinary parameters, `def f(a, /, *, c)`, the stub file has `def f(a, *, /, c)`, which is a syntax error.
* `Verif.Stubs.C113_violated_dict` — C113 fails: the members of two unions in a dictionary are combined in pairs only. With `K = int | float` and `V = float32 | float64`, `dict[K, V]` does not allow `dict[int, float64]`, and `dict[K, bool]` does not allow `dict[float, bool]`.
* `Verif.Stubs.C113_violated_order` — C113 fails: the order of an array is ignored if the type of its elements is a union. `V[:,:](order=F)` allows C-ordered arrays, which it does not mean.
* `Verif.Stubs.C113_violated_letter` — C113 fails: any order that is not `C` is taken for `F`.
* `Verif.Operands.C114_violated_left` — C114 fails: `np.where(c, a, b) + d` is printed `c ? a : b + d`. With `c` true, `a = 2` and `d = 10` the value is 2 instead of 12.
* `Verif.Operands.C114_violated_right` — C114 fails: `d + np.where(c, a, b)` is printed `d + c ? a : b`, which chooses by `d + c`.
* `Verif.Operands.C114_violated_bool` — C114 fails: `bool(np.where(c, a, b))` is printed `(c ? a : b != 0)`: the value is `a` itself, 2, which is not a truth value.
* `Verif.Operands.C114_violated_condition` — C114 fails: in `np.where(np.where(a, b, c), c, d)`, printed `a ? b : c ? c : d`, the inner call becomes the outer one.
* `Verif.Operands.C115_violated_sum` — C115 fails: `a * np.sum(x, initial=b)` is printed `a * b + sum(x)`: 10 * (2 + 3) = 50 becomes 10 * 2 + 3 = 23.
* `Verif.Operands.C115_violated_pow` — C115 fails: `math.pow(a + b, c)` is printed `a + b ** c`: (1 + 2) ^ 3 = 27 becomes 1 + 2 ^ 3 = 9.
* `Verif.Operands.C115_violated_pow_pow` — C115 fails: `math.pow(a, b) ** c` is printed `a ** b ** c`, which associates to the right: (10 ^ 2) ^ 3 becomes 10 ^ (2 ^ 3).
* `Verif.Operands.C115_violated_matmul` — C115 fails: `(a + b) @ c` for vectors is printed `sum(a + b * c)`: (1 + 2) * 3 = 9 becomes 1 + 2 * 3 = 7.
* `Verif.Operands.C115_violated_arange` — C115 fails: the element `i` of `np.arange(a, e, b + c)` is printed `a + b + c * i`: for `i = 10` the value 1 + (2 + 3) * 10 = 51 becomes 1 + 2 + 3 * 10 = 33.
* `Verif.Operands.C115_violated_norm_inverse` — C115 fails: `a / np.linalg.norm(x, -1)` is printed `a / 1 / sum(1 / abs(x))`, that is `(a / 1) / sum(1 / abs(x))`, whatever the operations are.
* `Verif.Operands.C115_violated_norm_negative` — C115 fails: `np.linalg.norm(x, -o)` is printed `sum(abs(x) ** (-o)) ** Real(1) / Real(-o)`: the sum is divided by the order instead of being raised to its inverse, whatever the operations are.
* `Verif.Hoist.C116_violated_scalar_call` — C116 fails: `y = 1 + f(a * s(n))`, where `f` returns an array and `s` a number, calls `s` twice in C and in Fortran.
* `Verif.Hoist.C116_violated_nested_calls` — C116 fails: `x = k(g(f(h(n))))` with functions which return arrays calls `h` three times and `f` twice in C.
* `Verif.Hoist.C116_violated_root` — C116 fails: `x = s(f(n)) ** 0.5` calls `f` twice in C.
* `Verif.Hoist.C117_violated_moved_call` — C117 fails: `x = s(0) + t(f(1))`, where `f` returns an array, calls `f` before `s`.
* `Verif.Hoist.C117_violated_moved_past_read` — C117 fails: `x = a[0] + t(f(a))`, where `f` returns an array and increments `a[0]`, reads `a[0]` after the increment.
* `Verif.Hoist.C117_violated_moved_operator` — C117 fails: `x = g(s(0), b + 1)`: the array `b + 1` is computed before `s` is called.
* `Verif.Hoist.C117_violated_operand_order` — C117 fails: `x = s(0) + t(1)`: the target language may call `t` before `s`.
* `Verif.Hoist.C118_violated_nested_calls` — C118 fails: `x = g(f(h(n)))`, with functions which return arrays, cannot be printed in Fortran, nor can `y = 1 + f(h(n))`.
* `Verif.Fills.C119_violated_single` — C119 fails: `np.linspace(0.0, 1.0, 1)` is `[0.0]`, the generated programs give `[1.0]`.
* `Verif.Fills.C119_violated_negative` — C119 fails: `np.linspace(0, -2.5, 3, dtype = int)` ends with `-3`, the generated programs with `-2`.
* `Verif.Fills.C119_violated_empty` — C119 fails: `x = np.linspace(0.0, 1.0, n)` with `n = 0` writes in front of the array in Fortran.
* `Verif.Fills.C119_violated_operand` — C119 fails: `x = 2 * np.linspace(0.0, 1.0, 5)` ends with `1.0` in Fortran, not with `2.0`.
* `Verif.Fills.C120_violated_empty` — C120 fails: `np.arange(5, 2)` is empty, in C there is no array.
* `Verif.Fills.C120_violated_fraction` — C120 fails: `np.arange(0, 2, 0.5, dtype = int)` is `[0, 0, 0, 0]`, the generated programs give `[0, 0, 1, 1]`.
* `Verif.Funcs.C121_violated_alias` — C121 fails: `a = np.cross(a, b)` overwrites `a[0]` before the second assignment reads it. For `a = [1, 2, 3]` and `b = [4, 5, 6]` NumPy stores `[-3, 6, -3]`, the generated code stores `30` in the second element.
* `Verif.Funcs.C121_violated_axisc` — C121 fails: with `axisc` the result has another shape than `a + b`. For two arrays of shape `(2, 3)` and `axisc=0` NumPy returns shape `(3, 2)`; the compiler creates a result of shape `(2, 3)` and the generated code writes outside it.
* `Verif.Funcs.C121_violated_broadcast` — C121 fails: the loop indices are matched with the shape from its start, also if the vector axis comes first. For shapes `(3, 1)` and `(3, 2)` with `axis=0`, which NumPy broadcasts, the generated code reads outside the first array.
* `Verif.Funcs.C121_violated_runtime_one` — C121 fails: dimensions of size one are only recognised if the size is a literal. For shapes `(1, 3)` and `(2, 3)` of which the first is known only at run time, only the first of the two vectors of the result is computed.
* `Verif.Funcs.C121_violated_two` — C121 fails: vectors of two elements, for which NumPy defines the cross product as well, are read outside their bounds.
* `Verif.Funcs.C122_violated_nan` — C122 fails: the sign of a NaN is NaN in NumPy, `0` in C and `1` or `-1` in Fortran.
* `Verif.Funcs.C123_violated_nan` — C123 fails: NumPy's `min` and `max` of an array with a NaN are NaN; the generated code can return another element.
* `Verif.Strings.C124_violated_blank` — C124 fails: in Fortran `"a" == "a "` is true.
* `Verif.Strings.C124_violated_nul` — C124 fails: in C `"a\0b" == "a"` is true for every conforming `strcmp`.
* `Verif.Strings.C124_violated_value` — C124 fails: in C `int(s != t)` is negative whenever `s` comes before `t`, and `(s != t) == True` is then false, for every conforming `strcmp`.
* `Verif.Strings.C125_violated_accent` — C125 fails: a function in Fortran receives only the first byte of `"é"`, which is not the encoding of any string.
* `Verif.Strings.C125_violated_nul` — C125 fails: a function in C receives `"a"` for `"a\0b"`.
* `Verif.Strings.C126_violated_copy` — C126 fails: `s = 'aa…a'; t = s` frees the same buffer twice.
* `Verif.Strings.C126_violated_self` — C126 fails: `s = 'aa…a'; s = str(s)` reads the buffer that it has just freed.
* `Verif.Strings.C126_violated_branch` — C126 fails: a string variable that is assigned only in a branch that is not taken is freed although it was never initialised.
* `Verif.Strings.C126_violated_loop` — C126 fails: a string variable that gets its first value inside a loop counts as possibly allocated there, so an uninitialised variable is freed, whatever the strings.
* `Verif.Strings.C126_violated_return` — C126 fails: `s = 'aa…a'; return s` through a result variable hands Python a freed buffer.
* `Verif.Strings.C127_violated` — C127 fails: `len("é")` is 2.
* `Verif.Recursion.C128_violated_mutual` — C128 fails: two functions that call each other are not declared `recursive`, although one of them can be active twice.
* `Verif.Recursion.C128_violated_nested` — C128 fails: a function that is called by a function defined inside it is not declared `recursive`.
* `Verif.Recursion.C128_violated_order` — C128 fails: a function that calls itself through an `@inline` function is declared `recursive` only if it stands before the `@inline` function in the file.
* `Verif.Recursion.C129_violated` — C129 fails: the translation never ends (Python stops it with an internal error, the recursion limit) if a function calls an `@inline` function that calls itself and stands after it (or is `@private`).
* `Verif.Complex.C130_violated_int` — C130 fails: in C, `complex(n, m)` with `m = 16777217` of type `int` has the imaginary part 16777216.0: `_Complex_I` is a `float complex`.
* `Verif.Complex.C130_violated_inf` — C130 fails: in C, `complex(x, y)` with an infinite `y` has no real part (it is NaN).
* `Verif.Complex.C130_violated_single` — C130 fails: in Fortran, `complex(z, n)` with `z = np.complex64(1)` and `n = 16777217` has the imaginary part 16777216.0: the sum is in single precision.
* `Verif.Complex.C130_violated_sign` — C130 fails: `complex(0, z)` with `z = 0j` is `-0.0+0j` (Python: `0j`).
* `Verif.Complex.C131_violated` — C131 fails: `complex(f(x), y)` with a function that returns a complex number calls `f` twice.
* `Verif.Complex.C132_violated` — C132 fails: in C, `n * 1j` with `n = 16777217` is `16777216j`.
* `Verif.Tests.C133_violated_value` — C133 fails: `1.0 in [1, 2]` is `False`.
* `Verif.Tests.C133_violated_width` — C133 fails: an element of type `np.int32` is in no list of Python's integers.
* `Verif.Tests.C133_violated_call` — C133 fails: in `f(x) in c` the function is not called if its result has another type.
* `Verif.Tests.C134_violated_optional` — C134 fails: `b is True` for an optional variable that is `None` reads what is not there.
* `Verif.Tests.C134_violated_types` — C134 fails: `x is y` is `False` for two optional variables of different types that are both `None`.
* `Verif.Tests.C134_violated_call` — C134 fails: in `f(x) is not None` the function is not called.
* `Verif.Tests.C134_violated_order` — C134 fails: `None is x` is not translated although `x is None` is.
* `Verif.Whole.C135_violated_long` — C135 fails: in C, `math.floor(9007199254740993)` is 9007199254740992: integers are made floats.
* `Verif.Whole.C135_violated_ceil` — C135 fails: in Fortran, `math.ceil(x)` is undefined from 2147483648 on: the intrinsic returns an integer of 32 bits.
* `Verif.Whole.C136_violated_floor` — C136 fails: in Fortran, `np.floor` of an `np.float32` is undefined from 2147483648 on, and that of an infinity always.
* `Verif.Whole.C136_violated_single` — C136 fails: in Fortran, `np.floor(np.int32(16777217))` is 16777216.
* `Verif.Whole.C136_violated_abs` — C136 fails: `np.abs(-9007199254740993)` is 9007199254740992, in C and in Fortran.
* `Verif.Whole.C137_violated` — C137 fails: `math.trunc(x)` is a `double` in the generated code, so that `print(math.trunc(x))` prints it with the format of an integer.
* `Verif.Clean.C138_violated_link` — C138 fails: `pyccel clean -n -p` removes symbolic links to folders, which are no programs: for `os.access` a folder counts as something that can be executed.
* `Verif.Clean.C139_violated` — C139 fails: with a symbolic link in the folder, the folder of another project is cleaned.
* `Verif.Clean.C140_violated_dangling` — C140 fails: a symbolic link whose target does not exist ends the call with an exception, and the folders that come after it are not removed.
* `Verif.Clean.C140_violated_pipe` — C140 fails: so does a pipe or a socket, which is taken for a folder.
* `Verif.Clean.C140_violated_folder` — C140 fails: `pyccel clean -n -p` ends with an exception if there is a folder.
* `Verif.Params.C141_violated` — C141 fails: `def f(a): a = a + 1` is accepted; in Python the array of the caller stays as it was, the translated function adds one to its elements.
* `Verif.Params.C142_violated_fortran` — C142 fails: `def f(a, b): a += 1; b[:] = a + b`, called as `f(x, x)`, is well defined in Python (and C gives the same contents); in Fortran it is undefined.
* `Verif.Params.C142_violated_rebind` — C142 fails: `def f(a, b): a = a + 1; …`, called as `f(x, x)`, changes `b` too, so that even the values that the function computes are wrong.
* `Verif.Iterate.C143_violated_append` — C143 fails: elements appended by the body are visited in Python and not in C or Fortran.
* `Verif.Iterate.C143_violated_freed` — C143 fails: in C, appending to a vector without room makes the loop read freed memory.
* `Verif.Iterate.C143_violated_pop` — C143 fails: when the body removes elements, Python's loop ends earlier; the Fortran loop reads outside the list and the C loop still visits the removed element.
* `Verif.Iterate.C143_violated_remove` — C143 fails: when the body removes an element that was visited, the C loop visits the last element twice (here it is counted instead of the one that is passed over).
* `Verif.Iterate.C144_violated` — C144 fails: if the body gives the name to another array, Python goes on with the array that the loop was started with, C and Fortran with the new one.
* `Verif.Iterate.C144_violated_shorter` — C144 fails: with a shorter array, the C loop ends early and the Fortran loop reads outside the array.
* `Verif.Iterate.C145_violated` — C145 fails: the keys of `{2: 20, 1: 10}` are visited in the order 1, 2 in Fortran.
* `Verif.Iterate.C145_violated_break` — C145 fails: `for k in {2: 20, 1: 10}: first = k; break` gives 2 in Python and 1 in Fortran.
* `Verif.Norm.C146_violated_overflow` — C146 fails: the norm of an array of integers with an element of 2^32 or more has undefined behaviour in C, because its square is converted to a 64-bit integer.
* `Verif.Norm.C146_violated_negative` — C146 fails: with a negative integer order other than -1 the powers of integers are cut to 0 in C: the norm of order -2 of the vector (2) is infinite instead of 2.
* `Verif.Norm.C146_violated_matrix` — C146 fails: the norm of order 1 of the identity matrix is 1 in NumPy, the greatest sum of a column, and 2 in C and Fortran, the sum of all elements.
* `Verif.Operators.C147_violated_same` — C147 fails: the sum of two objects of a class that defines `__radd__` only is an error in Python, and calls `__radd__` in generated code.
* `Verif.Operators.C147_violated_reflected` — C147 fails: `x += y` calls the reflected method of `y` in Python; the translation is refused.
* `Verif.Operators.C148_violated_early` — C148 fails: a `return self` before the end of the method is dropped, and the rest of the method is executed.
* `Verif.Operators.C148_violated_none` — C148 fails: a method without `return` returns `None`, which the name denotes afterwards in Python.
* `Verif.Repeats.C149_violated` — C149 fails: a tuple times -1 is empty in Python; generated code allocates a negative number of elements.
* `Verif.Repeats.C149_violated_sum` — C149 fails: in `(1, 2) * -1 + (3, 4, 5)` the length of the sum is 1 instead of 3, and the elements are stored before the beginning of the target.
* `Verif.Link.C151_violated` — C151 fails: the command has `-lblas -llapack`, and `gemm` is undefined; with the libraries as they were given (`-lblas -llapack -lblas`) linking succeeds.
* `Verif.Link.C152_violated` — C152 fails: `--flags -O0` has no effect, because `-O3` follows.
* `Verif.Link.C152_violated_program` — C152 fails: the options of the user are not used for the program of a file, whatever they are.
* `Verif.Link.C153_violated` — C153 fails: with `--include a b`, where both folders contain the file, the one in `b` can be taken.
* `Verif.Link.C154_violated_options` — C154 fails: the library is not compiled again when the options or the compiler change.
* `Verif.Link.C154_violated_time` — C154 fails: a source that is written at the time that the object file has is not compiled again.
* `Verif.Omp.C155_violated` — C155 fails: in C, with the vector statement `a[i, :] = 1`, there is a schedule in which an element of the array is not written, although the turns are independent: the threads share the variable of the inner loop.
* `Verif.Omp.C156_violated` — C156 fails: after `single nowait`, the barrier of the next `single` is missing in Fortran.
* `Verif.Omp.C157_violated` — C157 fails: `masked taskloop` opens a block that is never closed.
* `Verif.Omp.C157_violated_critical` — C157 fails: the end of `critical (before)` is dropped, because `before` contains `for`: the block is not closed.
* `Verif.Comments.C158_violated_earlier_else` — C158 fails: a comment in the first branch of a test is moved to the second if an `else` stands anywhere before in the file.
* `Verif.Comments.C158_violated_next` — C158 fails: a comment in a loop that follows a test is moved to the second branch of the test.
* `Verif.Comments.C158_violated_else_if` — C158 fails: a comment between `else:` and a test is moved to the first branch.
* `Verif.Comments.C158_violated_inner` — C158 fails: a comment after a test, in the second branch of another test, is moved into the test.
* `Verif.Comments.C159_violated` — C159 fails: a line of a docstring that begins with `#` is taken for a comment, and thus for an annotation if it is one.
* `Verif.Globals.Props.C160_violated` — C160 fails: an assignment in a function to a name that is also a variable of the file changes the variable of the file. After `x = 1`, `def f(y): x = y + 5; return x + y` and `r = f(2)`, Python prints `x` as 1, the compiled program prints 7.
* `Verif.Globals.Props.C160_violated_loops` — C160 fails: two functions that count with `i`, one of which calls the other, share their counter if the file has a variable `i`: the outer loop of the program above runs three times in Python, once when it is compiled.
* `Verif.Globals.Props.C160_violated_order` — C160 fails: whether a function changes the variable of the file depends on whether it is called before the text in which the variable is created: with such a call, `x` is 1 at the end, as in Python; without it, `x` is 3.
* `Verif.Globals.Props.C160_violated_main` — C160 fails: a variable of the file that the program assigns with an annotation becomes another variable, which functions do not see: they read 1 where Python's read 5.
* `Verif.Globals.Props.C161_violated` — C161 fails: after `from m import x` an assignment to `x` changes the variable of `m`. With `x = 1` and `def get(y): return x + y` in `m`, `x = x + 4` makes `get(0)` return 5; in Python it returns 1.
* `Verif.BindC.Props.C162_violated_string` — C162 fails: the default value of a string is ignored. With `def f(s: str = 'abc')` the call `f()` passes the empty string.
* `Verif.BindC.Props.C163_violated_order` — C163 fails for the order of the items of a dictionary: for `{2: 10, 1: 20}` Python gets `{1: 20, 2: 10}`.
* `Verif.BindC.Props.C164_violated_list` — C164 fails: every call with a list keeps a copy of the list. After `n` calls of `f([1, 2])` there are `n` blocks that nobody releases.
* `Verif.BindC.Props.C164_violated_dict` — C164 fails: the copies of the keys and the values of a returned dictionary are not released.
* `Verif.Comps.Props.C165_violated_self` — C165 fails: a list that is iterated over by its own comprehension, `x = [e for v in x]`, is empty afterwards, whatever the element is: the list is cleared before the loop.
* `Verif.Comps.Props.C165_violated_read` — C165 fails: `x = [x[i] for i in range(3)]` reads the list after it was cleared.
* `Verif.Comps.Props.C165_violated_inplace` — C165 fails: with `x = np.array([1, 2, 3])` the statement `x = np.array([x[2 - i] for i in range(3)])` gives `[3, 2, 3]`: the array is changed in place.
* `Verif.Comps.Props.C165_violated_bound` — C165 fails in C: `i = 3; x = [i for i in range(i)]` is empty, since the bound is read after `i` is set to 0.
* `Verif.Comps.Props.C165_violated_same_variable` — C165 fails: `[i for i in range(3) for i in range(2)]` has two elements instead of six in C, and is not allowed in Fortran.
* `Verif.Comps.Props.C166_violated_variable` — C166 fails: after `x = [e for i in range(n) …]` the variable `i` of the function is the number of iterations in Fortran and not less than the bound in C, so that it is never what it was before if that was less than `n`. In Python it keeps its value.
* `Verif.Returns.Props.C167_violated_order` — C167 fails: if another statement is `return a, b`, then `return b + 1, a` returns `b + 1` twice: the first result is the variable `a`, which is changed before it is read.
* `Verif.Returns.Props.C167_violated_twice` — C167 fails: `return x, x` does not compile, since both results have the name `x`.
* `Verif.Returns.Props.C168_violated_branch` — C168 fails in C: with an `@inline` function `if x: y = x else: y = 0 - x` that returns `y`, `return g(x)` is `-x` for every `x`. (The result is a variable of the caller here; if its name is one that pyccel made, it is not declared and the code does not compile.)
* `Verif.Returns.Props.C168_violated_other` — C168 fails in C: `y = x + 1`, `z = 2 * y`, `return y` returns `z`.
* `Verif.Returns.Props.C168_violated_max` — C168 fails in C: `return max(2 * i for i in range(3))` is 6 instead of 4.
* `Verif.Paths.Props.C169_violated` — C169 fails: a search that finds nothing returns the old value of `r` instead of the one that the `else` block gives it, for every range.
* `Verif.Paths.Props.C169_violated_while` — C169: the same for `while` loops whose test is false: the `else` block is left out, whatever it does.
* `Verif.Paths.Props.C170_violated_release` — C170 fails: in C with the release flags an assertion that fails has no effect: what follows is executed.
* `Verif.Paths.Props.C170_violated_effect` — C170 fails: in C with the release flags the condition of an assertion is not evaluated: `assert f() == 1` does not call `f`.
* `Verif.Paths.Props.C170_violated_handler` — C170 fails: a Python program cannot handle the `AssertionError` of a compiled function: it ends with it.
* `Verif.Paths.Props.C171_violated` — C171 fails: `if c: return v` without `else` gives an arbitrary value if `c` is false, where Python gives `None`.
* `Verif.Nested.Props.C172_violated` — C172 fails: an assignment in a nested function changes the variable of the outer function that has the same name: 7 is printed instead of 1.
* `Verif.Nested.Props.C173_violated` — C173 fails: a recursive nested function that uses a variable of the outer function does not compile in C: the recursive call has too few arguments. In Fortran it works.
* `Verif.Instances.Props.C174_assignment_copies_violated` — C174 fails: `a = A(1); b = A(2); a = b; b.v = 5; print(a.v)` prints 5 in Python. The compiled programs copy the structure and print 2 (in C the array is then also released twice: shown here with the function without its end).
* `Verif.Instances.Props.C174_pointer_constructed_violated` — C174 fails: `a = A(1); y = a; y = A(2); print(a.v)` prints 1 in Python. The constructor is called for the object that `y` points to: the C program prints 2 (and loses the array), the Fortran program stops with an error.
* `Verif.Instances.Props.C174_name_kept_in_loop_violated` — C174 fails: in a loop a second name refers to the object of the last iteration in Python, and to the new one in the compiled programs: the check that no pointer refers to the structure looks only at the text before it. `a = A(2); z = A(9); y = z; while a.v: a = A(a.v - 1); print(y.v); y = a`.
* `Verif.Instances.Props.C174_own_array_argument_violated` — C174 fails: `a = A(1); a = A(a.arr[0])`: the object is deleted before the argument is computed, so memory is read that has been released.
* `Verif.Instances.Props.C174_self_assignment_violated` — C174 fails: `a = A(1); a = a; print(a.arr[0])`: the object is deleted and nothing is assigned.
* `Verif.Instances.Props.C175_released_twice_violated` — C175 fails: after `a = A(1); b = A(2); a = b` the C function releases the array of `b` twice.
* `Verif.Instances.Props.C175_first_made_in_loop_violated` — C175 fails: an object that is first made in a loop is constructed in each iteration and deleted once: the C function loses memory, the Fortran function stops with an error at the second iteration. `k = A(2); while k.v: a = A(1); k.v = k.v - 1`.
* `Verif.Instances.Props.C175_made_in_branch_violated` — C175 fails: an object that is made in one branch of a condition is deleted at the end in all cases: if the branch was not taken, the C function reads and releases addresses that were never set. `k = A(0); if k.v: a = A(1)`.
* `Verif.TypeTests.Props.C176_numpy_scalars_violated` — C176 fails for each of these classes: the answer is wrong. A boolean of NumPy is taken for an `int` and a `bool`, a `bool` for a boolean of NumPy; `np.float64` is not taken for a `float` nor `np.complex128` for a `complex`; and a value of these classes given for `float` or `complex` loses its class.
* `Verif.TypeTests.Props.C176_none_violated` — C176 fails: an optional parameter that is `None` is taken for a value of its type: `def f(x : int = None): return isinstance(x, int)` returns `True` for `f()`.
* `Verif.PyOut.Props.C177_bool_violated` — C177 fails: for `def f(x : 'int | bool')` the test `isinstance(x, int)` comes first and also holds for `True`, which runs the body that was made for integers.
* `Verif.PyOut.Props.C177_float64_violated` — C177 fails: for `def f(x : 'float | np.float64')` a value of type `np.float64` runs the body that was made for Python's floating-point numbers.
* `Verif.PyOut.Props.C177_empty_list_violated` — C177 fails: for `def f(x : 'list[int] | list[float]', y : 'int | float')` an empty list runs the body of the first type, also if it was the list of floating-point numbers that the caller meant; for `y` the tests still decide.
* `Verif.PyOut.Props.C177_no_body_violated` — C177 fails: a part of an array with two dimensions that is not contiguous is an array of the declared element type and rank, but none of the bodies is run and the function returns `None`. The same holds for `None` given for an optional argument.
* `Verif.PyOut.Props.C178_dead_branch_violated` — C178 fails: `for i in range(n):` with the only statement `if False: …` (or `if isinstance(x, int): …` for an `x` that is known to be something else): the `if` block is left without sections, nothing is printed for it, and the loop has no body, so the text is not a Python program.
* `Verif.PyOut.Props.C179_order_violated` — C179 fails: `y[:, :] = x` for `y` in the order of Fortran and `x` in the order of C is printed as `y[:, :] = x.T`, which is another array (or an error if the shape is not square).
* `Verif.Masks.Props.C181_rank_violated` — C181 fails: an array with more dimensions is refused, although NumPy has an answer for it.
* `Verif.Masks.Props.C182_reads_violated` — C182 fails: `x = np.full(3, x[0] + 1)` with `x = [5, 5, 5]` gives `[6, 7, 7]` in C, because the expression is computed anew for each element and `x[0]` has changed after the first one.
* `Verif.Masks.Props.C182_calls_violated` — C182 fails: `x = np.full(3, f(0))` in C calls `f` three times: a function that counts its calls fills the array with different numbers. With `n = 0` the function is not called at all.
* `Verif.Source.C183_comment_violated` — C183 fails: a comment that starts left of the function becomes code. Here the line that was commented out, `# x = 0`, loses its `#` with the indentation of the function.
* `Verif.Source.C183_hash_violated` — C183 fails: when the comment of a header contains a second `#`, the end of the header is not recognised and the lines up to the next line that ends with a colon are deleted. Here the condition of the assignment disappears.
* `Verif.Source.C183_oneline_violated` — C183 fails: a method whose body is on the line of its header takes the body of the next method, and the next method disappears.
* `Verif.Source.C183_docstring_violated` — C183 fails: a line of a documentation string that looks like the definition of the function is taken for it: the text of the string is changed and the header, with the values that only the signature knows, is left.
* `Verif.Source.C184_shadow_violated` — C184 fails: a function of the user that is called like a built-in function (here their own `max`) is replaced by the built-in function.
* `Verif.Source.C184_library_violated` — C184 fails: a function of a library is replaced by the built-in function of the same name, even under another name (`from numpy import sum as total`).
* `Verif.Source.C184_module_violated` — C184 fails: the names of a function that was imported from another module are looked up in the module of the function given to epyccel. Here `g` (1) calls the `h` (2) of its own module and is translated with the `h` (3) of the other module.
* `Verif.Dot.C185_minus_violated` — C185 fails: `x -= a @ b` adds the product (C), whatever the order of evaluation. Here 7 - (1·2 + 1·3) should be 2 and is 12 or 5.
* `Verif.Dot.C185_alias_violated` — C185 fails: `a[0] = a @ b` sets the element to 0 before it is used (C). Here 2·1 + 3·1 should be 5 and is 3.
* `Verif.Dot.C185_type_violated` — C185 fails: when the target is an element of an array of integers and the vectors contain floats, every partial sum is truncated (C). Here 1/2 + 1/2 should be 1 and is 0.
* `Verif.Dot.C186_phase_violated` — C186 fails: `cmath.phase(-1.0)` is 0 instead of π.
* `Verif.Finals.C187_element_violated` — C187 fails: `def f(a: Final[float[:]]): a[0] = 1.0` is accepted and changes the array (in C, where the elements of an argument that is a constant structure can be assigned).
* `Verif.Finals.C187_call_violated` — C187 fails: a marked array can be passed to a function that changes it, `def g(b: float[:]): b[:] = 0.0` and `def f(a: Final[float[:]]): g(a)` are accepted.
* `Verif.Finals.C187_row_violated` — C187 fails in C and in Fortran: a row of a marked array gets a name that is not marked, `def f(a: Final[float[:,:]]): r = a[0]; r[0] = 1.0` is accepted and compiles (the pointer `r` is not subject to `intent(in)`), and changes the array.
* `Verif.Finals.C187_pointer_violated` — C187 fails in C and in Fortran: a pointer that is not marked is set to a marked array, `def f(a: Final[float[:]], b: float[:]): r = b; r = a; r[:] = 1.0` is accepted and compiles, because the types of pointers are not compared.
* `Verif.Finals.C187_local_violated` — C187 fails in Fortran too for local variables, which are declared without any restriction: `def f(): a: Final[float[:]] = np.zeros(3); a[0] = 1.0` is accepted and compiles.
* `Verif.Finals.C188_negative_violated` — C188 fails: `def f(a: Final[float[:]]): b = -a` is rejected with "Cannot modify variable marked as Final", although it only reads `a`; `b = 0.0 - a`, with the same value, is accepted.
* `Verif.Session.C189_path_violated` — C189 fails: every call that succeeds adds the folder of the process to `sys.path`, at the front, and does not remove it.
* `Verif.Session.C189_other_violated` — C189 fails: a later `import helper` finds another file than before the call.
* `Verif.Session.C189_failed_violated` — C189 fails: the same after a call that has raised an error.
* `Verif.Session.C189_load_violated` — C189 fails: if the new module cannot be loaded (its initialisation raises an error), the folder `__epyccel__` stays in `sys.path` too.
* `Verif.Display.Props.C192_swap_violated` — C192 fails: after `x = np.array([x[1], x[0]])`, for an array `x` of two elements, both elements are the old `x[1]` in C.
* `Verif.Display.Props.C192_rows_violated` — C192 fails: after `x = np.array([x[1], x[0]])`, for a matrix `x` with two rows, both rows are the old second row in C, where Python swaps them.
* `Verif.Display.Props.C192_ndmin_violated` — C192 fails: after `z = np.array([x, y], ndmin=3)`, for arrays `x` and `y` of `n` elements, the elements of `y` are missing in C: `z[0, 1, j]` is not written.
* `Verif.Display.Props.C192_display_violated` — C192 fails: `np.array([…], ndmin=…)` of lists of numbers, with more dimensions than the lists have, is not translated to C: an assertion fails, or the code does not compile.
* `Verif.Literals.C193_min_violated` — C193 fails: the smallest 64-bit integer can be written in Python (`-9223372036854775808`), but in Fortran the minus does not belong to the literal, and the literal is not valid.
* `Verif.Literals.C193_halfway_violated` — C193 fails: `np.float32(1.0000000596046448)` is 1 in Python, because the double is exactly halfway between two numbers of single precision; the digits that are printed are above the middle, and the compilers read the next number. `repr` of the double gives these digits.
* `Verif.Literals.C193_overflow_violated` — C193 fails: a decimal number that is infinite in Python (`1e400`) is printed as the name `inf`, which is not declared; the program is not valid.
* `Verif.Literals.C193_float32_overflow_violated` — C193 fails: `np.float32(1e39)` is infinite in Python; the literal that is printed in Fortran is too large for its kind.
* `Verif.Literals.C194_assign_violated` — C194 fails: after `x = math.inf` (or `x = -math.inf`) in Fortran, `x` is the largest (smallest) finite number of its type: `np.isinf(x)` is false and `np.isfinite(x)` is true.
* `Verif.Literals.C194_expression_violated` — C194 fails: `math.inf` in any other expression (`y = x + math.inf`, `f(math.inf)`, `x < math.inf`) is printed as the name `inf_f64` in Fortran, which is not declared; the program is not valid.
* `Verif.Config.C195_violated` — C195 fails: `pyccel config remove .` (and `pyccel config remove ""`) succeeds and deletes all configurations.
* `Verif.Config.C195_part_violated` — C195 fails: `pyccel config remove gnu/STC` succeeds, although no such family is registered, and deletes the library of a registered family.
* `Verif.Config.C196_dot_violated` — C196 fails: a family with a dot in its name (`g.1`) is registered, but the command line does not accept it; it offers `g`, for which there is no configuration.
* `Verif.Config.C196_vendor_violated` — C196 fails: a family with the name of a built-in compiler can be registered, but it is never used.
* `Verif.Config.C196_nested_violated` — C196 fails: registering `g/k` makes `g` a family that cannot be registered, although it is not registered and has no configuration.
* `Verif.Config.C196_link_violated` — C196 fails: if the path of the folder contains a symbolic link, no family can be registered or removed, because a path without links is compared with the path as it is written.
* `Verif.Config.C197_interrupted_violated` — C197 fails: a registration that is interrupted before the file is complete (here after the folders were made) leaves a family that cannot be used and cannot be registered.
* `Verif.Config.C197_failed_violated` — C197 fails: if the library cannot be built the command fails, but the family is registered: it is used, and cannot be registered again.
* `Verif.ConfigCheck.C198_exec_violated` — C198 fails: a configuration without a compiler (`{"c": {}}`) is accepted, but cannot be used.
* `Verif.ConfigCheck.C198_flags_violated` — C198 fails: flags that are not strings are accepted (`"general_flags": [5]`).
* `Verif.ConfigCheck.C198_tool_violated` — C198 fails: of the flags of a tool only the first is looked at.
* `Verif.ConfigCheck.C198_export_violated` — C198 fails: what `pyccel config export` writes for a registered family is never accepted, so that it cannot be changed and registered under another name: the version that `register` has put in is taken for a language.
* `Verif.Locate.C199_sibling_violated` — C199 fails: the package 1 has a module 5, and there is a module 5 in the folder of the script. In a file of the package, `from 5 import f` means the second for Python, and the first for pyccel.
* `Verif.Locate.C199_package_violated` — C199 fails: `from 1.2 import f`, where `1.2` is an installed package with a module `1.2.2`: Python loads the package, pyccel the module.
* `Verif.Locate.C199_skip_violated` — C199 fails: `from 1.2.3 import f`, where the installed package 1 has a module 3, but no package 2: Python raises an exception, pyccel takes `1.3`.
* `Verif.Locate.C199_clash_violated` — C199 fails: a package and a module of the same name: Python loads the package, pyccel the module.
* `Verif.Locate.C199_space_violated` — C199 fails: the folder 1 next to the script has no `__init__.py`, and an installed package has the same name: Python loads the module of the installed package, pyccel that of the folder.
* `Verif.Locate.C199_init_violated` — C199 fails: a package next to the script is not found (Python loads its `__init__.py`).
* `Verif.Captured.C200_fortran_power_violated` — C200 fails: with `x = -0.5`, `x ** n` is printed in Fortran as `-0.5_f64 ** n`, which is `-(0.5 ** n)`: for every even `n` the result has the wrong sign.
* `Verif.Captured.C200_fortran_operators_violated` — C200 fails: with `x = -0.5`, `a * x` is printed in Fortran as `a * -0.5_f64`, and `a + x` as `a + -0.5_f64`: two operators in a row are not Fortran (pyccel compiles with `-std=f2003`).
* `Verif.Captured.C200_c_sign_violated` — C200 fails: with `x = -0.5`, `-x` is printed in C as `--0.5`, where `--` is the decrement.
* `Verif.Lambdify.C202_keyword_violated` — C202 fails: `Symbol('lambda')` is printed `lambda_` in the expression, but `lambda` as argument, which is not Python.
* `Verif.Lambdify.C202_braces_violated` — C202 fails: `Symbol('x_{1}')` is printed `x_1` in the expression, but with the braces as argument.
* `Verif.Lambdify.C202_same_name_violated` — C202 fails: two symbols of one name (with different assumptions) become two arguments of one name.
* `Verif.Lambdify.C202_numpy_violated` — C202 fails: an argument `numpy` hides the module, `numpy.sin(numpy)` is not defined.
* `Verif.Lambdify.C202_no_arguments_violated` — C202 fails: with `use_out` and no arguments the signature is `def f(, out : …)`.
* `Verif.Lambdify.C202_out_name_violated` — C202 fails: with `use_out`, a symbol called `out` becomes a second argument of this name.
* `Verif.Sizes.Props.C203_step_violated` — C203 fails: `range(1, n, 5)` with `n = 6` has one element, `[1]`, but the size `ceil(-0.2 + 0.2 * n)` is `2`.
* `Verif.Sizes.Props.C203_floor_violated` — C203 fails: `range(m // n)` with `m = n = 49` has one element, but the size `floor(m * (1 / n))` is `0`.
* `Verif.Sizes.Props.C203_power_violated` — C203 fails: `range(m // n**2)` with `m = 8` and `n = 2` has two elements, but `n**(-2)` becomes a power of integers, which is `0` as an integer, and the size is `0` even without rounding.
* `Verif.Sizes.Props.C203_product_violated` — C203 fails: a product of three or more factors is refused, so no comprehension over three independent ranges of unknown lengths is accepted.
* `Verif.Symbols.Props.C204_attributes_violated` — C204 fails: `if a.x == b.x:`, for two objects of a class, is not tested: both attributes become the symbol `x`, so SymPy finds the condition to be true (and `a.x != b.x` to be false, which drops the branch), although it is false when the attributes differ.
* `Verif.Symbols.Props.C204_rounding_violated` — C204 fails: `if (a + b) - a == b:` is not tested, as SymPy's numbers are exact, although it is false for the floats `a = 2.0**53` and `b = 1.0`.
* `Verif.Symbols.Props.C204_size_violated` — C204 fails: the size of a comprehension over `range(a.x, b.x)` is found to be `x - x`, which is `0`, whatever the attributes are.
* `Verif.ArrayCalls.Props.C205_left_operand_violated` — C205 fails: in `y = a[0] + f(a)[0]`, where `f` changes `a`, the element is read after the call and not before it.
* `Verif.ArrayCalls.Props.C205_order_of_calls_violated` — C205 fails: in `y = g(1) + f(a)[0]`, where `g` returns a number and both change the array `a`, `f` is called before `g`.
* `Verif.ArrayCalls.Props.C205_and_violated` — C205 fails: in `if y < 0 and f(a)[0]: …` the function is called although `y < 0` is false.
* `Verif.ArrayCalls.Props.C205_conditional_violated` — C205 fails: in `y = f(a)[0] if y < 0 else 7` the function is called although `y < 0` is false, and even twice.
* `Verif.ArrayCalls.Props.C205_twice_violated` — C205 fails: in `y = f(a)[0] if y < 1 else 7` the function is called twice, and the second result is taken.
* `Verif.ArrayCalls.Props.C205_nested_conditional_violated` — C205 fails: inside an expression (`y = (f(a)[0] if y < 0 else 7) + 0`) it is called once, although `y < 0` is false.
* `Verif.ArrayCalls.Props.C205_condition_later_violated` — C205 fails: in `y = f(a)[0] if g(a)[0] else 7`, where `f` adds one to `a` and `g` subtracts one, `f` is called first, and so the condition is not the one of the program: `a[0] = 1` makes it false in Python.
* `Verif.ArrayCalls.Props.C205_elif_violated` — C205 fails: in `if y < 1: … elif f(a)[0]: …` the function is called although `y < 1` is true.
* `Verif.ArrayCalls.Props.C205_arrays_violated` — C205 fails for all functions, arrays and states: of `x = f(a) if c else g(b)`, where `c` is a variable, the translated program is `tmp = f(a)` and then the same statement, so `f` is called when `c` is false, and twice when `c` is true. (Spelled out as the arrays after it.)
* `Verif.ArrayCalls.Props.C205_while_violated` — C205 fails: the function in the test of `while 0 < f(a)[0]: …` is called once, before the loop. The loop of the program ends, and the loop of the translated program does not, however many steps it is given.
<!-- END GENERATED violations -->

## 6. Axioms of each property theorem

Generated by `tools/design.py` from `#print axioms`.

<!-- BEGIN GENERATED axioms -->
* **none**: `IntMath.C05_round_c_violated`, `IntMath.C05_round_fortran_violated`, `Flow.C27_evaluated_twice_violated`, `Flow.C27_wrong_value_violated`, `Calls.C44_posonly_violated`, `Build.C66_source_kept_violated`, `Containers.C38_min_max`, `Containers.C38_extend_display_violated`, `Containers.C39_pop_violated`, `Containers.C40_popitem_violated`, `Containers.C41_alias_drop`, `Containers.C41_steal_violated`, `Containers.C41_overwrite_violated`, `Floats.C90_lists`, `Floats.C90_bools`, `Layout.C103_violated_fused`, `Layout.C104_violated_sum`, `Layout.C104_violated_amax`, `Layout.C104_violated_empty`, `Strings.C124_violated_blank`, `Strings.C124_violated_nul`, `Strings.C125_violated_nul`, `Strings.C127_violated`, `Iterate.C145_fortran_once`, `Iterate.C145_violated`, `Iterate.C145_violated_break`, `Repeats.C149_violated`, `Repeats.C149_violated_sum`, `Link.C152_violated`, `Link.C152_violated_program`, `Link.C154_violated_options`, `Link.C154_violated_time`, `Omp.C156_c`, `Omp.C156_violated`, `PyOut.Props.C179_assign_partial`, `PyOut.Props.C179_order_violated`, `Masks.Props.C182_reads_violated`, `Masks.Props.C182_calls_violated`
* **propext**: `IntMath.C05_round_nonneg_digits`, `Loops.C12_zip_violated`, `Loops.C55_reduce_partial`, `Loops.C55_target_clobbered_violated`, `Slices.C13_minus_zero_violated`, `Slices.C13_tuple_of_tuples_violated`, `Slices.C15_negative_step_refused`, `Views.C18_negative_stride_violated`, `Views.C18_zero_stride_violated`, `Names.C31_local_first`, `Exprs.C19_nested_comparison_violated`, `Exprs.C19_and_operands_violated`, `Exprs.C20_band_eq_violated`, `Exprs.C20_eq_lt_violated`, `Exprs.C20_bool_xor_and_violated`, `Exprs.C20_truth_of_band_violated`, `Exprs.C21_eqv_and_violated`, `Exprs.C21_not_band_violated`, `Exprs.C21_or_neqv_violated`, `Exprs.C21_bor_and_violated`, `Types.C34_defined`, `Types.C34_commutative`, `Types.C34_idempotent`, `Types.C34_python`, `Types.C34_numpy_promotion`, `Types.C34_promotion_unique`, `Types.C34_weak_operand`, `Types.C34_associative_partial`, `Types.C34_associative_mixed_violated`, `Types.C34_division`, `Types.C34_bitwise_partial`, `Types.C34_bitwise_commutative_partial`, `Types.C34_bitwise_weak_violated`, `Types.C34_negated_bool_violated`, `Flow.C26_dead_removed`, `Flow.C26_nan_guard_violated`, `Flow.C27_chain_partial`, `Flow.C59_elif_violated`, `Flow.C59_and_violated`, `Flow.C59_fortran_merge_violated`, `Calls.C43_kwonly_positional_violated`, `Calls.C43_duplicate_violated`, `Calls.C43_uninitialised_violated`, `Text.C51_flat`, `Text.C51_add`, `Text.C51_append`, `Text.C51_join`, `Locks.C52_exclusive_violated`, `Build.C64_fresh`, `Build.C64_status_violated`, `Build.C64_message_violated`, `Build.C65_stages_violated`, `Build.C66_source_kept_partial`, `Build.C67_parallel_partial`, `Build.C67_parallel_violated`, `Cache.C54_type_violated`, `Cache.C54_same_object_violated`, `Cache.C54_self_equal_violated`, `Cache.C54_symmetric_violated`, `Containers.C39_assign_union_violated`, `Containers.C39_pop_partial`, `Containers.C41_drop_twice_violated`, `Memory.C56_same_paths`, `Memory.C56_distinct_vectors`, `Memory.C56_bare_return_violated`, `Memory.C56_return_in_loop_violated`, `Memory.C56_loop_in_branch_violated`, `Memory.C56_same_shape_violated`, `Memory.C56_del_violated`, `Memory.C56_branch_status_violated`, `Memory.C68_loop_violated`, `Memory.C68_len_violated`, `Memory.C68_matrix_fortran_violated`, `Memory.C69_function_violated`, `Memory.C69_operand_violated`, `Memory.C69_branch_violated`, `Memory.C70_violated`, `Vectors.C42_overlap_violated`, `Vectors.C42_fusion_violated`, `Vectors.C42_fused_broadcast_violated`, `Vectors.C42_list_violated`, `Vectors.C42_transpose_violated`, `Vectors.C42_broadcast_violated`, `Vectors.C42_reversed_violated`, `Vectors.C42_mixed_violated`, `Assigns.C72_unpack_violated`, `Assigns.C72_rebuild_violated`, `Wrapper.C76_set_violated`, `Wrapper.C77_operator_violated`, `Wrapper.C78_twice_violated`, `Imports.C94_circle_violated`, `Lifetimes.C97_violated_function`, `Lifetimes.C97_violated_nested`, `Lifetimes.C97_violated_local`, `Lifetimes.C97_violated_setter`, `Lifetimes.C97_violated_made`, `Lifetimes.C97_violated_resize`, `Lifetimes.C97_violated_inner`, `Lifetimes.C97_violated_python`, `Lifetimes.C98_violated_view`, `Lifetimes.C98_violated_self`, `Lifetimes.C98_violated_replaced`, `Layout.C99_pointer_violated`, `Layout.C99_order_violated`, `Layout.C100_fresh_partial`, `Layout.C100_rows_partial`, `Layout.C100_violated_step`, `Layout.C100_violated_column`, `Layout.C101_violated_ndmin`, `Layout.C102_violated_vector`, `Layout.C102_violated_order`, `Layout.C102_violated_mixed`, `Layout.C102_violated_shared`, `Layout.C104_violated_factor`, `Layout.C104_violated_subtracted`, `Optional.C106_augassign_then_assign_violated`, `Optional.C106_augassign_changes_caller_violated`, `Optional.C106_augassign_fortran_violated`, `Optional.C106_test_in_loop_violated`, `Optional.C106_test_below_assignment_violated`, `Optional.C106_two_tests_violated`, `Optional.C106_elif_violated`, `Optional.C106_compare_none_violated`, `Optional.C106_or_fortran_violated`, `Optional.C106_while_and_merge_fortran_violated`, `Optional.C106_nested_test_refused`, `Optional.C107_none_by_position_violated`, `Scalars.C108_python_types_partial`, `Scalars.C108_python_compiles_partial`, `Scalars.C108_operator_types_iff`, `Scalars.C108_violated_compile`, `Scalars.C108_violated_abs`, `Scalars.C108_violated_and`, `Scalars.C109_sized_iff`, `Scalars.C109_int_partial`, `Scalars.C109_float_iff`, `Scalars.C109_violated_float32`, `Infer.C110_check_aug_partial`, `Stubs.C111_violated_empty_tuple`, `Stubs.C112_violated_moved`, `Stubs.C112_violated_error`, `Stubs.C113_violated_dict`, `Stubs.C113_violated_order`, `Stubs.C113_violated_letter`, `Hoist.C116_runs`, `Hoist.C117_violated_moved_call`, `Hoist.C117_violated_moved_past_read`, `Hoist.C117_violated_moved_operator`, `Hoist.C117_violated_operand_order`, `Hoist.C118_violated_nested_calls`, `Recursion.C128_violated_mutual`, `Recursion.C128_violated_nested`, `Recursion.C128_violated_order`, `Tests.C133_violated_call`, `Tests.C134_violated_optional`, `Tests.C134_violated_types`, `Tests.C134_violated_call`, `Tests.C134_violated_order`, `Clean.C139_violated`, `Clean.C140_violated_dangling`, `Clean.C140_violated_pipe`, `Clean.C140_violated_folder`, `Params.C141_violated`, `Params.C142_violated_fortran`, `Params.C142_violated_rebind`, `Iterate.C143_fortran_break`, `Iterate.C143_violated_append`, `Iterate.C143_violated_freed`, `Iterate.C143_violated_pop`, `Iterate.C143_violated_remove`, `Iterate.C144_violated`, `Iterate.C144_violated_shorter`, `Iterate.C145_fortran_partial`, `Iterate.C145_commutes_partial`, `Iterate.C145_c_order_iff`, `Operators.C147_unsupported`, `Operators.C147_violated_same`, `Operators.C147_violated_reflected`, `Operators.C148_effect_partial`, `Operators.C148_target_partial`, `Operators.C148_refused`, `Operators.C148_violated_early`, `Operators.C148_violated_none`, `Link.C150_condition`, `Omp.C157_violated`, `Omp.C157_violated_critical`, `Comments.C158_violated_earlier_else`, `Comments.C158_violated_next`, `Comments.C158_violated_else_if`, `Comments.C158_violated_inner`, `Globals.Props.C160_violated`, `Globals.Props.C160_violated_loops`, `Globals.Props.C160_violated_order`, `Globals.Props.C160_violated_main`, `Globals.Props.C161_violated`, `BindC.Props.C162_violated_string`, `Paths.Props.C169_partial`, `Paths.Props.C169_violated_while`, `Paths.Props.C170_partial`, `Paths.Props.C170_release_partial`, `Paths.Props.C170_violated_release`, `Paths.Props.C170_violated_effect`, `Paths.Props.C170_violated_handler`, `Paths.Props.C171_exact`, `Paths.Props.C171_partial`, `Nested.Props.C172_violated`, `Nested.Props.C173_violated`, `Instances.Props.C174_assignment_copies_violated`, `Instances.Props.C174_pointer_constructed_violated`, `Instances.Props.C174_name_kept_in_loop_violated`, `Instances.Props.C174_own_array_argument_violated`, `Instances.Props.C174_self_assignment_violated`, `Instances.Props.C175_released_twice_violated`, `Instances.Props.C175_first_made_in_loop_violated`, `Instances.Props.C175_made_in_branch_violated`, `PyOut.Props.C177_bool_violated`, `PyOut.Props.C177_float64_violated`, `PyOut.Props.C177_no_body_violated`, `PyOut.Props.C178_dead_branch_violated`, `Masks.Props.C181_rank_violated`, `Source.C183_comment_violated`, `Source.C183_hash_violated`, `Source.C183_oneline_violated`, `Source.C183_docstring_violated`, `Source.C184_partial`, `Source.C184_chain_partial`, `Source.C184_complete_partial`, `Source.C184_shadow_violated`, `Source.C184_library_violated`, `Source.C184_module_violated`, `Session.C191_restored`, `Display.Props.C192_swap_violated`, `Literals.C194_tests_partial`, `Locate.C199_script_partial`, `Locate.C199_sibling_violated`, `Locate.C199_package_violated`, `Locate.C199_skip_violated`, `Locate.C199_clash_violated`, `Locate.C199_space_violated`, `Locate.C199_init_violated`, `Captured.C200_fortran_power_violated`, `Lambdify.C202_signature`, `Sizes.Props.C203_product_violated`, `ArrayCalls.Props.C205_left_operand_violated`, `ArrayCalls.Props.C205_order_of_calls_violated`, `ArrayCalls.Props.C205_and_violated`, `ArrayCalls.Props.C205_conditional_violated`, `ArrayCalls.Props.C205_twice_violated`, `ArrayCalls.Props.C205_nested_conditional_violated`, `ArrayCalls.Props.C205_condition_later_violated`, `ArrayCalls.Props.C205_elif_violated`, `ArrayCalls.Props.C205_arrays_violated`, `ArrayCalls.Props.C205_while_violated`
* **propext, Classical.choice, Quot.sound**: `IntMath.C01_floor_div_c`, `IntMath.C01_floor_div_fortran`, `IntMath.C01_overflow_pair`, `IntMath.C01_spec_unique`, `IntMath.C02_modulo_c`, `IntMath.C02_modulo_fortran`, `IntMath.C02_divmod_identity`, `IntMath.C03_gcd_c`, `IntMath.C03_gcd_fortran`, `IntMath.C03_lcm_c_partial`, `IntMath.C03_lcm_zero_violated`, `IntMath.C04_factorial_c`, `IntMath.C04_factorial_fortran`, `IntMath.C05_round_c_partial`, `IntMath.C05_round_fortran_partial`, `IntMath.C05_round_c_ties`, `AugOps.C06_binary_ops_c`, `AugOps.C06_augassign_c_partial`, `AugOps.C06_mod_exact_partial`, `AugOps.C06_augassign_fortran`, `AugOps.C06_augassign_c_defined`, `AugOps.C07_true_div_c_partial`, `AugOps.C07_true_div_fortran`, `AugOps.C07_bool_violated`, `AugOps.C07_true_div_c_bool_exact`, `Loops.C08_range_loop_c`, `Loops.C08_range_exists`, `Loops.C09_bounds_reevaluated_violated`, `Loops.C10_range_loop_fortran`, `Loops.C09_bounds_once_fortran`, `Loops.C105_c_iff`, `Loops.C105_fortran_iff`, `Loops.C105_break_partial`, `Loops.C11_comprehension_size_partial`, `Loops.C11_nested_size_partial`, `Loops.C11_negative_step_violated`, `Loops.C11_empty_range_violated`, `Loops.C12_zip_partial`, `Loops.C12_enumerate`, `Loops.C55_min_value`, `Loops.C55_max_value`, `Slices.C13_index_partial`, `Slices.C13_indices_fortran_partial`, `Slices.C14_slice_length_partial`, `Slices.C14_out_of_range_violated`, `Slices.C14_reversed_violated`, `Slices.C14_runtime_step_violated`, `Slices.C15_slice_c_partial`, `Slices.C15_empty_violated`, `Slices.C16_slice_fortran_partial`, `Slices.C16_runtime_step_violated`, `Slices.C16_minus_zero_violated`, `Slices.C17_index_of_slice_partial`, `Slices.C17_negative_step_stop_violated`, `Slices.C17_negative_index_violated`, `Slices.C57_tuple_slice_partial`, `Slices.C57_tuple_step_violated`, `Views.C18_view_partial`, `Views.C18_order_partial`, `Views.C18_slice_partial`, `Views.C18_owned`, `Views.C18_nondivisible_violated`, `Names.C28_fresh`, `Names.C28_incremented`, `Names.C28_c_keywords`, `Names.C28_c_while_violated`, `Names.C58_intrinsic_captured_violated`, `Names.C29_kept`, `Names.C29_prefixed`, `Names.C29_module_wrapper_kept`, `Names.C29_private`, `Names.C30_distinct_in_scope`, `Names.C30_new_name_fresh`, `Names.C30_distinct_visible_partial`, `Names.C30_late_outer_name_violated`, `Names.C30_late_outer_prefix_violated`, `Names.C30_stable_partial`, `Names.C30_renamed_violated`, `Names.C31_insert_local`, `Names.C31_find_all_violated`, `Names.C32_inverse_in_scope`, `Names.C32_inverse_visible_partial`, `Names.C32_captured_violated`, `Exprs.C22_erase`, `Exprs.C22_value`, `Exprs.C22_rebuild`, `Exprs.C19_round_trip_partial`, `Exprs.C19_converted_partial`, `Exprs.C19_nested_condition_violated`, `Exprs.C20_round_trip_partial`, `Exprs.C20_iff_partial`, `Exprs.C21_round_trip_partial`, `Exprs.C21_iff_partial`, `Exprs.C21_not_not_violated`, `Types.C34_upper_bound_partial`, `Types.C36_array`, `Simplify.C23_add_partial`, `Simplify.C23_minus_partial`, `Simplify.C23_mul_partial`, `Simplify.C23_div_partial`, `Simplify.C23_gt`, `Simplify.C23_rounding_violated`, `Simplify.C24_add_minus_partial`, `Simplify.C24_regroup_violated`, `Simplify.C24_mul_partial`, `Simplify.C24_mul_violated`, `Simplify.C24_div`, `Simplify.C25_not`, `Simplify.C25_and`, `Simplify.C25_or`, `Flow.C61_c_partial`, `Flow.C61_fortran_partial`, `Flow.C59_c_partial`, `Flow.C59_fortran_partial`, `Flow.C60_c_partial`, `Calls.C44_partial`, `Calls.C43_accepted_partial`, `Calls.C43_sound_partial`, `Calls.C43_empty_kwargs_violated`, `Calls.C43_starred_violated`, `Calls.C43_wrapper_partial`, `Calls.C43_invalid_format_violated`, `Calls.C43_none_violated`, `Calls.C43_renamed_violated`, `Calls.C45_partial`, `Calls.C45_flag_partial`, `Calls.C45_same_choice_partial`, `Calls.C45_ambiguous_violated`, `Calls.C45_default_violated`, `Ast.C33_history_partial`, `Ast.C33_get_attribute_nodes`, `Ast.C33_get_user_nodes`, `Ast.C33_is_user_of`, `Ast.C33_is_user_of_below`, `Ast.C62_substitute_partial`, `Text.C46_c_literal`, `Text.C46_c_plain_literal`, `Text.C46_layout_partial`, `Text.C46_layout_violated`, `Text.C47_fortran_literal`, `Text.C47_layout_partial`, `Text.C47_layout_violated`, `Text.C48_c_print_partial`, `Text.C48_fortran_print_partial`, `Text.C48_percent_violated`, `Text.C48_singleton_list_violated`, `Text.C48_array_separator_violated`, `Text.C48_nested_string_violated`, `Text.C48_empty_set_violated`, `Text.C48_fortran_bool_violated`, `Text.C49_wrap_partial`, `Text.C49_length`, `Text.C49_long_name_violated`, `Text.C49_deep_violated`, `Text.C49_loop_violated`, `Text.C50_c_text`, `Text.C50_fortran_text`, `Text.C50_c_margin`, `Text.C50_c_balanced`, `Text.C50_python`, `Text.C51_printed_partial`, `Text.C51_printed_violated`, `Text.C63_c_comment_partial`, `Text.C63_c_docstring_partial`, `Text.C63_c_comment_violated`, `Text.C63_fortran_comment`, `Text.C63_fortran_docstring_partial`, `Text.C63_fortran_docstring_violated`, `Locks.C52_no_deadlock_partial`, `Locks.C52_set_no_deadlock_partial`, `Build.C53_has_errors`, `Build.C53_printed`, `Build.C53_raises`, `Cache.C54_different_partial`, `Cache.C54_same_object_partial`, `Containers.C38_insert`, `Containers.C38_reverse`, `Containers.C38_extend_self_violated`, `Containers.C39_update`, `Containers.C39_terminates`, `Containers.C39_assign_fortran_partial`, `Containers.C39_assign_c_partial`, `Containers.C39_assign_self_violated`, `Containers.C39_assign_union_fortran_violated`, `Containers.C39_assign_inter_violated`, `Containers.C39_isdisjoint`, `Memory.C56_dynamic_partial`, `Memory.C56_first_partial`, `Memory.C56_first_fortran_partial`, `Memory.C68_first_partial`, `Memory.C68_dynamic_partial`, `Memory.C68_first_fortran_partial`, `Memory.C69_first_partial`, `Memory.C69_dynamic_partial`, `Memory.C69_first_fortran_partial`, `Memory.C70_partial`, `Vectors.C42_partial`, `Vectors.C42_elementwise_partial`, `Vectors.C42_fortran_partial`, `Assigns.C71_partial`, `Assigns.C71_scalars_partial`, `Wrapper.C74_partial`, `Wrapper.C75_safe`, `Wrapper.C75_history`, `Wrapper.C76_count_partial`, `Wrapper.C76_scalars_partial`, `Wrapper.C76_containers_violated`, `Wrapper.C76_error_violated`, `Wrapper.C77_partial`, `Wrapper.C77_total_partial`, `Wrapper.C77_operator_partial`, `Wrapper.C78_partial`, `Wrapper.C78_fortran_violated`, `Aliases.C79_partial`, `Aliases.C80_partial`, `Aliases.C80_freed_partial`, `Inline.C81_partial`, `Inline.C82_partial`, `Inline.C82_names`, `Inline.C81_parameter_violated`, `Inline.C81_return_violated`, `Inline.C81_result_violated`, `Inline.C81_argument_violated`, `Inline.C81_capture_violated`, `Inline.C81_while_violated`, `Inline.C81_order_violated`, `Inline.C81_element_violated`, `Floats.C83_rounding`, `Floats.C83_partial`, `Floats.C83_fortran`, `Floats.C83_odd_violated`, `Floats.C83_range_violated`, `Floats.C84_partial`, `Floats.C84_half_violated`, `Floats.C84_product_violated`, `Floats.C84_fortran_violated`, `Floats.C85_partial`, `Floats.C85_integers`, `Floats.C85_fortran_partial`, `Floats.C85_violated`, `Floats.C85_range_violated`, `Floats.C86_partial`, `Floats.C86_identity_violated`, `Floats.C87_partial`, `Floats.C87_order`, `Floats.C87_violated`, `Floats.C88_partial`, `Floats.C88_violated`, `Floats.C89_partial`, `Floats.C89_violated`, `Floats.C89_negative_violated`, `Floats.C90_partial`, `Imports.C91_partial`, `Imports.C92_once`, `Imports.C92_partial`, `Imports.C92_loaded_partial`, `Imports.C92_early_partial`, `Imports.C93_order`, `Imports.C93_error`, `Imports.C93_partial`, `Imports.C93_flat`, `Imports.C93_violated`, `Imports.C95_partial`, `Imports.C96_violated`, `Lifetimes.C97_partial`, `Lifetimes.C97_vars_partial`, `Lifetimes.C98_partial`, `Lifetimes.C98_end_partial`, `Lifetimes.C98_violated_getter`, `Lifetimes.C98_violated_number`, `Layout.C99_fortran_partial`, `Layout.C99_c_partial`, `Layout.C99_once_partial`, `Layout.C99_vectors_partial`, `Layout.C100_copied_partial`, `Layout.C101_variable_partial`, `Layout.C101_list_partial`, `Layout.C101_nested_partial`, `Layout.C101_violated_single`, `Layout.C102_c_partial`, `Layout.C103_axis_partial`, `Optional.C106_optional_c_partial`, `Optional.C106_optional_fortran_partial`, `Optional.C106_returns_partial`, `Scalars.C108_c_partial`, `Scalars.C108_fortran_partial`, `Scalars.C108_store_partial`, `Infer.C110_partial`, `Infer.C110_wide_partial`, `Infer.C110_numpy_partial`, `Infer.C110_sequences_partial`, `Infer.C110_numpy_sequences_partial`, `Infer.C110_check_partial`, `Infer.C110_violated_tuple`, `Infer.C110_violated_return`, `Infer.C110_violated_shorter`, `Infer.C110_violated_copy`, `Infer.C110_violated_list`, `Infer.C110_violated_weak`, `Infer.C110_violated_ternary`, `Infer.C110_violated_no_return`, `Stubs.C112_partial`, `Stubs.C112_exact_partial`, `Stubs.C112_violated_last`, `Operands.C114_iff_partial`, `Operands.C114_value_partial`, `Operands.C114_violated_left`, `Operands.C114_violated_right`, `Operands.C114_violated_bool`, `Operands.C114_violated_condition`, `Operands.C115_iff_partial`, `Operands.C115_value_partial`, `Operands.C115_violated_sum`, `Operands.C115_violated_pow`, `Operands.C115_violated_pow_pow`, `Operands.C115_violated_matmul`, `Operands.C115_violated_arange`, `Operands.C115_violated_norm_inverse`, `Operands.C115_violated_norm_negative`, `Hoist.C116_iff_partial`, `Fills.C119_c_iff_partial`, `Fills.C119_fortran_iff_partial`, `Fills.C119_fortran_partial`, `Fills.C119_violated_single`, `Fills.C119_violated_negative`, `Fills.C119_violated_empty`, `Fills.C119_violated_operand`, `Fills.C120_c_iff_partial`, `Fills.C120_fortran_iff_partial`, `Fills.C120_partial`, `Fills.C120_violated_empty`, `Fills.C120_violated_fraction`, `Funcs.C121_partial`, `Funcs.C121_violated_alias`, `Funcs.C121_violated_axisc`, `Funcs.C121_violated_broadcast`, `Funcs.C121_violated_runtime_one`, `Funcs.C121_violated_two`, `Funcs.C122_c_iff_partial`, `Funcs.C122_fortran_iff_partial`, `Funcs.C123_partial`, `Funcs.C123_unique_partial`, `Strings.C124_fortran_iff_partial`, `Strings.C124_c_iff_partial`, `Strings.C125_c_argument_iff_partial`, `Strings.C125_result_iff_partial`, `Strings.C125_round_trip_iff_partial`, `Strings.C126_iff_partial`, `Recursion.C128_iff_partial`, `Recursion.C129_partial`, `Recursion.C129_violated`, `Complex.C130_c_iff_partial`, `Complex.C130_fortran_iff_partial`, `Complex.C130_c_floats_iff_partial`, `Complex.C130_fortran_reals_partial`, `Complex.C130_violated_int`, `Complex.C130_violated_inf`, `Complex.C130_violated_single`, `Complex.C130_violated_sign`, `Complex.C131_iff_partial`, `Complex.C131_violated`, `Complex.C132_c_iff_partial`, `Complex.C132_violated`, `Tests.C133_iff_partial`, `Tests.C133_violated_value`, `Tests.C133_violated_width`, `Tests.C134_iff_partial`, `Whole.C135_c_iff_partial`, `Whole.C135_fortran_iff_partial`, `Whole.C135_violated_long`, `Whole.C135_violated_ceil`, `Whole.C136_c_iff_partial`, `Whole.C136_fortran_iff_partial`, `Whole.C136_violated_floor`, `Whole.C136_violated_single`, `Whole.C136_violated_abs`, `Whole.C137_iff_partial`, `Whole.C137_violated`, `Clean.C139_outside_partial`, `Clean.C140_clean_partial`, `Clean.C140_succeeds_iff_partial`, `Iterate.C143_fortran_iff`, `Iterate.C143_fortran_ub_iff`, `Iterate.C144_writes_partial`, `Norm.C146_real_partial`, `Norm.C146_fortran_partial`, `Norm.C146_int_partial`, `Norm.C146_int_float_partial`, `Norm.C146_frobenius_partial`, `Norm.C146_violated_overflow`, `Norm.C146_violated_negative`, `Norm.C146_violated_matrix`, `Operators.C147_operator_partial`, `Operators.C147_same_partial`, `Operators.C147_accepts`, `Operators.C147_augmented`, `Link.C151_links_partial`, `Link.C151_duplicates`, `Link.C151_violated`, `Link.C152_module_partial`, `Link.C153_violated`, `Omp.C156_fortran_iff`, `Omp.C156_fortran_partial`, `Comments.C158_place_partial`, `Comments.C158_noElse_partial`, `Comments.C159_groups`, `Globals.Props.C160_partial`, `Globals.Props.C160_global`, `Globals.Props.C161_partial`, `BindC.Props.C162_partial`, `BindC.Props.C163_partial`, `BindC.Props.C163_violated_order`, `BindC.Props.C164_args_partial`, `BindC.Props.C164_results_partial`, `BindC.Props.C164_violated_list`, `BindC.Props.C164_violated_dict`, `Comps.Props.C165_range_spec`, `Comps.Props.C165_list_c_partial`, `Comps.Props.C165_array_c_partial`, `Comps.Props.C165_array_fortran_partial`, `Returns.Props.C167_partial`, `Returns.Props.C167_one_value`, `Returns.Props.C167_annotated`, `Returns.Props.C167_one_return`, `Returns.Props.C167_violated_twice`, `Nested.Props.C172_fortran_partial`, `Nested.Props.C172_c_partial`, `PyOut.Props.C178_module_partial`, `PyOut.Props.C178_block_partial`, `PyOut.Props.C178_source_partial`, `Masks.Props.C180_fortran`, `Masks.Props.C181_partial`, `Masks.Props.C181_members_partial`, `Masks.Props.C182_c_partial`, `Masks.Props.C182_reads_partial`, `Source.C183_partial`, `Dot.C185_c_partial`, `Dot.C185_operand`, `Dot.C185_fortran`, `Dot.C185_augmented_partial`, `Dot.C185_plus_iff_partial`, `Dot.C185_minus_violated`, `Dot.C185_alias_violated`, `Dot.C185_type_violated`, `Dot.C186_phase_partial`, `Dot.C186_phase_real_iff_partial`, `Dot.C186_phase_violated`, `Dot.C186_polar`, `Dot.C186_rect`, `Dot.C186_roundtrip`, `Dot.C186_sqrt`, `Dot.C186_csqrt`, `Finals.C187_partial`, `Finals.C187_store_iff`, `Finals.C187_whole`, `Finals.C187_name`, `Finals.C187_fortran_partial`, `Finals.C188_iff_partial`, `Display.Props.C192_partial`, `Display.Props.C192_new_partial`, `Display.Props.C192_ndmin_partial`, `Display.Props.C192_rows_violated`, `Literals.C193_int_partial`, `Literals.C193_min_violated`, `Literals.C193_float_partial`, `Literals.C193_float32_partial`, `Literals.C193_halfway_violated`, `Literals.C193_overflow_violated`, `Literals.C193_float32_overflow_violated`, `Literals.C194_c_partial`, `Literals.C194_assign_violated`, `Literals.C194_expression_violated`, `Literals.C194_nan_partial`, `Captured.C200_c_partial`, `Captured.C200_fortran_partial`, `Captured.C200_fortran_operators_violated`, `Captured.C200_c_sign_violated`, `CTypes.C201_declarations`, `Sizes.Props.C203_exact_partial`, `Sizes.Props.C203_integers`, `Sizes.Props.C203_power_of_two_step`, `Sizes.Props.C203_step_violated`, `Sizes.Props.C203_floor_violated`, `Sizes.Props.C203_power_violated`, `Symbols.Props.C204_condition_partial`, `Symbols.Props.C204_attributes_violated`, `Symbols.Props.C204_rounding_violated`, `Symbols.Props.C204_size_partial`, `Symbols.Props.C204_size_violated`, `ArrayCalls.Props.C205_moved`, `ArrayCalls.Props.C205_moved_rhs`
* **propext, Quot.sound**: `IntMath.C04_factorial_negative`, `IntMath.C05_spec_unique`, `IntMath.C05_sign`, `AugOps.C06_mod_violated`, `Loops.C09_bounds_modified_violated`, `Loops.C105_violated_last`, `Loops.C105_violated_empty`, `Loops.C11_negative_step_wrong`, `Loops.C12_product`, `Loops.C55_sum_value`, `Loops.C55_min_empty_violated`, `Names.C31_innermost`, `Names.C31_find_all_partial`, `Types.C34_lossy_int64_violated`, `Types.C35_arithmetic`, `Types.C35_bitwise_partial`, `Types.C35_switch`, `Types.C35_bitwise_rank_violated`, `Types.C36_one_level_partial`, `Types.C36_nested_violated`, `Types.C37_rank`, `Types.C37_sound_partial`, `Types.C37_rejects`, `Types.C37_accepts`, `Types.C37_commutative_partial`, `Types.C37_hidden_one_violated`, `Types.C37_rejected_offset_violated`, `Flow.C26_chain`, `Flow.C26_pruning_partial`, `Flow.C60_test_frozen_violated`, `Ast.C33_users_exact`, `Ast.C33_augassign_violated`, `Ast.C33_assign_same_violated`, `Ast.C33_reused_violated`, `Ast.C62_shared_violated`, `Ast.C62_cyclic_violated`, `Text.C51_merged`, `Locks.C52_released_partial`, `Locks.C52_set_released_partial`, `Locks.C52_released_violated`, `Locks.C52_one_at_a_time`, `Locks.C52_exclusive_partial`, `Locks.C52_no_deadlock_violated`, `Build.C64_status_partial`, `Build.C64_status_explained`, `Build.C64_message_partial`, `Build.C64_completed`, `Build.C65_stages_partial`, `Cache.C54_type_partial`, `Cache.C54_equal_partial`, `Cache.C54_equal_violated`, `Cache.C54_self_equal_partial`, `Containers.C38_pop_partial`, `Containers.C38_pop_violated`, `Containers.C38_pop_raises_violated`, `Containers.C38_min_max_int`, `Containers.C38_extend`, `Containers.C38_extend_self_partial`, `Containers.C38_extend_display_partial`, `Containers.C39_discard_partial`, `Containers.C39_remove_violated`, `Containers.C39_min_max`, `Containers.C40_history_partial`, `Containers.C40_popitem_partial`, `Containers.C40_new_key_violated`, `Containers.C40_missing_key_violated`, `Containers.C41_partial`, `Vectors.C42_lowered_partial`, `Assigns.C71_accepted`, `Assigns.C71_index_violated`, `Assigns.C71_swap_violated`, `Assigns.C71_alias_violated`, `Assigns.C71_group_violated`, `Assigns.C72_unpack_partial`, `Assigns.C72_rebuild_partial`, `Assigns.C73_partial`, `Assigns.C73_violated`, `Wrapper.C74_numpy_bool_violated`, `Wrapper.C74_overflow_violated`, `Wrapper.C74_null_violated`, `Wrapper.C74_fortran_violated`, `Wrapper.C74_surrogate_violated`, `Aliases.C79_loop_violated`, `Aliases.C79_loop_freed_violated`, `Aliases.C79_del_violated`, `Aliases.C79_del_argument_violated`, `Aliases.C79_argument_violated`, `Aliases.C79_return_violated`, `Aliases.C79_return_copy_violated`, `Aliases.C80_base_violated`, `Aliases.C80_local_violated`, `Inline.C81_conditional_violated`, `Inline.C81_last_violated`, `Inline.C81_removed_violated`, `Inline.C82_parameter_violated`, `Imports.C91_hoisted_violated`, `Imports.C91_after_main_violated`, `Imports.C91_local_violated`, `Imports.C91_same_name_violated`, `Imports.C91_extensions_violated`, `Imports.C92_early_violated`, `Imports.C92_crash_violated`, `Imports.C92_alias_violated`, `Imports.C92_local_violated`, `Imports.C94_partial`, `Imports.C94_python_violated`, `Imports.C95_violated`, `Imports.C96_partial`, `Layout.C100_same_iff`, `Layout.C101_transpose_partial`, `Layout.C102_fortran_partial`, `Layout.C103_violated_keepdims`, `Layout.C103_fused_partial`, `Layout.C104_c_partial`, `Layout.C104_extremum_partial`, `Layout.C104_initial_partial`, `Optional.C106_condition_partial`, `Optional.C106_split_tests_partial`, `Optional.C107_fortran_call_partial`, `Optional.C107_keywords`, `Optional.C107_arguments_partial`, `Scalars.C108_unary_types_iff`, `Scalars.C108_violated_promotion`, `Scalars.C108_violated_overflow`, `Scalars.C108_violated_bool_sum`, `Scalars.C108_violated_shift`, `Scalars.C108_violated_neg_bool`, `Scalars.C108_violated_invert`, `Scalars.C108_violated_mod`, `Scalars.C108_violated_short_circuit`, `Scalars.C109_violated_int32`, `Infer.C110_one_type`, `Stubs.C111_partial`, `Stubs.C111_injective_partial`, `Stubs.C113_partial`, `Hoist.C116_atleast_partial`, `Hoist.C116_violated_scalar_call`, `Hoist.C116_violated_nested_calls`, `Hoist.C116_violated_root`, `Hoist.C117_partial`, `Hoist.C118_iff_partial`, `Funcs.C122_int_partial`, `Funcs.C122_violated_nan`, `Funcs.C123_violated_nan`, `Strings.C124_violated_value`, `Strings.C125_fortran_argument_iff_partial`, `Strings.C125_violated_accent`, `Strings.C126_violated_copy`, `Strings.C126_violated_self`, `Strings.C126_violated_branch`, `Strings.C126_violated_loop`, `Strings.C126_violated_return`, `Strings.C127_iff_partial`, `Clean.C138_kept_partial`, `Clean.C138_all_partial`, `Clean.C138_nothing_new`, `Clean.C138_violated_link`, `Clean.C139_flat`, `Params.C141_caller_partial`, `Params.C141_values_partial`, `Params.C142_fortran_partial`, `Iterate.C143_same_length_partial`, `Iterate.C143_append_partial`, `Iterate.C145_fortran_order_iff`, `Operators.C147_augmented_iff`, `Operators.C148_accepted_iff`, `Repeats.C149_elements_partial`, `Repeats.C149_length_partial`, `Repeats.C149_repeat_iff`, `Link.C150_files_iff`, `Link.C150_only_needed`, `Link.C150_complete`, `Link.C151_libraries`, `Link.C152_module_iff`, `Link.C153_order_iff`, `Link.C153_found_partial`, `Link.C154_fresh_partial`, `Omp.C155_fortran_partial`, `Omp.C155_c_partial`, `Omp.C155_sequential_partial`, `Omp.C155_violated`, `Omp.C157_blocks_partial`, `Omp.C157_loop_iff`, `Omp.C157_critical_iff`, `Comments.C158_kept`, `Comments.C159_comments_iff`, `Comments.C159_comments_partial`, `Comments.C159_groups_joined`, `Comments.C159_violated`, `Comps.Props.C165_list_fortran_partial`, `Comps.Props.C165_inplace_partial`, `Comps.Props.C165_violated_self`, `Comps.Props.C165_violated_read`, `Comps.Props.C165_violated_inplace`, `Comps.Props.C165_violated_bound`, `Comps.Props.C165_violated_same_variable`, `Comps.Props.C166_c_partial`, `Comps.Props.C166_fortran_partial`, `Comps.Props.C166_violated_variable`, `Returns.Props.C167_violated_order`, `Returns.Props.C168_expression`, `Returns.Props.C168_inline_fortran`, `Returns.Props.C168_inline_c_partial`, `Returns.Props.C168_branch_c`, `Returns.Props.C168_violated_branch`, `Returns.Props.C168_other_c`, `Returns.Props.C168_violated_other`, `Returns.Props.C168_max_partial`, `Returns.Props.C168_max_c`, `Returns.Props.C168_violated_max`, `Paths.Props.C169_violated`, `Paths.Props.C171_violated`, `Nested.Props.C173_partial`, `Nested.Props.C172_agree`, `Instances.Props.C174_compiled_objects_print_partial`, `Instances.Props.C175_compiled_objects_release_partial`, `TypeTests.Props.C176_isinstance_partial`, `TypeTests.Props.C176_isinstance_ends`, `TypeTests.Props.C176_numpy_scalars_violated`, `TypeTests.Props.C176_none_violated`, `PyOut.Props.C177_no_exception`, `PyOut.Props.C177_accepted`, `PyOut.Props.C177_dispatch_partial`, `PyOut.Props.C177_exact_types_partial`, `PyOut.Props.C177_empty_list_violated`, `Masks.Props.C180_refused`, `Masks.Props.C182_calls_partial`, `Masks.Props.C182_calls_iff_partial`, `Source.C183_inherited`, `Finals.C187_element_violated`, `Finals.C187_call_violated`, `Finals.C187_row_violated`, `Finals.C187_pointer_violated`, `Finals.C187_local_violated`, `Finals.C188_number`, `Finals.C188_negative_violated`, `Session.C189_partial`, `Session.C189_here_partial`, `Session.C189_path_violated`, `Session.C189_other_violated`, `Session.C189_failed_violated`, `Session.C189_load_violated`, `Session.C189_suffix`, `Session.C190_own`, `Session.C190_clean`, `Session.C191_found`, `Display.Props.C192_ndmin_violated`, `Display.Props.C192_display_violated`, `Config.C195_outside_partial`, `Config.C195_partial`, `Config.C195_violated`, `Config.C195_part_violated`, `Config.C196_partial`, `Config.C196_cli_partial`, `Config.C196_dot_violated`, `Config.C196_vendor_violated`, `Config.C196_nested_violated`, `Config.C196_link_violated`, `Config.C197_others_partial`, `Config.C197_repair_partial`, `Config.C197_interrupted_violated`, `Config.C197_failed_violated`, `ConfigCheck.C198_usable_partial`, `ConfigCheck.C198_accepted_partial`, `ConfigCheck.C198_exec_violated`, `ConfigCheck.C198_flags_violated`, `ConfigCheck.C198_tool_violated`, `ConfigCheck.C198_export_violated`, `Locate.C199_relative_partial`, `Locate.C199_installed_partial`, `CTypes.C201_printed`, `Lambdify.C202_value_partial`, `Lambdify.C202_out_partial`, `Lambdify.C202_keyword_violated`, `Lambdify.C202_braces_violated`, `Lambdify.C202_same_name_violated`, `Lambdify.C202_numpy_violated`, `Lambdify.C202_no_arguments_violated`, `Lambdify.C202_out_name_violated`, `Sizes.Props.C203_accepted_partial`, `Sizes.Props.C203_ceiling_type`, `ArrayCalls.Props.C205_same_result_partial`
<!-- END GENERATED axioms -->
