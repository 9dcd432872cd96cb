import Verif.Strings.Spec

/-!
# Strings in the generated code
-/

namespace Verif.Strings

/-! ### Comparison and length -/

/-- `a == b` in Fortran (fcode.py 3711-3724, `_print_PyccelEq`): the shorter
operand is extended with blanks (Fortran 2018, 10.1.5.5.1). -/
def fEq (a b : Str) : Bool :=
  let n := max a.length b.length
  a ++ List.replicate (n - a.length) 32 == b ++ List.replicate (n - b.length) 32

/-- `a != b` in Fortran (fcode.py 3729-3745). -/
def fNe (a b : Str) : Bool := !(fEq a b)

/-- What the C standard says about `strcmp`: zero exactly for equal strings, a
negative number if the first one is smaller, a positive number otherwise; only
the bytes before the null character count. -/
structure IsStrcmp (cmp : Str → Str → Int) : Prop where
  zero : ∀ a b, cmp a b = 0 ↔ upToNul a = upToNul b
  neg : ∀ a b, cmp a b < 0 ↔ upToNul a < upToNul b

/-- `!strcmp(a, b)`, the code for `a == b` (ccode.py 1363-1370). -/
def cEq (cmp : Str → Str → Int) (a b : Str) : Int := if cmp a b = 0 then 1 else 0

/-- `strcmp(a, b)`, the code for `a != b` (ccode.py 1388-1395). -/
def cNe (cmp : Str → Str → Int) (a b : Str) : Int := cmp a b

/-- A C number as a condition or stored in a `bool`. -/
def asBool (n : Int) : Bool := n != 0

/-- `(int64_t)(…)`, the code for `int(…)` (ccode.py 1137-1141). -/
def asInt (n : Int) : Int := n

/-- `… == 1`, the code for `(…) == True` (ccode.py 1371-1374: a number is
compared as it is). -/
def eqTrue (n : Int) : Bool := n == 1

/-- `len(s)` for a string variable: `cstr_size` (ccode.py 2436-2438) and `len`
(fcode.py 2101-2102), chosen by `_build_PythonLen` (semantic.py 8102-8140). -/
def cLen (a : Str) : Nat := a.length

/-! ### Arguments and results of functions called from Python -/

/-- The `str` argument of a function in C: `cstr_from(PyUnicode_AsUTF8(obj))`
(c_to_python_wrapper.py 3830, ccode.py 4131-4139), up to the null byte. -/
def cArg (s : Str) : Str := upToNul (utf8 s)

/-- The argument in Fortran: the pointer of `PyUnicode_AsUTF8` and the number
of `PyUnicode_GetLength` (c_to_python_wrapper.py 3802-3817); then
`x = ''` and `x = x // c(idx)` for `idx = 1, …, size`
(fortran_to_c_wrapper.py 650-670). -/
def fArg (s : Str) : Str :=
  (List.range s.length).foldl (fun x i => x ++ ((utf8 s)[i]?).toList) []

/-- The result of a function in C: `Py_BuildValue("s", cstr_str(&r))`
(c_to_python_wrapper.py 4370-4396): Python decodes these bytes. -/
def cRes (a : Str) : Str := upToNul a

/-- The buffer for the result in Fortran: `len + 1` characters, filled in a loop
over `range(1, len + 1)`, the last one a null character
(fortran_to_c_wrapper.py 1486-1507).  A character that has not been assigned is
`none`. -/
def fBuf (a : Str) : List (Option Nat) :=
  ((List.range a.length).foldl (fun b i => b.set i a[i]?)
    (List.replicate (a.length + 1) none)).set a.length (some 0)

/-- Python reads the buffer up to the first null byte; `none` if it reads a
character that has not been assigned or behind the end. -/
def readC : List (Option Nat) → Option Str
  | some 0 :: _ => some []
  | some c :: l => (readC l).map (c :: ·)
  | none :: _ => none
  | [] => none

/-! ### Memory of string variables in C -/

/-- A `cstr` variable: not initialised (`_print_Declare`, ccode.py 2063-2068,
initialises containers but not strings), a short string inside the variable, or
a pointer to a buffer on the heap. -/
inductive Cell where
  | uninit
  | short (s : Str)
  | long (id : Nat)
deriving DecidableEq

/-- The variables of a C function and the heap. -/
structure St where
  cell : Nat → Cell
  heap : Nat → Option Str
  next : Nat

/-- The longest string stored inside the variable (STC, `cstr_s_cap` on 64-bit
machines). -/
def cap : Nat := 22

/-- Making a new string and storing it in `x` (`cstr_lit`, `cstr_clone`,
`cstr_from` and assignment of the structure, ccode.py 3381-3386). -/
def St.make (st : St) (x : Nat) (s : Str) : St :=
  if s.length ≤ cap then
    { st with cell := fun v => if v = x then .short s else st.cell v }
  else
    { cell := fun v => if v = x then .long st.next else st.cell v
      heap := fun i => if i = st.next then some s else st.heap i
      next := st.next + 1 }

/-- `cstr_drop(&x)` (ccode.py 2546-2555): frees the buffer of a long string; the
variable keeps its contents.  Undefined for a variable that is not initialised
and for a buffer that has been freed. -/
def St.drop (st : St) (x : Nat) : Option St :=
  match st.cell x with
  | .uninit => none
  | .short _ => some st
  | .long i =>
    match st.heap i with
    | none => none
    | some _ => some { st with heap := fun j => if j = i then none else st.heap j }

/-- Reading a string variable. -/
def St.read (st : St) (x : Nat) : Option Str :=
  match st.cell x with
  | .uninit => none
  | .short s => some s
  | .long i => st.heap i

/-- One assignment: the `Allocate` node prints `cstr_drop` if the variable
counts as allocated (ccode.py 2444-2454; the shape of a string is never known,
literals.py 372, so the node is present except for `x = x`, semantic.py
2762-2770), then the value is computed and stored.  A variable on the right is
copied as a structure (ccode.py 3386: `x = y;`). -/
def St.assign (st : St) (d : Bool) (x : Nat) (r : Rhs) : Option St :=
  (if d then st.drop x else some st).bind fun st =>
    match r with
    | .fresh uses f => (uses.mapM st.read).map fun vs => st.make x (f vs)
    | .copy y =>
      match st.cell y with
      | .uninit => none
      | c => some { st with cell := fun v => if v = x then c else st.cell v }

/-- The body of the function. -/
def runC : List Ev → St → Option (List Str × St)
  | [], st => some ([], st)
  | .asg d x r :: l, st => (st.assign d x r).bind (runC l)
  | .use y :: l, st =>
    (st.read y).bind fun s => (runC l st).map fun r => (s :: r.1, r.2)

/-- The `Deallocate` nodes before the return: all variables that were created
before it in the text except the one that is returned (semantic.py 6325-6331). -/
def dropAll : List Nat → St → Option St
  | [], st => some st
  | v :: vs, st => (st.drop v).bind (dropAll vs)

/-- A function: string arguments, local string variables, the returned variable,
if any, and what is executed. -/
structure Fn where
  args : List Nat
  locals : List Nat
  ret : Option Nat
  evs : List Ev

/-- The state in which the function is called: the arguments have their values. -/
def callSt : List Nat → (Nat → Str) → St
  | [], _ => ⟨fun _ => .uninit, fun _ => none, 0⟩
  | a :: as, val => (callSt as val).make a (val a)

/-- The whole function in C. -/
def Fn.runC (p : Fn) (val : Nat → Str) : Option (List Str × St) :=
  (Strings.runC p.evs (callSt p.args val)).bind fun r =>
    (dropAll (p.locals.filter fun v => some v != p.ret) r.2).map fun st => (r.1, st)

end Verif.Strings
