import Verif.Comps.Spec
/-
Model for C165–C166: the loops that pyccel generates for a list comprehension.
Integers are unbounded here (C08 deals with the overflow of loop counters).
-/
namespace Verif.Comps.Model
open Verif.Comps.Spec

/-- What the generated statements change besides scalar variables: the sequences and the counter
of `create_target_operations` (pyccel/parser/syntactic.py:1420-1438). -/
structure Mem where
  seqs : Nat → List Int
  cnt : Nat

/-- State of the generated function. The variable of a clause is the variable of the function with
that name: `_visit_Name` (syntactic.py:865-869) inserts it into the scope of the loop, which passes
it on to the scope of the function (pyccel/parser/scope.py:601-602), and
`_visit_FunctionalFor` uses an existing variable (pyccel/parser/semantic.py:5846-5866). -/
structure St where
  vars : Nat → Int
  mem : Mem

/-- Which kind of sequence is built: a list by `append`, an array by indexed assignments
(syntactic.py:1420-1438, semantic.py:6026-6052). -/
inductive Kind | list | array
deriving DecidableEq, Repr

/-- What is known about the target when the assignment is visited: whether it is a list or an
array, whether the variable exists already, whether the assignment is inside a loop, and whether
an existing array has the shape of the new one. -/
structure Target where
  kind : Kind
  known : Bool
  inLoop : Bool
  sameShape : Bool
deriving DecidableEq, Repr

/-- The statement before the loops. -/
inductive Prep | keep | clear | alloc
deriving DecidableEq, Repr

/-- `_assign_lhs_variable` (semantic.py, status and alloc_type of `Allocate`),
`_ensure_inferred_type_matches_existing` (semantic.py:2746-2863: the shape of a list never equals
the new one, that of an array may), `_print_Allocate` (ccode.py:2444-2514: `reserve` after `clear`
unless the status is `unallocated`; fcode.py:2655-2672). A list is not allocated anew. -/
def prep (t : Target) : Prep :=
  match t.kind with
  | .list => if t.known || t.inLoop then .clear else .keep
  | .array => if t.known && t.sameShape then .keep else .alloc

/-- Effect of the statement before the loops. `junk` is what newly allocated memory contains.
The counter is set to zero (semantic.py:6042-6044). -/
def start (t : Target) (lhs : Nat) (size : Nat) (junk : Nat → Int) (m : Mem) : Mem :=
  match prep t with
  | .keep => { m with cnt := 0 }
  | .clear => { seqs := upd m.seqs lhs [], cnt := 0 }
  | .alloc => { seqs := upd m.seqs lhs ((List.range size).map junk), cnt := 0 }

/-- `lhs.append(v)`, or `lhs[cnt] = v; cnt = cnt + 1` (syntactic.py:1424-1436). Writing outside
the array is an error. -/
def emit (k : Kind) (lhs : Nat) (v : Int) (m : Mem) : Option Mem :=
  match k with
  | .list => some { m with seqs := upd m.seqs lhs (m.seqs lhs ++ [v]) }
  | .array =>
    if m.cnt < (m.seqs lhs).length then
      some { seqs := upd m.seqs lhs ((m.seqs lhs).set m.cnt v), cnt := m.cnt + 1 }
    else none

/-- Value of an expression in generated code. -/
def ev (s : St) (e : Expr) : Option Int := eval (fun x => some (s.vars x)) s.mem.seqs e

def St.put (s : St) (x : Nat) (v : Int) : St := { s with vars := upd s.vars x v }

/-- The condition of a C loop over `range` (ccode.py:3505-3510). -/
def more (x : Nat) (b st : Expr) (s : St) : Option Bool := do
  let b ← ev s b
  let st ← ev s st
  return if 0 < st then decide (s.vars x < b) else decide (s.vars x > b)

/-- `for (…; cond; x += step) body` (ccode.py:3511): the condition and the step are evaluated
in every iteration. -/
def cRange (x : Nat) (b st : Expr) (body : St → Option St) : Nat → St → Option St
  | 0, _ => none
  | n + 1, s =>
    match more x b st s with
    | none => none
    | some false => some s
    | some true =>
      (body s).bind fun s => (ev s st).bind fun d => cRange x b st body n (s.put x (s.vars x + d))

/-- A C loop over a list or an array (ccode.py:3439-3482, 3483-3497): the `k`-th element is
assigned to the variable at the start of the `k`-th iteration. -/
def cSeq (x l : Nat) (body : St → Option St) : Nat → Nat → St → Option St
  | 0, _, _ => none
  | n + 1, k, s =>
    match (s.mem.seqs l)[k]? with
    | none => some s
    | some v => (body (s.put x v)).bind (cSeq x l body n (k + 1))

/-- The `if` of a clause: `PyccelAnd` of its conditions (syntactic.py:1394-1396), in C `&&`. -/
def guardC (cs : List Expr) (body : St → Option St) (s : St) : Option St :=
  match holds (fun x => some (s.vars x)) s.mem.seqs cs with
  | none => none
  | some true => body s
  | some false => some s

/-- The loops in C: every clause is put into the `if` of the one before it
(semantic.py:5742-5753, 6054-6062; `_print_FunctionalFor`, ccode.py:3522-3524). -/
def runC (k : Kind) (lhs : Nat) (e : Expr) (fuel : Nat) : List Clause → St → Option St
  | [], s => do
    let v ← ev s e
    let m ← emit k lhs v s.mem
    return { s with mem := m }
  | c :: cs, s =>
    match c.iter with
    | .range a b st => do
      let a ← ev s a
      cRange c.x b st (guardC c.conds (runC k lhs e fuel cs)) fuel (s.put c.x a)
    | .seq l => cSeq c.x l (guardC c.conds (runC k lhs e fuel cs)) fuel 0 s

/-- A Fortran `do` loop: the number of iterations and the step are computed once
(`_print_PythonRange`, fcode.py:3102-3129, and C10: the printed bounds give the elements of the
range). -/
def fRange (x : Nat) (d : Int) (body : St → Option St) : Nat → St → Option St
  | 0, s => some s
  | n + 1, s => (body s).bind fun s => fRange x d body n (s.put x (s.vars x + d))

/-- A Fortran `do` loop over the elements of a sequence, whose number is computed once
(fcode.py:3186-3210). -/
def fSeq (x l : Nat) (body : St → Option St) : Nat → Nat → St → Option St
  | 0, _, s => some s
  | n + 1, k, s =>
    match (s.mem.seqs l)[k]? with
    | none => none
    | some v => (body (s.put x v)).bind (fSeq x l body n (k + 1))

/-- The values of all conditions: Fortran may evaluate both operands of `.and.`. -/
def allVals (env : Nat → Option Int) (seqs : Nat → List Int) : List Expr → Option Bool
  | [] => some true
  | c :: cs => do
    let v ← eval env seqs c
    let r ← allVals env seqs cs
    return decide (v ≠ 0) && r

def guardF (cs : List Expr) (body : St → Option St) (s : St) : Option St :=
  match allVals (fun x => some (s.vars x)) s.mem.seqs cs with
  | none => none
  | some true => body s
  | some false => some s

/-- The loops in Fortran. A `do` variable must not be changed inside its loop: such a program is
not allowed, here an error. -/
def runF (k : Kind) (lhs : Nat) (e : Expr) : List Clause → St → Option St
  | [], s => do
    let v ← ev s e
    let m ← emit k lhs v s.mem
    return { s with mem := m }
  | c :: cs, s =>
    if c.x ∈ targets cs then none else
    match c.iter with
    | .range a b st => do
      let a ← ev s a
      let b ← ev s b
      let d ← ev s st
      if d = 0 then none else
      fRange c.x d (guardF c.conds (runF k lhs e cs)) (rangeLen a b d) (s.put c.x a)
    | .seq l => fSeq c.x l (guardF c.conds (runF k lhs e cs)) (s.mem.seqs l).length 0 s

/-- Arrays are not built from comprehensions with conditions (semantic.py:5983-5992). -/
def accepted (t : Target) (cs : List Clause) : Bool :=
  decide (cs ≠ []) && (t.kind = .list || cs.all fun c => c.conds.isEmpty)

/-- The statement `lhs = [e for …]` or `lhs = np.array([e for …])` in C. -/
def compC (t : Target) (lhs : Nat) (e : Expr) (cs : List Clause) (size : Nat) (junk : Nat → Int)
    (fuel : Nat) (s : St) : Option St :=
  if accepted t cs then runC t.kind lhs e fuel cs { s with mem := start t lhs size junk s.mem }
  else none

/-- The statement in Fortran. -/
def compF (t : Target) (lhs : Nat) (e : Expr) (cs : List Clause) (size : Nat) (junk : Nat → Int)
    (s : St) : Option St :=
  if accepted t cs then runF t.kind lhs e cs { s with mem := start t lhs size junk s.mem }
  else none

end Verif.Comps.Model
