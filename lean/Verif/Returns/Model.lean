import Verif.Returns.Spec
/-
Model for C167–C168: the variables that hold the results of a function, the assignments that pyccel makes from a `return`
statement, and how the C printer shortens them.  Types are not modelled (C110).
-/
namespace Verif.Returns.Model
open Verif.Returns.Spec

/-- A function: its parameters, the variables that it assigns (`local_used_symbols`), whether the type of the result is given
(`-> tuple[…]`), its `return` statements in the order of the text, and the names that `get_new_name` makes. -/
structure Fn where
  params : List Nat
  locals : List Nat
  annotated : Bool
  rets : List (List Expr)
  fresh : Nat → Nat

/-- The names among the `i`-th values of all `return` statements (pyccel/parser/syntactic.py:454-457, 466-468). -/
def symbols (rets : List (List Expr)) (i : Nat) : List Nat :=
  rets.filterMap fun r : List Expr => match r[i]? with
    | some (.var x) => some x
    | _ => none

/-- `len(suggested_names) == 1` for the set of these names (syntactic.py:466-471). -/
def only : List Nat → Option Nat
  | [] => none
  | x :: r => if r.all (· == x) then some x else none

/-- `_get_unique_name` for the `i`-th value (syntactic.py:454-473; parameters and imported names are forbidden, 1176-1181); if a
tuple type is given the elements get new names (pyccel/parser/semantic.py:4451-4460).  Tuples in tuples are not modelled. -/
def resName (f : Fn) (i : Nat) : Nat :=
  if f.annotated then f.fresh i
  else match only (symbols f.rets i) with
    | some x => if x ∉ f.params ∧ x ∈ f.locals then x else f.fresh i
    | none => f.fresh i

def names (f : Fn) (n : Nat) : List Nat := (List.range n).map (resName f)

/-- `_visit_Return` makes `Assign(results, values)` (semantic.py:6307-6322), which is split into one assignment for each value, in their
order (5157-5166 if the tuple exists, otherwise 5425-5441), without those of a variable to itself (5455: `l is not r`). -/
def assigns : List Nat → List Expr → Code
  | x :: xs, e :: es => if e = .var x then assigns xs es else .assign x e (assigns xs es)
  | _, _ => .done

/-- The results are parameters of the C function or Fortran subroutine (ccode.py:2127-2145, fcode.py:2902-2955): a name that occurs
twice does not compile.  All `return` statements must have the same number of values: otherwise the types differ (C110). -/
def compiles (f : Fn) (n : Nat) : Bool := f.rets.all (fun r => r.length == n) && decide (names f n).Nodup

/-- The values of the result variables (out arguments) when the function returns. -/
def results (s : St) (xs : List Nat) : List Int := xs.map s.vars

/-- The values that the caller gets from `return es` in state `s`. -/
def run (f : Fn) (es : List Expr) (s : St) : Option (List Int) :=
  if compiles f es.length then (exec id (assigns (names f es.length) es) s).map fun s => results s (names f es.length) else none

/-! ## One value: how C prints `return` -/

/-- The statements that stand before the return (`expr.stmt`, semantic.py:6307-6337): an assignment to the result variable `r`, or the
body of the inlined function with its result variable replaced by `r` (6837-6839, 6891-6903; `return y` with a name is dropped, and
then `y` is `r`), or the loops of the generator (2999-3017).
`CodeBlock` flattens (pyccel/ast/core.py:602-611). -/
def lower (low : Int) (r : Nat) : Ret → Code → Code
  | .plain e, k => if e = .var r then k else .assign r e k
  | .inlined b e, k => b.andThen (if e = .var r then k else .assign r e k)
  | .maxOf e i n, k => .assign r (.num low) (.loop i (.num n) (.assign r (.max (.var r) e) .done) k)

/-- The arrays that are freed before the return: `Deallocate` nodes (semantic.py:6329-6331). -/
def frees : List Nat → Code
  | [] => .done
  | a :: l => .free a (frees l)

inductive Last where
  | assign (x : Nat) (e : Expr)
  | aug
  | store (e : Expr)
deriving DecidableEq, Repr

/-- `get_attribute_nodes((Assign, AliasAssign))`: the last assignment in the text, also inside `if` and loops (ccode.py:3191-3193,
pyccel/ast/basic.py:211-240). -/
def last : Code → Option Last
  | .done => none
  | .assign x e c => (last c).or (some (.assign x e))
  | .aug _ _ c => (last c).or (some .aug)
  | .store _ _ e c => (last c).or (some (.store e))
  | .ite _ a b c => (last c).or ((last b).or (last a))
  | .loop _ _ a c => (last c).or (last a)
  | .free _ c => last c

/-- `self._print(a) for a in expr.stmt.body if a is not last_assign` (ccode.py:3219-3221): only a statement of the block itself can
be left out. -/
def dropLast : Code → Code
  | .done => .done
  | .assign x e c => match last c with
    | none => c
    | some _ => .assign x e (dropLast c)
  | .aug x e c => .aug x e (dropLast c)
  | .store a i e c => .store a i e (dropLast c)
  | .ite d a b c => match last c with
    | none => .ite d a b c
    | some _ => .ite d a b (dropLast c)
  | .loop x n a c => match last c with
    | none => .loop x n a c
    | some _ => .loop x n a (dropLast c)
  | .free a c => .free a (dropLast c)

/-- `_print_Return` in C (ccode.py:3160-3230) for a number: the statements that are printed and the expression after `return`.
The right-hand side of the last assignment is printed if it uses no array (`b.rank`, 3213-3216), otherwise the variable. -/
def printC (r : Nat) (stmt : Code) : Code × Expr :=
  match last stmt with
  | some (.assign _ e) => if e.usesArray then (stmt, .var r) else (dropLast stmt, e)
  | _ => (stmt, .var r)

/-- The C function. -/
def runC (after : Int → Int) (low : Int) (r : Nat) (v : Ret) (fr : List Nat) (s : St) : Option Int :=
  let p := printC r (lower low r v (frees fr))
  (exec after p.1 s).bind fun s => eval s p.2

/-- `_print_Return` in Fortran (fcode.py:3034-3039): the statements and `return`; the result is the variable of `result(r)`. -/
def runF (after : Int → Int) (low : Int) (r : Nat) (v : Ret) (fr : List Nat) (s : St) : Option Int :=
  (exec after (lower low r v (frees fr)) s).map fun s => s.vars r

end Verif.Returns.Model
