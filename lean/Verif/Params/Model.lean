import Verif.Params.Spec

/-!
# The translation of functions with array parameters
-/

namespace Verif.Params

open Verif.Params.Spec

/-- The variable whose shape the expression has in the compiler (pyccel/ast/operators.py:78-160,
`broadcast`, for one dimension whose size is not a literal: equal shapes stay; of two different symbols
the first is kept; a scalar gives way).  None for a scalar. -/
def shape : Expr → Option Nat
  | .var x => some x
  | .num _ => none
  | .bin _ a b =>
    match shape a with
    | some x => some x
    | none => shape b

/-- Is `x = e` accepted when `x` is a parameter?  Not if `e` is a variable
(pyccel/parser/semantic.py:2632-2649, ASSIGN_ARRAYS_ONE_ANOTHER), and not if the shape of `e` is not
that of `x` (semantic.py:2761-2781, ARRAY_IS_ARG). -/
def acceptedSet (x : Nat) : Expr → Bool
  | .var _ => false
  | e => shape e == some x

/-- Is the function accepted?  `k` is the number of parameters.  `x = y` between local variables makes a
pointer and is not modelled (it is rejected here). -/
def accepted (k : Nat) : Stmt → Bool
  | .skip => true
  | .set x e =>
    if x < k then acceptedSet x e
    else
      match e with
      | .var _ => false
      | _ => (shape e).isSome
  | .fill _ _ => true
  | .aug _ _ _ => true
  | .seq s t => accepted k s && accepted k t
  | .rep _ s => accepted k s
  | .ite _ _ s t => accepted k s && accepted k t

/-- Where a variable is stored: a parameter at the address that the caller passes
(ccode.py:2165-2190, the arrays of STC are passed with a pointer to the data; fcode.py:2933-2942,
`intent(inout)`), a local variable at an address of its own. -/
def place (args : List Nat) (next : Nat) (x : Nat) : Nat :=
  match args[x]? with
  | some l => l
  | none => next + x

/-- The value of an element of an expression. -/
def elem {n : Nat} (pl : Nat → Nat) (st : Nat → Arr n) (i : Fin n) : Expr → Int
  | .var x => st (pl x) i
  | .num c => c
  | .bin op a b => op (elem pl st i a) (elem pl st i b)

/-- One turn of the loop that a statement on arrays becomes. -/
def put {n : Nat} (pl : Nat → Nat) (x : Nat) (e : Expr) (st : Nat → Arr n) (i : Fin n) : Nat → Arr n :=
  upd st (pl x) fun j => if j = i then elem pl st i e else st (pl x) j

/-- The loop (C42; pyccel/ast/utilities.py `collect_loops`; ccode.py prints a `for` loop, fcode.py a
`do` loop). -/
def store {n : Nat} (pl : Nat → Nat) (x : Nat) (e : Expr) (st : Nat → Arr n) : Nat → Arr n :=
  (List.finRange n).foldl (put pl x e) st

/-- Repeat. -/
def iter {α : Type} (f : α → α) : Nat → α → α
  | 0, a => a
  | k + 1, a => iter f k (f a)

/-- Run the generated C.  `x = e`, `x[:] = e` and `x op= e` all write to the array where the
variable is stored (`Assign` and `AugAssign` with an array on the left). -/
def runC {n : Nat} (pl : Nat → Nat) : Stmt → (Nat → Arr n) → Nat → Arr n
  | .skip, st => st
  | .set x e, st => store pl x e st
  | .fill x e, st => store pl x e st
  | .aug x op e, st => store pl x (.bin op (.var x) e) st
  | .seq s t, st => runC pl t (runC pl s st)
  | .rep k s, st => iter (runC pl s) k st
  | .ite x c s t, st => if test (st (pl x)) c then runC pl s st else runC pl t st

/-- The variables of an expression. -/
def vars : Expr → List Nat
  | .var x => [x]
  | .num _ => []
  | .bin _ a b => vars a ++ vars b

/-- The variables that the run writes to, and those that it reads or writes. -/
def uses {n : Nat} (pl : Nat → Nat) : Stmt → (Nat → Arr n) → List Nat × List Nat
  | .skip, _ => ([], [])
  | .set x e, _ => ([x], x :: vars e)
  | .fill x e, _ => ([x], x :: vars e)
  | .aug x _ e, _ => ([x], x :: vars e)
  | .seq s t, st =>
    let a := uses pl s st
    let b := uses pl t (runC pl s st)
    (a.1 ++ b.1, a.2 ++ b.2)
  | .rep k s, st => usesRep (uses pl s) (runC pl s) k st
  | .ite x c s t, st =>
    let a := if test (st (pl x)) c then uses pl s st else uses pl t st
    (a.1, x :: a.2)
where
  /-- The same for a loop. -/
  usesRep (u : (Nat → Arr n) → List Nat × List Nat) (f : (Nat → Arr n) → Nat → Arr n) :
      Nat → (Nat → Arr n) → List Nat × List Nat
    | 0, _ => ([], [])
    | k + 1, st =>
      let a := u st
      let b := usesRep u f k (f st)
      (a.1 ++ b.1, a.2 ++ b.2)

/-- Two parameters share an array, the run changes it through one of them and uses it through the
other: Fortran 2018, 15.5.2.13 forbids it, and compilers rely on that. -/
def clash (args : List Nat) (u : List Nat × List Nat) : Bool :=
  u.1.any fun x => u.2.any fun y =>
    decide (x ≠ y) && (args[x]?).isSome && (args[x]? == args[y]?)

/-- Run the generated Fortran (fcode.py:2933-2942: `intent(inout)` arguments without `target` or
`pointer`); none where the standard defines nothing. -/
def runF {n : Nat} (args : List Nat) (next : Nat) (s : Stmt) (st : Nat → Arr n) : Option (Nat → Arr n) :=
  if clash args (uses (place args next) s st) then none else some (runC (place args next) s st)

end Verif.Params
