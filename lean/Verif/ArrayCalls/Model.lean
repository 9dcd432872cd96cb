import Verif.ArrayCalls.Spec

/-!
# How pyccel moves calls that return arrays

A call of a function that returns an array, if it is not the whole right-hand side of an assignment, is assigned to a new
variable.  The assignment is put before the statement.

Simplified: the arguments of these calls are variables; new names are numbers; the number that is taken from the array
(an element) stands for the array.  The call on the right-hand side of an assignment of an array is not modelled:
it is not moved.  The operands of the translated program are evaluated from left to right.
-/

namespace Verif.ArrayCalls.Model
open Verif.ArrayCalls.Spec

/-- The assignments that wait to be put before the statement, the translated expression, the next new name.
Models pyccel/parser/semantic.py 1745-1762 (`_handle_function`) for a call that returns an array, 400 and 4099-4111 (the
list `_additional_exprs`); operands are visited from left to right; 6243-6266
(`_visit_IfTernaryOperator`, for numbers: the first branch is visited before the condition). -/
def visit : E → Nat → List (Nat × Nat × Nat) × E × Nat
  | .lit z, n => ([], .lit z, n)
  | .loc x, n => ([], .loc x, n)
  | .elem x, n => ([], .elem x, n)
  | .tmp m, n => ([], .tmp m, n)
  | .bin o a b, n =>
    let r := visit a n
    let q := visit b r.2.2
    (r.1 ++ q.1, .bin o r.2.1 q.2.1, q.2.2)
  | .and a b, n =>
    let r := visit a n
    let q := visit b r.2.2
    (r.1 ++ q.1, .and r.2.1 q.2.1, q.2.2)
  | .or a b, n =>
    let r := visit a n
    let q := visit b r.2.2
    (r.1 ++ q.1, .or r.2.1 q.2.1, q.2.2)
  | .tern c a b, n =>
    let r := visit a n
    let t := visit c r.2.2
    let q := visit b t.2.2
    (r.1 ++ (t.1 ++ q.1), .tern t.2.1 r.2.1 q.2.1, q.2.2)
  | .scal k a, n =>
    let r := visit a n
    (r.1, .scal k r.2.1, r.2.2)
  | .arr k x, n => ([(n, k, x)], .tmp n, n + 1)

/-- The assignments of a list before a statement.
Models pyccel/parser/semantic.py 4108-4121 (`_visit_CodeBlock`). -/
def before : List (Nat × Nat × Nat) → P → P
  | [], p => p
  | (n, k, x) :: l, p => .seq (.hoist n k x) (before l p)

/-- The right-hand side of an assignment.  Of a conditional expression the first branch is visited to find its type, and
visited again with the whole expression; the calls found by both visits wait to be made.
Models pyccel/parser/semantic.py 5196-5211 (`_visit_Assign`), for numbers; 1228-1236 is how the second visit moves the call
in `f(x)[0]` again. -/
def visitRhs : E → Nat → List (Nat × Nat × Nat) × E × Nat
  | .tern c a b, n =>
    let r := visit a n
    let q := visit (.tern c a b) r.2.2
    (r.1 ++ q.1, q.2.1, q.2.2)
  | e, n => visit e n

/-- The translation of a program and the next new name.
Models pyccel/parser/semantic.py 4099-4128 (`_visit_CodeBlock`), 6114-6121 (`_visit_While`: the test is visited once,
outside the block of the body), 6123-6126 (`_visit_IfSection`: the condition is visited outside the block, and
the sections of an `if` are one statement), 5196-5208 (`_visit_Assign`: of a conditional expression for arrays the first branch
is visited to find its type, then the condition, and both branches are assigned). -/
def translate : P → Nat → P × Nat
  | .skip, n => (.skip, n)
  | .assign x e, n =>
    let r := visitRhs e n
    (before r.1 (.assign x r.2.1), r.2.2)
  | .store x e, n =>
    let r := visitRhs e n
    (before r.1 (.store x r.2.1), r.2.2)
  | .seq p q, n =>
    let r := translate p n
    let t := translate q r.2
    (.seq r.1 t.1, t.2)
  | .ite c p q, n =>
    let r := visit c n
    let t := translate p r.2.2
    let u := translate q t.2
    (before r.1 (.ite r.2.1 t.1 u.1), u.2)
  | .elif c p d q r, n =>
    let a := visit c n
    let t := translate p a.2.2
    let b := visit d t.2
    let u := translate q b.2.2
    let v := translate r u.2
    (before (a.1 ++ b.1) (.elif a.2.1 t.1 b.2.1 u.1 v.1), v.2)
  | .while c p, n =>
    let r := visit c n
    let t := translate p r.2.2
    (before r.1 (.while r.2.1 t.1), t.2)
  | .pick x c k a l b, n =>
    let q := visit (.arr k a) n
    let r := visit c q.2.2
    (before (q.1 ++ r.1) (.pick x r.2.1 k a l b), r.2.2)
  | .hoist m k x, n => (.hoist m k x, n)

end Verif.ArrayCalls.Model
