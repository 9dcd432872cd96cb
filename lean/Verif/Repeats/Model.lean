import Verif.Repeats.Spec

/-!
# Concatenation and repetition of tuples and lists: model of the code

`Concatenate` and `Duplicate` (ast/core.py 198-275), and their lowering in `collect_loops`
(ast/utilities.py 818-885), into assignments of slices of the target, which has been given the shape
of the right-hand side before (C68).

Simplification: the target is not one of the variables of the right-hand side (C69), and the slices
of slices are merged correctly (C17).  The elements are scalars.
-/

namespace Verif.Repeats.Model
open Spec

/-- Undefined behaviour, or a value. -/
inductive Out (β : Type)
  | ok (v : β)
  | ub
  deriving DecidableEq, Repr

/-- `shape[0]`: core.py 219-223 and 262-267. -/
def shape {α : Type} : Expr α → Int
  | .elems l => l.length
  | .cat a b => shape a + shape b
  | .rep a n _ => shape a * n

/-- The elements of a variable, one after the other, at the positions from `off` on. -/
def put {α : Type} (off : Int) : List α → List (Int × α)
  | [] => []
  | x :: r => (off, x) :: put (off + 1) r

/-- The stores of `lhs[off : off + shape] = e`, in their order.  A repetition is a loop, or, for
literals up to 10, a sequence of assignments: utilities.py 838-885. -/
def stores {α : Type} : Expr α → Int → List (Int × α)
  | .elems l, off => put off l
  | .cat a b, off => stores a off ++ stores b (off + shape a)
  | .rep a n lit, off =>
    if lit = false ∨ 10 < n then
      (List.range n.toNat).flatMap fun (i : Nat) => stores a (off + shape a * i)
    else
      ((List.range n.toNat).map fun (i : Nat) => stores a (off + shape a * i)).flatten

/-- One store: outside the target it is undefined. -/
def store {α : Type} (m : Out (List (Option α))) (p : Int × α) : Out (List (Option α)) :=
  match m with
  | .ub => .ub
  | .ok m => if 0 ≤ p.1 ∧ p.1 < m.length then .ok (m.set p.1.toNat (some p.2)) else .ub

/-- Read all the elements: those without a value are undefined. -/
def readAll {α : Type} : List (Option α) → Out (List α)
  | [] => .ok []
  | none :: _ => .ub
  | some x :: r =>
    match readAll r with
    | .ok l => .ok (x :: l)
    | .ub => .ub

/-- `x = e` and the elements of `x` afterwards.  The target is allocated with the shape of `e`; an
allocation with a negative number of elements is undefined. -/
def run {α : Type} (e : Expr α) : Out (List α) :=
  if shape e < 0 then .ub
  else
    match (stores e 0).foldl store (.ok (List.replicate (shape e).toNat none)) with
    | .ok m => readAll m
    | .ub => .ub

end Verif.Repeats.Model
