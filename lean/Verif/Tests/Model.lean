import Verif.Tests.Spec

/-!
# `in` and `is`: model of the code
-/

namespace Verif.Tests
open Spec

/-- The number of bytes of Python's types: pyccel/ast/datatypes.py:396, 432, 475, 505 (`bool`: -1, which no type of NumPy has,
written `none`). -/
def bytes : Prim → Option Nat
  | .bool => none
  | _ => some 8

/-- `==` of types: identity for Python's types, and `NumpyNumericType.__eq__`, pyccel/ast/numpytypes.py:84-95. -/
def tyEq : Ty → Ty → Bool
  | .py p, .py q => p == q
  | .np p m, .np q n => p == q && m == n
  | .np p m, .py q => p == q && some m == bytes q
  | .py p, .np q n => p == q && some n == bytes p

/-- `_visit_PyccelIn` (pyccel/parser/semantic.py:4764-4780) with the code that is printed (ccode.py:1433-1443, fcode.py:3805-3814): a search
that compares numbers of one type if the types are equal, otherwise the literal `False`. -/
def evalIn (tx te : Ty) (x : Num) (cx : Calls) (elems : List Num) (cc : Calls) : Prop × Calls :=
  if tyEq tx te then (x ∈ elems, cx ++ cc) else (False, [])

/-- What `a is b` becomes. -/
inductive Code
  | lit (b : Bool)
  | present (x : Nat) (neg : Bool)
  | compare (a b : Opd) (neg : Bool)
  | reject
deriving DecidableEq

def Opd.ty : Opd → Option Ty
  | .none => .none
  | .bool _ => some (.py .bool)
  | .var _ t _ => some t
  | .call _ t => some t

/-- `var1 is var2`: one node is made for a variable (and one for `None`), other expressions are different nodes. -/
def sameNode : Opd → Opd → Bool
  | .none, .none => true
  | .var x _ _, .var y _ _ => x == y
  | _, _ => false

/-- A test against `None`, semantic.py:7133-7139: of an optional variable, otherwise it is decided.  `IsClass(var1, expr.rhs)` is right if `None`
is on the right; the other order (`None is x`) gives a node that cannot be printed. -/
def visitNil (neg : Bool) (right : Bool) : Opd → Code
  | .var x _ true => if right then .present x neg else .reject
  | _ => .lit neg

/-- `_visit_PyccelIs`: semantic.py:7116-7160. -/
def visitIs (neg : Bool) (a b : Opd) : Code :=
  if sameNode a b then .lit (!neg)
  else match a, b with
    | a, .none => visitNil neg true a
    | .none, b => visitNil neg false b
    | a, b => match Opd.ty a, Opd.ty b with
      | some t, some u =>
        if !tyEq t u then .lit neg
        else if t = .py .bool ∧ u = .py .bool then .compare a b neg
        else .reject
      | _, _ => .reject

/-- The value of an operand in the code.  Reading an optional variable that is not there (a null pointer in C, an absent argument in Fortran) is
undefined. -/
def read (σ : Env) (a : Opd) : Option Nat :=
  match a.val σ with
  | .none => none
  | .obj _ i => some i

/-- The printed code: ccode.py:3568-3619 and fcode.py:3464-3511 (`x == NULL`, `present(x)`, `a == b`, `a .eqv. b`).  `none`: undefined. -/
def run (σ : Env) : Code → Option (Bool × Calls)
  | .lit b => some (b, [])
  | .present x neg => some (neg ^^ decide (σ.var x = .none), [])
  | .compare a b neg => match read σ a, read σ b with
    | some i, some j => some (neg ^^ decide (i = j), a.calls ++ b.calls)
    | _, _ => none
  | .reject => none

end Verif.Tests
