/-!
# `in` and `is`: specification
-/

namespace Verif.Tests.Spec

/-- Kinds of numbers. -/
inductive Prim
  | bool | int | float | complex
deriving DecidableEq

/-- The types of numbers: Python's own, and NumPy's with a number of bytes (per part). -/
inductive Ty
  | py (p : Prim)
  | np (p : Prim) (bytes : Nat)
deriving DecidableEq

/-- The types have the same numbers: they are equal, or one is Python's and the other is NumPy's type with eight bytes. -/
def SameTy (t u : Ty) : Prop :=
  t = u ∨ ∃ p, p ≠ .bool ∧ ((t = .py p ∧ u = .np p 8) ∨ (t = .np p 8 ∧ u = .py p))

/-- The values of numbers: real and imaginary part (no NaN).  `True` is 1. -/
abbrev Num := Rat × Rat

/-- The calls of functions that an expression makes, in the order in which they are made. -/
abbrev Calls := List Nat

/-- Python's `x in c` for a list, a set or the keys of a dictionary: some element is equal to `x` (whatever the types are).
The calls in `x` are made before those in `c`. -/
def pyIn (x : Num) (cx : Calls) (elems : List Num) (cc : Calls) : Prop × Calls := (x ∈ elems, cx ++ cc)

/-- What a variable or a function may return: `None`, or an object of a type.  Two objects are the same if the numbers are; the objects `False`
and `True` have the numbers 0 and 1. -/
inductive Obj
  | none
  | obj (t : Ty) (id : Nat)
deriving DecidableEq

/-- An operand of `is`. -/
inductive Opd
  | none
  | bool (b : Bool)
  | var (x : Nat) (t : Ty) (optional : Bool)
  | call (f : Nat) (t : Ty)
deriving DecidableEq

def boolObj (b : Bool) : Obj := .obj (.py .bool) (if b then 1 else 0)

/-- The values of variables and calls. -/
structure Env where
  var : Nat → Obj
  call : Nat → Obj

/-- The object that an operand refers to. -/
def Opd.val (σ : Env) : Opd → Obj
  | .none => .none
  | .bool b => boolObj b
  | .var x _ _ => σ.var x
  | .call f _ => σ.call f

def Opd.calls : Opd → Calls
  | .call f _ => [f]
  | _ => []

/-- The object has this type; there are two objects of Python's type `bool`. -/
def HasTy (t : Ty) : Obj → Prop
  | .none => False
  | .obj u i => u = t ∧ (t = .py .bool → i < 2)

/-- Variables and functions have the types that they are declared with; only optional variables may be `None`. -/
def Opd.Typed (σ : Env) : Opd → Prop
  | .none | .bool _ => True
  | .var x t o => (o = true ∧ σ.var x = .none) ∨ HasTy t (σ.var x)
  | .call f t => HasTy t (σ.call f)

/-- The operands are the same variable. -/
def SameVar (a b : Opd) : Prop := ∃ x t o u p, a = .var x t o ∧ b = .var x u p

/-- Python's `a is b` (`neg`: `a is not b`). -/
def pyIs (neg : Bool) (σ : Env) (a b : Opd) : Bool × Calls :=
  (neg ^^ decide (a.val σ = b.val σ), a.calls ++ b.calls)

end Verif.Tests.Spec
