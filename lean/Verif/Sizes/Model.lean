import Verif.Sizes.Spec

/-!
# Sizes found with SymPy: model

How the size of a comprehension, computed by SymPy, becomes an expression of pyccel
(/repo/pyccel/ast/sympy_helper.py, `sympy_to_pyccel`), and what the generated code computes from it.  The numbers of
the machine are rational numbers with a rounding after each operation; integers don't overflow.  Not modelled: tuples.
-/

namespace Verif.Sizes.Model
open Verif.Sizes.Spec

mutual
/-- The nodes that `sympy_to_pyccel` makes: `LiteralInteger`, `LiteralFloat`, variables and elements of shapes (whose
type is an integer or not), the operators and functions of /repo/pyccel/ast/sympy_helper.py 20-47. -/
inductive Py
  | int (n : ℕ)
  | flt (q : ℚ)
  | var (x : ℕ) (int : Bool)
  | neg (a : Py)
  | par (a : Py)
  | mul (a b : Py)
  | add (a b : Py)
  | div (a b : Py)
  | pow (a b : Py)
  | ceil (a : Py)
  | floor (a : Py)
  | fabs (a : Py)
  | min (l : Pys)
  | max (l : Pys)
inductive Pys
  | nil
  | cons (a : Py) (l : Pys)
end

mutual
/-- Whether the type is an integer: the broadest type of the arguments (/repo/pyccel/ast/operators.py 556-590),
`PyccelDiv` is a float (1035-1050), `MathCeil` an integer (/repo/pyccel/ast/mathext.py 860), `MathFabs` a float (425),
`NumpyFloor` has the type of its argument (/repo/pyccel/ast/numpyext.py 2718-2734), `PythonMin` and `PythonMax` that of
the first (/repo/pyccel/ast/builtins.py 1681). -/
def Py.isInt : Py → Bool
  | .int _ => true
  | .flt _ => false
  | .var _ i => i
  | .neg a | .par a | .floor a => a.isInt
  | .mul a b | .add a b | .pow a b => a.isInt && b.isInt
  | .div _ _ | .fabs _ => false
  | .ceil _ => true
  | .min l | .max l => l.allInt
def Pys.allInt : Pys → Bool
  | .nil => true
  | .cons a l => a.isInt && l.allInt
end

/-- All are floats. -/
def Pys.allFlt : Pys → Bool
  | .nil => true
  | .cons a l => !a.isInt && l.allFlt

/-- Parentheses around sums in a product: /repo/pyccel/ast/sympy_helper.py 101-104. -/
def paren : Py → Py
  | .add a b => .par (.add a b)
  | a => a

/-- The sum of the arguments: 108-117.  A negative integer that isn't first raises an `IndexError` (`a.args[1]` of a
`PyccelUnarySub`). -/
def addArgs (a : Py) : Pys → Option Py
  | .nil => some a
  | .cons (.neg _) _ => none
  | .cons b l => addArgs (.add a b) l

/-- `isinstance(e, NegativeOne)`: 120. -/
def isMinusOne : Sy → Bool
  | .num z => z == -1
  | _ => false

/-- `PythonMin(*args)` and `PythonMax(*args)` accept several arguments of one type: /repo/pyccel/ast/builtins.py 1660-1680. -/
def oneType : Pys → Bool
  | .nil | .cons _ .nil => false
  | l => l.allInt || l.allFlt

mutual
/-- `sympy_to_pyccel`: /repo/pyccel/ast/sympy_helper.py 54-156.  `syms` is the map of the symbols, with the types of the
variables.  A product of other than two factors is a `TypeError`, as `PyccelMul` takes two arguments (106). -/
def conv (syms : ℕ → Option Bool) : Sy → Option Py
  | .num z => some (if 0 ≤ z then .int z.toNat else .neg (.int (-z).toNat))
  | .rat q => some (.flt q)
  | .sym x => (syms x).map (.var x)
  | .mul l =>
    match convs syms l with
    | some (.cons a (.cons b .nil)) => some (.mul (paren a) (paren b))
    | _ => none
  | .add l =>
    match convs syms l with
    | some (.cons a r) => addArgs a r
    | _ => none
  | .pow b e =>
    match conv syms b, conv syms e with
    | some p, some q => if isMinusOne e then some (.div (.int 1) p) else some (.pow p q)
    | _, _ => none
  | .ceil a => (conv syms a).map fun p => if p.isInt then p else .ceil p
  | .floor a => (conv syms a).map .floor
  | .abs a => (conv syms a).map .fabs
  | .min l => (convs syms l).bind fun ps => if oneType ps then some (.min ps) else none
  | .max l => (convs syms l).bind fun ps => if oneType ps then some (.max ps) else none
  | .other => none
def convs (syms : ℕ → Option Bool) : Sys → Option Pys
  | .nil => some .nil
  | .cons a l => (conv syms a).bind fun p => (convs syms l).map fun ps => .cons p ps
end

/-- An operand of a float operation: integers are converted. -/
def cv (r : ℚ → ℚ) (int : Bool) (x : ℚ) : ℚ := if int then r x else x

/-- An operation on integers is exact; one with a float is rounded. -/
def arith (r : ℚ → ℚ) (i j : Bool) (f : ℚ → ℚ → ℚ) (x y : ℚ) : ℚ :=
  if i && j then f x y else r (f (cv r i x) (cv r j y))

/-- The conversion of a float to an integer in C. -/
def trunc (q : ℚ) : ℤ := if q < 0 then ⌈q⌉ else ⌊q⌋

mutual
/-- What the C code computes (/repo/pyccel/codegen/printing/ccode.py: 1461-1491 for powers, 3257-3262 for divisions);
`r` is the rounding. -/
def Py.mval (r : ℚ → ℚ) (env : ℕ → ℚ) : Py → Option ℚ
  | .int n => some n
  | .flt q => some (r q)
  | .var x _ => some (env x)
  | .neg a => (a.mval r env).map fun x => -x
  | .par a => a.mval r env
  | .mul a b => (a.mval r env).bind fun x => (b.mval r env).map fun y => arith r a.isInt b.isInt (· * ·) x y
  | .add a b => (a.mval r env).bind fun x => (b.mval r env).map fun y => arith r a.isInt b.isInt (· + ·) x y
  | .div a b => (a.mval r env).bind fun x => (b.mval r env).bind fun y =>
    if cv r b.isInt y = 0 then none else some (r (cv r a.isInt x / cv r b.isInt y))
  | .pow a b => (a.mval r env).bind fun x => (b.mval r env).bind fun y =>
    (powQ (cv r a.isInt x) (cv r b.isInt y)).map fun w =>
      if a.isInt && b.isInt then (trunc (r w) : ℚ) else r w
  | .ceil a => (a.mval r env).map fun x => (⌈cv r a.isInt x⌉ : ℚ)
  | .floor a => (a.mval r env).map fun x => (⌊cv r a.isInt x⌋ : ℚ)
  | .fabs a => (a.mval r env).map fun x => |cv r a.isInt x|
  | .min l => (l.mvals r env).bind List.min?
  | .max l => (l.mvals r env).bind List.max?
def Pys.mvals (r : ℚ → ℚ) (env : ℕ → ℚ) : Pys → Option (List ℚ)
  | .nil => some []
  | .cons a l => (a.mval r env).bind fun x => (l.mvals r env).map fun s => x :: s
end

end Verif.Sizes.Model
