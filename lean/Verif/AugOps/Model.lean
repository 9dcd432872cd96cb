import Verif.IntMath.Model
import Verif.AugOps.Spec
/-
Model of how pyccel translates augmented assignments and binary operators on integers to C
and Fortran, and true division.
-/
namespace Verif.AugOps
open Spec Verif.IntMath Verif.IntMath.Spec

/-- C `|` on `int64_t`. -/
def cOr (x y : Int) : Int := (BitVec.ofInt 64 x ||| BitVec.ofInt 64 y).toInt
/-- C `&` on `int64_t`. -/
def cAnd (x y : Int) : Int := (BitVec.ofInt 64 x &&& BitVec.ofInt 64 y).toInt
/-- C `<<` on `int64_t` (C11 6.5.7p3-4): undefined for a count outside `[0, 64)`, a negative
left operand, or an unrepresentable result. -/
def cShl (x y : Int) : Option Int :=
  if 0 ≤ y ∧ y < 64 ∧ 0 ≤ x then chk 64 (x * 2 ^ y.toNat) else none
/-- C `>>` on `int64_t` (C11 6.5.7p5): undefined for a count outside `[0, 64)`; arithmetic
shift for negative operands (the implementation-defined choice of gcc/clang/icx). -/
def cShr (x y : Int) : Option Int :=
  if 0 ≤ y ∧ y < 64 then some ((BitVec.ofInt 64 x).sshiftRight y.toNat).toInt else none

/-- The C compound assignment `x op= y;` on `int64_t` lvalues. -/
def cCompound : Op → Int → Int → Option Int
  | .add, x, y => chk 64 (x + y)
  | .sub, x, y => chk 64 (x - y)
  | .mul, x, y => chk 64 (x * y)
  | .floordiv, _, _ => none            -- `//=` is not a C operator
  | .mod, x, y => cmod 64 x y          -- C remainder, truncating
  | .bitor, x, y => some (cOr x y)
  | .bitand, x, y => some (cAnd x y)
  | .lshift, x, y => cShl x y
  | .rshift, x, y => cShr x y

/-- The value of the C expression printed for the binary operator `x op y` on integers:
pyccel/codegen/printing/ccode.py:3245-3327 (`+ - * | & << >>` print the C operator,
`//` prints `py_floor_div_int64_t`, 3264-3275) and 1445-1453 (`%` prints `pyc_modulo`). -/
def cBinary : Op → Int → Int → Option Int
  | .floordiv, x, y => pyFloorDiv 64 x y
  | .mod, x, y => pycModulo x y
  | op, x, y => cCompound op x y

/-- What `_print_AugAssign` prints for `x op= y`: either `x = x op y` through
`to_basic_assign`, or the C compound operator of the same spelling:
pyccel/codegen/printing/ccode.py:3345-3360.  `lhsFloat` is the test on the primitive type
of the left-hand side. -/
def augUsesBasicAssign (op : Op) (lhsFloat : Bool) : Bool :=
  op = .floordiv || (op = .mod && lhsFloat)

/-- Value left in the integer variable `x` by the C code generated for `x op= y`:
ccode.py:3345-3360; `to_basic_assign` is pyccel/ast/core.py:807-822; the semantic stage
keeps the `AugAssign` (pyccel/parser/semantic.py:5630). -/
def cAugAssign (op : Op) (x y : Int) : Option Int :=
  if augUsesBasicAssign op false then cBinary op x y else cCompound op x y

/-- Value left in `x` by the Fortran code for `x op= y`: always `x = x op y`,
pyccel/codegen/printing/fcode.py:3097-3100; `//` is `pyc_floor_div`, `%` is `MODULO`
(fcode.py:3617-3645), `<<` is `LSHIFT` (fcode.py:3651-3653: a bit shift for counts in
`[0, 64)`, i.e. multiplication when the result is representable, `none` otherwise); the
others (`+ - *`, `IOR`, `IAND`, `RSHIFT`, fcode.py:3566-3603, 3647-3671) as in C. -/
def fAugAssign : Op → Int → Int → Option Int
  | .floordiv, x, y => fFloorDiv 64 x y
  | .mod, x, y => fModulo x y
  | .lshift, x, y => if 0 ≤ y ∧ y < 64 then chk 64 (x * 2 ^ y.toNat) else none
  | op, x, y => cCompound op x y

/-- Primitive types distinguished by `_print_PyccelDiv`. -/
inductive Prim | bool | int | float
deriving DecidableEq, Repr

/-- C: cast both operands to `double` iff all operands are of integer (not boolean)
primitive type: pyccel/codegen/printing/ccode.py:3257-3262. -/
def cDivCasts (ts : List Prim) : Bool := ts.all (· = .int)

/-- Fortran: cast iff all operands are boolean or integer:
pyccel/codegen/printing/fcode.py:3605-3615. -/
def fDivCasts (ts : List Prim) : Bool := ts.all (fun t => t = .bool || t = .int)

/-- The value of the printed `a / b` for operands of primitive types `ta`, `tb` holding the
rational values `a`, `b`.  Without a cast, two operands of C integer types (`bool` is one)
are divided by truncating integer division; otherwise the division is exact (floating-point
rounding is not modelled). -/
def divValue (casts : Bool) (ta tb : Prim) (a b : Rat) : Rat :=
  if casts || ta = .float || tb = .float then a / b
  else ((a.num.tdiv b.num : Int) : Rat)

/-- `a / b` in generated C. -/
def cDiv (ta tb : Prim) (a b : Rat) : Rat := divValue (cDivCasts [ta, tb]) ta tb a b
/-- `a / b` in generated Fortran. -/
def fDiv (ta tb : Prim) (a b : Rat) : Rat := divValue (fDivCasts [ta, tb]) ta tb a b

/-- A rational is a value of the primitive type. -/
def HasPrim : Prim → Rat → Prop
  | .bool, v => v = 0 ∨ v = 1
  | .int, v => v.den = 1
  | .float, _ => True

end Verif.AugOps
