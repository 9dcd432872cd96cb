import Verif.Types.Spec

/-
The type in which C and Fortran carry out an operation on two numbers of different types.
-/
namespace Verif.Scalars
open Verif.Types.Spec (Num Kind)

/-- The smallest C type for a kind and a significand: `float`, `double`, `long double` and their complex types. -/
def cReal (complex : Bool) (signif : Nat) : Num :=
  if complex then (if signif ≤ 24 then .c64 else if signif ≤ 53 then .c128 else .c256)
  else (if signif ≤ 24 then .f32 else if signif ≤ 53 then .f64 else .f128)

/-- The type in which C computes `a + b`, `a - b`, `a * b` (C11 6.3.1.8): the larger of the floating types; integers are converted to the
floating type of the other operand, whatever their width; integers are promoted to 32 bits.  The operands are printed without a cast:
`_print_PyccelAdd`, `_print_PyccelMinus`, `_print_PyccelMul`, pyccel/codegen/printing/ccode.py:3245-3255. -/
def cArithT (a b : Num) : Num :=
  if 2 ≤ max a.kind.level b.kind.level then cReal (decide (max a.kind.level b.kind.level = 3)) (max a.signif b.signif)
  else if max a.width b.width ≤ 32 then .i32 else .i64

/-- The same in Fortran (F2018 10.1.9.3): integers are converted to the kind of the real or complex operand.  The operands are printed without a cast,
except truth values, which become 64-bit integers: pyccel/codegen/printing/fcode.py:3572-3608. -/
def fArithT (a b : Num) : Num :=
  if 2 ≤ max a.kind.level b.kind.level then cReal (decide (max a.kind.level b.kind.level = 3)) (max a.signif b.signif)
  else match max (opw a) (opw b) with
    | 8 => .i8 | 16 => .i16 | 32 => .i32 | _ => .i64
where
  /-- Bits of an integer operand. -/
  opw (t : Num) : Nat := if t = .pbool then 64 else t.width

end Verif.Scalars
