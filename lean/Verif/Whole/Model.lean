import Verif.Whole.Spec

/-!
# Conversions and whole numbers: model of the code
-/

namespace Verif.Whole
open Spec
open Verif.Complex.Spec (Fl Prec rnd fs Rep24)
open Verif.Floats

/-- Values of expressions of the target language: of an integer type, a floating-point type or a logical type. -/
inductive Val
  | i (n : ℤ)
  | d (x : Fl)
  | b (t : Bool)
deriving DecidableEq

/-- The types that pyccel gives to the calls. -/
inductive Ty
  | int (bits : ℕ)
  | flt (p : Prec)
  | bool
deriving DecidableEq

/-- pyccel/ast/mathext.py:113-128, 860-933 (`MathFunctionInt`), 425 (`MathFabs`), pyccel/ast/numpyext.py:2695-2700 (`NumpyAbs`), 2718-2734
(`NumpyFloor`), pyccel/ast/builtins.py:240-257, 586-603, 492-509 (`bool`, `int`, `float`). -/
def tyOf : Fn → Arg → Ty
  | .int, _ | .floor, _ | .ceil, _ | .trunc, _ => .int 64
  | .npFloor, .int w _ | .npAbs, .int w _ => .int w
  | .npFloor, .flt p _ | .npAbs, .flt p _ => .flt p
  | .fabs, _ | .float, _ => .flt .dbl
  | .bool, _ => .bool

/-- Conversion of a floating-point number to an integer type: the fraction is dropped; undefined if the result is out of range (C11
6.3.1.4; Fortran 2018 16.9.100). -/
def toInt (w : ℕ) (x : Fl) : Option ℤ :=
  match toQ x with
  | none => none
  | some q => if InBits w (tozero q) then some (tozero q) else none

/-- `NumpyFloat(arg)` for integers and the promotion of `float` to `double`. -/
def widen : Arg → Fl
  | .int _ n => ofInt n
  | .flt _ x => x

/-- `ceil` and `trunc` of the C library. -/
def ceilFl : Fl → Fl
  | .num q => if ⌈q⌉ = 0 then .zero (decide (q < 0)) else .num ⌈q⌉
  | x => x

def truncFl : Fl → Fl
  | .num q => if tozero q = 0 then .zero (decide (q < 0)) else .num (tozero q)
  | x => x

/-- `x != 0`. -/
def nonzero : Arg → Bool
  | .int _ n => n ≠ 0
  | .flt _ x => match x with
    | .zero _ => false
    | _ => true

/-- The C expression: pyccel/codegen/printing/ccode.py:1132-1145 (`float`, `int`, `bool`), 2710-2760 (`math`; integers are converted to `double`
and results of integer type are cast to `int64_t`), 2798-2809 (`trunc`, which is not cast), 2594-2636 (`np`). -/
def exprC : Fn → Arg → Option Val
  | .int, .int _ n => some (.i n)
  | .int, .flt _ x => (toInt 64 x).map .i
  | .floor, v => (toInt 64 (floorFl (widen v))).map .i
  | .ceil, v => (toInt 64 (ceilFl (widen v))).map .i
  | .trunc, v => some (.d (truncFl (widen v)))
  | .npFloor, v => some (.d (floorFl (widen v)))
  | .npAbs, v | .fabs, v => some (.d (absFl (widen v)))
  | .float, v => some (.d (widen v))
  | .bool, v => some (.b (nonzero v))

/-- `floor(x, kind)` and `ceiling(x, kind)` of Fortran for an integer kind of `w` bits: undefined if the result is out of range. -/
def floorTo (w : ℕ) (x : Fl) : Option ℤ :=
  match toQ x with
  | none => none
  | some q => if InBits w ⌊q⌋ then some ⌊q⌋ else none

def ceilTo (w : ℕ) (x : Fl) : Option ℤ :=
  match toQ x with
  | none => none
  | some q => if InBits w ⌈q⌉ then some ⌈q⌉ else none

/-- The number of bits of the kind parameter that `print_kind` gives, used for an integer. -/
def kindBits : Prec → ℕ
  | .sgl => 32
  | .dbl => 64

/-- The Fortran expression: pyccel/codegen/printing/fcode.py:2108-2124, 2140-2146 (`int`, `float`, `bool`), 2148-2158 (`floor`; integers are left
as they are), 3977-3986 (`ceiling` without a kind: an integer of 32 bits), 3999-4008 (`dint`, for `double precision` only), 2044-2046
(`np.floor`: `real(floor(x, kind=k), k)` where `k` is the kind of the result; for integers `real((n), k)`, which exists for 32 and 64 bits),
3839-3859 (`np.abs`; integers are made `double`), 3941-3975 (`math.fabs`).  `none`: undefined, or not accepted by the compiler. -/
def exprF : Fn → Arg → Option Val
  | .int, .int _ n => some (.i n)
  | .int, .flt _ x => (toInt 64 x).map .i
  | .floor, .int _ n => some (.i n)
  | .floor, .flt _ x => (floorTo 64 x).map .i
  | .ceil, v => (ceilTo 32 (widen v)).map .i
  | .trunc, .flt .sgl _ => none
  | .trunc, v => some (.d (truncFl (widen v)))
  | .npFloor, .int w n =>
    if w = 64 then some (.d (.ofQ (rnd .dbl n))) else if w = 32 then some (.d (.ofQ (rnd .sgl n))) else none
  | .npFloor, .flt p x => (floorTo (kindBits p) x).map fun n : ℤ => Val.d (.ofQ (rnd p (n : ℚ)))
  | .npAbs, v | .fabs, v => some (.d (absFl (widen v)))
  | .float, v => some (.d (widen v))
  | .bool, v => some (.b (nonzero v))

/-- The assignment of an expression to a variable of a type, which converts it. -/
def store : Ty → Val → Option Res
  | .int w, .i n => if InBits w n then some (.int n) else none
  | .int w, .d x => (toInt w x).map .int
  | .flt p, .d x => match x with
    | .num q => some (.flt (.ofQ (rnd p q)))
    | x => some (.flt x)
  | .bool, .b t => some (.bool t)
  | _, _ => none

def runC (f : Fn) (v : Arg) : Option Res := (exprC f v).bind (store (tyOf f v))
def runF (f : Fn) (v : Arg) : Option Res := (exprF f v).bind (store (tyOf f v))

/-- The expression is of the type that pyccel gives it (an integer, a floating-point number, or a truth value). -/
def agrees : Ty → Val → Bool
  | .int _, .i _ => true
  | .flt _, .d _ => true
  | .bool, .b _ => true
  | _, _ => false

end Verif.Whole
