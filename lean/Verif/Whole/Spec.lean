import Verif.Complex.Spec

/-!
# Conversions and whole numbers: specification

`int`, `float`, `bool`, `math.floor`, `math.ceil`, `math.trunc`, `math.fabs`, `np.floor` and `np.abs`.
-/

namespace Verif.Whole.Spec
open Verif.Complex.Spec (Fl Prec rnd fs Rep24)
open Verif.Floats

inductive Fn
  | int | floor | ceil | trunc
  | npFloor | npAbs | fabs | float | bool
deriving DecidableEq

/-- Arguments: an integer of a number of bits (Python's `int` has 64 in compiled code), an `np.float32` or a `float`. -/
inductive Arg
  | int (bits : ℕ) (n : ℤ)
  | flt (p : Prec) (x : Fl)
deriving DecidableEq

/-- The integers of a number of bits. -/
def InBits (w : ℕ) (n : ℤ) : Prop := -(2 : ℤ) ^ (w - 1) ≤ n ∧ n < (2 : ℤ) ^ (w - 1)

instance (w n) : Decidable (InBits w n) := by unfold InBits; infer_instance

def Arg.WF : Arg → Prop
  | .int w n => (w = 8 ∨ w = 16 ∨ w = 32 ∨ w = 64) ∧ InBits w n
  | .flt p x => x.IsFloat p ∧ ∀ q, x = .num q → q ≠ 0

/-- The size of a floating-point number. -/
def size : Prec → ℕ
  | .sgl => 32
  | .dbl => 64

/-- The results. -/
inductive Res
  | int (n : ℤ)
  | flt (x : Fl)
  | bool (b : Bool)
deriving DecidableEq

/-- The number without its fraction. -/
def tozero (q : ℚ) : ℤ := if q < 0 then ⌈q⌉ else ⌊q⌋

/-- A finite number as a rational number. -/
def toQ : Fl → Option ℚ
  | .nan | .inf _ => none
  | .zero _ => some 0
  | .num q => some q

/-- The greatest whole number that is not greater, as a floating-point number (IEEE 754 roundToIntegralTowardNegative). -/
def floorFl : Fl → Fl
  | .num q => if ⌊q⌋ = 0 then .zero false else .num ⌊q⌋
  | x => x

def absFl : Fl → Fl
  | .nan => .nan
  | .inf _ => .inf false
  | .zero _ => .zero false
  | .num q => .num |q|

/-- The integer as a float. -/
def ofInt (n : ℤ) : Fl := .ofQ (fl n)

/-- What Python and NumPy return; `none`: an exception (infinities and NaN have no integer part). -/
def py : Fn → Arg → Option Res
  | .int, .int _ n | .floor, .int _ n | .ceil, .int _ n | .trunc, .int _ n => some (.int n)
  | .int, .flt _ x | .trunc, .flt _ x => (toQ x).map fun q => .int (tozero q)
  | .floor, .flt _ x => (toQ x).map fun q => .int ⌊q⌋
  | .ceil, .flt _ x => (toQ x).map fun q => .int ⌈q⌉
  | .npFloor, .int _ n => some (.int n)
  | .npFloor, .flt _ x => some (.flt (floorFl x))
  | .npAbs, .int w n => some (.int (if n = -(2 : ℤ) ^ (w - 1) then n else |n|))
  | .npAbs, .flt _ x => some (.flt (absFl x))
  | .fabs, .int _ n => some (.flt (absFl (ofInt n)))
  | .fabs, .flt _ x => some (.flt (absFl x))
  | .float, .int _ n => some (.flt (ofInt n))
  | .float, .flt _ x => some (.flt x)
  | .bool, .int _ n => some (.bool (n ≠ 0))
  | .bool, .flt _ x => some (.bool (toQ x ≠ some 0))

end Verif.Whole.Spec
