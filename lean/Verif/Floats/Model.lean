import Verif.Floats.Fl

/-!
# Arithmetic on floating-point numbers: model

The code that is generated for `round`, `//`, `%`, `/`, `**`, comparisons, `min` and `max`.  Every operation on
floating-point numbers gives the exact result rounded (`fl`).  `none` stands for conversions to 64-bit integers of
values that are out of range (undefined in C and Fortran).  `pow` of C and `**` of Fortran are taken to be rounded
correctly too.
-/

namespace Verif.Floats.Model
open Spec

/-- A conversion to `int64_t`: towards zero. -/
def trunc (x : ℚ) : ℤ := if x < 0 then ⌈x⌉ else ⌊x⌋

def inRange (k : ℤ) : Bool := -2 ^ 63 ≤ k && k < 2 ^ 63

def toI64 (x : ℚ) : Option ℤ := if inRange (trunc x) then some (trunc x) else none

/-- `fpyc_bankers_round(arg, ndigits)`: `pyccel/stdlib/math/pyc_math_c.c:46-63`, printed for `round` by
`pyccel/codegen/printing/ccode.py:1003-1013` (with `ndigits = 0` if there is none).  `copysign(0.5, arg)` is
-0.5 for a negative zero, which gives the same result. -/
def cRound (x : ℚ) (ndigits : ℤ) : Option ℚ :=
  let factor := fl (10 ^ ndigits)
  let arg := fl (x * factor)
  let fix : ℚ := if arg < 0 then -1/2 else 1/2
  match toI64 (fl (arg + fix)) with
  | none => none
  | some k =>
    let rnd := fl k
    let diff := fl (arg - rnd)
    if ndigits ≤ 0 ∧ (diff = 1/2 ∨ diff = -1/2) then
      match toI64 (fl (fl (arg * (1/2)) + fix)) with
      | none => none
      | some k => some (fl (fl (fl k * 2) / factor))
    else some (fl (rnd / factor))

/-- `nint(x, kind=i64)` of Fortran: halves are rounded away from zero. -/
def nint (x : ℚ) : Option ℤ :=
  let k := if x < 0 then ⌈x - 1/2⌉ else ⌊x + 1/2⌋
  if inRange k then some k else none

/-- `pyc_bankers_round_float`: `pyccel/stdlib/math/pyc_math_f90.F90:354-376`, printed for `round` by
`pyccel/codegen/printing/fcode.py:1386-1406`. -/
def fRound (x : ℚ) (ndigits : ℤ) : Option ℚ :=
  let arg := fl (x * fl (10 ^ ndigits))
  match nint arg with
  | none => none
  | some k =>
    let rnd := fl k
    let diff := fl (arg - rnd)
    if ndigits ≤ 0 ∧ (diff = 1/2 ∨ diff = -1/2) then
      match nint (fl (arg * (1/2))) with
      | none => none
      | some k => if inRange (k * 2) then some (fl (fl ((k * 2 : ℤ) : ℚ) * fl (10 ^ (-ndigits)))) else none
    else some (fl (rnd * fl (10 ^ (-ndigits))))

/-- `a // b` in C, if one of them is a float: `floor(a / b)`, `pyccel/codegen/printing/ccode.py:3264-3286`.
`floor` is exact. -/
def cFloorDiv (a b : ℚ) : ℤ := ⌊fl (a / b)⌋

/-- `a // b` in Fortran, if one of them is a float: `real(FLOOR(a / b, 8), 8)`,
`pyccel/codegen/printing/fcode.py:3633-3645` (the kind 8 of the float is used for the integer). -/
def fFloorDiv (a b : ℚ) : Option ℚ := if inRange ⌊fl (a / b)⌋ then some (fl ⌊fl (a / b)⌋) else none

/-- `fmod(a, b)` of C, which is not rounded. -/
def fmod (a b : ℚ) : ℚ := a - b * trunc (a / b)

/-- `pyc_fmodulo(a, b)`: `pyccel/stdlib/math/pyc_math_c.h:106-113`, printed for `%` by
`pyccel/codegen/printing/ccode.py:1445-1459`. -/
def cMod (a b : ℚ) : ℚ :=
  let modulo := fmod a b
  if (!(xor (decide (a < 0)) (decide (b < 0)))) || modulo = 0 then modulo else fl (modulo + b)

/-- `MODULO(a, b)`: `pyccel/codegen/printing/fcode.py:3617-3631`.  As in gfortran: the sign of the remainder is
compared with that of `b`. -/
def fMod (a b : ℚ) : ℚ :=
  let r := fmod a b
  if r ≠ 0 ∧ (r < 0 ↔ ¬ b < 0) then fl (r + b) else r

/-- `a / b` of integers: they become floats first, `pyccel/codegen/printing/ccode.py:3257-3262`,
`pyccel/codegen/printing/fcode.py:3605-3615`. -/
def trueDiv (a b : ℤ) : ℚ := fl (fl a / fl b)

/-- A comparison of an integer with a float: `pyccel/codegen/printing/ccode.py:1363-1443`,
`pyccel/codegen/printing/fcode.py:3711-3790`; both languages convert the integer to a float. -/
def cCmp (c : Cmp) (n : ℤ) (x : ℚ) : Bool := c.holds (fl n) x

/-- `a ** b` of integers in C: `pow((double)a, (double)b)`, `pyccel/codegen/printing/ccode.py:1461-1489`, assigned to
an integer variable.  For a variable or literal, `a ** 2` is `a * a` (`pyccel/parser/semantic.py:4739-4740`):
`isVar`. -/
def cPow (isVar : Bool) (a : ℤ) (b : ℤ) : Option ℤ :=
  if isVar && b = 2 then (if inRange (a * a) then some (a * a) else none)
  else toI64 (fl (fl a ^ b))

/-- `T_min(a, n)`, `pyccel/stdlib/STC_Extensions/Common_extensions.h:3-11`: the loop over `i`, with `n - i` rounds
left.  `none` is access beyond the end of the array. -/
def cMinLoop {α : Type} (lt : α → α → Bool) (a : List α) : Nat → Nat → α → Option α
  | _, 0, m => some m
  | i, k + 1, m =>
    match a[i]? with
    | none => none
    | some x => cMinLoop lt a (i + 1) k (if lt x m then x else m)

/-- `min(a, b, ...)` in C: `pyccel/codegen/printing/ccode.py:1036-1042`. -/
def cMin {α : Type} (lt : α → α → Bool) (a : List α) : Option α :=
  match a[0]? with
  | none => none
  | some m => cMinLoop lt a 1 (a.length - 1) m

/-- `T_max(a, n)`, `pyccel/stdlib/STC_Extensions/Common_extensions.h:13-21`. -/
def cMaxLoop {α : Type} (lt : α → α → Bool) (a : List α) : Nat → Nat → α → Option α
  | _, 0, m => some m
  | i, k + 1, m =>
    match a[i]? with
    | none => none
    | some x => cMaxLoop lt a (i + 1) k (if lt m x then x else m)

def cMax {α : Type} (lt : α → α → Bool) (a : List α) : Option α :=
  match a[0]? with
  | none => none
  | some m => cMaxLoop lt a 1 (a.length - 1) m

/-- `min(l)` of a list in C: `pyccel/stdlib/STC_Extensions/List_extensions.h:26-34`; the loop starts with the first
element again. -/
def cListMin {α : Type} (lt : α → α → Bool) (l : List α) : Option α :=
  match l with
  | [] => none
  | a :: _ => some (l.foldl (fun m x => if lt x m then x else m) a)

/-- `max(l)` of a list in C: `pyccel/stdlib/STC_Extensions/List_extensions.h:37-45`. -/
def cListMax {α : Type} (lt : α → α → Bool) (l : List α) : Option α :=
  match l with
  | [] => none
  | a :: _ => some (l.foldl (fun m x => if lt m x then x else m) a)

/-- `min(a, b)` of two booleans in C: `pyccel/codegen/printing/ccode.py:1076-1096`. -/
def cBoolMin (a b : Bool) : Bool := if a < b then a else b

def cBoolMax (a b : Bool) : Bool := if a > b then a else b

end Verif.Floats.Model
