import Verif.IntMath.Spec
/-
Model of the integer part of pyccel's run-time library
(`pyccel/stdlib/math/pyc_math_c.h`, `pyc_math_c.c`, `pyc_math_f90.F90`).

C signed arithmetic is modelled over `Int` with an explicit error value: `none` is
undefined behaviour (signed overflow, division by zero, `INT_MIN / -1`).
-/
namespace Verif.IntMath

open Spec (InRange)

/-- Result of a C signed arithmetic operation computed in a type of `w` bits: undefined
behaviour (`none`) when the mathematical result is not representable (C11 6.5p5). -/
def chk (w : Nat) (z : Int) : Option Int := if InRange w z then some z else none

/-- C `/` on signed integers of `w` bits: truncating, undefined for a zero divisor or an
unrepresentable quotient (C11 6.5.5p5-6). -/
def cdiv (w : Nat) (x y : Int) : Option Int := if y = 0 then none else chk w (x.tdiv y)

/-- C `%`: undefined when `x / y` is undefined (C11 6.5.5p6). -/
def cmod (w : Nat) (x y : Int) : Option Int :=
  if y = 0 then none else if InRange w (x.tdiv y) then some (x.tmod y) else none

/-- Conversion to a signed type of `w` bits (two's complement wrap-around, as every
compiler supported by pyccel implements the implementation-defined case of C11 6.3.1.3). -/
def wrap (w : Nat) (z : Int) : Int := Int.bmod z (2 ^ w)

/-- The width in which C computes arithmetic on a type of `w` bits: integer promotion to
`int` (32 bits) for narrower types (C11 6.3.1.1). -/
def arithWidth (w : Nat) : Nat := max 32 w

/-- C's `^` applied to two comparison results. -/
def xorb (a b : Bool) : Bool := a != b

/-- `py_floor_div_T` for a `w`-bit type `T`: pyccel/stdlib/math/pyc_math_c.h:120-123,
`(TYPE)(x / y - ((x % y != 0) && ((x < 0) ^ (y < 0))))`.
Called by `_print_PyccelFloorDiv`, pyccel/codegen/printing/ccode.py:3264-3275. -/
def pyFloorDiv (w : Nat) (x y : Int) : Option Int := do
  let q ← cdiv (arithWidth w) x y
  let r ← cmod (arithWidth w) x y
  let adj : Int := if r ≠ 0 ∧ xorb (x < 0) (y < 0) then 1 else 0
  let z ← chk (arithWidth w) (q - adj)
  return wrap w z

/-- Fortran `pyc_floor_div_i8/16/32/64`: pyccel/stdlib/math/pyc_math_f90.F90:407-429,
`x / y - merge(1, 0, mod(x, y) /= 0 .and. ((x < 0) .neqv. (y < 0)))`.  Fortran computes in
the kind of the operands; an unrepresentable result is an error (`none`). -/
def fFloorDiv (w : Nat) (x y : Int) : Option Int := do
  let q ← cdiv w x y
  let r ← cmod w x y
  let adj : Int := if r ≠ 0 ∧ xorb (x < 0) (y < 0) then 1 else 0
  chk w (q - adj)

/-- `pyc_modulo`: pyccel/stdlib/math/pyc_math_c.h:98-105 (64-bit operands).
Called by `_print_PyccelMod`, pyccel/codegen/printing/ccode.py:1445-1453. -/
def pycModulo (a b : Int) : Option Int := do
  let m ← cmod 64 a b
  if !(xorb (a < 0) (b < 0)) ∨ m = 0 then
    return m
  else
    chk 64 (m + b)

/-- Fortran's intrinsic `MODULO(a, p)` on integers (F2018 16.9.136):
`a - FLOOR(REAL(a)/REAL(p)) * p`, used by `_print_PyccelMod`,
pyccel/codegen/printing/fcode.py:3617-3631. `none` for `p = 0`. -/
def fModulo (a p : Int) : Option Int :=
  if p = 0 then none else some (a - (a.fdiv p) * p)

/-- C absolute value by the ternary `a > 0 ? a : -a`: pyc_math_c.c:24-25 on machine words. -/
def absBV {w : Nat} (a : BitVec w) : BitVec w := if BitVec.slt 0#w a then a else -a

/-- The three xor assignments of pyc_math_c.c:30-32 (pyc_math_f90.F90 `IEOR`, pyc_gcd_8). -/
def xorSwap {w : Nat} (a b : BitVec w) : BitVec w × BitVec w :=
  let a := a ^^^ b
  let b := b ^^^ a
  let a := a ^^^ b
  (a, b)

theorem xorSwap_eq {w : Nat} (a b : BitVec w) : xorSwap a b = (b, a) := by
  have h2 : b ^^^ (a ^^^ b) = a := by
    rw [BitVec.xor_comm a b, ← BitVec.xor_assoc, BitVec.xor_self, BitVec.zero_xor]
  have h1 : (a ^^^ b) ^^^ a = b := by
    rw [BitVec.xor_comm a b, BitVec.xor_assoc, BitVec.xor_self, BitVec.xor_zero]
  simp [xorSwap, h1, h2]

/-- The `while (b)` loop of `pyc_gcd`: pyc_math_c.c:26-33.  `a %= b` is the machine signed
remainder.  The definition is accepted for all words: the termination proof is part of C03. -/
def gcdLoop {w : Nat} (a b : BitVec w) : BitVec w :=
  if _h : b = 0#w then a
  else
    let a' := a.srem b
    let p := xorSwap a' b
    gcdLoop p.1 p.2
termination_by b.toInt.natAbs
decreasing_by
  rw [xorSwap_eq]
  simp only [BitVec.toInt_srem]
  have hb : b.toInt ≠ 0 := by
    intro h0
    apply _h
    apply BitVec.eq_of_toInt_eq
    simpa using h0
  have h2 : (a.toInt.tmod b.toInt).natAbs = a.toInt.natAbs % b.toInt.natAbs := Int.natAbs_tmod ..
  rw [h2]
  exact Nat.mod_lt _ (by omega)

/-- `pyc_gcd`: pyc_math_c.c:22-35 (`w = 64`). -/
def pycGcd {w : Nat} (a b : BitVec w) : BitVec w := gcdLoop (absBV a) (absBV b)

/-- The `do while (y > 0)` loop of the Fortran `pyc_gcd_4` / `pyc_gcd_8`:
pyc_math_f90.F90:141-146, 162-167. -/
def gcdLoopF {w : Nat} (x y : BitVec w) : BitVec w :=
  if _h : BitVec.slt 0#w y then
    let x' := x.srem y
    let p := xorSwap x' y
    gcdLoopF p.1 p.2
  else x
termination_by y.toInt.natAbs
decreasing_by
  rw [xorSwap_eq]
  simp only [BitVec.toInt_srem]
  have hb : y.toInt ≠ 0 := by
    simp [BitVec.slt] at _h
    omega
  have h2 : (x.toInt.tmod y.toInt).natAbs = x.toInt.natAbs % y.toInt.natAbs := Int.natAbs_tmod ..
  rw [h2]
  exact Nat.mod_lt _ (by omega)

/-- Fortran `pyc_gcd_4` / `pyc_gcd_8`: pyc_math_f90.F90:131-171. -/
def fGcd {w : Nat} (a b : BitVec w) : BitVec w := gcdLoopF (absBV a) (absBV b)

/-- `pyc_lcm`: pyc_math_c.c:37-42. `none` is the division by zero / overflow (undefined). -/
def pycLcm (a b : BitVec 64) : Option Int := do
  let a := absBV a
  let b := absBV b
  let q ← cdiv 64 a.toInt (pycGcd a b).toInt
  chk 64 (q * b.toInt)

/-- `for (int64_t i = 2; i <= n; i++) res *= i;` : pyc_math_c.c:17-18. -/
def factLoop (n i res : Int) : Option Int :=
  if i ≤ n then do
    let res ← chk 64 (res * i)
    factLoop n (i + 1) res
  else some res
termination_by (n + 1 - i).toNat
decreasing_by omega

/-- `pyc_factorial`: pyc_math_c.c:10-20. -/
def pycFactorial (n : Int) : Option Int :=
  if n < 0 then some 0 else factLoop n 2 1

/-- Fortran `pyc_factorial_8`: pyc_math_f90.F90:115-128 (no test for negative values). -/
def fFactorial (n : Int) : Option Int := factLoop n 2 1

/-- `for (int i = 0; i < -ndigits; ++i) mul_fact *= 10;` : pyc_math_c.c:73-75. -/
def pow10 : Nat → Option Int
  | 0 => some 1
  | k + 1 => do let m ← pow10 k; chk 64 (m * 10)

/-- `copysign(h, arg)` for an integer `h ≥ 0` exactly representable as a double and an
integer `arg` (converted to double: zero is `+0.0`): pyc_math_c.c:77, `sign` in Fortran. -/
def copysignInt (h arg : Int) : Int := if arg < 0 then -h else h

/-- C `ipyc_bankers_round`: pyc_math_c.c:65-89.  `val & 1` on `int64_t` is the parity. -/
def ipycBankersRound (arg ndigits : Int) : Option Int :=
  if ndigits ≥ 0 then some arg
  else do
    let mul ← pow10 (-ndigits).toNat
    let five ← chk 64 (5 * mul)
    let half ← cdiv 64 five 10
    let pivot := copysignInt half arg
    let rem ← cmod 64 arg mul
    if rem = pivot then do
      let d ← chk 64 (mul - rem)
      let val ← cdiv 64 d mul
      let s ← chk 64 (val + val % 2)
      chk 64 (s * mul)
    else do
      let s ← chk 64 (arg + pivot)
      let q ← cdiv 64 s mul
      chk 64 (q * mul)

/-- Fortran `pyc_bankers_round_int`: pyc_math_f90.F90:378-405 (`modulo` instead of `%`). -/
def fBankersRound (arg ndigits : Int) : Option Int :=
  if ndigits ≥ 0 then some arg
  else do
    let mul ← pow10 (-ndigits).toNat
    let h ← pow10 (-ndigits - 1).toNat
    let five ← chk 64 (5 * h)
    let pivot := copysignInt five arg
    let rem ← fModulo arg mul
    if rem = pivot then do
      let d ← chk 64 (mul - rem)
      let val ← cdiv 64 d mul
      let s ← chk 64 (val + val % 2)
      chk 64 (s * mul)
    else do
      let s ← chk 64 (arg + pivot)
      let q ← cdiv 64 s mul
      chk 64 (q * mul)

/-- `py_sign_type_T` on integers: pyc_math_c.h:164-167. -/
def pySign (x : Int) : Int := (if x > 0 then 1 else 0) - (if x < 0 then 1 else 0)

end Verif.IntMath
