import Mathlib.Data.Rat.Floor
import Mathlib.Data.Int.Log
import Mathlib.Algebra.Ring.Parity

/-!
# Arithmetic on floating-point numbers: specification

Double-precision numbers as rational numbers.  The range of exponents is not bounded, so overflow and subnormal
numbers are left out, and so are infinities, NaN and the sign of zero (but see `pyMin`, where the order is arbitrary).
-/

namespace Verif.Floats.Spec

/-- Floating-point numbers: integers with 53 bits, scaled by a power of two. -/
def Rep (x : ℚ) : Prop := ∃ m e : ℤ, |m| < 2 ^ 53 ∧ x = m * 2 ^ e

/-- Those of which the last of the 53 bits is zero. -/
def RepEven (x : ℚ) : Prop := ∃ m e : ℤ, |m| < 2 ^ 52 ∧ x = m * 2 ^ e

/-- `y` is the nearest floating-point number to `x`; if there are two, the even one (IEEE 754). -/
structure Nearest (x y : ℚ) : Prop where
  rep : Rep y
  near : ∀ z, Rep z → |y - x| ≤ |z - x|
  even : ∀ z, Rep z → |z - x| = |y - x| → z ≠ y → RepEven y

/-- `k` is the nearest integer to `x`; if there are two, the even one.  This is Python's `round(x)`. -/
def RoundsTo (x : ℚ) (k : ℤ) : Prop := 2 * |x - k| ≤ 1 ∧ (2 * |x - k| = 1 → Even k)

/-- Python's `round(x, n)` for `n ≥ 0`: the nearest number with `n` decimal places (if there are two, that with an even
last digit), as a floating-point number. -/
def RoundsToDigits (x : ℚ) (n : ℕ) (y : ℚ) : Prop := ∃ k : ℤ, RoundsTo (x * 10 ^ n) k ∧ Nearest (k / 10 ^ n) y

/-- Python's `a // b` for `b ≠ 0` (which is computed with floating-point operations, but such that the result is this
integer if it has at most 52 bits). -/
def pyFloorDiv (a b : ℚ) : ℤ := ⌊a / b⌋

/-- `y` is Python's `a % b` for `b ≠ 0`: what is left over after `a // b`, rounded. -/
def IsMod (a b y : ℚ) : Prop := Nearest (a - b * pyFloorDiv a b) y

/-- `y` is Python's `a / b` for integers (also for those that are no floating-point numbers), `b ≠ 0`. -/
def IsTrueDiv (a b : ℤ) (y : ℚ) : Prop := Nearest (a / b) y

/-- The comparisons of Python. -/
inductive Cmp
  | lt | le | eq | ne | ge | gt
deriving DecidableEq

def Cmp.holds : Cmp → ℚ → ℚ → Bool
  | .lt, x, y => x < y
  | .le, x, y => x ≤ y
  | .eq, x, y => x = y
  | .ne, x, y => x ≠ y
  | .ge, x, y => y ≤ x
  | .gt, x, y => y < x

/-- Python's `min`: the first value, unless a later one is less.  `lt` may be any relation, as floating-point
numbers are not ordered if NaN is among them. -/
def pyMin {α : Type} (lt : α → α → Bool) : α → List α → α
  | a, [] => a
  | a, b :: l => pyMin lt (if lt b a then b else a) l

/-- Python's `max`: the first value, unless a later one is greater. -/
def pyMax {α : Type} (lt : α → α → Bool) : α → List α → α
  | a, [] => a
  | a, b :: l => pyMax lt (if lt a b then b else a) l

end Verif.Floats.Spec
