import Verif.IntMath.Spec
/-
Specification for C06 and C07: the value Python gives to `x op y` on integers, as a relation,
and true division as an exact rational.
-/
namespace Verif.AugOps.Spec
open Verif.IntMath.Spec

/-- The augmented-assignment operators of pyccel whose result on integers is an integer. -/
inductive Op | add | sub | mul | floordiv | mod | bitor | bitand | lshift | rshift
deriving DecidableEq, Repr

/-- Bit `i` of the (infinite) two's complement representation of a Python integer. -/
def bit (x : Int) (i : Nat) : Bool := (x / 2 ^ i) % 2 = 1

/-- `r` is the value of Python's `x op y` on integers.  No `r` is related when Python raises
(`ZeroDivisionError`, negative shift count). -/
def PyResult : Op → Int → Int → Int → Prop
  | .add, x, y, r => r = x + y
  | .sub, x, y, r => r = x - y
  | .mul, x, y, r => r = x * y
  | .floordiv, x, y, r => ∃ m, IsDivMod x y r m
  | .mod, x, y, r => ∃ q, IsDivMod x y q r
  | .bitor, x, y, r => ∀ i, bit r i = (bit x i || bit y i)
  | .bitand, x, y, r => ∀ i, bit r i = (bit x i && bit y i)
  | .lshift, x, y, r => 0 ≤ y ∧ r = x * 2 ^ y.toNat
  | .rshift, x, y, r => 0 ≤ y ∧ r = x / 2 ^ y.toNat

end Verif.AugOps.Spec
