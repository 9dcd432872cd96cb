import Verif.Floats.Spec

/-!
# Number literals: specification

Decimal numbers in a program are rational numbers `r ≥ 0`.  Left out: numbers so small that they are subnormal.
-/

namespace Verif.Literals.Spec
open Verif.Floats.Spec (Rep Nearest)

/-! ## Single precision -/

/-- Single-precision numbers: integers with 24 bits, scaled by a power of two (the range of exponents is
bounded in `SingleOf`). -/
def Single (x : ℚ) : Prop := ∃ m e : ℤ, |m| < 2 ^ 24 ∧ x = m * 2 ^ e

/-- Those of which the last of the 24 bits is zero. -/
def SingleEven (x : ℚ) : Prop := ∃ m e : ℤ, |m| < 2 ^ 23 ∧ x = m * 2 ^ e

/-- `y` is the nearest single-precision number to `x`; if there are two, the even one (IEEE 754). -/
structure NearestSingle (x y : ℚ) : Prop where
  rep : Single y
  near : ∀ z, Single z → |y - x| ≤ |z - x|
  even : ∀ z, Single z → |z - x| = |y - x| → z ≠ y → SingleEven y

/-- `x` is exactly between two neighbouring single-precision numbers. -/
def Halfway (x : ℚ) : Prop :=
  ∃ s t, Single s ∧ Single t ∧ s < t ∧ s + t = 2 * x ∧ ∀ u, Single u → ¬ (s < u ∧ u < t)

/-! ## Values -/

/-- The value of a variable: a number, an infinity (`true`: the negative one) or NaN. -/
inductive Num
  | fin (q : ℚ)
  | inf (neg : Bool)
  | nan
  deriving DecidableEq

def Num.neg : Num → Num
  | .fin q => .fin (-q)
  | .inf b => .inf (!b)
  | .nan => .nan

/-- Numbers from here on are rounded to infinity in double precision. -/
def bigDouble : ℚ := 2 ^ 1024 - 2 ^ 970

/-- Numbers from here on are rounded to infinity in single precision. -/
def bigSingle : ℚ := 2 ^ 128 - 2 ^ 103

/-- IEEE 754: `x ≥ 0` in double precision. -/
inductive Double (x : ℚ) : Num → Prop
  | fin {d : ℚ} : x < bigDouble → Nearest x d → Double x (.fin d)
  | inf : bigDouble ≤ x → Double x (.inf false)

/-- IEEE 754: `x ≥ 0` in single precision. -/
inductive SingleOf (x : ℚ) : Num → Prop
  | fin {y : ℚ} : x < bigSingle → NearestSingle x y → SingleOf x (.fin y)
  | inf : bigSingle ≤ x → SingleOf x (.inf false)

/-! ## Literals in a Python program -/

/-- A literal: an integer, a decimal number (`1.5`, `1e-3`, …), `np.float32(r)` of a decimal number, `math.inf`
and `math.nan`. -/
inductive Lit
  | int (n : ℕ)
  | float (r : ℚ)
  | float32 (r : ℚ)
  | inf
  | nan
  deriving DecidableEq

/-- The value of a literal in Python: decimal numbers are rounded to double precision, `np.float32` rounds the
result of that. -/
inductive Means : Lit → Num → Prop
  | int {n : ℕ} : Means (.int n) (.fin n)
  | float {r : ℚ} {v : Num} : Double r v → Means (.float r) v
  | float32 {r d : ℚ} {v : Num} : Double r (.fin d) → SingleOf d v → Means (.float32 r) v
  | float32Inf {r : ℚ} : Double r (.inf false) → Means (.float32 r) (.inf false)
  | inf : Means .inf (.inf false)
  | nan : Means .nan .nan

/-- The value of a literal (`neg`: with a minus before it) in Python. -/
def Python (neg : Bool) (a : Lit) (v : Num) : Prop := ∃ w, Means a w ∧ v = if neg then w.neg else w

/-- What Python promises for `repr(d)`, as a decimal number: reading it gives `d` again. -/
def ReprOk (repr : ℚ → ℚ) : Prop := ∀ d, Rep d → 0 ≤ d → 0 ≤ repr d ∧ Nearest (repr d) d

/-! ## Tests -/

inductive Test
  | isfinite | isinf | isnan
  deriving DecidableEq

/-- `np.isfinite(x)`, `np.isinf(x)` and `np.isnan(x)`. -/
def Test.holds : Test → Num → Bool
  | .isfinite, .fin _ => true
  | .isinf, .inf _ => true
  | .isnan, .nan => true
  | _, _ => false

end Verif.Literals.Spec
