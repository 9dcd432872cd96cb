/-
Specifications for C01–C07: what Python and number theory say, with no reference to the
model of the run-time library.
-/
namespace Verif.IntMath.Spec

/-- `q` is Python's `x // y` and `r` is Python's `x % y`
(language reference §6.7: `x == (x//y)*y + (x%y)`, the result of `%` has the sign of its
second operand and its absolute value is strictly smaller than that of the second operand). -/
structure IsDivMod (x y q r : Int) : Prop where
  identity : x = q * y + r
  range : (0 < y ∧ 0 ≤ r ∧ r < y) ∨ (y < 0 ∧ y < r ∧ r ≤ 0)

/-- `x` is a value of the signed two's complement integer type of `w` bits. -/
def InRange (w : Nat) (x : Int) : Prop := -(2 : Int) ^ (w - 1) ≤ x ∧ x < (2 : Int) ^ (w - 1)

instance (w : Nat) (x : Int) : Decidable (InRange w x) := by unfold InRange; infer_instance

/-- `d` is the greatest common divisor of `a` and `b` in the sense of Python's `math.gcd`:
non-negative, divides both, and every common divisor divides it. -/
structure IsGcd (a b d : Int) : Prop where
  nonneg : 0 ≤ d
  left : d ∣ a
  right : d ∣ b
  greatest : ∀ e : Int, e ∣ a → e ∣ b → e ∣ d

/-- `m` is the least common multiple in the sense of Python's `math.lcm`. -/
structure IsLcm (a b m : Int) : Prop where
  nonneg : 0 ≤ m
  left : a ∣ m
  right : b ∣ m
  least : ∀ e : Int, a ∣ e → b ∣ e → m ∣ e

/-- The factorial. -/
def fact : Nat → Nat
  | 0 => 1
  | n + 1 => (n + 1) * fact n

/-- `r` is Python's `round(x, -k)` on integers (`int.__round__`): a multiple `m` of `10^k`
at distance at most half of `10^k` from `x`, the even multiple being taken for ties. -/
structure IsRound (x : Int) (k : Nat) (r : Int) : Prop where
  mult : ∃ m : Int, r = m * 10 ^ k ∧
    (2 * (x - r) < 10 ^ k ∧ -(10 ^ k : Int) < 2 * (x - r) ∨
      ((2 * (x - r) = 10 ^ k ∨ 2 * (x - r) = -(10 ^ k : Int)) ∧ m % 2 = 0))

/-- `x` is half way between two multiples of `10^k`. -/
def Tie (x : Int) (k : Nat) : Prop := ∃ m : Int, 2 * (x - m * 10 ^ k) = 10 ^ k

end Verif.IntMath.Spec
