import Verif.Types.Spec
import Mathlib.Algebra.Order.Ring.Rat
import Mathlib.Algebra.Order.Group.Unbundled.Abs
/-
Specification for C23-C25: arithmetic and boolean expressions and their meaning in Python.
-/
namespace Verif.Simplify.Spec
open Verif.Types.Spec (Num Kind)

/-- A literal: boolean, integer (never negative: `-1` is an operator applied to `1`) or real. -/
inductive Lit
  | bool (b : Bool)
  | int (n : Nat) (t : Num)
  | real (q : Rat) (t : Num)
deriving DecidableEq, Repr

/-- Arithmetic expressions over numeric variables. -/
inductive Ex
  | lit (l : Lit)
  | var (x : Nat) (t : Num)
  | neg (a : Ex)
  | add (a b : Ex)
  | minus (a b : Ex)
  | mul (a b : Ex)
  | div (a b : Ex)
deriving DecidableEq, Repr

/-- The number a literal denotes. -/
def Lit.value : Lit → Rat
  | .bool b => if b then 1 else 0
  | .int n _ => n
  | .real q _ => q

/-- The value of an expression; `none` when Python raises `ZeroDivisionError`.  Numbers are exact:
rounding, infinities and overflow are not represented. -/
def eval (ρ : Nat → Rat) : Ex → Option Rat
  | .lit l => some l.value
  | .var x _ => some (ρ x)
  | .neg a => do pure (-(← eval ρ a))
  | .add a b => do pure ((← eval ρ a) + (← eval ρ b))
  | .minus a b => do pure ((← eval ρ a) - (← eval ρ b))
  | .mul a b => do pure ((← eval ρ a) * (← eval ρ b))
  | .div a b => do
    let x ← eval ρ a
    let y ← eval ρ b
    if y = 0 then none else pure (x / y)

/-- Boolean expressions: literals, atoms (any boolean expression; evaluating one may raise),
comparisons of two arithmetic expressions, and the three boolean operators. -/
inductive BEx
  | lit (b : Bool)
  | atom (x : Nat)
  | eq (a b : Ex)
  | ne (a b : Ex)
  | gt (a b : Ex)
  | not (a : BEx)
  | and (l : List BEx)
  | or (l : List BEx)

/-- The truth value; `none` when Python raises.  `and`, `or` evaluate from left to right and stop
at the first operand that decides. -/
def beval (ρ : Nat → Rat) (α : Nat → Option Bool) : BEx → Option Bool
  | .lit b => some b
  | .atom x => α x
  | .eq a b => do pure (decide ((← eval ρ a) = (← eval ρ b)))
  | .ne a b => do pure (decide ((← eval ρ a) ≠ (← eval ρ b)))
  | .gt a b => do pure (decide ((← eval ρ a) > (← eval ρ b)))
  | .not a => do pure (!(← beval ρ α a))
  | .and l => bevalAnd ρ α l
  | .or l => bevalOr ρ α l
where
  bevalAnd (ρ : Nat → Rat) (α : Nat → Option Bool) : List BEx → Option Bool
    | [] => some true
    | a :: l => do if ← beval ρ α a then bevalAnd ρ α l else pure false
  bevalOr (ρ : Nat → Rat) (α : Nat → Option Bool) : List BEx → Option Bool
    | [] => some false
    | a :: l => do if ← beval ρ α a then pure true else bevalOr ρ α l

/-- The rationals representable with 53 significant bits (`m * 2^e`, `e` of either sign). -/
def Float53 (q : Rat) : Prop :=
  ∃ (m : Int) (e : Nat), m.natAbs < 2 ^ 53 ∧ (q = m * 2 ^ e ∨ q * 2 ^ e = m)

/-- A rounding function to such numbers: representable, and at least as near as any other one
(ties may be broken in any way). -/
def IsRounding (rnd : Rat → Rat) : Prop :=
  ∀ x, Float53 (rnd x) ∧ ∀ y, Float53 y → |rnd x - x| ≤ |y - x|

end Verif.Simplify.Spec
