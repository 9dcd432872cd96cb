import Verif.Floats.Fl

/-!
# Sizes found with SymPy: specification

Expressions of SymPy with rational values, and their exact values.
-/

namespace Verif.Sizes.Spec

mutual
/-- An expression of SymPy: an integer, another number, a symbol, a product, a sum, a power, the functions that occur
in sizes, or anything else. -/
inductive Sy
  | num (z : ℤ)
  | rat (q : ℚ)
  | sym (x : ℕ)
  | mul (l : Sys)
  | add (l : Sys)
  | pow (b e : Sy)
  | ceil (a : Sy)
  | floor (a : Sy)
  | abs (a : Sy)
  | min (l : Sys)
  | max (l : Sys)
  | other
/-- The arguments of an expression. -/
inductive Sys
  | nil
  | cons (a : Sy) (l : Sys)
end

/-- Powers with integer exponents; `0` has no negative powers. -/
def powQ (x y : ℚ) : Option ℚ :=
  if y.den = 1 then if x = 0 ∧ y < 0 then none else some (x ^ y.num) else none

mutual
/-- The exact value of an expression, given the values of the symbols. -/
def Sy.val (env : ℕ → ℚ) : Sy → Option ℚ
  | .num z => some z
  | .rat q => some q
  | .sym x => some (env x)
  | .mul l => (l.vals env).map List.prod
  | .add l => (l.vals env).map List.sum
  | .pow b e => (b.val env).bind fun x => (e.val env).bind fun y => powQ x y
  | .ceil a => (a.val env).map fun x => (⌈x⌉ : ℚ)
  | .floor a => (a.val env).map fun x => (⌊x⌋ : ℚ)
  | .abs a => (a.val env).map fun x => |x|
  | .min l => (l.vals env).bind List.min?
  | .max l => (l.vals env).bind List.max?
  | .other => none
def Sys.vals (env : ℕ → ℚ) : Sys → Option (List ℚ)
  | .nil => some []
  | .cons a l => (a.val env).bind fun x => (l.vals env).map fun r => x :: r
end

mutual
/-- No power has a negative exponent, except for the inverses, which are written with the exponent `-1`. -/
def Sy.Powers (env : ℕ → ℚ) : Sy → Prop
  | .num _ | .rat _ | .sym _ | .other => True
  | .mul l | .add l | .min l | .max l => l.Powers env
  | .pow b e => b.Powers env ∧ e.Powers env ∧ (e = .num (-1) ∨ ∀ y, e.val env = some y → 0 ≤ y)
  | .ceil a | .floor a | .abs a => a.Powers env
def Sys.Powers (env : ℕ → ℚ) : Sys → Prop
  | .nil => True
  | .cons a l => a.Powers env ∧ l.Powers env
end

mutual
/-- Made of integers and integer variables by sums, products, `Min`, `Max` and `ceiling`. -/
def Sy.Whole (int : ℕ → Prop) : Sy → Prop
  | .num _ => True
  | .sym x => int x
  | .mul l | .add l | .min l | .max l => l.Whole int
  | .ceil a => a.Whole int
  | .rat _ | .pow _ _ | .floor _ | .abs _ | .other => False
def Sys.Whole (int : ℕ → Prop) : Sys → Prop
  | .nil => True
  | .cons a l => a.Whole int ∧ l.Whole int
end

/-- A negative integer, perhaps in `ceiling`. -/
def Sy.Negative : Sy → Prop
  | .num z => z < 0
  | .ceil a => a.Negative
  | _ => False

/-- None is a negative integer. -/
def Sys.NoNegative : Sys → Prop
  | .nil => True
  | .cons a l => ¬ a.Negative ∧ l.NoNegative

mutual
/-- The symbols are known, products have two factors, sums have several terms and at most the first of them is a negative
integer (SymPy writes the number first). -/
def Sy.Simple (known : ℕ → Prop) : Sy → Prop
  | .num _ | .rat _ => True
  | .sym x => known x
  | .mul (.cons a (.cons b .nil)) => a.Simple known ∧ b.Simple known
  | .mul _ => False
  | .add (.cons a (.cons b l)) => a.Simple known ∧ b.Simple known ∧ l.Simple known ∧ (Sys.cons b l).NoNegative
  | .add _ => False
  | .pow b e => b.Simple known ∧ e.Simple known
  | .ceil a | .floor a | .abs a => a.Simple known
  | .min _ | .max _ | .other => False
def Sys.Simple (known : ℕ → Prop) : Sys → Prop
  | .nil => True
  | .cons a l => a.Simple known ∧ l.Simple known
end

/-- `ceiling((n - a) / s)` as SymPy writes it: the factor `1 / s` is distributed, the number comes first.  It is the
number of elements of `range(a, n, s)` for `a ≤ n`. -/
def rangeSize (a s : ℤ) (n : ℕ) : Sy :=
  .ceil (.add (.cons (.rat (-(a : ℚ) / s)) (.cons (.mul (.cons (.rat (1 / s)) (.cons (.sym n) .nil))) .nil)))

/-- `floor(m / n)` as SymPy writes it: the length of `range(m // n)`. -/
def floorDiv (m n : ℕ) : Sy := .floor (.mul (.cons (.sym m) (.cons (.pow (.sym n) (.num (-1))) .nil)))

/-- `floor(m / n**2)` as SymPy writes it: the length of `range(m // n**2)`. -/
def floorDivSq (m n : ℕ) : Sy := .floor (.mul (.cons (.sym m) (.cons (.pow (.sym n) (.num (-2))) .nil)))

end Verif.Sizes.Spec
