import Verif.Floats.Fl

/-!
# Conditions examined with SymPy: specification

Conditions over atoms (variables for pyccel, symbols for SymPy) and their values.
-/

namespace Verif.Symbols.Spec

/-- Numeric expressions over atoms. -/
inductive Arith (α : Type)
  | lit (z : ℤ)
  | atom (a : α)
  | neg (a : Arith α)
  | add (a b : Arith α)
  | sub (a b : Arith α)
  | mul (a b : Arith α)
  | div (a b : Arith α)
  | floorDiv (a b : Arith α)
  | call (a : Arith α)

inductive Rel
  | eq | ne | lt | le | gt | ge
deriving DecidableEq

/-- Conditions over atoms. -/
inductive Cond (α : Type)
  | lit (b : Bool)
  | atom (a : α)
  | rel (o : Rel) (a b : Arith α)
  | and (c d : Cond α)
  | or (c d : Cond α)
  | not (c : Cond α)

variable {α : Type}

/-- The value of an expression; `f` is the function that is called (any unary function that pyccel knows). -/
def Arith.eval (f : ℚ → Option ℚ) (env : α → ℚ) : Arith α → Option ℚ
  | .lit z => some z
  | .atom a => some (env a)
  | .neg a => (a.eval f env).map fun x => -x
  | .add a b => (a.eval f env).bind fun x => (b.eval f env).map fun y => x + y
  | .sub a b => (a.eval f env).bind fun x => (b.eval f env).map fun y => x - y
  | .mul a b => (a.eval f env).bind fun x => (b.eval f env).map fun y => x * y
  | .div a b => (a.eval f env).bind fun x => (b.eval f env).bind fun y => if y = 0 then none else some (x / y)
  | .floorDiv a b => (a.eval f env).bind fun x => (b.eval f env).bind fun y =>
    if y = 0 then none else some (⌊x / y⌋ : ℚ)
  | .call a => (a.eval f env).bind f

def Rel.test : Rel → ℚ → ℚ → Bool
  | .eq, x, y => x == y
  | .ne, x, y => x != y
  | .lt, x, y => x < y
  | .le, x, y => x ≤ y
  | .gt, x, y => y < x
  | .ge, x, y => y ≤ x

/-- The value of a condition: `and` and `or` stop as soon as the result is known. -/
def Cond.eval (f : ℚ → Option ℚ) (env : α → ℚ) : Cond α → Option Bool
  | .lit b => some b
  | .atom a => some (env a != 0)
  | .rel o a b => (a.eval f env).bind fun x => (b.eval f env).map fun y => o.test x y
  | .and c d => (c.eval f env).bind fun x => if x then d.eval f env else some false
  | .or c d => (c.eval f env).bind fun x => if x then some true else d.eval f env
  | .not c => (c.eval f env).map fun x => !x

/-- The value when the variables are floats: every operation is rounded by `r` (calls and `//` left out). -/
def Arith.feval (r : ℚ → ℚ) (env : α → ℚ) : Arith α → Option ℚ
  | .lit z => some (r z)
  | .atom a => some (env a)
  | .neg a => (a.feval r env).map fun x => -x
  | .add a b => (a.feval r env).bind fun x => (b.feval r env).map fun y => r (x + y)
  | .sub a b => (a.feval r env).bind fun x => (b.feval r env).map fun y => r (x - y)
  | .mul a b => (a.feval r env).bind fun x => (b.feval r env).map fun y => r (x * y)
  | .div a b => (a.feval r env).bind fun x => (b.feval r env).bind fun y => if y = 0 then none else some (r (x / y))
  | .floorDiv _ _ | .call _ => none

/-- A comparison of two floats. -/
def Arith.compare (r : ℚ → ℚ) (env : α → ℚ) (o : Rel) (a b : Arith α) : Option Bool :=
  (a.feval r env).bind fun x => (b.feval r env).map fun y => o.test x y

/-- The atoms of an expression. -/
def Arith.atoms : Arith α → List α
  | .lit _ => []
  | .atom a => [a]
  | .neg a | .call a => a.atoms
  | .add a b | .sub a b | .mul a b | .div a b | .floorDiv a b => a.atoms ++ b.atoms

def Cond.atoms : Cond α → List α
  | .lit _ => []
  | .atom a => [a]
  | .rel _ a b => a.atoms ++ b.atoms
  | .and c d | .or c d => c.atoms ++ d.atoms
  | .not c => c.atoms

/-- What SymPy finds out about conditions is right: where it gives a truth value, the condition has no other, whatever
the values of the symbols. -/
def Sound (f : ℚ → Option ℚ) (oracle : Cond α → Option Bool) : Prop :=
  ∀ s b, oracle s = some b → ∀ σ v, s.eval f σ = some v → v = b

end Verif.Symbols.Spec
