/-!
# Concatenation and repetition of tuples and lists: what Python does

`x = e`, where `e` is built from variables, literals, `+` between tuples (or lists) and `*` between a
tuple (or list) and an integer.
-/

namespace Verif.Repeats.Spec

/-- The right-hand side.  A variable is given by its value. -/
inductive Expr (α : Type)
  /-- a variable or a literal, with its elements -/
  | elems (l : List α)
  /-- `a + b` -/
  | cat (a b : Expr α)
  /-- `a * n` (or `n * a`), where `n` is an integer literal if `lit` -/
  | rep (a : Expr α) (n : Int) (lit : Bool)

/-- The elements of `n` copies of a list; none for a negative number. -/
def copies {α : Type} (l : List α) (n : Int) : List α := (List.replicate n.toNat l).flatten

/-- The value in Python. -/
def py {α : Type} : Expr α → List α
  | .elems l => l
  | .cat a b => py a ++ py b
  | .rep a n _ => copies (py a) n

/-- No number of repetitions is negative. -/
def NonNeg {α : Type} : Expr α → Prop
  | .elems _ => True
  | .cat a b => NonNeg a ∧ NonNeg b
  | .rep a n _ => NonNeg a ∧ 0 ≤ n

end Verif.Repeats.Spec
