/-!
# Assignments with several targets: Python

`t₁, …, tₙ = e₁, …, eₙ`, where targets are variables, elements of arrays or lists, or again several
targets in parentheses with the same number of expressions opposite.  All expressions are computed
first; then the targets are assigned from left to right, and the index of a target is computed when
its turn comes.
-/

namespace Verif.Assigns.Spec

/-- Names of variables. -/
abbrev Name := Nat

/-- Expressions. -/
inductive Ex
  | lit (z : Int)
  | var (x : Name)
  | el (a : Name) (ix : Ex)
  | un (f : Int → Int) (e : Ex)
  | bin (f : Int → Int → Int) (a b : Ex)

/-- What can be assigned. -/
inductive Target
  | var (x : Name)
  | el (a : Name) (ix : Ex)

mutual
/-- A target with the expression opposite, or targets in parentheses with the expressions opposite. -/
inductive Asg
  | leaf (l : Target) (r : Ex)
  | node (as : Asgs)
/-- An assignment with several targets. -/
inductive Asgs
  | nil
  | cons (a : Asg) (as : Asgs)
end

/-- The values of the scalar variables and the contents of the arrays. -/
structure St where
  v : Name → Int
  a : Name → List Int

/-- The position an index stands for; `none`: out of range. -/
def position (n : Nat) (z : Int) : Option Nat :=
  if 0 ≤ z ∧ z < n then some z.toNat
  else if z < 0 ∧ 0 ≤ n + z then some (n + z).toNat
  else none

/-- The value of an expression; `none`: Python raises. -/
def eval (s : St) : Ex → Option Int
  | .lit z => some z
  | .var x => some (s.v x)
  | .el a ix => do
    let p ← position (s.a a).length (← eval s ix)
    (s.a a)[p]?
  | .un f e => (eval s e).map f
  | .bin f a b => do return f (← eval s a) (← eval s b)

/-- The element a target stands for. -/
def locate (s : St) (a : Name) (ix : Ex) : Option Nat := do
  position (s.a a).length (← eval s ix)

/-- An assignment of one target. -/
def assign (s : St) (l : Target) (z : Int) : Option St :=
  match l with
  | .var x => some { s with v := fun y => if y = x then z else s.v y }
  | .el a ix => do
    let p ← locate s a ix
    return { s with a := fun b => if b = a then (s.a a).set p z else s.a b }

mutual
/-- The targets and the expressions opposite, from left to right. -/
def Asg.leaves : Asg → List (Target × Ex)
  | .leaf l r => [(l, r)]
  | .node as => as.leaves
def Asgs.leaves : Asgs → List (Target × Ex)
  | .nil => []
  | .cons a as => a.leaves ++ as.leaves
end

/-- Targets one after the other. -/
def assigns (s : St) : List (Target × Int) → Option St
  | [] => some s
  | (l, z) :: ls => (assign s l z).bind fun s => assigns s ls

/-- Python. -/
def python (s : St) (as : Asgs) : Option St := do
  let zs ← as.leaves.mapM fun x => eval s x.2
  assigns s ((as.leaves.map (·.1)).zip zs)

/-! ## Conditions -/

/-- All names are under `n`. -/
def Ex.under (n : Nat) : Ex → Prop
  | .lit _ => True
  | .var x => x < n
  | .el a ix => a < n ∧ ix.under n
  | .un _ e => e.under n
  | .bin _ a b => a.under n ∧ b.under n

def Target.under (n : Nat) : Target → Prop
  | .var x => x < n
  | .el a ix => a < n ∧ ix.under n

/-- The variable `x` is used. -/
def Ex.uses (x : Name) : Ex → Prop
  | .lit _ => False
  | .var y => y = x
  | .el _ ix => ix.uses x
  | .un _ e => e.uses x
  | .bin _ a b => a.uses x ∨ b.uses x

/-- The variable `x` is used outside of indices. -/
def Ex.shows (x : Name) : Ex → Prop
  | .lit _ => False
  | .var y => y = x
  | .el _ _ => False
  | .un _ e => e.shows x
  | .bin _ a b => a.shows x ∨ b.shows x

/-- `a[ix]` is read. -/
def Reads (a : Name) (ix : Ex) : Ex → Prop
  | .lit _ => False
  | .var _ => False
  | .el b i => (b = a ∧ i = ix) ∨ Reads a ix i
  | .un _ e => Reads a ix e
  | .bin _ c d => Reads a ix c ∨ Reads a ix d

/-- `a[ix]` is read outside of other indices. -/
def Displays (a : Name) (ix : Ex) : Ex → Prop
  | .lit _ => False
  | .var _ => False
  | .el b i => b = a ∧ i = ix
  | .un _ e => Displays a ix e
  | .bin _ c d => Displays a ix c ∨ Displays a ix d

/-- Some element of `a` is read. -/
def Ex.array (a : Name) (e : Ex) : Prop := ∃ ix, Reads a ix e

/-- A literal, a variable, or an element whose index is one of these. -/
def Ex.plain : Ex → Prop
  | .lit _ => True
  | .var _ => True
  | .el _ ix => ix.plain
  | _ => False

/-- The expression reads the variable, or some element of the array. -/
def Ex.depends (e : Ex) : Target → Prop
  | .var x => e.uses x
  | .el a _ => e.array a

/-- None of these targets has an influence on the expression. -/
def Stable (ls : List Target) (e : Ex) : Prop := ∀ l ∈ ls, ¬ e.depends l

/-- A target may be assigned before the expressions `rs` are computed.  A variable: if one of them
uses it, one of them uses it outside of indices.  An element `a[ix]`: the targets `done` assigned before
do not influence `ix`; and every element of `a` that is read is `a[ix]` itself, with `ix` plain and one
of the readings outside of other indices, or is another element (in the state `s`). -/
def Safe (s : St) (done : List Target) (rs : List Ex) : Target → Prop
  | .var x => (∃ r ∈ rs, r.uses x) → ∃ r ∈ rs, r.shows x
  | .el a ix => ∀ r ∈ rs, ∀ i, Reads a i r → Stable done ix ∧
      ((i = ix ∧ ix.plain ∧ ∃ r ∈ rs, Displays a ix r) ∨
        (∀ p q, locate s a ix = some p → locate s a i = some q → p ≠ q))

/-- No target of a group in parentheses has an influence on the expressions behind the group. -/
def Apart (rs : List Ex) (ls : List Target) : Prop := ∀ r ∈ rs, Stable ls r

mutual
/-- All targets are safe, and those in parentheses have no influence on what comes behind. -/
def Asg.Good (s : St) (done : List Target) (rs : List Ex) : Asg → Prop
  | .leaf l _ => Safe s done rs l
  | .node as => Apart rs (as.leaves.map (·.1)) ∧ as.Good s done
def Asgs.Good (s : St) (done : List Target) : Asgs → Prop
  | .nil => True
  | .cons a as => a.Good s done (as.leaves.map (·.2)) ∧
      as.Good s (done ++ a.leaves.map (·.1))
end

/-! ## Tuples -/

/-- `t₁, …, tₙ = a`, where `a` is a list, a tuple or an array of `n` numbers: all of them are read first. -/
def unpack (s : St) (a : Name) (ls : List Target) : Option St :=
  if (s.a a).length = ls.length then assigns s (ls.zip (s.a a)) else none

/-- `a = (e₁, …, eₙ)`. -/
def rebuild (s : St) (a : Name) (es : List Ex) : Option St := do
  let zs ← es.mapM (eval s)
  return { s with a := fun b => if b = a then zs else s.a b }

/-- What a variable is bound to. -/
inductive Val
  | num (z : Int)
  | seq (zs : List Int)
  deriving DecidableEq

/-- `x₁ = … = xₙ = e`: every target gets the value. -/
def chain (env : Name → Option Val) (xs : List Name) (v : Val) : Name → Option Val :=
  fun y => if y ∈ xs then some v else env y

end Verif.Assigns.Spec
