import Verif.Globals.Spec
/-
Specification for C172–C173: functions that are defined inside a function.  In Python a nested function reads the variables of the function
around it, with the values that they have when it runs; what it assigns is its own.  The meaning of statements is that of
`Verif.Globals.Spec`: the variables of the outer function take the place of those of the file.
-/
namespace Verif.Nested.Spec
open Verif.Globals.Spec

/-- A function with nested functions `funcs`, called with the arguments `args`. -/
structure Nest where
  funcs : List Fun
  args : List (Name × Int)
  body : Stmt Name

/-- The parameters get their values. -/
def entry : List (Name × Int) → Stmt Name
  | [] => .skip
  | a :: r => .seq (.assign a.1 (.lit a.2)) (entry r)

/-- The outer function with its nested functions: first the parameters get their values. -/
def Nest.prog (p : Nest) : Prog := ⟨p.funcs, .seq (entry p.args) p.body, .skip⟩

/-- What the call prints in Python. -/
def pyRun (p : Nest) (fuel : Nat) : Option (List Int) := run p.prog fuel

/-- The functions that a block calls. -/
def callees {α : Type} : Stmt α → List Name
  | .skip | .assign _ _ | .ann _ _ | .print _ => []
  | .seq a b | .ite _ a b => callees a ++ callees b
  | .call _ f _ => [f]
  | .while _ b => callees b

/-- No nested function leads to itself. -/
def Acyclic (fs : List Fun) : Prop :=
  ∃ rank : Name → Nat, (∀ f ∈ fs, rank f.name < fs.length) ∧ ∀ f ∈ fs, ∀ g ∈ callees f.body, (∃ d ∈ fs, d.name = g) → rank g < rank f.name

/-- A nested function assigns a name of the outer function only where pyccel can see that the name is its own: it is a parameter, the typed result, or
it is annotated before it is used. -/
def Separate (p : Nest) : Prop := Apart p.prog

end Verif.Nested.Spec
