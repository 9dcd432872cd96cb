import Verif.Lambdify.Spec

/-!
# `pyccel.lambdify`

Not modelled: the checks of the types of the arguments, the docstring, the translation of the definition (the other areas),
other modules and functions that SymPy prints.
-/

namespace Verif.Lambdify.Model
open Verif.Lambdify.Spec

/-- `NumPyPrinter` of SymPy prints symbols that are keywords with `_`, and without braces. -/
def printName : Name → Name
  | .keyword n => .keywordBar n
  | .braces n => .noBraces n
  | n => n

/-- `NumPyPrinter().doprint(expr)`: `pyccel/commands/lambdify.py:83`. -/
def printExpr : Expr → PyExpr
  | .sym s => .name (printName s.name)
  | .const c => .const c
  | .fn f a => .call .numpy f (printExpr a)
  | .bin o a b => .bin o (printExpr a) (printExpr b)

/-- `", ".join(f'{a} : "{annot}"' …)` between the parentheses of the signature: without arguments there is an empty text.
`pyccel/commands/lambdify.py:84` -/
def argsCode (args : List (Symbol × Nat)) : List (Option (Name × Nat)) := args.map fun a => some (a.1.name, a.2)

/-- What stands before `, out : …`: `pyccel/commands/lambdify.py:105`. -/
def argsBeforeComma (args : List (Symbol × Nat)) : List (Option (Name × Nat)) :=
  if args = [] then [none] else argsCode args

/-- `lambdify`, as far as the text given to `epyccel`; `none`: `TypeError`.  `pyccel/commands/lambdify.py:83-117` -/
def lambdify (e : Expr) (args : List (Symbol × Nat)) (result : Option Nat) (useOut : Bool) : Option Def :=
  if useOut then
    match result with
    | none => none
    | some t => some ⟨argsBeforeComma args ++ [some (.out, t)], none, true, printExpr e⟩
  else some ⟨argsCode args, result, false, printExpr e⟩

end Verif.Lambdify.Model
