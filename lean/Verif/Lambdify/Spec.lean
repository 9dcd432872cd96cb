/-!
# Functions made from SymPy expressions: specification

What the expression is worth, and what Python does with the definition of a function.
-/

namespace Verif.Lambdify

/-- Names, as SymPy and Python see them: ordinary identifiers, keywords of Python (`lambda`), keywords followed by `_`, names
with braces (`x_{1}`), the same without the braces, and the two names that the generated code uses itself. -/
inductive Name
  | ident (n : Nat) | keyword (n : Nat) | keywordBar (n : Nat) | braces (n : Nat) | noBraces (n : Nat) | numpy | out
deriving DecidableEq, Repr

/-- A symbol of SymPy: symbols of one name can differ by their assumptions (`Symbol('x')`, `Symbol('x', real=True)`). -/
structure Symbol where
  name : Name
  assumptions : Nat
deriving DecidableEq, Repr

/-- Expressions of SymPy: functions of NumPy (`sin`, `exp`, …) and operators. -/
inductive Expr
  | sym (s : Symbol) | const (c : Int) | fn (f : Nat) (a : Expr) | bin (o : Nat) (a b : Expr)
deriving DecidableEq, Repr

/-- The meaning of constants, functions and operators. -/
structure Meaning (V : Type) where
  const : Int → V
  fn : Nat → V → V
  bin : Nat → V → V → V

/-- Expressions of Python. -/
inductive PyExpr
  | name (n : Name) | const (c : Int) | call (module : Name) (f : Nat) (a : PyExpr) | bin (o : Nat) (a b : PyExpr)
deriving DecidableEq, Repr

/-- The definition of a function: what stands between the commas of its parameters (a name and an annotation, or nothing), the
annotation of the result, and its only statement: `return e`, or `out[:] = e`. -/
structure Def where
  params : List (Option (Name × Nat))
  result : Option Nat
  assignsOut : Bool
  body : PyExpr
deriving DecidableEq, Repr

namespace Spec
variable {V : Type}

/-- The value of the expression. -/
def value (I : Meaning V) (ρ : Symbol → V) : Expr → V
  | .sym s => ρ s
  | .const c => I.const c
  | .fn f a => I.fn f (value I ρ a)
  | .bin o a b => I.bin o (value I ρ a) (value I ρ b)

def symbols : Expr → List Symbol
  | .sym s => [s]
  | .const _ => []
  | .fn _ a => symbols a
  | .bin _ a b => symbols a ++ symbols b

/-- What Python accepts as a name. -/
def Name.isIdentifier : Name → Bool
  | .keyword _ => false
  | .braces _ => false
  | _ => true

/-- Values of Python: numbers (and arrays), and the module `numpy`. -/
inductive Obj (V : Type)
  | num (v : V) | numpy

/-- Names are searched among the parameters, then in the module, where there is `import numpy`. -/
def lookup (env : List (Name × V)) (n : Name) : Option (Obj V) :=
  match env.find? (fun p => p.1 = n) with
  | some p => some (.num p.2)
  | none => if n = .numpy then some .numpy else none

def evalPy (I : Meaning V) (env : List (Name × V)) : PyExpr → Option V
  | .name n =>
    match lookup env n with
    | some (.num v) => some v
    | _ => none
  | .const c => some (I.const c)
  | .call m f a =>
    match lookup env m, evalPy I env a with
    | some .numpy, some v => some (I.fn f v)
    | _, _ => none
  | .bin o a b =>
    match evalPy I env a, evalPy I env b with
    | some x, some y => some (I.bin o x y)
    | _, _ => none

/-- The names of the parameters, if Python accepts the definition. -/
def Def.names (d : Def) : Option (List Name) :=
  if d.params.all (fun p => p.any fun q => Name.isIdentifier q.1) ∧ (d.params.filterMap (·.map (·.1))).Nodup
  then some (d.params.filterMap (·.map (·.1))) else none

/-- The value that a call returns, or that it writes to the argument `out`. -/
def Def.call (I : Meaning V) (d : Def) (args : List V) : Option V :=
  match Def.names d with
  | none => none
  | some ns =>
    if ns.length ≠ args.length ∨ (d.assignsOut = true ∧ .out ∉ ns) then none else evalPy I (ns.zip args) d.body

/-- Names without trouble: identifiers that the generated code does not use itself. -/
def Free (useOut : Bool) : Name → Prop
  | .keyword _ => False
  | .braces _ => False
  | .numpy => False
  | .out => useOut = false
  | _ => True

end Spec
end Verif.Lambdify
