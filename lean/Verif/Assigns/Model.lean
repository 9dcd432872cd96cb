import Verif.Assigns.Spec

/-!
# Assignments with several targets: model

`SemanticParser._visit_Assign` for a tuple of targets with a tuple or list opposite,
`pyccel/parser/semantic.py:5064-5182`.  Left out: targets with several indices, slices and attributes,
tuples opposite a variable, function definitions inside expressions, numbers of targets and of
expressions that differ; and what the single assignments become (C13, C42, C56, C68, C69).
-/

namespace Verif.Assigns.Model
open Spec

/-- `==` between parts of the syntax tree: names and literals are compared by value
(`pyccel/ast/literals.py:73-80`), elements by their parts (`pyccel/ast/variable.py:932-936`), and
everything else by identity (`pyccel/ast/operators.py`), so that what stands at two places is never
equal. -/
def same : Ex → Ex → Bool
  | .lit z, .lit z' => z = z'
  | .var x, .var y => x = y
  | .el a i, .el b j => a = b && same i j
  | _, _ => false

/-- The target as an expression: `semantic.py:5125, 5128` -/
def expr : Target → Ex
  | .var x => .var x
  | .el a ix => .el a ix

/-- `get_attribute_nodes((PyccelSymbol, DottedName, IndexedElement))`, which does not look into the
nodes it finds: `pyccel/ast/basic.py:199-253`, `semantic.py:5070-5075, 5084-5089, 5115-5120` -/
def nodes : Ex → List Ex
  | .lit _ => []
  | .var x => [.var x]
  | .el a ix => [.el a ix]
  | .un _ e => nodes e
  | .bin _ a b => nodes a ++ nodes b

/-- `l in unsaved_vars`: `semantic.py:5125` -/
def unsaved (l : Target) (rs : List Ex) : Bool := (rs.flatMap nodes).any (same (expr l))

/-- `substitute(l, temp)`, which replaces what is equal to `l` everywhere:
`pyccel/ast/basic.py:289-384`, `semantic.py:5142-5143` -/
def subst (l : Target) (t : Name) (e : Ex) : Ex :=
  if same (expr l) e then .var t
  else match e with
    | .lit z => .lit z
    | .var x => .var x
    | .el a ix => .el a (subst l t ix)
    | .un f e => .un f (subst l t e)
    | .bin f a b => .bin f (subst l t a) (subst l t b)

/-- The substitutions that have been made in `rhs`, the last one first.  The part opposite to the present
target and the parts before are replaced as well in the code; of these only the present one is used
again.  `semantic.py:5142-5145` -/
def substs : List (Target × Name) → Ex → Ex
  | [], e => e
  | (l, t) :: σ, e => subst l t (substs σ e)

/-- `isinstance(idx, (PyccelSymbol, DottedName, Literal))`: `semantic.py:5091-5098` -/
def simple : Ex → Bool
  | .lit _ => true
  | .var _ => true
  | _ => false

/-- "Assign statement is too complex": `semantic.py:5081-5107`.  (`used_vars` and `unsaved_vars` are
the same set, so that their difference is empty.) -/
def rejected (ls : List Target) (rs : List Ex) : Bool :=
  ls.any (unsaved · rs) && ls.any fun
    | .var _ => false
    | .el _ ix => !simple ix

/-- A single assignment. -/
structure Line where
  lhs : Target
  rhs : Ex

/-- `semantic.py:5109-5151`: what is assigned to a target, the substitutions and the next temporary name
afterwards; `rs` are the expressions behind. -/
def lowerLeaf (n : Nat) (σ : List (Target × Name)) (rs : List Ex) (l : Target) (r : Ex) :
    List Line × List (Target × Name) × Nat :=
  if unsaved l (rs.map (substs σ)) then
    ([⟨.var n, expr l⟩, ⟨l, subst l n (substs σ r)⟩], (l, n) :: σ, n + 1)
  else ([⟨l, substs σ r⟩], σ, n)

mutual
/-- One target with what stands opposite; `none` stands for an error message.
`semantic.py:5109-5151` -/
def lowerA (n : Nat) (σ : List (Target × Name)) (rs : List Ex) :
    Asg → Option (List Line × List (Target × Name) × Nat)
  | .leaf l r => some (lowerLeaf n σ rs l r)
  | .node as =>
    if rejected (as.leaves.map (·.1)) ((as.leaves.map (·.2)).map (substs σ)) then none
    else (lowerAs n σ as).map fun x => (x.1, σ, x.2)
/-- The loop over the targets.  `semantic.py:5110-5151` -/
def lowerAs (n : Nat) (σ : List (Target × Name)) : Asgs → Option (List Line × Nat)
  | .nil => some ([], n)
  | .cons a as => do
    let x ← lowerA n σ (as.leaves.map (·.2)) a
    let y ← lowerAs x.2.2 x.2.1 as
    return (x.1 ++ y.1, y.2)
end

/-- `_visit_Assign`; `n` is the first temporary name.  `semantic.py:5064-5182` -/
def lower (n : Nat) (as : Asgs) : Option (List Line) :=
  if rejected (as.leaves.map (·.1)) (as.leaves.map (·.2)) then none
  else (lowerAs n [] as).map (·.1)

/-- The assignments one after the other. -/
def run (s : St) : List Line → Option St
  | [] => some s
  | c :: cs => do
    let z ← eval s c.rhs
    run (← assign s c.lhs z) cs

/-- `t₁, …, tₙ = a` for a variable `a`; `j` is the first index.  `semantic.py:5388-5400`,
`pyccel/ast/variable.py:507-521` -/
def lowerUnpack (a : Name) : Nat → List Target → List Line
  | _, [] => []
  | j, l :: ls => ⟨l, .el a (.lit j)⟩ :: lowerUnpack a (j + 1) ls

/-- `a = (e₁, …, eₙ)` where `a` is a tuple with elements of different types; `j` is the first index.
`semantic.py:5152-5173` -/
def lowerRebuild (a : Name) : Nat → List Ex → List Line
  | _, [] => []
  | j, e :: es => ⟨.el a (.lit j), e⟩ :: lowerRebuild a (j + 1) es

/-- A single target gets the value.  Several targets with `=` between them are taken for a tuple of targets,
`pyccel/parser/syntactic.py:673-689`, so that the value is unpacked, `semantic.py:5109-5151, 5360-5400`:
there has to be a number for every target.  `none` stands for an exception. -/
def lowerChain (env : Name → Option Val) (xs : List Name) (v : Val) : Option (Name → Option Val) :=
  match xs, v with
  | [x], v => some fun y => if y = x then some v else env y
  | _, .num _ => none
  | xs, .seq zs => if xs.length ≤ zs.length then some (go env xs zs) else none
where
  /-- Targets one after the other. -/
  go (env : Name → Option Val) : List Name → List Int → Name → Option Val
    | x :: xs, z :: zs => go (fun y => if y = x then some (.num z) else env y) xs zs
    | _, _ => env

end Verif.Assigns.Model
