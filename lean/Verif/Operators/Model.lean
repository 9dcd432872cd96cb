import Verif.Operators.Spec

/-!
# Operators on objects of classes: model of the code

`magic_method_map`, `SemanticParser._create_PyccelOperator`, `_visit_AugAssign`, `_visit_Return` and
`_visit_FunctionDefResult` (parser/semantic.py) with `ClassDef.get_method` (ast/core.py 3740-3815).
The types of the parameters are not modelled: a method that does not accept the type of its argument
is an error of the translation.
-/

namespace Verif.Operators.Model
open Spec

/-- The outcome of the translation: an accepted program with its behaviour, or an error. -/
inductive Res
  | ok (a : Act)
  | reject
  deriving DecidableEq, Repr

/-- `magic_method_map`: semantic.py 319-329. -/
def inMap : Op → Bool
  | .add | .sub | .mul | .truediv | .pow | .lshift | .rshift | .and | .or => true
  | .mod | .floordiv | .xor | .matmul => false

/-- `class_base.get_method(name)`: ast/core.py 3740-3815.  The built-in numbers have none of these
methods (ast/class_defs.py). -/
def getMethod (C : Classes) : Ty → Meth → Bool
  | .num, _ => false
  | .cls c, m => C c m

/-- `type(expr)(*visited_args)`: the constructors of the operators raise `TypeError` for objects of
classes; semantic.py 1376-1389. -/
def direct : Ty → Ty → Res
  | .num, .num => .ok .builtin
  | _, _ => .reject

/-- `_create_PyccelOperator`: semantic.py 1357-1389. -/
def bin (C : Classes) (o : Op) (a b : Ty) : Res :=
  if inMap o then
    if getMethod C a (.plain o) then .ok (.left (.plain o))
    else if getMethod C b (.refl o) then .ok (.right (.refl o))
    else direct a b
  else direct a b

/-- `_visit_AugAssign`: semantic.py 5595-5655. -/
def aug (C : Classes) (o : Op) (a b : Ty) : Res :=
  match direct a b with
  | .ok r => .ok r
  | .reject =>
    if inMap o then
      if getMethod C a (.inpl o) then .ok (.left (.inpl o))
      else if getMethod C a (.plain o) then .ok (.left (.plain o))
      else .reject
    else .reject

/-- `_visit_Return` in a method `__iop__`: semantic.py 6279-6302.  `return self` is replaced by
nothing, anything else is an error. -/
def drop {σ : Type} : Stmt σ → Option (Stmt σ)
  | .skip => some .skip
  | .act f => some (.act f)
  | .ret .self => some .skip
  | .ret .other => none
  | .seq a b =>
    match drop a, drop b with
    | some a', some b' => some (.seq a' b')
    | _, _ => none
  | .ite c a b =>
    match drop a, drop b with
    | some a', some b' => some (.ite c a' b')
    | _, _ => none
  | .loop n a =>
    match drop a with
    | some a' => some (.loop n a')
    | none => none

/-- The call `x.__iop__(y)` in generated code, which is a statement: the state afterwards.  The name
`x` denotes the same object as before (semantic.py 5638-5640). -/
def call {σ : Type} (body : Stmt σ) (s : σ) : Option (σ × Ret) :=
  match drop body with
  | some b => some ((run b s).1, .self)
  | none => none

end Verif.Operators.Model
