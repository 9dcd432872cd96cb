import Verif.Finals.Spec

/-!
# Variables marked as `Final`: what pyccel checks
-/

namespace Verif.Finals.Model
open Verif.Finals.Spec

/-- What is known of a variable: its type, and whether it is a pointer (`is_alias`). -/
structure Var where
  ty : Ty
  alias : Bool
  deriving DecidableEq, Repr

/-- The type of subscripts (`IndexedElement`): the element type of the array if nothing is left; the
type of the array if all dimensions are left; otherwise `switch_rank`, which makes a type that is not
marked (`NumpyNDArrayType.get_new`).
`pyccel/ast/variable.py:798-816`, `pyccel/ast/numpytypes.py:437-441` -/
def indexTy (t : Ty) (ixs : List Ix) : Ty :=
  let r := ixs.count .slice + (t.rank - ixs.length)
  if r = 0 then ⟨false, 0⟩ else if r ≠ t.rank then ⟨false, r⟩ else t

/-- The types of expressions; `none`: an unknown name or too many subscripts.  Unary operators have the
type of their operand, a sum of arrays gets a type that is not marked.  Simplification: a sum of numbers
is not marked either, which makes no difference because `infer` removes the mark of numbers.
`pyccel/ast/operators.py:314-332, 557-591`, `pyccel/ast/numpytypes.py:347-369`,
`pyccel/ast/variable.py:683-685` -/
def exprTy (Γ : Name → Option Var) : Expr → Option Ty
  | .new r => some ⟨false, r⟩
  | .var x => (Γ x).map Var.ty
  | .index x ixs =>
    match Γ x with
    | some v => if ixs ≠ [] ∧ ixs.length ≤ v.ty.rank then some (indexTy v.ty ixs) else none
    | none => none
  | .neg e => exprTy Γ e
  | .add a b =>
    match exprTy Γ a, exprTy Γ b with
    | some s, some t => some ⟨false, max s.rank t.rank⟩
    | _, _ => none

/-- `_infer_type`: the type for a new variable; the mark of numbers is removed.
`pyccel/parser/semantic.py:1088-1092` -/
def infer (t : Ty) : Ty := if t.rank = 0 then ⟨false, 0⟩ else t

/-- Assigned with a pointer: an array variable or subscripts of one.
`pyccel/parser/semantic.py:2154-2165` -/
def isView : Expr → Bool
  | .var _ => true
  | .index _ _ => true
  | _ => false

/-- `_check_argument_compatibility`: equality of types does not see the mark (`FinalType.__eq__` is
that of the type below, and the types below compare their elements, rank and order).
`pyccel/parser/semantic.py:1606-1632`, `pyccel/ast/datatypes.py:257-258`,
`pyccel/ast/numpytypes.py:489-495` -/
def compatible (Γ : Name → Option Var) (sig : List Ty) (args : List Expr) : Bool :=
  args.length == sig.length &&
    (args.zip sig).all fun p => (exprTy Γ p.1).map Ty.rank == some p.2.rank

/-- One statement; `none`: an error is reported.

* `x = e` (`_visit_Assign`, `pyccel/parser/semantic.py:5516-5534`): an error if the type of `x` is
  marked, where a new `x` has the inferred type of `e`.  An array that is not a pointer cannot be set to
  a view (2632-2649), a pointer cannot be set to anything else, and the types are not compared for
  pointers (2667-2672).  Simplification: pointers to arrays with another number of dimensions are taken
  as rejected (the compilers do that).
* `x : t = e`: only for names without a variable (4353-4363); an array gets memory of its own, so that
  it cannot be a view (4441-4443, 2632-2649).
* `x[ixs] = e`: an error if the type of the subscripts is marked (5516-5534).
* `x op= e`, `x[ixs] op= e` (`_visit_AugAssign`, 5595-5606): likewise.
* `f(args)`: `_check_argument_compatibility`. -/
def check (sigs : List (List Ty)) (Γ : Name → Option Var) : Stmt → Option (Name → Option Var)
  | .assign x e =>
    match exprTy Γ e with
    | none => none
    | some t0 =>
      let t := infer t0
      match Γ x with
      | none => if t.final then none else some (put Γ x ⟨t, isView e && t.rank != 0⟩)
      | some v =>
        if v.ty.final then none
        else if v.ty.rank ≠ t.rank then none
        else if v.ty.rank = 0 then some Γ
        else if v.alias = isView e then some Γ else none
  | .declare x t e =>
    match Γ x, exprTy Γ e with
    | none, some te =>
      if te.rank ≠ t.rank then none
      else if t.rank ≠ 0 ∧ isView e = true then none
      else some (put Γ x ⟨t, false⟩)
    | _, _ => none
  | .store x ixs e =>
    match exprTy Γ (.index x ixs), exprTy Γ e with
    | some t, some te => if t.final then none else if te.rank ≤ t.rank then some Γ else none
    | _, _ => none
  | .aug x e =>
    match exprTy Γ (.var x), exprTy Γ e with
    | some t, some te => if t.final then none else if te.rank ≤ t.rank then some Γ else none
    | _, _ => none
  | .augAt x ixs e =>
    match exprTy Γ (.index x ixs), exprTy Γ e with
    | some t, some te => if t.final then none else if te.rank ≤ t.rank then some Γ else none
    | _, _ => none
  | .call f args =>
    match sigs[f]? with
    | some sig => if compatible Γ sig args then some Γ else none
    | none => none

/-- The statements of a body, one after the other. -/
def checkAll (sigs : List (List Ty)) : (Name → Option Var) → List Stmt → Option (Name → Option Var)
  | Γ, [] => some Γ
  | Γ, st :: sts =>
    match check sigs Γ st with
    | some Γ' => checkAll sigs Γ' sts
    | none => none

/-- The variables of the parameters; they are not pointers. -/
def params (f : Func) : Name → Option Var := fun x => (f.params[x]?).map fun t => ⟨t, false⟩

/-- The module is accepted by the semantic stage. -/
def accept (sigs : List (List Ty)) : List Func → Bool
  | [] => true
  | f :: fs => (checkAll sigs (params f) f.body).isSome && accept (sigs ++ [f.params]) fs

/-! ## The compilers -/

/-- What a Fortran compiler checks because a marked array argument is declared with `intent(in)`
and an array argument that is not marked with `intent(inout)` (a marked number with
`value, intent(in)`): such an argument and its elements are not assigned, and it is not passed to an
argument that may be written.  `ins`: the arguments with `intent(in)`.
`pyccel/codegen/printing/fcode.py:2382-2390, 2932-2941`, `pyccel/ast/core.py:1638-1650` -/
def fortran (sigs : List (List Ty)) (ins : Name → Bool) : Stmt → Bool
  | .assign x _ => !ins x
  | .declare _ _ _ => true
  | .store x _ _ => !ins x
  | .aug x _ => !ins x
  | .augAt x _ _ => !ins x
  | .call f args =>
    (args.zip ((sigs[f]?).getD [])).all fun p =>
      match p.1 with
      | .var y => !ins y || p.2.rank == 0 || p.2.final
      | .index y _ => !ins y || p.2.rank == 0 || p.2.final
      | _ => true

/-- `inout` of the argument is false and it is not a number. -/
def intentIn (f : Func) (x : Name) : Bool :=
  match f.params[x]? with
  | some t => t.final
  | none => false

/-- The Fortran code of the module compiles. -/
def compiles (sigs : List (List Ty)) : List Func → Bool
  | [] => true
  | f :: fs => f.body.all (fortran sigs (intentIn f)) && compiles (sigs ++ [f.params]) fs

end Verif.Finals.Model
