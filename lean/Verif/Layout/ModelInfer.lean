import Verif.Layout.Model

/-!
# Multi-dimensional arrays: the types that are inferred
-/

namespace Verif.Layout.Model
open Spec

/-- What is known of the variables: type, and whether it is a pointer. -/
abbrev Known := Var → Option (Ty × Bool)

/-- The type of the array that a statement assigns.  `_infer_type`, `pyccel/parser/semantic.py:1063-1130`;
`NumpyTranspose`, `pyccel/ast/numpyext.py:2994-3080`; `IndexedElement`, `pyccel/ast/variable.py:798-816` -/
def valueTy (g : Known) : Op → Option Ty
  | .full _ shape o _ => some (mkTy shape.length (some o))
  | .alias _ x => (g x).map Prod.fst
  | .trans _ x =>
    (g x).map fun p => if p.1.rank < 2 then p.1 else mkTy p.1.rank (flip p.1.order)
  | .sub _ x ss =>
    match g x with
    | some p =>
      if ss.length ≤ p.1.rank ∧ 0 < subRank p.1.rank ss then
        some (mkTy (subRank p.1.rank ss) p.1.order)
      else none
    | none => none
  | _ => none

/-- `y = <view>`: a new variable gets the type of the value and is a pointer.  A variable that is a
pointer keeps its type, and the type of the value is not looked at
(`_ensure_inferred_type_matches_existing`, `pyccel/parser/semantic.py:2667-2672`).  An array that is not
a pointer cannot be set to a view (2632-2649). -/
def point (g : Known) (y : Var) (t : Option Ty) : Option Known :=
  match t with
  | none => none
  | some t =>
    match g y with
    | none => some (put g y (some (t, true)))
    | some p => if p.2 then some g else none

/-- One statement; `none` is an error.  Simplification: an array that is not a pointer is defined once
(see C84 and C110 for other definitions).  `pyccel/parser/semantic.py:2175-2547, 5003-5593` -/
def inferStep (g : Known) : Op → Option Known
  | .full x shape o v =>
    match g x, valueTy g (.full x shape o v) with
    | none, some t => some (put g x (some (t, false)))
    | _, _ => none
  | .alias y x => point g y (valueTy g (.alias y x))
  | .trans y x => point g y (valueTy g (.trans y x))
  | .sub y x ss => point g y (valueTy g (.sub y x ss))
  | .set x i _ =>
    match g x with
    | some p => if i.length = p.1.rank then some g else none
    | none => none
  | .get x i =>
    match g x with
    | some p => if i.length = p.1.rank then some g else none
    | none => none
  | .shape x k =>
    match g x with
    | some p => if k < p.1.rank then some g else none
    | none => none

/-- The statements in their order. -/
def inferAll : Known → List Op → Option Known
  | g, [] => some g
  | g, op :: ops =>
    match inferStep g op with
    | some g' => inferAll g' ops
    | none => none

/-- The types with which the code is printed: a variable has one type in the whole function. -/
def types (g : Known) : Var → Ty := fun x => ((g x).map Prod.fst).getD ⟨0, none⟩

end Verif.Layout.Model
