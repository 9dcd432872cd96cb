import Verif.Captured.Spec
import Verif.Exprs.Model

/-!
# Numbers that a function given to epyccel finds around it

`pyccel/parser/semantic.py:4328-4329, 3484-3489`: the name is replaced by the node of `convert_to_literal`.
-/

namespace Verif.Captured.Model
open Verif.Exprs Verif.Captured.Spec

/-- An integer: a negative one becomes `PyccelUnarySub` of a literal, the same node as for `-x`.
`pyccel/ast/literals.py:522-526` -/
def withInts (neg : Nat → Bool) : Src → Src
  | .atom n t => if neg n then .un .neg (.atom n t) else .atom n t
  | .un o a => .un o (withInts neg a)
  | .bin o a b => .bin o (withInts neg a) (withInts neg b)
  | .ite c t f => .ite (withInts neg c) (withInts neg t) (withInts neg f)

/-- A float: a literal, also if it is negative; it has the precedence of a variable (no parentheses), and is printed with
`repr`, that is with its sign.  `pyccel/ast/literals.py:527-528`, `pyccel/codegen/printing/ccode.py:1159-1162`,
`pyccel/codegen/printing/fcode.py:4034-4036` -/
def withFloats {S F : Type} (minus : S) (neg : Nat → Bool) (ts : List (Tok S F)) : List (Tok S F) :=
  ts.flatMap fun
    | .atom (.var n) => if neg n then [.sym minus, .atom (.var n)] else [.atom (.var n)]
    | t => [t]

/-- The C text of an expression: `ints` and `floats` are the names of negative integers and floats. -/
def textC (ints floats : Nat → Bool) (s : Src) : List (Tok CSym CFn) :=
  withFloats .sub floats (printC (build (withInts ints s)))

/-- The Fortran text. -/
def textF (ints floats : Nat → Bool) (s : Src) : List (Tok FSym FFn) :=
  withFloats .sub floats (printF (build (withInts ints s)))

end Verif.Captured.Model
