import Verif.Exprs.Spec

/-!
# Numbers that a function given to epyccel finds around it: specification

A name that is not defined in the function stands for a number.  `neg n`: the number of the name `n` is negative; the
atom `n` then stands for its absolute value.
-/

namespace Verif.Captured.Spec
open Verif.Exprs

/-- The expression of the user, with the numbers in place of their names. -/
def withValues (neg : Nat → Bool) : Src → Src
  | .atom n t => if neg n then .un .neg (.atom n t) else .atom n t
  | .un o a => .un o (withValues neg a)
  | .bin o a b => .bin o (withValues neg a) (withValues neg b)
  | .ite c t f => .ite (withValues neg c) (withValues neg t) (withValues neg f)

/-- In a text without spaces around signs, two minus signs in a row are one token of C (`--`): C does not read the text as
this tree. -/
def Apart : CTree → Prop
  | .atom _ => True
  | .paren t => Apart t
  | .call _ t => Apart t
  | .un s t => Apart t ∧ ¬ (s = .sub ∧ ∃ u, t = .un .sub u)
  | .bin _ a b => Apart a ∧ Apart b
  | .tern a b c => Apart a ∧ Apart b ∧ Apart c

/-- C reads the text as the tree `t`. -/
def ReadsC (ts : List (Tok CSym CFn)) (t : CTree) : Prop := Parses cLang ts t ∧ Apart t

/-- No minus sign directly in front of the name of a negative number. -/
def NoSign (neg : Nat → Bool) : Src → Prop
  | .atom _ _ => True
  | .un o a => NoSign neg a ∧ ∀ n t, o = .neg → a = .atom n t → neg n = false
  | .bin _ a b => NoSign neg a ∧ NoSign neg b
  | .ite c t f => NoSign neg c ∧ NoSign neg t ∧ NoSign neg f

end Verif.Captured.Spec
