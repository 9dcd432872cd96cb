import Verif.Repeats.Lemmas

/-!
# Concatenation and repetition: the properties
-/

namespace Verif.Repeats
open Spec Model

/-- C149: sums and repetitions of tuples, nested in any way, have Python's elements, if no number of
repetitions is negative. -/
theorem C149_elements_partial {α : Type} (e : Expr α) (h : NonNeg e) : run e = .ok (py e) :=
  run_eq e h

/-- C149: the length is Python's, under the same condition. -/
theorem C149_length_partial {α : Type} (e : Expr α) (h : NonNeg e) : shape e = (py e).length :=
  shape_eq e h

/-- C149, a repetition of a variable that is not empty: defined if and only if the number is not
negative. -/
theorem C149_repeat_iff {α : Type} (l : List α) (hl : l ≠ []) (n : Int) (lit : Bool) :
    run (.rep (.elems l) n lit) = .ok (py (.rep (.elems l) n lit)) ↔ 0 ≤ n := by
  constructor
  · intro h
    apply Decidable.byContradiction
    intro hn
    have hl : 0 < (l.length : Int) := by
      have := List.length_pos_iff.2 hl
      omega
    have : shape (.rep (.elems l) n lit) < 0 := by
      simp only [shape]
      exact Int.mul_neg_of_pos_of_neg hl (by omega)
    simp only [run, if_pos this] at h
    cases h
  · intro h
    exact run_eq _ ⟨trivial, h⟩

/-- Hypotheses of C149: `((1, 2) + (3,)) * 2 + (4,) * 0`. -/
example : NonNeg (Expr.cat (.rep (.cat (.elems [1, 2]) (.elems [3])) 2 true) (.rep (.elems [4]) 0 false)) ∧
    py (Expr.cat (.rep (.cat (.elems [1, 2]) (.elems [3])) 2 true) (.rep (.elems [4]) 0 false)) =
      [1, 2, 3, 1, 2, 3] ∧
    run (Expr.cat (.rep (.cat (.elems [1, 2]) (.elems [3])) 2 true) (.rep (.elems [4]) 0 false)) =
      .ok [1, 2, 3, 1, 2, 3] := by
  refine ⟨?_, by decide, by decide⟩
  simp [NonNeg]

/-- C149 fails: a tuple times -1 is empty in Python; generated code allocates a negative number of
elements. -/
theorem C149_violated :
    py (Expr.rep (.elems [1, 2]) (-1) false) = [] ∧ run (Expr.rep (.elems [1, 2]) (-1) false) = .ub := by
  decide

/-- C149 fails: in `(1, 2) * -1 + (3, 4, 5)` the length of the sum is 1 instead of 3, and the elements
are stored before the beginning of the target. -/
theorem C149_violated_sum :
    py (Expr.cat (.rep (.elems [1, 2]) (-1) false) (.elems [3, 4, 5])) = [3, 4, 5] ∧
    shape (Expr.cat (.rep (.elems [1, 2]) (-1) false) (.elems [3, 4, 5])) = 1 ∧
    run (Expr.cat (.rep (.elems [1, 2]) (-1) false) (.elems [3, 4, 5])) = .ub := by
  decide

end Verif.Repeats
