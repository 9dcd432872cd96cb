import Mathlib.Analysis.SpecialFunctions.Pow.Real

/-!
# Norms of vectors and matrices: what NumPy computes

`numpy.linalg.norm(x, ord)`, with exact real numbers.  From NumPy's documentation: for a vector, the
order `None` is the order 2, the order 0 is the number of elements that are not zero, and any other
order `p` is `sum(abs(x)**p)**(1./p)`.  (`inf` and `-inf` are not literals for pyccel, which rejects
them.)  For a matrix, `None` is the Frobenius norm, 1 is `max(sum(abs(x), axis=0))` and -1 is
`min(sum(abs(x), axis=0))`; 2 and -2 are singular values; any other order is an error.
-/

namespace Verif.Norm.Spec

/-- The argument `ord`: absent (or `None`), an integer literal, or a floating point literal. -/
inductive Ord
  | none
  | int (n : ℤ)
  | flt (p : ℝ)

/-- The number it stands for. -/
noncomputable def Ord.value : Ord → ℝ
  | .none => 2
  | .int n => n
  | .flt p => p

/-- The number of elements that are not zero. -/
noncomputable def nonzeros : List ℝ → ℕ
  | [] => 0
  | x :: r => (open Classical in if x = 0 then 0 else 1) + nonzeros r

/-- The norm of a vector.  With a negative order and an element 0, `abs(x)**p` is infinite, and so is
the sum; its power `1/p` is 0. -/
noncomputable def vecNorm (o : Ord) (xs : List ℝ) : ℝ :=
  open Classical in
  let p := o.value
  if p = 0 then nonzeros xs
  else if p < 0 ∧ 0 ∈ xs then 0
  else (xs.map fun x => |x| ^ p).sum ^ (1 / p)

/-- The sums of the absolute values in the columns of a matrix given as its rows, all of the same
length `n`. -/
def colSums (n : ℕ) (rows : List (List ℝ)) : List ℝ :=
  (List.range n).map fun j => (rows.map fun r => |r.getD j 0|).sum

/-- `v` is the norm of order 1 of a matrix with `n` columns: the greatest column sum. -/
def IsMatNorm1 (n : ℕ) (rows : List (List ℝ)) (v : ℝ) : Prop :=
  v ∈ colSums n rows ∧ ∀ s ∈ colSums n rows, s ≤ v

/-- The Frobenius norm of a matrix. -/
noncomputable def frobenius (rows : List (List ℝ)) : ℝ :=
  Real.sqrt (rows.map fun r => (r.map fun x => x ^ 2).sum).sum

end Verif.Norm.Spec
