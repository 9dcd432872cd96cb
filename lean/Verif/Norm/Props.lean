import Verif.Norm.Lemmas

/-!
# Norms: the properties
-/

namespace Verif.Norm
open Spec Model

/-! ## C146: `numpy.linalg.norm` -/

/-- C146, C, vectors of real numbers: NumPy's value, for every order and every vector that is not
empty. -/
theorem C146_real_partial (o : Ord) (xs : List ℝ) (hne : xs ≠ []) :
    cNorm .real o xs = .fin (vecNorm o xs) :=
  cNorm_of_terms xs hne fun h0 x _ => term_real o h0 x

/-- C146, Fortran, vectors of real numbers and integers: NumPy's value, for every order and every
vector that is not empty. -/
theorem C146_fortran_partial (o : Ord) (xs : List ℝ) (hne : xs ≠ []) :
    fNorm o xs = .fin (vecNorm o xs) :=
  fNorm_eq o xs hne

/-- C146, C, vectors of integers, a positive integer order (or none): NumPy's value, if the power of
every element is a 64-bit integer. -/
theorem C146_int_partial (o : Ord) (n : ℕ) (hn : o.value = n) (hpos : 1 ≤ n) (zs : List ℤ)
    (hne : zs ≠ []) (hz : ∀ z ∈ zs, |z| ^ n < 2 ^ 63) :
    cNorm .int o (zs.map (↑)) = .fin (vecNorm o (zs.map (↑))) := by
  refine cNorm_of_terms _ (by simpa using hne) fun _ x hx => ?_
  obtain ⟨z, hzm, rfl⟩ := List.mem_map.1 hx
  exact term_int o n hn hpos z (hz z hzm)

/-- C146, C, vectors of integers, an order that is a floating point literal: NumPy's value. -/
theorem C146_int_float_partial (p : ℝ) (xs : List ℝ) (hne : xs ≠ []) :
    cNorm .int (.flt p) xs = .fin (vecNorm (.flt p) xs) :=
  cNorm_of_terms xs hne fun h0 x _ => term_flt p h0 x

/-- C146, matrices, no order: the Frobenius norm, in C (for real numbers) and Fortran. -/
theorem C146_frobenius_partial (rows : List (List ℝ)) (hne : elements rows ≠ []) :
    cNorm .real .none (elements rows) = .fin (frobenius rows) ∧
    fNorm .none (elements rows) = .fin (frobenius rows) := by
  have : vecNorm .none (elements rows) = frobenius rows := by
    rw [vecNorm_two, frobenius]
    congr 1
    induction rows with
    | nil => simp [elements]
    | cons r t ih =>
      by_cases h : elements t = []
      · simp only [elements, List.flatten_cons, List.map_append, List.sum_append, List.map_cons,
          List.sum_cons] at h ⊢
        congr 1
        rw [h]
        rw [List.flatten_eq_nil_iff] at h
        symm
        simp only [List.map_nil, List.sum_nil]
        apply List.sum_eq_zero
        intro y hy
        obtain ⟨z, hz, rfl⟩ := List.mem_map.1 hy
        simp [h z hz]
      · simp only [elements, List.flatten_cons, List.map_append, List.sum_append, List.map_cons,
          List.sum_cons] at ih h ⊢
        rw [ih h]
  rw [C146_real_partial _ _ hne, C146_fortran_partial _ _ hne, this]
  exact ⟨rfl, rfl⟩

/-- The hypotheses of C146: the vector (3, -4), of norm 5. -/
example : (∀ z ∈ [3, -4], |(z : ℤ)| ^ 2 < 2 ^ 63) ∧ Ord.none.value = ((2 : ℕ) : ℝ) ∧
    vecNorm .none ([3, -4].map ((↑) : ℤ → ℝ)) = 5 := by
  refine ⟨by decide, by norm_num [Ord.value], ?_⟩
  rw [vecNorm_two]
  simp only [List.map_cons, List.map_nil, List.sum_cons, List.sum_nil]
  push_cast
  rw [show (3 : ℝ) ^ 2 + ((-4) ^ 2 + 0) = 5 ^ 2 by norm_num]
  exact Real.sqrt_sq (by norm_num)

/-- C146 fails: the norm of an array of integers with an element of 2^32 or more has undefined
behaviour in C, because its square is converted to a 64-bit integer. -/
theorem C146_violated_overflow :
    cNorm .int .none [2 ^ 32] = .ub ∧ vecNorm .none [2 ^ 32] = 2 ^ 32 := by
  constructor
  · have h : ¬ ((2 : ℝ) ^ (32 : ℕ)) ^ (2 : ℝ) < 2 ^ (63 : ℕ) := by
      rw [show (2 : ℝ) = ((2 : ℕ) : ℝ) by norm_num, Real.rpow_natCast]
      norm_num
    have ht : cTerm .int .none (2 ^ 32) = .ub := by
      have h1 : |(2 : ℝ) ^ 32| = 2 ^ 32 := abs_of_pos (by positivity)
      simp only [cTerm, Ord.value, Ext.pow, h1]
      norm_num [Ext.cast64]
    simp only [cNorm, cSum, List.foldl_cons, List.foldl_nil, ht, Ord.value]
    norm_num [Ext.add, Ext.pow]
  · rw [vecNorm_two]
    simp only [List.map_cons, List.map_nil, List.sum_cons, List.sum_nil, add_zero]
    exact Real.sqrt_sq (by positivity)

/-- C146 fails: with a negative integer order other than -1 the powers of integers are cut to 0 in C:
the norm of order -2 of the vector (2) is infinite instead of 2. -/
theorem C146_violated_negative :
    cNorm .int (.int (-2)) [2] = .inf ∧ vecNorm (.int (-2)) [2] = 2 ∧
    fNorm (.int (-2)) [2] = .fin 2 := by
  have hp : ((2 : ℝ) ^ (-2 : ℝ)) = 1 / 4 := by
    rw [show (-2 : ℝ) = ((-2 : ℤ) : ℝ) by norm_num, Real.rpow_intCast]
    norm_num
  have hv : vecNorm (.int (-2)) [2] = 2 := by
    simp only [vecNorm, Ord.value]
    norm_num
  refine ⟨?_, hv, ?_⟩
  · have ht : cTerm .int (.int (-2)) 2 = .fin 0 := by
      have h1 : |(2 : ℝ)| = 2 := abs_of_pos (by norm_num)
      have h2 : Ext.pow (.fin 2) (-2) = .fin (1 / 4) := by
        rw [Ext.pow, if_neg (by norm_num), hp]
      have h3 : Ext.cast64 (.fin (1 / 4)) = .fin 0 := by
        norm_num [Ext.cast64]
      simp only [cTerm, Ord.value, h1]
      push_cast
      rw [h2, h3]
      norm_num
    simp only [cNorm, cSum, List.foldl_cons, List.foldl_nil, ht, Ord.value]
    norm_num [Ext.add, Ext.pow]
  · rw [C146_fortran_partial _ _ (by simp), hv]

/-- C146 fails: the norm of order 1 of the identity matrix is 1 in NumPy, the greatest sum of a
column, and 2 in C and Fortran, the sum of all elements. -/
theorem C146_violated_matrix :
    IsMatNorm1 2 [[1, 0], [0, 1]] 1 ∧
    cNorm .real (.int 1) (elements [[1, 0], [0, 1]]) = .fin 2 ∧
    fNorm (.int 1) (elements [[1, 0], [0, 1]]) = .fin 2 := by
  have hv : vecNorm (.int 1) (elements [[1, 0], [0, 1]]) = 2 := by
    simp only [vecNorm, Ord.value, elements]
    norm_num
  refine ⟨?_, ?_, ?_⟩
  · simp [IsMatNorm1, colSums, List.range_succ]
  · rw [C146_real_partial _ _ (by simp [elements]), hv]
  · rw [C146_fortran_partial _ _ (by simp [elements]), hv]

end Verif.Norm
