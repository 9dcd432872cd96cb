import Verif.Dot.Lemmas

/-!
# Dot products and functions of complex numbers: properties
-/

namespace Verif.Dot
open Verif.Dot.Spec Verif.Dot.Model Verif.Dot.Lemmas

/-! ## C185: dot products -/

/-- C185 (C).  `x = np.vecdot(a, b)`, `x = np.matmul(a, b)` and `x = a @ b` give the product and
change nothing else, for vectors of every length, views of every stride and complex numbers,
when `x` is not an element of the vectors and its conversion can be done step by step. -/
theorem C185_c_partial (f : Fun) (conv : Num → Num) (m : Mem) (x : Place) (a b : Vec)
    (hc : Additive conv) (hlen : a.len = b.len) (ha : Apart x a) (hb : Apart x b) :
    assignC f conv m x a b = python f conv .set m x a b := by
  unfold assignC python
  have h := loop_eq f hc.2 m x a b .zero a.len ha (fun i hi => hb i (by omega))
  rw [hc.1] at h
  rw [h, zero_add']
  rfl

/-- A complex dot product with a column as the second vector meets the hypotheses. -/
example : Additive id ∧ Apart (0, 0) ⟨1, 0, 1, 3⟩ ∧ Apart (0, 0) ⟨2, 1, 4, 3⟩ ∧
    assignC .vecdot id (fun p => ⟨p.2 + 1, p.1⟩) (0, 0) ⟨1, 0, 1, 3⟩ ⟨2, 1, 4, 3⟩ (0, 0)
      = ⟨50, -6⟩ := by
  refine ⟨⟨rfl, fun _ _ => rfl⟩, fun i _ h => ?_, fun i _ h => ?_, by decide +kernel⟩ <;>
    simp [Vec.place] at h

/-- C185 (C).  A product that is an operand of an expression (`x = g(a @ b)`) is computed from
the contents before the statement, even if `x` is an element of `a` or `b`. -/
theorem C185_operand (f : Fun) (m : Mem) (tmp x : Place) (g : Num → Num) (a b : Vec)
    (hlen : a.len = b.len) (ha : Apart tmp a) (hb : Apart tmp b) (htmp : x ≠ tmp) :
    operandC f m tmp x g a b x = g (dot f m a b a.len) ∧
      ∀ q, q ≠ x → q ≠ tmp → operandC f m tmp x g a b q = m q := by
  have h := C185_c_partial f id m tmp a b ⟨rfl, fun _ _ => rfl⟩ hlen ha hb
  unfold operandC
  rw [h]
  simp only [python]
  refine ⟨by simp [store, Op.value], fun q h1 h2 => by simp [store, h1, h2]⟩

example : Apart (9, 0) ⟨1, 0, 1, 2⟩ ∧
    operandC .matmul (fun p => ⟨p.2 + 2, 0⟩) (9, 0) (1, 0) id ⟨1, 0, 1, 2⟩ ⟨1, 0, 1, 2⟩ (1, 0)
      = ⟨13, 0⟩ := by
  refine ⟨fun i _ h => ?_, by decide +kernel⟩
  simp [Vec.place] at h

/-- C185 (Fortran).  The assignments `=`, `+=` and `-=` of a dot product have Python's effect,
without exception. -/
theorem C185_fortran (f : Fun) (conv : Num → Num) (o : Op) (m : Mem) (x : Place) (a b : Vec) :
    assignF f conv o m x a b = python f conv o m x a b := by
  unfold assignF python
  simp only
  rw [sum_eq_dot]

/-- C185 (C).  What `x += a @ b` and `x -= a @ b` do, exactly, when `x` is not an element of the
vectors: the product is always added, and the old value is kept only if C happens to read it
before it is set to 0. -/
theorem C185_augmented_partial (f : Fun) (o : Op) (early : Bool) (m : Mem) (x : Place) (a b : Vec)
    (ho : o ≠ .set) (hlen : a.len = b.len) (ha : Apart x a) (hb : Apart x b) :
    augC f id o early m x a b
      = store m x ((if early then m x else .zero).add (dot f m a b a.len)) := by
  unfold augC
  have hv : ∀ old : Num, o.value old .zero = old := by
    intro old
    cases o with
    | set => exact absurd rfl ho
    | plus => exact add_zero' old
    | minus => cases old; simp [Op.value, Num.sub, Num.zero]
  simp only [hv]
  exact loop_eq f (fun _ _ => rfl) m x a b _ a.len ha (fun i hi => hb i (by omega))

/-- C185 (C).  Hence `x += a @ b` is Python's exactly if the old value is read first or is 0. -/
theorem C185_plus_iff_partial (f : Fun) (early : Bool) (m : Mem) (x : Place) (a b : Vec)
    (hlen : a.len = b.len) (ha : Apart x a) (hb : Apart x b) :
    augC f id .plus early m x a b = python f id .plus m x a b ↔ early = true ∨ m x = .zero := by
  rw [C185_augmented_partial f .plus early m x a b (by decide) hlen ha hb]
  unfold python
  cases early with
  | true => simp [Op.value]
  | false =>
    simp only [Bool.false_eq_true, if_false, false_or, Op.value, id]
    constructor
    · intro h
      have := congrFun h x
      simp only [store, if_true] at this
      have h1 := congrArg Num.re this
      have h2 := congrArg Num.im this
      simp only [Num.add, Num.zero] at h1 h2
      cases hm : m x with
      | mk r i =>
        rw [hm] at h1 h2
        simp only at h1 h2
        have e1 : r = 0 := by
          have := add_right_cancel h1
          exact this.symm
        have e2 : i = 0 := by
          have := add_right_cancel h2
          exact this.symm
        rw [e1, e2]
        rfl
    · intro h
      rw [h]

example : Apart (0, 0) ⟨1, 0, 1, 2⟩ := fun i _ h => by simp [Vec.place] at h

/-- C185 fails: `x -= a @ b` adds the product (C), whatever the order of evaluation.  Here
7 - (1·2 + 1·3) should be 2 and is 12 or 5. -/
theorem C185_minus_violated (early : Bool) :
    let m : Mem := fun p => if p = (0, 0) then ⟨7, 0⟩ else if p.1 = 1 then ⟨1, 0⟩ else ⟨p.2 + 2, 0⟩
    python .matmul id .minus m (0, 0) ⟨1, 0, 1, 2⟩ ⟨2, 0, 1, 2⟩ (0, 0) = ⟨2, 0⟩ ∧
    augC .matmul id .minus early m (0, 0) ⟨1, 0, 1, 2⟩ ⟨2, 0, 1, 2⟩ (0, 0)
      = (if early then ⟨12, 0⟩ else ⟨5, 0⟩) := by
  cases early <;> decide +kernel

/-- C185 fails: `a[0] = a @ b` sets the element to 0 before it is used (C).  Here 2·1 + 3·1
should be 5 and is 3. -/
theorem C185_alias_violated :
    let m : Mem := fun p => if p = (1, 0) then ⟨2, 0⟩ else if p = (1, 1) then ⟨3, 0⟩ else ⟨1, 0⟩
    python .matmul id .set m (1, 0) ⟨1, 0, 1, 2⟩ ⟨2, 0, 1, 2⟩ (1, 0) = ⟨5, 0⟩ ∧
    assignC .matmul id m (1, 0) ⟨1, 0, 1, 2⟩ ⟨2, 0, 1, 2⟩ (1, 0) = ⟨3, 0⟩ := by
  decide +kernel

/-- C185 fails: when the target is an element of an array of integers and the vectors contain
floats, every partial sum is truncated (C).  Here 1/2 + 1/2 should be 1 and is 0. -/
theorem C185_type_violated :
    let m : Mem := fun p => if p.1 = 1 then ⟨1 / 2, 0⟩ else ⟨1, 0⟩
    let trunc : Num → Num := fun x => ⟨x.re.floor, 0⟩
    python .matmul trunc .set m (0, 0) ⟨1, 0, 1, 2⟩ ⟨2, 0, 1, 2⟩ (0, 0) = ⟨1, 0⟩ ∧
    assignC .matmul trunc m (0, 0) ⟨1, 0, 1, 2⟩ ⟨2, 0, 1, 2⟩ (0, 0) = ⟨0, 0⟩ := by
  decide +kernel

/-! ## C186: functions of complex numbers -/

/-- C186.  `cmath.phase` of a complex number is its angle. -/
theorem C186_phase_partial (z : ℂ) : phaseC true z = phase z := by
  simp [phaseC, phase, atan2]

/-- C186.  For a number of a real type the result 0 is right exactly if the number is not
negative. -/
theorem C186_phase_real_iff_partial (x : ℝ) : phaseC false x = phase x ↔ 0 ≤ x := by
  simp only [phaseC, phase, Bool.false_eq_true, if_false]
  constructor
  · intro h
    by_contra hx
    have hx : x < 0 := not_le.1 hx
    rw [Complex.arg_ofReal_of_neg hx] at h
    exact Real.pi_ne_zero h.symm
  · intro h
    rw [Complex.arg_ofReal_of_nonneg h]

/-- C186 fails: `cmath.phase(-1.0)` is 0 instead of π. -/
theorem C186_phase_violated : phaseC false (-1) = 0 ∧ phase (-1) = Real.pi := by
  simp [phaseC, phase]

/-- C186.  `cmath.polar` gives the modulus and the angle. -/
theorem C186_polar (z : ℂ) : polarC z = polar z := by
  unfold polarC polar atan2
  simp only [Prod.mk.injEq, and_true]
  rw [Complex.norm_def, Complex.normSq_apply]

/-- C186.  `cmath.rect(r, phi)` is the number with these polar coordinates. -/
theorem C186_rect (r φ : ℝ) : rectC r φ = rect r φ := by
  unfold rectC rect
  rw [Complex.exp_mul_I]
  push_cast
  ring

/-- C186.  `cmath.rect(*cmath.polar(z))` is `z`. -/
theorem C186_roundtrip (z : ℂ) : rectC (polarC z).1 (polarC z).2 = z := by
  rw [C186_rect, C186_polar]
  exact Complex.norm_mul_exp_arg_mul_I z

/-- C186.  `math.sqrt` is the square root of its argument, also when the argument is written as
a product or a square. -/
theorem C186_sqrt (a : SqrtArg) : sqrtC a = Real.sqrt a.val := by
  cases a with
  | self x => exact (Real.sqrt_mul_self_eq_abs x).symm
  | pow x n =>
    simp only [sqrtC, SqrtArg.val]
    split
    · rename_i h
      subst h
      have : x ^ (2 : ℤ) = x ^ (2 : ℕ) := by norm_cast
      rw [this, Real.sqrt_sq_eq_abs]
    · rfl
  | other x => rfl

/-- C186.  `cmath.sqrt` is the principal square root of its argument, also when the argument is
written as a product with the conjugate. -/
theorem C186_csqrt (a : CSqrtArg) : csqrtC a = csqrt a.val := by
  have key : ∀ z : ℂ, ((‖z‖ : ℝ) : ℂ) = (z * (starRingEnd ℂ) z) ^ (1 / 2 : ℂ) := by
    intro z
    rw [Complex.mul_conj, Complex.normSq_eq_norm_sq]
    have h : (((‖z‖ ^ 2 : ℝ)) : ℂ) ^ (1 / 2 : ℂ) = (((‖z‖ ^ 2 : ℝ) ^ (1 / 2 : ℝ) : ℝ) : ℂ) := by
      rw [Complex.ofReal_cpow (by positivity)]
      norm_num
    rw [h, ← Real.sqrt_eq_rpow, Real.sqrt_sq (norm_nonneg z)]
  cases a with
  | conjLeft z =>
    simp only [csqrtC, csqrt, CSqrtArg.val]
    rw [mul_comm]
    exact key z
  | conjRight z => exact key z
  | other z => rfl

end Verif.Dot
