import Verif.Sizes.Lemmas

/-!
# C203 — the size of a comprehension is the number SymPy found

For a comprehension pyccel asks SymPy for the number of elements and turns SymPy's expression into code.  The theorems
say when the number that code computes is the value of the expression.
-/

namespace Verif.Sizes.Props
open Verif.Sizes.Spec Verif.Sizes.Model Verif.Sizes.Lemmas Verif.Floats Verif.Floats.Spec

/-- C203, in exact arithmetic: if the conversion accepts an expression in which the integer variables have integer
values and the only negative exponent is `-1`, the converted expression has the value of the expression.
Missing: other negative exponents (`C203_power_violated`) and the rounding of floats (`C203_step_violated`,
`C203_floor_violated`). -/
theorem C203_exact_partial (syms : ℕ → Option Bool) (env : ℕ → ℚ) (e : Sy) (p : Py) (v : ℚ)
    (hint : ∀ x, syms x = some true → ∃ z : ℤ, env x = z)
    (hc : conv syms e = some p) (hp : e.Powers env) (hv : e.val env = some v) :
    p.mval id env = some v :=
  (conv_ok hint hc hp hv).1

example : (∃ p, conv (fun _ => some true) (floorDiv 0 1) = some p) ∧ (floorDiv 0 1).Powers (fun _ => 49) ∧
    (floorDiv 0 1).val (fun x => if x = 0 then 7 else 2) = some 3 :=
  ⟨⟨_, rfl⟩, by simp [floorDiv, Sy.Powers, Sys.Powers], by decide +kernel⟩

/-- C203, integers: the code computed from an expression made of integers and integer variables by sums, products,
`Min`, `Max` and `ceiling` gives the value of the expression, however floats are rounded. -/
theorem C203_integers (r : ℚ → ℚ) (syms : ℕ → Option Bool) (env : ℕ → ℚ) (e : Sy) (p : Py) (v : ℚ)
    (hint : ∀ x, syms x = some true → ∃ z : ℤ, env x = z)
    (hc : conv syms e = some p) (hw : e.Whole (fun x => syms x = some true)) (hv : e.val env = some v) :
    p.mval r env = some v :=
  (conv_ik hint hc hw hv).2.1 r

/-- `n * (m - 1)`: two nested loops. -/
def nested : Sy := .mul (.cons (.sym 0) (.cons (.add (.cons (.num (-1)) (.cons (.sym 1) .nil))) .nil))

example : (∃ p, conv (fun _ => some true) nested = some p) ∧ nested.Whole (fun _ => True) ∧
    nested.val (fun _ => 4) = some 12 :=
  ⟨⟨_, rfl⟩, by simp [nested, Sy.Whole, Sys.Whole], by decide +kernel⟩

/-- C203, what is accepted: expressions with known symbols, products of two factors, and sums in which only the first
term may be a negative integer.  Missing: longer products (`C203_product_violated`). -/
theorem C203_accepted_partial (syms : ℕ → Option Bool) (e : Sy)
    (h : e.Simple (fun x => (syms x).isSome = true)) : ∃ p, conv syms e = some p :=
  conv_some h

example : nested.Simple (fun x => ((fun _ => some true : ℕ → Option Bool) x).isSome = true) ∧
    (rangeSize 1 5 0).Simple (fun _ => True) ∧ (floorDiv 0 1).Simple (fun _ => True) := by
  simp [nested, rangeSize, floorDiv, Sy.Simple, Sys.Simple, Sys.NoNegative, Sy.Negative]

/-- C203, types: a size that is rounded up has an integer type, as sizes of arrays must have. -/
theorem C203_ceiling_type (syms : ℕ → Option Bool) (a : Sy) (p : Py) (h : conv syms (.ceil a) = some p) :
    p.isInt = true := by
  simp only [conv, Option.map_eq_some_iff] at h
  obtain ⟨q, _, rfl⟩ := h
  split
  · assumption
  · rfl

example : ∃ p, conv (fun _ => some true) (rangeSize 1 5 0) = some p := ⟨_, rfl⟩

/-- The code computed for `range(a, n, s)`. -/
theorem range_mval (r : ℚ → ℚ) (a s : ℤ) (env : ℕ → ℚ) (x : ℕ) :
    ∃ p, conv (fun _ => some true) (rangeSize a s x) = some p ∧
      p.mval r env = some (⌈r (r (-(a : ℚ) / s) + r (r (1 / s) * r (env x)))⌉ : ℚ) :=
  ⟨_, rfl, rfl⟩

/-- C203, steps that are powers of two: with IEEE 754's rounding the size computed for `range(a, n, 2 ** k)` is the
rounded up quotient of `n - a` by the step, for numbers below `2 ** 52`. -/
theorem C203_power_of_two_step (a n : ℤ) (k : ℕ) (x : ℕ) (env : ℕ → ℚ) (hx : env x = n)
    (ha : |a| ≤ 2 ^ 52) (hn : |n| ≤ 2 ^ 52) :
    ∃ p, conv (fun _ => some true) (rangeSize a (2 ^ k) x) = some p ∧
      p.mval fl env = some (⌈((n : ℚ) - a) / 2 ^ k⌉ : ℚ) := by
  obtain ⟨p, hp, hv⟩ := range_mval fl a (2 ^ k) env x
  refine ⟨p, hp, ?_⟩
  rw [hv, hx]
  have e (m : ℤ) : (m : ℚ) / 2 ^ k = m * 2 ^ (-(k : ℤ)) := by rw [zpow_neg, zpow_natCast, div_eq_mul_inv]
  have h1 : fl (-(a : ℚ) / ((2 ^ k : ℤ) : ℚ)) = -(a : ℚ) / 2 ^ k := by
    push_cast
    have := e (-a)
    push_cast at this
    rw [this]
    have := fl_exact (rep_scaled (m := -a) (by rw [abs_neg]; omega) (-(k : ℤ)))
    push_cast at this
    exact this
  have h2 : fl (1 / ((2 ^ k : ℤ) : ℚ)) = 1 / 2 ^ k := by
    push_cast
    have := e 1
    push_cast at this
    rw [this]
    have := fl_exact (rep_scaled (m := 1) (by norm_num) (-(k : ℤ)))
    push_cast at this
    exact this
  have h3 : fl (n : ℚ) = n := fl_exact (rep_int (by omega))
  have h4 : fl (1 / 2 ^ k * (n : ℚ)) = n / 2 ^ k := by
    rw [show 1 / 2 ^ k * (n : ℚ) = n / 2 ^ k by ring, e n]
    exact fl_exact (rep_scaled (by omega) (-(k : ℤ)))
  have h5 : fl (-(a : ℚ) / 2 ^ k + n / 2 ^ k) = ((n : ℚ) - a) / 2 ^ k := by
    rw [show -(a : ℚ) / 2 ^ k + n / 2 ^ k = ((n - a : ℤ) : ℚ) / 2 ^ k by push_cast; ring, e (n - a)]
    rw [fl_exact (rep_scaled (m := n - a) (by
      have := abs_sub n a
      omega) (-(k : ℤ)))]
    rw [← e]; push_cast; rfl
  rw [h1, h2, h3, h4, h5]

example : |(3 : ℤ)| ≤ 2 ^ 52 ∧ |(100 : ℤ)| ≤ 2 ^ 52 ∧ (⌈((100 : ℤ) - (3 : ℤ) : ℚ) / 2 ^ 3⌉ : ℚ) = 13 := by
  refine ⟨by norm_num, by norm_num, by decide +kernel⟩

/-- C203 fails: `range(1, n, 5)` with `n = 6` has one element, `[1]`, but the size `ceil(-0.2 + 0.2 * n)` is `2`. -/
theorem C203_step_violated :
    (rangeSize 1 5 0).val (fun _ => 6) = some 1 ∧
    ∃ p, conv (fun _ => some true) (rangeSize 1 5 0) = some p ∧ p.mval fl (fun _ => 6) = some 2 := by
  refine ⟨by decide +kernel, ?_⟩
  obtain ⟨p, hp, hv⟩ := range_mval fl 1 5 (fun _ => 6) 0
  refine ⟨p, hp, ?_⟩
  rw [hv]
  decide +kernel

/-- C203 fails: `range(m // n)` with `m = n = 49` has one element, but the size `floor(m * (1 / n))` is `0`. -/
theorem C203_floor_violated :
    (floorDiv 0 1).val (fun _ => 49) = some 1 ∧
    ∃ p, conv (fun _ => some true) (floorDiv 0 1) = some p ∧ p.mval fl (fun _ => 49) = some 0 := by
  refine ⟨by decide +kernel, _, rfl, ?_⟩
  decide +kernel

/-- C203 fails: `range(m // n**2)` with `m = 8` and `n = 2` has two elements, but `n**(-2)` becomes a power of integers,
which is `0` as an integer, and the size is `0` even without rounding. -/
theorem C203_power_violated :
    (floorDivSq 0 1).val (fun x => if x = 0 then 8 else 2) = some 2 ∧
    ∃ p, conv (fun _ => some true) (floorDivSq 0 1) = some p ∧
      p.mval id (fun x => if x = 0 then 8 else 2) = some 0 ∧
      p.mval fl (fun x => if x = 0 then 8 else 2) = some 0 := by
  refine ⟨by decide +kernel, _, rfl, ?_, ?_⟩ <;> decide +kernel

/-- C203 fails: a product of three or more factors is refused, so no comprehension over three independent ranges of
unknown lengths is accepted. -/
theorem C203_product_violated (syms : ℕ → Option Bool) (a b c : Sy) (l : Sys) :
    conv syms (.mul (.cons a (.cons b (.cons c l)))) = none := by
  simp only [conv, convs]
  cases conv syms a <;> cases conv syms b <;> cases conv syms c <;> cases convs syms l <;> rfl

end Verif.Sizes.Props
