import Verif.Simplify.Lemmas
import Mathlib.Tactic.NormNum
import Mathlib.Tactic.Positivity
import Mathlib.Algebra.Order.Field.Rat
/-
Properties C23 (values of simplified arithmetic), C24 (types), C25 (boolean operators).
-/
namespace Verif.Simplify
open Verif.Simplify.Spec
open Verif.Types (addT divT precision)
open Verif.Types.Spec (Num Kind)

/-! ### C23 -/

/-- **C23** (`PyccelAdd.make_simplified`).  Whatever the argument expressions, under every
assignment of the variables the simplified sum has the exact value of the sum.  `same` is object
identity between nodes.

Missing: floating-point rounding, see `C23_rounding_violated`. -/
theorem C23_add_partial (same : Ex → Ex → Bool) (hs : ∀ a b, same a b = true → a = b)
    (ρ : Nat → Rat) (a b : Ex) (ha : Ex.Ok a) (hb : Ex.Ok b) (v : Rat)
    (h : eval ρ (.add a b) = some v) : eval ρ (addS same a b) = some v :=
  addMinus_value hs ρ a ha v b true hb h

/-- **C23** (`PyccelMinus.make_simplified`). -/
theorem C23_minus_partial (same : Ex → Ex → Bool) (hs : ∀ a b, same a b = true → a = b)
    (ρ : Nat → Rat) (a b : Ex) (ha : Ex.Ok a) (hb : Ex.Ok b) (v : Rat)
    (h : eval ρ (.minus a b) = some v) : eval ρ (minusS same a b) = some v :=
  addMinus_value hs ρ a ha v b false hb h

/-- `(x + 3) - 1` becomes `x + 2`, `x - (-1)` becomes `x + 1`, `(x - y) + y` becomes `x`. -/
example :
    minusS (fun _ _ => false) (.add (.var 0 .pint) (.lit (.int 3 .pint))) (.lit (.int 1 .pint)) =
      .add (.var 0 .pint) (.lit (.int 2 .pint)) ∧
    minusS (fun _ _ => false) (.var 0 .pint) (.neg (.lit (.int 1 .pint))) =
      .add (.var 0 .pint) (.lit (.int 1 .pint)) ∧
    addS (fun _ _ => false) (.minus (.var 0 .pint) (.var 1 .pint)) (.var 1 .pint) = .var 0 .pint := by
  decide +kernel

/-- **C23** (`PyccelMul.make_simplified`). -/
theorem C23_mul_partial (ρ : Nat → Rat) (a b : Ex) (ha : Ex.Ok a) (hb : Ex.Ok b) (v : Rat)
    (h : eval ρ (.mul a b) = some v) : eval ρ (mulS a b) = some v := by
  obtain ⟨x, y, hx, hy, rfl⟩ := eval_mul.1 h
  have hone : ∀ {a : Ex} {x : Rat}, isMinusOne a = true → eval ρ a = some x → x = -1 := by
    intro a x h1 h2
    cases a <;> simp [isMinusOne] at h1
    obtain ⟨z, hz, rfl⟩ := eval_neg.1 h2
    have := eval_eqInt (ρ := ρ) h1
    rw [hz] at this
    have : z = 1 := by simpa using this
    rw [this]
  unfold mulS
  simp only
  split
  · rename_i h0
    simp only [Bool.and_eq_true] at h0
    have := eval_eqInt (ρ := ρ) h0.1
    rw [hx] at this
    have : x = 1 := by simpa using this
    rw [hy, this, one_mul]
  split
  · rename_i h0
    simp only [Bool.and_eq_true] at h0
    have := eval_eqInt (ρ := ρ) h0.1
    rw [hy] at this
    have : y = 1 := by simpa using this
    rw [hx, this, mul_one]
  split
  · rename_i h0
    have hz : x * y = 0 := by
      simp only [Bool.or_eq_true] at h0
      rcases h0 with h0 | h0
      · have := eval_eqInt (ρ := ρ) h0
        rw [hx] at this
        have : x = 0 := by simpa using this
        rw [this, zero_mul]
      · have := eval_eqInt (ρ := ρ) h0
        rw [hy] at this
        have : y = 0 := by simpa using this
        rw [this, mul_zero]
    rw [hz]
    exact eval_toLit ρ 0 _ (sumTy_kind _ _) (fun _ => ⟨0, by simp⟩)
  split
  · rename_i h0
    simp only [Bool.and_eq_true] at h0
    exact eval_neg.2 ⟨y, hy, by rw [hone h0.1 hx]; ring⟩
  split
  · rename_i h0
    simp only [Bool.and_eq_true] at h0
    exact eval_neg.2 ⟨x, hx, by rw [hone h0.1 hy]; ring⟩
  split
  · rename_i l m hl hm
    have e1 := eval_asLit hl
    have e2 := eval_asLit hm
    subst e1; subst e2
    simp only [eval, Option.some.injEq] at hx hy
    rw [← hx, ← hy]
    exact eval_litProd ρ ha hb
  · exact h

example : mulS (.lit (.int 0 .pint)) (.var 0 .pfloat) = .lit (.real 0 .pfloat) ∧
    mulS (.neg (.lit (.int 1 .pint))) (.var 0 .pint) = .neg (.var 0 .pint) := by decide +kernel

/-- **C23** (`PyccelDiv.make_simplified`); no division by zero is introduced or lost: when the
quotient has a value, simplifying succeeds and has that value. -/
theorem C23_div_partial (ρ : Nat → Rat) (a b : Ex) (v : Rat)
    (h : eval ρ (.div a b) = some v) : ∃ r, divS a b = some r ∧ eval ρ r = some v := by
  have hd : ∃ x y, eval ρ a = some x ∧ eval ρ b = some y ∧ y ≠ 0 ∧ v = x / y := by
    simp only [eval] at h
    cases hx : eval ρ a with
    | none => rw [hx] at h; cases h
    | some x =>
      cases hy : eval ρ b with
      | none => rw [hx, hy] at h; cases h
      | some y =>
        rw [hx, hy] at h
        simp only [Option.bind_eq_bind, Option.bind_some] at h
        by_cases h0 : y = 0
        · rw [if_pos h0] at h; cases h
        · rw [if_neg h0] at h; cases h; exact ⟨x, y, rfl, rfl, h0, rfl⟩
  obtain ⟨x, y, hx, hy, h0, rfl⟩ := hd
  unfold divS
  simp only
  split
  · rename_i h1
    simp only [Bool.and_eq_true] at h1
    have := eval_eqInt (ρ := ρ) h1.1
    rw [hy] at this
    have : y = 1 := by simpa using this
    exact ⟨a, rfl, by rw [hx, this, div_one]⟩
  split
  · rename_i l m hl hm
    have e1 := eval_asLit hl
    have e2 := eval_asLit hm
    subst e1; subst e2
    simp only [eval, Option.some.injEq] at hx hy
    rw [if_neg (by rw [hy]; exact h0)]
    refine ⟨_, rfl, ?_⟩
    rw [← hx, ← hy]
    rcases divTy_kind (Lit.ty l) (Lit.ty m) with hk | hk
    · exact eval_toLit ρ _ _ (by simp [ty, hk]) (by simp [ty, hk])
    · exact eval_toLit ρ _ _ (by simp [ty, hk]) (by simp [ty, hk])
  · exact ⟨_, rfl, h⟩

example : divS (.lit (.int 1 .pint)) (.lit (.int 4 .pint)) = some (.lit (.real (1 / 4) .pfloat)) := by
  decide +kernel

/-- **C23** (`PyccelGt.make_simplified`). -/
theorem C23_gt (ρ : Nat → Rat) (α : Nat → Option Bool) (a b : Ex) :
    beval ρ α (gtS a b) = beval ρ α (.gt a b) := by
  have hs : ∀ {a : Ex} {x : Rat}, signedLit a = some x → eval ρ a = some x := by
    intro a x h
    cases a with
    | lit l => simpa [signedLit, eval] using h
    | neg a =>
      cases a with
      | lit l => simpa [signedLit, eval] using h
      | _ => cases h
    | _ => cases h
  unfold gtS
  split
  · rename_i x y hx hy
    simp [beval, hs hx, hs hy]
  · rfl

/-- **C23** fails in floating-point arithmetic: with 53 significant bits, whatever the rounding to
nearest, `(a - b) + b` with `a = 1`, `b = 2^60` is 0, but `make_simplified` returns `a`, whose
value is 1. -/
theorem C23_rounding_violated (rnd : Rat → Rat) (hr : IsRounding rnd) :
    rnd (rnd (1 - 2 ^ 60) + 2 ^ 60) = 0 ∧
    addS (fun _ _ => false) (.minus (.var 0 .pfloat) (.var 1 .pfloat)) (.var 1 .pfloat) =
      .var 0 .pfloat := by
  refine ⟨?_, by decide +kernel⟩
  have h1 : rnd (1 - 2 ^ 60) = -2 ^ 60 := by
    obtain ⟨⟨m, e, hm, hq⟩, hn⟩ := hr (1 - 2 ^ 60)
    have h2 := hn (-2 ^ 60) ⟨-1, 60, by decide, .inl (by norm_num)⟩
    rw [show |(-2 ^ 60 : Rat) - (1 - 2 ^ 60)| = 1 by norm_num] at h2
    obtain ⟨h3, h4⟩ := abs_le.1 h2
    generalize rnd (1 - 2 ^ 60) = r at *
    have hmr : |(m : Rat)| < 2 ^ 53 := by
      have : (m.natAbs : Rat) < 2 ^ 53 := by exact_mod_cast hm
      rwa [Nat.cast_natAbs, Int.cast_abs] at this
    obtain ⟨hm1, hm2⟩ := abs_lt.1 hmr
    rcases hq with hq | hq
    · have he : 7 ≤ e := by
        by_contra hlt
        have : (2 : Rat) ^ e ≤ 2 ^ 6 := pow_le_pow_right₀ (by norm_num) (by omega)
        have h0 : (0 : Rat) < 2 ^ e := by positivity
        have : (m : Rat) * 2 ^ e ≥ -(2 ^ 53) * 2 ^ 6 := by nlinarith
        rw [← hq] at this
        norm_num at this h4
        linarith
      obtain ⟨k, rfl⟩ := Nat.exists_eq_add_of_le he
      have hr' : r = ((m * 2 ^ k * 128 : Int) : Rat) := by
        rw [hq]; push_cast; rw [pow_add]; ring
      rw [hr'] at h3 h4 ⊢
      have i3 : -(2 : Int) ^ 60 ≤ m * 2 ^ k * 128 := by
        have : -(2 : Rat) ^ 60 ≤ ((m * 2 ^ k * 128 : Int) : Rat) := by linarith
        exact_mod_cast this
      have i4 : m * 2 ^ k * 128 ≤ -(2 : Int) ^ 60 + 2 := by
        have : ((m * 2 ^ k * 128 : Int) : Rat) ≤ -(2 : Rat) ^ 60 + 2 := by linarith
        exact_mod_cast this
      generalize m * 2 ^ k = z at *
      have : z * 128 = -2 ^ 60 := by omega
      rw [this]; norm_num
    · exfalso
      have h0 : (1 : Rat) ≤ 2 ^ e := one_le_pow₀ (by norm_num)
      have : r ≤ -(2 ^ 59) := by norm_num at h4 ⊢; linarith
      have : r * 2 ^ e ≤ -(2 ^ 59) * 1 := by
        have a1 : r * 2 ^ e ≤ -(2 ^ 59) * 2 ^ e := by nlinarith
        have a2 : -(2 ^ 59 : Rat) * 2 ^ e ≤ -(2 ^ 59) * 1 := by nlinarith
        linarith
      rw [hq] at this
      norm_num at this hm1
      linarith
  rw [h1]
  have h5 : (-2 ^ 60 : Rat) + 2 ^ 60 = 0 := by norm_num
  rw [h5]
  have := (hr 0).2 0 ⟨0, 0, by decide, .inl (by simp)⟩
  simpa using this

/-- Not vacuous: the numbers involved are representable, and so is every small integer. -/
example : Float53 1 ∧ Float53 (2 ^ 60) :=
  ⟨⟨1, 0, by decide, .inl (by norm_num)⟩, ⟨1, 60, by decide, .inl (by norm_num)⟩⟩

/-! ### C24 -/

/-- **C24** (`PyccelAdd` and `PyccelMinus.make_simplified`).  The simplified expression has the
type of the operator (up to the equality pyccel uses between types: kind and precision).

Missing: literals of NumPy types regrouped with others, see `C24_regroup_violated`. -/
theorem C24_add_minus_partial (same : Ex → Ex → Bool) (a b : Ex) (h : RegroupPython a b) :
    tyEq (ty (addS same a b)) (ty (.add a b)) = true ∧
    tyEq (ty (minusS same a b)) (ty (.minus a b)) = true :=
  ⟨addMinus_ty same a b true h, addMinus_ty same a b false h⟩

example : RegroupPython (.var 0 .i32) (.lit (.int 1 .pint)) ∧
    RegroupPython (.add (.var 0 .pfloat) (.lit (.int 1 .pint))) (.lit (.int 1 .pint)) := by
  refine ⟨fun p l h => ?_, fun p l h => ?_⟩
  · rcases h with h | h <;> cases h
  · exact ⟨⟨rfl, rfl⟩, rfl⟩

/-- **C24** fails when literals of mixed types are regrouped: `(x + int8(1)) + float32(2)` with `x`
a Python `float` has type `float64`, its simplification `x + float32(3)` has type `float32`. -/
theorem C24_regroup_violated :
    let a := Ex.add (.var 0 .pfloat) (.lit (.int 1 .i8))
    let b := Ex.lit (.real 2 .f32)
    ty (.add a b) = .f64 ∧ ty (addS (fun _ _ => false) a b) = .f32 := by decide +kernel

/-- **C24** (`PyccelMul.make_simplified`), unless the second factor is 1 and the first one does
not already have the type of the product.

Missing: exactly that case, see `C24_mul_violated`. -/
theorem C24_mul_partial (a b : Ex)
    (h : eqInt b 1 = true → tyEq (ty a) (ty (.mul a b)) = true) :
    tyEq (ty (mulS a b)) (ty (.mul a b)) = true := by
  unfold mulS
  simp only
  split
  · rename_i h0; simp only [Bool.and_eq_true] at h0; exact h0.2
  split
  · rename_i h0; simp only [Bool.and_eq_true] at h0; exact h h0.1
  split
  · rw [ty_toLit _ _ (sumTy_kind _ _)]; exact tyEq_refl _
  split
  · rename_i h0; simp only [Bool.and_eq_true] at h0; exact h0.2
  split
  · rename_i h0; simp only [Bool.and_eq_true] at h0; exact h0.2
  split
  · rw [ty_toLit _ _ (sumTy_kind _ _)]; exact tyEq_refl _
  · exact tyEq_refl _

example : eqInt (.lit (.int 1 .pint)) 1 = true ∧
    tyEq (ty (.var 0 .pfloat)) (ty (.mul (.var 0 .pfloat) (.lit (.int 1 .pint)))) = true := by
  decide +kernel

/-- **C24** fails for `x * 1.0`: the product of any integer `x` with the literal `1.0` is
simplified to `x` itself, of an integer type, while the product is a real number. -/
theorem C24_mul_violated (x : Nat) (t : Num) (ht : t.kind = .int) :
    mulS (.var x t) (.lit (.real 1 .pfloat)) = .var x t ∧
      (ty (.mul (.var x t) (.lit (.real 1 .pfloat)))).kind = .real := by
  have h1 : tyEq (ty (.lit (.real 1 .pfloat))) (sumTy t .pfloat) = true :=
    (by decide : ∀ t : Num, t.kind = .int → tyEq .pfloat (sumTy t .pfloat) = true) t ht
  have h2 : eqInt (.lit (.real 1 .pfloat)) 1 = true := by decide +kernel
  refine ⟨?_, (by decide : ∀ t : Num, t.kind = .int → (sumTy t .pfloat).kind = .real) t ht⟩
  have e1 : eqInt (.var x t) 1 = false := rfl
  have e2 : ty (.var x t) = t := rfl
  simp only [mulS, e1, e2, h2, Bool.false_and, Bool.true_and, Bool.false_eq_true, if_false]
  exact if_pos h1

/-- **C24** (`PyccelDiv.make_simplified`). -/
theorem C24_div (a b r : Ex) (h : divS a b = some r) : tyEq (ty r) (ty (.div a b)) = true := by
  unfold divS at h
  simp only at h
  split at h
  · rename_i h0
    simp only [Bool.and_eq_true] at h0
    cases h
    exact h0.2
  split at h
  · split at h
    · cases h
    · cases h
      rw [ty_toLit _ _ (by rcases divTy_kind (ty a) (ty b) with hk | hk <;> simp [hk])]
      exact tyEq_refl _
  · cases h; exact tyEq_refl _

/-! ### C25 -/

/-- **C25** (`PyccelNot.make_simplified`). -/
theorem C25_not (ρ : Nat → Rat) (α : Nat → Option Bool) (a : BEx) :
    beval ρ α (notS a) = beval ρ α (.not a) := by
  cases a with
  | eq a b =>
    simp only [notS, beval]
    cases eval ρ a <;> cases eval ρ b <;> simp
  | ne a b =>
    simp only [notS, beval]
    cases eval ρ a <;> cases eval ρ b <;> simp
  | _ => rfl

/-- **C25** (`PyccelAnd.make_simplified`).  Whenever the conjunction has a truth value (no operand
that is reached raises), the simplified expression has the same one. -/
theorem C25_and (ρ : Nat → Rat) (α : Nat → Option Bool) (l : List BEx) (v : Bool)
    (h : beval ρ α (.and l) = some v) : beval ρ α (andS l) = some v := by
  have h' : beval.bevalAnd ρ α l = some v := by simpa [beval] using h
  unfold andS
  split
  · rename_i h0
    obtain ⟨a, ha, hf⟩ := List.any_eq_true.1 h0
    cases v with
    | false => rfl
    | true =>
      have := bevalAnd_true h' a ha
      rw [isLitB_eq hf] at this
      cases this
  split
  · rename_i h0
    have h1 := List.all_eq_true.1 h0
    cases v with
    | true => rfl
    | false =>
      exfalso
      have : beval.bevalAnd ρ α l = some true := by
        clear h h' h0
        induction l with
        | nil => rfl
        | cons a l ih =>
          have e := isLitB_eq (h1 a (by simp))
          subst e
          simpa [beval.bevalAnd, beval] using ih (by simp_all) (fun x hx => h1 x (by simp [hx]))
      rw [h'] at this
      cases this
  · rw [beval_mkAnd]
    simpa [beval, bevalAnd_filter] using h'

/-- **C25** (`PyccelOr.make_simplified`). -/
theorem C25_or (ρ : Nat → Rat) (α : Nat → Option Bool) (l : List BEx) (v : Bool)
    (h : beval ρ α (.or l) = some v) : beval ρ α (orS l) = some v := by
  have h' : beval.bevalOr ρ α l = some v := by simpa [beval] using h
  unfold orS
  split
  · rename_i h0
    obtain ⟨a, ha, hf⟩ := List.any_eq_true.1 h0
    cases v with
    | true => rfl
    | false =>
      have := bevalOr_false h' a ha
      rw [isLitB_eq hf] at this
      cases this
  split
  · rename_i h0
    have h1 := List.all_eq_true.1 h0
    cases v with
    | false => rfl
    | true =>
      exfalso
      have : beval.bevalOr ρ α l = some false := by
        clear h h' h0
        induction l with
        | nil => rfl
        | cons a l ih =>
          have e := isLitB_eq (h1 a (by simp))
          subst e
          simpa [beval.bevalOr, beval] using ih (by simp_all) (fun x hx => h1 x (by simp [hx]))
      rw [h'] at this
      cases this
  · rw [beval_mkOr]
    simpa [beval, bevalOr_filter] using h'

example : beval (fun _ => 0) (fun _ => some true) (.and [.lit true, .atom 0, .and [.atom 1, .lit false]])
    = some false := by decide

end Verif.Simplify
