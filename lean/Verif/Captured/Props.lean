import Verif.Captured.Lemmas

/-!
# C200: a number captured from around a function has its value in every expression
-/

namespace Verif.Captured
open Verif.Exprs Spec Model

/-- C: the text is an expression, C reads it in exactly one way, and that is the user's expression with the numbers in place
of their names — for the nestings of C20, unless a minus sign stands directly in front of the name of a negative float.
Missing: those, where the claim is false (below). -/
theorem C200_c_partial (ints floats : Nat → Bool) (hd : ∀ n, ints n = true → floats n = false) (s : Src)
    (hs : s.norm.CSafe) (hn : NoSign floats s) :
    ∃ t, ReadsC (textC ints floats s) t ∧ (∀ u, ReadsC (textC ints floats s) u → u = t) ∧
      t.strip = (withValues (fun n => ints n || floats n) s).norm.toC := by
  have hsafe : (withValues ints s).norm.CSafe := by rw [norm_withValues]; exact csafe_withValues _ _ hs
  have hno : NoSign floats (withValues ints s) := by
    clear hs hsafe
    induction s with
    | atom n t =>
      by_cases hi : ints n = true
      · simp only [withValues, hi, if_true]
        refine ⟨trivial, fun m t' _ e => ?_⟩
        injection e with e1 _
        rw [← e1]; exact hd n hi
      · simp [withValues, hi, NoSign]
    | un o a ih =>
      refine ⟨ih hn.1, fun n t ho e => ?_⟩
      cases a with
      | atom m t' =>
        by_cases hi : ints m = true
        · simp [withValues, hi] at e
        · simp only [withValues, hi, if_false, Bool.false_eq_true] at e
          exact hn.2 n t ho e
      | un => cases e
      | bin => cases e
      | ite => cases e
    | bin o a b ha hb => exact ⟨ha hn.1, hb hn.2⟩
    | ite c t f h1 h2 h3 => exact ⟨h1 hn.1, h2 hn.2.1, h3 hn.2.2⟩
  have hp : Parses cLang (textC ints floats s) (inTree .sub floats (cstC (build (withValues ints s)))) := by
    refine ⟨?_, ?_⟩
    · rw [flatten_inTree, flatten_cstC, textC, withInts_eq]
    · refine deriv_inTree _ _ 0 (by decide) ?_
      rw [← build_norm]
      exact okC_build _ (norm_normal _) hsafe
  refine ⟨_, ⟨hp, apart_cstC (plain_build hno)⟩, fun u hu => parses_unique cLang_ok hu.1 hp, ?_⟩
  rw [strip_inTree, ← build_norm, strip_cstC_build _ (norm_normal _), ← toC_withValues, ← norm_withValues,
    withValues_twice hd]

/-- `-k * x ** 3 - x` with a negative integer `k` and a negative float `x`. -/
example : (Src.bin .sub (.bin .mul (.un .neg (.atom 0 .int)) (.bin .pow (.atom 1 .float) (.atom 2 .int)))
      (.atom 1 .float)).norm.CSafe ∧
    NoSign (· == 1) (Src.bin .sub (.bin .mul (.un .neg (.atom 0 .int)) (.bin .pow (.atom 1 .float) (.atom 2 .int)))
      (.atom 1 .float)) := by
  simp [Src.norm, Src.CSafe, NoSign]

/-- Fortran: the text is an expression, Fortran reads it in exactly one way, and that is the user's expression with the
numbers in place of their names — for the nestings of C21, and if no captured float is negative.  Missing: negative floats,
where the claim is false (below). -/
theorem C200_fortran_partial (ints : Nat → Bool) (s : Src) (hs : s.norm.FSafe) :
    ∃ t, Parses fLang (textF ints (fun _ => false) s) t ∧
      (∀ u, Parses fLang (textF ints (fun _ => false) s) u → u = t) ∧ t.strip = (withValues ints s).norm.toF := by
  have he : ∀ ts : List (Tok FSym FFn), withFloats .sub (fun _ => false) ts = ts := by
    intro ts
    induction ts with
    | nil => rfl
    | cons x ts ih =>
      simp only [withFloats, List.flatMap_cons] at ih ⊢
      rw [ih]
      split <;> rfl
  rw [textF, he, withInts_eq]
  refine C21_round_trip_partial _ ?_
  rw [norm_withValues]
  exact fsafe_withValues _ _ hs

/-- `k ** n * a < -k` with a negative integer `k`. -/
example : (Src.bin (.cmp .lt) (.bin .mul (.bin .pow (.atom 0 .int) (.atom 1 .int)) (.atom 2 .int))
    (.un .neg (.atom 0 .int))).norm.FSafe := by
  simp [Src.norm, Src.FSafe, Src.ty, Src.isEquiv, Src.isEqv, Src.isBit, Src.isBor, Src.isBand, Src.isBxor, Cmp.isEq]

/-- C200 fails: with `x = -0.5`, `x ** n` is printed in Fortran as `-0.5_f64 ** n`, which is `-(0.5 ** n)`: for every even
`n` the result has the wrong sign. -/
theorem C200_fortran_power_violated :
    ∃ t, Parses fLang (textF (fun _ => false) (· == 0) (.bin .pow (.atom 0 .float) (.atom 1 .int))) t ∧
      t = .un .sub (.bin .pow (.atom (.var 0)) (.atom (.var 1))) ∧
      t.strip ≠ (withValues (· == 0) (.bin .pow (.atom 0 .float) (.atom 1 .int))).norm.toF :=
  ⟨.un .sub (.bin .pow (.atom (.var 0)) (.atom (.var 1))),
    ⟨by decide, ⟨_, rfl, by decide, ⟨_, rfl, by decide, trivial, trivial⟩⟩⟩, rfl, by decide⟩

/-- C200 fails: with `x = -0.5`, `a * x` is printed in Fortran as `a * -0.5_f64`, and `a + x` as `a + -0.5_f64`: two
operators in a row are not Fortran (pyccel compiles with `-std=f2003`). -/
theorem C200_fortran_operators_violated :
    (∀ t, ¬ Parses fLang (textF (fun _ => false) (· == 1) (.bin .mul (.atom 0 .float) (.atom 1 .float))) t) ∧
      ∀ t, ¬ Parses fLang (textF (fun _ => false) (· == 1) (.bin .add (.atom 0 .float) (.atom 1 .float))) t :=
  ⟨not_parses fLang_ok (by decide), not_parses fLang_ok (by decide)⟩

/-- C200 fails: with `x = -0.5`, `-x` is printed in C as `--0.5`, where `--` is the decrement. -/
theorem C200_c_sign_violated :
    ∀ t, ¬ ReadsC (textC (fun _ => false) (· == 0) (.un .neg (.atom 0 .float))) t := by
  rintro t ⟨hp, ha⟩
  have h : Parses cLang (textC (fun _ => false) (· == 0) (.un .neg (.atom 0 .float)))
      (.un .sub (.un .sub (.atom (.var 0)))) :=
    ⟨by decide, ⟨_, rfl, by decide, ⟨_, rfl, by decide, trivial⟩⟩⟩
  rw [parses_unique cLang_ok hp h] at ha
  exact ha.2 ⟨rfl, _, rfl⟩

/-- The same expressions of a negative integer are read as the user's. -/
example : (∃ t, Parses fLang (textF (· == 0) (fun _ => false) (.bin .pow (.atom 0 .int) (.atom 1 .int))) t) ∧
    ∃ t, ReadsC (textC (· == 0) (fun _ => false) (.un .neg (.atom 0 .int))) t :=
  ⟨(C200_fortran_partial _ _ (by simp [Src.norm, Src.FSafe])).imp fun _ h => h.1,
    (C200_c_partial _ _ (by simp) _ (by simp [Src.norm, Src.CSafe]) (by simp [NoSign])).imp fun _ h => h.1⟩

end Verif.Captured
