import Verif.Exprs.LemmasBuild
import Verif.Exprs.LemmasConv
import Verif.Exprs.LemmasExactC
import Verif.Exprs.LemmasExactF
/-
Property theorems C19–C22: the text printed for an expression is an expression of the target
language, has exactly one reading, and that reading is the user's expression.
-/
namespace Verif.Exprs

/-! ### C22: parentheses -/

/-- Reading the node without its parentheses and conversions gives the user's expression, up to
the grouping of `and`s and `or`s. -/
theorem C22_erase (s : Src) : (build s).erase = s.norm := by
  rw [← build_norm]
  exact erase_build _ (norm_normal s)

/-- That regrouping never changes the value, whatever the operators mean. -/
theorem C22_value {V : Type} (I : PyInterp V) (s : Src) :
    srcEval I (build s).erase = srcEval I s := by
  rw [C22_erase, srcEval_norm]

/-- Rebuilding the nodes from their arguments, as the second stage of the translation does, inserts
no further parentheses or conversions. -/
theorem C22_rebuild (s : Src) : rebuild (build s) = build s := by
  rw [← build_norm]
  exact rebuild_build _ (norm_normal s)

/-- `(a + b) * c < f and (d or e)` gets exactly two pairs of parentheses. -/
example : build (.bin .and (.bin (.cmp .lt)
      (.bin .mul (.bin .add (.atom 0 .int) (.atom 1 .int)) (.atom 2 .int)) (.atom 5 .int))
      (.bin .or (.atom 3 .bool) (.atom 4 .bool))) =
    .bin .and (.bin (.cmp .lt)
      (.bin .mul (.paren (.bin .add (.atom 0 .int) (.atom 1 .int))) (.atom 2 .int)) (.atom 5 .int))
      (.paren (.bin .or (.atom 3 .bool) (.atom 4 .bool))) := by decide

/-! ### C19: Python -/

/-- The printed Python text is an expression, has exactly one syntax tree, and that tree has the
value of the user's expression under every meaning of the operators — provided no implicit
conversion is involved (`Uniform`), no comparison is the left operand of a comparison and no
conditional expression is the condition of another (`PySafe`).  Missing: those cases, where the
claim is false (below). -/
theorem C19_round_trip_partial (s : Src) (hu : s.Uniform) (hs : s.PySafe) :
    ∃ t, Parses pyLang (printPy (build s)) t ∧
      (∀ u, Parses pyLang (printPy (build s)) u → u = t) ∧
      ∀ (V : Type) (I : PyInterp V), pyEval I t = srcEval I s := by
  have hp : Parses pyLang (printPy (build s)) (cstPy (build s)) := by
    refine ⟨flatten_cstPy _, ?_⟩
    rw [← build_norm]
    exact okPy_build _ (norm_normal s) (norm_pySafe s hs)
  refine ⟨_, hp, fun u hu' => parses_unique pyLang_ok hu' hp, fun V I => ?_⟩
  rw [← srcEval_norm, ← build_norm]
  exact pyEval_build I _ (norm_normal s) (norm_uniform s hu) (norm_pySafe s hs)

/-- With conversions: the value of the printed Python text is that of the user's expression in which the
operands of `and` and `or` are made booleans, those of `<< >> ~` integers and those of `& | ^` integers
unless both are booleans (`convEval`), whatever the operators and the conversions mean.  So the text has
the value of the user's expression wherever these conversions make no difference.  Missing: as above. -/
theorem C19_converted_partial (s : Src) (hs : s.PySafe) :
    ∃ t, Parses pyLang (printPy (build s)) t ∧
      (∀ u, Parses pyLang (printPy (build s)) u → u = t) ∧
      ∀ (V : Type) (I : PyInterp V), pyEval I t = convEval I s := by
  have hp : Parses pyLang (printPy (build s)) (cstPy (build s)) := by
    refine ⟨flatten_cstPy _, ?_⟩
    rw [← build_norm]
    exact okPy_build _ (norm_normal s) (norm_pySafe s hs)
  refine ⟨_, hp, fun u hu' => parses_unique pyLang_ok hu' hp, fun V I => ?_⟩
  rw [← convEval_norm, ← build_norm]
  exact pyEval_build_conv I _ (norm_normal s) (norm_pySafe s hs)

/-- `n and (x << b or p | q)`, with integers, a float and booleans. -/
example : (Src.bin .and (.atom 0 .int) (.bin .or (.bin .shl (.atom 1 .int) (.atom 2 .bool))
    (.bin .bor (.atom 3 .bool) (.atom 4 .int)))).PySafe := by simp [Src.PySafe]

/-- `-(a + b) ** c < d and (e if p else q) == d`. -/
def demoSrc : Src :=
  .bin .and
    (.bin (.cmp .lt) (.un .neg (.bin .pow (.bin .add (.atom 0 .int) (.atom 1 .int)) (.atom 2 .int)))
      (.atom 3 .int))
    (.bin (.cmp .eq) (.ite (.atom 4 .bool) (.atom 5 .int) (.atom 6 .int)) (.atom 3 .int))

example : demoSrc.Uniform ∧ demoSrc.PySafe := by
  simp [demoSrc, Src.Uniform, Src.PySafe, Src.ty, Src.isCmp, Src.isIte]

/-- Integers with `<`, as far as the counterexamples need. -/
def demoInterp (env : Nat → Int) : PyInterp Int where
  atom
    | .var n => env n
    | .zero => 0
  un _ x := x
  bin s x y := match s with
    | .lt => if x < y then 1 else 0
    | _ => 0
  call f x := match f with
    | .bool => if x = 0 then 0 else 1
    | _ => x
  truthy x := x ≠ 0

/-- `(a < b) < c` is printed as the chain `a < b < c`: with `a = 3, b = 2, c = 1` the user's
expression is `0 < 1`, true, and the printed one is false. -/
theorem C19_nested_comparison_violated :
    ∃ (s : Src), s.Uniform ∧ ∃ t, Parses pyLang (printPy (build s)) t ∧
      ∃ I : PyInterp Int, pyEval I t ≠ srcEval I s := by
  refine ⟨.bin (.cmp .lt) (.bin (.cmp .lt) (.atom 0 .int) (.atom 1 .int)) (.atom 2 .int),
    by simp [Src.Uniform], cstPy (build _), ⟨flatten_cstPy _, ?_⟩,
    demoInterp (fun n => 3 - n), by decide⟩
  exact ⟨_, rfl, by decide, ⟨_, rfl, by decide, trivial, trivial⟩, trivial⟩

/-- `x if (y if c else z) else w` is printed without the parentheses, which is not Python. -/
theorem C19_nested_condition_violated :
    ∃ (s : Src), s.Uniform ∧ ∀ t, ¬ Parses pyLang (printPy (build s)) t := by
  refine ⟨.ite (.ite (.atom 0 .bool) (.atom 1 .bool) (.atom 2 .bool)) (.atom 3 .int) (.atom 4 .int),
    by simp [Src.Uniform], not_parses pyLang_ok (by decide)⟩

/-- `a and b` on integers is printed `bool(a) and bool(b)`: the value is a truth value instead of
one of the operands. -/
theorem C19_and_operands_violated :
    ∃ (s : Src), s.PySafe ∧ ∃ t, Parses pyLang (printPy (build s)) t ∧
      ∃ I : PyInterp Int, pyEval I t ≠ srcEval I s := by
  refine ⟨.bin .and (.atom 0 .int) (.atom 1 .int), by simp [Src.PySafe], cstPy (build _),
    ⟨flatten_cstPy _, ?_⟩, demoInterp (fun _ => 7), by decide⟩
  exact ⟨_, rfl, by decide, trivial, trivial⟩

/-! ### C20: C -/

/-- The printed C text is a C expression, has exactly one syntax tree, and up to parentheses this
tree is the intended translation of the user's expression — for the nestings described by `CSafe`.
Missing: the other nestings, where the claim is false (below). -/
theorem C20_round_trip_partial (s : Src) (hs : s.norm.CSafe) :
    ∃ t, Parses cLang (printC (build s)) t ∧
      (∀ u, Parses cLang (printC (build s)) u → u = t) ∧ t.strip = s.norm.toC := by
  have hp : Parses cLang (printC (build s)) (cstC (build s)) := by
    refine ⟨flatten_cstC _, ?_⟩
    rw [← build_norm]
    exact okC_build _ (norm_normal s) hs
  refine ⟨_, hp, fun u hu' => parses_unique cLang_ok hu' hp, ?_⟩
  rw [← build_norm]
  exact strip_cstC_build _ (norm_normal s)

/-- `~a & b | (c ^ d) << e` and `(x < y) == z and not p` meet the hypotheses. -/
example : (Src.bin .bor (.bin .band (.un .inv (.atom 0 .int)) (.atom 1 .int))
      (.bin .shl (.bin .bxor (.atom 2 .int) (.atom 3 .int)) (.atom 4 .int))).norm.CSafe ∧
    (Src.bin .and (.bin (.cmp .eq) (.bin (.cmp .lt) (.atom 0 .float) (.atom 1 .float)) (.atom 2 .bool))
      (.un .not (.atom 3 .bool))).norm.CSafe := by
  simp [Src.norm, Src.snoc, Src.CSafe, Src.isBit, Src.isEq, Src.ty, Cmp.isEq]

/-- `CSafe` is exact: the printed C text is read as the intended translation if and only if the
expression is one of the nestings described by `CSafe`. -/
theorem C20_iff_partial (s : Src) :
    (∃ t, Parses cLang (printC (build s)) t ∧ t.strip = s.norm.toC) ↔ s.norm.CSafe :=
  readC_iff s

/-- `x == (p ^ q)` is outside, `(p ^ q) == x` inside. -/
example : ¬ (Src.bin (.cmp .eq) (.atom 0 .bool) (.bin .bxor (.atom 1 .bool) (.atom 2 .bool))).norm.CSafe ∧
    (Src.bin (.cmp .eq) (.bin .bxor (.atom 1 .bool) (.atom 2 .bool)) (.atom 0 .bool)).norm.CSafe := by
  simp [Src.norm, Src.CSafe, Src.isBit, Src.isEq, Src.isBxor, Src.isBand, Src.ty, Cmp.isEq]

/-- The printed text of `s` is read by C as `t`, which is not the intended expression. -/
def CMisread (s : Src) (t : CTree) : Prop :=
  Parses cLang (printC (build s)) t ∧ t.strip ≠ s.norm.toC

/-- `(a & b) == c` is printed `a & b == c`, which C reads `a & (b == c)`. -/
theorem C20_band_eq_violated :
    CMisread (.bin (.cmp .eq) (.bin .band (.atom 0 .int) (.atom 1 .int)) (.atom 2 .int))
      (.bin .band (.atom (.var 0)) (.bin .eq (.atom (.var 1)) (.atom (.var 2)))) :=
  ⟨⟨by decide, ⟨_, rfl, by decide, trivial, ⟨_, rfl, by decide, trivial, trivial⟩⟩⟩, by decide⟩

/-- `(a == b) < c` is printed `a == b < c`, which C reads `a == (b < c)`. -/
theorem C20_eq_lt_violated :
    CMisread (.bin (.cmp .lt) (.bin (.cmp .eq) (.atom 0 .int) (.atom 1 .int)) (.atom 2 .int))
      (.bin .eq (.atom (.var 0)) (.bin .lt (.atom (.var 1)) (.atom (.var 2)))) :=
  ⟨⟨by decide, ⟨_, rfl, by decide, trivial, ⟨_, rfl, by decide, trivial, trivial⟩⟩⟩, by decide⟩

/-- On booleans `a ^ b & c` is printed `a != b && c`, which C reads `(a != b) && c`. -/
theorem C20_bool_xor_and_violated :
    CMisread (.bin .bxor (.atom 0 .bool) (.bin .band (.atom 1 .bool) (.atom 2 .bool)))
      (.bin .land (.bin .ne (.atom (.var 0)) (.atom (.var 1))) (.atom (.var 2))) :=
  ⟨⟨by decide, ⟨_, rfl, by decide, ⟨_, rfl, by decide, trivial, trivial⟩, trivial⟩⟩, by decide⟩

/-- `(a & b) and c` on integers is printed `(a & b != 0) && ...`, where C reads `a & (b != 0)`. -/
theorem C20_truth_of_band_violated :
    CMisread (.bin .and (.bin .band (.atom 0 .int) (.atom 1 .int)) (.atom 2 .bool))
      (.bin .land (.paren (.bin .band (.atom (.var 0)) (.bin .ne (.atom (.var 1)) (.atom .zero))))
        (.atom (.var 2))) :=
  ⟨⟨by decide, ⟨_, rfl, by decide, ⟨_, rfl, by decide, trivial,
    ⟨_, rfl, by decide, trivial, trivial⟩⟩, trivial⟩⟩, by decide⟩

/-! ### C21: Fortran -/

/-- The printed Fortran text is a Fortran expression, has exactly one syntax tree, and up to
parentheses this tree is the intended translation of the user's expression — for the nestings
described by `FSafe`.  Missing: the other nestings, where the claim is false (below). -/
theorem C21_round_trip_partial (s : Src) (hs : s.norm.FSafe) :
    ∃ t, Parses fLang (printF (build s)) t ∧
      (∀ u, Parses fLang (printF (build s)) u → u = t) ∧ t.strip = s.norm.toF := by
  have hp : Parses fLang (printF (build s)) (cstF (build s)) := by
    refine ⟨flatten_cstF _, ?_⟩
    rw [← build_norm]
    exact okF_build _ (norm_normal s) hs
  refine ⟨_, hp, fun u hu' => parses_unique fLang_ok hu' hp, ?_⟩
  rw [← build_norm]
  exact strip_cstF_build _ (norm_normal s)

/-- `-a ** b * (c + d) < e and not (p and q)` meets the hypotheses. -/
example : (Src.bin .and (.bin (.cmp .lt)
      (.bin .mul (.un .neg (.bin .pow (.atom 0 .int) (.atom 1 .int)))
        (.bin .add (.atom 2 .int) (.atom 3 .int))) (.atom 4 .int))
      (.un .not (.bin .and (.atom 5 .bool) (.atom 6 .bool)))).norm.FSafe := by
  simp [Src.norm, Src.snoc, Src.FSafe, Src.isNotB, Src.isBit, Src.isEqv, Src.isEquiv, Src.isBor,
    Src.isBand, Src.isBxor, Src.ty, Cmp.isEq]

/-- `FSafe` is exact: when no `==`/`!=` compares a boolean with a number, the printed Fortran text
is read as the intended translation if and only if the expression is one of the nestings described
by `FSafe`.  Missing: comparisons of a boolean with a number, which Fortran does not have. -/
theorem C21_iff_partial (s : Src) (hm : s.Alike) :
    (∃ t, Parses fLang (printF (build s)) t ∧ t.strip = s.norm.toF) ↔ s.norm.FSafe :=
  readF_iff s hm

/-- `p == q and r` compares booleans, and is outside `FSafe`; `p and (q and r)` is inside. -/
example : (Src.bin .and (.bin (.cmp .eq) (.atom 0 .bool) (.atom 1 .bool)) (.atom 2 .bool)).Alike ∧
    ¬ (Src.bin .and (.bin (.cmp .eq) (.atom 0 .bool) (.atom 1 .bool)) (.atom 2 .bool)).norm.FSafe ∧
    (Src.bin .and (.atom 0 .bool) (.bin .and (.atom 1 .bool) (.atom 2 .bool))).norm.FSafe := by
  simp [Src.Alike, Src.norm, Src.snoc, Src.FSafe, Src.isEquiv, Src.isEqv, Src.isBor, Src.isBand,
    Src.isBxor, Src.ty, Cmp.isEq]

/-- The printed text of `s` is read by Fortran as `t`, which is not the intended expression. -/
def FMisread (s : Src) (t : FTree) : Prop :=
  Parses fLang (printF (build s)) t ∧ t.strip ≠ s.norm.toF

/-- On booleans `a == b and c` is printed `a .eqv. b .and. c`, read `a .eqv. (b .and. c)`. -/
theorem C21_eqv_and_violated :
    FMisread (.bin .and (.bin (.cmp .eq) (.atom 0 .bool) (.atom 1 .bool)) (.atom 2 .bool))
      (.bin .eqv (.atom (.var 0)) (.bin .and (.atom (.var 1)) (.atom (.var 2)))) :=
  ⟨⟨by decide, ⟨_, rfl, by decide, trivial, ⟨_, rfl, by decide, trivial, trivial⟩⟩⟩, by decide⟩

/-- On booleans `not (a & b)` is printed `.not. a .and. b`, read `(.not. a) .and. b`. -/
theorem C21_not_band_violated :
    FMisread (.un .not (.bin .band (.atom 0 .bool) (.atom 1 .bool)))
      (.bin .and (.un .not (.atom (.var 0))) (.atom (.var 1))) :=
  ⟨⟨by decide, ⟨_, rfl, by decide, ⟨_, rfl, by decide, trivial⟩, trivial⟩⟩, by decide⟩

/-- On booleans `a | b ^ c` is printed `a .or. b .neqv. c`, read `(a .or. b) .neqv. c`. -/
theorem C21_or_neqv_violated :
    FMisread (.bin .bor (.atom 0 .bool) (.bin .bxor (.atom 1 .bool) (.atom 2 .bool)))
      (.bin .neqv (.bin .or (.atom (.var 0)) (.atom (.var 1))) (.atom (.var 2))) :=
  ⟨⟨by decide, ⟨_, rfl, by decide, ⟨_, rfl, by decide, trivial, trivial⟩, trivial⟩⟩, by decide⟩

/-- On booleans `(a | b) and c` is printed `a .or. b .and. c`, read `a .or. (b .and. c)`. -/
theorem C21_bor_and_violated :
    FMisread (.bin .and (.bin .bor (.atom 0 .bool) (.atom 1 .bool)) (.atom 2 .bool))
      (.bin .or (.atom (.var 0)) (.bin .and (.atom (.var 1)) (.atom (.var 2)))) :=
  ⟨⟨by decide, ⟨_, rfl, by decide, trivial, ⟨_, rfl, by decide, trivial, trivial⟩⟩⟩, by decide⟩

/-- `not not x` is printed `.not. .not. x`, which is not Fortran. -/
theorem C21_not_not_violated :
    ∀ t, ¬ Parses fLang (printF (build (.un .not (.un .not (.atom 0 .bool))))) t :=
  not_parses fLang_ok (by decide)

end Verif.Exprs
