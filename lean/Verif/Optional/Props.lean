import Verif.Optional.Lemmas3

/-
Optional arguments: properties C106 and C107.
-/
namespace Verif.Optional

/-- A program: functions numbered from 0. -/
def prog (l : List Func) (f : Nat) : Option Func := l[f]?

/-- A function of `x` (number 0) and `y` (number 1), both with default `None`. -/
def fun2 (body : Code Var) : Func := ⟨[(0, true), (1, true)], true, body⟩

/-! ## C106 -/

/-- **C106, C**: functions with optional arguments compute what Python computes and leave the variables of the caller alone, for all
programs that obey the discipline of `Checked.lean` and all arguments, present or absent.  Missing: programs outside the discipline (see the
violations below), arrays and other types of arguments, and the machine integers (C03). -/
theorem C106_optional_c_partial (fs : Nat → Option Func) (hfs : ∀ f fn, fs f = some fn → checkFunc false fs fn = true) (n d f : Nat)
    (fn : Func) (vs : List (Option Int)) (ρ : Option Int) (hf : fs f = some fn) (hv : Fits fn.params vs)
    (h : pyCall fs n d f vs = some ρ) : tCall false fs n d f vs = some (ρ, vs) :=
  (call_sim false fs hfs n d f fn vs ρ hf hv h).1

/-- **C106, Fortran**: the same when both operands of `.and.` and `.or.` and both values of `merge` are evaluated, and calls are printed
without the `None`s. -/
theorem C106_optional_fortran_partial (fs : Nat → Option Func) (hfs : ∀ f fn, fs f = some fn → checkFunc true fs fn = true) (n d f : Nat)
    (fn : Func) (vs : List (Option Int)) (ρ : Option Int) (hf : fs f = some fn) (hv : Fits fn.params vs)
    (h : pyCall fs n d f vs = some ρ) : tCall true fs n d f vs = some (ρ, vs) :=
  (call_sim true fs hfs n d f fn vs ρ hf hv h).1

/-- A function that returns a number on every path does return one, and never `None`. -/
theorem C106_returns_partial (fs : Nat → Option Func) (hfs : ∀ f fn, fs f = some fn → checkFunc false fs fn = true) (n d f : Nat)
    (fn : Func) (vs : List (Option Int)) (ρ : Option Int) (hf : fs f = some fn) (hv : Fits fn.params vs) (hr : fn.returns = true)
    (h : pyCall fs n d f vs = some ρ) : ∃ v, ρ = some v ∧ tCall false fs n d f vs = some (some v, vs) := by
  obtain ⟨h1, h2⟩ := call_sim false fs hfs n d f fn vs ρ hf hv h
  obtain ⟨v, rfl⟩ := h2 hr
  exact ⟨v, rfl, h1⟩

/-- `def f(x=None, y=None): …` with the usual default value `if x is None: x = 5`, a guarded test with `else`, a loop, a conditional
expression and a call that passes `y` on:
```
def g(x: int = None, y: int = None):
    if y is not None:
        return y + 1
    return 7
def f(x: int = None, y: int = None):
    if x is None:
        x = 5
    if y is not None and y < 3:
        x += y
    elif y is None:
        x += 100
    else:
        x += 1000
    z = 0
    while z < 3:
        z += 1
        x = x + z
    w = x if z < 2 else z
    r = g(w, y)
    return x + r
``` -/
def demo : List Func :=
  [⟨[(0, true), (1, true)], true,
     .seq (.ite (.notNone 1) (.ret (.add (.var 1) (.lit 1))) .skip) (.ret (.lit 7))⟩,
   ⟨[(0, true), (1, true)], true,
     .seq (.ite (.isNone 0) (.assign 0 (.lit 5)) .skip)
     (.seq (.ite (.and (.notNone 1) (.lt (.var 1) (.lit 3))) (.aug 0 (.var 1))
       (.elif (.isNone 1) (.aug 0 (.lit 100)) (.aug 0 (.lit 1000))))
     (.seq (.assign 2 (.lit 0))
     (.seq (.loop (.lt (.var 2) (.lit 3)) (.seq (.aug 2 (.lit 1)) (.assign 0 (.add (.var 0) (.var 2)))))
     (.seq (.choose 3 (.lt (.var 2) (.lit 2)) (.var 0) (.var 2))
     (.seq (.call (some 4) 0 [some (.var 3), some (.var 1)] 2)
     (.ret (.add (.var 0) (.var 4))))))))⟩]

/-- The program obeys the discipline. -/
example : (∀ f fn, prog demo f = some fn → checkFunc false (prog demo) fn = true) ∧
    (∀ vs ∈ [[none, none], [some 1, none], [none, some 2], [some 1, some 9]], Fits [(0, true), (1, true)] vs) ∧
    pyCall (prog demo) 9 3 1 [none, none] = some (some 118) ∧ pyCall (prog demo) 9 3 1 [some 1, some 9] = some (some 1017) ∧
    tCall false (prog demo) 9 3 1 [none, none] = some (some 118, [none, none]) := by
  refine ⟨fun f fn h => ?_, by simp [Fits], by decide, by decide, by decide⟩
  match f, h with
  | 0, h => cases h; decide
  | 1, h => cases h; decide
  | n + 2, h => simp [prog, demo] at h

/-- It obeys the stricter discipline of Fortran too: the test is split off, so that `y < 3` is not evaluated when `y` is absent. -/
example : (∀ f fn, prog demo f = some fn → checkFunc true (prog demo) fn = true) ∧
    tCall true (prog demo) 9 3 1 [none, none] = some (some 118, [none, none]) := by
  refine ⟨fun f fn h => ?_, by decide⟩
  match f, h with
  | 0, h => cases h; decide
  | 1, h => cases h; decide
  | n + 2, h => simp [prog, demo] at h

/-- Conditions: a condition that obeys the discipline has, after its tests against `None` have been translated, the value it has in Python,
in C and (with the stricter discipline) in Fortran. -/
theorem C106_condition_partial (st : Bool) (O : Var → Bool) (F A N : List Var) (σ : PySt) (s : St) (c : Cond Var) (b : Bool)
    (hr : Rel O F A σ s) (hA : ∀ x, x ∈ A → x ∈ F) (hN : Known N σ) (hf : foldOk O A N c = true)
    (hk : condOk false (ks O A N) (trCond O A c) = true) (hs : strictOk st (ks O A N) (trCond O A c) = true)
    (h : pyTest σ c = some b) : tst st s (trCond O A c) = some b :=
  strictOk_tst (rel_known hr hA hN) _ b hs (test_sim hr hA hN c _ b (rel_known hr hA hN) hf hk h)

/-- `x is not None and x < 3` with `x` absent in C. -/
example : foldOk (fun _ => true) [] [] (.and (.notNone 0) (.lt (.var 0) (.lit 3))) = true ∧
    condOk false (ks (fun _ => true) [] []) (trCond (fun _ => true) [] (.and (.notNone 0) (.lt (.var 0) (.lit 3)))) = true ∧
    Rel (fun _ => true) [] [] (fun _ => some none) (fun _ => none) := by
  refine ⟨by decide, by decide, ?_⟩
  constructor <;> simp

/-- The statements put before an `if`, and its sections: when tests are split off a condition, the section taken is the same. -/
theorem C106_split_tests_partial (st : Bool) (opts : Nat → List Bool) (call : Nat → List (Option Int) → Option (Option Int × List (Option Int)))
    (n : Nat) (rem : Cond TV) (hrem : NoTmp (cvars rem)) (ts : List TV) (k : Nat) (s : St) (hne : ts ≠ []) (hts : NoTmp ts)
    (h1 : ∀ w, s (ts.getLast hne) = some w → ∃ b, tst st s rem = some b) :
    ∃ s', tRun st opts call n (hoist rem ts k).1 s = some (s', none) ∧
      (∀ x, (∀ j, k ≤ j → x ≠ .cond j) → s' x = s x) ∧
      tst st s' (hoist rem ts k).2 = some (ts.all (fun t => (s t).isSome) && (tst st s rem).getD false) :=
  hoist_run st opts call n rem hrem ts k s hne hts h1

/-- Two tests, the first variable absent, and a remaining condition that does not read it. -/
example : NoTmp (cvars (.lt (.var (TV.arg 1)) (.lit 3))) ∧ NoTmp [TV.arg 0, TV.arg 1] ∧
    (hoist (.lt (.var (TV.arg 1)) (.lit 3)) [TV.arg 0, TV.arg 1] 0).2 = .truth (.var (.cond 0)) := by
  refine ⟨?_, ?_, rfl⟩ <;> simp [NoTmp, cvars, evars]

/-! ### What is outside the discipline -/

/-- C106 fails: `x += 1` changes the argument, and a later assignment makes the uses below it read a copy made at the beginning of the
function.
```
def f(x: int = None, y: int = None):
    x += 1
    if y is not None:
        x = 10
    return x
```
`f(3)` is 4 in Python and 3 in C. -/
theorem C106_augassign_then_assign_violated :
    let p := prog [fun2 (.seq (.aug 0 (.lit 1)) (.seq (.ite (.notNone 1) (.assign 0 (.lit 10)) .skip) (.ret (.var 0))))]
    pyCall p 9 1 0 [some 3, none] = some (some 4) ∧ (tCall false p 9 1 0 [some 3, none]).map (fun r => r.1) = some (some 3) := by
  decide

/-- C106 fails: in C `x += 1` changes the variable of the caller.
```
def g(x: int = None, y: int = None):
    x += 1
    return x
def f(x: int):
    z = x
    r = g(z)
    return z
```
`f(3)` is 3 in Python and 4 in C. -/
theorem C106_augassign_changes_caller_violated :
    let p := prog [fun2 (.seq (.aug 0 (.lit 1)) (.ret (.var 0))),
      ⟨[(0, false)], true, .seq (.assign 2 (.var 0)) (.seq (.call (some 3) 0 [some (.var 2), none] 1) (.ret (.var 2)))⟩]
    pyCall p 9 2 1 [some 3] = some (some 3) ∧ (tCall false p 9 2 1 [some 3]).map (fun r => r.1) = some (some 4) := by
  decide

/-- C106 fails: in Fortran the same function is not accepted by the compiler, because the argument has `intent(in)`. -/
theorem C106_augassign_fortran_violated :
    let p := prog [fun2 (.seq (.aug 0 (.lit 1)) (.ret (.var 0)))]
    pyCall p 9 1 0 [some 3, none] = some (some 4) ∧ tCall true p 9 1 0 [some 3, none] = none := by
  decide

/-- C106 fails: in a loop, a test above an assignment is about the argument in every round.
```
def f(x: int = None, y: int = None):
    z = 0
    n = 0
    while n < 3:
        n += 1
        if x is None:
            z += 1
        x = 5
    return z
```
`f()` is 1 in Python and 3 in C and in Fortran. -/
theorem C106_test_in_loop_violated :
    let p := prog [fun2 (.seq (.assign 2 (.lit 0)) (.seq (.assign 3 (.lit 0)) (.seq (.loop (.lt (.var 3) (.lit 3))
      (.seq (.aug 3 (.lit 1)) (.seq (.ite (.isNone 0) (.aug 2 (.lit 1)) .skip) (.assign 0 (.lit 5))))) (.ret (.var 2)))))]
    pyCall p 9 1 0 [none, none] = some (some 1) ∧ ∀ st, (tCall st p 9 1 0 [none, none]).map (fun r => r.1) = some (some 3) := by
  decide

/-- C106 fails: below an assignment under a condition, `x is None` is taken to be false.
```
def f(x: int = None, y: int = None):
    if y is not None:
        x = 1
    if x is None:
        return 7
    return 8
```
`f()` is 7 in Python and 8 in C and in Fortran. -/
theorem C106_test_below_assignment_violated :
    let p := prog [fun2 (.seq (.ite (.notNone 1) (.assign 0 (.lit 1)) .skip) (.seq (.ite (.isNone 0) (.ret (.lit 7)) .skip) (.ret (.lit 8))))]
    pyCall p 9 1 0 [none, none] = some (some 7) ∧ ∀ st, (tCall st p 9 1 0 [none, none]).map (fun r => r.1) = some (some 8) := by
  decide

/-- C106 fails: with two tests in a condition that is followed by `else`, the remaining condition is computed when the first variable is
absent.
```
def f(x: int = None, y: int = None):
    if x is not None and y is not None and 3 < x + y:
        return 1
    else:
        return 2
```
`f(None, 1)` is 2 in Python; the generated program reads `x`, which is absent. -/
theorem C106_two_tests_violated :
    let p := prog [fun2 (.ite (.and (.notNone 0) (.and (.notNone 1) (.lt (.lit 3) (.add (.var 0) (.var 1))))) (.ret (.lit 1)) (.ret (.lit 2)))]
    pyCall p 9 1 0 [none, some 1] = some (some 2) ∧ ∀ st, tCall st p 9 1 0 [none, some 1] = none := by
  decide

/-- C106 fails: a condition of an `elif` is computed before the `if`, also when an earlier branch excludes it.
```
def f(x: int = None, y: int = None):
    if y == 0:
        return 1
    elif x is not None and 3 < x // y:
        return 2
    else:
        return 3
```
with `y` a number here: `f(5, 0)` is 1 in Python and divides by zero in the generated program. -/
theorem C106_elif_violated :
    let p := prog [⟨[(0, true), (1, false)], true,
      .ite (.eq (.var 1) (.lit 0)) (.ret (.lit 1))
        (.elif (.and (.notNone 0) (.lt (.lit 3) (.div (.var 0) (.var 1)))) (.ret (.lit 2)) (.ret (.lit 3)))⟩]
    pyCall p 9 1 0 [some 5, some 0] = some (some 1) ∧ ∀ st, tCall st p 9 1 0 [some 5, some 0] = none := by
  decide

/-- C106 fails: `x == 3` and `not x` read an absent argument. -/
theorem C106_compare_none_violated :
    let p := prog [fun2 (.ite (.eq (.var 0) (.lit 3)) (.ret (.lit 1)) (.ret (.lit 2)))]
    let q := prog [fun2 (.ite (.not (.truth (.var 0))) (.ret (.lit 1)) (.ret (.lit 2)))]
    pyCall p 9 1 0 [none, none] = some (some 2) ∧ pyCall q 9 1 0 [none, none] = some (some 1) ∧
      ∀ st, tCall st p 9 1 0 [none, none] = none ∧ tCall st q 9 1 0 [none, none] = none := by
  decide

/-- C106 fails in Fortran: in `x is None or 3 < x` both operands are evaluated; C is right. -/
theorem C106_or_fortran_violated :
    let p := prog [fun2 (.ite (.or (.isNone 0) (.lt (.lit 3) (.var 0))) (.ret (.lit 1)) (.ret (.lit 2)))]
    pyCall p 9 1 0 [none, none] = some (some 1) ∧ tCall true p 9 1 0 [none, none] = none ∧
      tCall false p 9 1 0 [none, none] = some (some 1, [none, none]) := by
  decide

/-- C106 fails in Fortran: tests are split off conditions of `if` only, not of `while` or of conditional expressions, where `merge`
evaluates both values; C is right. -/
theorem C106_while_and_merge_fortran_violated :
    let p := prog [fun2 (.seq (.loop (.and (.notNone 0) (.lt (.var 0) (.lit 3))) (.ret (.lit 1))) (.ret (.lit 2)))]
    let q := prog [fun2 (.seq (.choose 2 (.isNone 0) (.lit 1) (.var 0)) (.ret (.var 2)))]
    pyCall p 9 1 0 [none, none] = some (some 2) ∧ pyCall q 9 1 0 [none, none] = some (some 1) ∧
      (tCall true p 9 1 0 [none, none] = none ∧ tCall true q 9 1 0 [none, none] = none) ∧
      tCall false p 9 1 0 [none, none] = some (some 2, [none, none]) ∧ tCall false q 9 1 0 [none, none] = some (some 1, [none, none]) := by
  decide

/-- C106 is refused: a test used together with the variable below `not` gives an error of pyccel, for every body. -/
theorem C106_nested_test_refused (body : Code Var) :
    trFunc (fun2 (.ite (.not (.and (.notNone 0) (.lt (.lit 3) (.var 0)))) (.ret (.lit 1)) body)) = none := by
  rfl

/-! ## C107 -/

theorem filterMap_none {α : Type} : ∀ (l : List (Option α)), (∀ a ∈ l, a = none) ↔ l.filterMap id = [] := by
  intro l
  exact (List.filterMap_eq_nil_iff (f := id)).symm

/-- The list of positional arguments, `None`s left out and the places at the end filled up. -/
def shifted {α : Type} (l : List (Option α)) : List (Option α) :=
  (l.filterMap id).map some ++ List.replicate (l.length - (l.filterMap id).length) none

theorem shifted_iff {α : Type} : ∀ (l : List (Option α)), shifted l = l ↔ l.Pairwise (fun a b => a = none → b = none) := by
  intro l
  induction l with
  | nil => simp [shifted]
  | cons a l ih =>
    cases a with
    | some v =>
      simp only [shifted, List.filterMap_cons, id, List.map_cons, List.length_cons, List.cons_append, List.pairwise_cons, List.cons.injEq,
        true_and, Nat.add_sub_add_right] at ih ⊢
      constructor
      · intro h
        exact ⟨fun _ _ h => by simp at h, ih.1 h⟩
      · intro h
        exact ih.2 h.2
    | none =>
      simp only [List.pairwise_cons]
      constructor
      · intro h
        have hn : l.filterMap id = [] := by
          cases h1 : l.filterMap id with
          | nil => rfl
          | cons w ws => simp [shifted, List.filterMap_cons, h1] at h
        have hall := (filterMap_none l).2 hn
        refine ⟨fun b hb _ => hall b hb, ?_⟩
        rw [List.pairwise_iff_forall_sublist]
        intro a b hab _
        exact hall b (hab.subset (by simp))
      · intro h
        have hall : ∀ b ∈ l, b = none := fun b hb => h.1 b hb trivial
        have hn := (filterMap_none l).1 hall
        simp only [shifted, List.filterMap_cons, id, hn, List.map_nil, List.nil_append, List.length_nil, Nat.sub_zero, List.length_cons]
        rw [List.replicate_succ, List.eq_replicate_of_mem hall]
        simp

theorem fBind_iff {α : Type} (npos : Nat) (args : List (Option α)) : fBind npos args = args ↔ shifted (args.take npos) = args.take npos := by
  have hlen : (shifted (args.take npos)).length = (args.take npos).length := by
    simp only [shifted, List.length_append, List.length_map, List.length_replicate]
    have := List.length_filterMap_le id (args.take npos)
    omega
  have e : fBind npos args = shifted (args.take npos) ++ args.drop npos := rfl
  rw [e]
  constructor
  · intro h
    have := congrArg (List.take npos) h
    rw [List.take_append] at this
    have hl : (shifted (args.take npos)).length ≤ npos := by rw [hlen]; simp; omega
    rw [List.take_of_length_le hl] at this
    rw [hlen] at this
    by_cases hn : npos ≤ args.length
    · simpa [Nat.min_eq_left hn] using this
    · have hd : args.drop npos = [] := List.drop_eq_nil_of_le (by omega)
      rw [hd, List.take_nil, List.append_nil] at this
      exact this
  · intro h
    rw [h, List.take_append_drop]

/-- **C107**: a call printed in Fortran gives every parameter its own argument exactly if no `None` among the arguments passed by position
comes before an argument that is not `None`. -/
theorem C107_fortran_call_partial {α : Type} (npos : Nat) (args : List (Option α)) :
    fBind npos args = args ↔ ∀ i j, i < j → j < npos → args[i]? = some none → (args[j]?).getD none = none := by
  rw [fBind_iff, shifted_iff, List.pairwise_iff_getElem]
  simp only [List.length_take, List.getElem_take]
  constructor
  · intro h i j hij hj hi
    by_cases hl : j < args.length
    · have := h i j (by omega) (by omega) hij (by
        have : args[i]? = some args[i] := List.getElem?_eq_getElem (by omega)
        rw [this] at hi
        exact Option.some.inj hi)
      rw [List.getElem?_eq_getElem hl]
      simpa using this
    · rw [List.getElem?_eq_none (by omega)]; rfl
  · intro h i j hi hj hij hn
    have := h i j hij (by omega) (by rw [List.getElem?_eq_getElem (by omega), hn])
    rw [List.getElem?_eq_getElem (by omega)] at this
    simpa using this

/-- Arguments passed by keyword are never moved. -/
theorem C107_keywords {α : Type} (args : List (Option α)) : fBind 0 args = args :=
  (C107_fortran_call_partial 0 args).2 (fun _ _ _ h => absurd h (Nat.not_lt_zero _))

/-- **C107, C**: the parameters of a function called in C get the values that Python passes, `None` included, whatever the positions of the
`None`s; and in Fortran under the condition above. -/
theorem C107_arguments_partial (O : Var → Bool) (F A N : List Var) (σ : PySt) (s : St) (hr : Rel O F A σ s) (hA : ∀ x, x ∈ A → x ∈ F)
    (hN : Known N σ) (args : List (Option (Expr Var))) (os : List Bool) (vs : List (Option Int))
    (hk : argsOk O A (ks O A N) os args = true) (h : pyArgs σ args = some vs) :
    passArgs s os (trArgs O A args) = some vs ∧
      ∀ npos, fBind npos args = args → passArgs s os (fBind npos (trArgs O A args)) = some vs := by
  obtain ⟨h1, _⟩ := args_sim hr hA (rel_known hr hA hN) args os vs hk h
  refine ⟨h1, fun npos hb => ?_⟩
  unfold trArgs at h1 ⊢
  rw [fBind_map, hb]
  exact h1

/-- `f(1, None)` and `f(None, x)` with an absent `x` passed on. -/
example : argsOk (fun _ => true) [] (ks (fun _ => true) [] []) [true, true] [none, some (.var 0)] = true ∧
    pyArgs (fun _ => some none) [none, some (.var 0)] = some [none, none] ∧
    fBind 2 [some (Expr.lit (V := Var) 1), none] = [some (Expr.lit 1), none] := by
  refine ⟨by decide, rfl, by decide⟩

/-- C107 fails in Fortran: `f(None, 3)` is printed `f(3_i64)`, so that the first parameter gets the second argument.
```
def g(x: int = None, y: int = None):
    if x is None:
        return 1
    return 2
def f(z: int):
    r = g(None, z)
    return r
```
`f(3)` is 1 in Python and in C, and 2 in Fortran. -/
theorem C107_none_by_position_violated :
    let p := prog [fun2 (.seq (.ite (.isNone 0) (.ret (.lit 1)) .skip) (.ret (.lit 2))),
      ⟨[(2, false)], true, .seq (.call (some 3) 0 [none, some (.var 2)] 2) (.ret (.var 3))⟩]
    pyCall p 9 2 1 [some 3] = some (some 1) ∧ tCall false p 9 2 1 [some 3] = some (some 1, [some 3]) ∧
      tCall true p 9 2 1 [some 3] = some (some 2, [some 3]) := by
  decide

end Verif.Optional
