import Verif.Hoist.LemmasSim
import Verif.Hoist.LemmasFortran
/-
C116–C118: calls of the user's functions inside expressions.
-/
namespace Verif.Hoist

/-- A call of a function which returns a number, on one argument. -/
abbrev sc (f : Nat) (a : Src) : Src := .call false f (.cons a .nil)
/-- A call of a function which returns an array, on one argument. -/
abbrev ac (f : Nat) (a : Src) : Src := .call true f (.cons a .nil)

/-! ## C116: every call is made once -/

/-- C116: in every run of the translation of a statement, whatever the functions do, every function
is called as often as in Python **exactly if** no call lies in something that the translator visits
twice (`OnceIn`). -/
theorem C116_iff_partial {V S : Type} (I : Interp V S) (direct : Bool) (e : Src) (ρ : Nat → V)
    (s : S × List Nat) (v : V) (s' : S × List Nat)
    (h : Runs I.logged (translate direct e) ρ s v s') :
    (∀ f, s'.2.count f = (py I.logged e s).2.2.count f) ↔ e.OnceIn direct := by
  rw [← translate_once]
  constructor
  · intro H f
    have h1 := runs_count I f h
    have h2 := py_count I f e s
    have := H f; omega
  · intro H f
    have h1 := runs_count I f h
    have h2 := py_count I f e s
    have := H f; omega

/-- C116: no call is lost: every function is called at least as often as in Python. -/
theorem C116_atleast_partial {V S : Type} (I : Interp V S) (direct : Bool) (e : Src) (ρ : Nat → V)
    (s : S × List Nat) (v : V) (s' : S × List Nat)
    (h : Runs I.logged (translate direct e) ρ s v s') (f : Nat) :
    (py I.logged e s).2.2.count f ≤ s'.2.count f := by
  have h1 := runs_count I f h
  have h2 := py_count I f e s
  have := translate_le direct e f
  omega

/-- Every translated statement has a run, so the two theorems are about something. -/
theorem C116_runs {V S : Type} (I : Interp V S) (direct : Bool) (e : Src) (ρ : Nat → V) (s : S) :
    ∃ v s', Runs I (translate direct e) ρ s v s' := runs_exist I _ ρ s

/-- `x = g(f(n), s(m)) + 1` satisfies the condition. -/
example : (Src.op true 0 (.call true 0 (.cons (.lit 0) (.cons (sc 1 (.lit 1)) .nil))) (.lit 2)).OnceIn true := by
  simp [Src.OnceIn, Src.Once, Args.moved, Src.moved, Src.isOp, Kind.max]

/-- Meanings for the counterexamples: the functions do nothing. -/
abbrev idle : Interp Unit Unit := ⟨fun _ => (), fun _ _ => (), fun _ _ _ => ((), ()), fun _ _ _ => (),
  fun _ _ _ _ => (), fun _ => ()⟩

/-- C116 fails: `y = 1 + f(a * s(n))`, where `f` returns an array and `s` a number, calls `s` twice
in C and in Fortran. -/
theorem C116_violated_scalar_call :
    let e := Src.op true 0 (.lit 0) (ac 0 (.op true 1 (.lit 1) (sc 1 (.lit 2))))
    fortranOk true (translate true e) = true ∧
    (py idle.logged e ((), [])).2.2 = [1, 0] ∧
    ∀ v s', Runs idle.logged (translate true e) (fun _ => ()) ((), []) v s' → s'.2.count 1 = 2 := by
  refine ⟨by decide, by decide, fun v s' h => ?_⟩
  rw [runs_count idle 1 h]
  decide

/-- C116 fails: `x = k(g(f(h(n))))` with functions which return arrays calls `h` three times and `f`
twice in C. -/
theorem C116_violated_nested_calls :
    let e := ac 3 (ac 2 (ac 1 (ac 0 (.lit 0))))
    (py idle.logged e ((), [])).2.2 = [0, 1, 2, 3] ∧
    ∀ v s', Runs idle.logged (translate true e) (fun _ => ()) ((), []) v s' →
      s'.2.count 0 = 3 ∧ s'.2.count 1 = 2 ∧ s'.2.count 2 = 1 ∧ s'.2.count 3 = 1 := by
  refine ⟨by decide, fun v s' h => ?_⟩
  refine ⟨?_, ?_, ?_, ?_⟩ <;> rw [runs_count idle _ h] <;> decide

/-- C116 fails: `x = s(f(n)) ** 0.5` calls `f` twice in C. -/
theorem C116_violated_root :
    let e := Src.root (sc 1 (ac 0 (.lit 0)))
    (py idle.logged e ((), [])).2.2 = [0, 1] ∧
    ∀ v s', Runs idle.logged (translate true e) (fun _ => ()) ((), []) v s' →
      s'.2.count 0 = 2 ∧ s'.2.count 1 = 1 := by
  refine ⟨by decide, fun v s' h => ?_⟩
  refine ⟨?_, ?_⟩ <;> rw [runs_count idle _ h] <;> decide

/-! ## C117: calls and reads happen in Python's order -/

/-- C117 (partial: for statements in which no call is repeated, and in which nothing that stays in an
operand is disturbed by what is taken out of a later one or by another operand): every run of the
translation gives Python's value and Python's final state, whatever the functions and operators do
and whatever the order in which the target evaluates operands. -/
theorem C117_partial {V S : Type} (I : Interp V S) (direct : Bool) (e : Src) (ρ : Nat → V) (s : S)
    (v : V) (s' : S) (h1 : e.OnceIn direct) (h2 : e.Ordered)
    (h : Runs I (translate direct e) ρ s v s') : (v, s') = py I e s :=
  translate_good I direct e h2 h1 h

/-- `x = g(f(n), b + 1, a[0])`, not assigned directly, satisfies both conditions. -/
example :
    let e := Src.call true 0 (.cons (.lit 0) (.cons (.op true 0 (.lit 1) (.lit 2)) (.cons (.elem 0) .nil)))
    e.OnceIn false ∧ e.Ordered := by
  simp [Src.OnceIn, Src.Once, Args.moved, Src.moved, Src.isOp, Src.hasCall, Kind.max, Src.Ordered,
    Args.Ordered, Src.left, Args.left, Src.leftArg, Kind.Commute]

/-- So does `x = f(n) + g(m) + b` where `f` and `g` return arrays. -/
example :
    let e := Src.op true 0 (.op true 0 (ac 0 (.lit 0)) (ac 1 (.lit 1))) (.lit 2)
    e.OnceIn true ∧ e.Ordered := by
  simp [Src.OnceIn, Src.Once, Args.moved, Src.moved, Src.isOp, Kind.max, Src.Ordered,
    Args.Ordered, Src.left, Args.left, Src.leftArg, Kind.Commute]

/-- C117 fails: `x = s(0) + t(f(1))`, where `f` returns an array, calls `f` before `s`. -/
theorem C117_violated_moved_call :
    let e := Src.op false 0 (sc 0 (.lit 0)) (sc 2 (ac 1 (.lit 1)))
    e.OnceIn true ∧ (py idle.logged e ((), [])).2.2 = [0, 1, 2] ∧
    Runs idle.logged (translate true e) (fun _ => ()) ((), []) () ((), [1, 0, 2]) := by
  refine ⟨?_, by decide, ?_⟩
  · simp [Src.OnceIn, Src.Once, Args.Once, Args.moved, Src.moved, Src.isOp, Kind.max]
  · exact runs_ltr idle.logged (translate true _) (fun _ => ()) ((), [])

/-- Meanings in which the state is the number `a[0]`, and every call increments it. -/
abbrev counting : Interp Nat Nat :=
  ⟨id, fun _ s => s, fun _ _ s => (s, s + 1), fun _ a b => a + b, fun _ a b _ => a + b, id⟩

/-- C117 fails: `x = a[0] + t(f(a))`, where `f` returns an array and increments `a[0]`, reads `a[0]`
after the increment. -/
theorem C117_violated_moved_past_read :
    let e := Src.op false 0 (.elem 0) (sc 2 (ac 1 (.lit 1)))
    e.OnceIn true ∧ py counting e 5 = (11, 7) ∧
    Runs counting (translate true e) (fun _ => 0) 5 12 7 := by
  refine ⟨?_, by decide, ?_⟩
  · simp [Src.OnceIn, Src.Once, Args.Once, Args.moved, Src.moved, Src.isOp, Kind.max]
  · exact runs_ltr counting (translate true _) (fun _ => 0) 5

/-- C117 fails: `x = g(s(0), b + 1)`: the array `b + 1` is computed before `s` is called. -/
theorem C117_violated_moved_operator :
    let e := Src.call true 1 (.cons (sc 0 (.lit 0)) (.cons (.op true 0 (.lit 1) (.elem 0)) .nil))
    ∃ I : Interp Nat Nat, e.OnceIn true ∧
    (py I e 5).1 ≠ (ltr I (exec I (translate true e).code (fun _ => 0, 5)).1 (translate true e).val
      (exec I (translate true e).code (fun _ => 0, 5)).2).1 ∧
    Runs I (translate true e) (fun _ => 0) 5
      (ltr I (exec I (translate true e).code (fun _ => 0, 5)).1 (translate true e).val
        (exec I (translate true e).code (fun _ => 0, 5)).2).1 7 := by
  refine ⟨⟨id, fun _ s => s, fun _ vs s => (vs.sum, s + 1), fun _ a b => a + b,
    fun _ a b _ => a + b, id⟩, ?_, by decide, ?_⟩
  · simp [Src.OnceIn, Args.Once, Args.moved, Src.moved, Src.isOp, Src.Once, Kind.max]
  · exact runs_ltr _ (translate true _) (fun _ => 0) 5

/-- C117 fails: `x = s(0) + t(1)`: the target language may call `t` before `s`. -/
theorem C117_violated_operand_order :
    let e := Src.op false 0 (sc 0 (.lit 0)) (sc 1 (.lit 1))
    e.OnceIn true ∧ (py idle.logged e ((), [])).2.2 = [0, 1] ∧
    Runs idle.logged (translate true e) (fun _ => ()) ((), []) () ((), [1, 0]) := by
  refine ⟨?_, by decide, ?_⟩
  · simp [Src.OnceIn, Src.Once, Args.Once, Src.isOp]
  · refine ⟨_, _, .nil _ _, ?_⟩
    refine .op false 0 _ _ _ () () _ ?_
    exact .step [.todo _] _ [] _ _ _ _ _ (run_exists idle.logged _ _ _)
      (.step [] _ [.done ()] _ _ _ _ _ (run_exists idle.logged _ _ _) (.finish [(), ()] _))

/-! ## C118: what C accepts, Fortran accepts -/

/-- C118: a statement can be printed in Fortran **exactly if** no call which returns an array lies in
something that the translator visits twice. -/
theorem C118_iff_partial (direct : Bool) (e : Src) :
    fortranOk direct (translate direct e) = true ↔ e.FlatIn direct := fortranOk_iff direct e

/-- `x = g(f(n), s(m)) + f(n)` satisfies the condition. -/
example : (Src.op true 0 (.call true 0 (.cons (.lit 0) (.cons (sc 1 (.lit 1)) .nil)))
    (ac 0 (.lit 2))).FlatIn true := by
  simp [Src.FlatIn, Src.Flat, Src.hasArr, Args.hasArr]

/-- C118 fails: `x = g(f(h(n)))`, with functions which return arrays, cannot be printed in Fortran,
nor can `y = 1 + f(h(n))`. -/
theorem C118_violated_nested_calls :
    fortranOk true (translate true (ac 2 (ac 1 (ac 0 (.lit 0))))) = false ∧
    fortranOk true (translate true (.op true 0 (.lit 1) (ac 1 (ac 0 (.lit 0))))) = false ∧
    fortranOk true (translate true (ac 1 (ac 0 (.lit 0)))) = true := by decide

end Verif.Hoist
