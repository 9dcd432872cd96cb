import Verif.Globals.Lemmas4

/-!
# C160: variables of functions are not variables of the file, C161: imported variables
-/

namespace Verif.Globals.Props
open Spec Model Lemmas

/-! Names: 0 = `x`, 1 = `y`, 2 = `i`, 3 = `r`; functions: 10 = `f`, 11 = `g`. -/

def plus (a b : Expr Name) : Expr Name := .bin (· + ·) a b
def less (a b : Expr Name) : Expr Name := .bin (fun u v => if u < v then 1 else 0) a b

/-- `x = 1`, `def f(y): x = y + 5; return x + y`, and
`if __name__ == "__main__": r = f(2); print(x); print(r)`; here `x` may be declared. -/
def small (decl : Bool) : Prog where
  funcs := [⟨10, [1], true, if decl then .ann 0 (plus (.var 1) (.lit 5)) else .assign 0 (plus (.var 1) (.lit 5)),
    plus (.var 0) (.var 1)⟩]
  mod := .assign 0 (.lit 1)
  main := .seq (.call 3 10 [.lit 2]) (.seq (.print (.var 0)) (.print (.var 3)))

/-- C160 (part): if the names that functions assign are names of variables of the file only where they are
visibly local (a parameter, declared with its type before it is used, or a result with an annotated type),
and the program declares no variable of the file again, then what pyccel accepts prints what it prints in
Python, for every number of steps (`none`: an exception in Python, an undefined value in the compiled
code). -/
theorem C160_partial (p : Prog) (c : CProg) (h : Apart p) (hc : compile p = some c) (fuel : Nat) :
    runC c fuel = run p fuel := by
  have ht : Tidy p := ⟨fun f hf x hx => h.funcs f hf x (annotated_assigned hx), h.main⟩
  obtain ⟨decl, h1, _, h2⟩ := main_eq ht hc
  have : decl = fun _ => [] := by
    funext n
    refine List.eq_nil_iff_forall_not_mem.2 fun x hx => ?_
    obtain ⟨f, hf, _, ha, hm, hn⟩ := h1 n x hx
    exact hn (h.funcs f hf x ha hm)
  rw [h2, this, run]

example : Apart (small true) ∧ ∃ c, compile (small true) = some c ∧ runC c 9 = some [1, 9] := by
  refine ⟨⟨?_, ?_⟩, _, rfl, by decide +kernel⟩
  · intro f hf x hx _
    obtain rfl := List.mem_singleton.1 hf
    obtain rfl := List.mem_singleton.1 hx
    exact .inr (.inr rfl)
  · intro x hx
    simp [small, annotated] at hx

/-- C160 (what it does instead): the compiled program does what the Python program does if each function
began with `global` for names that it assigns, that are variables of the file and not visibly its own: all
of them, if the statements of the file call no function.  (If they do, those that the file assigned before,
in the order of the text.) -/
theorem C160_global (p : Prog) (c : CProg) (h : Tidy p) (hc : compile p = some c) :
    ∃ decl : Name → List Name,
      (∀ n, ∀ x ∈ decl n, ∃ f ∈ p.funcs, f.name = n ∧ x ∈ assigned f.body ∧ x ∈ assigned p.mod ∧ ¬ Own f x) ∧
      (NoCall p.mod → ∀ n f, getFun p.funcs n = some f →
        ∀ x, x ∈ assigned f.body → x ∈ assigned p.mod → ¬ Own f x → x ∈ decl n) ∧
      ∀ fuel, runC c fuel = runGlobal p decl fuel :=
  main_eq h hc

example : Tidy (small false) ∧ NoCall (small false).mod ∧ (compile (small false)).isSome ∧
    runGlobal (small false) (fun _ => [0]) 9 = some [7, 9] := by
  refine ⟨⟨?_, ?_⟩, trivial, rfl, by decide +kernel⟩
  · intro f hf x hx
    obtain rfl := List.mem_singleton.1 hf
    cases hx
  · intro x hx
    simp [small, annotated] at hx

/-- C160 fails: an assignment in a function to a name that is also a variable of the file changes the
variable of the file.  After `x = 1`, `def f(y): x = y + 5; return x + y` and `r = f(2)`, Python prints
`x` as 1, the compiled program prints 7. -/
theorem C160_violated : ∃ c, compile (small false) = some c ∧ run (small false) 9 = some [1, 9] ∧
    runC c 9 = some [7, 9] :=
  ⟨_, rfl, by decide +kernel, by decide +kernel⟩

/-- `i = 0`; `def g(y): i = 0; while i < y: i = i + 1; return y`;
`def f(y): i = 0; while i < y: r = g(3); print(r); i = i + 1; return y`; `print(f(3))`. -/
def loops : Prog where
  funcs := [
    ⟨11, [1], true, .seq (.assign 2 (.lit 0))
      (.while (less (.var 2) (.var 1)) (.assign 2 (plus (.var 2) (.lit 1)))), .var 1⟩,
    ⟨10, [1], true, .seq (.assign 2 (.lit 0))
      (.while (less (.var 2) (.var 1)) (.seq (.call 3 11 [.lit 3])
        (.seq (.print (.var 3)) (.assign 2 (plus (.var 2) (.lit 1)))))), .var 1⟩]
  mod := .assign 2 (.lit 0)
  main := .call 3 10 [.lit 3]

/-- C160 fails: two functions that count with `i`, one of which calls the other, share their counter if
the file has a variable `i`: the outer loop of the program above runs three times in Python, once when it
is compiled. -/
theorem C160_violated_loops : ∃ c, compile loops = some c ∧ run loops 30 = some [3, 3, 3] ∧
    runC c 30 = some [3] :=
  ⟨_, rfl, by decide +kernel, by decide +kernel⟩

/-- `def f(y): x = y; return x + y`, in files where the first call stands before or after `x = 1`:
`r = f(2); x = 1; r = f(3)` and `x = 1; r = f(3)`, with `print(x)` at the end. -/
def ordered (early : Bool) : Prog where
  funcs := [⟨10, [1], true, .assign 0 (.var 1), plus (.var 0) (.var 1)⟩]
  mod := .seq (if early then .call 3 10 [.lit 2] else .skip) (.seq (.assign 0 (.lit 1)) (.call 3 10 [.lit 3]))
  main := .print (.var 0)

/-- C160 fails: whether a function changes the variable of the file depends on whether it is called before
the text in which the variable is created: with such a call, `x` is 1 at the end, as in Python; without it,
`x` is 3. -/
theorem C160_violated_order :
    (∃ c, compile (ordered true) = some c ∧ runC c 9 = some [1]) ∧ run (ordered true) 9 = some [1] ∧
    (∃ c, compile (ordered false) = some c ∧ runC c 9 = some [3]) ∧ run (ordered false) 9 = some [1] :=
  ⟨⟨_, rfl, by decide +kernel⟩, by decide +kernel, ⟨_, rfl, by decide +kernel⟩, by decide +kernel⟩

/-- `x = 1`; `def f(y): return x + y`; `if __name__ == "__main__": x : int = 5; print(f(0)); print(x)`. -/
def again : Prog where
  funcs := [⟨10, [1], true, .skip, plus (.var 0) (.var 1)⟩]
  mod := .assign 0 (.lit 1)
  main := .seq (.ann 0 (.lit 5)) (.seq (.call 3 10 [.lit 0]) (.seq (.print (.var 3)) (.print (.var 0))))

/-- C160 fails: a variable of the file that the program assigns with an annotation becomes another variable,
which functions do not see: they read 1 where Python's read 5. -/
theorem C160_violated_main : ∃ c, compile again = some c ∧ run again 9 = some [5, 5] ∧
    runC c 9 = some [1, 5] :=
  ⟨_, rfl, by decide +kernel, by decide +kernel⟩

/-! ## C161 -/

/-- The file `m`: `x = 1`, `def get(y): return x + y`. -/
def counter : Prog where
  funcs := [⟨10, [1], true, .skip, plus (.var 0) (.var 1)⟩]
  mod := .assign 0 (.lit 1)
  main := .skip

/-- `from m import x, get`, then (`y = x + 4` or `x = x + 4`), `r = get(0)`, `print(r)`. -/
def importer (z : Name) : Stmt Name :=
  .seq (.assign z (plus (.var 0) (.lit 4))) (.seq (.call 3 10 [.lit 0]) (.print (.var 3)))

/-- C161 (part): a file that imports variables and functions from another, and assigns none of the imported
names, prints what it prints in Python, if in the other file the names that functions assign are visibly
local or not names of its variables. -/
theorem C161_partial (p : Prog) (imported : List Name) (use : Stmt Name) (c : CProg) (u : Stmt Ref)
    (ha : Apart p) (hx : ∀ x ∈ assigned use, x ∉ imported)
    (hc : compileImport p imported use = some (c, u)) (fuel : Nat) :
    runCImport c u fuel = runImport p imported use fuel :=
  import_eq ha hx hc fuel

example : Apart counter ∧ (∀ x ∈ assigned (importer 1), x ∉ [0]) ∧
    ∃ c u, compileImport counter [0] (importer 1) = some (c, u) ∧ runCImport c u 9 = some [1] := by
  refine ⟨⟨?_, ?_⟩, ?_, _, _, rfl, by decide +kernel⟩
  · intro f hf x hx
    obtain rfl := List.mem_singleton.1 hf
    cases hx
  · intro x hx
    cases hx
  · decide

/-- C161 fails: after `from m import x` an assignment to `x` changes the variable of `m`.  With `x = 1` and
`def get(y): return x + y` in `m`, `x = x + 4` makes `get(0)` return 5; in Python it returns 1. -/
theorem C161_violated : ∃ c u, compileImport counter [0] (importer 0) = some (c, u) ∧
    runImport counter [0] (importer 0) 9 = some [1] ∧ runCImport c u 9 = some [5] :=
  ⟨_, _, rfl, by decide +kernel, by decide +kernel⟩

end Verif.Globals.Props
