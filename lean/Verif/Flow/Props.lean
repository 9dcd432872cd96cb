import Verif.Flow.FortranLemmas

/-
Properties of control flow: C26, C27, C59, C60, C61.

`p.run n s` (file Spec) is what Python does with the block `p` in state `s`, when every loop is cut
off after `n` iterations: the way the block ends (falls through, breaks, continues, returns a value,
raises, is cut off) and the final values of the variables.  Equality for every `n` therefore says
that the same loops end after the same number of iterations, with the same values, and that the
same runs raise.
-/

namespace Verif.Flow
open Verif.Flow.Spec Verif.Flow.Model Verif.Flow.Lemmas

variable {D : Dom}

/-- A static evaluation of conditions is sound if it only claims what is true in all states. -/
def SoundOracle (oracle : Cond D → Option Bool) : Prop :=
  ∀ c b, oracle c = some b → ∀ s : Env D, evalC s c = some b

/-! ### C26: dead branches -/

/-- The tree built by the syntactic stage (chains of sections instead of nested `else`s) behaves
like the Python program. -/
theorem C26_chain (n : Nat) (p : PBlock D) (s : Env D) : (visitBlock p).run n s = p.run n s :=
  visitBlock_run n p s

/-- After the semantic stage has removed the branches which it can tell are never taken, the program
still behaves like the Python program, provided what SymPy says about conditions is right. -/
theorem C26_pruning_partial {oracle : Cond D → Option Bool} (ho : SoundOracle oracle) (n : Nat)
    (p : PBlock D) (s : Env D) : (pruneBlock oracle (visitBlock p)).run n s = p.run n s := by
  rw [pruneBlock_run ho, visitBlock_run]

/-- No section whose condition is known to be false is left, and nothing follows a section whose
condition is known to be true. -/
def NoDead (oracle : Cond D → Option Bool) : Secs D → Prop
  | .nil => True
  | .cons c _ rest => c ≠ .lit false ∧ (c = .lit true → rest = .nil) ∧ NoDead oracle rest

theorem C26_dead_removed (oracle : Cond D → Option Bool) :
    ∀ secs : Secs D, NoDead oracle (pruneSecs oracle secs)
  | .nil => by rw [pruneSecs]; trivial
  | .cons c body rest => by
    have hr := C26_dead_removed oracle rest
    rw [pruneSecs]
    split
    · exact hr
    · exact ⟨by simp, fun _ => rfl, trivial⟩
    · next h1 h2 => exact ⟨fun h => h1 h, fun h => absurd h h2, hr⟩

/-- A sound oracle: literals only. -/
def literalOracle : Cond D → Option Bool
  | .lit b => some b
  | _ => none

theorem literalOracle_sound : SoundOracle (D := D) literalOracle := by
  intro c b h s
  cases c with
  | lit c => rw [literalOracle] at h; rw [evalC]; exact h
  | _ => cases h

theorem int_cmp_self (a : Int) : decide (a = a) = true ∧ decide (a ≠ a) = false := by simp

/-- On integers, the rule of SymPy about a variable compared with itself is sound as well. -/
theorem sameVar_sound_int : SoundOracle (D := intDom) sameVar := by
  intro c b h s
  unfold sameVar at h
  split at h
  · next x y =>
    split at h
    · next hxy =>
      cases h; subst hxy; simp only [evalC, evalE]
      exact congrArg some (int_cmp_self (s x)).1
    · cases h
  · next x y =>
    split at h
    · next hxy =>
      cases h; subst hxy; simp only [evalC, evalE]
      exact congrArg some (int_cmp_self (s x)).2
    · cases h
  · rw [evalC]; exact h
  · cases h

/-- `if False: a() elif x > 0: b() else: c()`: the hypotheses hold and something is removed. -/
example : pruneBlock (D := intDom) literalOracle (visitBlock
    (.cons (.ite (.lit false) (.cons (.assign 0 (.lit (1 : Int))) .nil)
      (.cons (.ite (.cmp .gt (.var 0) (.lit (0 : Int))) (.cons (.assign 0 (.lit (2 : Int))) .nil)
        (.cons (.assign 0 (.lit (3 : Int))) .nil)) .nil)) .nil)) =
    .cons (.ifs (.cons (.cmp .gt (.var 0) (.lit (0 : Int))) (.cons (.assign 0 (.lit (2 : Int))) .nil)
      (.cons (.lit true) (.cons (.assign 0 (.lit (3 : Int))) .nil) .nil))) .nil := rfl

/-- `if x != x: y = 1`, the usual test for NaN. -/
def nanGuard : PBlock nanDom :=
  .cons (.ite (.cmp .ne (.var 0) (.var 0)) (.cons (.assign 1 (.lit (some 1))) .nil) .nil) .nil

/-- The branch guarded by `x != x` is dropped, because SymPy says the condition is false; Python
takes it when `x` is NaN. -/
theorem C26_nan_guard_violated :
    ∃ (p : PBlock nanDom) (s : Env nanDom) (v : Env nanDom) (w : Env nanDom),
      p.run 1 s = .norm v ∧ (pruneBlock sameVar (visitBlock p)).run 1 s = .norm w ∧
      v 1 = some 1 ∧ w 1 = some 0 :=
  ⟨nanGuard, fun x => if x = 0 then none else some 0,
    Env.set (D := nanDom) (fun x => if x = 0 then none else some 0) 1 (some 1),
    fun x => if x = 0 then none else some 0, rfl, rfl, rfl, rfl⟩

/-! ### C27: chained comparisons -/

/-- If evaluating the operands between the first and the last does not change the state, the
translation of a chained comparison (of any length, with any operators; every operand may raise,
and the first and last may have effects) has the value, the effects and the exceptions of the
Python comparison. -/
theorem C27_chain_partial {σ V : Type} (cmp : Cmp → V → V → Bool) (x : Operand σ V)
    (rest : List (Cmp × Operand σ V)) (hne : rest ≠ []) (hq : ∀ p ∈ rest.dropLast, Quiet p.2) :
    ∃ d, visitCompare x rest = some d ∧ ∀ s, d.eval cmp s = chain cmp x rest s :=
  compareLoop_eval cmp rest x hq hne

/-- `0 < x < f()` in a state where `f` counts its calls. -/
example : ∀ p ∈ ([(Cmp.lt, fun s => some ((5 : Int), s)), (Cmp.lt, fun s => some (9, s + 1))] :
    List (Cmp × Operand Int Int)).dropLast, Quiet p.2 := by
  intro p hp s v s' h
  simp at hp
  subst hp
  simp at h
  exact h.2.symm

/-- With an effect in the middle the operand is evaluated twice: `0 < next() < 10`, where `next`
increments a counter and returns it, leaves the counter at 2 instead of 1 and compares 1 and 2. -/
theorem C27_evaluated_twice_violated :
    ∃ (x : Operand Int Int) (rest : List (Cmp × Operand Int Int)) (d : Conj Int Int) (s : Int),
      visitCompare x rest = some d ∧
      chain intDom.cmp x rest s = some (true, 1) ∧ d.eval intDom.cmp s = some (true, 2) :=
  ⟨fun s => some (0, s), [(.lt, fun s => some (s + 1, s + 1)), (.lt, fun s => some (10, s))], _, 0,
    rfl, rfl, rfl⟩

/-- The value can be wrong too: with `next` returning the counter before the increment,
`-1 < next() < 1` is true in Python and false in the translation. -/
theorem C27_wrong_value_violated :
    ∃ (x : Operand Int Int) (rest : List (Cmp × Operand Int Int)) (d : Conj Int Int) (s : Int),
      visitCompare x rest = some d ∧
      chain intDom.cmp x rest s = some (true, 1) ∧ d.eval intDom.cmp s = some (false, 2) :=
  ⟨fun s => some (-1, s), [(.lt, fun s => some (s, s + 1)), (.lt, fun s => some (1, s))], _, 0,
    rfl, rfl, rfl⟩

/-! ### C61: programs made of assignments, conditionals and loops -/

/-- The generated C code does exactly what Python does: for every program in which the arguments
of `min` and `max` that are moved in front of a statement are not part of a loop test, and cannot
raise if Python might not evaluate them. -/
theorem C61_c_partial {oracle : Cond D → Option Bool} (ho : SoundOracle oracle) (hm : MinMax D)
    (p : PBlock D) (hp : p.Hoistable) (n : Nat) (s : TState D) :
    (runC n (toC oracle p) s).map Prod.fst = p.run n s.1 := by
  rw [forget_eq, ← C26_pruning_partial ho n p s.1]
  exact lowBlock_run hm n _ 0 (pruneBlock_ok oracle _ (visitBlock_ok p hp)) s

/-- The generated Fortran code does exactly what Python does, whatever the processor decides to
evaluate: for every program in which what Python might not evaluate cannot raise. -/
theorem C61_fortran_partial {oracle : Cond D → Option Bool} (ho : SoundOracle oracle)
    (lc : Cond D → Cond D → Env D → Bool) (le : Cond D → Expr D → Expr D → Env D → Bool)
    (p : PBlock D) (hp : p.StrictSafe) (n : Nat) (s : TState D) :
    (runF lc le n (toFortran oracle p) s).map Prod.fst = p.run n s.1 := by
  rw [forget_eq, ← C26_pruning_partial ho n p s.1]
  exact forBlock_run lc le n _ (pruneBlock_strict oracle _ (visitBlock_strict p hp)) s

/-- A program with a loop, an `if`/`elif`/`else` chain, `break`, `return` and a `min` of compound
arguments in a second condition:
`while x0 < 10: if x0 % x1 == 0: x0 = x0 + 1 elif min(x0 + 1, x1) < 3: break else: return x0`. -/
def sample : PBlock intDom :=
  .cons (.while (.cmp .lt (.var 0) (.lit (10 : Int)))
    (.cons (.ite (.cmp .eq (.bin .mod (.var 0) (.var 1)) (.lit (0 : Int)))
      (.cons (.assign 0 (.bin .add (.var 0) (.lit (1 : Int)))) .nil)
      (.cons (.ite (.cmp .lt (.min (.bin .add (.var 0) (.lit (1 : Int))) (.var 1)) (.lit (3 : Int)))
        (.cons .brk .nil)
        (.cons (.ret (.var 0)) .nil)) .nil)) .nil)) .nil

example : sample.Hoistable ∧ sample.StrictSafe ∧ SoundOracle (D := intDom) sameVar ∧
    MinMax intDom := by
  refine ⟨?_, ?_, sameVar_sound_int, intDom_minMax⟩
  · simp only [sample, PBlock.Hoistable, PStmt.Hoistable, PBlock.HoistableElse, PlainC, PlainE,
      LazySafeC, LazySafeE, SafeC, SafeE, and_self, and_true, true_and]
    exact ⟨fun _ s => ⟨Int.add (s 0) 1, by simp only [evalE]; rfl⟩,
      fun h => absurd h (by simp [Expr.compound])⟩
  · simp only [sample, PBlock.StrictSafe, PStmt.StrictSafe, StrictSafeC, StrictSafeE, and_self]

/-- The generated C has a temporary in front of the conditional. -/
example : ∃ body, toC sameVar sample =
    .cons (.while (.cmp .lt (.var 0) (.lit (10 : Int))) body) .nil ∧
    ∃ rest, body = .cons (.setTmp 0 (.bin .add (.var 0) (.lit (1 : Int)))) rest :=
  ⟨_, rfl, _, rfl⟩

/-! ### C59: conditions are evaluated only when they are reached -/

/-- In C an exception appears only where Python raises one, for the same programs as in C61. -/
theorem C59_c_partial {oracle : Cond D → Option Bool} (ho : SoundOracle oracle) (hm : MinMax D)
    (p : PBlock D) (hp : p.Hoistable) (n : Nat) (s : TState D) :
    runC n (toC oracle p) s = .err ↔ p.run n s.1 = .err := by
  rw [← C61_c_partial ho hm p hp n s]
  cases runC n (toC oracle p) s <;> simp [Out.map]

theorem C59_fortran_partial {oracle : Cond D → Option Bool} (ho : SoundOracle oracle)
    (lc : Cond D → Cond D → Env D → Bool) (le : Cond D → Expr D → Expr D → Env D → Bool)
    (p : PBlock D) (hp : p.StrictSafe) (n : Nat) (s : TState D) :
    runF lc le n (toFortran oracle p) s = .err ↔ p.run n s.1 = .err := by
  rw [← C61_fortran_partial ho lc le p hp n s]
  cases runF lc le n (toFortran oracle p) s <;> simp [Out.map]

/-- `if x0 == 0: x1 = 1 elif min(10 // x0, 5) > 2: x1 = 2`. -/
def guardedElif : PBlock intDom :=
  .cons (.ite (.cmp .eq (.var 0) (.lit (0 : Int))) (.cons (.assign 1 (.lit (1 : Int))) .nil)
    (.cons (.ite (.cmp .gt (.min (.bin .fdiv (.lit (10 : Int)) (.var 0)) (.lit (5 : Int)))
      (.lit (2 : Int))) (.cons (.assign 1 (.lit (2 : Int))) .nil) .nil) .nil)) .nil

/-- C: the argument of `min` in an `elif` is computed before the first condition is tested, so the
division by zero it was protected from happens. -/
theorem C59_elif_violated :
    ∃ (p : PBlock intDom) (s : TState intDom) (v : Env intDom),
      p.run 1 s.1 = .norm v ∧ v 1 = (1 : Int) ∧ runC 1 (toC sameVar p) s = .err :=
  ⟨guardedElif, (fun _ => (0 : Int), fun _ => (0 : Int)),
    Env.set (D := intDom) (fun _ => (0 : Int)) 1 (1 : Int), rfl, rfl, rfl⟩

/-- `if x0 != 0 and min(10 // x0, 5) > 2: x1 = 2`. -/
def guardedAnd : PBlock intDom :=
  .cons (.ite (.and (.cmp .ne (.var 0) (.lit (0 : Int)))
      (.cmp .gt (.min (.bin .fdiv (.lit (10 : Int)) (.var 0)) (.lit (5 : Int))) (.lit (2 : Int))))
    (.cons (.assign 1 (.lit (2 : Int))) .nil) .nil) .nil

/-- C: the same with the second operand of `and`. -/
theorem C59_and_violated :
    ∃ (p : PBlock intDom) (s : TState intDom) (v : Env intDom),
      p.run 1 s.1 = .norm v ∧ runC 1 (toC sameVar p) s = .err :=
  ⟨guardedAnd, (fun _ => (0 : Int), fun _ => (0 : Int)), fun _ => (0 : Int), rfl, rfl⟩

/-- `x1 = 10 // x0 if x0 != 0 else 0`. -/
def guardedTernary : PBlock intDom :=
  .cons (.assign 1 (.tern (.cmp .ne (.var 0) (.lit (0 : Int)))
    (.bin .fdiv (.lit (10 : Int)) (.var 0)) (.lit (0 : Int)))) .nil

/-- Fortran: a processor is allowed to evaluate both branches of `merge`, and then divides by
zero. -/
theorem C59_fortran_merge_violated :
    ∃ (p : PBlock intDom) (s : TState intDom) (v : Env intDom)
      (lc : Cond intDom → Cond intDom → Env intDom → Bool)
      (le : Cond intDom → Expr intDom → Expr intDom → Env intDom → Bool),
      p.run 1 s.1 = .norm v ∧ runF lc le 1 (toFortran sameVar p) s = .err :=
  ⟨guardedTernary, (fun _ => (0 : Int), fun _ => (0 : Int)),
    Env.set (D := intDom) (fun _ => (0 : Int)) 1 (0 : Int), fun _ _ _ => false,
    fun _ _ _ _ => false, rfl, rfl⟩

/-! ### C60: the test of a loop is evaluated before every iteration -/

/-- For a loop whose test has no `min` or `max` with compound arguments, the generated C loop makes
the same iterations as the Python loop. -/
theorem C60_c_partial {oracle : Cond D → Option Bool} (ho : SoundOracle oracle) (hm : MinMax D)
    (c : Cond D) (body : PBlock D) (hc : PlainC c) (hb : body.Hoistable) (n : Nat) (s : TState D) :
    (runC n (toC oracle (.cons (.while c body) .nil)) s).map Prod.fst =
      loop (fun s => evalC s c) (fun s => body.run n s) n s.1 := by
  rw [C61_c_partial ho hm _ (by
    rw [PBlock.Hoistable, PStmt.Hoistable, PBlock.Hoistable]; exact ⟨⟨hc, hb⟩, trivial⟩)]
  rw [PBlock.run, PStmt.run]
  exact (congrArg _ (funext fun s => by rw [PBlock.run])).trans (andThen_norm _)

/-- `while min(x0 + 1, 3) < 3: x0 = x0 + 1`. -/
def minLoop : PBlock intDom :=
  .cons (.while (.cmp .lt (.min (.bin .add (.var 0) (.lit (1 : Int))) (.lit (3 : Int)))
      (.lit (3 : Int)))
    (.cons (.assign 0 (.bin .add (.var 0) (.lit (1 : Int)))) .nil)) .nil

/-- The test is computed once, in front of the loop: started with `x0 = 0`, the Python loop ends
with `x0 = 2`, the C loop never ends. -/
theorem C60_test_frozen_violated :
    ∃ (p : PBlock intDom) (s : TState intDom) (v : Env intDom),
      p.run 5 s.1 = .norm v ∧ v 0 = (2 : Int) ∧ ∀ n, runC n (toC sameVar p) s = .fuel := by
  refine ⟨minLoop, (fun _ => (0 : Int), fun _ => (0 : Int)), _, rfl, rfl, fun n => ?_⟩
  have key : ∀ (m n : Nat) (s : TState intDom), s.2 0 = (1 : Int) →
      loop (fun s => cevalC s (.cmp .lt (.tern (.cmp .lt (.tmp 0) (.lit (3 : Int))) (.tmp 0)
          (.lit (3 : Int))) (.lit (3 : Int))))
        (fun s => TBlock.run cevalE cevalC m
          (.cons (.assign 0 (.bin .add (.var 0) (.lit (1 : Int)))) .nil) s) n s
        = (.fuel : Out (TState intDom) Int) := by
    intro m n
    induction n with
    | zero => intro s _; rfl
    | succ n ih =>
      intro s hs
      have ht : cevalC s (.cmp .lt (.tern (.cmp .lt (.tmp 0) (.lit (3 : Int))) (.tmp 0)
          (.lit (3 : Int))) (.lit (3 : Int))) = some true := by
        simp only [cevalC, cevalE, hs]; rfl
      rw [loop, ht]
      exact ih _ hs
  have h := key n n (fun _ => (0 : Int), fun j => if j = 0 then (1 : Int) else (0 : Int)) rfl
  show Out.andThen (loop _ _ n _) _ = _
  exact congrArg (fun o => Out.andThen o _) h

end Verif.Flow
