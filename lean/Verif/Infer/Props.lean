import Verif.Infer.Lemmas5

namespace Verif.Infer
open Verif.Types.Spec (Num)

/-! ## C110 -/

/-- C110: if a program is accepted and every value has the type of the variable or element to which it is assigned, the generated program does what Python
does, and at the end every variable holds Python's value, which has the type of the variable. -/
theorem C110_partial (n : Nat) (s : Stmt) (Γ Γ' : Nat → Option STy) (env env' : Nat → Option PVal) (cenv : Nat → Option (List Rat)) (b : Bool)
    (hi : infer Γ s = some Γ') (hS : Strict (fun a b => a = b) Γ s) (hs : Sim (fun a b => a = b) Γ' env cenv)
    (h : pyRun n s env = some (b, env')) :
    ∃ cenv', cRun Γ' n s cenv = some (b, cenv') ∧
      ∀ x v, env' x = some v → cenv' x = some v.nums ∧ ∃ T, Γ' x = some T ∧ HasTy (fun a b => a = b) v T := by
  obtain ⟨c, h1, h2⟩ := run_ok cong_eq hi (fun _ _ h => h) hS hs h
  refine ⟨c, h1, fun x v hv => ?_⟩
  have := h2 x
  rw [hv] at this
  obtain ⟨T, t1, t2, t3⟩ := this
  exact ⟨t3, T, t1, t2⟩

/-- C110: the check of pyccel is enough for programs whose variables are numbers of Python, `int64`, `float64` and `complex128`: the generated program does
what Python does, and all values have the kind and the size of their variable. -/
theorem C110_wide_partial (n : Nat) (s : Stmt) (Γ' : Nat → Option STy) (env' : Nat → Option PVal) (b : Bool) (hn : Numeric wide s)
    (hi : infer (fun _ => none) s = some Γ') (h : pyRun n s (fun _ => none) = some (b, env')) :
    ∃ cenv', cRun Γ' n s (fun _ => none) = some (b, cenv') ∧
      ∀ x v, env' x = some v → cenv' x = some v.nums ∧ ∃ d t q, v = .num d q ∧ Γ' x = some (.num t) ∧ d.kind = t.kind ∧ d.width = t.width := by
  have hs := numeric_strict closed_wide (Γ := fun _ => none) (fun _ _ h => by simp at h) hn hi
  obtain ⟨c, h1, h2⟩ := run_ok cong_wide hi (fun _ _ h => h) hs.2 (env := fun _ => none) (cenv := fun _ => none) (fun _ => rfl) h
  refine ⟨c, h1, fun x v hv => ?_⟩
  have := h2 x
  rw [hv] at this
  obtain ⟨T, t1, t2, t3⟩ := this
  obtain ⟨t, rfl, -⟩ := hs.1 _ _ t1
  cases v with
  | num d q => exact ⟨t3, d, t, q, rfl, t1, cong_wide.size t2.1⟩
  | tup => exact t2.elim
  | list => exact t2.elim

/-- C110: the same for programs whose variables are numbers of NumPy of any size; there every value has the type of its variable. -/
theorem C110_numpy_partial (n : Nat) (s : Stmt) (Γ' : Nat → Option STy) (env' : Nat → Option PVal) (b : Bool) (hn : Numeric sized s)
    (hi : infer (fun _ => none) s = some Γ') (h : pyRun n s (fun _ => none) = some (b, env')) :
    ∃ cenv', cRun Γ' n s (fun _ => none) = some (b, cenv') ∧
      ∀ x v, env' x = some v → cenv' x = some v.nums ∧ ∃ t q, v = .num t q ∧ Γ' x = some (.num t) := by
  have hs := numeric_strict closed_sized (Γ := fun _ => none) (fun _ _ h => by simp at h) hn hi
  obtain ⟨c, h1, h2⟩ := run_ok closed_sized.cong hi (fun _ _ h => h) hs.2 (env := fun _ => none) (cenv := fun _ => none) (fun _ => rfl) h
  refine ⟨c, h1, fun x v hv => ?_⟩
  have := h2 x
  rw [hv] at this
  obtain ⟨T, t1, t2, t3⟩ := this
  obtain ⟨t, rfl, -⟩ := hs.1 _ _ t1
  cases v with
  | num d q => have := eqIn_sized t2.1; subst this; exact ⟨t3, d, q, rfl, t1⟩
  | tup => exact t2.elim
  | list => exact t2.elim

/-- C110: the check of pyccel is also enough for programs with lists and tuples, if no tuple is stored in several variables and the values assigned to
elements of lists have the element type: all numbers are those of Python, and they have the kind and the size of the variable that holds them. -/
theorem C110_sequences_partial (n : Nat) (s : Stmt) (Γ' : Nat → Option STy) (env' : Nat → Option PVal) (b : Bool)
    (hn : Plain wide (fun _ => none) s) (hN : NoTup Γ') (hi : infer (fun _ => none) s = some Γ')
    (h : pyRun n s (fun _ => none) = some (b, env')) :
    ∃ cenv', cRun Γ' n s (fun _ => none) = some (b, cenv') ∧
      ∀ x v, env' x = some v → cenv' x = some v.nums ∧ ∃ T, Γ' x = some T ∧ HasTy SameSize v T := by
  have hs := plain_strict closed_wide (Γ := fun _ => none) (fun _ _ h => by simp at h) hN hn hi
  obtain ⟨c, h1, h2⟩ := run_ok cong_wide hi (fun _ _ h => h) hs.2 (env := fun _ => none) (cenv := fun _ => none) (fun _ => rfl) h
  refine ⟨c, h1, fun x v hv => ?_⟩
  have := h2 x
  rw [hv] at this
  obtain ⟨T, t1, t2, t3⟩ := this
  exact ⟨t3, T, t1, hasTy_mono (fun _ _ => cong_wide.size) t2⟩

/-- C110: the same for programs with lists and tuples of NumPy's numbers of any size. -/
theorem C110_numpy_sequences_partial (n : Nat) (s : Stmt) (Γ' : Nat → Option STy) (env' : Nat → Option PVal) (b : Bool)
    (hn : Plain sized (fun _ => none) s) (hN : NoTup Γ') (hi : infer (fun _ => none) s = some Γ')
    (h : pyRun n s (fun _ => none) = some (b, env')) :
    ∃ cenv', cRun Γ' n s (fun _ => none) = some (b, cenv') ∧
      ∀ x v, env' x = some v → cenv' x = some v.nums ∧ ∃ T, Γ' x = some T ∧ HasTy (fun a b => a = b) v T := by
  have hs := plain_strict closed_sized (Γ := fun _ => none) (fun _ _ h => by simp at h) hN hn hi
  obtain ⟨c, h1, h2⟩ := run_ok closed_sized.cong hi (fun _ _ h => h) hs.2 (env := fun _ => none) (cenv := fun _ => none) (fun _ => rfl) h
  refine ⟨c, h1, fun x v hv => ?_⟩
  have := h2 x
  rw [hv] at this
  obtain ⟨T, t1, t2, t3⟩ := this
  exact ⟨t3, T, t1, hasTy_mono (fun _ _ => eqIn_sized) t2⟩

/-- C110: an accepted assignment to a variable that has a type gives it numbers of the same kind and size, unless the variable is a tuple of several types
that is assigned a literal or a tuple of one type. -/
theorem C110_check_partial (Γ Γ' : Nat → Option STy) (x : Nat) (r : Rhs) (T U : STy) (h : infer Γ (.assign x r) = some Γ') (hT : Γ x = some T)
    (hU : rhsT Γ r = some U) (h1 : ∀ ts es, ¬ (T = .tup ts ∧ r = .tup es)) (h2 : ∀ ts u n, ¬ (T = .tup ts ∧ U = .htup u n)) : Agree T U := by
  have h : assignT Γ x r = some Γ' := h
  unfold assignT at h
  rw [hT, hU] at h
  simp only at h
  split at h
  · next hok =>
    unfold assignT.ok at hok
    split at hok
    · exact (h1 _ _ ⟨rfl, rfl⟩).elim
    · exact matchT_agree hok h2
  · simp at h

/-- C110: an accepted `x op= e` has a result of the kind and size of `x`, if all types are those of NumPy or all have 64 bits or more. -/
theorem C110_check_aug_partial (S : Num → Bool) (hS : S = wide ∨ S = sized) (Γ Γ' : Nat → Option STy) (x : Nat) (o : Op) (e : Expr) (t u : Num)
    (h : infer Γ (.aug x o e) = some Γ') (ht : Γ x = some (.num t)) (hu : typ Γ e = some u) (h1 : S t = true) (h2 : S u = true) :
    SameSize (dynT t u) t := by
  have hC : Closed S := hS.elim (fun h => h ▸ closed_wide) (fun h => h ▸ closed_sized)
  simp only [infer, ht, hu, dynT_addT, Option.any_some] at h
  split at h
  · next hc =>
    simp only [Bool.or_eq_true, decide_eq_true_eq] at hc
    rcases hc with hc | hc
    · exact eqT_size hc
    · exact eqT_size (hC.aug h1 h2 hc)
  · simp at h

/-- `l = [1, 2]; t = (1.5, 2.5); l[0] = l[1] * 3; t = (t[1], 4.5)`. -/
def exSeq : Stmt :=
  .seq (.assign 1 (.list [.lit .pint 1, .lit .pint 2])) <| .seq (.assign 2 (.tup [.lit .pfloat (3/2), .lit .pfloat (5/2)])) <|
  .seq (.setElem 1 0 (.bin .mul (.elem 1 1) (.lit .pint 3))) (.assign 2 (.tup [.elem 2 1, .lit .pfloat (9/2)]))

example : ∃ Γ', Plain wide (fun _ => none) exSeq ∧ NoTup Γ' ∧ infer (fun _ => none) exSeq = some Γ' ∧
    (pyRun 1 exSeq (fun _ => none)).map (fun r => (r.1, r.2 1, r.2 2)) =
      some (false, some (.list [(.pint, 6), (.pint, 2)]), some (.tup [(.pfloat, 5/2), (.pfloat, 9/2)])) := by
  refine ⟨_, ?_, ?_, rfl, by decide +kernel⟩
  · refine ⟨by intro e he; simp at he; rcases he with rfl | rfl <;> rfl, fun Γ1 h1 => ?_⟩
    cases h1
    refine ⟨by intro e he; simp at he; rcases he with rfl | rfl <;> rfl, fun Γ1 h1 => ?_⟩
    cases h1
    refine ⟨⟨by simp [ExprInS, wide, Num.python], fun t u h1 h2 => ?_⟩, fun Γ1 h1 => ?_⟩
    · cases h1; cases h2; rfl
    · simp [Plain, RhsInS, ExprInS, wide, Num.python]
  · intro x ts
    simp only [upd]
    split
    · simp
    · split <;> simp

example : ∃ Γ', Plain sized (fun _ => none) (.assign 1 (.tup [.lit .i8 1, .lit .i8 2])) ∧ NoTup Γ' ∧
    infer (fun _ => none) (.assign 1 (.tup [.lit .i8 1, .lit .i8 2])) = some Γ' ∧ Γ' 1 = some (.htup .i8 2) := by
  refine ⟨_, by intro e he; simp at he; rcases he with rfl | rfl <;> rfl, fun x ts => ?_, rfl, rfl⟩
  simp only [upd]
  split <;> simp

/-- The hypotheses of `C110_check_partial`: `x = y` for two tuples `(int, float)`; `C110_check_aug_partial`: `x += 1` for a `numpy.int64`. -/
example : (infer (fun x => if x < 3 then some (.tup [.pint, .pfloat]) else none) (.assign 1 (.copy 2))).isSome = true ∧
    (infer (fun x => if x < 3 then some (.num .i64) else none) (.aug 1 .add (.lit .pint 1))).isSome = true := ⟨rfl, rfl⟩

/-- C110: a variable never changes its type in the generated program. -/
theorem C110_one_type (s : Stmt) (Γ Γ' : Nat → Option STy) (x : Nat) (T : STy) (h : infer Γ s = some Γ') (hx : Γ x = some T) : Γ' x = some T :=
  infer_ext h x T hx

/-- `n = 3; s = 0.5; while n: s = s * 2 + 1; n -= 1`, then `return s`. -/
def exLoop : Stmt :=
  .seq (.assign 1 (.one (.lit .pint 3))) <| .seq (.assign 2 (.one (.lit .pfloat (1/2)))) <|
  .seq (.loop (.var 1) (.seq (.assign 2 (.one (.bin .add (.bin .mul (.var 2) (.lit .pint 2)) (.lit .pint 1)))) (.aug 1 .sub (.lit .pint 1))))
  (.ret (.one (.var 2)))

example : Numeric wide exLoop ∧ (infer (fun _ => none) exLoop).isSome = true ∧
    (pyRun 5 exLoop (fun _ => none)).map (fun r => (r.1, (r.2 0).map PVal.nums)) = some (true, some [11]) := by
  refine ⟨?_, rfl, by decide +kernel⟩
  simp [exLoop, Numeric, ExprIn, wide, Num.python]

example : Numeric sized (.assign 1 (.one (.bin .add (.lit .i8 100) (.lit .f32 1)))) := by simp [Numeric, ExprIn, sized, Num.python]

/-- `t = (1, 2.5); t = (3, t2)` with an ordinary variable. -/
def exTup : Stmt :=
  .seq (.assign 2 (.one (.lit .pfloat (7/2)))) <| .seq (.assign 1 (.tup [.lit .pint 1, .lit .pfloat (5/2)])) (.assign 1 (.tup [.lit .pint 3, .var 2]))

example : ∃ Γ' env', infer (fun _ => none) exTup = some Γ' ∧ Strict (fun a b => a = b) (fun _ => none) exTup ∧
    pyRun 1 exTup (fun _ => none) = some (false, env') ∧ env' 1 = some (.tup [(.pint, 3), (.pfloat, 7/2)]) := by
  refine ⟨_, _, rfl, ?_, rfl, by decide +kernel⟩
  refine ⟨?_, ?_⟩
  · rintro Γ1 T h1 h2
    cases h1
    cases h2
    exact ⟨rfl, fun u hu => by cases hu; rfl⟩
  · rintro Γ1 h1
    cases h1
    refine ⟨?_, ?_⟩
    · rintro Γ1 T h1 h2
      cases h1
      cases h2
      exact ⟨by simp [StrictE, Expr.Reads], fun u hu => by cases hu; exact ⟨rfl, rfl, trivial⟩⟩
    · rintro Γ1 h1 Γ2 T h2 h3
      cases h1
      cases h2
      cases h3
      exact ⟨by simp [StrictE, Expr.Reads], fun u hu => by cases hu; exact ⟨rfl, rfl, trivial⟩⟩

/-- An accepted program for which Python's variable `x` and the generated variable hold different numbers. -/
def Wrong (s : Stmt) (x : Nat) (p c : List Rat) : Prop :=
  (pyRun 9 s (fun _ => none)).bind (fun r => (r.2 x).map PVal.nums) = some p ∧
    (infer (fun _ => none) s).bind (fun Γ' => (cRun Γ' 9 s (fun _ => none)).bind (fun r => r.2 x)) = some c ∧ p ≠ c

/-- C110 fails: `t = (1, 2.5); t = (3.5, 4)` is accepted, and `t[0]` becomes 3. -/
theorem C110_violated_tuple :
    Wrong (.seq (.assign 1 (.tup [.lit .pint 1, .lit .pfloat (5/2)])) (.assign 1 (.tup [.lit .pfloat (7/2), .lit .pint 4]))) 1 [7/2, 4] [3, 4] :=
  by unfold Wrong; decide +kernel

/-- C110 fails: a function with `return 1, 2.5` in a branch and `return 3.5, 4` at the end is accepted, and returns 3 instead of 3.5. -/
theorem C110_violated_return :
    Wrong (.seq (.assign 1 (.one (.lit .pint 0))) (.seq (.ite (.var 1) (.ret (.tup [.lit .pint 1, .lit .pfloat (5/2)])) .skip)
      (.ret (.tup [.lit .pfloat (7/2), .lit .pint 4])))) 0 [7/2, 4] [3, 4] :=
  by unfold Wrong; decide +kernel

/-- C110 fails: after `t = (1, 2.5, True)`, `t = (7, 8.5)` is accepted, and `t` still has three elements. -/
theorem C110_violated_shorter :
    Wrong (.seq (.assign 1 (.tup [.lit .pint 1, .lit .pfloat (5/2), .lit .pbool 1])) (.assign 1 (.tup [.lit .pint 7, .lit .pfloat (17/2)]))) 1
      [7, 17/2] [7, 17/2, 1] :=
  by unfold Wrong; decide +kernel

/-- C110 fails: after `t = (1.5, 2)` and `h = (3.5, 4.5)`, `t = h` is accepted because the first elements have the same type, and `t[1]` becomes 4. -/
theorem C110_violated_copy :
    Wrong (.seq (.assign 1 (.tup [.lit .pfloat (3/2), .lit .pint 2])) (.seq (.assign 2 (.tup [.lit .pfloat (7/2), .lit .pfloat (9/2)])) (.assign 1 (.copy 2)))) 1
      [7/2, 9/2] [7/2, 4] :=
  by unfold Wrong; decide +kernel

/-- C110 fails: `l = [1, 2]; l[0] = 2.5` is accepted, and `l[0]` becomes 2. -/
theorem C110_violated_list :
    Wrong (.seq (.assign 1 (.list [.lit .pint 1, .lit .pint 2])) (.setElem 1 0 (.lit .pfloat (5/2)))) 1 [5/2, 2] [2, 2] :=
  by unfold Wrong; decide +kernel

/-- C110 fails: `x = 1; x = int64(1000); y = x + int8(1)`.  The types `int` and `int64` count as equal, `x` stays an `int`, which has no size next to
an `int8`; so `y` is an `int8` and becomes -23. -/
theorem C110_violated_weak :
    Wrong (.seq (.assign 1 (.one (.lit .pint 1))) (.seq (.assign 1 (.one (.lit .i64 1000))) (.assign 2 (.one (.bin .add (.var 1) (.lit .i8 1)))))) 2 [1001] [-23] :=
  by unfold Wrong; decide +kernel

/-- C110 fails: `x = 1 if c else 2.5` is a `float` in the generated program and may be an `int` in Python. -/
theorem C110_violated_ternary : ∃ s Γ' env', infer (fun _ => none) s = some Γ' ∧ pyRun 9 s (fun _ => none) = some (false, env') ∧
    Γ' 1 = some (.num .pfloat) ∧ env' 1 = some (.num .pint 1) :=
  ⟨.assign 1 (.one (.cond (.lit .pbool 1) (.lit .pint 1) (.lit .pfloat (5/2)))), _, _, rfl, rfl, rfl, by decide +kernel⟩

/-- C110 fails: a function that returns a number on one path only is accepted.  Where Python returns `None`, the generated function returns a variable
that has no value. -/
theorem C110_violated_no_return : ∃ s Γ' env' cenv', infer (fun _ => none) s = some Γ' ∧ pyRun 9 s (fun _ => none) = some (false, env') ∧
    cRun Γ' 9 s (fun _ => none) = some (false, cenv') ∧ Γ' 0 = some (.num .pint) ∧ cenv' 0 = none :=
  ⟨.seq (.assign 1 (.one (.lit .pint 0))) (.ite (.var 1) (.ret (.one (.lit .pint 1))) .skip), _, _, _, rfl, rfl, rfl, rfl, rfl⟩

end Verif.Infer
