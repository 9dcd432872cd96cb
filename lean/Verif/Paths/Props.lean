import Verif.Paths.Lemmas
/-
C169: the `else` block of a loop runs if the loop ends without `break`.
C170: a failed assertion ends the execution, one that holds has no effect.
C171: a call gives the value that the function returns.
-/
namespace Verif.Paths.Props
open Verif.Paths.Spec Verif.Paths.Model Verif.Paths.Lemmas

variable {σ V : Type}

/-- C169: code without `else` blocks of loops does what it does in Python, with any number of iterations; assertions fail in the same state. -/
theorem C169_partial (m : Mode) (hm : m ≠ .cRelease) (c : Code σ V) (hc : c.NoElse) (s : σ) (o : Out σ V) :
    (∃ n, run n (tr m c) s = some o) ↔ ∃ n, exec n c s = some o := by
  constructor
  · rintro ⟨n, h⟩; exact ⟨_, back m hm n c s o hc h⟩
  · rintro ⟨n, h⟩; exact ⟨n, forth m hm n c s o hc h⟩

/-- `for i in range(n): if p(i): r = i; break` `else: r = n + 1`; `return r`; the state is (n, i, r). -/
def search (p : Nat → Bool) : Code (Nat × Nat × Nat) Nat :=
  .for (fun s => some s.1) (fun k s => (s.1, k, s.2.2)) (.ite (fun s => some (p s.2.1, s)) (.act (fun s => some (s.1, s.2.1, s.2.1)) .brk) .done .done)
    (.act (fun s => some (s.1, s.2.1, s.1 + 1)) .done) (.ret fun s => some (s.2.2, s))

/-- C169 fails: a search that finds nothing returns the old value of `r` instead of the one that the `else` block gives it, for every range. -/
theorem C169_violated (m : Mode) (n r : Nat) : ∃ i,
    (∃ k, exec k (search fun _ => false) (n, 0, r) = some (.ret (n, i, n + 1) (n + 1))) ∧
    (∃ k, run k (tr m (search fun _ => false)) (n, 0, r) = some (.ret (n, i, r) r)) := by
  have h1 : ∀ (j k i : Nat), ∃ i', iter (exec 3 (σ := Nat × Nat × Nat) (V := Nat) (.ite (fun s => some (false, s)) (.act (fun s => some (s.1, s.2.1, s.2.1)) .brk)
      .done .done)) (fun k s => (s.1, k, s.2.2)) j k (n, i, r) = some (.next (n, i', r)) ∧
      iter (run 3 (σ := Nat × Nat × Nat) (V := Nat) (.ite (fun s => some (false, s)) (.act (fun s => some (s.1, s.2.1, s.2.1)) .brk)
      .done .done)) (fun k s => (s.1, k, s.2.2)) j k (n, i, r) = some (.next (n, i', r)) := by
    intro j
    induction j with
    | zero => intro k i; exact ⟨i, rfl, rfl⟩
    | succ j ih => intro k i; simpa [iter, exec, run, Out.andThen] using ih (k + 1) k
  obtain ⟨i, ha, hb⟩ := h1 n 0 0
  refine ⟨i, ⟨4, ?_⟩, ⟨4, ?_⟩⟩
  · unfold search
    rw [exec]
    simp only [ha]
    simp [exec, Out.andThen]
  · simp only [search, tr]
    rw [run]
    simp only [hb]
    simp [run]

/-- C169: the same for `while` loops whose test is false: the `else` block is left out, whatever it does. -/
theorem C169_violated_while (m : Mode) (f : σ → Option σ) (s t : σ) (h : f s = some t) :
    exec 3 (V := V) (.while (fun s => some (false, s)) .done (.act f .done) .done) s = some (.next t) ∧
    run 2 (tr (V := V) m (.while (fun s => some (false, s)) .done (.act f .done) .done)) s = some (.next s) := by
  constructor
  · simp [exec, h, Out.andThen]
  · simp [tr, run]

/-! ## Assertions -/

/-- C170: in Fortran and with the debug flags of C, an assertion fails where and only where it fails in Python, and no statement after it runs. -/
theorem C170_partial (m : Mode) (hm : m ≠ .cRelease) (c : Code σ V) (hc : c.NoElse) (s t : σ) :
    (∃ n, run n (tr m c) s = some (.failed t)) ↔ ∃ n, exec n c s = some (.failed t) := C169_partial m hm c hc s _

/-- C170 with the release flags of C: if Python ends without a failed assertion, and the conditions of assertions change nothing, so does the
compiled function. -/
theorem C170_release_partial (c : Code σ V) (hc : c.NoElse) (hp : c.PureAsserts) (s : σ) (o : Out σ V) (ho : ∀ t, o ≠ .failed t)
    (n : Nat) (h : exec n c s = some o) : ∃ n, run n (tr .cRelease c) s = some o := ⟨n, release n c s o hc hp ho h⟩

/-- C170 fails: in C with the release flags an assertion that fails has no effect: what follows is executed. -/
theorem C170_violated_release (c : σ → Option (Bool × σ)) (rest : Code σ V) (s t : σ) (h : c s = some (false, t)) (n : Nat) :
    exec (n + 1) (.assert c rest) s = some (.failed t) ∧ run n (tr .cRelease (.assert c rest)) s = run n (tr .cRelease rest) s := by
  constructor
  · simp [exec, h]
  · simp [tr, trAssert]

/-- C170 fails: in C with the release flags the condition of an assertion is not evaluated: `assert f() == 1` does not call `f`. -/
theorem C170_violated_effect : exec 3 (V := Nat) (.assert (fun s => some (true, s + 1)) (.ret fun s => some (s, s))) 0 = some (.ret 1 1) ∧
    ∀ n o, run n (tr (V := Nat) .cRelease (.assert (fun s => some (true, s + 1)) (.ret fun s => some (s, s)))) 0 = some o →
      o = .ret 0 0 := by
  refine ⟨rfl, ?_⟩
  intro n o h
  cases n with
  | zero => simp [run] at h
  | succ n => simpa [tr, trAssert, run, eq_comm] using h

/-- C170 fails: a Python program cannot handle the `AssertionError` of a compiled function: it ends with it. -/
theorem C170_violated_handler (m : Mode) (hm : m ≠ .cRelease) (junk : σ → V) (c : σ → Option (Bool × σ)) (rest : Code σ V) (s t : σ)
    (h : c s = some (false, t)) :
    (pyCall 1 (.assert c rest) s).map pySeen = some (.handler t) ∧ (genCall m junk 1 (.assert c rest) s).map genSeen = some .ended := by
  constructor
  · simp [pyCall, exec, h, pySeen]
  · cases m
    · simp [genCall, tr, trAssert, run, h, genSeen]
    · simp [genCall, tr, trAssert, run, h, genSeen]
    · exact absurd rfl hm

/-! ## The result of a call -/

/-- C171: exactly what a call gives: Python's result, except that it gives an arbitrary value if Python gives `None` and some other path returns a value. -/
theorem C171_exact (m : Mode) (hm : m ≠ .cRelease) (junk : σ → V) (c : Code σ V) (hc : c.NoElse) (s : σ) (r : Result σ V) (n : Nat)
    (h : pyCall n c s = some r) :
    genCall m junk n c s = some (match r with
      | .none t => if c.hasReturn then .value (junk t) t else .none t
      | r => r) := by
  unfold pyCall at h
  cases he : exec n c s with
  | none => rw [he] at h; cases h
  | some o =>
    rw [he] at h
    have := forth m hm n c s o hc he
    unfold genCall
    rw [this]
    cases o <;> simp only [Option.map_some, Option.some.injEq] at h <;> subst h <;> rfl

/-- C171: if every path ends with `return`, or no path returns a value, a call gives what it gives in Python. -/
theorem C171_partial (m : Mode) (hm : m ≠ .cRelease) (junk : σ → V) (c : Code σ V) (hc : c.NoElse) (hr : c.Returns ∨ c.hasReturn = false)
    (s : σ) (r : Result σ V) (n : Nat) (h : pyCall n c s = some r) : genCall m junk n c s = some r := by
  rw [C171_exact m hm junk c hc s r n h]
  cases r with
  | none t =>
    rcases hr with hr | hr
    · exfalso
      unfold pyCall at h
      cases he : exec n c s with
      | none => rw [he] at h; cases h
      | some o =>
        rw [he] at h
        have := returns n c s o hr he
        cases o <;> simp at h
        exact this _ rfl
    · simp [hr]
  | _ => rfl

/-- C171 fails: `if c: return v` without `else` gives an arbitrary value if `c` is false, where Python gives `None`. -/
theorem C171_violated (m : Mode) (c : σ → Option (Bool × σ)) (e : σ → Option (V × σ)) (s t : σ) (h : c s = some (false, t)) (junk : σ → V) :
    pyCall 2 (.ite c (.ret e) .done .done) s = some (.none t) ∧ genCall m junk 2 (.ite c (.ret e) .done .done) s = some (.value (junk t) t) := by
  constructor
  · simp [pyCall, exec, h, Out.andThen]
  · simp [genCall, tr, run, h, Out.andThen, Code.hasReturn]

/-! The hypotheses are met: `s = 0; for i in range(n): if i == 3: continue; s += i; assert s < 100`; `if s: return s else: return 7`. -/
def sum : Code (Nat × Nat × Nat) Nat :=
  .for (fun s => some s.1) (fun k s => (s.1, k, s.2.2))
    (.ite (fun s => some (s.2.1 == 3, s)) .cont .done (.act (fun s => some (s.1, s.2.1, s.2.2 + s.2.1)) (.assert (fun s => some (decide (s.2.2 < 100), s)) .done)))
    .done (.ite (fun s => some (s.2.2 != 0, s)) (.ret fun s => some (s.2.2, s)) (.ret fun s => some (7, s)) .done)

example : sum.NoElse ∧ sum.PureAsserts ∧ sum.Returns := by
  simp [sum, Code.NoElse, Code.PureAsserts, Code.Returns]

example : genCall .cDebug (fun _ => 0) 9 sum (6, 0, 0) = some (.value 12 (6, 5, 12)) :=
  C171_partial .cDebug (by decide) _ sum (by simp [sum, Code.NoElse]) (Or.inl (by simp [sum, Code.Returns])) _ _ _ rfl

example : ∃ n, run n (tr .cRelease sum) (6, 0, 0) = some (.ret (6, 5, 12) 12) :=
  C170_release_partial sum (by simp [sum, Code.NoElse]) (by simp [sum, Code.PureAsserts]) _ _ (by intro t h; cases h) 9 rfl

example : ∃ n, run n (tr .fortran sum) (50, 0, 0) = some (.failed (50, 14, 102)) :=
  (C170_partial .fortran (by decide) sum (by simp [sum, Code.NoElse]) _ _).2 ⟨9, rfl⟩

end Verif.Paths.Props
