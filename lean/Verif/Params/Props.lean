import Verif.Params.Lemmas

/-!
# Properties C141 and C142
-/

namespace Verif.Params

open Verif.Params.Spec

/-- The start of a call on both sides. -/
theorem start_rel {n : Nat} (args : List Nat) (next : Nat) (heap : Nat → Arr n) :
    Rel args next (start args heap next) heap := by
  refine ⟨fun x l h => h, fun l _ => rfl, ?_, ?_, Nat.le_refl _⟩
  · intro x l h1 h2
    simp only [start] at h2
    rw [h1] at h2
    contradiction
  · intro x y l h1 _ h2 _
    simp only [start] at h2
    rw [h1] at h2
    contradiction

/-! ## C141 -/

/-- If a function assigns no parameter as a whole, then after a call all arrays of the caller, and all
variables of the function, have the contents that they have in Python.  The arguments may be the
same array (`f(x, x)`). -/
theorem C141_caller_partial {n : Nat} (args : List Nat) (next : Nat) (s : Stmt) (heap : Nat → Arr n) (m : Mem n)
    (ha : ∀ l ∈ args, l < next) (hs : NoSet args.length s)
    (h : run s (start args heap next) = some m) :
    (∀ l, l < next → runC (place args next) s heap l = m.heap l) ∧
      ∀ x l, m.env x = some l → runC (place args next) s heap (place args next x) = m.heap l := by
  have hr := rel_run ha s _ m heap hs (start_rel args next heap) h
  exact ⟨fun l hl => (hr.caller l hl).symm, fun x l hx => (rel_agree ha hr x l hx).symm⟩

/-- If the arguments are different arrays then after a call all variables of the function (what it can
return) have the contents that they have in Python, even if it assigns to parameters. -/
theorem C141_values_partial {n : Nat} (args : List Nat) (next : Nat) (s : Stmt) (heap : Nat → Arr n) (m : Mem n)
    (ha : ∀ l ∈ args, l < next) (hd : args.Nodup) (h : run s (start args heap next) = some m) (x l : Nat)
    (hx : m.env x = some l) : runC (place args next) s heap (place args next x) = m.heap l := by
  have h0 : Rel' (place args next) (start args heap next) heap := by
    refine ⟨?_, ?_, ?_⟩
    · intro y k hy
      simp only [start] at hy ⊢
      simp only [place, hy]
    · intro y k hy
      exact ha k (List.mem_of_getElem? hy)
    · intro y z k hy hz
      refine place_inj ha hd y z ?_
      simp only [start] at hy hz
      simp only [place, hy, hz]
  exact ((rel'_run (place_inj ha hd) s _ m heap h0 h).agree x l hx).symm

/-- A function with two parameters, a local variable, a loop and a test:
`t = a + b; for _ in range(3): a += t; if a[0] > 5: b[:] = a`. -/
def sample : Stmt :=
  .seq (.set 2 (.bin (· + ·) (.var 0) (.var 1)))
    (.seq (.rep 3 (.aug 0 (· + ·) (.var 2))) (.ite 0 5 (.fill 1 (.var 0)) .skip))

/-- It is accepted, assigns no parameter, and Python runs it. -/
example : accepted 2 sample = true ∧ NoSet 2 sample ∧
    (run sample (start (n := 1) [7, 8] (fun l _ => if l = 7 then 1 else 2) 9)).isSome = true :=
  ⟨rfl, by simp [NoSet, sample], by decide⟩

/-- Its result: `a` is 10 and so is `b`. -/
example : runC (place [7, 8] 9) sample (fun l (_ : Fin 1) => if l = 7 then 1 else 2) 8 0 = 10 := by decide

/-- C141 fails: `def f(a): a = a + 1` is accepted; in Python the array of the caller stays as it was,
the translated function adds one to its elements. -/
theorem C141_violated :
    let s : Stmt := .set 0 (.bin (· + ·) (.var 0) (.num 1))
    let heap : Nat → Arr 1 := fun _ _ => 5
    accepted 1 s = true ∧ (∃ m, run s (start [0] heap 1) = some m ∧ m.heap 0 0 = 5) ∧
      runC (place [0] 1) s heap 0 0 = 6 :=
  ⟨rfl, ⟨_, rfl, by decide⟩, by decide⟩

/-! ## C142 -/

/-- If no parameter that the function writes to shares its array with another parameter, and no
parameter is assigned as a whole, then the translation to Fortran does the same as Python. -/
theorem C142_fortran_partial {n : Nat} (args : List Nat) (next : Nat) (s : Stmt) (heap : Nat → Arr n) (m : Mem n)
    (ha : ∀ l ∈ args, l < next) (hs : NoSet args.length s)
    (hw : ∀ x ∈ writes s, ∀ y, x ≠ y → x < args.length → args[x]? ≠ args[y]?)
    (h : run s (start args heap next) = some m) :
    ∃ st, runF args next s heap = some st ∧ ∀ l, l < next → st l = m.heap l := by
  have hc : clash args (uses (place args next) s heap) = false := by
    simp only [clash, List.any_eq_false]
    intro x hx hh
    simp only [List.any_eq_true, Bool.and_eq_true, decide_eq_true_eq, beq_iff_eq] at hh
    obtain ⟨y, _, ⟨hne, hsome⟩, he⟩ := hh
    have hlt : x < args.length := by
      cases hg : args[x]? with
      | none => simp [hg] at hsome
      | some k => exact (List.getElem?_eq_some_iff.1 hg).1
    exact hw x (uses_writes _ s heap x hx) y hne hlt he
  refine ⟨_, by simp only [runF, hc]; rfl, (C141_caller_partial args next s heap m ha hs h).1⟩

/-- The function above with two different arrays. -/
example : ∃ st, runF (n := 1) [7, 8] 9 sample (fun l _ => if l = 7 then 1 else 2) = some st ∧ st 8 0 = 10 := by
  refine ⟨_, rfl, by decide⟩

/-- C142 fails: `def f(a, b): a += 1; b[:] = a + b`, called as `f(x, x)`, is well defined in Python
(and C gives the same contents); in Fortran it is undefined. -/
theorem C142_violated_fortran :
    let s : Stmt := .seq (.aug 0 (· + ·) (.num 1)) (.fill 1 (.bin (· + ·) (.var 0) (.var 1)))
    let heap : Nat → Arr 1 := fun _ _ => 5
    accepted 2 s = true ∧ (∃ m, run s (start [0, 0] heap 1) = some m ∧ m.heap 0 0 = 12) ∧
      runC (place [0, 0] 1) s heap 0 0 = 12 ∧ (runF [0, 0] 1 s heap).isNone = true :=
  ⟨rfl, ⟨_, rfl, by decide⟩, by decide, by decide⟩

/-- C142 fails: `def f(a, b): a = a + 1; …`, called as `f(x, x)`, changes `b` too, so that even the
values that the function computes are wrong. -/
theorem C142_violated_rebind :
    let s : Stmt := .set 0 (.bin (· + ·) (.var 0) (.num 1))
    let heap : Nat → Arr 1 := fun _ _ => 5
    accepted 2 s = true ∧
      (∃ m l, run s (start [0, 0] heap 1) = some m ∧ m.env 1 = some l ∧ m.heap l 0 = 5) ∧
      runC (place [0, 0] 1) s heap (place [0, 0] 1 1) 0 = 6 :=
  ⟨rfl, ⟨_, 0, rfl, rfl, by decide⟩, by decide⟩

end Verif.Params
