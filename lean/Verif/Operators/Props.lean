import Verif.Operators.Lemmas

/-!
# Operators on objects of classes: the properties
-/

namespace Verif.Operators
open Spec Model

/-! ## C147: which method an operator calls -/

/-- C147, operands of different types: an accepted operator calls the method that Python calls. -/
theorem C147_operator_partial (C : Classes) (o : Op) (a b : Ty) (r : Act) (hab : a ≠ b)
    (h : bin C o a b = .ok r) : pyBin C o a b = r := bin_ok C o a b r hab h

/-- C147, operands of the same type, whose class defines the method itself or not the reflected
one. -/
theorem C147_same_partial (C : Classes) (o : Op) (a : Ty) (r : Act)
    (hr : ∀ c, a = .cls c → C c (.plain o) = true ∨ C c (.refl o) = false)
    (h : bin C o a a = .ok r) : pyBin C o a a = r := bin_same C o a r hr h

/-- C147: the nine supported operators are accepted whenever Python does not raise. -/
theorem C147_accepts (C : Classes) (o : Op) (a b : Ty) (ho : o ∈ supported)
    (h : pyBin C o a b ≠ .error) : bin C o a b = .ok (pyBin C o a b) :=
  bin_accepts C o a b ((inMap_iff o).2 ho) h

/-- C147: an accepted augmented assignment calls the method that Python calls. -/
theorem C147_augmented (C : Classes) (o : Op) (a b : Ty) (r : Act)
    (h : aug C o a b = .ok r) : pyAug C o a b = r := aug_ok C o a b r h

/-- C147: an augmented assignment with a supported operator is accepted if and only if Python calls a
method of the left operand, or computes with numbers. -/
theorem C147_augmented_iff (C : Classes) (o : Op) (a b : Ty) (ho : o ∈ supported) :
    (∃ r, aug C o a b = .ok r) ↔
      pyAug C o a b = .builtin ∨ ∃ m, pyAug C o a b = .left m :=
  aug_iff C o a b ((inMap_iff o).2 ho)

/-- C147: an operator that is not supported is an error of the translation whenever one of the operands
is an object, with any methods. -/
theorem C147_unsupported (C : Classes) (o : Op) (a b : Ty) (ho : o ∉ supported)
    (hab : ¬ (a = .num ∧ b = .num)) : bin C o a b = .reject ∧ aug C o a b = .reject := by
  have hm : inMap o = false := by
    have := inMap_iff o
    cases hi : inMap o <;> simp_all
  have hd : direct a b = .reject := by
    cases a <;> cases b <;> simp_all [direct]
  simp [bin, aug, hm, hd]

/-- Hypotheses of C147_unsupported: `x // 2`, in Python a call of `__floordiv__`. -/
example : Op.floordiv ∉ supported ∧ pyBin (fun _ _ => true) .floordiv (.cls 0) .num = .left (.plain .floordiv) := by
  decide

/-- Class 0 defines `__add__`, class 1 defines `__radd__` and `__isub__`, class 2 `__radd__` only. -/
def someClasses : Classes := fun c m =>
  match c, m with
  | 0, .plain .add => true
  | 1, .refl .add => true
  | 1, .inpl .sub => true
  | 2, .refl .add => true
  | _, _ => false

/-- Hypotheses of C147. -/
example : bin someClasses .add .num (.cls 1) = .ok (.right (.refl .add)) ∧
    bin someClasses .add (.cls 0) (.cls 1) = .ok (.left (.plain .add)) ∧
    bin someClasses .add (.cls 0) (.cls 0) = .ok (.left (.plain .add)) ∧
    aug someClasses .sub (.cls 1) .num = .ok (.left (.inpl .sub)) ∧
    aug someClasses .add (.cls 0) (.cls 2) = .ok (.left (.plain .add)) := by decide

/-- C147 fails: the sum of two objects of a class that defines `__radd__` only is an error in Python,
and calls `__radd__` in generated code. -/
theorem C147_violated_same :
    pyBin someClasses .add (.cls 2) (.cls 2) = .error ∧
    bin someClasses .add (.cls 2) (.cls 2) = .ok (.right (.refl .add)) := by decide

/-- C147 fails: `x += y` calls the reflected method of `y` in Python; the translation is refused. -/
theorem C147_violated_reflected :
    pyAug someClasses .add .num (.cls 1) = .right (.refl .add) ∧
    aug someClasses .add .num (.cls 1) = .reject := by decide

/-! ## C148: the methods of augmented assignments -/

/-- C148, a method `__iop__` in which nothing follows a `return`: the objects are the same afterwards
as in Python. -/
theorem C148_effect_partial {σ : Type} (body : Stmt σ) (ht : tail body = true) (s : σ) (r : σ × Ret)
    (h : call body s = some r) : r.1 = (run body s).1 := effect body ht s r h

/-- C148: if Python's call returns, the name denotes the same object as before, in Python and in
generated code. -/
theorem C148_target_partial {σ : Type} (body : Stmt σ) (s : σ) (r : σ × Ret) (h : call body s = some r)
    (hr : (run body s).2 ≠ none) : r.2 = pyTarget (run body s).2 := target body s r h hr

/-- C148: a method that can return something else than the object is refused. -/
theorem C148_refused {σ : Type} (body : Stmt σ) (s : σ) (h : (run body s).2 = some .other) :
    ∀ t, call body t = none := refused body s h

/-- C148: a method is accepted if and only if every `return` in it returns the object. -/
theorem C148_accepted_iff {σ : Type} (body : Stmt σ) (s : σ) :
    (∃ r, call body s = some r) ↔ selfOnly body = true := call_iff body s

/-- `if n > 10: return self`, `n += 1`, `return self`. -/
def capped : Stmt Nat :=
  .seq (.ite (fun n => decide (10 < n)) (.ret .self) .skip) (.seq (.act (· + 1)) (.ret .self))

/-- The same with `else`. -/
def cappedElse : Stmt Nat :=
  .ite (fun n => decide (10 < n)) (.ret .self) (.seq (.act (· + 1)) (.ret .self))

/-- Hypotheses of C148. -/
example : tail cappedElse = true ∧ call cappedElse 12 = some (12, .self) ∧
    call cappedElse 3 = some (4, .self) ∧ (run cappedElse 12).2 = some .self ∧
    (run (Stmt.seq (.act (· + 1)) (.ret .other)) 3).2 = some .other := by decide

/-- C148 fails: a `return self` before the end of the method is dropped, and the rest of the method
is executed. -/
theorem C148_violated_early :
    run capped 12 = (12, some .self) ∧ call capped 12 = some (13, .self) := by decide

/-- C148 fails: a method without `return` returns `None`, which the name denotes afterwards in
Python. -/
theorem C148_violated_none :
    pyTarget (run (Stmt.act (· + 1)) 3).2 = .other ∧
    call (Stmt.act (· + 1)) 3 = some (4, .self) := by decide

end Verif.Operators
