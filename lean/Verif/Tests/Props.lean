import Verif.Tests.Model

/-!
# `in` and `is`: properties C133 and C134
-/

namespace Verif.Tests
open Spec

/-- Types are compared by the kind and size of their numbers. -/
theorem tyEq_iff (t u : Ty) : tyEq t u = true ↔ SameTy t u := by
  constructor
  · intro h
    cases t with
    | py p => cases u with
      | py q => exact .inl (by simpa [tyEq] using h)
      | np q n => cases p <;> cases q <;> simp [tyEq, bytes] at h <;> subst h <;> exact .inr ⟨_, by decide, .inl ⟨rfl, rfl⟩⟩
    | np p m => cases u with
      | py q => cases p <;> cases q <;> simp [tyEq, bytes] at h <;> subst h <;> exact .inr ⟨_, by decide, .inr ⟨rfl, rfl⟩⟩
      | np q n => exact .inl (by simpa [tyEq] using h)
  · rintro (rfl | ⟨p, hp, ⟨rfl, rfl⟩ | ⟨rfl, rfl⟩⟩)
    · cases t <;> simp [tyEq]
    · cases p <;> simp_all [tyEq, bytes]
    · cases p <;> simp_all [tyEq, bytes]

theorem tyEq_false (t u : Ty) : tyEq t u = false ↔ ¬ SameTy t u := by
  rw [← tyEq_iff]; simp

/-! ## C133 -/

/-- C133: `x in c` has Python's value and makes Python's calls if and only if the type of `x` is that of the elements, or no element is
equal to `x` and neither expression makes a call.  Missing: the other cases, where the answer is always `False` and the calls are dropped. -/
theorem C133_iff_partial (tx te : Ty) (x : Num) (cx : Calls) (elems : List Num) (cc : Calls) :
    evalIn tx te x cx elems cc = pyIn x cx elems cc ↔ SameTy tx te ∨ (x ∉ elems ∧ cx = [] ∧ cc = []) := by
  rw [← tyEq_iff]
  unfold evalIn pyIn
  split
  · rename_i h; simp [h]
  · rename_i h
    simp only [h, Prod.mk.injEq, eq_iff_iff, false_iff, Bool.false_eq_true, false_or, List.nil_eq, List.append_eq_nil_iff]

example : SameTy (.np .int 8) (.py .int) ∧ (((1 : Rat), (0 : Rat)) : Num) ∉ ([(2, 0), (3, 0)] : List Num) :=
  ⟨.inr ⟨.int, by decide, .inr ⟨rfl, rfl⟩⟩, by decide +kernel⟩

/-- C133 fails: `1.0 in [1, 2]` is `False`. -/
theorem C133_violated_value :
    evalIn (.py .float) (.py .int) (1, 0) [] [(1, 0), (2, 0)] [] ≠ pyIn (1, 0) [] [(1, 0), (2, 0)] [] := by
  rw [Ne, C133_iff_partial, ← tyEq_iff]
  simp [tyEq]

/-- C133 fails: an element of type `np.int32` is in no list of Python's integers. -/
theorem C133_violated_width (n : Rat) :
    evalIn (.np .int 4) (.py .int) (n, 0) [] [(n, 0)] [] ≠ pyIn (n, 0) [] [(n, 0)] [] := by
  rw [Ne, C133_iff_partial, ← tyEq_iff]
  simp [tyEq, bytes]

/-- C133 fails: in `f(x) in c` the function is not called if its result has another type. -/
theorem C133_violated_call (x : Num) (f : Nat) :
    (evalIn (.py .float) (.py .int) x [f] [] []).2 = [] ∧ (pyIn x [f] [] []).2 = [f] := ⟨rfl, rfl⟩

/-! ## C134 -/

/-- Objects of the same type `bool` are the same if the numbers are. -/
theorem compare_ok {σ : Env} {a b : Opd} (ha : a.Typed σ) (hb : b.Typed σ) (na : a.val σ ≠ .none) (nb : b.val σ ≠ .none)
    (ta : Opd.ty a = some (.py .bool)) (tb : Opd.ty b = some (.py .bool)) :
    ∃ i j, read σ a = some i ∧ read σ b = some j ∧ (i = j ↔ a.val σ = b.val σ) := by
  have key : ∀ c : Opd, c.Typed σ → c.val σ ≠ .none → Opd.ty c = some (.py .bool) → ∃ i, c.val σ = .obj (.py .bool) i := by
    intro c hc nc tc
    cases c with
    | none => simp [Opd.ty] at tc
    | bool b => exact ⟨_, rfl⟩
    | var x t o =>
      simp only [Opd.ty, Option.some.injEq] at tc
      subst tc
      rcases hc with ⟨_, h⟩ | h
      · exact absurd h nc
      · simp only [Opd.val]
        cases hv : σ.var x with
        | none => rw [hv] at h; exact absurd h id
        | obj u i => rw [hv] at h; exact ⟨i, by rw [h.1]⟩
    | call f t =>
      simp only [Opd.ty, Option.some.injEq] at tc
      subst tc
      simp only [Opd.val]
      cases hv : σ.call f with
      | none => simp only [Opd.Typed, hv] at hc; exact absurd hc id
      | obj u i => simp only [Opd.Typed, hv] at hc; exact ⟨i, by rw [hc.1]⟩
  obtain ⟨i, hi⟩ := key a ha na ta
  obtain ⟨j, hj⟩ := key b hb nb tb
  exact ⟨i, j, by simp [read, hi], by simp [read, hj], by simp [hi, hj]⟩

/-- Operands whose types differ are the same object only if both are `None`. -/
theorem differ {σ : Env} {a b : Opd} (ha : a.Typed σ) (hb : b.Typed σ) {t u : Ty} (ta : Opd.ty a = some t) (tb : Opd.ty b = some u)
    (h : tyEq t u = false) : a.val σ = b.val σ ↔ a.val σ = .none ∧ b.val σ = .none := by
  refine ⟨fun he => ?_, fun ⟨h1, h2⟩ => by rw [h1, h2]⟩
  have key : ∀ c : Opd, c.Typed σ → ∀ v, Opd.ty c = some v → c.val σ = .none ∨ ∃ i, c.val σ = .obj v i := by
    intro c hc v tc
    cases c with
    | none => simp [Opd.ty] at tc
    | bool b => simp only [Opd.ty, Option.some.injEq] at tc; subst tc; exact .inr ⟨_, rfl⟩
    | var x t o =>
      simp only [Opd.ty, Option.some.injEq] at tc
      subst tc
      simp only [Opd.val]
      cases hv : σ.var x with
      | none => exact .inl rfl
      | obj u i =>
        rcases hc with ⟨_, h⟩ | h
        · rw [hv] at h; simp at h
        · rw [hv] at h; exact .inr ⟨i, by rw [h.1]⟩
    | call f t =>
      simp only [Opd.ty, Option.some.injEq] at tc
      subst tc
      simp only [Opd.val]
      cases hv : σ.call f with
      | none => exact .inl rfl
      | obj u i => simp only [Opd.Typed, hv] at hc; exact .inr ⟨i, by rw [hc.1]⟩
  rcases key a ha t ta with h1 | ⟨i, h1⟩
  · exact ⟨h1, by rw [← he, h1]⟩
  · rcases key b hb u tb with h2 | ⟨j, h2⟩
    · exact ⟨by rw [he, h2], h2⟩
    · rw [h1, h2] at he
      simp only [Obj.obj.injEq] at he
      rw [he.1] at h
      cases u <;> simp [tyEq] at h

theorem sameNode_typed {a b : Opd} {t u : Ty} (ta : Opd.ty a = some t) (tb : Opd.ty b = some u) :
    sameNode a b = false ↔ ¬ SameVar a b := by
  cases a <;> cases b <;> simp_all [sameNode, SameVar, Opd.ty] <;> exact ne_comm

/-- The test is one against `None` written on the right or on the left. -/
def HasNone (a b : Opd) : Prop := a = .none ∨ b = .none

/-- C134: when `a is b` or `a is not b` is translated, it has Python's value and makes Python's calls if and only if
* in a test against `None` the other operand is no call;
* in a test of two operands (other than a variable with itself) of the same type neither of them is `None`, and of different types, they are
  not both `None` and none of them is a call.
Missing: the other cases (below), and the tests that are not translated. -/
theorem C134_iff_partial (neg : Bool) (σ : Env) (a b : Opd) (ha : a.Typed σ) (hb : b.Typed σ) (hr : visitIs neg a b ≠ .reject) :
    run σ (visitIs neg a b) = some (pyIs neg σ a b) ↔
      (HasNone a b → a.calls = [] ∧ b.calls = []) ∧
      (∀ t u, Opd.ty a = some t → Opd.ty b = some u → ¬ SameVar a b →
        (SameTy t u → a.val σ ≠ .none ∧ b.val σ ≠ .none) ∧
        (¬ SameTy t u → ¬ (a.val σ = .none ∧ b.val σ = .none) ∧ a.calls = [] ∧ b.calls = [])) := by
  simp only [← tyEq_iff, ← tyEq_false]
  by_cases hs : sameNode a b = true
  · have hv : a.val σ = b.val σ := by
      cases a <;> cases b <;> simp_all [sameNode, Opd.val]
    have hc : a.calls = [] ∧ b.calls = [] := by
      cases a <;> cases b <;> simp_all [sameNode, Opd.calls]
    have hvis : visitIs neg a b = .lit (!neg) := by simp [visitIs, hs]
    rw [hvis]
    have hn : ∀ t u, Opd.ty a = some t → Opd.ty b = some u → SameVar a b := fun t u ta tb =>
      Classical.byContradiction fun h => by simp [(sameNode_typed ta tb).2 h] at hs
    constructor
    · exact fun _ => ⟨fun _ => hc, fun t u ta tb h => absurd (hn t u ta tb) h⟩
    · intro _
      simp [run, pyIs, hv, hc]
  · have hs' : sameNode a b = false := by simpa using hs
    by_cases hb0 : b = .none
    · subst hb0
      have hvis : visitIs neg a .none = visitNil neg true a := by
        cases a <;> simp_all [visitIs, sameNode]
      rw [hvis]
      have hl : ∀ t u, Opd.ty a = some t → Opd.ty .none = some u → False := by simp [Opd.ty]
      cases a with
      | none => simp [sameNode] at hs
      | bool v =>
        simp [visitNil, run, pyIs, Opd.val, boolObj, Opd.calls, HasNone, Opd.ty]
      | call f t =>
        simp only [visitNil, run, pyIs, Opd.calls]
        simp [HasNone]
      | var x t o =>
        cases o with
        | true =>
          simp [visitNil, run, pyIs, Opd.val, Opd.calls, HasNone, Opd.ty]
          exact decide_eq_decide.2 Iff.rfl
        | false =>
          rcases ha with ⟨h, _⟩ | h
          · simp at h
          · have hn : σ.var x ≠ .none := by intro e; rw [e] at h; exact h
            simp [visitNil, run, pyIs, Opd.val, Opd.calls, HasNone, Opd.ty, hn]
    · by_cases ha0 : a = .none
      · subst ha0
        have hvis : visitIs neg .none b = visitNil neg false b := by
          cases b <;> simp_all [visitIs, sameNode]
        rw [hvis] at hr ⊢
        cases b with
        | none => simp at hb0
        | bool v => simp [visitNil, run, pyIs, Opd.val, boolObj, Opd.calls, HasNone, Opd.ty]
        | call f t =>
          simp only [visitNil, run, pyIs, Opd.calls]
          simp [HasNone]
        | var x t o =>
          cases o with
          | true => simp [visitNil] at hr
          | false =>
            rcases hb with ⟨h, _⟩ | h
            · simp at h
            · have hn : σ.var x ≠ .none := by intro e; rw [e] at h; exact h
              simp [visitNil, run, pyIs, Opd.val, Opd.calls, HasNone, Opd.ty, hn.symm]
      · obtain ⟨t, ta⟩ : ∃ t, Opd.ty a = some t := by cases a <;> simp_all [Opd.ty]
        obtain ⟨u, tb⟩ : ∃ t, Opd.ty b = some t := by cases b <;> simp_all [Opd.ty]
        have hvis : visitIs neg a b = if !tyEq t u then .lit neg
            else if t = .py .bool ∧ u = .py .bool then .compare a b neg else .reject := by
          unfold visitIs
          rw [if_neg hs]
          cases a <;> cases b <;> simp_all
        have hN : ¬ HasNone a b := fun h => h.elim ha0 hb0
        simp only [hN, false_implies, true_and, ta, tb, hs', Option.some.injEq, true_implies, (sameNode_typed ta tb).1 hs', not_false_eq_true]
        rw [hvis] at hr ⊢
        by_cases hq : tyEq t u = true
        · simp only [hq, Bool.not_true, Bool.false_eq_true, if_false] at hr ⊢
          by_cases hbb : t = .py .bool ∧ u = .py .bool
          · rw [if_pos hbb]
            obtain ⟨rfl, rfl⟩ := hbb
            constructor
            · rintro h t' u' rfl rfl
              refine ⟨fun _ => ?_, fun h' => by simp [tyEq] at h'⟩
              constructor
              · intro e
                simp [run, read, e] at h
              · intro e
                simp only [run, read, e] at h
                split at h <;> simp_all
            · intro h
              obtain ⟨n1, n2⟩ := (h _ _ rfl rfl).1 hq
              obtain ⟨i, j, h1, h2, h3⟩ := compare_ok ha hb n1 n2 ta tb
              simp [run, h1, h2, pyIs, h3]
          · rw [if_neg hbb] at hr; exact absurd rfl hr
        · have hq' : tyEq t u = false := by simpa using hq
          simp only [hq', Bool.not_false, if_true]
          have hd := differ ha hb ta tb hq'
          constructor
          · rintro h t' u' rfl rfl
            refine ⟨fun h' => by simp [hq'] at h', fun _ => ?_⟩
            simp only [run, pyIs, Option.some.injEq, Prod.mk.injEq] at h
            refine ⟨fun hn => ?_, ?_⟩
            · rw [← hd] at hn
              have := h.1
              simp [hn] at this
            · have := h.2
              simpa using this.symm
          · intro h
            obtain ⟨n, c1, c2⟩ := (h _ _ rfl rfl).2 hq
            have : ¬ (a.val σ = b.val σ) := fun he => n (hd.1 he)
            simp [run, pyIs, this, c1, c2]

/-- Tests that are translated and meet the conditions: `x is None` of an optional variable, and `b is True` of a truth value. -/
example : visitIs false (.var 0 (.py .int) true) .none ≠ .reject ∧ (Opd.var 0 (.py .int) true).calls = [] ∧
    visitIs true (.var 1 (.py .bool) false) (.bool true) ≠ .reject ∧
    (Opd.var 1 (.py .bool) false).val ⟨fun _ => .obj (.py .bool) 1, fun _ => .none⟩ ≠ .none := by decide

/-- C134 fails: `b is True` for an optional variable that is `None` reads what is not there. -/
theorem C134_violated_optional (σ : Env) (x : Nat) (h : σ.var x = .none) :
    run σ (visitIs false (.var x (.py .bool) true) (.bool true)) = none ∧
      pyIs false σ (.var x (.py .bool) true) (.bool true) = (false, []) := by
  constructor
  · simp [visitIs, sameNode, Opd.ty, tyEq, run, read, Opd.val, h]
  · simp [pyIs, Opd.val, h, boolObj, Opd.calls]

/-- C134 fails: `x is y` is `False` for two optional variables of different types that are both `None`. -/
theorem C134_violated_types (σ : Env) (h0 : σ.var 0 = .none) (h1 : σ.var 1 = .none) :
    run σ (visitIs false (.var 0 (.py .int) true) (.var 1 (.py .float) true)) = some (false, []) ∧
      pyIs false σ (.var 0 (.py .int) true) (.var 1 (.py .float) true) = (true, []) := by
  constructor
  · simp [visitIs, sameNode, Opd.ty, tyEq, run]
  · simp [pyIs, Opd.val, h0, h1, Opd.calls]

/-- C134 fails: in `f(x) is not None` the function is not called. -/
theorem C134_violated_call (σ : Env) (f : Nat) (t : Ty) :
    run σ (visitIs true (.call f t) .none) = some (true, []) ∧ (pyIs true σ (.call f t) .none).2 = [f] := ⟨rfl, rfl⟩

/-- C134 fails: `None is x` is not translated although `x is None` is. -/
theorem C134_violated_order (x : Nat) (t : Ty) (neg : Bool) :
    visitIs neg .none (.var x t true) = .reject ∧ visitIs neg (.var x t true) .none = .present x neg := ⟨rfl, rfl⟩

end Verif.Tests
