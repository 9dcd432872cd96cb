import Verif.Operands.LemmasC
import Verif.Operands.LemmasF
/-
C114, C115: library calls inside expressions.
-/
namespace Verif.Operands
open Verif.Exprs

/-- Integer arithmetic; an array has one element. -/
def intOps : Ops Int where
  bin
    | .add => (· + ·)
    | .sub => (· - ·)
    | .mul => (· * ·)
    | .div => (· / ·)
    | .pow => fun a b => a ^ b.toNat
    | .lt => fun a b => if a < b then 1 else 0
  neg := (- ·)
  ne a b := if a ≠ b then 1 else 0
  zero := 0
  cond c a b := if c ≠ 0 then a else b
  fn _ a := a
  sum a := a
  abs a := a.natAbs
  real a := a
  seq a := a

/-! ### C114: expressions in C -/

/-- C114, for C: the text printed for an expression is a C expression which applies the operations
of the user's expression to the same operands, exactly if no call of `np.where` is used as an
operand of an operator, as the argument of `bool` or as the condition of another `np.where`.
Partial: the property asks this for every expression. -/
theorem C114_iff_partial (s : CS) :
    (∃ t, Parses cLang (textC s) t ∧
      ∀ (V : Type) (I : Ops V) (env : Nat → V), cValue I env t = some (s.value I env)) ↔
    s.Whole :=
  readsC_iff s

/-- C114, for C: the compiler cannot read the text in another way.  Partial: as above. -/
theorem C114_value_partial (s : CS) (h : s.Whole) (t : CTree) (ht : Parses cLang (textC s) t)
    {V : Type} (I : Ops V) (env : Nat → V) : cValue I env t = some (s.value I env) := by
  obtain ⟨u, hu, hv⟩ := (readsC_iff s).2 h
  rw [parses_unique cLang_ok ht hu]
  exact hv V I env

/-- `f(np.where(a < b, -a, a * b)) + pow(np.where(c, a, np.where(b, c, a)), b)` meets the
condition. -/
example : (CS.bin .add
    (.call 0 (.whr (.bin .lt (.var 0) (.var 1)) (.neg (.var 0)) (.bin .mul (.var 0) (.var 1))))
    (.bin .pow (.whr (.var 2) (.var 0) (.whr (.var 1) (.var 2) (.var 0))) (.var 1))).Whole := by
  simp [CS.Whole]

/-- Values of the variables in the examples. -/
def vals : Nat → Int
  | 0 => 1
  | 1 => 2
  | 2 => 3
  | _ => 10

/-- What the compiler makes of an expression. -/
def CReads (s : CS) (v : Int) : Prop :=
  (∃ t, Parses cLang (textC s) t) ∧ ∀ t, Parses cLang (textC s) t → cValue intOps vals t = some v

theorem creads_of {s : CS} {v : Int} (t : CTree) (h : t.flatten = textC s) (hd : Deriv cLang 0 t)
    (hv : cValue intOps vals t = some v) : CReads s v := by
  refine ⟨⟨t, h, hd⟩, fun u hu => ?_⟩
  rw [parses_unique cLang_ok hu ⟨h, hd⟩, hv]

/-- C114 fails: `np.where(c, a, b) + d` is printed `c ? a : b + d`.  With `c` true, `a = 2` and
`d = 10` the value is 2 instead of 12. -/
theorem C114_violated_left :
    (CS.bin .add (.whr (.var 0) (.var 1) (.var 2)) (.var 3)).value intOps vals = 12 ∧
    CReads (.bin .add (.whr (.var 0) (.var 1) (.var 2)) (.var 3)) 2 := by
  refine ⟨rfl, creads_of (.tern (.atom (.var 0)) (.atom (.var 1))
    (.bin .add (.atom (.var 2)) (.atom (.var 3)))) rfl ?_ (by decide)⟩
  exact ⟨rfl, by omega, trivial, trivial, _, rfl, by simp, trivial, trivial⟩

/-- C114 fails: `d + np.where(c, a, b)` is printed `d + c ? a : b`, which chooses by `d + c`. -/
theorem C114_violated_right :
    (CS.bin .add (.var 3) (.whr (.var 0) (.var 1) (.var 2))).value intOps vals = 12 ∧
    CReads (.bin .add (.var 3) (.whr (.var 0) (.var 1) (.var 2))) 2 := by
  refine ⟨rfl, creads_of (.tern (.bin .add (.atom (.var 3)) (.atom (.var 0))) (.atom (.var 1))
    (.atom (.var 2))) rfl ?_ (by decide)⟩
  exact ⟨rfl, by omega, ⟨_, rfl, by simp, trivial, trivial⟩, trivial, trivial⟩

/-- C114 fails: `bool(np.where(c, a, b))` is printed `(c ? a : b != 0)`: the value is `a` itself,
2, which is not a truth value. -/
theorem C114_violated_bool :
    (CS.truth (.whr (.var 0) (.var 1) (.var 2))).value intOps vals = 1 ∧
    CReads (.truth (.whr (.var 0) (.var 1) (.var 2))) 2 := by
  refine ⟨rfl, creads_of (.paren (.tern (.atom (.var 0)) (.atom (.var 1))
    (.bin .ne (.atom (.var 2)) (.atom .zero)))) rfl ?_ (by decide)⟩
  exact ⟨rfl, by omega, trivial, trivial, _, rfl, by simp, trivial, trivial⟩

/-- C114 fails: in `np.where(np.where(a, b, c), c, d)`, printed `a ? b : c ? c : d`, the inner
call becomes the outer one. -/
theorem C114_violated_condition :
    (CS.whr (.whr (.var 0) (.var 1) (.var 2)) (.var 2) (.var 3)).value intOps vals = 3 ∧
    CReads (.whr (.whr (.var 0) (.var 1) (.var 2)) (.var 2) (.var 3)) 2 := by
  refine ⟨rfl, creads_of (.tern (.atom (.var 0)) (.atom (.var 1))
    (.tern (.atom (.var 2)) (.atom (.var 2)) (.atom (.var 3)))) rfl ?_ (by decide)⟩
  exact ⟨rfl, by omega, trivial, trivial, rfl, by omega, trivial, trivial, trivial⟩

/-! ### C115: expressions in Fortran -/

/-- C115, for Fortran: the text printed for an expression is a Fortran expression which applies
the operations of the user's expression to the same operands, exactly if every library call which
is printed as an operator stands where its level is accepted, and the arguments spliced into such
a text are tight enough.  Partial: the property asks this for every expression. -/
theorem C115_iff_partial (s : FS) :
    (∃ t, Parses fLang (textF s) t ∧
      ∀ (V : Type) (I : Ops V) (env : Nat → V), fValue I env t = some (s.value I env)) ↔
    s.Whole :=
  readsF_iff s

/-- C115, for Fortran: the compiler cannot read the text in another way.  Partial: as above. -/
theorem C115_value_partial (s : FS) (h : s.Whole) (t : FTree) (ht : Parses fLang (textF s) t)
    {V : Type} (I : Ops V) (env : Nat → V) : fValue I env t = some (s.value I env) := by
  obtain ⟨u, hu, hv⟩ := (readsF_iff s).2 h
  rw [parses_unique fLang_ok ht hu]
  exact hv V I env

/-- `np.sum(x * y, initial=a) - math.pow(f(a + b), np.where(a < b, c, d)) * np.linalg.norm(x, 3)`
meets the condition. -/
example : (FS.bin .sub (.sumI (.var 0) (.bin .mul (.var 4) (.var 5)))
    (.bin .mul (.mpow (.call 0 (.bin .add (.var 0) (.var 1)))
      (.whr (.bin .lt (.var 0) (.var 1)) (.var 2) (.var 3))) (.normPow 6 7 (.var 4)))).Whole := by
  simp [FS.Whole, FS.Loose, FS.level]

/-- What the compiler makes of an expression. -/
def FReads (s : FS) (v : Int) : Prop :=
  (∃ t, Parses fLang (textF s) t) ∧ ∀ t, Parses fLang (textF s) t → fValue intOps vals t = some v

theorem freads_of {s : FS} {v : Int} (t : FTree) (h : t.flatten = textF s) (hd : Deriv fLang 0 t)
    (hv : fValue intOps vals t = some v) : FReads s v := by
  refine ⟨⟨t, h, hd⟩, fun u hu => ?_⟩
  rw [parses_unique fLang_ok hu ⟨h, hd⟩, hv]

/-- C115 fails: `a * np.sum(x, initial=b)` is printed `a * b + sum(x)`: 10 * (2 + 3) = 50 becomes
10 * 2 + 3 = 23. -/
theorem C115_violated_sum :
    (FS.bin .mul (.var 3) (.sumI (.var 1) (.var 2))).value intOps vals = 50 ∧
    FReads (.bin .mul (.var 3) (.sumI (.var 1) (.var 2))) 23 := by
  refine ⟨rfl, freads_of (.bin .add (.bin .mul (.atom (.var 3)) (.atom (.var 1)))
    (.call .sum (.atom (.var 2)))) rfl ?_ (by decide)⟩
  exact ⟨_, rfl, by simp, ⟨_, rfl, by simp, trivial, trivial⟩, trivial⟩

/-- C115 fails: `math.pow(a + b, c)` is printed `a + b ** c`: (1 + 2) ^ 3 = 27 becomes
1 + 2 ^ 3 = 9. -/
theorem C115_violated_pow :
    (FS.mpow (.bin .add (.var 0) (.var 1)) (.var 2)).value intOps vals = 27 ∧
    FReads (.mpow (.bin .add (.var 0) (.var 1)) (.var 2)) 9 := by
  refine ⟨rfl, freads_of (.bin .add (.atom (.var 0)) (.bin .pow (.atom (.var 1))
    (.atom (.var 2)))) rfl ?_ (by decide)⟩
  exact ⟨_, rfl, by simp, trivial, _, rfl, by simp, trivial, trivial⟩

/-- C115 fails: `math.pow(a, b) ** c` is printed `a ** b ** c`, which associates to the right:
(10 ^ 2) ^ 3 becomes 10 ^ (2 ^ 3). -/
theorem C115_violated_pow_pow :
    (FS.bin .pow (.mpow (.var 3) (.var 1)) (.var 2)).value intOps vals = 1000000 ∧
    FReads (.bin .pow (.mpow (.var 3) (.var 1)) (.var 2)) 100000000 := by
  refine ⟨by decide, freads_of (.bin .pow (.atom (.var 3)) (.bin .pow (.atom (.var 1))
    (.atom (.var 2)))) rfl ?_ (by decide)⟩
  exact ⟨_, rfl, by simp, trivial, _, rfl, by simp, trivial, trivial⟩

/-- C115 fails: `(a + b) @ c` for vectors is printed `sum(a + b * c)`: (1 + 2) * 3 = 9 becomes
1 + 2 * 3 = 7. -/
theorem C115_violated_matmul :
    (FS.dot (.bin .add (.var 0) (.var 1)) (.var 2)).value intOps vals = 9 ∧
    FReads (.dot (.bin .add (.var 0) (.var 1)) (.var 2)) 7 := by
  refine ⟨rfl, freads_of (.call .sum (.bin .add (.atom (.var 0)) (.bin .mul (.atom (.var 1))
    (.atom (.var 2))))) rfl ?_ (by decide)⟩
  exact ⟨_, rfl, by simp, trivial, _, rfl, by simp, trivial, trivial⟩

/-- C115 fails: the element `i` of `np.arange(a, e, b + c)` is printed `a + b + c * i`: for
`i = 10` the value 1 + (2 + 3) * 10 = 51 becomes 1 + 2 + 3 * 10 = 33. -/
theorem C115_violated_arange :
    (FS.arange (.var 0) (.bin .add (.var 1) (.var 2)) 3).value intOps vals = 51 ∧
    FReads (.arange (.var 0) (.bin .add (.var 1) (.var 2)) 3) 33 := by
  refine ⟨rfl, freads_of (.call .seq (.bin .add (.bin .add (.atom (.var 0)) (.atom (.var 1)))
    (.bin .mul (.atom (.var 2)) (.atom (.var 3))))) rfl ?_ (by decide)⟩
  exact ⟨_, rfl, by simp, ⟨_, rfl, by simp, trivial, trivial⟩, _, rfl, by simp, trivial, trivial⟩

/-- C115 fails: `a / np.linalg.norm(x, -1)` is printed `a / 1 / sum(1 / abs(x))`, that is
`(a / 1) / sum(1 / abs(x))`, whatever the operations are. -/
theorem C115_violated_norm_inverse {V : Type} (I : Ops V) (env : Nat → V) (a one x : Nat)
    (t : FTree) (ht : Parses fLang (textF (.bin .div (.var a) (.normInv one (.var x)))) t) :
    fValue I env t = some (I.bin .div (I.bin .div (env a) (env one))
      (I.sum (I.bin .div (env one) (I.abs (env x))))) := by
  rw [parses_unique fLang_ok ht (u := .bin .div (.bin .div (.atom (.var a)) (.atom (.var one)))
    (.call .sum (.bin .div (.atom (.var one)) (.call .abs (.atom (.var x)))))) ⟨rfl,
      _, rfl, by simp, ⟨_, rfl, by simp, trivial, trivial⟩, _, rfl, by simp, trivial, trivial⟩]
  simp [fValue, fSym]

/-- C115 fails: `np.linalg.norm(x, -o)` is printed
`sum(abs(x) ** (-o)) ** Real(1) / Real(-o)`: the sum is divided by the order instead of being
raised to its inverse, whatever the operations are. -/
theorem C115_violated_norm_negative {V : Type} (I : Ops V) (env : Nat → V) (one o x : Nat)
    (t : FTree) (ht : Parses fLang (textF (.normNeg one o (.var x))) t) :
    fValue I env t = some (I.bin .div
      (I.bin .pow (I.sum (I.bin .pow (I.abs (env x)) (I.real (I.neg (env o)))))
        (I.real (env one)))
      (I.real (I.neg (env o)))) := by
  rw [parses_unique fLang_ok ht (u := .bin .div
    (.bin .pow (.call .sum (.bin .pow (.call .abs (.atom (.var x)))
      (.call .real (.un .sub (.atom (.var o)))))) (.call .real (.atom (.var one))))
    (.call .real (.paren (.un .sub (.atom (.var o)))))) ⟨rfl, ?_⟩]
  · simp [fValue, fSym]
  · exact ⟨_, rfl, by simp, ⟨_, rfl, by simp,
      ⟨_, rfl, by simp, trivial, _, rfl, by simp, trivial⟩, trivial⟩, _, rfl, by simp, trivial⟩

/-- The texts of the last two theorems can be read. -/
example : (∃ t, Parses fLang (textF (.bin .div (.var 0) (.normInv 1 (.var 2)))) t) ∧
    ∃ t, Parses fLang (textF (.normNeg 0 1 (.var 2))) t :=
  ⟨⟨.bin .div (.bin .div (.atom (.var 0)) (.atom (.var 1)))
      (.call .sum (.bin .div (.atom (.var 1)) (.call .abs (.atom (.var 2))))), rfl,
      _, rfl, by simp, ⟨_, rfl, by simp, trivial, trivial⟩, _, rfl, by simp, trivial, trivial⟩,
    ⟨.bin .div (.bin .pow (.call .sum (.bin .pow (.call .abs (.atom (.var 2)))
      (.call .real (.un .sub (.atom (.var 1)))))) (.call .real (.atom (.var 0))))
      (.call .real (.paren (.un .sub (.atom (.var 1))))), rfl,
      _, rfl, by simp, ⟨_, rfl, by simp,
      ⟨_, rfl, by simp, trivial, _, rfl, by simp, trivial⟩, trivial⟩, _, rfl, by simp, trivial⟩⟩

end Verif.Operands
