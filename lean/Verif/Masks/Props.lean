import Verif.Masks.Lemmas

/-!
# `np.count_nonzero`, `np.nonzero` and `np.full`
-/

namespace Verif.Masks.Props
open Layout.Spec Layout.Model Spec Model Lemmas

/-! ## C180 `np.count_nonzero` (Fortran) -/

/-- `np.count_nonzero(a, axis, keepdims)` in Fortran, for an array variable of any rank above 0, any
shape and either order, with or without an axis and `keepdims`: the expression printed is accepted and
its value is an array that holds NumPy's result, for a variable of the order of `a`.  (An array of rank 2
or more has an order.) -/
theorem C180_fortran {o : Option Order} {a : Arr} {f : FArr} (h : Rep o a f) (hs : a.shape ≠ [])
    (ho : o = none → a.shape.length < 2) (axis : Option Nat) (keep : Bool)
    (hk : ∀ k, axis = some k → k < a.shape.length) :
    ∃ r, printCount o a.shape f axis keep = some r ∧ Rep o (countNonzero a axis keep) r :=
  printCount_rep h hs ho axis keep hk

/-- An axis that the array does not have is refused, as NumPy does. -/
theorem C180_refused (o : Option Order) (s : List Nat) (f : FArr) (k : Nat) (keep : Bool)
    (hk : s.length ≤ k) : printCount o s f (some k) keep = none := by
  cases keep <;> simp [printCount, resultShape, show ¬ k < s.length by omega]

/-- `[[1, 0, 2], [0, 0, 3]]` -/
def a23 : Arr := ⟨[2, 3], fun i => match i with
  | [x, y] => [1, 0, 2, 0, 0, 3].getD (3 * x + y) 0
  | _ => 0⟩

/-- The same in a Fortran variable for order `"C"`. -/
def f23 : FArr := ⟨[3, 2], fun i => a23.get i.reverse⟩

theorem rep23 : Rep (some .C) a23 f23 := by
  refine ⟨rfl, ?_⟩
  intro i _
  simp [f23, revUnlessF]

example : Rep (some .C) a23 f23 ∧ a23.shape ≠ [] ∧ (some Order.C = none → a23.shape.length < 2) ∧
    (∀ k, some 1 = some k → k < a23.shape.length) ∧
    (printCount (some .C) [2, 3] f23 (some 1) true).map (fun r => (r.dims, r.get [0, 0], r.get [0, 1]))
      = some ([1, 2], 2, 1) ∧
    (printCount (some .C) [2, 3] f23 (some 0) false).map (fun r => (r.dims, r.get [0], r.get [1], r.get [2]))
      = some ([3], 1, 0, 2) ∧
    (countNonzero a23 (some 0) false).get [2] = 2 ∧ (countNonzero a23 none false).get [] = 3 := by
  refine ⟨rep23, by decide, by decide, ?_, by decide, by decide, by decide, by decide⟩
  intro k hk
  simp at hk
  subst hk
  decide

/-! ## C181 `np.nonzero` (Fortran) -/

/-- `np.nonzero(a)` (and `np.where(a)`) in Fortran, for an array with one dimension: the value printed
is the list of the indices of the elements that are not 0, in increasing order, and the variable
that receives it is allocated with exactly this length. -/
theorem C181_partial {n : Nat} {a : Arr} {f : FArr} (hs : a.shape = [n]) (h : Rep none a f) :
    printNonzero a.shape f = some (nonzero n a) ∧
    nonzeroShape a.shape f = some ((nonzero n a).length : Int) :=
  ⟨printNonzero_eq hs h, nonzeroShape_eq hs h⟩

/-- Which indices are found. -/
theorem C181_members_partial {n : Nat} {a : Arr} {f : FArr} (hs : a.shape = [n]) (h : Rep none a f)
    {l : List Nat} (hl : printNonzero a.shape f = some l) :
    (∀ i, i ∈ l ↔ i < n ∧ a.get [i] ≠ 0) ∧ l.Pairwise (· < ·) := by
  rw [printNonzero_eq hs h] at hl
  obtain rfl : nonzero n a = l := by simpa using hl
  refine ⟨fun i => by simp [nonzero], ?_⟩
  exact List.Pairwise.filter _ List.pairwise_lt_range

/-- `[5, 0, 7, 0, -1]` -/
def a5 : Arr := ⟨[5], fun i => [5, 0, 7, 0, -1].getD (i.headD 0) 0⟩

def f5 : FArr := ⟨[5], a5.get⟩

example : a5.shape = [5] ∧ Rep none a5 f5 ∧ printNonzero [5] f5 = some [0, 2, 4] ∧
    nonzeroShape [5] f5 = some 3 := by
  refine ⟨rfl, ⟨rfl, ?_⟩, by decide, by decide⟩
  intro i hi
  have : i.length = 1 := mem_indices_length hi
  match i, this with
  | [x], _ => rfl

/-- C181 fails: an array with more dimensions is refused, although NumPy has an answer for it. -/
theorem C181_rank_violated (n m : Nat) (s : List Nat) (f : FArr) : printNonzero (n :: m :: s) f = none := rfl

/-! ## C182 `np.full` (C) -/

/-- `x = np.full(n, e)` in C, for an expression without calls that does not read `x`: the same contents
as in Python, and nothing else changes. -/
theorem C182_c_partial (F : Funs) (x n : Nat) (e : Expr) (h : e.calls = 0) (hx : e.reads x = false) (s : Store) :
    fillC F x n e s = full F x n e s := by
  rw [fillC_iff F h s]
  intro p _
  refine eval_value F h hx rfl ?_
  intro a ha
  funext q
  simp [Store.fill, ha]

/-- For an expression without calls that may read `x`: the result is Python's if and only if the
expression keeps its value when the first elements of `x` have already got it. -/
theorem C182_reads_partial (F : Funs) (x n : Nat) (e : Expr) (h : e.calls = 0) (s : Store) :
    fillC F x n e s = full F x n e s ↔
      ∀ p, p < n → (eval F e (s.fill x p (eval F e s).1)).1 = (eval F e s).1 :=
  fillC_iff F h s

/-- Each call in the expression is made once for each element; in Python once. -/
theorem C182_calls_partial (F : Funs) (x n : Nat) (e : Expr) (s : Store) :
    (fillC F x n e s).calls.length = s.calls.length + n * e.calls ∧
    (full F x n e s).calls.length = s.calls.length + e.calls := by
  refine ⟨fillC_calls F x n e s, ?_⟩
  simp only [full, Store.fill, eval_calls]

/-- Hence the number of calls is right only for arrays with one element or for expressions without
calls. -/
theorem C182_calls_iff_partial (F : Funs) (x n : Nat) (e : Expr) (s : Store) :
    (fillC F x n e s).calls.length = (full F x n e s).calls.length ↔ n = 1 ∨ e.calls = 0 := by
  rw [(C182_calls_partial F x n e s).1, (C182_calls_partial F x n e s).2]
  constructor
  · intro h
    rcases Nat.eq_zero_or_pos e.calls with h0 | h0
    · exact Or.inr h0
    · refine Or.inl (Nat.eq_of_mul_eq_mul_right h0 ?_)
      omega
  · rintro (rfl | h)
    · simp
    · simp [h]

/-- `y[0] + k` for array 0 and variable 0. -/
def e1 : Expr := .op (· + ·) (.elem 0 (.lit 0)) (.var 0)

def noFuns : Funs := fun _ _ v a => (0, v, a)

def s1 : Store := ⟨fun _ => 1, fun _ _ => 5, []⟩

example : e1.calls = 0 ∧ e1.reads 1 = false ∧ (fillC noFuns 1 3 e1 s1).arr 1 2 = 6 ∧
    (full noFuns 1 3 e1 s1).arr 1 2 = 6 := by decide

/-- `x = np.full(n, x[k])` is right although it reads `x`. -/
example (F : Funs) (x n : Nat) (k : Int) (s : Store) : fillC F x n (.elem x (.lit k)) s
    = full F x n (.elem x (.lit k)) s := by
  rw [C182_reads_partial F x n _ rfl]
  intro p _
  simp only [eval, Store.fill]
  split <;> rfl

/-- C182 fails: `x = np.full(3, x[0] + 1)` with `x = [5, 5, 5]` gives `[6, 7, 7]` in C, because the
expression is computed anew for each element and `x[0]` has changed after the first one. -/
theorem C182_reads_violated : ∃ (x : Nat) (e : Expr) (s : Store),
    (List.range 3).map (fun p : Nat => (full noFuns x 3 e s).arr x p) = [6, 6, 6] ∧
    (List.range 3).map (fun p : Nat => (fillC noFuns x 3 e s).arr x p) = [6, 7, 7] :=
  ⟨0, e1, s1, by decide, by decide⟩

/-- A function that counts its calls in variable 0 and gives the count. -/
def counter : Funs := fun _ _ v a => (v 0, fun y => if y = 0 then v 0 + 1 else v y, a)

/-- C182 fails: `x = np.full(3, f(0))` in C calls `f` three times: a function that counts its calls fills
the array with different numbers.  With `n = 0` the function is not called at all. -/
theorem C182_calls_violated :
    (List.range 3).map (fun p : Nat => (full counter 0 3 (.call 0 (.lit 0)) s1).arr 0 p) = [1, 1, 1] ∧
    (List.range 3).map (fun p : Nat => (fillC counter 0 3 (.call 0 (.lit 0)) s1).arr 0 p) = [1, 2, 3] ∧
    (full counter 0 0 (.call 0 (.lit 0)) s1).val 0 = 2 ∧ (fillC counter 0 0 (.call 0 (.lit 0)) s1).val 0 = 1 := by
  decide

end Verif.Masks.Props
