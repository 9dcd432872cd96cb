/-
Specification for C08–C12: Python's `range`, `for`, `zip`, `enumerate`, `itertools.product`.
-/
namespace Verif.Loops.Spec

/-- `l` is the list of elements of Python's `range(a, b, s)` (library reference, *Ranges*):
"For a positive step, the contents of a range r are determined by the formula
`r[i] = start + step*i` where `i >= 0` and `r[i] < stop`.  For a negative step, …
`r[i] > stop`." -/
def IsRange (a b s : Int) (l : List Int) : Prop :=
  ∀ (k : Nat) (v : Int), l[k]? = some v ↔ v = a + s * k ∧ ((0 < s ∧ v < b) ∨ (s < 0 ∧ b < v))

/-- How a loop body ends: normally (including `continue`) or by `break`/`return`. -/
inductive Ctl | next | brk
deriving DecidableEq, Repr

/-- A variable inside a program state `σ`, given by its reader and writer. -/
structure Var (σ : Type) where
  get : σ → Int
  set : σ → Int → σ
  get_set : ∀ s x, get (set s x) = x
  set_set : ∀ s x y, set (set s x) y = set s y

/-- Python's `for v in <iterable yielding xs>: body`. -/
def pyFor {σ : Type} (v : Var σ) (body : σ → σ × Ctl) : List Int → σ → σ
  | [], s => s
  | x :: xs, s =>
    match body (v.set s x) with
    | (s', .brk) => s'
    | (s', .next) => pyFor v body xs s'

/-- The loop ends by `break` or `return`. -/
def breaks {σ : Type} (v : Var σ) (body : σ → σ × Ctl) : List Int → σ → Bool
  | [], _ => false
  | x :: xs, s =>
    match body (v.set s x) with
    | (_, .brk) => true
    | (s', .next) => breaks v body xs s'

/-- Python's `zip` of at least one sequence: stop as soon as one of them is exhausted. -/
def pyZip {α : Type} : Nat → List (List α) → List (List α)
  | 0, _ => []
  | fuel + 1, ls =>
    if ls.any (·.isEmpty) then []
    else ls.filterMap List.head? :: pyZip fuel (ls.map List.tail)

/-- Python's `enumerate(l, start)`. -/
def pyEnumerate {α : Type} (start : Int) : List α → List (Int × α)
  | [] => []
  | x :: xs => (start, x) :: pyEnumerate (start + 1) xs

/-- Python's `itertools.product` (rightmost element advances fastest). -/
def pyProduct {α : Type} : List (List α) → List (List α)
  | [] => [[]]
  | l :: ls => l.flatMap fun x => (pyProduct ls).map (x :: ·)

/-- The index tuples for which the body of nested `range` loops is executed, the bounds of each
loop being computed from the indices of the enclosing ones. `loops` gives (start, stop, step). -/
inductive Visits : List (List Int → Int × Int × Int) → List Int → List (List Int) → Prop
  | nil (env) : Visits [] env [env]
  | cons {f fs env} (l : List Int) (hl : IsRange (f env).1 (f env).2.1 (f env).2.2 l)
      (vs : Int → List (List Int)) (hv : ∀ x ∈ l, Visits fs (env ++ [x]) (vs x)) :
      Visits (f :: fs) env (l.flatMap vs)

/-- The values produced by the generator expression `(e for idx in xs if c)` evaluated in the
state `s` before the assignment. -/
def genValues {σ α : Type} (setIdx : σ → α → σ) (c : σ → Bool) (e : σ → Int) (xs : List α)
    (s : σ) : List Int :=
  xs.filterMap fun x => if c (setIdx s x) then some (e (setIdx s x)) else none

def IsMin (m : Int) (l : List Int) : Prop := m ∈ l ∧ ∀ x ∈ l, m ≤ x
def IsMax (m : Int) (l : List Int) : Prop := m ∈ l ∧ ∀ x ∈ l, x ≤ m

end Verif.Loops.Spec
