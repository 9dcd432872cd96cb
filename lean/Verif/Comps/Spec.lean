/-
Specification for C165–C166: what a list comprehension means in Python.
Scalar variables and sequences (lists or one-dimensional arrays) are numbered separately.
-/
namespace Verif.Comps.Spec

/-- Expressions of a comprehension. `elt s e` is element `e` of sequence `s`. -/
inductive Expr
  | num (n : Int)
  | var (x : Nat)
  | len (s : Nat)
  | elt (s : Nat) (e : Expr)
  | add (a b : Expr)
  | sub (a b : Expr)
  | mul (a b : Expr)
deriving DecidableEq, Repr

/-- What a clause iterates over: `range(a, b, s)` or a sequence. -/
inductive Iter
  | range (a b s : Expr)
  | seq (l : Nat)
deriving DecidableEq, Repr

/-- `for x in iter if c₁ if c₂ …`. -/
structure Clause where
  x : Nat
  iter : Iter
  conds : List Expr
deriving DecidableEq, Repr

/-- Value of an expression; `none` is an error (a variable without a value, an index outside
`0 ≤ i < len`; negative indices are the subject of C05 and are not used here). -/
def eval (env : Nat → Option Int) (seqs : Nat → List Int) : Expr → Option Int
  | .num n => some n
  | .var x => env x
  | .len s => some (seqs s).length
  | .elt s e => do
    let i ← eval env seqs e
    if 0 ≤ i then (seqs s)[i.toNat]? else none
  | .add a b => do return (← eval env seqs a) + (← eval env seqs b)
  | .sub a b => do return (← eval env seqs a) - (← eval env seqs b)
  | .mul a b => do return (← eval env seqs a) * (← eval env seqs b)

/-- Number of elements of `range(a, b, s)` for `s ≠ 0`. -/
def rangeLen (a b s : Int) : Nat :=
  if 0 < s then ((b - a + s - 1) / s).toNat else ((a - b + (-s) - 1) / (-s)).toNat

/-- `n` numbers from `a` in steps of `s`. -/
def steps : Nat → Int → Int → List Int
  | 0, _, _ => []
  | n + 1, a, s => a :: steps n (a + s) s

/-- The elements of `range(a, b, s)` (compare `C165_range`). -/
def pyRange (a b s : Int) : List Int := steps (rangeLen a b s) a s

/-- The values that a clause gives to its variable. `range` with step 0 is an error. -/
def iterVals (env : Nat → Option Int) (seqs : Nat → List Int) : Iter → Option (List Int)
  | .range a b s => do
    let a ← eval env seqs a
    let b ← eval env seqs b
    let s ← eval env seqs s
    if s = 0 then none else some (pyRange a b s)
  | .seq l => some (seqs l)

/-- The conditions of a clause, evaluated from left to right up to the first false one. -/
def holds (env : Nat → Option Int) (seqs : Nat → List Int) : List Expr → Option Bool
  | [] => some true
  | c :: cs => do
    let v ← eval env seqs c
    if v = 0 then some false else holds env seqs cs

def upd {α : Type} (f : Nat → α) (x : Nat) (v : α) : Nat → α := fun y => if y = x then v else f y

/-- The lists that `f` computes for the elements of a list, joined; an error if one fails. -/
def joinVals (f : Int → Option (List Int)) : List Int → Option (List Int)
  | [] => some []
  | x :: xs => do
    let a ← f x
    let b ← joinVals f xs
    return a ++ b

/-- The values that the clauses and the element give in the scope `env`. -/
def vals (seqs : Nat → List Int) (e : Expr) : List Clause → (Nat → Option Int) → Option (List Int)
  | [], env => (eval env seqs e).map ([·])
  | c :: cs, env => do
    let xs ← iterVals env seqs c.iter
    joinVals (fun x => do
      if ← holds (upd env c.x (some x)) seqs c.conds then vals seqs e cs (upd env c.x (some x))
      else return []) xs

/-- The variables of the clauses. -/
def targets (cs : List Clause) : List Nat := cs.map (·.x)

/-- The scope of a comprehension: its variables have no value yet, the others are those around. -/
def inner (vars : Nat → Int) (cs : List Clause) : Nat → Option Int :=
  fun x => if x ∈ targets cs then none else some (vars x)

/-- The list of a comprehension (language reference, *Displays for lists*): the iterable of the
first clause is evaluated in the enclosing scope, everything else in the scope of the
comprehension. -/
def pyComp (vars : Nat → Int) (seqs : Nat → List Int) (e : Expr) : List Clause → Option (List Int)
  | [] => none
  | c :: cs => do
    let xs ← iterVals (fun x => some (vars x)) seqs c.iter
    joinVals (fun x => do
      if ← holds (upd (inner vars (c :: cs)) c.x (some x)) seqs c.conds then
        vals seqs e cs (upd (inner vars (c :: cs)) c.x (some x))
      else return []) xs

/-- The sequence `s` is not mentioned. -/
def Expr.Free (s : Nat) : Expr → Prop
  | .num _ => True
  | .var _ => True
  | .len t => t ≠ s
  | .elt t e => t ≠ s ∧ e.Free s
  | .add a b => a.Free s ∧ b.Free s
  | .sub a b => a.Free s ∧ b.Free s
  | .mul a b => a.Free s ∧ b.Free s

def Iter.Free (s : Nat) : Iter → Prop
  | .range a b c => a.Free s ∧ b.Free s ∧ c.Free s
  | .seq l => l ≠ s

def Clause.Free (s : Nat) (c : Clause) : Prop := c.iter.Free s ∧ ∀ d ∈ c.conds, d.Free s

/-- No variable of `xs` is mentioned. -/
def Expr.Without (xs : List Nat) : Expr → Prop
  | .num _ => True
  | .var x => x ∉ xs
  | .len _ => True
  | .elt _ e => e.Without xs
  | .add a b => a.Without xs ∧ b.Without xs
  | .sub a b => a.Without xs ∧ b.Without xs
  | .mul a b => a.Without xs ∧ b.Without xs

def Iter.Without (xs : List Nat) : Iter → Prop
  | .range a b c => a.Without xs ∧ b.Without xs ∧ c.Without xs
  | .seq _ => True

/-- The sequence `s` is read only at the positions `x`, `x + 1`, `x + 2`, …; its length may be used. -/
def Expr.Ahead (s x : Nat) : Expr → Prop
  | .num _ => True
  | .var _ => True
  | .len _ => True
  | .elt t e => if t = s then e = .var x ∨ ∃ k : Nat, e = .add (.var x) (.num k) else e.Ahead s x
  | .add a b => a.Ahead s x ∧ b.Ahead s x
  | .sub a b => a.Ahead s x ∧ b.Ahead s x
  | .mul a b => a.Ahead s x ∧ b.Ahead s x

end Verif.Comps.Spec
