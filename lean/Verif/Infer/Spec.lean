import Verif.Types.Model

/-
Specification for C110: small Python programs with numbers, tuples and lists, whose variables can change their type.
-/
namespace Verif.Infer
open Verif.Types.Spec (Num pyArith)

/-- Binary operators. -/
inductive Op | add | sub | mul | fdiv
deriving DecidableEq, Repr

/-- Expressions: a number of a given type (`1`, `2.5`, `numpy.int8(1)`), a variable, an element `x[i]`, an operation, a cast `t(a)` and
`a if c else b`. -/
inductive Expr where
  | lit (t : Num) (q : Rat)
  | var (x : Nat)
  | elem (x i : Nat)
  | bin (o : Op) (a b : Expr)
  | cast (t : Num) (a : Expr)
  | cond (c a b : Expr)
deriving Repr

/-- Right-hand sides: a number, a tuple, a list or (`copy y`) the tuple that `y` holds. -/
inductive Rhs where
  | one (e : Expr)
  | tup (es : List Expr)
  | list (es : List Expr)
  | copy (y : Nat)
deriving Repr

/-- Statements.  `ret r` is `return r`: it gives the variable 0, which stands for the result, the value of `r` and ends the function. -/
inductive Stmt where
  | skip
  | assign (x : Nat) (r : Rhs)
  | setElem (x i : Nat) (e : Expr)
  | aug (x : Nat) (o : Op) (e : Expr)
  | seq (a b : Stmt)
  | ite (c : Expr) (a b : Stmt)
  | loop (c : Expr) (a : Stmt)
  | ret (r : Rhs)
deriving Repr

/-- Values of Python: numbers carry their type. -/
inductive PVal where
  | num (t : Num) (q : Rat)
  | tup (l : List (Num × Rat))
  | list (l : List (Num × Rat))
deriving DecidableEq, Repr

/-- The type of a result in Python: Python's rule for two numbers of Python, `numpy.result_type` for all others. -/
def dynT (a b : Num) : Num := if a.python ∧ b.python then pyArith a b else Types.npResultType a b

/-- The values of a type that the model has: truth values are 0 and 1, integers have the width of the type, and real numbers are exact
(simplification: rounding is the subject of C83-C88; complex types hold real numbers only). -/
def Fits (t : Num) (q : Rat) : Prop :=
  match t.kind with
  | .bool => q = 0 ∨ q = 1
  | .int => q.isInt = true ∧ -2 ^ (t.width - 1) ≤ q.num ∧ q.num < 2 ^ (t.width - 1)
  | _ => True

instance (t : Num) (q : Rat) : Decidable (Fits t q) := by
  unfold Fits
  split <;> infer_instance

/-- The number computed by an operator. -/
def opV : Op → Rat → Rat → Option Rat
  | .add, x, y => some (x + y)
  | .sub, x, y => some (x - y)
  | .mul, x, y => some (x * y)
  | .fdiv, x, y => if y = 0 then none else some ((x / y).floor : Int)

/-- Rounding towards zero. -/
def trunc (q : Rat) : Int := q.num.tdiv q.den

/-- A value converted to a type, before it is reduced to the size of the type. -/
def convV (t : Num) (q : Rat) : Rat :=
  match t.kind with
  | .bool => if q = 0 then 0 else 1
  | .int => (trunc q : Int)
  | _ => q

/-- A value if it is one of its type; otherwise the program leaves the model (integers that overflow are the subject of C108). -/
def check (t : Num) (q : Rat) : Option (Num × Rat) := if Fits t q then some (t, q) else none

/-- The value of an expression in Python; `none` is an exception or an overflow. -/
def pyEval (env : Nat → Option PVal) : Expr → Option (Num × Rat)
  | .lit t q => check t q
  | .var x => match env x with
    | some (.num t q) => some (t, q)
    | _ => none
  | .elem x i => match env x with
    | some (.tup l) | some (.list l) => l[i]?
    | _ => none
  | .bin o a b => match pyEval env a, pyEval env b with
    | some (t, x), some (u, y) => match opV o x y with
      | some z => check (dynT t u) z
      | none => none
    | _, _ => none
  | .cast t a => match pyEval env a with
    | some (_, x) => check t (convV t x)
    | none => none
  | .cond c a b => match pyEval env c with
    | some (_, z) => if z ≠ 0 then pyEval env a else pyEval env b
    | none => none

/-- The values of several expressions. -/
def pyEvals (env : Nat → Option PVal) : List Expr → Option (List (Num × Rat))
  | [] => some []
  | e :: es => match pyEval env e, pyEvals env es with
    | some v, some vs => some (v :: vs)
    | _, _ => none

/-- The value of a right-hand side. -/
def pyRhs (env : Nat → Option PVal) : Rhs → Option PVal
  | .one e => (pyEval env e).map (fun p => .num p.1 p.2)
  | .tup es => (pyEvals env es).map .tup
  | .list es => (pyEvals env es).map .list
  | .copy y => match env y with
    | some (.tup l) => some (.tup l)
    | _ => none

/-- A state with one variable changed. -/
def upd {α : Type} (env : Nat → Option α) (x : Nat) (v : α) : Nat → Option α := fun y => if y = x then some v else env y

/-- A loop with at most `n` iterations: `c` is the condition, `body` tells whether a `return` was executed and the state afterwards. -/
def iter {σ : Type} (c : σ → Option Bool) (body : σ → Option (Bool × σ)) : Nat → σ → Option (Bool × σ)
  | 0, _ => none
  | n + 1, s => match c s with
    | none => none
    | some false => some (false, s)
    | some true => match body s with
      | some (false, s') => iter c body n s'
      | r => r

/-- The truth value of a condition. -/
def pyCond (env : Nat → Option PVal) (c : Expr) : Option Bool := (pyEval env c).map (fun p => decide (p.2 ≠ 0))

/-- A run in Python in which no loop has more than `n` iterations: whether a `return` was executed, and the variables afterwards. -/
def pyRun (n : Nat) : Stmt → (Nat → Option PVal) → Option (Bool × (Nat → Option PVal))
  | .skip, env => some (false, env)
  | .assign x r, env => (pyRhs env r).map (fun v => (false, upd env x v))
  | .setElem x i e, env => match env x, pyEval env e with
    | some (.list l), some v => if i < l.length then some (false, upd env x (.list (l.set i v))) else none
    | _, _ => none
  | .aug x o e, env => (pyEval env (.bin o (.var x) e)).map (fun p => (false, upd env x (.num p.1 p.2)))
  | .seq a b, env => match pyRun n a env with
    | some (false, env') => pyRun n b env'
    | r => r
  | .ite c a b, env => match pyCond env c with
    | some true => pyRun n a env
    | some false => pyRun n b env
    | none => none
  | .loop c a, env => iter (pyCond · c) (pyRun n a) n env
  | .ret r, env => (pyRhs env r).map (fun v => (true, upd env 0 v))

/-- The numbers that a value consists of. -/
def PVal.nums : PVal → List Rat
  | .num _ q => [q]
  | .tup l | .list l => l.map (·.2)

end Verif.Infer
