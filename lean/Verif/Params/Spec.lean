/-!
# Functions with array parameters, as Python runs them

A small language: variables that hold one-dimensional integer arrays of one length `n`, and the
statements that assign to them.  Variables are numbered; those below the number of arguments are the
parameters.  The heap maps addresses to contents.
-/

namespace Verif.Params.Spec

/-- The contents of an array. -/
abbrev Arr (n : Nat) := Fin n → Int

/-- Expressions, element by element. -/
inductive Expr
  | var (x : Nat)
  | num (c : Int)
  | bin (op : Int → Int → Int) (a b : Expr)

/-- Statements. -/
inductive Stmt
  | skip
  /-- `x = e`: the variable gets a new array. -/
  | set (x : Nat) (e : Expr)
  /-- `x[:] = e`: the array gets new contents. -/
  | fill (x : Nat) (e : Expr)
  /-- `x op= e`: the array gets new contents. -/
  | aug (x : Nat) (op : Int → Int → Int) (e : Expr)
  | seq (s t : Stmt)
  /-- `for _ in range(k): s`. -/
  | rep (k : Nat) (s : Stmt)
  /-- `if x[0] > c: s else: t` (false for empty arrays, where Python raises). -/
  | ite (x : Nat) (c : Int) (s t : Stmt)

/-- Python's memory: what the variables refer to, the contents, the next free address. -/
structure Mem (n : Nat) where
  env : Nat → Option Nat
  heap : Nat → Arr n
  next : Nat

/-- A function changed at one point. -/
def upd {β : Type} (f : Nat → β) (a : Nat) (b : β) : Nat → β := fun x => if x = a then b else f x

/-- The value of an expression; none if a variable is not bound (`UnboundLocalError`). -/
def eval {n : Nat} (m : Mem n) : Expr → Option (Arr n)
  | .var x => (m.env x).map m.heap
  | .num c => some fun _ => c
  | .bin op a b =>
    match eval m a, eval m b with
    | some u, some v => some fun i => op (u i) (v i)
    | _, _ => none

/-- The test of `ite`. -/
def test {n : Nat} (a : Arr n) (c : Int) : Bool := if h : 0 < n then decide (a ⟨0, h⟩ > c) else false

/-- Repeat. -/
def times {α : Type} (f : α → Option α) : Nat → α → Option α
  | 0, a => some a
  | k + 1, a =>
    match f a with
    | some b => times f k b
    | none => none

/-- Run a statement; none if Python raises an exception. -/
def run {n : Nat} : Stmt → Mem n → Option (Mem n)
  | .skip, m => some m
  | .set x e, m =>
    match eval m e with
    | none => none
    | some v => some ⟨upd m.env x (some m.next), upd m.heap m.next v, m.next + 1⟩
  | .fill x e, m =>
    match m.env x, eval m e with
    | some l, some v => some { m with heap := upd m.heap l v }
    | _, _ => none
  | .aug x op e, m =>
    match m.env x, eval m e with
    | some l, some v => some { m with heap := upd m.heap l fun i => op (m.heap l i) (v i) }
    | _, _ => none
  | .seq s t, m =>
    match run s m with
    | some m' => run t m'
    | none => none
  | .rep k s, m => times (run s) k m
  | .ite x c s t, m =>
    match m.env x with
    | none => none
    | some l => if test (m.heap l) c then run s m else run t m

/-- The memory at the start of a call: parameter `i` refers to the array at address `args[i]`, the
other variables are not bound. -/
def start {n : Nat} (args : List Nat) (heap : Nat → Arr n) (next : Nat) : Mem n :=
  ⟨fun x => args[x]?, heap, next⟩

/-- No parameter is assigned as a whole. -/
def NoSet (k : Nat) : Stmt → Prop
  | .set x _ => k ≤ x
  | .seq s t => NoSet k s ∧ NoSet k t
  | .rep _ s => NoSet k s
  | .ite _ _ s t => NoSet k s ∧ NoSet k t
  | _ => True

/-- The variables that a statement can write to. -/
def writes : Stmt → List Nat
  | .skip => []
  | .set x _ => [x]
  | .fill x _ => [x]
  | .aug x _ _ => [x]
  | .seq s t => writes s ++ writes t
  | .rep _ s => writes s
  | .ite _ _ s t => writes s ++ writes t

end Verif.Params.Spec
