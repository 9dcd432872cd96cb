/-
Specification of Python control flow: what a block of assignments, conditionals and while
loops does when Python runs it.

The values are abstract (`Dom`): integers and floating point numbers with NaN are instances.
Expressions can raise (`none`), so that *when* an operand is evaluated is observable.
Nothing in this file refers to the compiler.
-/

namespace Verif.Flow.Spec

inductive Cmp | eq | ne | lt | le | gt | ge
  deriving DecidableEq, Repr

inductive Bin | add | sub | mul | fdiv | mod
  deriving DecidableEq, Repr

/-- A domain of values.  An arithmetic operation may raise. -/
structure Dom where
  V : Type
  bin : Bin → V → V → Option V
  cmp : Cmp → V → V → Bool
  truth : V → Bool

variable (D : Dom)

abbrev Env := Nat → D.V

def Env.set {D : Dom} (s : Env D) (x : Nat) (v : D.V) : Env D := fun y => if y = x then v else s y

mutual
/-- Expressions. -/
inductive Expr
  | lit (v : D.V)
  | var (x : Nat)
  | bin (o : Bin) (a b : Expr)
  /-- `min(a, b)` -/
  | min (a b : Expr)
  /-- `max(a, b)` -/
  | max (a b : Expr)
  /-- `a if c else b` -/
  | tern (c : Cond) (a b : Expr)
/-- Conditions. -/
inductive Cond
  | lit (b : Bool)
  | cmp (o : Cmp) (a b : Expr)
  | truth (a : Expr)
  | not (c : Cond)
  | and (c d : Cond)
  | or (c d : Cond)
end

variable {D}

mutual
/-- Python's evaluation of an expression, left to right; `none` is an exception. -/
def evalE (s : Env D) : Expr D → Option D.V
  | .lit v => some v
  | .var x => some (s x)
  | .bin o a b =>
    match evalE s a with
    | none => none
    | some u => match evalE s b with
      | none => none
      | some v => D.bin o u v
  | .min a b =>
    match evalE s a with
    | none => none
    | some u => match evalE s b with
      | none => none
      | some v => some (if D.cmp .lt v u then v else u)
  | .max a b =>
    match evalE s a with
    | none => none
    | some u => match evalE s b with
      | none => none
      | some v => some (if D.cmp .gt v u then v else u)
  | .tern c a b =>
    match evalC s c with
    | none => none
    | some true => evalE s a
    | some false => evalE s b
/-- Python's evaluation of a condition: `and` and `or` stop as soon as the result is known. -/
def evalC (s : Env D) : Cond D → Option Bool
  | .lit b => some b
  | .cmp o a b =>
    match evalE s a with
    | none => none
    | some u => match evalE s b with
      | none => none
      | some v => some (D.cmp o u v)
  | .truth a => (evalE s a).map D.truth
  | .not c => (evalC s c).map (!·)
  | .and c d =>
    match evalC s c with
    | none => none
    | some false => some false
    | some true => evalC s d
  | .or c d =>
    match evalC s c with
    | none => none
    | some true => some true
    | some false => evalC s d
end

variable (D)

mutual
/-- Python statements (the shape of the `ast` module: `elif` is an `if` alone in the `else`). -/
inductive PStmt
  | assign (x : Nat) (e : Expr D)
  | ite (c : Cond D) (body orelse : PBlock)
  | while (c : Cond D) (body : PBlock)
  | brk
  | cont
  | ret (e : Expr D)
inductive PBlock
  | nil
  | cons (s : PStmt) (rest : PBlock)
end

/-- How a block ends, in a state of type `S`. -/
inductive Out (S V : Type)
  /-- control reaches the end of the block -/
  | norm (s : S)
  | brk (s : S)
  | cont (s : S)
  | ret (v : V) (s : S)
  /-- an exception was raised -/
  | err
  /-- some loop ran for more iterations than were allowed -/
  | fuel

/-- At most `n` iterations of a while loop whose test and body are given. -/
def loop {S V : Type} (test : S → Option Bool) (body : S → Out S V) : Nat → S → Out S V
  | 0, _ => .fuel
  | n + 1, s =>
    match test s with
    | none => .err
    | some false => .norm s
    | some true =>
      match body s with
      | .norm s' => loop test body n s'
      | .cont s' => loop test body n s'
      | .brk s' => .norm s'
      | .ret v s' => .ret v s'
      | .err => .err
      | .fuel => .fuel

def Out.map {S S' V : Type} (f : S → S') : Out S V → Out S' V
  | .norm s => .norm (f s)
  | .brk s => .brk (f s)
  | .cont s => .cont (f s)
  | .ret v s => .ret v (f s)
  | .err => .err
  | .fuel => .fuel

/-- Run one part of a block, and what follows it if control gets there. -/
def Out.andThen {S V : Type} (o : Out S V) (k : S → Out S V) : Out S V :=
  match o with
  | .norm s => k s
  | o => o

variable {D}

mutual
/-- Run a statement; every loop may make at most `n` iterations. -/
def PStmt.run (n : Nat) : PStmt D → Env D → Out (Env D) D.V
  | .assign x e, s =>
    match evalE s e with
    | none => .err
    | some v => .norm (s.set x v)
  | .ite c body orelse, s =>
    match evalC s c with
    | none => .err
    | some true => body.run n s
    | some false => orelse.run n s
  | .while c body, s => loop (fun s => evalC s c) (fun s => body.run n s) n s
  | .brk, s => .brk s
  | .cont, s => .cont s
  | .ret e, s =>
    match evalE s e with
    | none => .err
    | some v => .ret v s
/-- Run a block. -/
def PBlock.run (n : Nat) : PBlock D → Env D → Out (Env D) D.V
  | .nil, s => .norm s
  | .cons st rest, s => (st.run n s).andThen (rest.run n)
end

/-- The expression never raises. -/
def TotalE (e : Expr D) : Prop := ∀ s : Env D, ∃ v, evalE s e = some v

/-- The condition never raises. -/
def TotalC (c : Cond D) : Prop := ∀ s : Env D, ∃ v, evalC s c = some v

/-- `min` and `max` do not depend on which of two equal arguments is chosen. -/
structure MinMax (D : Dom) : Prop where
  min : ∀ u v : D.V, (if D.cmp .lt v u then v else u) = if D.cmp .lt u v then u else v
  max : ∀ u v : D.V, (if D.cmp .gt v u then v else u) = if D.cmp .gt u v then u else v

/-! ### Programs whose order of evaluation can be changed

An argument of `min` or `max` is *compound* if it is neither a variable nor a literal. -/

def Expr.compound : Expr D → Bool
  | .lit _ => false
  | .var _ => false
  | _ => true

mutual
/-- No `min` or `max` has a compound argument. -/
def PlainE : Expr D → Prop
  | .lit _ => True
  | .var _ => True
  | .bin _ a b => PlainE a ∧ PlainE b
  | .min a b => a.compound = false ∧ b.compound = false
  | .max a b => a.compound = false ∧ b.compound = false
  | .tern c a b => PlainC c ∧ PlainE a ∧ PlainE b
def PlainC : Cond D → Prop
  | .lit _ => True
  | .cmp _ a b => PlainE a ∧ PlainE b
  | .truth a => PlainE a
  | .not c => PlainC c
  | .and c d => PlainC c ∧ PlainC d
  | .or c d => PlainC c ∧ PlainC d
end

mutual
/-- The compound arguments of `min` and `max` never raise. -/
def SafeE : Expr D → Prop
  | .lit _ => True
  | .var _ => True
  | .bin _ a b => SafeE a ∧ SafeE b
  | .min a b =>
    SafeE a ∧ SafeE b ∧ (a.compound = true → TotalE a) ∧ (b.compound = true → TotalE b)
  | .max a b =>
    SafeE a ∧ SafeE b ∧ (a.compound = true → TotalE a) ∧ (b.compound = true → TotalE b)
  | .tern c a b => SafeC c ∧ SafeE a ∧ SafeE b
def SafeC : Cond D → Prop
  | .lit _ => True
  | .cmp _ a b => SafeE a ∧ SafeE b
  | .truth a => SafeE a
  | .not c => SafeC c
  | .and c d => SafeC c ∧ SafeC d
  | .or c d => SafeC c ∧ SafeC d
end

mutual
/-- The compound arguments of `min` and `max` never raise, where Python might not evaluate them: in
the second operand of `and` and `or` and in the branches of a conditional expression. -/
def LazySafeE : Expr D → Prop
  | .lit _ => True
  | .var _ => True
  | .bin _ a b => LazySafeE a ∧ LazySafeE b
  | .min a b => LazySafeE a ∧ LazySafeE b
  | .max a b => LazySafeE a ∧ LazySafeE b
  | .tern c a b => LazySafeC c ∧ SafeE a ∧ SafeE b
def LazySafeC : Cond D → Prop
  | .lit _ => True
  | .cmp _ a b => LazySafeE a ∧ LazySafeE b
  | .truth a => LazySafeE a
  | .not c => LazySafeC c
  | .and c d => LazySafeC c ∧ SafeC d
  | .or c d => LazySafeC c ∧ SafeC d
end

mutual
/-- A program for which moving the compound arguments of `min` and `max` in front of the statement
is harmless: none in the test of a loop, and those which Python might not evaluate never raise. -/
def PStmt.Hoistable : PStmt D → Prop
  | .assign _ e => LazySafeE e
  | .ite c body orelse => LazySafeC c ∧ body.Hoistable ∧ orelse.HoistableElse
  | .while c body => PlainC c ∧ body.Hoistable
  | .brk => True
  | .cont => True
  | .ret e => LazySafeE e
/-- After `else:`; an `if` which is alone here is an `elif`. -/
def PBlock.HoistableElse : PBlock D → Prop
  | .nil => True
  | .cons (.ite c body orelse) .nil => SafeC c ∧ body.Hoistable ∧ orelse.HoistableElse
  | .cons s r => s.Hoistable ∧ r.Hoistable
def PBlock.Hoistable : PBlock D → Prop
  | .nil => True
  | .cons s r => s.Hoistable ∧ r.Hoistable
end

mutual
/-- What Python might not evaluate (the second operand of `and` and `or`, the branches of a
conditional expression) never raises. -/
def StrictSafeE : Expr D → Prop
  | .lit _ => True
  | .var _ => True
  | .bin _ a b => StrictSafeE a ∧ StrictSafeE b
  | .min a b => StrictSafeE a ∧ StrictSafeE b
  | .max a b => StrictSafeE a ∧ StrictSafeE b
  | .tern c a b => StrictSafeC c ∧ (StrictSafeE a ∧ TotalE a) ∧ (StrictSafeE b ∧ TotalE b)
def StrictSafeC : Cond D → Prop
  | .lit _ => True
  | .cmp _ a b => StrictSafeE a ∧ StrictSafeE b
  | .truth a => StrictSafeE a
  | .not c => StrictSafeC c
  | .and c d => StrictSafeC c ∧ StrictSafeC d ∧ TotalC d
  | .or c d => StrictSafeC c ∧ StrictSafeC d ∧ TotalC d
end

mutual
def PStmt.StrictSafe : PStmt D → Prop
  | .assign _ e => StrictSafeE e
  | .ite c body orelse => StrictSafeC c ∧ body.StrictSafe ∧ orelse.StrictSafe
  | .while c body => StrictSafeC c ∧ body.StrictSafe
  | .brk => True
  | .cont => True
  | .ret e => StrictSafeE e
def PBlock.StrictSafe : PBlock D → Prop
  | .nil => True
  | .cons s r => s.StrictSafe ∧ r.StrictSafe
end

/-! ### Two domains -/

/-- Unbounded integers, with Python's floor division and modulo. -/
def intDom : Dom where
  V := Int
  bin o a b := match o with
    | .add => some (a + b)
    | .sub => some (a - b)
    | .mul => some (a * b)
    | .fdiv => if b = 0 then none else some (Int.fdiv a b)
    | .mod => if b = 0 then none else some (Int.fmod a b)
  cmp o a b := match o with
    | .eq => decide (a = b)
    | .ne => decide (a ≠ b)
    | .lt => decide (a < b)
    | .le => decide (a ≤ b)
    | .gt => decide (a > b)
    | .ge => decide (a ≥ b)
  truth a := decide (a ≠ 0)

/-- Integers with NaN (`none`): every comparison with NaN is false, except `!=`.  This is all that
is needed of IEEE 754 to see how tests on NaN behave. -/
def nanDom : Dom where
  V := Option Int
  bin o a b := match a, b with
    | some a, some b => match intDom.bin o a b with
      | some v => some (some v)
      | none => none
    | _, _ => some none
  cmp o a b := match a, b with
    | some a, some b => intDom.cmp o a b
    | _, _ => match o with
      | .ne => true
      | _ => false
  truth a := match a with
    | some a => decide (a ≠ 0)
    | none => true

/-! ### Chained comparisons

`x₀ op₁ x₁ op₂ x₂ …`, where evaluating an operand may change the state and may raise. -/

/-- An operand: from the state to a value and the new state, or an exception. -/
abbrev Operand (σ V : Type) := σ → Option (V × σ)

/-- Python: every operand is evaluated at most once, and evaluation stops at the first comparison
which is false. -/
def chainFrom {σ V : Type} (cmp : Cmp → V → V → Bool) (u : V) :
    List (Cmp × Operand σ V) → σ → Option (Bool × σ)
  | [], s => some (true, s)
  | (o, x) :: rest, s =>
    match x s with
    | none => none
    | some (v, s') => if cmp o u v then chainFrom cmp v rest s' else some (false, s')

def chain {σ V : Type} (cmp : Cmp → V → V → Bool) (x : Operand σ V)
    (rest : List (Cmp × Operand σ V)) (s : σ) : Option (Bool × σ) :=
  match x s with
  | none => none
  | some (u, s') => chainFrom cmp u rest s'

/-- Evaluating the operand does not change the state. -/
def Quiet {σ V : Type} (x : Operand σ V) : Prop := ∀ s v s', x s = some (v, s') → s' = s

end Verif.Flow.Spec
