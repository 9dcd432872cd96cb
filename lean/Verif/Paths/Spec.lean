/-
Specification for C169–C171: how Python runs the statements of a function with loops that may have an `else` block, assertions and
`return`, and what a call gives.  Simple statements, conditions and values are functions on the state; `none` is another exception.
-/
namespace Verif.Paths.Spec

/-- Statements, each with those that follow it. -/
inductive Code (σ V : Type) where
  | done
  | act (f : σ → Option σ) (rest : Code σ V)
  | assert (c : σ → Option (Bool × σ)) (rest : Code σ V)
  | ite (c : σ → Option (Bool × σ)) (a b rest : Code σ V)
  | while (c : σ → Option (Bool × σ)) (body els rest : Code σ V)
  /-- `for` over `count` items; `bind k` gives the loop variable the `k`-th item. -/
  | for (count : σ → Option Nat) (bind : Nat → σ → σ) (body els rest : Code σ V)
  | brk
  | cont
  | ret (e : σ → Option (V × σ))

/-- How a block ends. -/
inductive Out (σ V : Type) where
  | next (s : σ)
  | brk (s : σ)
  | cont (s : σ)
  | ret (s : σ) (v : V)
  /-- `AssertionError` -/
  | failed (s : σ)
  /-- another exception -/
  | error

/-- Go on with `k` if a block ended normally. -/
def Out.andThen {σ V : Type} (k : σ → Option (Out σ V)) : Out σ V → Option (Out σ V)
  | .next s => k s
  | o => some o

/-- The iterations of a `for` loop: it goes on after the end of the body and after `continue`. -/
def iter {σ V : Type} (run : σ → Option (Out σ V)) (bind : Nat → σ → σ) : Nat → Nat → σ → Option (Out σ V)
  | 0, _, s => some (.next s)
  | m + 1, k, s => (run (bind k s)).bind fun
    | .next s => iter run bind m (k + 1) s
    | .cont s => iter run bind m (k + 1) s
    | o => some o

/-- Python; `none`: not finished after `n` steps.  The `else` block of a loop runs unless the loop ends with `break`, `return` or an
exception; `break` in it belongs to the loop around. -/
def exec {σ V : Type} : Nat → Code σ V → σ → Option (Out σ V)
  | 0, _, _ => none
  | _ + 1, .done, s => some (.next s)
  | n + 1, .act f rest, s => match f s with
    | none => some .error
    | some s => exec n rest s
  | n + 1, .assert c rest, s => match c s with
    | none => some .error
    | some (true, s) => exec n rest s
    | some (false, s) => some (.failed s)
  | n + 1, .ite c a b rest, s => match c s with
    | none => some .error
    | some (true, s) => (exec n a s).bind (Out.andThen (exec n rest))
    | some (false, s) => (exec n b s).bind (Out.andThen (exec n rest))
  | n + 1, .while c body els rest, s => match c s with
    | none => some .error
    | some (false, s) => (exec n els s).bind (Out.andThen (exec n rest))
    | some (true, s) => (exec n body s).bind fun
      | .next s => exec n (.while c body els rest) s
      | .cont s => exec n (.while c body els rest) s
      | .brk s => exec n rest s
      | o => some o
  | n + 1, .for count bind body els rest, s => match count s with
    | none => some .error
    | some m => (iter (exec n body) bind m 0 s).bind fun
      | .next s => (exec n els s).bind (Out.andThen (exec n rest))
      | .brk s => exec n rest s
      | o => some o
  | _ + 1, .brk, s => some (.brk s)
  | _ + 1, .cont, s => some (.cont s)
  | _ + 1, .ret e, s => match e s with
    | none => some .error
    | some (v, s) => some (.ret s v)

/-- What a call gives: a value, `None`, or an exception. -/
inductive Result (σ V : Type) where
  | value (v : V) (s : σ)
  | none (s : σ)
  | assertion (s : σ)
  | error

def pyCall {σ V : Type} (n : Nat) (body : Code σ V) (s : σ) : Option (Result σ V) :=
  (exec n body s).map fun
    | .next s => .none s
    | .ret s v => .value v s
    | .failed s => .assertion s
    | _ => .error

/-- No loop has an `else` block. -/
def Code.NoElse {σ V : Type} : Code σ V → Prop
  | .act _ r => r.NoElse
  | .assert _ r => r.NoElse
  | .ite _ a b r => a.NoElse ∧ b.NoElse ∧ r.NoElse
  | .while _ b e r => b.NoElse ∧ e = .done ∧ r.NoElse
  | .for _ _ b e r => b.NoElse ∧ e = .done ∧ r.NoElse
  | _ => True

/-- The conditions of assertions change nothing and raise nothing. -/
def Code.PureAsserts {σ V : Type} : Code σ V → Prop
  | .act _ r => r.PureAsserts
  | .assert c r => (∀ s, ∃ b, c s = some (b, s)) ∧ r.PureAsserts
  | .ite _ a b r => a.PureAsserts ∧ b.PureAsserts ∧ r.PureAsserts
  | .while _ b e r => b.PureAsserts ∧ e.PureAsserts ∧ r.PureAsserts
  | .for _ _ b e r => b.PureAsserts ∧ e.PureAsserts ∧ r.PureAsserts
  | _ => True

/-- The last statement of every path is `return` with a value. -/
def Code.Returns {σ V : Type} : Code σ V → Prop
  | .act _ r => r.Returns
  | .assert _ r => r.Returns
  | .ite _ a b r => (a.Returns ∧ b.Returns) ∨ r.Returns
  | .while _ _ _ r => r.Returns
  | .for _ _ _ _ r => r.Returns
  | .ret _ => True
  | _ => False

/-- There is a `return` with a value. -/
def Code.hasReturn {σ V : Type} : Code σ V → Bool
  | .act _ r => r.hasReturn
  | .assert _ r => r.hasReturn
  | .ite _ a b r => a.hasReturn || b.hasReturn || r.hasReturn
  | .while _ b e r => b.hasReturn || e.hasReturn || r.hasReturn
  | .for _ _ b e r => b.hasReturn || e.hasReturn || r.hasReturn
  | .ret _ => true
  | _ => false

end Verif.Paths.Spec
