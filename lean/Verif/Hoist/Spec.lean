/-
Specification for C116–C118: calls of the user's functions inside expressions.

Python evaluates the operands of an operator and the arguments of a call from left to right, and
makes every call once.  A call may change the state (the contents of the arrays it is given), so
both the number of calls and their order are observable.  The functions, the operators and the
state are arbitrary (`Interp`): a statement made for every `Interp` says that the same functions are
called on the same values, in states which cannot be told apart.
-/
namespace Verif.Hoist

mutual
/-- Expressions.  `lit` is a value which no call can change: a number, a scalar variable or a
reference to an array.  `elem` is an element of an array.  `call arr f as` calls the user's function
`f`, which returns an array if `arr`.  `op arr o a b` is an operator, on arrays if `arr`.  `root a`
is `a ** 0.5`. -/
inductive Src
  | lit (n : Nat)
  | elem (n : Nat)
  | call (arr : Bool) (f : Nat) (as : Args)
  | op (arr : Bool) (o : Nat) (a b : Src)
  | root (a : Src)
/-- The arguments of a call. -/
inductive Args
  | nil
  | cons (a : Src) (as : Args)
end

/-- Meanings of the functions and operators, over values `V` and states `S`.  Elements of arrays and
operators on arrays depend on the state: they read the contents of arrays. -/
structure Interp (V S : Type) where
  lit : Nat → V
  elem : Nat → S → V
  call : Nat → List V → S → V × S
  opS : Nat → V → V → V
  opA : Nat → V → V → S → V
  root : V → V

mutual
/-- Python's evaluation: operands and arguments from left to right. -/
def py {V S : Type} (I : Interp V S) : Src → S → V × S
  | .lit n, s => (I.lit n, s)
  | .elem n, s => (I.elem n s, s)
  | .call _ f as, s => I.call f (pyArgs I as s).1 (pyArgs I as s).2
  | .op arr o a b, s =>
    let va := py I a s
    let vb := py I b va.2
    (if arr then I.opA o va.1 vb.1 vb.2 else I.opS o va.1 vb.1, vb.2)
  | .root a, s => (I.root (py I a s).1, (py I a s).2)
/-- Python's evaluation of arguments. -/
def pyArgs {V S : Type} (I : Interp V S) : Args → S → List V × S
  | .nil, s => ([], s)
  | .cons a as, s =>
    let v := py I a s
    let vs := pyArgs I as v.2
    (v.1 :: vs.1, vs.2)
end

/-- The same meanings, with a log of the functions that have been called. -/
def Interp.logged {V S : Type} (I : Interp V S) : Interp V (S × List Nat) where
  lit := I.lit
  elem n s := I.elem n s.1
  call f vs s := ((I.call f vs s.1).1, (I.call f vs s.1).2, s.2 ++ [f])
  opS := I.opS
  opA o a b s := I.opA o a b s.1
  root := I.root

/-- An operator on arrays. -/
def Src.isOp : Src → Bool
  | .op arr _ _ _ => arr
  | _ => false

mutual
/-- Does the expression call a function? -/
def Src.hasCall : Src → Bool
  | .lit _ => false
  | .elem _ => false
  | .call _ _ _ => true
  | .op _ _ a b => a.hasCall || b.hasCall
  | .root a => a.hasCall
/-- Does an argument call a function? -/
def Args.hasCall : Args → Bool
  | .nil => false
  | .cons a as => a.hasCall || as.hasCall
end

mutual
/-- Does the expression call a function which returns an array? -/
def Src.hasArr : Src → Bool
  | .lit _ => false
  | .elem _ => false
  | .call arr _ as => arr || as.hasArr
  | .op _ _ a b => a.hasArr || b.hasArr
  | .root a => a.hasArr
/-- Does an argument call a function which returns an array? -/
def Args.hasArr : Args → Bool
  | .nil => false
  | .cons a as => a.hasArr || as.hasArr
end

/-- What an expression does to the state. -/
inductive Kind | none | reads | calls
deriving DecidableEq, Repr

/-- The stronger of two. -/
def Kind.max : Kind → Kind → Kind
  | .calls, _ => .calls
  | _, .calls => .calls
  | .reads, _ => .reads
  | _, .reads => .reads
  | .none, .none => .none

/-- Two computations give the same results in either order: one of them does not use the state, or
both only read it. -/
def Kind.Commute (k l : Kind) : Prop := k = .none ∨ l = .none ∨ (k ≠ .calls ∧ l ≠ .calls)

instance (k l : Kind) : Decidable (Kind.Commute k l) := by unfold Kind.Commute; infer_instance

mutual
/-- What is taken out of the expression and computed before the statement: calls which return an
array, and operators on arrays which are arguments. -/
def Src.moved : Src → Kind
  | .lit _ => .none
  | .elem _ => .none
  | .call true _ _ => .calls
  | .call false _ as => as.moved
  | .op _ _ a b => a.moved.max b.moved
  | .root a => if a.isOp then (if a.hasCall then .calls else .reads) else a.moved
/-- What is taken out of the arguments. -/
def Args.moved : Args → Kind
  | .nil => .none
  | .cons a as => (if a.isOp then (if a.hasCall then .calls else .reads) else a.moved).max as.moved
end

/-- What is taken out of an argument. -/
def Src.movedArg (a : Src) : Kind :=
  if a.isOp then (if a.hasCall then .calls else .reads) else a.moved

mutual
/-- What stays in the expression. -/
def Src.left : Src → Kind
  | .lit _ => .none
  | .elem _ => .reads
  | .call true _ _ => .none
  | .call false _ _ => .calls
  | .op arr _ a b => (a.left.max b.left).max (if arr then .reads else .none)
  | .root a => if a.isOp then .none else a.left
/-- What stays in the arguments. -/
def Args.left : Args → Kind
  | .nil => .none
  | .cons a as => (if a.isOp then .none else a.left).max as.left
end

/-- What stays in an argument. -/
def Src.leftArg (a : Src) : Kind := if a.isOp then .none else a.left

mutual
/-- No call is part of something which the translator visits twice: the arguments of a call which is
moved, an operator on arrays which is an argument, or the operand of `** 0.5`, where a call is moved
at the first visit. -/
def Src.Once : Src → Prop
  | .lit _ => True
  | .elem _ => True
  | .call true _ as => as.moved ≠ .calls
  | .call false _ as => as.Once
  | .op _ _ a b => a.Once ∧ b.Once
  | .root a => a.moved ≠ .calls
/-- The same for arguments. -/
def Args.Once : Args → Prop
  | .nil => True
  | .cons a as => (if a.isOp then a.moved ≠ .calls else a.Once) ∧ as.Once
end

/-- The same for an argument. -/
def Src.OnceArg (a : Src) : Prop := if a.isOp then a.moved ≠ .calls else a.Once

mutual
/-- Whatever stays in an operand or argument gives the same result before or after what is moved out
of a later one, and before or after what stays in a later one. -/
def Src.Ordered : Src → Prop
  | .lit _ => True
  | .elem _ => True
  | .call _ _ as => as.Ordered
  | .op _ _ a b => a.Ordered ∧ b.Ordered ∧ a.left.Commute b.moved ∧ a.left.Commute b.left
  | .root a => a.Ordered
/-- The same for arguments. -/
def Args.Ordered : Args → Prop
  | .nil => True
  | .cons a as => a.Ordered ∧ as.Ordered ∧ a.leftArg.Commute as.moved ∧ a.leftArg.Commute as.left
end

/-- The same two conditions for a statement; `direct` if the expression is the right-hand side of
`x = …` or is returned, where a call which returns an array is not moved. -/
def Src.OnceIn (direct : Bool) : Src → Prop
  | .call true f as => if direct then as.Once else (Src.call true f as).Once
  | e => e.Once

mutual
/-- No array-valued call is inside what is visited twice. -/
def Src.Flat : Src → Prop
  | .lit _ => True
  | .elem _ => True
  | .call true _ as => as.hasArr = false
  | .call false _ as => as.Flat
  | .op _ _ a b => a.Flat ∧ b.Flat
  | .root a => a.hasArr = false
/-- The same for arguments. -/
def Args.Flat : Args → Prop
  | .nil => True
  | .cons a as => (if a.isOp then a.hasArr = false else a.Flat) ∧ as.Flat
end

/-- The same for a statement. -/
def Src.FlatIn (direct : Bool) : Src → Prop
  | .call true f as => if direct then as.Flat else (Src.call true f as).Flat
  | e => e.Flat

end Verif.Hoist
