/-!
# Programs with calls that return arrays

The meaning of a small language of statements, as Python runs it.  A call may read and change the arrays of the caller,
and so may give a different result each time it is made.  What the functions do is arbitrary.
-/

namespace Verif.ArrayCalls.Spec

/-- What the operators and the functions do.  `H` is the contents of all the arrays. -/
structure Sem (H : Type) where
  /-- The binary operator `o` (an arithmetic operator or a comparison). -/
  bin : Nat → Int → Int → Int
  /-- An element of the array `x`. -/
  elem : Nat → H → Int
  /-- The arrays after an element of `x` has been replaced. -/
  store : Nat → Int → H → H
  /-- A call of the function `k`, which returns a number. -/
  scal : Nat → Int → H → Int × H
  /-- A call of the function `k` with the array `x`, which returns an array, reduced to the number that the expression
  around it takes from this array (`f(x)[0]`). -/
  arr : Nat → Nat → H → Int × H

/-- The state of a program: the numbers in local variables, the temporaries made by pyccel, the arrays. -/
structure St (H : Type) where
  loc : Nat → Int
  tmp : Nat → Int
  heap : H

/-- Expressions.  `tmp` occurs in translated programs only. -/
inductive E where
  | lit (z : Int)
  | loc (x : Nat)
  | elem (x : Nat)
  | tmp (n : Nat)
  | bin (o : Nat) (a b : E)
  | and (a b : E)
  | or (a b : E)
  | tern (c a b : E)
  | scal (k : Nat) (a : E)
  | arr (k x : Nat)
deriving DecidableEq, Repr

/-- The value of an expression and the arrays after it: operands from left to right, `and` and `or` stop early;
`tern c a b` is `a if c else b`. -/
def eval {H : Type} (M : Sem H) : E → St H → Int × H
  | .lit z, s => (z, s.heap)
  | .loc x, s => (s.loc x, s.heap)
  | .elem x, s => (M.elem x s.heap, s.heap)
  | .tmp n, s => (s.tmp n, s.heap)
  | .bin o a b, s =>
    let r := eval M a s
    let q := eval M b { s with heap := r.2 }
    (M.bin o r.1 q.1, q.2)
  | .and a b, s =>
    let r := eval M a s
    if r.1 = 0 then r else eval M b { s with heap := r.2 }
  | .or a b, s =>
    let r := eval M a s
    if r.1 = 0 then eval M b { s with heap := r.2 } else r
  | .tern c a b, s =>
    let r := eval M c s
    if r.1 = 0 then eval M b { s with heap := r.2 } else eval M a { s with heap := r.2 }
  | .scal k a, s =>
    let r := eval M a s
    M.scal k r.1 r.2
  | .arr k x, s => M.arr k x s.heap

/-- Statements.  `elif c p d q r` is `if c: p`, `elif d: q`, `else: r`;
`pick x c k a l b` is `x = k(a) if c else l(b)` for arrays.  `hoist` occurs in translated programs only: the temporary `n` gets the result of a call. -/
inductive P where
  | skip
  | assign (x : Nat) (e : E)
  | store (x : Nat) (e : E)
  | seq (p q : P)
  | ite (c : E) (p q : P)
  | elif (c : E) (p : P) (d : E) (q r : P)
  | while (c : E) (p : P)
  | pick (x : Nat) (c : E) (k a l b : Nat)
  | hoist (n k x : Nat)
deriving DecidableEq, Repr

/-- At most `n` iterations of a loop. -/
def loop {S : Type} (c : S → Bool × S) (b : S → Option S) : Nat → S → Option S
  | 0, _ => none
  | n + 1, s =>
    let r := c s
    if r.1 then (b r.2).bind (loop c b n) else some r.2

/-- The state after a program; `none` if a loop makes more than `n` steps. -/
def run {H : Type} (M : Sem H) (n : Nat) : P → St H → Option (St H)
  | .skip, s => some s
  | .assign x e, s =>
    let r := eval M e s
    some { s with heap := r.2, loc := fun y => if y = x then r.1 else s.loc y }
  | .store x e, s =>
    let r := eval M e s
    some { s with heap := M.store x r.1 r.2 }
  | .seq p q, s => (run M n p s).bind (run M n q)
  | .ite c p q, s =>
    let r := eval M c s
    if r.1 = 0 then run M n q { s with heap := r.2 } else run M n p { s with heap := r.2 }
  | .elif c p d q r, s =>
    let a := eval M c s
    if a.1 = 0 then
      let b := eval M d { s with heap := a.2 }
      if b.1 = 0 then run M n r { s with heap := b.2 } else run M n q { s with heap := b.2 }
    else run M n p { s with heap := a.2 }
  | .while c p, s =>
    loop (fun s => let r := eval M c s; (decide (r.1 ≠ 0), { s with heap := r.2 })) (run M n p) n s
  | .pick x c k a l b, s =>
    let r := eval M c s
    let q := if r.1 = 0 then M.arr l b r.2 else M.arr k a r.2
    some { s with heap := M.store x q.1 q.2 }
  | .hoist m k x, s =>
    let r := M.arr k x s.heap
    some { s with heap := r.2, tmp := fun y => if y = m then r.1 else s.tmp y }

/-- What a user sees of a state: the variables and the arrays. -/
def seen {H : Type} (s : St H) : (Nat → Int) × H := (s.loc, s.heap)

/-- No temporaries: the expression was written by a user. -/
def Source : E → Prop
  | .tmp _ => False
  | .bin _ a b | .and a b | .or a b => Source a ∧ Source b
  | .tern c a b => Source c ∧ Source a ∧ Source b
  | .scal _ a => Source a
  | .lit _ | .loc _ | .elem _ | .arr _ _ => True

/-- No calls that return arrays. -/
def Plain : E → Prop
  | .arr _ _ => False
  | .bin _ a b | .and a b | .or a b => Plain a ∧ Plain b
  | .tern c a b => Plain c ∧ Plain a ∧ Plain b
  | .scal _ a => Plain a
  | .lit _ | .loc _ | .elem _ | .tmp _ => True

/-- No elements of arrays and no calls that return numbers. -/
def Steady : E → Prop
  | .elem _ | .scal _ _ => False
  | .bin _ a b | .and a b | .or a b => Steady a ∧ Steady b
  | .tern c a b => Steady c ∧ Steady a ∧ Steady b
  | .lit _ | .loc _ | .arr _ _ | .tmp _ => True

/-- The calls that return arrays come first: none is on the right of `and` or `or` or in a branch
of a conditional expression, and none is on the right of an element
of an array or of a call that returns a number. -/
def First : E → Prop
  | .bin _ a b => First a ∧ First b ∧ (Plain b ∨ Steady a)
  | .and a b | .or a b => First a ∧ Plain b
  | .tern c a b => First c ∧ Plain a ∧ Plain b
  | .scal _ a => First a
  | .lit _ | .loc _ | .elem _ | .arr _ _ | .tmp _ => True

/-- A program of a user in which the calls that return arrays come first in their statements, and are not in the test of
a `while` or of an `elif`. -/
def Orderly : P → Prop
  | .skip => True
  | .assign _ e | .store _ e => Source e ∧ First e
  | .seq p q => Orderly p ∧ Orderly q
  | .ite c p q => Source c ∧ First c ∧ Orderly p ∧ Orderly q
  | .elif c p d q r => Source c ∧ First c ∧ Source d ∧ Plain d ∧ Orderly p ∧ Orderly q ∧ Orderly r
  | .while c p => Source c ∧ Plain c ∧ Orderly p
  | .pick _ _ _ _ _ _ => False
  | .hoist _ _ _ => False

end Verif.ArrayCalls.Spec
