/-
Specification for C174–C175: objects in a compiled function.  Variables refer to objects: `a = A(e)` makes a new object, `b = a` makes
both variables refer to the same one.  The class has a number `v` and an array `arr` (all its elements have the same value):
`def __init__(self, e : int): self.v = e; self.arr = np.full(n, e)`.
-/
namespace Verif.Instances.Spec

abbrev Name := Nat

inductive Expr where
  | num (k : Int)
  /-- `x.v` -/
  | attr (x : Name)
  /-- `x.arr[0]` -/
  | elem (x : Name)
  | add (a b : Expr)
deriving DecidableEq, Repr

inductive Stmt where
  | skip
  | seq (a b : Stmt)
  /-- `x = A(e)` -/
  | new (x : Name) (e : Expr)
  /-- `x = y` -/
  | bind (x y : Name)
  /-- `x.v = e` -/
  | setv (x : Name) (e : Expr)
  /-- `x.arr[:] = e` -/
  | fill (x : Name) (e : Expr)
  | print (e : Expr)
  | ite (c : Expr) (a b : Stmt)
  | while (c : Expr) (b : Stmt)
deriving DecidableEq, Repr

/-- The objects, the variables, and what has been printed. -/
structure State where
  heap : Nat → Int × Int
  next : Nat
  env : Name → Option Nat
  out : List Int

def eval (s : State) : Expr → Option Int
  | .num k => some k
  | .attr x => (s.env x).map fun i => (s.heap i).1
  | .elem x => (s.env x).map fun i => (s.heap i).2
  | .add a b => (eval s a).bind fun u => (eval s b).map fun w => u + w

/-- `fuel`: the number of steps; `none` also stands for an exception. -/
def exec : Nat → Stmt → State → Option State
  | 0, _, _ => none
  | _ + 1, .skip, s => some s
  | n + 1, .seq a b, s => (exec n a s).bind (exec n b)
  | _ + 1, .new x e, s => (eval s e).map fun k =>
    { s with heap := fun i => if i = s.next then (k, k) else s.heap i, next := s.next + 1,
             env := fun y => if y = x then some s.next else s.env y }
  | _ + 1, .bind x y, s => (s.env y).map fun i => { s with env := fun z => if z = x then some i else s.env z }
  | _ + 1, .setv x e, s => (s.env x).bind fun i => (eval s e).map fun k =>
    { s with heap := fun j => if j = i then (k, (s.heap i).2) else s.heap j }
  | _ + 1, .fill x e, s => (s.env x).bind fun i => (eval s e).map fun k =>
    { s with heap := fun j => if j = i then ((s.heap i).1, k) else s.heap j }
  | _ + 1, .print e, s => (eval s e).map fun k => { s with out := s.out ++ [k] }
  | n + 1, .ite c a b, s => (eval s c).bind fun k => if k ≠ 0 then exec n a s else exec n b s
  | n + 1, .while c b, s => (eval s c).bind fun k =>
    if k ≠ 0 then (exec n b s).bind (exec n (.while c b)) else some s

/-- What the function prints in Python. -/
def run (p : Stmt) (fuel : Nat) : Option (List Int) := (exec fuel p ⟨fun _ => (0, 0), 0, fun _ => none, []⟩).map (·.out)

/-! ## Conditions on the text -/

/-- The variables that get new objects. -/
def news : Stmt → List Name
  | .seq a b | .ite _ a b => news a ++ news b
  | .new x _ => [x]
  | .while _ b => news b
  | _ => []

/-- The variables that get new objects inside loops. -/
def loopNews : Stmt → List Name
  | .seq a b | .ite _ a b => loopNews a ++ loopNews b
  | .while _ b => news b
  | _ => []

/-- `x` in `x = y`. -/
def bound : Stmt → List Name
  | .seq a b | .ite _ a b => bound a ++ bound b
  | .bind x _ => [x]
  | .while _ b => bound b
  | _ => []

/-- `y` in `x = y`. -/
def sources : Stmt → List Name
  | .seq a b | .ite _ a b => sources a ++ sources b
  | .bind _ y => [y]
  | .while _ b => sources b
  | _ => []

/-- The variables that get new objects outside of conditions and loops. -/
def top : Stmt → List Name
  | .seq a b => top a ++ top b
  | .new x _ => [x]
  | _ => []

/-- Conditions and loops make objects only for variables that have one already. -/
def Headed : List Name → Stmt → Prop
  | K, .seq a b => Headed K a ∧ Headed (K ++ top a) b
  | K, .ite _ a b => ∀ x ∈ news a ++ news b, x ∈ K
  | K, .while _ b => ∀ x ∈ news b, x ∈ K
  | _, _ => True

def elems : Expr → List Name
  | .elem x => [x]
  | .add a b => elems a ++ elems b
  | _ => []

/-- `x = A(e)`: `e` does not read the array of `x`. -/
def OwnArgs : Stmt → Prop
  | .seq a b | .ite _ a b => OwnArgs a ∧ OwnArgs b
  | .new x e => x ∉ elems e
  | .while _ b => OwnArgs b
  | _ => True

structure Plain (p : Stmt) : Prop where
  /-- a variable gets new objects or is another name of an object, not both -/
  apart : ∀ x ∈ news p, x ∉ bound p
  headed : Headed [] p
  /-- variables that get new objects inside loops have no other names -/
  loops : ∀ x ∈ loopNews p, x ∉ sources p
  args : OwnArgs p

end Verif.Instances.Spec
