/-
C167, C168: the value of `return`.  Variables and arrays are numbered; values are integers.
-/
namespace Verif.Returns.Spec

/-- Expressions; `elt a i` is `a[i]`. -/
inductive Expr where
  | num (n : Int)
  | var (x : Nat)
  | elt (a : Nat) (i : Expr)
  | add (l r : Expr)
  | sub (l r : Expr)
  | mul (l r : Expr)
  | max (l r : Expr)
deriving DecidableEq, Repr

/-- Variables, and arrays (`none`: the memory is not there any more). -/
structure St where
  vars : Nat → Int
  arrs : Nat → Option (List Int)

def eval (s : St) : Expr → Option Int
  | .num n => some n
  | .var x => some (s.vars x)
  | .elt a i => (eval s i).bind fun i => (s.arrs a).bind fun l => if 0 ≤ i then l[i.toNat]? else none
  | .add l r => (eval s l).bind fun x => (eval s r).map fun y => x + y
  | .sub l r => (eval s l).bind fun x => (eval s r).map fun y => x - y
  | .mul l r => (eval s l).bind fun x => (eval s r).map fun y => x * y
  | .max l r => (eval s l).bind fun x => (eval s r).map fun y => if x < y then y else x

/-- Python: `return e₁, …, eₙ` computes the values from left to right; no variable changes. -/
def pyReturn (s : St) : List Expr → Option (List Int)
  | [] => some []
  | e :: es => (eval s e).bind fun v => (pyReturn s es).map fun vs => v :: vs

/-- The variable occurs in the expression. -/
def Expr.Reads (x : Nat) : Expr → Prop
  | .num _ => False
  | .var y => y = x
  | .elt _ i => i.Reads x
  | .add l r | .sub l r | .mul l r | .max l r => l.Reads x ∨ r.Reads x

/-- The expression reads an element of some array. -/
def Expr.usesArray : Expr → Bool
  | .num _ | .var _ => false
  | .elt _ _ => true
  | .add l r | .sub l r | .mul l r | .max l r => l.usesArray || r.usesArray

/-- Statements: what may stand in the body of a function marked with `@inline`, in the order of execution.
`free` ends the life of an array (it occurs in generated code only). -/
inductive Code where
  | done
  | assign (x : Nat) (e : Expr) (rest : Code)
  | aug (x : Nat) (e : Expr) (rest : Code)
  | store (a : Nat) (i e : Expr) (rest : Code)
  | ite (c : Expr) (a b rest : Code)
  | loop (x : Nat) (n : Expr) (a rest : Code)
  | free (a : Nat) (rest : Code)
deriving DecidableEq, Repr

def upd {α : Type} (f : Nat → α) (x : Nat) (v : α) : Nat → α := fun y => if y = x then v else f y

def St.put (s : St) (x : Nat) (v : Int) : St := { s with vars := upd s.vars x v }

/-- The body is run for `x = k, k + 1, …, n - 1`, as often as there are values. -/
def repeated (body : St → Option St) (x : Nat) : Nat → Int → St → Option St
  | 0, _, s => some s
  | m + 1, k, s => (body (s.put x k)).bind (repeated body x m (k + 1))

def setAt (s : St) (a : Nat) (i v : Int) : Option St :=
  (s.arrs a).bind fun l => if 0 ≤ i ∧ i.toNat < l.length then some { s with arrs := upd s.arrs a (some (l.set i.toNat v)) } else none

/-- Meaning of statements, in Python and in the generated code: `aug` is `x += e`, `loop` is `for x in range(n)`.  `after`
is what the variable of a loop is afterwards: `n - 1` in Python, `n` in generated code (this difference is the subject of C105). -/
def exec (after : Int → Int) : Code → St → Option St
  | .done, s => some s
  | .assign x e r, s => (eval s e).bind fun v => exec after r (s.put x v)
  | .aug x e r, s => (eval s e).bind fun v => exec after r (s.put x (s.vars x + v))
  | .store a i e r, s => (eval s i).bind fun i => (eval s e).bind fun v => (setAt s a i v).bind (exec after r)
  | .ite c a b r, s => (eval s c).bind fun v => (if v ≠ 0 then exec after a s else exec after b s).bind (exec after r)
  | .loop x n a r, s => (eval s n).bind fun n =>
      (repeated (exec after a) x n.toNat 0 s).bind fun s => exec after r (if 0 < n then s.put x (after n) else s)
  | .free a r, s => exec after r { s with arrs := upd s.arrs a none }

/-- What is written after `return` if there is one value. -/
inductive Ret where
  /-- an expression -/
  | plain (e : Expr)
  /-- the call of an `@inline` function with this body (its variables have names of their own) that ends with `return e` -/
  | inlined (body : Code) (e : Expr)
  /-- `max(e for i in range(n))` -/
  | maxOf (e : Expr) (i n : Nat)

/-- Maximum of `e` for `i = k, …`; the smallest value is that of the type. -/
def pyMax (s : St) (e : Expr) (i : Nat) : Nat → Int → Int → Option Int
  | 0, _, m => some m
  | j + 1, k, m => (eval (s.put i k) e).bind fun v => pyMax s e i j (k + 1) (if m < v then v else m)

/-- The value that Python returns.  `low` is the least value of the type. -/
def pyValue (after : Int → Int) (low : Int) (s : St) : Ret → Option Int
  | .plain e => eval s e
  | .inlined b e => (exec after b s).bind fun s => eval s e
  | .maxOf e i n => pyMax s e i n 0 low

/-- The last statement is an assignment to the variable. -/
def Code.EndsWith (x : Nat) : Code → Prop
  | .done => False
  | .assign y _ .done => y = x
  | .assign _ _ c | .aug _ _ c | .store _ _ _ c | .ite _ _ _ c | .loop _ _ _ c | .free _ c => c.EndsWith x

/-- The last assignment in the text, with the information whether it is plain (to a variable, without operator). -/
def Code.lastSet : Code → Option (Bool × Expr)
  | .done => none
  | .assign _ e c => c.lastSet.or (some (true, e))
  | .aug _ e c => c.lastSet.or (some (false, e))
  | .store _ _ e c => c.lastSet.or (some (false, e))
  | .ite _ a b c => c.lastSet.or (b.lastSet.or a.lastSet)
  | .loop _ _ a c => c.lastSet.or a.lastSet
  | .free _ c => c.lastSet

/-- One block of statements after the other. -/
def Code.andThen : Code → Code → Code
  | .done, k => k
  | .assign x e c, k => .assign x e (c.andThen k)
  | .aug x e c, k => .aug x e (c.andThen k)
  | .store a i e c, k => .store a i e (c.andThen k)
  | .ite c a b d, k => .ite c a b (d.andThen k)
  | .loop x n a d, k => .loop x n a (d.andThen k)
  | .free a c, k => .free a (c.andThen k)

end Verif.Returns.Spec
