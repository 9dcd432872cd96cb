/-!
# Arrays shared by several variables: specification

Functions whose variables are arrays, as Python runs them: a variable is a name for an object, `p = y` and
`p = y[…]` share the data of `y`, and `x = e` with any other expression makes a new object.
-/

namespace Verif.Aliases.Spec

abbrev Var := Nat
abbrev Vals := List Int

/-- An array: the memory it uses, and the position of every element there. -/
structure Ref where
  buf : Nat
  pos : List Nat

/-- Statements.  Expressions are arbitrary functions of the arrays they use. -/
inductive Stmt
  | skip
  /-- `x = f(ys)`, where `f` gives a new array.  `same` says that the compiler knows the shape to be that
  of `x`. -/
  | fresh (x : Var) (ys : List Var) (f : List Vals → Vals) (same : Bool)
  /-- `p = y`, or `p = y[idx]` with a slice. -/
  | bind (p y : Var) (idx : Option (List Nat))
  /-- `x[…] = e`, `x += e`, …: other contents. -/
  | store (x : Var) (ys : List Var) (f : List Vals → Vals)
  | print (x : Var)
  | del (x : Var)
  | ret
  | seq (a b : Stmt)
  | ite (ys : List Var) (c : List Vals → Bool) (a b : Stmt)
  /-- A loop with a number of iterations that is known when it starts. -/
  | loop (ys : List Var) (n : List Vals → Nat) (b : Stmt)

/-- A function of arrays, with an array as result or without. -/
structure Func where
  args : List Var
  body : Stmt
  res : Option Var

/-! ## Python -/

/-- The objects made so far, the variables, and what was printed. -/
structure Py where
  objs : List Vals
  env : Var → Option Ref
  out : List Vals

/-- The positions of a slice. -/
def select (pos : List Nat) : Option (List Nat) → Option (List Nat)
  | none => some pos
  | some idx => idx.mapM fun i => pos[i]?

/-- The elements at the positions. -/
def gather (v : Vals) (pos : List Nat) : Option Vals := pos.mapM fun i => v[i]?

/-- The elements at the positions are replaced. -/
def scatter : Vals → List Nat → Vals → Option Vals
  | v, [], [] => some v
  | v, i :: is, a :: as => if i < v.length then scatter (v.set i a) is as else none
  | _, _, _ => none

def setEnv {α : Type} (e : Var → α) (x : Var) (a : α) : Var → α := fun y => if y = x then a else e y

def Py.read (s : Py) (x : Var) : Option Vals := do
  let r ← s.env x
  gather (← s.objs[r.buf]?) r.pos

/-- Whether what the compiler knows is right: if the shape is said to be the same, `x` has an array of this
shape. -/
def Py.fits (s : Py) (x : Var) (same : Bool) (v : Vals) : Bool :=
  !same || match s.env x with
    | some r => r.pos.length = v.length
    | none => false

/-- The same for a number of times, until a `return`. -/
def repeatN {σ : Type} (f : σ → Option (σ × Bool)) : Nat → σ → Option (σ × Bool)
  | 0, s => some (s, false)
  | n + 1, s => do
    let (s, fin) ← f s
    if fin then return (s, true) else repeatN f n s

/-- Python; the second component says that there was a `return`.  `none`: an exception, or a shape that is
not what the compiler was told (C56, C68). -/
def Py.exec : Stmt → Py → Option (Py × Bool)
  | .skip, s => some (s, false)
  | .fresh x ys f same, s => do
    let v := f (← ys.mapM s.read)
    if s.fits x same v then
      return ({ s with
        objs := s.objs ++ [v], env := setEnv s.env x (some ⟨s.objs.length, List.range v.length⟩) }, false)
    else none
  | .bind p y idx, s => do
    let r ← s.env y
    let pos ← select r.pos idx
    return ({ s with env := setEnv s.env p (some ⟨r.buf, pos⟩) }, false)
  | .store x ys f, s => do
    let v := f (← ys.mapM s.read)
    let r ← s.env x
    let w ← scatter (← s.objs[r.buf]?) r.pos v
    return ({ s with objs := s.objs.set r.buf w }, false)
  | .print x, s => do
    let v ← s.read x
    return ({ s with out := s.out ++ [v] }, false)
  | .del x, s => do
    let _ ← s.env x
    return ({ s with env := setEnv s.env x none }, false)
  | .ret, s => some (s, true)
  | .seq a b, s => do
    let (s, fin) ← Py.exec a s
    if fin then return (s, true) else Py.exec b s
  | .ite ys c a b, s => do
    if c (← ys.mapM s.read) then Py.exec a s else Py.exec b s
  | .loop ys n b, s => do
    repeatN (Py.exec b) (n (← ys.mapM s.read)) s

/-- The variables for the arguments. -/
def bindArgs : List Var → List Ref → Var → Option Ref
  | a :: as, r :: rs => setEnv (bindArgs as rs) a (some r)
  | _, _ => fun _ => none

/-- The state at the end of a call with arrays in a given memory (`none` for exceptions). -/
def Py.call (F : Func) (mem : List Vals) (rs : List Ref) : Option Py := do
  let (s, _) ← Py.exec F.body ⟨mem, bindArgs F.args rs, []⟩
  match F.res with
  | none => return s
  | some r =>
    let _ ← s.read r
    return s

/-! ## What the programs below have to satisfy -/

/-- The variables whose data is shared with others by `p = y`. -/
def Stmt.sources : Stmt → List Var
  | .bind _ y _ => [y]
  | .seq a b => a.sources ++ b.sources
  | .ite _ _ a b => a.sources ++ b.sources
  | .loop _ _ b => b.sources
  | _ => []

/-- The variables that get new arrays. -/
def Stmt.owners : Stmt → List Var
  | .fresh x _ _ _ => [x]
  | .seq a b => a.owners ++ b.owners
  | .ite _ _ a b => a.owners ++ b.owners
  | .loop _ _ b => b.owners
  | _ => []

/-- There is a `return`. -/
def Stmt.returns : Stmt → Bool
  | .ret => true
  | .seq a b => a.returns || b.returns
  | .ite _ _ a b => a.returns || b.returns
  | .loop _ _ b => b.returns
  | _ => false

/-- What is not handled correctly is left out:
* `x = e` for an argument `x`, or for `x` whose array is used in `e` but has to be allocated again (C69);
* `del x` for an argument, or for `x` with an own array that is shared somewhere;
* after a `return` (in the text): `x = e` and `x = y` for variables `x` with own arrays that are shared
  somewhere;
* in a loop: `x = e` together with `p = x`.
`S`: the shared variables of the function, `fr`: those with arrays of their own. -/
def Clean (args S fr : List Var) : Bool → Stmt → Prop
  | after, .fresh x ys _ same => x ∉ args ∧ (same = false → x ∉ ys) ∧ (after = true → x ∉ S)
  | after, .bind p _ _ => after = true → ¬ (p ∈ S ∧ (p ∈ fr ∨ p ∈ args))
  | _, .del x => x ∉ args ∧ (x ∈ fr → x ∉ S)
  | after, .seq a b => Clean args S fr after a ∧ Clean args S fr (after || a.returns) b
  | after, .ite _ _ a b => Clean args S fr after a ∧ Clean args S fr (after || a.returns) b
  | after, .loop _ _ b => Clean args S fr after b ∧ ∀ x ∈ b.owners, x ∉ b.sources
  | _, _ => True

def Func.clean (F : Func) : Prop := Clean F.args F.body.sources F.body.owners false F.body

/-- For results: in loops, and after a `return`, `p = y` only for `y` with an array of its own, or an
argument. -/
def Direct (args fr : List Var) : Bool → Stmt → Prop
  | indirect, .bind _ y _ => indirect = true → y ∈ fr ∨ y ∈ args
  | indirect, .seq a b => Direct args fr indirect a ∧ Direct args fr (indirect || a.returns) b
  | indirect, .ite _ _ a b => Direct args fr indirect a ∧ Direct args fr (indirect || a.returns) b
  | _, .loop _ _ b => Direct args fr true b
  | _, _ => True

def Func.direct (F : Func) : Prop := Direct F.args F.body.owners false F.body

/-- Arrays of the caller: all positions are in the memory. -/
def Valid (mem : List Vals) (r : Ref) : Prop := ∃ v, mem[r.buf]? = some v ∧ ∀ i ∈ r.pos, i < v.length

end Verif.Aliases.Spec
