import Verif.Layout.SpecArr

/-!
# `np.count_nonzero`, `np.nonzero` and `np.full`: what NumPy computes

Arrays are those of `Verif.Layout.SpecArr`: a shape and an element for each index tuple.  Nothing here
mentions pyccel.
-/

namespace Verif.Masks.Spec
open Layout.Spec

/-- Number of elements of a list that are not 0. -/
def nonzeros (l : List Int) : Nat := (l.filter (fun v => decide (v ≠ 0))).length

/-- `np.count_nonzero(a)` -/
def countAll (a : Arr) : Nat := nonzeros ((indices a.shape).map a.get)

/-- `np.count_nonzero(a, axis=k)`: the element at `i` counts the elements of `a` whose indices are `i`
with any index put in at place `k`. -/
def countAxis (a : Arr) (k : Nat) : Arr where
  shape := a.shape.eraseIdx k
  get i := nonzeros ((List.range (a.shape.getD k 0)).map (fun m => a.get (i.insertIdx k m)))

/-- `np.count_nonzero(a, axis=k, keepdims=True)`: dimension `k` stays, with length 1. -/
def countKept (a : Arr) (k : Nat) : Arr where
  shape := a.shape.set k 1
  get i := nonzeros ((List.range (a.shape.getD k 0)).map (fun m => a.get (i.set k m)))

/-- `np.count_nonzero(a, axis=axis, keepdims=keep)`.  A number is an array without dimensions. -/
def countNonzero (a : Arr) : Option Nat → Bool → Arr
  | none, false => ⟨[], fun _ => countAll a⟩
  | none, true => ⟨List.replicate a.shape.length 1, fun _ => countAll a⟩
  | some k, false => countAxis a k
  | some k, true => countKept a k

/-- `np.nonzero(a)[0]` for an array with one dimension: the indices of the elements that are not 0, in
increasing order. -/
def nonzero (n : Nat) (a : Arr) : List Nat := (List.range n).filter (fun i => decide (a.get [i] ≠ 0))

/-! ## Filling an array -/

/-- A number: a literal, a variable, an element of an array, an operator, a call of a function of the
user. -/
inductive Expr
  | lit (v : Int)
  | var (x : Nat)
  | elem (a : Nat) (i : Expr)
  | op (f : Int → Int → Int) (a b : Expr)
  | call (f : Nat) (a : Expr)

/-- Variables, arrays (by the position of their elements) and the calls made so far. -/
structure Store where
  val : Nat → Int
  arr : Nat → Int → Int
  calls : List (Nat × Int) := []

/-- What the functions of the user do: a value, and what becomes of variables and arrays. -/
abbrev Funs := Nat → Int → (Nat → Int) → (Nat → Int → Int) → Int × (Nat → Int) × (Nat → Int → Int)

/-- Evaluation from left to right. -/
def eval (F : Funs) : Expr → Store → Int × Store
  | .lit v, s => (v, s)
  | .var x, s => (s.val x, s)
  | .elem a i, s =>
    let r := eval F i s
    (r.2.arr a r.1, r.2)
  | .op f a b, s =>
    let r := eval F a s
    let t := eval F b r.2
    (f r.1 t.1, t.2)
  | .call f a, s =>
    let r := eval F a s
    let t := F f r.1 r.2.val r.2.arr
    (t.1, ⟨t.2.1, t.2.2, r.2.calls ++ [(f, r.1)]⟩)

/-- The first `n` elements of array `x` are `v`. -/
def Store.fill (s : Store) (x n : Nat) (v : Int) : Store :=
  { s with arr := fun a p => if a = x ∧ 0 ≤ p ∧ p < n then v else s.arr a p }

/-- `x = np.full(n, e)`: the number is computed once. -/
def full (F : Funs) (x n : Nat) (e : Expr) (s : Store) : Store :=
  let r := eval F e s
  r.2.fill x n r.1

/-- Number of calls written in an expression. -/
def Expr.calls : Expr → Nat
  | .lit _ | .var _ => 0
  | .elem _ i => i.calls
  | .op _ a b => a.calls + b.calls
  | .call _ a => a.calls + 1

/-- The expression reads an element of array `x`. -/
def Expr.reads (x : Nat) : Expr → Bool
  | .lit _ | .var _ => false
  | .elem a i => a == x || i.reads x
  | .op _ a b => a.reads x || b.reads x
  | .call _ a => a.reads x

end Verif.Masks.Spec
