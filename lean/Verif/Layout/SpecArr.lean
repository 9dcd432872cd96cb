import Verif.Layout.Spec

/-!
# Multi-dimensional arrays as values: what NumPy computes
-/

namespace Verif.Layout.Spec

/-- The value of an array: a shape, and the element at each index tuple of `indices shape`. -/
structure Arr where
  shape : List Nat
  get : List Nat → Int

/-- Equal shapes and equal elements. -/
def Arr.same (a b : Arr) : Prop := a.shape = b.shape ∧ ∀ i ∈ indices a.shape, a.get i = b.get i

/-- `np.array([x, y, …])` for arrays (or nested lists, or numbers) of shape `s`. -/
def stack (s : List Nat) (xs : List Arr) : Arr where
  shape := xs.length :: s
  get
    | k :: i => match xs[k]? with
      | some x => x.get i
      | none => 0
    | [] => 0

/-- Nested lists (or tuples) of numbers of a depth. -/
def Nest : Nat → Type
  | 0 => Int
  | n + 1 => List (Nest n)

def Nest.num (x : Nest 0) : Int := x

def Nest.elems {n : Nat} (x : Nest (n + 1)) : List (Nest n) := x

/-- `x[i][j]…` -/
def Nest.val : (n : Nat) → Nest n → List Nat → Int
  | 0, x, _ => x.num
  | n + 1, x, k :: i => match x.elems[k]? with
    | some y => Nest.val n y i
    | none => 0
  | _ + 1, _, [] => 0

/-- All lists of the same depth have the same length, the one in `s`, and none is empty. -/
def Nest.Regular : (n : Nat) → List Nat → Nest n → Prop
  | 0, s, _ => s = []
  | _ + 1, [], _ => False
  | n + 1, k :: s, x => x.elems.length = k ∧ 0 < k ∧ ∀ y ∈ x.elems, Nest.Regular n s y

/-- `ndmin`: dimensions of length 1 are put in front. -/
def atLeast (n : Nat) (a : Arr) : Arr where
  shape := List.replicate (n - a.shape.length) 1 ++ a.shape
  get i := a.get (i.drop (n - a.shape.length))

/-- `f 0 + f 1 + … + f (n - 1)`. -/
def sum : Nat → (Nat → Int) → Int
  | 0, _ => 0
  | n + 1, f => sum n f + f n

/-- `np.matmul(a, b)` for vectors and matrices; `none` is a `ValueError`. -/
def matmul (a b : Arr) : Option Arr :=
  match a.shape, b.shape with
  | [n, m], [m', p] =>
    if m = m' then some ⟨[n, p], fun i => match i with
      | [x, y] => sum m (fun k => a.get [x, k] * b.get [k, y])
      | _ => 0⟩
    else none
  | [n, m], [m'] =>
    if m = m' then some ⟨[n], fun i => match i with
      | [x] => sum m (fun k => a.get [x, k] * b.get [k])
      | _ => 0⟩
    else none
  | [m], [m', p] =>
    if m = m' then some ⟨[p], fun i => match i with
      | [y] => sum m (fun k => a.get [k] * b.get [k, y])
      | _ => 0⟩
    else none
  | _, _ => none

/-- `x.T`. -/
def transposed (a : Arr) : Arr := ⟨a.shape.reverse, fun i => a.get i.reverse⟩

/-! ## Arrays in memory -/

/-- A position in a buffer. -/
abbrev Addr := Nat × Int

/-- The contents of all buffers. -/
abbrev Heap := Addr → Int

/-- The position of an element of a view. -/
def View.cell (w : View) (i : List Nat) : Option Addr := (addr w.dims i).map (fun a => (w.buf, w.off + a))

/-- The value of an array object. -/
def View.value (w : View) (h : Heap) : Arr where
  shape := w.dims.map (·.len)
  get i := match w.cell i with
    | some a => h a
    | none => 0

/-- No two indices name the same position (views made by slicing and transposing arrays). -/
def View.Inj (w : View) : Prop := ∀ i j a, w.cell i = some a → w.cell j = some a → i = j

/-- No position belongs to both. -/
def View.Apart (v w : View) : Prop := ∀ i j a, v.cell i = some a → w.cell j ≠ some a

end Verif.Layout.Spec
