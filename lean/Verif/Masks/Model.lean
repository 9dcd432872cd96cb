import Verif.Layout.ModelArr
import Verif.Masks.Spec

/-!
# `np.count_nonzero` and `np.nonzero` in Fortran, `np.full` in C: the code printed, and its value

A Fortran array expression is an `FArr` (dimensions, and elements by indices counted from 0).  Left out:
kinds of integers, and arguments that are array expressions of operators (they are stored in a temporary
variable first, `pyccel/parser/semantic.py:4016-4017`).
-/

namespace Verif.Masks.Model
open Layout.Spec Layout.Model Spec

/-- A logical array. -/
structure Mask where
  dims : List Nat
  get : List Nat → Bool

/-- `NumpyBool(array)`, printed as `(array /= 0)`; a logical array is printed as it is (elements 0 and 1
here).  `pyccel/codegen/printing/fcode.py:1915-1918, 1933-1936, 2140-2146` -/
def mask (f : FArr) : Mask := ⟨f.dims, fun i => decide (f.get i ≠ 0)⟩

/-- `count(mask)`: the number of true elements (Fortran standard, 16.9.59); the argument is an array. -/
def count (m : Mask) : Option FArr :=
  if m.dims = [] then none
  else some ⟨[], fun _ => (((List.range (prod m.dims)).filter (fun p => m.get (nth m.dims p))).length : Nat)⟩

/-- `count(mask, dim)`: dimension `dim` (counted from 1) is left out; each element of the result counts
along it. -/
def countDim (m : Mask) (dim : Int) : Option FArr :=
  if 1 ≤ dim ∧ dim ≤ m.dims.length then
    let d := (dim - 1).toNat
    some ⟨m.dims.eraseIdx d, fun i =>
      (((List.range (m.dims.getD d 0)).filter (fun k => m.get (i.insertIdx d k))).length : Nat)⟩
  else none

/-- The shape of a `NumpyCountNonZero` node; an axis out of range is an exception of the translator
(`list.pop`, assignment to an item of a list).  `pyccel/ast/numpyext.py:3248-3270` -/
def resultShape (shape : List Nat) (axis : Option Nat) (keep : Bool) : Option (List Nat) :=
  if keep then
    match axis with
    | some k => if k < shape.length then some (shape.set k 1) else none
    | none => some (List.replicate shape.length 1)
  else
    match axis with
    | some k => if k < shape.length then some (shape.eraseIdx k) else none
    | none => some []

/-- The argument `dim`: `rank - axis` for an array of order `"C"`, else `axis + 1`.
`pyccel/codegen/printing/fcode.py:1949-1956` -/
def fDim (o : Option Order) (rank : Nat) (axis : Nat) : Int :=
  if o = some .C then (rank : Int) - axis else (axis : Int) + 1

/-- The second argument of `reshape`: the shape of the node, reversed if its order is `"C"`.  The order
of the node is that of the argument.  `pyccel/codegen/printing/fcode.py:1943-1946, 1962-1965`,
`pyccel/ast/numpyext.py:3251, 3266` -/
def reshapeTo (o : Option Order) (shape : List Nat) : List Nat :=
  if o = some .C then shape.reverse else shape

/-- `_print_NumpyCountNonZero`: the value of the expression printed for an array variable with value `f`
of order `o` and the given shape in Python.  `pyccel/codegen/printing/fcode.py:1928-1968` -/
def printCount (o : Option Order) (shape : List Nat) (f : FArr) (axis : Option Nat) (keep : Bool) :
    Option FArr := do
  let s ← resultShape shape axis keep
  let c ← match axis with
    | none => count (mask f)
    | some k => countDim (mask f) (fDim o shape.length k)
  if keep then
    reshape c.flat (reshapeTo o s) (byDefault (reshapeTo o s))
  else some c

/-- `pack(array, mask)` (Fortran standard, 16.9.153), for one dimension: the elements where the mask is
true, in array element order; the shapes must agree. -/
def pack (l : List Nat) (m : Mask) : Option (List Nat) :=
  if m.dims = [l.length] then some ((l.zipIdx.filter (fun p => m.get [p.2])).map (·.1)) else none

/-- The implied loop `(i, i = lo, hi)`. -/
def implied (lo hi : Int) : List Nat := (List.range' lo.toNat (hi - lo + 1).toNat)

/-- `NumpyNonZero` refuses arrays of rank above 1 (and makes an empty tuple for a number);
`_print_NumpyNonZeroElement` prints `pack([(i, i = 0, n - 1)], mask)` with `n` the length of the array.
`pyccel/ast/numpyext.py:3195-3203`, `pyccel/codegen/printing/fcode.py:1910-1926` -/
def printNonzero (shape : List Nat) (f : FArr) : Option (List Nat) :=
  match shape with
  | [n] => pack (implied 0 ((n : Int) - 1)) (mask f)
  | _ => none

/-- The length with which the variable is allocated: `NumpyCountNonZero(a)`.
`pyccel/ast/numpyext.py:3153` -/
def nonzeroShape (shape : List Nat) (f : FArr) : Option Int :=
  (printCount none shape f none false).map (fun c => c.get [])

/-! ## `np.full` in C -/

/-- One round of the loop: the expression is computed and stored in the element.
`pyccel/codegen/printing/ccode.py:664-670` -/
def fillStep (F : Funs) (x : Nat) (e : Expr) (s : Store) (p : Nat) : Store :=
  let r := eval F e s
  { r.2 with arr := fun a q => if a = x ∧ q = p then r.1 else r.2.arr a q }

/-- `arrayFill`: `for (c_each(it, type, x)) *(it.ref) = e;` visits the elements in the order in which
they are stored.  C leaves the order in which the operands of an operator are computed open; the model
takes the one of Python.  `pyccel/codegen/printing/ccode.py:640-672, 3379-3380` -/
def fillC (F : Funs) (x n : Nat) (e : Expr) (s : Store) : Store :=
  (List.range n).foldl (fillStep F x e) s

end Verif.Masks.Model
