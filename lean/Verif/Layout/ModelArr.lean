import Verif.Layout.SpecArr
import Verif.Layout.Model

/-!
# Multi-dimensional arrays as values: the expressions pyccel prints in Fortran

Array expressions are translated to intrinsic functions of Fortran; the model computes the value of
the expression that is printed.  Left out: conversions of the element type.
-/

namespace Verif.Layout.Model
open Spec

/-- The value of a Fortran array expression; indices are counted from 0 in each dimension. -/
structure FArr where
  dims : List Nat
  get : List Nat → Int

/-- Position in array element order (Fortran standard, 9.5.3.2). -/
def pos : List Nat → List Nat → Nat
  | n :: ns, i :: is => i + n * pos ns is
  | _, _ => 0

/-- The elements in array element order. -/
def FArr.flat (f : FArr) : List Int := (List.range (prod f.dims)).map (fun p => f.get (nth f.dims p))

/-- `order.map (l(k))` -/
def permute (order l : List Nat) : List Nat := order.map (fun k => l.getD (k - 1) 0)

/-- `reshape(source, dims, order = order)` (Fortran standard, 16.9.163): the elements of the source, in
array element order, are taken by the elements of the result in the order in which `order(1)` is the
dimension that varies fastest.  The source must not be too short. -/
def reshape (l : List Int) (dims : List Nat) (order : List Nat) : Option FArr :=
  if prod dims ≤ l.length ∧ order.length = dims.length then
    some ⟨dims, fun j => l.getD (pos (permute order dims) (permute order j)) 0⟩
  else none

/-- The default of `order`: 1, 2, …, n. -/
def byDefault (dims : List Nat) : List Nat := List.range' 1 dims.length

/-- n, …, 2, 1.  `pyccel/codegen/printing/fcode.py:2017-2020, 3927-3929` -/
def backwards (n : Nat) : List Nat := (List.range' 1 n).reverse

/-- 2, 3, …, n, 1.  `pyccel/codegen/printing/fcode.py:2035-2036` -/
def rotated (n : Nat) : List Nat := (List.range' 1 n).drop 1 ++ (List.range' 1 n).take 1

/-- `transpose(x)`: of matrices only. -/
def fTranspose (f : FArr) : Option FArr :=
  match f.dims with
  | [n, m] => some ⟨[m, n], fun j => f.get j.reverse⟩
  | _ => none

/-! ## Values held by variables -/

/-- A Fortran array that holds the value of a NumPy array, for an array variable of order `o`: the
dimensions, and the indices of each element, are reversed unless the order is `"F"`. -/
def Rep (o : Option Order) (a : Arr) (f : FArr) : Prop :=
  f.dims = revUnlessF o a.shape ∧ ∀ i ∈ indices a.shape, f.get (revUnlessF o i) = a.get i

/-- The elements of a list. -/
def Reps (o : Option Order) (s : List Nat) (xs : List Arr) (fs : List FArr) : Prop :=
  xs.length = fs.length ∧
  ∀ (k : Nat) f x, fs[k]? = some f → xs[k]? = some x → Rep o x f ∧ x.shape = s

/-! ## `np.array` -/

/-- The argument of `np.array`: an array variable, or a list or tuple whose elements have all the same
order and the same shape (numbers, arrays, nested lists).  Each Fortran value is that of the code
printed for the variable or the element. -/
inductive Src
  | var (o : Option Order) (shape : List Nat) (f : FArr)
  | list (o : Option Order) (shape : List Nat) (fs : List FArr)

/-- `pyccel/ast/utilities.py: get_shape_of_multi_level_container` -/
def Src.shape : Src → List Nat
  | .var _ s _ => s
  | .list _ s fs => fs.length :: s

/-- `HomogeneousListType._order`: `"C"` if the elements are `"C"` or have rank 1.
`pyccel/ast/datatypes.py:912-914, 985-987` -/
def Src.order : Src → Option Order
  | .var o _ _ => o
  | .list o s _ => if o = some .C ∨ s.length = 1 then some .C else none

/-- `_get_node_without_gFTL` of a list: `reshape([elements], [reversed shape])`, or `[elements]`.
`pyccel/codegen/printing/fcode.py:799-807` -/
def listCode (s : List Nat) (fs : List FArr) : Option FArr :=
  let dims := (fs.length :: s).reverse
  reshape (fs.flatMap FArr.flat) dims (byDefault dims)

/-- `pyccel/codegen/printing/fcode.py:799-807` -/
def Src.code : Src → Option FArr
  | .var _ _ f => some f
  | .list _ s fs => listCode s fs

/-- The order of the result: the keyword, or (`"K"`, `"A"`: `none`) that of the argument, or `"C"`;
none below rank 2.  `pyccel/ast/numpyext.py:966-985` -/
def arrayOrder (rank : Nat) (kw : Option Order) (o : Option Order) : Option Order :=
  if rank < 2 then none else some (kw.getD (o.getD .C))

/-- `pyccel/ast/numpyext.py:962-970` -/
def arrayShape (ndmin : Nat) (s : List Nat) : List Nat := List.replicate (ndmin - s.length) 1 ++ s

/-- An element whose order is not that of the result is reordered.
`pyccel/codegen/printing/fcode.py:2004-2022` -/
def reorder (target : Option Order) (o : Option Order) (s : List Nat) (f : FArr) : Option FArr :=
  if o = some (if target = some .F then .C else .F) then
    reshape f.flat (if o = some .F then s.reverse else s) (backwards s.length)
  else some f

/-- A result of at most two dimensions from the value `v` (of shape `ss` and order `so`).
`pyccel/codegen/printing/fcode.py:1990-2002` -/
def fewDims (order so : Option Order) (ss shape : List Nat) (v : FArr) : Option FArr := do
  let v ← if so ≠ none ∧ so ≠ order then fTranspose v else some v
  if ss.length < shape.length then
    let dims := if order = some .F then shape else shape.reverse
    reshape v.flat dims (byDefault dims)
  else some v

/-- A result of more dimensions from the elements, reordered; `ss` is the shape of the argument.  One
value alone is taken as it is, unless `ndmin` asks for more dimensions; `none` if its rank is not that
of the result (a compiler refuses the assignment).  `pyccel/codegen/printing/fcode.py:2024-2043` -/
def manyDims (order : Option Order) (ss shape : List Nat) : List FArr → Option FArr
  | [v] =>
    if ss.length < shape.length then
      if order = some .C then reshape v.flat shape.reverse (byDefault shape.reverse)
      else reshape v.flat shape (rotated shape.length)
    else if v.dims.length = shape.length then some v
    else none
  | vs =>
    if order = some .C then reshape (vs.flatMap FArr.flat) shape.reverse (byDefault shape.reverse)
    else reshape (vs.flatMap FArr.flat) shape (rotated shape.length)

/-- `_print_NumpyArray`.  `pyccel/codegen/printing/fcode.py:1985-2043` -/
def printArray (kw : Option Order) (ndmin : Nat) (src : Src) : Option FArr :=
  let shape := arrayShape ndmin src.shape
  let order := arrayOrder shape.length kw src.order
  match decide (shape.length ≤ 2), src with
  | true, src => src.code.bind (fewDims order src.order src.shape shape)
  | false, .var o s f => (reorder order o s f).bind (fun v => manyDims order s shape [v])
  | false, .list o s fs =>
    (fs.mapM (reorder order o s)).bind (manyDims order (fs.length :: s) shape)

/-- `get_shape_of_multi_level_container`: the first element decides; `none` for an empty list.
`pyccel/ast/utilities.py: get_shape_of_multi_level_container` -/
def nestShape : (n : Nat) → Nest n → Option (List Nat)
  | 0, _ => some []
  | n + 1, x => match x.elems with
    | [] => none
    | y :: rest => (nestShape n y).map (fun s => (rest.length + 1) :: s)

/-- The code printed for a nested list: `_get_node_without_gFTL` calls itself for the elements.
`pyccel/codegen/printing/fcode.py:799-809` -/
def nestCode : (n : Nat) → Nest n → Option FArr
  | 0, x => some ⟨[], fun _ => x.num⟩
  | n + 1, x => (nestShape (n + 1) x).bind (fun s =>
      (x.elems.mapM (nestCode n)).bind (fun fs =>
        reshape (fs.flatMap FArr.flat) s.reverse (byDefault s.reverse)))

/-! ## Transposition -/

/-- `_print_NumpyTranspose`: nothing is printed around the array if it is assigned to an array of the
other order.  `pyccel/codegen/printing/fcode.py:3917-3931` -/
def printTranspose (lhs : Option (Option Order)) (o : Option Order) (s : List Nat) (f : FArr) :
    Option FArr :=
  if lhs ≠ none ∧ lhs ≠ some o then some f
  else if s.length = 2 then fTranspose f
  else reshape f.flat (if o = some .F then s.reverse else s) (backwards s.length)

/-! ## `np.matmul` -/

/-- `matmul` of Fortran (standard, 16.9.124). -/
def fMatmul (a b : FArr) : Option FArr :=
  match a.dims, b.dims with
  | [n, m], [m', p] =>
    if m = m' then some ⟨[n, p], fun i => match i with
      | [x, y] => sum m (fun k => a.get [x, k] * b.get [k, y])
      | _ => 0⟩
    else none
  | [n, m], [m'] =>
    if m = m' then some ⟨[n], fun i => match i with
      | [x] => sum m (fun k => a.get [x, k] * b.get [k])
      | _ => 0⟩
    else none
  | [m], [m', p] =>
    if m = m' then some ⟨[p], fun i => match i with
      | [y] => sum m (fun k => a.get [k] * b.get [k, y])
      | _ => 0⟩
    else none
  | _, _ => none

/-- `_print_NumpyMatmul` (for results that are arrays); arguments of two different orders raise
`NotImplementedError`.  `pyccel/codegen/printing/fcode.py:1801-1811` -/
def printMatmul (oa ob : Option Order) (a b : FArr) : Option FArr :=
  if oa ≠ none ∧ ob ≠ none ∧ oa ≠ ob then none
  else if oa = some .F then fMatmul a b
  else fMatmul b a

/-- The order of the result.  `pyccel/ast/numpyext.py:1393-1401` -/
def matmulOrder (rank : Nat) (kw oa ob : Option Order) : Option Order :=
  if rank < 2 then none
  else match kw with
    | some o => some o
    | none => if oa = ob then oa else some .C

/-! ## `np.matmul` in C -/

/-- Assignment to an element. -/
def _root_.Verif.Layout.Spec.Heap.put (h : Heap) (a : Addr) (v : Int) : Heap := fun b => if b = a then v else h b

/-- `cspan_at` of a matrix and of a vector. -/
def cell2 (w : View) (i j : Nat) : Addr :=
  (w.buf, w.off + i * (w.dims[0]?.map (·.stride)).getD 0 + j * (w.dims[1]?.map (·.stride)).getD 0)

def cell1 (w : View) (i : Nat) : Addr := (w.buf, w.off + i * (w.dims[0]?.map (·.stride)).getD 0)

/-- `w->shape[k]` -/
def _root_.Verif.Layout.Spec.View.len (w : View) (k : Nat) : Nat := (w.dims[k]?.map (·.len)).getD 0

/-- `out = 0; for j < m: out += a[j] * b[j]`.  `pyccel/stdlib/math/pyc_math_c.c:131-134` -/
def accumulate (out : Addr) (a b : Nat → Addr) (m : Nat) (h : Heap) : Heap :=
  (List.range m).foldl (fun h j => h.put out (h out + h (a j) * h (b j))) (h.put out 0)

/-- The function of `pyc_math_c` called for the ranks of the arguments (`ccode.py:3013-3024`);
`none` is a failed assertion.  `pyccel/stdlib/math/pyc_math_c.c:117-189` -/
def matmulC (out a b : View) (h : Heap) : Option Heap :=
  match a.dims.length, b.dims.length with
  | 2, 2 =>
    if a.len 1 = b.len 0 ∧ a.len 0 = out.len 0 ∧ b.len 1 = out.len 1 then
      some ((List.range (a.len 0)).foldl (fun h i =>
        (List.range (b.len 1)).foldl (fun h k =>
          accumulate (cell2 out i k) (fun j => cell2 a i j) (fun j => cell2 b j k) (a.len 1) h) h) h)
    else none
  | 2, 1 =>
    if a.len 1 = b.len 0 ∧ a.len 0 = out.len 0 then
      some ((List.range (a.len 0)).foldl (fun h i =>
        accumulate (cell1 out i) (fun j => cell2 a i j) (fun j => cell1 b j) (a.len 1) h) h)
    else none
  | 1, 2 =>
    if b.len 0 = a.len 0 ∧ b.len 1 = out.len 0 then
      some ((List.range (b.len 1)).foldl (fun h i =>
        accumulate (cell1 out i) (fun j => cell1 a j) (fun j => cell2 b j i) (b.len 0) h) h)
    else none
  | _, _ => none

end Verif.Layout.Model
