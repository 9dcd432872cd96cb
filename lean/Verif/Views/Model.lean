import Verif.Views.Spec
/-
Model of the way a NumPy array is handed to compiled code.
Machine-integer overflow of `int64_t` is not modelled here: NumPy itself guarantees that shapes
and strides of an existing array fit.
-/
namespace Verif.Views
open Spec

/-- One entry of each of the three output arrays `base_shape`, `ubounds`, `strides`. -/
structure Part where
  base : Int
  ub : Int
  step : Int
deriving DecidableEq, Repr

/-- The loop of `get_strides_and_shape_from_numpy_array` for a view in Fortran ordering
(pyccel/stdlib/cwrapper/cwrapper.c:214-224), from the dimension `d` whose `ubounds` and `strides`
entries `ub`, `st` are already set: `base_shape[i]` is the stride of the next dimension divided
by `current_shape` (C division; division by zero is undefined behaviour, `none`), and the last
dimension gets `shape * strides`. -/
def fillDims (cur ub st : Int) (d : NpDim) : List NpDim → Option (List Part)
  | [] => some [⟨d.shape * st, ub, st⟩]
  | e :: rest =>
    if cur = 0 then none
    else do
      let b := e.stride.tdiv cur
      let ps ← fillDims (cur * b) e.shape 1 e rest
      pure (⟨b, ub, st⟩ :: ps)

/-- The branch `base != NULL` in Fortran ordering: cwrapper.c:195-201, 214-224.  Rank 0 would
access `np_strides[0]` of an empty array: `none`. -/
def viewPartsF (item : Int) : List NpDim → Option (List Part)
  | [] => none
  | d :: rest =>
    let st := d.stride.tdiv item
    fillDims item ((d.shape - 1) * st + 1) st d rest

/-- The branch `base != NULL` in C ordering: cwrapper.c:202-213 is the Fortran branch with the
dimensions numbered from the other end. -/
def viewPartsC (item : Int) (dims : List NpDim) : Option (List Part) :=
  (viewPartsF item dims.reverse).map List.reverse

/-- `get_strides_and_shape_from_numpy_array`: cwrapper.c:180-226. -/
def getParts (isView cOrder : Bool) (item : Int) (dims : List NpDim) : Option (List Part) :=
  if isView then (if cOrder then viewPartsC item dims else viewPartsF item dims)
  else some (dims.map fun d => ⟨d.shape, d.shape, 1⟩)

/-- The ordering check applied to an array argument: `_check_pyarray_order`,
cwrapper.c:362-395 (for ordering flags). -/
def orderOk (cOrder : Bool) : List NpDim → Bool
  | d :: e :: rest =>
    (if cOrder then decide (d.stride ≥ e.stride) else decide (d.stride ≤ e.stride))
      && orderOk cOrder (e :: rest)
  | _ => true

/-- The array the compiled function receives is a contiguous array of shape `base_shape`
(column major here) restricted in each dimension to `[0 : ub : step]`:
pyccel/codegen/wrapper/c_to_python_wrapper.py:3315-3332 (C) and
pyccel/codegen/wrapper/fortran_to_c_wrapper.py:534-570 (Fortran).  A section must satisfy
`0 < step` and `0 < ub ≤ base` (contract of `cspan_slice`, and of a Fortran array section on a
dimension of that size); its length is the number of selected positions. -/
def Part.extent (p : Part) : Option Int :=
  if 0 < p.step ∧ 0 < p.ub ∧ p.ub ≤ p.base then some ((p.ub - 1) / p.step + 1) else none

/-- Shape seen by the compiled code. -/
def seenShape (ps : List Part) : Option (List Int) := ps.mapM Part.extent

/-- Offset, in items from the data pointer, of the element the compiled code sees at `idx`, for
a column-major array. -/
def seenOffsetF : List Part → List Int → Int
  | p :: ps, i :: is => i * p.step + p.base * seenOffsetF ps is
  | _, _ => 0

/-- The same for a row-major array: the last index varies fastest. -/
def seenOffset (cOrder : Bool) (ps : List Part) (idx : List Int) : Int :=
  if cOrder then seenOffsetF ps.reverse idx.reverse else seenOffsetF ps idx

end Verif.Views
