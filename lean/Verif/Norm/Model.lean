import Verif.Norm.Spec

/-!
# Norms of vectors and matrices: model of the code

`CCodePrinter._print_NumpyNorm` (codegen/printing/ccode.py 2880-2956) with
`_handle_numpy_functional` (779-855) and `_print_PyccelPow` (1461-1491), and
`FCodePrinter._print_NumpyNorm` (codegen/printing/fcode.py 1816-1853).

Real numbers are exact: rounding and overflow of floating point numbers are not modelled, infinity is.
The elements are integers of 64 bits or real numbers (a complex number is represented by its absolute
value).  Without `axis` all the elements of an array of any rank are visited, whatever its order in
memory; an `axis` is treated elsewhere (C103).
-/

namespace Verif.Norm.Model
open Spec

/-- The type of the elements. -/
inductive Kind
  | int
  | real
  deriving DecidableEq

/-- A floating point value that is not negative, or undefined behaviour. -/
inductive Ext
  | fin (r : ℝ)
  | inf
  | ub

/-- `a + b` of two values that are not negative. -/
noncomputable def Ext.add : Ext → Ext → Ext
  | .ub, _ => .ub
  | _, .ub => .ub
  | .inf, _ => .inf
  | _, .inf => .inf
  | .fin a, .fin b => .fin (a + b)

/-- `pow(a, p)` of the C library (and `a ** p` of Fortran) for a base that is not negative and
`p ≠ 0`. -/
noncomputable def Ext.pow : Ext → ℝ → Ext
  | .ub, _ => .ub
  | .inf, p => open Classical in if p < 0 then .fin 0 else .inf
  | .fin a, p => open Classical in if a = 0 ∧ p < 0 then .inf else .fin (a ^ p)

/-- `1 / a` -/
noncomputable def Ext.inv : Ext → Ext
  | .ub => .ub
  | .inf => .fin 0
  | .fin a => open Classical in if a = 0 then .inf else .fin (1 / a)

/-- `(int64_t) a`, back as a floating point value. -/
noncomputable def Ext.cast64 : Ext → Ext
  | .fin a => open Classical in if a < 2 ^ 63 then .fin ⌊a⌋ else .ub
  | _ => .ub

/-- The term of one element: ccode.py 2901-2932.  `PyccelPow` of an integer and an integer has the
type integer, and its code is `(int64_t)pow(...)` (1490-1491). -/
noncomputable def cTerm (k : Kind) (o : Ord) (x : ℝ) : Ext :=
  open Classical in
  if o.value = 0 then .fin (if x = 0 then 0 else 1)
  else if o.value = 1 then .fin |x|
  else if o.value = -1 then (Ext.fin |x|).inv
  else
    match k, o with
    | .int, .none => (Ext.pow (.fin |x|) o.value).cast64
    | .int, .int _ => (Ext.pow (.fin |x|) o.value).cast64
    | _, _ => Ext.pow (.fin |x|) o.value

/-- The loop `lhs = 0; for (...) lhs = lhs + term;`: ccode.py 843-848. -/
noncomputable def cSum (k : Kind) (o : Ord) (xs : List ℝ) : Ext :=
  xs.foldl (fun t x => t.add (cTerm k o x)) (.fin 0)

/-- `norm(x, ord)` in C, of all the elements: ccode.py 2880-2956.  The orders 0 and 1 have no final
power. -/
noncomputable def cNorm (k : Kind) (o : Ord) (xs : List ℝ) : Ext :=
  open Classical in
  if o.value = 0 ∨ o.value = 1 then cSum k o xs
  else (cSum k o xs).pow (1 / o.value)

/-- `sum(a)` of Fortran. -/
noncomputable def fSum (ts : List Ext) : Ext := ts.foldl Ext.add (.fin 0)

/-- `norm(x, ord)` in Fortran, of all the elements: fcode.py 1816-1853.  The elements are converted
to real numbers first; `Norm2` is the Euclidean norm. -/
noncomputable def fNorm (o : Ord) (xs : List ℝ) : Ext :=
  open Classical in
  if o.value = 2 then .fin (Real.sqrt (xs.map fun x => |x| ^ (2 : ℕ)).sum)
  else if o.value = 0 then .fin (xs.filter fun x => 0 < |x|).length
  else if o.value = 1 then fSum (xs.map fun x => .fin |x|)
  else if o.value = -1 then (fSum (xs.map fun x => (Ext.fin |x|).inv)).inv
  else (fSum (xs.map fun x => Ext.pow (.fin |x|) o.value)).pow (1 / o.value)

/-- An array of two dimensions is visited element by element. -/
def elements (rows : List (List ℝ)) : List ℝ := rows.flatten

end Verif.Norm.Model
