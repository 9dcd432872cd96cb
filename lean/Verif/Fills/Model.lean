import Verif.Fills.Spec
/-
Model of the code generated for `numpy.linspace` and `numpy.arange`:
/repo/pyccel/ast/numpyext.py 1014-1093 (`NumpyArange`), 1462-1617 (`NumpyLinspace`),
/repo/pyccel/codegen/printing/ccode.py 2853-2878, /repo/pyccel/codegen/printing/fcode.py 1855-1908, 2048-2064.

Simplifications: numbers are rational (no rounding, no overflow); `none` is the result of a division by zero (infinity or not a
number) or the contents of memory that was never written.  Not modelled: complex numbers, the inferred element type, negative `num`.
-/
namespace Verif.Fills

/-- The argument `endpoint`: a literal, or an expression with a value. -/
inductive Endp
  | lit (b : Bool)
  | dyn (b : Bool)
deriving DecidableEq, Repr

/-- The value of the argument. -/
def Endp.val : Endp → Bool
  | .lit b => b
  | .dyn b => b

/-- A call of `linspace`: `start` and `stop` may be arrays, then the result has one column for every element. -/
structure Req where
  start : Nat → Rat
  stop : Nat → Rat
  cols : Nat
  num : Nat
  endp : Endp
  int : Bool

/-- Division of floating point numbers. -/
def div? (a b : Rat) : Option Rat := if b = 0 then none else some (a / b)

/-- numpyext.py:1559-1570: `(stop - start) / num`, `(stop - start) / (num - 1)` or `(stop - start) / (num - int(endpoint))`. -/
def Req.step (r : Req) (j : Nat) : Option Rat :=
  match r.endp with
  | .lit false => div? (r.stop j - r.start j) r.num
  | .lit true => div? (r.stop j - r.start j) ((r.num : Rat) - 1)
  | .dyn b => div? (r.stop j - r.start j) ((r.num : Rat) - (if b then 1 else 0))

/-- ccode.py:2859, 2874-2876; fcode.py:1899-1903: `(start + index*step)`, rounded down for integer arrays. -/
def Req.elem (r : Req) (i j : Nat) : Option Rat :=
  (r.step j).map fun s => if r.int then ((r.start j + i * s).floor : Rat) else r.start j + i * s

/-- ccode.py:2856 `_cast_to`, fcode.py:1857-1861 `_apply_cast`: `stop` converted to the type of the array. -/
def Req.last (r : Req) (j : Nat) : Rat := if r.int then trunc (r.stop j) else r.stop j

/-- The array: a row for every sample. -/
abbrev Mem := Nat → Nat → Option Rat

/-- Write an element; `none` if there is no such element. -/
def write (r : Req) (m : Mem) (i : Int) (j : Nat) (v : Option Rat) : Option Mem :=
  if 0 ≤ i ∧ i < r.num ∧ j < r.cols then some fun a b => if (a : Int) = i ∧ b = j then v else m a b else none

/-- The statement after the element: ccode.py:2860-2872, fcode.py:1868-1893.  Nothing if `endpoint` is the literal `False`; else the last
element is assigned, for an expression with `cond ? stop : lhs` or `merge(stop, lhs, cond)`. -/
def finish (r : Req) (m : Mem) (j : Nat) : Option Mem :=
  match r.endp with
  | .lit false => some m
  | .lit true => write r m ((r.num : Int) - 1) j (some (r.last j))
  | .dyn b => write r m ((r.num : Int) - 1) j (if b then some (r.last j) else m (r.num - 1) j)

/-- The body of the loops of C, and of Fortran if the result has several columns: both statements are printed at the place of the
assignment (`";\n".join`, ccode.py:2878, `"\n".join`, fcode.py:1908), so that both are in the loops. -/
def body (r : Req) (m : Mem) (i j : Nat) : Option Mem :=
  (write r m i j (r.elem i j)).bind fun m => finish r m j

/-- Loops over the columns `j < n` of row `i`. -/
def rowLoop (r : Req) (i : Nat) : Nat → Mem → Option Mem
  | 0, m => some m
  | n + 1, m => (rowLoop r i n m).bind fun m => body r m i n

/-- Loops over the rows `i < n`. -/
def loops (r : Req) : Nat → Mem → Option Mem
  | 0, m => some m
  | n + 1, m => (loops r n m).bind fun m => rowLoop r n r.cols m

/-- The program in C. -/
def runC (r : Req) (m : Mem) : Option Mem := loops r r.num m

/-- The program in Fortran for a result with one dimension: `lhs = [(value, i = 0, num - 1)]` and, on the next line, the assignment of the last
element (fcode.py:1904-1908).  The call may be an operand: `f` is what the expression around it does with every element (the text of the
call, with its second line, is put into the expression). -/
def runF (r : Req) (f : Rat → Rat) (m : Mem) : Option Mem :=
  finish r (fun i j => if i < r.num ∧ j = 0 then (r.elem i 0).map f else m i j) 0

/-- numpyext.py:1050-1053: the length of `arange`, `ceil((stop - start) / step)`. -/
def arangeLen (start stop step : Rat) : Int := ((stop - start) / step).ceil

/-- numpyext.py:1073-1075 and fcode.py:2048-2064: an element is `start + index * step`, converted by the assignment. -/
def arangeElem (int : Bool) (start step : Rat) (i : Nat) : Rat :=
  if int then trunc (start + i * step) else start + i * step

/-- The program in C: `malloc(sizeof(t) * (length))`, an array of that length (ccode.py:2485-2513), and a loop.  There is no array of a negative
length: `malloc` gets the size `2^64 - …` and the length of the array is negative. -/
def arangeC (int : Bool) (start stop step : Rat) : Option (List Rat) :=
  if arangeLen start stop step < 0 then none
  else some ((List.range (arangeLen start stop step).toNat).map (arangeElem int start step))

/-- The program in Fortran: `allocate(x(0:length - 1))` (fcode.py:2627) gives an array without elements for negative lengths. -/
def arangeF (int : Bool) (start stop step : Rat) : List Rat :=
  (List.range (arangeLen start stop step).toNat).map (arangeElem int start step)

end Verif.Fills
