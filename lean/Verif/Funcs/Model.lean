import Verif.Funcs.Spec

/-!
# The code printed for `np.cross`, `np.sign`, `np.min` and `np.max` of complex arrays
-/

namespace Verif.Funcs

/-- One entry of the `shape` of an array: the number it has at run time and
whether it is a `LiteralInteger` (ast/variable.py 266-300, `process_shape`:
literals are kept, other entries become `PyccelArrayShapeElement`). -/
structure Dim where
  n : Nat
  lit : Bool
deriving DecidableEq

/-- `s == 1` and `s == LiteralInteger(1)`: true only for a literal
(ast/literals.py 73-80, `Literal.__eq__`; other nodes compare by identity). -/
def Dim.isOne (d : Dim) : Bool := d.lit && d.n == 1

/-- The run-time shape. -/
def nums (s : List Dim) : List Nat := s.map (·.n)

/-- The arrays of the program: contents by variable and index.  Simplification:
elements are rational numbers, so no rounding and no integer overflow. -/
abbrev Store := Nat → List Nat → Rat

/-- A call of `np.cross` after the semantic stage: the operand variables, the
result variable (semantic.py 8452-8479, `_build_NumpyCross`), their shapes and
the three axes made non-negative (numpyext.py 3604-3619, `NumpyCross.__init__`).
Simplification: the operands are variables, of the type of the result, so the
Fortran printer inserts no cast (fcode.py 3934). -/
structure Cross where
  a : Nat
  b : Nat
  c : Nat
  sh : Nat → List Dim
  axa : Nat
  axb : Nat
  axc : Nat

/-- Is `idx` inside the array? Computable form of the bounds of the printed
element access. -/
def inB : List Nat → List Nat → Bool
  | [], [] => true
  | i :: is, n :: ns => decide (i < n) && inB is ns
  | _, _ => false

/-- Reading an element: an index outside the array has no defined value. -/
def rd (sh : Nat → List Dim) (σ : Store) (v : Nat) (i : List Nat) : Option Rat :=
  if inB i (nums (sh v)) then some (σ v i) else none

/-- Writing an element: outside the array is undefined behaviour. -/
def wr (sh : Nat → List Dim) (σ : Store) (v : Nat) (i : List Nat) (x : Rat) :
    Option Store :=
  if inB i (nums (sh v)) then
    some fun w j => if w = v ∧ j = i then x else σ w j
  else none

/-- The indices of one array in the loop body: `0 if s == 1 else idx` for the
loop indices *zipped with the whole shape*, then the vector axis inserted
(numpyext.py 3691-3713, `NumpyCross.insert_indices`). -/
def putIdx (s : List Dim) (ax : Nat) (idxs : List Nat) (k : Nat) : List Nat :=
  (List.zipWith (fun i d => if d.isOne then 0 else i) idxs s).insertIdx ax k

/-- The extents of the loops: the shapes without the vector axis, the one of
`b` where the one of `a` is a literal one (ast/utilities.py 524-529). -/
def loopShape (sa sb : List Dim) (axa axb : Nat) : List Dim :=
  List.zipWith (fun x y => if x.isOne then y else x)
    (sa.eraseIdx axa) (sb.eraseIdx axb)

/-- The iterations of the nested loops, in order (ast/utilities.py 530-532: one
`LoopCollection` per extent). -/
def box : List Nat → List (List Nat)
  | [] => [[]]
  | n :: ns => (List.range n).flatMap fun i => (box ns).map (i :: ·)

/-- The body: three assignments one after the other (ccode.py 2958-2980,
`_print_NumpyCross`; pyc_math_f90.F90 454-505, `cross_product_f32/f64`, called
from fcode.py 3933-3939, executes the same three in the same order on arguments
passed by reference). -/
def body (q : Cross) (σ : Store) (idxs : List Nat) : Option Store := do
  let ia := putIdx (q.sh q.a) q.axa idxs
  let ib := putIdx (q.sh q.b) q.axb idxs
  let ic := putIdx (q.sh q.c) q.axc idxs
  let σ ← wr q.sh σ q.c (ic 0)
    ((← rd q.sh σ q.a (ia 1)) * (← rd q.sh σ q.b (ib 2))
      - (← rd q.sh σ q.a (ia 2)) * (← rd q.sh σ q.b (ib 1)))
  let σ ← wr q.sh σ q.c (ic 1)
    ((← rd q.sh σ q.a (ia 2)) * (← rd q.sh σ q.b (ib 0))
      - (← rd q.sh σ q.a (ia 0)) * (← rd q.sh σ q.b (ib 2)))
  wr q.sh σ q.c (ic 2)
    ((← rd q.sh σ q.a (ia 0)) * (← rd q.sh σ q.b (ib 1))
      - (← rd q.sh σ q.a (ia 1)) * (← rd q.sh σ q.b (ib 0)))

/-- Running a list of iterations. -/
def runIts (q : Cross) : List (List Nat) → Store → Option Store
  | [], σ => some σ
  | i :: is, σ => (body q σ i).bind (runIts q is)

/-- The whole statement (for one-dimensional operands there is no loop:
ast/utilities.py 518). -/
def runCross (q : Cross) (σ : Store) : Option Store :=
  runIts q (box (nums (loopShape (q.sh q.a) (q.sh q.b) q.axa q.axb))) σ

/-- The shape of a result variable the compiler creates: the one of `a + b`
(semantic.py 8465-8472), whatever the axes.  Modelled for operands of equal
rank; an entry is that of `b` where the one of `a` is a literal one
(ast/operators.py `broadcast`, ast/utilities.py). -/
def sumShape (sa sb : List Dim) : List Dim :=
  List.zipWith (fun x y => if x.isOne then y else x) sa sb

/-! ### sign -/

/-- `x > 0` in C. -/
def Fl.pos : Fl → Bool
  | .fin q => decide (0 < q)
  | .inf neg => !neg
  | .nan _ => false

/-- `x < 0` in C. -/
def Fl.neg : Fl → Bool
  | .fin q => decide (q < 0)
  | .inf neg => neg
  | .nan _ => false

/-- A C comparison as an integer. -/
def b2i (b : Bool) : Int := if b then 1 else 0

/-- `(TYPE)((x > 0) - (x < 0))` (pyc_math_c.h 164-167, `PY_SIGN_TYPE`; printed
by ccode.py 2638-2667). -/
def cSign (x : Fl) : Fl := .fin ((b2i x.pos - b2i x.neg : Int) : Rat)

/-- The same macro for an integer type. -/
def cSignInt (x : Int) : Int := b2i (decide (0 < x)) - b2i (decide (x < 0))

/-- `x /= 0` in Fortran (fcode.py `_print_PythonBool`). -/
def Fl.nonzero : Fl → Bool
  | .fin q => decide (q ≠ 0)
  | _ => true

/-- The sign Fortran's `sign(A, B)` takes from `B`.  Zero is the positive
zero.  For a NaN gfortran copies the sign bit. -/
def Fl.signBit : Fl → Bool
  | .fin q => decide (q < 0)
  | .inf neg => neg
  | .nan neg => neg

/-- `sign(merge(1, 0, x /= 0), x)` (fcode.py 3869-3898, `_print_NumpySign`). -/
def fSign (x : Fl) : Fl :=
  let m : Rat := if x.nonzero then 1 else 0
  .fin (if x.signBit then -m else m)

/-- The same for an integer type. -/
def fSignInt (x : Int) : Int :=
  let m : Int := if x ≠ 0 then 1 else 0
  if x < 0 then -m else m

/-! ### minimum and maximum of complex arrays -/

/-- `==` between components (false with a NaN). -/
def feq : Option Rat → Option Rat → Bool
  | some x, some y => decide (x = y)
  | _, _ => false

/-- `<` between components (false with a NaN). -/
def flt : Option Rat → Option Rat → Bool
  | some x, some y => decide (x < y)
  | _, _ => false

/-- The comparison of `complex_min` and `complex_max`
(pyc_math_c.h 154 and 159). -/
def cLt (a b : Cx) : Bool :=
  if feq a.re b.re then flt a.im b.im else flt a.re b.re

/-- `complex_min` (pyc_math_c.h 153-156). -/
def complexMin (a b : Cx) : Cx := if cLt a b then a else b

/-- `complex_max` (pyc_math_c.h 158-161). -/
def complexMax (a b : Cx) : Cx := if cLt a b then b else a

/-- `np.min(x)` and `np.max(x)` in C: start from the first element, then one
call per element, the first one included (ccode.py 779-848,
`_handle_numpy_functional`; 2831-2843).  Without elements the first one is read
outside the array. -/
def cRed (f : Cx → Cx → Cx) : List Cx → Option Cx
  | [] => none
  | z :: l => some ((z :: l).foldl f z)

/-- One step of `amax_4`/`amax_8` (pyc_math_f90.F90 242-247). -/
def fMaxStep (m a : Cx) : Cx :=
  if flt m.re a.re || (feq a.re m.re && flt m.im a.im) then a else m

/-- One step of `amin_4`/`amin_8` (pyc_math_f90.F90 286-292). -/
def fMinStep (m a : Cx) : Cx :=
  if flt a.re m.re || (feq a.re m.re && flt a.im m.im) then a else m

/-- The loops of `amax` and `amin` (pyc_math_f90.F90 230-318): the first
element, then the others. -/
def fRed (f : Cx → Cx → Cx) : List Cx → Option Cx
  | [] => none
  | z :: l => some (l.foldl f z)

end Verif.Funcs
