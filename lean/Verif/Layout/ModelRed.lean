import Verif.Layout.SpecRed
import Verif.Layout.ModelArr

/-!
# Reductions: the loops and the expressions that pyccel prints
-/

namespace Verif.Layout.Model
open Spec

/-! ## `axis` -/

/-- An indexed reduction: for each dimension of the array its index, or `none` for `:`, the argument
`axis` (positions among the dimensions that are not indexed yet) and `keepdims`. -/
structure Red where
  subs : List (Option Nat)
  axis : List Nat
  keep : Bool
  deriving DecidableEq, Repr

/-- `NumpyReduction.__init__`: with `keepdims` the axes are kept as they were written, otherwise those
that are negative are replaced.  Negative axes that stay are never found later and fail an assertion:
`none`.  `pyccel/ast/numpyext.py:1141-1158` -/
def mkRed (rank : Nat) (axis : List Int) (keep : Bool) : Option Red :=
  if keep then
    if axis.all (fun a => 0 ≤ a) then some ⟨List.replicate rank none, axis.map Int.toNat, true⟩ else none
  else
    some ⟨List.replicate rank none, axis.map (fun a : Int => (if a < 0 then (rank : Int) + a else a).toNat), false⟩

/-- Number of dimensions of the array that are not indexed. -/
def Red.opened (r : Red) : Nat := r.subs.countP (·.isNone)

/-- Rank of the result.  `pyccel/ast/numpyext.py:1149-1157` -/
def Red.rank (r : Red) : Nat :=
  if r.keep then r.opened else ((List.range r.opened).filter (fun k => decide (k ∉ r.axis))).length

/-- The loop of `process_index_for_reduction`; `none` (of `ix`) is `:`.  A failed assertion, and a loop
that goes beyond the dimensions, is `none`.  `pyccel/ast/numpyext.py:396-428` -/
def process (axis : List Nat) (keep : Bool) :
    (fuel : Nat) → (ix : List (Option Nat)) → (ii shift : Nat) → Option (List (Option Nat) × List Nat)
  | _, [], ii, shift => some ([], (axis.filter (fun a => decide (ii ≤ a))).map (· - shift))
  | 0, _ :: _, _, _ => none
  | fuel + 1, x :: ix, ii, shift =>
    if ii ∈ axis then do
      let rest ← match x with
        | none => process axis keep fuel ix (ii + 1) shift
        | some v =>
          if keep then if v = 0 then process axis keep fuel ix (ii + 1) shift else none
          else process axis keep fuel (x :: ix) (ii + 1) shift
      pure (none :: rest.1, (ii - shift) :: rest.2)
    else do
      let rest ← process axis keep fuel ix (ii + 1) (if x = none then shift else shift + 1)
      pure (x :: rest.1, rest.2)

/-- `arg[indexes]` of an array that is indexed already: the new indices are for the dimensions that are
not indexed. -/
def applyIx : List (Option Nat) → List (Option Nat) → List (Option Nat)
  | subs, [] => subs
  | [], _ => []
  | some v :: subs, ix => some v :: applyIx subs ix
  | none :: subs, x :: ix => x :: applyIx subs ix

/-- `__getitem__` of a reduction.  `pyccel/ast/numpyext.py:1264-1283` -/
def Red.item (r : Red) (ix : List (Option Nat)) : Option Red := do
  let (new, axis) ← process r.axis r.keep r.opened ix 0 0
  if axis.length = r.axis.length ∧ new.length ≤ r.opened then
    some ⟨applyIx r.subs new, axis, r.keep⟩
  else none

/-- `insert_index` of a reduction, at the position `-pos`.  Of the dimensions of the result only those
that `keepdims` keeps are known to have length 1.  `pyccel/ast/utilities.py:354-358, 432-438` -/
def insertRed (pos i : Nat) (r : Red) : Option Red :=
  if r.rank = 0 ∨ pos > r.rank then some r
  else
    let i := if r.keep ∧ r.rank - pos ∈ r.axis then 0 else i
    if r.rank > pos then r.item (List.replicate (r.rank - pos) none ++ [some i])
    else r.item [some i]

/-- The loops around an assignment to an array of the shape of the result: the positions are
`-rank, …, -1`.  `pyccel/ast/utilities.py:705-718` -/
def insertAll : List Nat → Red → Option Red
  | [], r => some r
  | i :: is, r => (insertRed (is.length + 1) i r).bind (insertAll is)

/-- The element of the array at the position `k` of the section. -/
def fill : List (Option Nat) → List Nat → List Nat
  | some v :: subs, k => v :: fill subs k
  | none :: subs, k :: ks => k :: fill subs ks
  | _, _ => []

/-- Shape of the section. -/
def openShape : List (Option Nat) → List Nat → List Nat
  | some _ :: subs, _ :: ns => openShape subs ns
  | none :: subs, n :: ns => n :: openShape subs ns
  | _, _ => []

/-- The value computed for one element of the result: a loop over the elements of the section.
`pyccel/codegen/printing/ccode.py:842-847`, `fcode.py:1768-1783` -/
def redValue (op : Int → Int → Int) (init : Int) (a : Arr) (r : Red) : Int :=
  (indices (openShape r.subs a.shape)).foldl (fun acc k => op acc (a.get (fill r.subs k))) init

/-- The element at index `i` of `op.reduce(a, axis, keepdims)`. -/
def reduceC (op : Int → Int → Int) (init : Int) (a : Arr) (axis : List Int) (keep : Bool) (i : List Nat) :
    Option Int :=
  (mkRed a.shape.length axis keep).bind (fun r => (insertAll i r).map (redValue op init a))

/-! ## The assignment in C -/

/-- `lhs = start; for (c_each(it, …, arg)) { lhs = op(lhs, *it.ref); }`.
`pyccel/codegen/printing/ccode.py:842-847` -/
def functionalC (op : Int → Int → Int) (lhs : Addr) (start : Int) (arg : List Addr) (h : Heap) : Heap :=
  arg.foldl (fun h x => h.put lhs (op (h lhs) (h x))) (h.put lhs start)

/-- Without an initial value the loop starts from `*cspan_front(arg)`; `none` if there is no first
element (undefined behaviour).  `pyccel/codegen/printing/ccode.py:821-823` -/
def extremumC (op : Int → Int → Int) (lhs : Addr) (arg : List Addr) (h : Heap) : Option Heap :=
  match arg with
  | [] => none
  | x :: _ => some (functionalC op lhs (h x) arg h)

/-! ## Two assignments in one loop -/

/-- `x[i, j] = f(x[i, j])` -/
def setX (f : Int → Int) (i j : Nat) (s : Two) : Two :=
  { s with x := fun a b => if a = i ∧ b = j then f (s.x i j) else s.x a b }

/-- `y[i] = sum(x[:, i])`, or `sum(x[i, :])` for the last axis. -/
def setY (n : Nat) (last : Bool) (i : Nat) (s : Two) : Two :=
  { s with y := fun a => if a = i then sum n (fun k => if last then s.x i k else s.x k i) else s.y a }

/-- `x[:, :] = f(x)` followed by `y[:] = np.sum(x, axis = 0)` (or 1) for arrays of literal shapes `(n, n)`
and `(n,)`: the second statement is put in the outer loop of the first one, because the lengths are
equal and a reduction with an axis is not among the dependencies.
`pyccel/ast/utilities.py:601-633, 752-779` -/
def fused (f : Int → Int) (n : Nat) (last : Bool) (s : Two) : Two :=
  (List.range n).foldl (fun s i =>
    setY n last i ((List.range n).foldl (fun s j => setX f i j s) s)) s

/-! ## `initial` in Fortran -/

/-- Text of an expression: terms with their signs, each a list of factors. -/
abbrev Text := List (Bool × List Int)

def Text.value (t : Text) : Int :=
  t.foldr (fun p acc => (if p.1 then -p.2.foldr (· * ·) 1 else p.2.foldr (· * ·) 1) + acc) 0

/-- A text in parentheses is one factor. -/
def paren (t : Text) : Text := [(false, [t.value])]

/-- `a * b`: the last term of `a` and the first term of `b` become one. -/
def joinMul (a b : Text) : Text :=
  match a.getLast?, b with
  | some (s, fs), (_, gs) :: rest => a.dropLast ++ (s, fs ++ gs) :: rest
  | _, _ => []

/-- `a - b`: the sign of the first term. -/
def joinSub (a : Text) : Text → Text
  | (s, fs) :: rest => a ++ (!s, fs) :: rest
  | [] => a

/-- Only operators get parentheses (`PyccelOperator._handle_precedence`): those of lower precedence, and
on the right of `-` those of equal precedence.  `pyccel/ast/operators.py` -/
def operand (low : Bool) (e : SExpr) (t : Text) : Text :=
  match e with
  | .add _ _ | .sub _ _ => if low then paren t else t
  | _ => t

/-- `_print_NumpySum` prints `initial + sum(x)` unless `initial` is 0.
`pyccel/codegen/printing/fcode.py:1768-1783` -/
def printSum : SExpr → Text
  | .num v => [(false, [v])]
  | .all init s => if init = 0 then [(false, [s])] else [(false, [init]), (false, [s])]
  | .add a b => printSum a ++ operand true b (printSum b)
  | .sub a b => joinSub (printSum a) (operand true b (printSum b))
  | .mul a b => joinMul (operand true a (printSum a)) (operand true b (printSum b))

end Verif.Layout.Model
