import Verif.Layout.Spec

/-!
# Multi-dimensional arrays: the statements pyccel prints, in Fortran and in C, and what they do

Types are what the semantic stage infers: a rank and (from rank 2 on) an order.  An array variable is
either an owner, allocated once (re-allocation is the subject of C68), or a pointer.  Indices are not
negative (C13) and slices are in range (C14 to C16).
-/

namespace Verif.Layout.Model
open Spec

/-- `NumpyNDArrayType`: rank and order; the order is `None` below rank 2.
`pyccel/ast/numpyext.py:905-925` -/
structure Ty where
  rank : Nat
  order : Option Order
  deriving DecidableEq, Repr

/-- `pyccel/ast/numpyext.py:919-925` -/
def mkTy (rank : Nat) (o : Option Order) : Ty := ⟨rank, if rank < 2 then none else o⟩

/-- `NumpyTranspose._get_order`, and `__new__` which gives back arrays of rank below 2.
`pyccel/ast/numpyext.py:2995-2999, 3060-3080` -/
def flip : Option Order → Option Order
  | some .F => some .C
  | _ => some .F

/-- Not a slice.  `pyccel/ast/variable.py:753-755` -/
def isAt : Sub → Bool
  | .at _ => true
  | _ => false

/-- Number of dimensions that remain.  `pyccel/ast/variable.py:753-800` -/
def subRank (rank : Nat) (ss : List Sub) : Nat := rank - ss.countP isAt

/-- The type inferred for the right-hand side is the type of the variable on the left
(`pyccel/parser/semantic.py`: a variable has one type), an owner is defined once, and the result of
subscripts has at least one dimension (otherwise it is not an array).
`pyccel/parser/semantic.py:5287-5292, 2150-2160` -/
def typed (Γ : Var → Ty) : Op → Bool
  | .full x shape o _ => Γ x == mkTy shape.length (some o)
  | .alias y x => Γ y == Γ x
  | .trans y x => Γ y == (if (Γ x).rank < 2 then Γ x else mkTy (Γ x).rank (flip (Γ x).order))
  | .sub y x ss =>
    decide (ss.length ≤ (Γ x).rank) && decide (0 < subRank (Γ x).rank ss)
      && (Γ y == mkTy (subRank (Γ x).rank ss) (Γ x).order)
  | .set x i _ => i.length == (Γ x).rank
  | .get x i => i.length == (Γ x).rank
  | .shape x k => decide (k < (Γ x).rank)

/-! ## Fortran -/

/-- A subscript in Fortran: an index or a triplet (a missing bound is the bound of the array). -/
inductive FSub
  | at (i : Int)
  | tri (lo hi : Option Int) (step : Int)
  deriving DecidableEq, Repr

/-- Statements of Fortran. -/
inductive FStmt
  | allocate (x : Var) (bounds : List (Int × Int))             -- allocate(x(l:u, …))
  | assign (x : Var) (v : Int)                                 -- x = v
  | point (y : Var) (lbs : List Int) (x : Var) (ss : Option (List FSub))  -- y(l:, …) => x(ss)
  | store (x : Var) (i : List Int) (v : Int)                   -- x(i) = v
  | print (x : Var) (i : List Int)                             -- print *, x(i)
  | size (x : Var) (k : Int)                                   -- print *, size(x, k)
  deriving DecidableEq, Repr

/-- `Slice` with the stop turned into an inclusive bound.
`pyccel/codegen/printing/fcode.py:4121-4190` (for bounds that are not negative) -/
def fSub : Sub → FSub
  | .at i => .at i
  | .all => .tri none none 1
  | .sl a b s => .tri (some a) (some ((b : Int) - 1)) s

/-- `_print_IndexedElement`: the subscripts are completed with `:` (`pyccel/ast/variable.py:687-706`)
and reversed unless the order is `"F"`.  `pyccel/codegen/printing/fcode.py:4053-4079` -/
def revUnlessF {α : Type} (o : Option Order) (l : List α) : List α :=
  if o = some .F then l else l.reverse

/-- `pyccel/ast/variable.py:697-703` -/
def pad (rank : Nat) (ss : List Sub) : List Sub := ss ++ List.replicate (rank - ss.length) .all

/-- The statements printed in Fortran.  `Allocate`: `fcode.py:2613-2630` (reversed unless `"F"`;
lower bound 0); `AliasAssign`: `fcode.py:2441-2462`, of the variable itself for `y = x.T`
(`pyccel/parser/semantic.py:5287-5292`); element: `fcode.py:4053-4120`; shape:
`PyccelArrayShapeElement`, `fcode.py:2079-2096` (rank 1 has no dimension argument, which is the same
as dimension 1).  `pyccel/codegen/printing/fcode.py:2591-2650` -/
def toF (Γ : Var → Ty) : Op → List FStmt
  | .full x shape o v =>
    [.allocate x ((revUnlessF (mkTy shape.length (some o)).order shape).map
      (fun (n : Nat) => ((0 : Int), (n : Int) - 1))), .assign x v]
  | .alias y x => [.point y (List.replicate (Γ y).rank 0) x none]
  | .trans y x => [.point y (List.replicate (Γ y).rank 0) x none]
  | .sub y x ss =>
    [.point y (List.replicate (Γ y).rank 0) x
      (some ((revUnlessF (Γ x).order (pad (Γ x).rank ss)).map fSub))]
  | .set x i v => [.store x ((revUnlessF (Γ x).order i).map Int.ofNat) v]
  | .get x i => [.print x ((revUnlessF (Γ x).order i).map Int.ofNat)]
  | .shape x k =>
    if (Γ x).rank = 1 then [.size x 1]
    else if (Γ x).order = some .C then [.size x ((Γ x).rank - (k : Int))]
    else [.size x ((k : Int) + 1)]

/-- A dimension of a Fortran array: lower bound, extent, stride. -/
structure FDim where
  lb : Int
  ext : Nat
  stride : Int
  deriving DecidableEq, Repr

/-- A Fortran array or pointer; `off` is the position of the element with the lower bounds as
indices. -/
structure FView where
  buf : Nat
  off : Int
  dims : List FDim
  deriving DecidableEq, Repr

/-- Allocation: contiguous, the first index varies fastest; an upper bound below the lower bound
makes an empty dimension (Fortran standard, 9.7.1.2 and 9.5.3.2). -/
def fAlloc (k : Nat) : List (Int × Int) → List FDim
  | [] => []
  | (l, u) :: bs => ⟨l, (u - l + 1).toNat, k⟩ :: fAlloc (k * (u - l + 1).toNat) bs

/-- Distance of an element; outside the bounds the program is not conforming (`none`). -/
def fAddr : List FDim → List Int → Option Int
  | [], [] => some 0
  | d :: ds, i :: is =>
    if d.lb ≤ i ∧ i < d.lb + d.ext then
      (fAddr ds is).map (fun a => (i - d.lb) * d.stride + a)
    else none
  | _, _ => none

/-- Number of elements of a triplet (Fortran standard, 9.5.3.3.2). -/
def triCount (lo hi step : Int) : Nat := ((hi - lo + step) / step).toNat

/-- An array section: as many subscripts as dimensions; a triplet that selects something must stay
within the bounds. -/
def fSelect : List FDim → List FSub → Option (Int × List FDim)
  | [], [] => some (0, [])
  | d :: ds, .at i :: ss =>
    if d.lb ≤ i ∧ i < d.lb + d.ext then
      (fSelect ds ss).map (fun r => ((i - d.lb) * d.stride + r.1, r.2))
    else none
  | d :: ds, .tri lo hi st :: ss =>
    let l := lo.getD d.lb
    let h := hi.getD (d.lb + d.ext - 1)
    if 0 < st ∧ (triCount l h st = 0 ∨ (d.lb ≤ l ∧ h < d.lb + d.ext)) then
      (fSelect ds ss).map
        (fun r => ((l - d.lb) * d.stride + r.1, ⟨1, triCount l h st, st * d.stride⟩ :: r.2))
    else none
  | _, _ => none

/-- Bounds remapping `y(l:, …) =>`: as many lower bounds as dimensions. -/
def rebase : List Int → List FDim → Option (List FDim)
  | [], [] => some []
  | l :: ls, d :: ds => (rebase ls ds).map (fun r => { d with lb := l } :: r)
  | _, _ => none

structure FState where
  vars : Var → Option FView := fun _ => none
  mem : Mem := {}

/-- Fortran; `none` is a program that is not conforming. -/
def fStep (s : FState) : FStmt → Option FState
  | .allocate x bs =>
    some ⟨put s.vars x (some ⟨s.mem.next, 0, fAlloc 1 bs⟩), s.mem.fresh 0⟩
  | .assign x v => do
    -- the whole array is its buffer: only used after `allocate`
    let w ← s.vars x
    pure { s with mem := { s.mem with val := fun c q => if c = w.buf then v else s.mem.val c q } }
  | .point y lbs x ss => do
    let w ← s.vars x
    let r ← match ss with
      | none => some (0, w.dims)
      | some ss => fSelect w.dims ss
    let ds ← rebase lbs r.2
    pure { s with vars := put s.vars y (some ⟨w.buf, w.off + r.1, ds⟩) }
  | .store x i v => do
    let w ← s.vars x
    let a ← fAddr w.dims i
    pure { s with mem := s.mem.write w.buf (w.off + a) v }
  | .print x i => do
    let w ← s.vars x
    let a ← fAddr w.dims i
    pure { s with mem := s.mem.print (s.mem.val w.buf (w.off + a)) }
  | .size x k => do
    let w ← s.vars x
    if 1 ≤ k then
      let d ← w.dims[(k - 1).toNat]?
      pure { s with mem := s.mem.print d.ext }
    else none

def fRun (s : FState) : List FStmt → Option FState
  | [] => some s
  | c :: cs => (fStep s c).bind (fun s' => fRun s' cs)

/-- A program translated to Fortran. -/
def compileF (Γ : Var → Ty) (ops : List Op) : List FStmt := ops.flatMap (toF Γ)

/-! ## C -/

/-- Subscripts of `cspan_slice`: `{i}`, `{c_ALL}`, `{a, b, s}`. -/
inductive CSub
  | at (i : Int)
  | all
  | sl (a b s : Int)
  deriving DecidableEq, Repr

/-- Statements of C. -/
inductive CStmt
  | alloc (x : Var) (col : Bool) (shape : List Nat)       -- malloc and cspan_md_layout
  | fill (x : Var) (v : Int)
  | slice (y x : Var) (ss : List CSub)                    -- y = cspan_slice(&x, type, ss)
  | transpose (y : Var)                                   -- cspan_transpose(&y)
  | store (x : Var) (i : List Int) (v : Int)              -- *cspan_at(&x, i) = v
  | print (x : Var) (i : List Int)
  | shape (x : Var) (k : Nat)                             -- x.shape[k]
  deriving DecidableEq, Repr

/-- `pyccel/codegen/printing/ccode.py:2220-2227` -/
def cSub : Sub → CSub
  | .at i => .at i
  | .all => .all
  | .sl a b s => .sl a b s

/-- The statements printed in C.  Allocation: `ccode.py:2505-2513`; `AliasAssign` of a variable:
`ccode.py:3395-3404` (transposed if the orders differ), of subscripts: `ccode.py:2212-2230`; element:
`ccode.py:2239-2290`; shape: `ccode.py:2420-2429`.  `pyccel/codegen/printing/ccode.py:2195-2513` -/
def toC (Γ : Var → Ty) : Op → List CStmt
  | .full x shape o v =>
    [.alloc x ((mkTy shape.length (some o)).order = some .F) shape, .fill x v]
  | .alias y x =>
    .slice y x (List.replicate (Γ y).rank .all)
      :: (if (Γ y).order ≠ (Γ x).order then [.transpose y] else [])
  | .trans y x =>
    .slice y x (List.replicate (Γ y).rank .all)
      :: (if (Γ y).order ≠ (Γ x).order then [.transpose y] else [])
  | .sub y x ss => [.slice y x ((pad (Γ x).rank ss).map cSub)]
  | .set x i v => [.store x (i.map Int.ofNat) v]
  | .get x i => [.print x (i.map Int.ofNat)]
  | .shape x k => [.shape x k]

/-- `cspan_md_layout` (STC): strides of a contiguous array. -/
def cLayout (col : Bool) (shape : List Nat) : List Dim :=
  if col then colMajor 1 shape else rowMajor shape

/-- `cspan_at` (STC): asserts that the indices are in range. -/
def cAddr : List Dim → List Int → Option Int
  | [], [] => some 0
  | d :: ds, i :: is =>
    if 0 ≤ i ∧ i < d.len then (cAddr ds is).map (fun a => i * d.stride + a) else none
  | _, _ => none

/-- `cspan_slice` (STC): one subscript for each dimension. -/
def cSelect : List Dim → List CSub → Option (Int × List Dim)
  | [], [] => some (0, [])
  | d :: ds, .at i :: ss =>
    if 0 ≤ i ∧ i < d.len then (cSelect ds ss).map (fun r => (i * d.stride + r.1, r.2)) else none
  | d :: ds, .all :: ss => (cSelect ds ss).map (fun r => (r.1, d :: r.2))
  | d :: ds, .sl a b s :: ss =>
    if 0 ≤ a ∧ a ≤ b ∧ b ≤ d.len ∧ 0 < s then
      (cSelect ds ss).map
        (fun r => (a * d.stride + r.1, ⟨((b - a + s - 1) / s).toNat, s * d.stride⟩ :: r.2))
    else none
  | _, _ => none

/-- C; `none` is a failed assertion or undefined behaviour. -/
def cStep (s : State) : CStmt → Option State
  | .alloc x col shape =>
    some ⟨put s.vars x (some ⟨s.mem.next, 0, cLayout col shape⟩), s.mem.fresh 0⟩
  | .fill x v => do
    let w ← s.vars x
    pure { s with mem := { s.mem with val := fun c q => if c = w.buf then v else s.mem.val c q } }
  | .slice y x ss => do
    let w ← s.vars x
    let r ← cSelect w.dims ss
    pure { s with vars := put s.vars y (some ⟨w.buf, w.off + r.1, r.2⟩) }
  | .transpose y => do
    let w ← s.vars y
    pure { s with vars := put s.vars y (some { w with dims := w.dims.reverse }) }
  | .store x i v => do
    let w ← s.vars x
    let a ← cAddr w.dims i
    pure { s with mem := s.mem.write w.buf (w.off + a) v }
  | .print x i => do
    let w ← s.vars x
    let a ← cAddr w.dims i
    pure { s with mem := s.mem.print (s.mem.val w.buf (w.off + a)) }
  | .shape x k => do
    let w ← s.vars x
    let d ← w.dims[k]?
    pure { s with mem := s.mem.print d.len }

def cRun (s : State) : List CStmt → Option State
  | [] => some s
  | c :: cs => (cStep s c).bind (fun s' => cRun s' cs)

/-- A program translated to C. -/
def compileC (Γ : Var → Ty) (ops : List Op) : List CStmt := ops.flatMap (toC Γ)

/-! ## Results -/

/-- `to_pyarray`: a NumPy array from the address of the first element, the lengths and the order; no
strides are passed, so NumPy computes those of a contiguous array (both flags are set for one
dimension).  In C the address and lengths are those of the span
(`pyccel/codegen/wrapper/c_to_python_wrapper.py:4014-4044`), in Fortran, for a result that points to
an argument, those of the pointer (`pyccel/codegen/wrapper/fortran_to_c_wrapper.py:1566-1573`).
`pyccel/stdlib/cwrapper/cwrapper.c:234-261` -/
def toPyArray (o : Option Order) (w : View) : View :=
  ⟨w.buf, w.off, cLayout (o = some .F) (w.dims.map (·.len))⟩

/-- Array element order (Fortran standard, 9.5.3.2): the indices, counted from 0, of the element at
position `p` of a contiguous array with these extents. -/
def nth : List Nat → Nat → List Nat
  | [], _ => []
  | n :: ns, p => p % n :: nth ns (p / n)

/-- A result that points to nothing of the caller, in Fortran: `ptr = x`, where `ptr` is memory of its
own seen as a Fortran array with the lengths reversed unless the order is `"F"`; the value then found
at position `p`.  `pyccel/codegen/wrapper/fortran_to_c_wrapper.py:1575-1597` -/
def copiedF (o : Option Order) (val : Int → Int) (w : FView) (shape : List Nat) (p : Nat) :
    Option Int :=
  (fAddr w.dims (((nth (revUnlessF o shape) p).zip w.dims).map (fun q => (q.1 : Int) + q.2.lb))).map
    (fun a => val (w.off + a))

end Verif.Layout.Model
