import Verif.Slices.Spec
import Verif.Loops.Model
/-
Model of the index and slice translation (one dimension, then all dimensions for Fortran).
-/
namespace Verif.Slices
open Spec Verif.Loops

/-- An index expression as the printers distinguish them: `LiteralInteger`,
`PyccelUnarySub(LiteralInteger)`, or any other expression (with its run-time value). -/
inductive Ex | lit (k : Nat) | neg (k : Nat) | dyn (v : Int)
deriving DecidableEq, Repr

/-- Run-time value of the expression. -/
def Ex.val : Ex → Int
  | .lit k => k
  | .neg k => -(k : Int)
  | .dyn v => v

/-- `convert_to_literal` on an integer: a literal or a negated literal. -/
def Ex.ofInt (i : Int) : Ex := if i < 0 then .neg i.natAbs else .lit i.toNat

/-- The known length of the dimension: a literal or a run-time value. -/
structure Dim where
  n : Nat
  isLit : Bool

/-- `make_positive` on an index: pyccel/ast/variable.py:721-727.  `int(idx) < 0` only succeeds on
negated literals; the sum is a literal if the shape is. -/
def makePositive (d : Dim) : Ex → Ex
  | .neg k =>
    if -(k : Int) < 0 then
      (if d.isLit then Ex.ofInt ((d.n : Int) - k) else .dyn ((d.n : Int) - k))
    else .neg k
  | e => e

/-- The index printed by the C printer for dimension `d`:
pyccel/codegen/printing/ccode.py:2234-2251, after `make_positive` (variable.py:729-731). -/
def cIndex (d : Dim) (allowNeg : Bool) (e : Ex) : Int :=
  match makePositive d e with
  | .lit k => k
  | .neg k =>
    if -(k : Int) < 0 then (d.n : Int) - k
    else if allowNeg then (if -(k : Int) < 0 then (d.n : Int) + -(k : Int) else -(k : Int))
    else -(k : Int)
  | .dyn v => if allowNeg then (if v < 0 then (d.n : Int) + v else v) else v

/-- The 0-based index printed by the Fortran printer for dimension `d`:
pyccel/codegen/printing/fcode.py:4076-4098. -/
def fIndex (d : Dim) (allowNeg : Bool) (e : Ex) : Int :=
  match makePositive d e with
  | .lit k => k
  | .neg k => (d.n : Int) - k
  | .dyn v => if allowNeg then (if v < 0 then (d.n : Int) + v else v) else v

/-- The 1-based position used for lists in Fortran: fcode.py:4100-4107. -/
def fListIndex (d : Dim) (allowNeg : Bool) (e : Ex) : Int := fIndex d allowNeg e + 1

/-- All the indices of one access in Fortran: fcode.py:4063-4098.  `dims` are the dimensions of
the (condensed) base in Python order; `cBase` says the condensed base is not `"F"` ordered (its
indices are reversed); `cExpr` says that `expr.base.order == "C"` (which selects the dimension
whose size is used).  The result is in printed order (`none`: no such dimension). -/
def fIndices (dims : List Dim) (allowNeg cBase cExpr : Bool) (inds : List Ex) :
    List (Option Int) :=
  let n := inds.length
  -- `make_positive` ran at construction, with the dimension each index belongs to
  let inds := (dims.zip inds).map fun p => makePositive p.1 p.2
  let inds := if cBase then inds.reverse else inds
  (List.range n).map fun (i : Nat) =>
    match inds[i]?, dims[if cExpr then n - i - 1 else i]? with
    | some e, some d => some (match e with
      | .lit k => (k : Int)
      | .neg k => (d.n : Int) - k
      | .dyn v => if allowNeg then (if v < 0 then (d.n : Int) + v else v) else v)
    | _, _ => none

/-- A syntactic slice `start:stop:step`. -/
structure Sl where
  start : Option Ex
  stop : Option Ex
  step : Option Ex
deriving DecidableEq, Repr

/-- `unpack_bound`: pyccel/ast/variable.py:747-762. -/
def unpackBound (n : Int) (allowNeg : Bool) (default : Int) : Option Ex → Int
  | none => default
  | some (.neg k) => if -(k : Int) < 0 then -(k : Int) + n else -(k : Int)
  | some (.lit k) => k
  | some (.dyn v) => if allowNeg then (if v < 0 then v + n else v) else v

/-- The shape computed for a slice of one dimension: variable.py:764-793.  The quotient is taken
in exact arithmetic (the generated code uses a double-precision division). -/
def sliceLen (n : Nat) (allowNeg : Bool) (s : Sl) : Int :=
  match s.step with
  | some (.neg k) =>
    if -(k : Int) < 0 then
      let a := unpackBound n allowNeg (-1) s.stop
      let b := unpackBound n allowNeg (n - 1) s.start
      ceilDiv (b - a) k
    else
      let a := unpackBound n allowNeg 0 s.start
      let b := unpackBound n allowNeg n s.stop
      ceilDiv (if allowNeg then ((b - a).natAbs : Int) else b - a) (-(k : Int))
  | st =>
    let a := unpackBound n allowNeg 0 s.start
    let b := unpackBound n allowNeg n s.stop
    match st with
    | none => b - a
    | some e => ceilDiv (if allowNeg then ((b - a).natAbs : Int) else b - a) e.val

/-- A run-time value may only be negative if negative indices were allowed. -/
def Ex.Ok (allowNeg : Bool) : Ex → Prop
  | .dyn v => allowNeg = true ∨ 0 ≤ v
  | .neg k => 0 < k
  | .lit _ => True

instance (an : Bool) (e : Ex) : Decidable (e.Ok an) := by
  cases e <;> unfold Ex.Ok <;> infer_instance

/-- Run-time value of the step of a slice. -/
def Sl.st (s : Sl) : Int := (s.step.map Ex.val).getD 1
/-- First position and end of an increasing slice, last and first of a decreasing one. -/
def Sl.lo (s : Sl) (_n : Nat) : Int := (s.start.map fun e => wrapV _n e.val).getD 0
def Sl.hi (s : Sl) (n : Nat) : Int := (s.stop.map fun e => wrapV n e.val).getD n
def Sl.loN (s : Sl) (n : Nat) : Int := (s.stop.map fun e => wrapV n e.val).getD (-1)
def Sl.hiN (s : Sl) (n : Nat) : Int := (s.start.map fun e => wrapV n e.val).getD (n - 1)

/-- Slices with a positive step whose bounds are inside the sequence and in order. -/
def Sl.PosOk (s : Sl) (n : Nat) (an : Bool) : Prop :=
  (∀ e, s.step = some e → 0 < e.val) ∧
  (∀ e, s.start = some e → e.Ok an ∧ 0 ≤ wrapV n e.val ∧ wrapV n e.val ≤ n) ∧
  (∀ e, s.stop = some e → e.Ok an ∧ 0 ≤ wrapV n e.val ∧ wrapV n e.val ≤ n) ∧
  s.lo n ≤ s.hi n

/-- Slices with a negative step whose bounds are inside the sequence and in order. -/
def Sl.NegOk (s : Sl) (n : Nat) (an : Bool) : Prop :=
  (∃ e, s.step = some e ∧ e.val < 0) ∧
  (∀ e, s.start = some e → e.Ok an ∧ 0 ≤ wrapV n e.val ∧ wrapV n e.val < n) ∧
  (∀ e, s.stop = some e → e.Ok an ∧ 0 ≤ wrapV n e.val ∧ wrapV n e.val < n) ∧
  s.loN n ≤ s.hiN n

/-- `make_positive` on a slice: variable.py:715-720. -/
def makePositiveSl (d : Dim) (s : Sl) : Sl :=
  { s with start := s.start.map (makePositive d), stop := s.stop.map (makePositive d) }

/-- A start or stop bound processed for C: pyccel/codegen/printing/ccode.py:2350-2384. -/
def cBound (n : Int) (allowNeg : Bool) : Option Ex → Option Int
  | none => none
  | some (.neg k) => some (n - k)
  | some (.lit k) => some k
  | some (.dyn v) => some (if allowNeg then (if v < 0 then n + v else v) else v)

/-- `_new_slice_with_processed_arguments` of the C printer followed by `_print_Slice`:
ccode.py:2326-2410 and 2578-2592.  `none` is `NotImplementedError` (negative or possibly negative
step).  The triple is what is passed to `cspan_slice`: `c_ALL`/`c_END` mean the whole dimension. -/
def cSlice (d : Dim) (allowNeg : Bool) (s : Sl) : Option (Int × Int × Int) :=
  let s := makePositiveSl d s
  let start := (cBound d.n allowNeg s.start).getD 0
  let stop := (cBound d.n allowNeg s.stop).getD d.n
  match s.step with
  | none => some (start, stop, 1)
  | some (.neg _) => none
  | some (.lit k) => some (start, stop, k)
  | some (.dyn v) => if allowNeg then none else some (start, stop, v)

/-- Contract assumed of STC's `cspan_slice` (a dependency whose source is not in the repository):
`{start, stop, step}` requires `0 ≤ start < stop ≤ n` and `0 < step` (asserted) and selects
`start, start + step, … < stop`. -/
def cspanElems (n : Nat) (t : Int × Int × Int) : Option (List Int) :=
  let (a, b, s) := t
  if 0 ≤ a ∧ a < b ∧ b ≤ n ∧ 0 < s then
    some ((List.range ((b - a - 1) / s + 1).toNat).map fun (k : Nat) => a + s * k)
  else none

/-- A start or stop bound processed for Fortran: fcode.py:4150-4178. -/
def fBound (n : Int) (allowNeg : Bool) : Option Ex → Option Int
  | none => none
  | some (.neg k) => some (n - k)
  | some (.lit k) => some k
  | some (.dyn v) => some (if allowNeg then (if v < 0 then n + v else v) else v)

/-- `_new_slice_with_processed_arguments` of the Fortran printer followed by `_print_Slice`:
fcode.py:4124-4236.  An omitted bound is the declared bound of the array (`0` and `n - 1`), an
omitted stride is 1. -/
def fSlice (d : Dim) (allowNeg : Bool) (s : Sl) : Int × Int × Int :=
  let s := makePositiveSl d s
  let n : Int := d.n
  let start := fBound n allowNeg s.start
  let stop := fBound n allowNeg s.stop
  match s.step with
  | some (.neg k) =>
    (start.getD (n - 1), (stop.map (· + 1)).getD 0, -(k : Int))
  | some (.dyn v) =>
    if allowNeg then
      (start.getD (if v > 0 then 0 else n - 1),
       match stop with
       | none => if v > 0 then n - 1 else 0
       | some b => if v > 0 then b else b + 1, v)
    else (start.getD 0, (stop.map (· - 1)).getD (n - 1), v)
  | some (.lit k) => (start.getD 0, (stop.map (· - 1)).getD (n - 1), k)
  | none => (start.getD 0, (stop.map (· - 1)).getD (n - 1), 1)

/-- Elements selected by a Fortran subscript triplet (F2018 9.5.3.3.1, 0-based declaration). -/
def tripletElems (t : Int × Int × Int) : List Int :=
  (List.range (doCount t.1 t.2.1 t.2.2)).map fun (k : Nat) => t.1 + t.2.2 * k

/-- Indexing a slice with one index: `IndexedElement.__getitem__`,
pyccel/ast/variable.py:882-903; the new index is then passed to `IndexedElement(base, …)`, which
applies `make_positive` with the size of the *base* if it is a negated literal.  The slice has
been through `make_positive` already. -/
def indexOfSlice (d : Dim) (s : Sl) (j : Ex) : Ex :=
  let s := makePositiveSl d s
  let st := s.step.getD (.lit 1)
  let incr : Ex := if st = .lit 1 then j else .dyn (st.val * j.val)
  match s.start with
  | some a => if a = .lit 0 ∨ a = .neg 0 then incr else .dyn (a.val + incr.val)
  | none =>
    match st with
    | .neg k =>
      if -(k : Int) < 0 then
        match s.stop with
        | none => .dyn ((d.n : Int) - 1 + incr.val)
        | some b => .dyn (b.val + incr.val)
      else incr
    | _ => incr

/-- Slicing a tuple with elements of different types: pyccel/parser/semantic.py:1246-1264: only
`start` and `stop` are used (`slice(arg.start, arg.stop)`). The positions selected. -/
def tupleSlice (n : Nat) (s : Sl) : List Int :=
  let t := pyIndices n (s.start.map Ex.val) (s.stop.map Ex.val) none
  (List.range (t.2.1 - t.1).toNat).map fun (k : Nat) => t.1 + k

end Verif.Slices
