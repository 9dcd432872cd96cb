import Verif.Display.Spec

/-!
# `x = np.array(…)`: the C code
-/

namespace Verif.Display.Model
open Verif.Display.Spec

/-- A statement `x[pos] = rhs;` of the generated code.
`pyccel/codegen/printing/ccode.py:612, 635-636, 3381-3386`, `pyccel/stdlib/STC_Extensions/CSpan_extensions.h:11` -/
structure Write where
  pos : Ix
  rhs : Elem
  deriving DecidableEq, Repr

/-- The generated statements, one after the other. -/
def run (x : Name) : List Write → Mem → Mem
  | [], m => m
  | w :: ws, m => run x ws fun y i => if y = x ∧ i = w.pos then w.rhs.val m else m y i

/-- All subscripts of an array, the last one changing first: `product(*[range(s) for s in shape])`, and
the order in which the iterators of `cspan` visit the elements of an array of any memory layout (an
assumption: STC is not in the repository).
`pyccel/codegen/printing/ccode.py:626-631`, `pyccel/stdlib/STC_Extensions/CSpan_extensions.h:4-13` -/
def allIx : List Nat → List Ix
  | [] => [[]]
  | n :: s => (List.range n).flatMap fun k => (allIx s).map (k :: ·)

mutual
/-- `variables` is not empty: an array occurs in the argument, also with subscripts.
`pyccel/codegen/printing/ccode.py:570-574` -/
def hasArray : Data → Bool
  | .num e => !e.reads.isEmpty
  | .view _ => true
  | .list ds => hasArrays ds
/-- The same for the members of a list.  `pyccel/codegen/printing/ccode.py:570-574` -/
def hasArrays : List Data → Bool
  | [] => false
  | d :: ds => hasArray d || hasArrays ds
end

/-- `get_shape_of_multi_level_container`: the shape of the first member counts.
`pyccel/ast/numpyext.py:234-254` -/
def shapeOf : Data → List Nat
  | .num _ => []
  | .view v => v.shape
  | .list [] => [0]
  | .list (d :: ds) => (ds.length + 1) :: shapeOf d

mutual
/-- `_flatten_list`.  Only used for arguments without arrays.
`pyccel/codegen/printing/ccode.py:509-539` -/
def flatten : Data → List Elem
  | .num e => [e]
  | .view _ => []
  | .list ds => flattens ds
/-- The same for the members of a list.  `pyccel/codegen/printing/ccode.py:533-534` -/
def flattens : List Data → List Elem
  | [] => []
  | d :: ds => flatten d ++ flattens ds
end

mutual
/-- `copy_NumpyArray_Data(lhs, rhs)`, where `lhs` has the shape `s` and stands for `x[pre, …]`; `none`: an
assertion fails, or the code does not compile.

* an array: `cspan_copy`, which stops at the end of the shorter one (578-595);
* a list in which arrays occur: member by member (600-613); a member that is a number must meet an element
  (the shape of a number is asked for otherwise, 606, `pyccel/ast/numpyext.py:235`);
* another list: all elements at once (615-638); with too few subscripts on the left-hand side a slice is
  assigned a number.

Simplifications: one type of numbers; members of rank 1 or more are arrays or slices (operators on arrays
raise an exception in 602); lists are not variables.
`pyccel/codegen/printing/ccode.py:542-638` -/
def copy (s : List Nat) (pre : Ix) : Data → Option (List Write)
  | .num e => if s = [] then some [⟨pre, e⟩] else none
  | .view v =>
    if s = [] then none
    else some (((allIx s).zip (allIx v.shape)).map fun p => ⟨pre ++ p.1, .at v.base (v.pos p.2)⟩)
  | .list ds =>
    match s with
    | [] => none
    | n :: s' =>
      if hasArrays ds then copies n s' pre 0 ds
      else if (shapeOf (.list ds)).length = s'.length + 1 then
        some (((allIx (shapeOf (.list ds))).zip (flattens ds)).map fun p => ⟨pre ++ p.1, p.2⟩)
      else none
/-- `for li, ri in zip(lhs, arg)`: from member `k` on; `lhs` has `n` members of shape `s`.
`pyccel/codegen/printing/ccode.py:602-613`, `pyccel/ast/variable.py:507-521` -/
def copies (n : Nat) (s : List Nat) (pre : Ix) (k : Nat) : List Data → Option (List Write)
  | [] => some []
  | d :: ds =>
    if k < n then
      match copy s (pre ++ [k]) d, copies n s pre (k + 1) ds with
      | some a, some b => some (a ++ b)
      | _, _ => none
    else some []
end

/-- The shape of `np.array(d, ndmin=…)`: `pad` times 1 and the shape of `d`.
`pyccel/ast/numpyext.py:972-979` -/
def arrayShape (pad : Nat) (d : Data) : List Nat := List.replicate pad 1 ++ shapeOf d

/-- `x = np.array(d, ndmin=…)` where `x` is new, or has the same shape and is therefore not allocated
again (shapes that are literal numbers).  `none`: not translated.
`pyccel/codegen/printing/ccode.py:3373-3374`, `pyccel/parser/semantic.py:2746-2770` -/
def assign (x : Name) (pad : Nat) (d : Data) (m : Mem) : Option Mem :=
  (copy (arrayShape pad d) [] d).map fun ws => run x ws m

end Verif.Display.Model
