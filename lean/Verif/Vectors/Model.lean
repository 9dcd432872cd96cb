import Verif.Vectors.Spec

/-!
# Whole-array statements: model

`collect_loops`, `insert_index`, `compatible_operation` and `insert_fors` of
`pyccel/ast/utilities.py`, and the meaning of the loops they make.  Left out: everything but
assignments, reductions of a reference being the only functions that are not applied element by
element; `AugAssign` (which goes the same way, with the left-hand side among the operands); strings;
`np.cross`; concatenation and repetition; left-hand sides with more dimensions than the list or tuple
on the right; variables that share memory.
-/

namespace Verif.Vectors.Model
open Spec

/-- An index that is put into a slice: `LiteralInteger(j)`, or the variable of the loop at a level.
`pyccel/ast/utilities.py:316-442` -/
inductive Ix
  | lit (j : Nat)
  | lvl (k : Nat)
  deriving DecidableEq, Repr

/-- A subscript with an index in the place of a slice.  `pyccel/ast/utilities.py:396-427` -/
inductive LSub
  | at (k : Nat)
  | sl (start step : Option Int) (len : Size)
  | ix (start step : Option Int) (i : Ix)
  deriving DecidableEq, Repr

/-- `Variable` and `IndexedElement`, and (with `trans`) `NumpyTranspose` of one; a whole variable is
written with full slices, which `insert_index` treats in the same way.
`pyccel/ast/utilities.py:360-384` -/
structure LRef where
  var : Var
  subs : List LSub
  trans : Bool
  deriving DecidableEq, Repr

/-- Right-hand sides during the lowering; `tmp` is a temporary variable that holds the result of a
reduction.  `pyccel/ast/utilities.py:668-705` -/
inductive LEx
  | lit (z : Int)
  | ref (r : LRef)
  | red (g : List Int → Int) (r : Ref)
  | tmp (k : Nat)
  | un (f : Int → Int) (e : LEx)
  | bin (f : Int → Int → Int) (a b : LEx)

/-- `Assign`.  `pyccel/ast/utilities.py:536-542` -/
structure Line where
  lhs : LRef
  rhs : LEx

/-- Statements that are not loops: assignments, assignments of a tuple that are kept, and the
assignments of temporaries.  `pyccel/ast/utilities.py:666-699, 799-800` -/
inductive Item
  | line (l : Line)
  | tuple (lhs : LRef) (es : List LEx)
  | tmp (k : Nat) (g : List Int → Int) (r : Ref)

mutual
/-- A member of the list `collect_loops` returns: a statement or a `LoopCollection`.
`pyccel/ast/utilities.py:447` -/
inductive Tree
  | item (i : Item)
  | loop (len : Size) (body : Forest)
/-- A list of them, which grows at the end.  `pyccel/ast/utilities.py:451-500` -/
inductive Forest
  | nil
  | snoc (f : Forest) (t : Tree)
end

/-! ## References -/

/-- A subscript as it is written.  `pyccel/ast/variable.py:664-712` -/
def lowerSub : Sub → LSub
  | .at k => .at k
  | .sl a b n => .sl a b n

/-- `pyccel/ast/variable.py:664-712` -/
def lowerRef (trans : Bool) (r : Ref) : LRef := ⟨r.var, r.subs.map lowerSub, trans⟩

/-- A right-hand side as `collect_loops` finds it.  `pyccel/ast/utilities.py:536-542` -/
def lowerEx : Ex → LEx
  | .lit z => .lit z
  | .ref r => .ref (lowerRef false r)
  | .tr r => .ref (lowerRef true r)
  | .un f e => .un f (lowerEx e)
  | .bin f a b => .bin f (lowerEx a) (lowerEx b)
  | .red g r => .red g r

/-- The sizes of the remaining slices.  `pyccel/ast/variable.py:734-784` -/
def llens : List LSub → List Size
  | [] => []
  | .sl _ _ n :: ss => n :: llens ss
  | _ :: ss => llens ss

/-- `shape`.  `pyccel/ast/variable.py:734-784`; `NumpyTranspose`, `pyccel/ast/numpyext.py` -/
def LRef.shape (r : LRef) : List Size :=
  if r.trans then (llens r.subs).reverse else llens r.subs

/-- `rank`.  `pyccel/ast/variable.py:784` -/
def LRef.rank (r : LRef) : Nat := (llens r.subs).length

/-- `indices[pos] = index_var`, with the start and the step of the slice; `p` is the number of slices
before that one.  `pyccel/ast/utilities.py:404-430` -/
def fillAt (i : Ix) : Nat → List LSub → List LSub
  | _, [] => []
  | 0, .sl a b _ :: ss => .ix a b i :: ss
  | p + 1, .sl a b n :: ss => .sl a b n :: fillAt i p ss
  | p, s :: ss => s :: fillAt i p ss

/-- `insert_index(expr, -pos, index_var)`.  `pos` counts from the right, over the slices that remain;
for `NumpyTranspose` the position in the array inside it is `expr.rank - 1 + pos`.
`pyccel/ast/utilities.py:353-430` -/
def insertIndex (pos : Nat) (i : Ix) (r : LRef) : LRef :=
  if r.rank = 0 ∨ r.rank < pos then r
  else
    let i := if r.shape[r.rank - pos]? = some (.lit 1) then .lit 0 else i
    if r.trans then { r with subs := fillAt i (r.rank - (pos + 1 - r.rank)) r.subs }
    else { r with subs := fillAt i (r.rank - pos) r.subs }

/-! ## Lines -/

/-- The references outside reductions: `variables` and `transposed_vars`.
`pyccel/ast/utilities.py:574-624` -/
def LEx.refs : LEx → List LRef
  | .lit _ => []
  | .ref r => [r]
  | .red _ _ => []
  | .tmp _ => []
  | .un _ e => e.refs
  | .bin _ a b => a.refs ++ b.refs

/-- `substitute(variables, new_vars)`.  `pyccel/ast/utilities.py:736-757` -/
def LEx.map (f : LRef → LRef) : LEx → LEx
  | .lit z => .lit z
  | .ref r => .ref (f r)
  | .red g r => .red g r
  | .tmp k => .tmp k
  | .un h e => .un h (e.map f)
  | .bin h a b => .bin h (a.map f) (b.map f)

/-- `pyccel/ast/utilities.py:574-624` -/
def Line.refs (l : Line) : List LRef := l.lhs :: l.rhs.refs

/-- `pyccel/ast/utilities.py:736-757` -/
def Line.map (f : LRef → LRef) (l : Line) : Line := ⟨f l.lhs, l.rhs.map f⟩

/-- `len(set(l)) <= 1`.  `pyccel/ast/utilities.py:277` -/
def same {α : Type} [DecidableEq α] : List α → Bool
  | [] => true
  | a :: l => l.all (· = a)

/-- `tuple(d if d == 1 else -1 for d in shape)`.  The shapes of arrays of order `F` are reversed in
the code, which makes no difference: arrays of two orders are not compatible anyway.
`pyccel/ast/utilities.py:270-276` -/
def pattern (r : LRef) : List Bool := r.shape.map (· = .lit 1)

/-- `order`: only arrays with several dimensions have one, and transposing swaps it; `F` says which
arrays have order `F`.  `pyccel/ast/utilities.py:277` -/
def order (F : Var → Bool) (r : LRef) : Option Bool :=
  if r.rank < 2 then none else some (F r.var != r.trans)

/-- `compatible_operation`.  `pyccel/ast/utilities.py:241-281` -/
def compatible (hv : Bool) (F : Var → Bool) (rs : List LRef) : Bool :=
  if hv then
    same ((rs.filter (·.rank ≠ 0)).map pattern) && same (rs.filterMap (order F))
  else rs.all (·.rank = 0)

/-- The loop over `index_depth`: indices are inserted, starting with the first dimension of the
left-hand side, until the operation is compatible.  `p` is the number of positions left, `d` the
number of indices that were inserted.  `pyccel/ast/utilities.py:716-733` -/
def descend (hv : Bool) (F : Var → Bool) : Nat → Nat → Line → Nat × Line
  | 0, d, l => (d, l)
  | p + 1, d, l =>
    let l' := l.map (insertIndex (p + 1) (.lvl d))
    if compatible hv F l'.refs then (d + 1, l') else descend hv F p (d + 1) l'

/-- Function calls are replaced by temporary variables.  `pyccel/ast/utilities.py:675-705` -/
def extract : LEx → Nat → LEx × List Item × Nat
  | .lit z, n => (.lit z, [], n)
  | .ref r, n => (.ref r, [], n)
  | .tmp k, n => (.tmp k, [], n)
  | .red g r, n => (.tmp n, [.tmp n g r], n + 1)
  | .un f e, n => let x := extract e n; (.un f x.1, x.2.1, x.2.2)
  | .bin f a b, n =>
    let x := extract a n
    let y := extract b x.2.2
    (.bin f x.1 y.1, x.2.1 ++ y.2.1, y.2.2)

/-! ## Loops -/

/-- `LoopCollection`s around a line.  `pyccel/ast/utilities.py:774-781` -/
def nest : List Size → Line → Tree
  | [], l => .item (.line l)
  | s :: ss, l => .loop s (.snoc .nil (nest ss l))

/-- The search for a loop to put a line into: at most `k` levels down, always into the last loop, as
long as the lengths agree.  `save_spot[-1].length` raises an exception if the last member is not a
loop.  The test of `modified_vars` is left out: there are dependencies only if there are temporary
variables, and then `current_level` is `0`.  `pyccel/ast/utilities.py:759-781` -/
def place : Nat → List Size → Line → Forest → Option Forest
  | k + 1, s :: ss, l, .snoc f (.loop len body) =>
    if len = s then (place k ss l body).map fun b => f.snoc (.loop len b)
    else some ((f.snoc (.loop len body)).snoc (nest (s :: ss) l))
  | _ + 1, _ :: _, _, .snoc _ (.item _) => none
  | _ + 1, _ :: _, _, .nil => none
  | 0, ss, l, f => some (f.snoc (nest ss l))
  | _ + 1, [], l, f => some (f.snoc (nest [] l))

/-- `result.extend`.  `pyccel/ast/utilities.py:702` -/
def extend (f : Forest) : List Item → Forest
  | [] => f
  | i :: is => extend (f.snoc (.item i)) is

/-- `result`, `current_level` and the number of temporaries.  `pyccel/ast/utilities.py:493-495` -/
structure Acc where
  result : Forest
  cur : Nat
  tmps : Nat

/-- One assignment.  `pyccel/ast/utilities.py:543-785` -/
def addLine (hv : Bool) (F : Var → Bool) (a : Acc) (l : Line) : Option Acc :=
  if compatible hv F l.refs then
    some ⟨a.result.snoc (.item (.line l)), 0, a.tmps⟩
  else
    let x := extract l.rhs a.tmps
    let cur := if x.2.1.isEmpty then a.cur else 0
    let d := descend hv F l.lhs.rank 0 ⟨l.lhs, x.1⟩
    (place (min d.1 cur) (l.lhs.shape.take d.1) d.2 (extend a.result x.2.1)).map fun f =>
      ⟨f, d.1, x.2.2⟩

/-- Lines one after the other.  `pyccel/ast/utilities.py:513` -/
def addLines (hv : Bool) (F : Var → Bool) (a : Acc) : List Line → Option Acc
  | [] => some a
  | l :: ls => (addLine hv F a l).bind fun a' => addLines hv F a' ls

/-- The assignments `lhs[j] = rhs[j]`.  `pyccel/ast/utilities.py:821-829` -/
def elemLines (lhs : Ref) : Nat → List Ex → List Line
  | _, [] => []
  | j, e :: es =>
    ⟨insertIndex lhs.shape.length (.lit j) (lowerRef false lhs), lowerEx e⟩ :: elemLines lhs (j + 1) es

/-- One statement of the block.  The element by element assignments have a `current_level` of their
own, and the one of the block stays as it was.  `pyccel/ast/utilities.py:513-834` -/
def addStmt (hv : Bool) (F : Var → Bool) (a : Acc) : Stmt → Option Acc
  | .set lhs rhs => addLine hv F a ⟨lowerRef false lhs, lowerEx rhs⟩
  | .elems list lhs e₀ es =>
    if !hv || list then
      (addLines hv F { a with cur := 0 } (elemLines lhs 0 (e₀ :: es))).map fun a' =>
        { a' with cur := a.cur }
    else
      some { a with result := a.result.snoc (.item (.tuple (lowerRef false lhs) ((e₀ :: es).map lowerEx))) }

/-- The lines of the block.  `pyccel/ast/utilities.py:513` -/
def addStmts (hv : Bool) (F : Var → Bool) (a : Acc) : List Stmt → Option Acc
  | [] => some a
  | s :: b => (addStmt hv F a s).bind fun a' => addStmts hv F a' b

/-- `collect_loops`; `none` stands for an exception.  `pyccel/ast/utilities.py:451-896` -/
def collect (hv : Bool) (F : Var → Bool) (b : List Stmt) : Option Forest :=
  (addStmts hv F ⟨.nil, 0, 0⟩ b).map (·.result)

mutual
/-- The generated statements.  `pyccel/ast/utilities.py:945-949` -/
inductive Code
  | item (i : Item)
  | for (lvl : Nat) (len : Size) (body : Codes)
/-- Lists of them.  `pyccel/ast/utilities.py:931-943` -/
inductive Codes
  | nil
  | cons (c : Code) (cs : Codes)
end

/-- `pyccel/ast/utilities.py:941` -/
def Codes.append : Codes → Codes → Codes
  | .nil, ds => ds
  | .cons c cs, ds => .cons c (cs.append ds)

/-- `substitute(indices[level], LiteralInteger(0))` in a subscript.
`pyccel/ast/utilities.py:944-946` -/
def LSub.zero (k : Nat) : LSub → LSub
  | .ix a b i => .ix a b (if i = .lvl k then .lit 0 else i)
  | s => s

/-- The same in a reference.  `pyccel/ast/utilities.py:944-946` -/
def LRef.zero (k : Nat) (r : LRef) : LRef := { r with subs := r.subs.map (LSub.zero k) }

/-- `pyccel/ast/utilities.py:944-946` -/
def Item.zero (k : Nat) : Item → Item
  | .line l => .line (l.map (·.zero k))
  | .tuple l es => .tuple (l.zero k) (es.map (·.map (·.zero k)))
  | .tmp n g r => .tmp n g r

mutual
/-- `pyccel/ast/utilities.py:944-946` -/
def Code.zero (k : Nat) : Code → Code
  | .item i => .item (i.zero k)
  | .for j n b => .for j n (b.zero k)
/-- `pyccel/ast/utilities.py:944-946` -/
def Codes.zero (k : Nat) : Codes → Codes
  | .nil => .nil
  | .cons c cs => .cons (c.zero k) (cs.zero k)
end

mutual
/-- `insert_fors`: a loop of the literal length `1` becomes its body, with `0` for the index.
`pyccel/ast/utilities.py:902-949` -/
def Tree.fors (level : Nat) : Tree → Codes
  | .item i => .cons (.item i) .nil
  | .loop n b =>
    if n = .lit 1 then (b.fors (level + 1)).zero level
    else .cons (.for level n (b.fors (level + 1))) .nil
/-- `pyccel/ast/utilities.py:931-943, 1084-1087` -/
def Forest.fors (level : Nat) : Forest → Codes
  | .nil => .nil
  | .snoc f t => (f.fors level).append (t.fors level)
end

/-- `expand_to_loops`.  `pyccel/ast/utilities.py:1032-1089` -/
def expand (hv : Bool) (F : Var → Bool) (b : List Stmt) : Option Codes :=
  (collect hv F b).map (·.fors 0)

/-! ## The generated code

`none` stands for an access outside an array, or for operands that do not have the same shape. -/

/-- The arrays and the temporary variables. -/
structure St where
  σ : Store
  t : Nat → Int

/-- The values of the loop variables. -/
abbrev Env := Nat → Nat

/-- `pyccel/ast/utilities.py:353-430` -/
def Ix.val (env : Env) : Ix → Nat
  | .lit j => j
  | .lvl k => env k

/-- `index_var * step + start`; a negative literal `start` is counted from the end.
`pyccel/ast/utilities.py:414-426` -/
def offset (W : World) (d : Size) (start step : Option Int) (i : Nat) : Int :=
  (match start with
   | none => 0
   | some k => if k < 0 then d.val W.ρ + k else k) + step.getD 1 * i

/-- The element a reference stands for.  In the slices that remain (in Fortran code), the elements are
those Python selects (C16); they are not repeated.  `pyccel/codegen/printing/ccode.py:2195-2281`,
`pyccel/codegen/printing/fcode.py` -/
def llocate (W : World) (env : Env) : List (Size × LSub) → List Nat → List Int
  | [], _ => []
  | (_, .at k) :: ds, jx => k :: llocate W env ds jx
  | (d, .ix a b i) :: ds, jx => offset W d a b (i.val env) :: llocate W env ds jx
  | (d, .sl a b _) :: ds, j :: jx =>
    (first (d.val W.ρ) a b + b.getD 1 * j) :: llocate W env ds jx
  | (_, .sl _ _ _) :: _, [] => []

/-- `pyccel/codegen/printing/ccode.py:2195-2281` -/
def LRef.at (W : World) (env : Env) (jx : List Nat) (r : LRef) : Loc :=
  (r.var, llocate W env ((W.shape r.var).zip r.subs) (if r.trans then jx.reverse else jx))

/-- The value of an expression at one index of the dimensions that remain. -/
def LEx.eval (W : World) (env : Env) (st : St) (jx : List Nat) : LEx → Option Int
  | .lit z => some z
  | .ref r => read W st.σ (r.at W env jx)
  | .red g r => ((box (r.dims W)).mapM fun jx => read W st.σ (r.at W jx)).map g
  | .tmp k => some (st.t k)
  | .un f e => (e.eval W env st jx).map f
  | .bin f a b => do return f (← a.eval W env st jx) (← b.eval W env st jx)

/-- The shape of the remaining dimensions. -/
def LRef.dims (W : World) (r : LRef) : List Nat := r.shape.map (·.val W.ρ)

/-- Operands are scalars or have the shape of the left-hand side. -/
def Conforms (W : World) (to : List Nat) (rs : List LRef) : Prop :=
  ∀ r ∈ rs, r.dims W = [] ∨ r.dims W = to

instance (W : World) (to : List Nat) (rs : List LRef) : Decidable (Conforms W to rs) := by
  unfold Conforms; infer_instance

/-- A statement: an assignment of scalars, or (in Fortran) of arrays, which evaluates the right-hand
side first. -/
def Item.run (W : World) (env : Env) (st : St) : Item → Option St
  | .line l =>
    if Conforms W (l.lhs.dims W) l.rhs.refs then do
      let zs ← (box (l.lhs.dims W)).mapM fun jx => l.rhs.eval W env st jx
      let σ ← stores W st.σ (((box (l.lhs.dims W)).map fun jx => l.lhs.at W env jx).zip zs)
      return { st with σ := σ }
    else none
  | .tuple lhs es =>
    if lhs.dims W = [es.length] ∧ ∀ e ∈ es, Conforms W [] e.refs then do
      let zs ← es.mapM (LEx.eval W env st [])
      let σ ← stores W st.σ (((List.range es.length).map fun j => lhs.at W env [j]).zip zs)
      return { st with σ := σ }
    else none
  | .tmp k g r => do
    let z ← ((box (r.dims W)).mapM fun jx => read W st.σ (r.at W jx)).map g
    return { st with t := fun j => if j = k then z else st.t j }

/-- `for i in range(n)`. -/
def loop (f : Nat → St → Option St) : Nat → St → Option St
  | 0, st => some st
  | n + 1, st => (loop f n st).bind (f n)

mutual
/-- The loops, `pyccel/codegen/printing/ccode.py:3455-3520`. -/
def Code.run (W : World) (env : Env) (st : St) : Code → Option St
  | .item i => i.run W env st
  | .for k n b => loop (fun i st => b.run W (fun j => if j = k then i else env j) st) (n.val W.ρ) st
def Codes.run (W : World) (env : Env) (st : St) : Codes → Option St
  | .nil => some st
  | .cons c cs => (c.run W env st).bind fun st => cs.run W env st
end

/-- The arrays after the generated code; at the beginning nothing is known about the loop variables
and the temporaries. -/
def exec (W : World) (cs : Codes) (env : Env) (t : Nat → Int) (σ : Store) : Option Store :=
  (cs.run W env ⟨σ, t⟩).map (·.σ)

end Verif.Vectors.Model
