import Verif.Memory.Spec

/-!
# Array variables: model of the code

How the semantic stage decides, in the order of the text, where and how a local NumPy array is
allocated and deallocated, and what the printed C and Fortran code does.

Not modelled: arguments, arrays on the stack, aliases, class attributes, global variables; arrays
that a function called on the right-hand side allocates (`alloc_type == 'function'`); conditions that
are constant.
-/

namespace Verif.Memory.Model
open Spec

/-- `Allocate.status` -/
inductive Status
  | unallocated
  | unknown
  | allocated
  deriving DecidableEq, Repr

/-- Nodes that are built around an `Allocate` node when the visit of a branch, of the chain or of a
loop ends. -/
inductive Wrap
  | section
  | ifNode
  | loop
  deriving DecidableEq, Repr

/-- The last `Allocate` node of the variable: its status, and the nodes that contain it so far, from
the inside to the outside. -/
structure Last where
  status : Status
  wraps : List Wrap
  deriving DecidableEq, Repr

/-- What the visitor knows of the variable: the last allocation, the number of allocations so far, and
`var.shape` if it consists of literals. -/
structure VSt where
  last : Option Last := none
  count : Nat := 0
  static : Option Shape := none
  deriving DecidableEq, Repr

/-- A statement with what was found out: the `Allocate` node in front of an assignment, and the
literals that are printed for `x.shape`. -/
inductive Ann
  | assign (r : Rhs) (alloc : Option Status)
  | use
  | len (static : Option Shape)
  | del
  deriving DecidableEq, Repr

/-- `d_var["shape"] != shape or … or (shape and not all literals and rhs is a function call)`:
semantic.py 2762-2770. -/
def needs (static : Option Shape) : Rhs → Bool
  | .lit s _ => static != some s
  | .dyn _ => true
  | .same fn => fn && static == none

/-- The status of a further allocation: semantic.py 2823-2852.  The outermost `IfSection` around the
last allocation has no `If` yet exactly if it is the outermost node. -/
def statusAfter (l : Last) : Status :=
  if l.wraps.getLast? = some .section then l.status
  else if l.wraps.any (fun w => w != .section) then .unknown
  else .allocated

/-- `x = r`: semantic.py 2363-2444 for the first assignment, 2746-2887 for others. -/
def visitAssign (inLoop : Bool) (v : VSt) (r : Rhs) : Option Status × VSt :=
  match v.last with
  | none =>
    let status := if inLoop then Status.unknown else .unallocated
    (some status, ⟨some ⟨status, []⟩, v.count + 1,
      match r with
      | .lit s _ => some s
      | _ => none⟩)
  | some l =>
    if needs v.static r then
      -- `var.set_changeable_shape()`
      (some (statusAfter l), ⟨some ⟨statusAfter l, []⟩, v.count + 1, none⟩)
    else if l.wraps.contains .section && !l.wraps.contains .ifNode then
      -- "If previously allocated in If still under construction"
      (some l.status, ⟨some ⟨l.status, []⟩, v.count + 1, v.static⟩)
    else (none, v)

/-- Statements without statements inside.  The shape of a variable is read from `var.shape`
(variable.py 227-246, 274-286); `_visit_Del`: semantic.py 7111-7114. -/
def visitAtom (inLoop : Bool) (v : VSt) : Atom → Ann × VSt
  | .assign r => (.assign r (visitAssign inLoop v r).1, (visitAssign inLoop v r).2)
  | .use => (.use, v)
  | .len => (.len v.static, v)
  | .del => (.del, v)

/-- A node is built around what has been visited since `before`. -/
def wrapLast (w : Wrap) (before v : VSt) : VSt :=
  if v.count = before.count then v
  else { v with last := v.last.map (fun l => { l with wraps := l.wraps ++ [w] }) }

/-- The shape of the last allocation of a branch, `none` for one that is not made of literals. -/
abbrev BranchShape := Option (Option Shape)

mutual
/-- The shape in the last `Allocate` node of a piece of code (`allocs` of `_visit_If`, semantic.py
6220-6222). -/
def lastShape : Stmt Ann Bool → BranchShape
  | .atom (.assign r (some _)) =>
    match r with
    | .lit s _ => some (some s)
    | _ => some none
  | .seq p q => (lastShape q).or (lastShape p)
  | .ite c => lastShapes c
  | .loop b => lastShape b
  | _ => none
  termination_by structural p => p
def lastShapes : Chain Ann Bool → BranchShape
  | .nil => none
  | .els p => lastShape p
  | .cons p c => (lastShapes c).or (lastShape p)
  termination_by structural c => c
end

/-- The shapes of the branches of a chain. -/
def branchShapes : Chain Ann Bool → List BranchShape
  | .nil => []
  | .els p => [lastShape p]
  | .cons p c => lastShape p :: branchShapes c

/-- Whether `set_changeable_shape` is called at the end of `_visit_If`, semantic.py 6223-6239: some
branch allocates the variable, and not all of them do with the same shape.  (Shapes that are not
literals are taken to be equal; for them the call makes no difference.) -/
def changeable (bs : List BranchShape) : Bool :=
  bs.any Option.isSome && !bs.all (fun b => b == bs.headD none && b.isSome)

mutual
/-- `_visit`: semantic.py 4099-4128 (`CodeBlock`), 6123-6241 (`If`, `IfSection`), 5657-5695 (`For`),
6114-6121 (`While`), 6269-6338 (`Return`: `Deallocate` for the variables that have been allocated so
far and are not returned). -/
def visit (isResult inLoop : Bool) (v : VSt) : Stmt Atom Unit → Stmt Ann Bool × VSt
  | .skip => (.skip, v)
  | .atom a => (.atom (visitAtom inLoop v a).1, (visitAtom inLoop v a).2)
  | .seq p q =>
    let p' := visit isResult inLoop v p
    let q' := visit isResult inLoop p'.2 q
    (.seq p'.1 q'.1, q'.2)
  | .ite c =>
    let c' := visitChain isResult inLoop v c
    let v' := wrapLast .ifNode v c'.2
    (.ite c'.1, if changeable (branchShapes c'.1) then { v' with static := none } else v')
  | .loop b =>
    let b' := visit isResult true v b
    (.loop b'.1, wrapLast .loop v b'.2)
  | .brk => (.brk, v)
  | .cont => (.cont, v)
  | .ret _ => (.ret (v.last.isSome && !isResult), v)
  termination_by structural p => p
def visitChain (isResult inLoop : Bool) (v : VSt) : Chain Atom Unit → Chain Ann Bool × VSt
  | .nil => (.nil, v)
  | .els p =>
    let p' := visit isResult inLoop v p
    (.els p'.1, wrapLast .section v p'.2)
  | .cons p c =>
    let p' := visit isResult inLoop v p
    let c' := visitChain isResult inLoop (wrapLast .section v p'.2) c
    (.cons p'.1 c'.1, c'.2)
  termination_by structural c => c
end

/-- The translation of a function. -/
def translate (f : Fn) : Stmt Ann Bool := (visit f.isResult false {} f.body).1

/-- The value that the right-hand side computes from the present contents of the memory of `x`. -/
def compute (r : Rhs) (n : Nat) (d : Data) : Data :=
  match r with
  | .lit _ false => .made n
  | .lit _ true => .madeFrom n d
  | .dyn false => .made n
  | .dyn true => .madeFrom n d
  | .same _ => .madeFrom n d

/-- The shape in an `Allocate` node, evaluated when `x` has the shape `old`. -/
def newShape (r : Rhs) (s : Shape) (old : Option Shape) : Option Shape :=
  match r with
  | .lit s _ => some s
  | .dyn _ => some s
  | .same _ => old

/-! ## C -/

/-- The variable (its data pointer is `NULL`, ccode.py 2062-2068: `= {0}`, or points to a buffer), the
buffers that nothing points to any more, and what was asked for. -/
structure CSt where
  mem : Option (Shape × Data) := none
  leaked : Nat := 0
  out : List Shape := []
  deriving DecidableEq, Repr

/-- `_print_Allocate` (ccode.py 2470-2514) and the assignment after it; `_print_Deallocate`
(2535-2577: `free(data); data = NULL`; `free(NULL)` does nothing).  Elements of an array without a
buffer are not to be used (`none`: undefined behaviour).  The right-hand side is evaluated after the
allocation. -/
def cStep (s : CSt) (e : Event Ann) : Option CSt :=
  match e.act with
  | .assign r none =>
    match s.mem with
    | some (sh, d) => some { s with mem := some (sh, compute r e.value d) }
    | none => none
  | .assign r (some st) =>
    match newShape r e.shape (s.mem.map (·.1)) with
    | some sh =>
      some { s with
        mem := some (sh, compute r e.value .garbage)
        leaked := s.leaked + (if st = .unallocated && s.mem.isSome then 1 else 0) }
    | none => none
  | .use =>
    match s.mem with
    | some _ => some s
    | none => none
  | .len (some sh) => some { s with out := s.out ++ [sh] }
  | .len none =>
    match s.mem with
    | some (sh, _) => some { s with out := s.out ++ [sh] }
    | none => none
  | .del => some { s with mem := none }

def cSteps (s : CSt) : List (Event Ann) → Option CSt
  | [] => some s
  | e :: es => (cStep s e).bind (fun s => cSteps s es)

/-- Buffers that are lost when the function ends.  `_print_Return` (ccode.py 3160-3230) prints the
`Deallocate` nodes in front of a `return` with a value and not those in front of a bare `return`
(3186-3187); at the end of the text of a function without value there are `Deallocate` nodes
(`_garbage_collector`, semantic.py 853-867). -/
def cLost (f : Fn) (s : CSt) : Exit Bool → Nat
  | .ret dealloc => s.leaked + (if (dealloc && !f.void) || f.isResult || s.mem.isNone then 0 else 1)
  | _ => s.leaked + (if f.void || f.isResult || s.mem.isNone then 0 else 1)

/-! ## Fortran -/

/-- `any(size(x) /= [n₁, n₂, …])`: `size(x)` is the number of all elements. -/
def sizeDiffers (old new : Shape) : Bool := new.any (fun n => old.foldl (· * ·) 1 != n)

/-- `_print_Allocate` (fcode.py 2615-2653) and the assignment after it.  Allocating what is allocated
ends the program; the size and the shape of what is not allocated are undefined (`none` for these). -/
def fAllocate (mem : Option (Shape × Data)) (st : Status) (r : Rhs) (s : Shape) (n : Nat) :
    Option (Shape × Data) :=
  match mem, st with
  | none, .allocated => none
  | none, _ => (newShape r s none).map (fun sh => (sh, compute r n .garbage))
  | some _, .unallocated => none
  | some (old, d), _ =>
    match newShape r s (some old) with
    | none => none
    | some sh =>
      if sizeDiffers old sh then
        -- the sizes in `allocate` are evaluated after `deallocate`
        (newShape r s none).map (fun sh => (sh, compute r n .garbage))
      else some (old, compute r n d)

/-- Assignments, and `_print_Deallocate` (fcode.py 2702-2707: `if (allocated(x)) deallocate(x)`).  The
shape and the elements of what is not allocated are undefined. -/
def fStep (s : St) (e : Event Ann) : Option St :=
  match e.act with
  | .assign r none =>
    match s.mem with
    | some (sh, d) => some { s with mem := some (sh, compute r e.value d) }
    | none => none
  | .assign r (some st) =>
    (fAllocate s.mem st r e.shape e.value).map (fun m => { s with mem := some m })
  | .use =>
    match s.mem with
    | some _ => some s
    | none => none
  | .len (some sh) => some { s with out := s.out ++ [sh] }
  | .len none =>
    match s.mem with
    | some (sh, _) => some { s with out := s.out ++ [sh] }
    | none => none
  | .del => some { s with mem := none }

def fSteps (s : St) : List (Event Ann) → Option St
  | [] => some s
  | e :: es => (fStep s e).bind (fun s => fSteps s es)

/-! ## The initialisation of a module -/

/-- `for i, v in enumerate(dealloc_vars): if v in to_remove: d = deallocs.pop(i);
init_func_body.append(d)`: semantic.py 3773-3780; the first list is what is left of the snapshot, `i`
the position in it.  The result are the variables that the initialisation frees and those that the
function for freeing the module frees; `none`: `IndexError`. -/
def moduleDeallocs {α : Type} (temp : α → Bool) : List α → Nat → List α → List α → Option (List α × List α)
  | [], _, deallocs, initBody => some (initBody, deallocs)
  | v :: vs, i, deallocs, initBody =>
    if temp v then
      match deallocs[i]? with
      | some d => moduleDeallocs temp vs (i + 1) (deallocs.eraseIdx i) (initBody ++ [d])
      | none => none
    else moduleDeallocs temp vs (i + 1) deallocs initBody

/-- The statement of the source. -/
def Ann.src : Ann → Atom
  | .assign r _ => .assign r
  | .use => .use
  | .len _ => .len
  | .del => .del

/-- The path through the source. -/
def srcPath (t : List (Event Ann)) : List (Event Atom) :=
  t.map (fun e => ⟨e.act.src, e.shape, e.value⟩)

end Verif.Memory.Model
