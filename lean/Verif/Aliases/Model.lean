import Verif.Aliases.Spec

/-!
# Arrays shared by several variables: model

`pyccel/parser/semantic.py` ("semantic" below) decides in the order of the text which variables own an array
and which are pointers, and rejects programs that give new arrays to variables while there are pointers to
them.  Then the generated program runs on memory that is allocated and freed.  Left out: temporary
variables of the compiler, optional arguments, transposition, arrays in containers and classes (C79 does not
speak of them), module variables, functions returning several arrays.
-/

namespace Verif.Aliases.Model
open Spec

/-- `Variable.memory_handling` and `is_argument`. -/
inductive Kind
  | heap
  | arg
  | alias
  deriving DecidableEq

/-- What is known of the function so far: the variables, `self._pointer_targets[-1]`, and the variables with
`is_target`. -/
structure An where
  kind : Var → Option Kind
  tg : List (Var × List Var)
  tgt : List Var

/-- `self._pointer_targets[-1][p]` -/
def An.targets (an : An) (p : Var) : Option (List Var) := (an.tg.find? (·.1 = p)).map (·.2)

/-- `semantic:2614-2620`: some pointer has `x` among its targets. -/
def An.pointed (an : An) (x : Var) : Bool := an.tg.any fun e => e.2.contains x

/-- `self._pointer_targets[-1].setdefault(p, []).extend(ts)` -/
def extend : List (Var × List Var) → Var → List Var → List (Var × List Var)
  | [], p, ts => [(p, ts)]
  | e :: es, p, ts => if e.1 = p then (p, e.2 ++ ts) :: es else e :: extend es p ts

/-- The generated statements.  `inPlace`: the old memory of `x` is used again. -/
inductive Code
  | skip
  | fresh (x : Var) (ys : List Var) (f : List Vals → Vals) (inPlace : Bool)
  | bind (p y : Var) (idx : Option (List Nat))
  | store (x : Var) (ys : List Var) (f : List Vals → Vals)
  | print (x : Var)
  | del (x : Var) (frees : Bool)
  | ret
  | seq (a b : Code)
  | ite (ys : List Var) (c : List Vals → Bool) (a b : Code)
  | loop (ys : List Var) (n : List Vals → Nat) (b : Code)

/-- `_indicate_pointer_target` for arrays: `semantic:950-1015`.  Nothing is done if a pointer is assigned
to itself; a pointer gets the targets of another pointer, which is an error if that has none. -/
def indicate (an : An) (p y : Var) : Option An :=
  if p = y then some an
  else match an.kind y with
    | none => none
    | some .alias =>
      match an.targets y with
      | none => none
      | some [] => some an
      | some ts => some { an with tg := extend an.tg p ts }
    | some _ => some { an with tg := extend an.tg p [y], tgt := y :: an.tgt }

/-- `p = y` for a known variable `p` with an array of its own: an error (`ASSIGN_ARRAYS_ONE_ANOTHER`, or
`TARGET_ALREADY_IN_USE`), unless `p` is marked as target although no pointers are known: then the test for
arrays assigned to one another is not reached, and the elements are copied.  `semantic:2609-2649`.  (The
copy is in the old memory of `p` here; the compiler may also allocate.) -/
def visitCopy (an : An) (p y : Var) (idx : Option (List Nat)) : Option (Code × An) :=
  if an.tgt.contains p && !an.pointed p then
    some (.fresh p [y] (fun vs => match vs with
      | v :: _ => ((select (List.range v.length) idx).bind (gather v)).getD []
      | [] => []) true, an)
  else none

/-- All variables are known (others are an error). -/
def An.known (an : An) (ys : List Var) : Bool := ys.all fun y => (an.kind y).isSome

/-- `_visit_Assign` with `_assign_lhs_variable` for a new array: `semantic:2266-2469, 2609-2672, 2746-2863`.
Pointers cannot get an array (`INVALID_POINTER_REASSIGN`, "Pointer cannot point at a temporary object"),
nor variables with pointers to them (`TARGET_ALREADY_IN_USE`), nor arguments if the shape may be another
one (`ARRAY_IS_ARG`). -/
def visitFresh (an : An) (x : Var) (ys : List Var) (f : List Vals → Vals) (same : Bool) :
    Option (Code × An) :=
  if an.known ys then
    match an.kind x with
    | none => some (.fresh x ys f false, { an with kind := setEnv an.kind x (some .heap) })
    | some .alias => none
    | some .heap => if an.tgt.contains x && an.pointed x then none else some (.fresh x ys f same, an)
    | some .arg =>
      if an.tgt.contains x && an.pointed x then none
      else if same then some (.fresh x ys f true, an) else none
  else none

/-- `_visit_Assign` with `_ensure_target` and `_assign_lhs_variable` for `p = y` and slices: a pointer.
`semantic:2128-2173, 2632-2672, 5462, 5537-5558` -/
def visitBind (an : An) (p y : Var) (idx : Option (List Nat)) : Option (Code × An) :=
  if an.known [y] then
    match an.kind p with
    | none => do
      let an' ← indicate { an with kind := setEnv an.kind p (some .alias) } p y
      return (.bind p y idx, an')
    | some .alias => do
      let an' ← indicate an p y
      return (if p = y ∧ idx = none then .skip else .bind p y idx, an')
    | some _ => visitCopy an p y idx
  else none

/-- `_check_pointer_targets`, which is called for every `return`: `semantic:895-914`.  The pointers that
are local variables, and not the result, are forgotten.  It is an error if the targets of the others are
local. -/
def checkTargets (res : Option Var) (an : An) : Option An :=
  let tg := an.tg.filter fun e => some e.1 = res
  if tg.all fun e => e.2.all fun t => an.kind t = some .arg || some t = res then some { an with tg := tg }
  else none

/-- The statements in the order of the text; `res` is the result of the function. -/
def visit (res : Option Var) : Stmt → An → Option (Code × An)
  | .skip, an => some (.skip, an)
  | .fresh x ys f same, an => visitFresh an x ys f same
  | .bind p y idx, an => visitBind an p y idx
  | .store x ys f, an => if an.known (x :: ys) then some (.store x ys f, an) else none
  | .print x, an => if an.known [x] then some (.print x, an) else none
  -- `semantic:7111-7114`; `pyccel/codegen/printing/ccode.py:2535-2573`, `fcode.py:2680-2707`
  | .del x, an => if an.known [x] then some (.del x (an.kind x != some .alias), an) else none
  -- `semantic:6326-6328`
  | .ret, an => do
    let an ← checkTargets res an
    return (.ret, an)
  | .seq a b, an => do
    let (a', an) ← visit res a an
    let (b', an) ← visit res b an
    return (.seq a' b', an)
  | .ite ys c a b, an => if an.known ys then do
      let (a', an) ← visit res a an
      let (b', an) ← visit res b an
      return (.ite ys c a' b', an)
    else none
  | .loop ys n b, an => if an.known ys then do
      let (b', an) ← visit res b an
      return (.loop ys n b', an)
    else none

/-- A compiled function: its statements, the variables that are freed at the end, and, for a result that is
a pointer, the argument that the wrapper keeps alive with it. -/
structure Compiled where
  code : Code
  frees : List Var
  base : Option Nat

/-- The argument to which the result points: `semantic:6633-6648`,
`pyccel/codegen/wrapper/c_to_python_wrapper.py:1675-1724`.  If there are several, or one several times, the
wrapper cannot be generated.  (Returned arguments are assigned to another variable first,
`semantic:6309-6323`.) -/
def resultBase (args : List Var) (an : An) : Option Var → Option (Option Nat)
  | none => some none
  | some r =>
    match an.kind r with
    | some .heap => some none
    | some .alias =>
      match an.targets r with
      | some [t] => if t ∈ args then some (some (args.idxOf t)) else none
      | _ => none
    | _ => none

/-- `_visit_FunctionDef`: `semantic:6554-6669`.  The arrays that are freed: `semantic:835-867, 6326-6331`
(here at the end, also for a `return` before). -/
def compile (F : Func) : Option Compiled := do
  let (code, an) ← visit F.res F.body ⟨fun v => if v ∈ F.args then some .arg else none, [], []⟩
  let an ← checkTargets F.res an
  let base ← resultBase F.args an F.res
  return ⟨code, F.body.owners.filter fun v => an.kind v = some .heap && some v != F.res, base⟩

/-! ## The generated program -/

inductive Lang
  | c
  | fortran
  deriving DecidableEq

/-- The memory (`none`: freed), the variables (`none`: no memory), and what was printed. -/
structure Mach where
  bufs : List (Option Vals)
  env : Var → Option Ref
  out : List Vals

/-- Freed memory cannot be read. -/
def Mach.read (s : Mach) (x : Var) : Option Vals := do
  let r ← s.env x
  gather (← (← s.bufs[r.buf]?)) r.pos

/-- `free(x.data)`, `deallocate(x)`; freeing twice is an error. -/
def Mach.free (s : Mach) (x : Var) : Option Mach :=
  match s.env x with
  | none => some s
  | some r => do
    let _ ← (← s.bufs[r.buf]?)
    return { s with bufs := s.bufs.set r.buf none, env := setEnv s.env x none }

/-- Other contents. -/
def Mach.store (s : Mach) (x : Var) (v : Vals) : Option Mach := do
  let r ← s.env x
  let w ← scatter (← (← s.bufs[r.buf]?)) r.pos v
  return { s with bufs := s.bufs.set r.buf (some w) }

/-- New memory. -/
def Mach.alloc (s : Mach) (x : Var) (v : Vals) : Mach :=
  { s with
    bufs := s.bufs ++ [some v], env := setEnv s.env x (some ⟨s.bufs.length, List.range v.length⟩) }

/-- Whether the allocation in Fortran keeps the old memory: `fcode.py:2620-2660`, see C68. -/
def keeps (L : Lang) (s : Mach) (x : Var) (v : Vals) : Bool :=
  L = .fortran && match s.env x with
    | some r => r.pos.length = v.length
    | none => false

/-- The generated statements: `ccode.py:2480-2573, 3388-3414`, `fcode.py:2441-2462, 2600-2707`.  An
allocation frees the old memory first, and the expression is evaluated then.  (Whether the compiler knows
that there is old memory: C56.) -/
def exec (L : Lang) : Code → Mach → Option (Mach × Bool)
  | .skip, s => some (s, false)
  | .fresh x ys f inPlace, s => do
    let v := f (← ys.mapM s.read)
    if inPlace || keeps L s x v then
      return (← s.store x v, false)
    else
      let s ← s.free x
      let v := f (← ys.mapM s.read)
      return (s.alloc x v, false)
  | .bind p y idx, s => do
    let r ← s.env y
    let pos ← select r.pos idx
    return ({ s with env := setEnv s.env p (some ⟨r.buf, pos⟩) }, false)
  | .store x ys f, s => do
    let v := f (← ys.mapM s.read)
    return (← s.store x v, false)
  | .print x, s => do
    let v ← s.read x
    return ({ s with out := s.out ++ [v] }, false)
  | .del x frees, s => if frees then do return (← s.free x, false) else some (s, false)
  | .ret, s => some (s, true)
  | .seq a b, s => do
    let (s, fin) ← exec L a s
    if fin then return (s, true) else exec L b s
  | .ite ys c a b, s => do
    if c (← ys.mapM s.read) then exec L a s else exec L b s
  | .loop ys n b, s => do
    repeatN (exec L b) (n (← ys.mapM s.read)) s

/-- Several variables are freed. -/
def Mach.freeAll : List Var → Mach → Option Mach
  | [], s => some s
  | x :: xs, s => do Mach.freeAll xs (← s.free x)

/-- A call. -/
def call (L : Lang) (F : Func) (C : Compiled) (mem : List Vals) (rs : List Ref) : Option Mach := do
  let (s, _) ← exec L C.code ⟨mem.map some, bindArgs F.args rs, []⟩
  Mach.freeAll C.frees s

end Verif.Aliases.Model
