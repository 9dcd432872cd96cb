import Verif.Instances.Spec
/-
Model for C174–C175: how pyccel translates variables of classes inside a function.  A variable whose first value is a new object is a structure
("stack", pyccel/parser/semantic.py:4886-4891); a variable whose first value is a variable is a pointer ("alias", semantic.py:2154-2159).
Not modelled: functions that get or return objects (C97), attributes that are objects, lists of objects, tuples of assignments.
-/
namespace Verif.Instances.Model
open Verif.Instances.Spec

/-- The generated statements. -/
inductive Code where
  | skip
  | seq (a b : Code)
  /-- `A__init__(&x, e)` -/
  | init (x : Name) (e : Expr)
  /-- `A__init__(x, e)` for a pointer `x` -/
  | initAt (x : Name) (e : Expr)
  /-- `A__del__(&x); A__init__(&x, e)` -/
  | renew (x : Name) (e : Expr)
  /-- `A__del__(&x)` -/
  | del (x : Name)
  /-- `A__del__(&x); x = y` for structures -/
  | copy (x y : Name)
  /-- `x = &y` or `x = y` for a pointer `x` -/
  | point (x y : Name)
  | setv (x : Name) (e : Expr)
  | fill (x : Name) (e : Expr)
  | print (e : Expr)
  | ite (c : Expr) (a b : Code)
  | while (c : Expr) (b : Code)
deriving DecidableEq, Repr

/-- While the text is visited: the structures and pointers that exist, and the structures with pointers to them (`_pointer_targets`,
to which entries are only added: semantic.py:998-1015). -/
structure Vars where
  objs : List Name
  refs : List Name
  targets : List Name

def Vars.knows (σ : Vars) (x : Name) : Bool := σ.objs.contains x || σ.refs.contains x

def names : Expr → List Name
  | .num _ => []
  | .attr x | .elem x => [x]
  | .add a b => names a ++ names b

/-- `x = A(e)`: `_visit_FunctionCall` for a class (semantic.py:4874-4971).  A structure with pointers to it is rejected
(TARGET_ALREADY_IN_USE, semantic.py:2609-2630); another one is deleted first (2888-2889, `_additional_exprs` stand before the call);
if the variable is a pointer then the constructor is called for the object that it points to. -/
def trNew (σ : Vars) (x : Name) (e : Expr) : Option (Code × Vars) :=
  if (names e).all σ.knows then
    if σ.objs.contains x then
      if σ.targets.contains x then none else some (.renew x e, σ)
    else if σ.refs.contains x then some (.initAt x e, σ)
    else some (.init x e, { σ with objs := x :: σ.objs })
  else none

/-- `x = y`: a new variable is a pointer (`_ensure_target`, semantic.py:2154-2159; AliasAssign, 5537-5558; `_indicate_pointer_target`,
930-1016); a structure is deleted (2888-2889) and `x = y` is printed if the variables differ (5464, 5535). -/
def trBind (σ : Vars) (x y : Name) : Option (Code × Vars) :=
  if σ.knows y then
    if σ.objs.contains x then
      if σ.targets.contains x then none
      else some (if x = y then .del x else .copy x y, σ)
    else
      let σ' := { σ with targets := if σ.objs.contains y then y :: σ.targets else σ.targets,
                         refs := if σ.refs.contains x then σ.refs else x :: σ.refs }
      some (if x = y then .skip else .point x y, σ')
  else none

/-- The statements in the order of the text. -/
def tr (σ : Vars) : Stmt → Option (Code × Vars)
  | .skip => some (.skip, σ)
  | .seq a b => (tr σ a).bind fun r => (tr r.2 b).map fun q => (.seq r.1 q.1, q.2)
  | .new x e => trNew σ x e
  | .bind x y => trBind σ x y
  | .setv x e => if σ.knows x && (names e).all σ.knows then some (.setv x e, σ) else none
  | .fill x e => if σ.knows x && (names e).all σ.knows then some (.fill x e, σ) else none
  | .print e => if (names e).all σ.knows then some (.print e, σ) else none
  | .ite c a b => if (names c).all σ.knows then
      (tr σ a).bind fun r => (tr r.2 b).map fun q => (.ite c r.1 q.1, q.2) else none
  | .while c b => if (names c).all σ.knows then (tr σ b).map fun r => (.while c r.1, r.2) else none

/-! ## The generated program -/

inductive Lang where
  | c | fortran
deriving DecidableEq, Repr

/-- The structure of the class: `v`, the memory of `arr`, and `is_freed` (semantic.py:1478-1488). -/
structure Struct where
  v : Int
  arr : Option Nat
  freed : Bool
deriving DecidableEq, Repr

/-- Structures, pointers, allocated memory. -/
structure Mem where
  slots : Name → Option Struct
  ptr : Name → Option Name
  blocks : Nat → Option Int
  next : Nat
  out : List Int

/-- `bad`: undefined behaviour or a run-time error; `time`: not finished. -/
inductive Res (α : Type) where
  | ok (a : α)
  | bad
  | time
deriving DecidableEq, Repr

def Res.bind {α β : Type} : Res α → (α → Res β) → Res β
  | .ok a, f => f a
  | .bad, _ => .bad
  | .time, _ => .time

/-- The structure that a variable stands for. -/
def Mem.loc (m : Mem) (x : Name) : Name := (m.ptr x).getD x

def evalC (m : Mem) : Expr → Option Int
  | .num k => some k
  | .attr x => (m.slots (m.loc x)).map (·.v)
  | .elem x => (m.slots (m.loc x)).bind fun t => t.arr.bind m.blocks
  | .add a b => (evalC m a).bind fun u => (evalC m b).map fun w => u + w

/-- An expression and what is done with its value. -/
def withVal {α : Type} (m : Mem) (e : Expr) (f : Int → Res α) : Res α :=
  match evalC m e with
  | some k => f k
  | none => .bad

def Mem.setSlot (m : Mem) (x : Name) (t : Struct) : Mem := { m with slots := fun y => if y = x then some t else m.slots y }

/-- `A__init__`: `is_freed` is set (semantic.py:1487-1488), the array is allocated without a test: `malloc` in C, `allocate` in Fortran
(pyccel/codegen/printing/fcode.py:2634-2635), which is an error if it is allocated. -/
def doInit (l : Lang) (m : Mem) (x : Name) (k : Int) : Res Mem :=
  let fresh : Mem := { m with blocks := fun b => if b = m.next then some k else m.blocks b, next := m.next + 1 }
  let t : Struct := ⟨k, some m.next, false⟩
  match l, m.slots x with
  | .fortran, some ⟨_, some _, _⟩ => .bad
  | _, _ => .ok (fresh.setSlot x t)

/-- `A__del__` (semantic.py:1504-1527): in C with a structure that was never set the test of `is_freed` and `free` are undefined; in Fortran
`if (allocated(…))` is harmless (fcode.py:2702-2707).  `free` of freed memory is undefined. -/
def doDel (l : Lang) (m : Mem) (x : Name) : Res Mem :=
  match m.slots x with
  | none => if l = .c then .bad else .ok m
  | some t =>
    if t.freed then .ok m
    else match t.arr with
      | none => .ok (m.setSlot x ⟨t.v, none, true⟩)
      | some b => match m.blocks b with
        | none => .bad
        | some _ => .ok (({ m with blocks := fun j => if j = b then none else m.blocks j } : Mem).setSlot x ⟨t.v, none, true⟩)

/-- `x = y` for structures: C copies the members; Fortran copies allocatable arrays too. -/
def doCopy (l : Lang) (m : Mem) (x y : Name) : Res Mem :=
  match m.slots (m.loc y) with
  | none => .bad
  | some t => match l, t.arr with
    | .fortran, some b => .ok (({ m with blocks := fun j => if j = m.next then m.blocks b else m.blocks j, next := m.next + 1 } : Mem).setSlot x
        ⟨t.v, some m.next, t.freed⟩)
    | _, _ => .ok (m.setSlot x t)

def execC (l : Lang) : Nat → Code → Mem → Res Mem
  | 0, _, _ => .time
  | _ + 1, .skip, m => .ok m
  | n + 1, .seq a b, m => (execC l n a m).bind (execC l n b)
  | _ + 1, .init x e, m => withVal m e fun k => doInit l m x k
  | _ + 1, .initAt x e, m => withVal m e fun k => match m.ptr x with
    | some z => doInit l m z k
    | none => .bad
  | _ + 1, .renew x e, m => (doDel l m x).bind fun m => withVal m e fun k => doInit l m x k
  | _ + 1, .del x, m => doDel l m x
  | _ + 1, .copy x y, m => (doDel l m x).bind fun m => doCopy l m x y
  | _ + 1, .point x y, m => .ok { m with ptr := fun z => if z = x then some (m.loc y) else m.ptr z }
  | _ + 1, .setv x e, m => withVal m e fun k => match m.slots (m.loc x) with
    | some t => .ok (m.setSlot (m.loc x) { t with v := k })
    | none => .bad
  | _ + 1, .fill x e, m => withVal m e fun k => match (m.slots (m.loc x)).bind (·.arr) with
    | some b => if (m.blocks b).isSome then .ok { m with blocks := fun j => if j = b then some k else m.blocks j } else .bad
    | none => .bad
  | _ + 1, .print e, m => withVal m e fun k => .ok { m with out := m.out ++ [k] }
  | n + 1, .ite c a b, m => withVal m c fun k => if k ≠ 0 then execC l n a m else execC l n b m
  | n + 1, .while c b, m => withVal m c fun k => if k ≠ 0 then (execC l n b m).bind (execC l n (.while c b)) else .ok m

/-- The end of the function: `_garbage_collector` deletes the structures (semantic.py:854-866). -/
def delAll (l : Lang) : List Name → Mem → Res Mem
  | [], m => .ok m
  | x :: r, m => (doDel l m x).bind (delAll l r)

/-- No memory is left. -/
def Mem.clean (m : Mem) : Bool := (List.range m.next).all fun b => (m.blocks b).isNone

/-- The compiled function: what it prints, and whether all memory has been released.  `none`: pyccel reports an error. -/
def run (l : Lang) (p : Stmt) (fuel : Nat) : Option (Res (List Int × Bool)) :=
  (tr ⟨[], [], []⟩ p).map fun r =>
    ((execC l fuel r.1 ⟨fun _ => none, fun _ => none, fun _ => none, 0, []⟩).bind (delAll l r.2.objs)).bind fun m => .ok (m.out, m.clean)

end Verif.Instances.Model
