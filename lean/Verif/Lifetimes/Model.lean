import Verif.Lifetimes.Spec

/-
Compiled classes and the Python extension around them (the generated code is C):

* pyccel/parser/semantic.py        _check_pointer_targets, _indicate_pointer_target,
                                   the pointer part of _visit_FunctionDef, __del__
* pyccel/codegen/wrapper/c_to_python_wrapper.py
                                   _save_referenced_objects, _incref_return_pointer,
                                   _allocate_class_instance, _get_class_allocator,
                                   _get_class_initialiser, _get_class_destructor,
                                   connect_pointer_targets, _wrap_FunctionDef,
                                   _wrap_DottedVariable, the results of type class and array
* pyccel/stdlib/cwrapper/cwrapper.c  to_pyarray

Simplifications: as in the specification; the types of arguments are not checked
when a function is entered, a value of the wrong type is noticed where it is used
(then the model raises an exception); calls of PyList_Append and
PyArray_SetBaseObject do not fail; attributes are public.
-/
namespace Verif.Lifetimes.C

/-- What can happen: a value, a Python exception, or undefined behaviour (use of
memory which has been freed, memory freed twice, or `free` of something which was
not allocated). -/
inductive Res (α : Type)
  | ok (a : α)
  | raise
  | ub
deriving DecidableEq, Repr

def Res.bind {α β} : Res α → (α → Res β) → Res β
  | .ok a, f => f a
  | .raise, _ => .raise
  | .ub, _ => .ub

def Res.map {α β} (f : α → β) : Res α → Res β
  | .ok a => .ok (f a)
  | .raise => .raise
  | .ub => .ub

/-! ## Memory of the compiled code -/

/-- A member of the C structure of a class.  `own`: an array allocated by the
constructor (memory_handling "heap"); `ptr`, `obj`: a pointer ("alias",
semantic.py:2125-2173); `sub`: another structure inside this one ("stack",
semantic.py:4886-4891). -/
inductive CField
  | num (v : Int)
  | own (d : Nat)
  | ptr (d : Nat)
  | obj (b : Nat)
  | sub (b : Nat)
deriving DecidableEq, Repr

/-- A structure; `inside`: it is a member of another one. -/
structure Inst where
  inside : Bool
  fields : List CField
deriving DecidableEq, Repr

/-- `none`: freed. -/
structure Mem where
  data : List (Option Int)
  insts : List (Option Inst)
deriving DecidableEq, Repr

/-- What a variable of the compiled code holds: a number, the address of the
elements of an array or the address of a structure. -/
inductive Ref
  | none
  | num (v : Int)
  | arr (d : Nat)
  | obj (b : Nat)
deriving DecidableEq, Repr

/-- Reading a member. -/
def CField.ref : CField → Ref
  | .num v => .num v
  | .own d => .arr d
  | .ptr d => .arr d
  | .obj b => .obj b
  | .sub b => .obj b

def getInst (m : Mem) (b : Nat) : Res Inst :=
  match m.insts[b]? with
  | some (some i) => .ok i
  | some Option.none => .ub
  | Option.none => .ub

def getField (m : Mem) (b k : Nat) : Res CField :=
  (getInst m b).bind fun i =>
    match i.fields[k]? with
    | some f => .ok f
    | Option.none => .raise

def attr (m : Mem) (r : Ref) (k : Nat) : Res Ref :=
  match r with
  | .obj b => (getField m b k).map CField.ref
  | _ => .raise

def follow (m : Mem) : Ref → List Nat → Res Ref
  | r, [] => .ok r
  | r, k :: ks => (attr m r k).bind (follow m · ks)

abbrev Locals := Nat → Ref

def eval (m : Mem) (l : Locals) (p : Path) : Res Ref :=
  match l p.root with
  | .none => .raise
  | r => follow m r p.attrs

def upd (l : Locals) (x : Nat) (r : Ref) : Locals := fun y => if y = x then r else l y

/-- Writing a member of a structure. -/
def setField (m : Mem) (b k : Nat) (f : CField) : Mem :=
  match m.insts[b]? with
  | some (some i) => { m with insts := m.insts.set b (some { i with fields := i.fields.set k f }) }
  | _ => m

/-- A pointer member is given a new target (AliasAssign); an array which the
structure owns, or an inner structure, cannot be replaced by a pointer (error in
semantic.py:2630-2672). -/
def storePtr (m : Mem) (b k : Nat) (r : Ref) : Res Mem :=
  (getField m b k).bind fun f =>
    match f, r with
    | .ptr _, .arr d => .ok (setField m b k (.ptr d))
    | .obj _, .obj b' => .ok (setField m b k (.obj b'))
    | _, _ => .raise

def storeNum (m : Mem) (b k : Nat) (r : Ref) : Res Mem :=
  (getField m b k).bind fun f =>
    match f, r with
    | .num _, .num v => .ok (setField m b k (.num v))
    | _, _ => .raise

/-- `free` of the elements of an array. -/
def freeData (m : Mem) (d : Nat) : Res Mem :=
  match m.data[d]? with
  | some (some _) => .ok { m with data := m.data.set d Option.none }
  | _ => .ub

def newData (m : Mem) (v : Int) : Mem × Nat :=
  ({ m with data := m.data ++ [some v] }, m.data.length)

def newInst (m : Mem) (i : Inst) : Mem × Nat :=
  ({ m with insts := m.insts ++ [some i] }, m.insts.length)

def fillData (m : Mem) (d : Nat) (v : Int) : Res Mem :=
  match m.data[d]? with
  | some (some _) => .ok { m with data := m.data.set d (some v) }
  | _ => .ub

def readData (m : Mem) (d : Nat) : Res Int :=
  match m.data[d]? with
  | some (some v) => .ok v
  | _ => .ub

/-- The body of a compiled function.  The array of an attribute which is assigned
again is freed and allocated again (Allocate with status "allocated", ccode.py
_print_Allocate). -/
def exec : Stmt → Mem → Locals → Res (Mem × Locals)
  | .skip, m, l => .ok (m, l)
  | .seq a b, m, l => (exec a m l).bind fun r => exec b r.1 r.2
  | .ite q a b, m, l =>
    (eval m l q).bind fun r =>
      match r with
      | .num v => if 0 < v then exec a m l else exec b m l
      | _ => .raise
  | .bind v q, m, l =>
    (eval m l q).bind fun r =>
      match r with
      | .arr _ => .ok (m, upd l v r)
      | .obj _ => .ok (m, upd l v r)
      | _ => .raise
  | .store p k q, m, l =>
    (eval m l p).bind fun rp => (eval m l q).bind fun r =>
      match rp with
      | .obj b => (storePtr m b k r).map (·, l)
      | _ => .raise
  | .setNum p k q, m, l =>
    (eval m l p).bind fun rp => (eval m l q).bind fun r =>
      match rp with
      | .obj b => (storeNum m b k r).map (·, l)
      | _ => .raise
  | .fill q v, m, l =>
    (eval m l q).bind fun r =>
      match r with
      | .arr d => (fillData m d v).map (·, l)
      | _ => .raise
  | .renew p k v, m, l =>
    (eval m l p).bind fun rp =>
      match rp with
      | .obj b =>
        (getField m b k).bind fun f =>
          match f with
          | .own d =>
            (freeData m d).map fun m' =>
              (setField (newData m' v).1 b k (.own (newData m' v).2), l)
          | _ => .raise
      | _ => .raise

/-- The constructor sets one attribute. -/
def leaf (m : Mem) (args : List Ref) : Leaf → Res (Mem × CField)
  | .arg t i =>
    match t, args[i]? with
    | .num, some (.num v) => .ok (m, .num v)
    | .arr, some (.arr d) => .ok (m, .ptr d)
    | .obj, some (.obj b) => .ok (m, .obj b)
    | _, _ => .raise
  | .fresh v => .ok ((newData m v).1, .own (newData m v).2)

def leaves (args : List Ref) : List Leaf → Mem → Res (Mem × List CField)
  | [], m => .ok (m, [])
  | l :: ls, m =>
    (leaf m args l).bind fun r => (leaves args ls r.1).map fun r' => (r'.1, r.2 :: r'.2)

def inits (args : List Ref) : List Init → Mem → Res (Mem × List CField)
  | [], m => .ok (m, [])
  | .leaf l :: ls, m =>
    (leaf m args l).bind fun r => (inits args ls r.1).map fun r' => (r'.1, r.2 :: r'.2)
  | .sub l :: ls, m =>
    (leaves args l m).bind fun r =>
      (inits args ls (newInst r.1 ⟨true, r.2⟩).1).map fun r' =>
        (r'.1, .sub (newInst r.1 ⟨true, r.2⟩).2 :: r'.2)

/-- A new structure, filled by `__init__`. -/
def construct (p : Prog) (c : Nat) (args : List Ref) (m : Mem) : Res (Mem × Nat) :=
  match p.classes[c]? with
  | some is => (inits args is m).map fun r => newInst r.1 ⟨false, r.2⟩
  | Option.none => .raise

/-! ## What the compiler finds out about pointers -/

/-- `self._pointer_targets[-1]` for the variables of the function: the arguments
which a pointer may point at, in the order found.  `none`: no entry. -/
abbrev Targets := Nat → Option (List Nat)

/-- The targets added for `pointer` when it is made to point at `q`
(semantic.py:949-1004, _indicate_pointer_target): the attributes are ignored, an
argument is a target, another variable stands for its own targets (an error if
there are none), and a variable is no target of itself. -/
def newTargets (n : Nat) (t : Targets) (pointer : Option Nat) (q : Path) : Option (List Nat) :=
  if pointer = some q.root then some []
  else if q.root < n then some [q.root]
  else t q.root

/-- `self._pointer_targets[-1].setdefault(pointer, []).extend(…)` -/
def addTargets (t : Targets) (x : Nat) (ts : List Nat) : Targets :=
  fun y => if y = x then some ((t x).getD [] ++ ts) else t y

/-- The pointers of a function body.  Both branches of a condition are visited, one
after the other.  A store into an attribute is also recorded for the variable the
attribute belongs to (semantic.py:988-990).  `none`: an error. -/
def analyse (n : Nat) : Stmt → Targets → Option Targets
  | .seq a b, t => (analyse n a t).bind (analyse n b)
  | .ite _ a b, t => (analyse n a t).bind (analyse n b)
  | .bind v q, t =>
    if v < n then Option.none
    else (newTargets n t (some v) q).map (addTargets t v)
  | .store p _ q, t => (newTargets n t (some p.root) q).map (addTargets t p.root)
  | _, t => some t

/-- What the wrapper of a function needs to know. -/
structure Info where
  /-- arguments with `persistent_target` -/
  persistent : List Nat
  /-- `result_pointer_map` of the result -/
  targets : List Nat
deriving DecidableEq, Repr

/-- The arguments which are targets of the object a method belongs to are
persistent targets (semantic.py:917-927); the targets of the result
(semantic.py:6632-6650).  An array with several targets cannot be returned: the
wrapper fails (c_to_python_wrapper.py:1704-1713). -/
def compile (f : Func) : Option Info :=
  (analyse f.nargs f.body (fun _ => Option.none)).bind fun t =>
    let pers := if f.isMethod then (List.range f.nargs).filter (fun i => ((t 0).getD []).contains i)
      else []
    match f.ret with
    | .old ty q =>
      (newTargets f.nargs t Option.none q).bind fun ts =>
        if ty = .num then Option.none
        else if ty = .arr ∧ 1 < ts.length then Option.none
        else some ⟨pers, ts⟩
    | _ => some ⟨pers, []⟩

/-- The arguments of a constructor which are stored in pointers. -/
def leafArgs : Leaf → List Nat
  | .arg .num _ => []
  | .arg _ i => [i]
  | .fresh _ => []

def initArgs : Init → List Nat
  | .leaf l => leafArgs l
  | .sub ls => ls.flatMap leafArgs

def persistentInit (is : List Init) (n : Nat) : List Nat :=
  (List.range n).filter (fun i => (is.flatMap initArgs).contains i)

/-! ## Python objects -/

/-- `arr d owns`: a NumPy array on the elements `d`; `owns`: the elements are freed
with it (an array made by Python, or to_pyarray with release_memory).
`inst b alias`: the Python object of a class, with its members `instance` and
`is_alias`. -/
inductive Kind
  | num (v : Int)
  | arr (d : Nat) (owns : Bool)
  | inst (b : Nat) (alias : Bool)
deriving DecidableEq, Repr

/-- A Python object.  `refs`: the list `referenced_objects`, or the base of an array.
`rc`: the reference count, zero once the object is destroyed. -/
structure PyObj where
  kind : Kind
  refs : List Nat
  rc : Nat
deriving DecidableEq, Repr

/-- The value handed to the compiled code for an argument. -/
def Kind.ref : Kind → Ref
  | .num v => .num v
  | .arr d _ => .arr d
  | .inst b _ => .obj b

/-- `vars`: the variables of the Python program.  `leaked`: how many structures have
been allocated whose address is lost. -/
structure State where
  mem : Mem
  objs : List PyObj
  vars : List (Nat × Nat)
  leaked : Nat
deriving DecidableEq, Repr

def empty : State := ⟨⟨[], []⟩, [], [], 0⟩

/-- The object a variable refers to. -/
def look (s : State) (x : Nat) : Res (Nat × PyObj) :=
  match s.vars.find? (fun e => e.1 == x) with
  | Option.none => .raise
  | some (_, o) =>
    match s.objs[o]? with
    | some p => if p.rc = 0 then .ub else .ok (o, p)
    | Option.none => .ub

def lookAll (s : State) : List Nat → Res (List (Nat × PyObj))
  | [] => .ok []
  | x :: xs => (look s x).bind fun r => (lookAll s xs).map (r :: ·)

/-- Py_INCREF -/
def incref (os : List PyObj) (o : Nat) : List PyObj :=
  os.modify o fun p => { p with rc := p.rc + 1 }

/-- PyList_Append on the list `referenced_objects` of `o` (or PyArray_SetBaseObject
after Py_INCREF): the referenced object is counted once more. -/
def append (os : List PyObj) (o r : Nat) : List PyObj :=
  (incref os r).modify o fun p => { p with refs := p.refs ++ [r] }

/-- A new Python object, with the one reference its creator holds. -/
def newObj (s : State) (k : Kind) : State :=
  { s with objs := s.objs ++ [⟨k, [], 1⟩] }

/-- `__del__` of a structure frees the arrays it owns and the structures inside it
(semantic.py:1506-1520; the guard `is_freed` is not modelled). -/
def freeFields : List CField → Mem → Res Mem
  | [], m => .ok m
  | .own d :: fs, m => (freeData m d).bind (freeFields fs)
  | .sub b :: fs, m =>
    match m.insts[b]? with
    | some (some i) =>
      (freeOwn i.fields { m with insts := m.insts.set b Option.none }).bind (freeFields fs)
    | _ => .ub
  | _ :: fs, m => freeFields fs m
where
  freeOwn : List CField → Mem → Res Mem
    | [], m => .ok m
    | .own d :: fs, m => (freeData m d).bind (freeOwn fs)
    | _ :: fs, m => freeOwn fs m

/-- What is freed when a Python object is destroyed (capsule_cleanup for an array;
_get_class_destructor, c_to_python_wrapper.py:1534-1541, for a class: `__del__` and
then `free(instance)`, unless `is_alias`).  Memory inside another structure cannot
be freed on its own. -/
def destroy (m : Mem) : Kind → Res Mem
  | .num _ => .ok m
  | .arr _ false => .ok m
  | .arr d true => freeData m d
  | .inst _ true => .ok m
  | .inst b false =>
    (getInst m b).bind fun i =>
      if i.inside then .ub
      else (freeFields i.fields m).map fun m' => { m' with insts := m'.insts.set b Option.none }

/-- Py_DECREF on each object of a list; an object whose count reaches zero is
destroyed and then releases what it references (c_to_python_wrapper.py:1543-1551).
The number bounds the steps, it is never reached.  Simplification: the order in
which the elements of a list are released. -/
def release : Nat → List Nat → State → Res State
  | _, [], s => .ok s
  | 0, _ :: _, _ => .ub
  | n + 1, o :: ps, s =>
    match s.objs[o]? with
    | Option.none => .ub
    | some p =>
      if p.rc = 0 then .ub
      else if p.rc = 1 then
        (destroy s.mem p.kind).bind fun m =>
          release n (p.refs ++ ps) { s with mem := m, objs := s.objs.set o ⟨p.kind, [], 0⟩ }
      else release n ps { s with objs := s.objs.set o { p with rc := p.rc - 1 } }

/-- All references that are counted. -/
def total (s : State) : Nat := (s.objs.map PyObj.rc).sum

def drop (ps : List Nat) (s : State) : Res State := release (total s) ps s

/-- What the variable referred to is released after the variable has changed. -/
def unbind (s : State) (x : Nat) : List Nat × State :=
  ((s.vars.filter (fun e => e.1 == x)).map Prod.snd,
   { s with vars := s.vars.filter (fun e => !(e.1 == x)) })

/-- `x = …` for a reference which is handed over. -/
def assign (s : State) (x o : Nat) : Res State :=
  drop (unbind s x).1 { (unbind s x).2 with vars := (x, o) :: (unbind s x).2.vars }

/-- `x = …` for an object which has just been made (the last one). -/
def assignNew (s : State) (x : Nat) : Res State := assign s x (s.objs.length - 1)

/-- The objects `rs` are referenced by the object `o`. -/
def appendAll (os : List PyObj) (o : Nat) (rs : List Nat) : List PyObj :=
  rs.foldl (fun os r => append os o r) os

/-- The arguments with these numbers. -/
def pick (as : List (Nat × PyObj)) (is : List Nat) : List Nat :=
  is.filterMap fun i => (as[i]?).map Prod.fst

/-- A new object which references `rs`. -/
def newWith (s : State) (k : Kind) (rs : List Nat) : State :=
  { newObj s k with objs := appendAll (newObj s k).objs s.objs.length rs }

def argLocals (as : List (Nat × PyObj)) : Locals :=
  fun i => ((as[i]?).map fun a => a.2.kind.ref).getD .none

/-- The result of a function becomes a Python object
(c_to_python_wrapper.py:3896-4118).  An object of a class which existed before is
given a structure of its own first, whose address is then overwritten
(3944-3948 and 1664-1670). -/
def wrapResult (p : Prog) (i : Info) (as : List (Nat × PyObj)) (ret : Ret) (l : Locals)
    (s : State) (x : Nat) : Res State :=
  match ret with
  | .none => drop (unbind s x).1 (unbind s x).2
  | .num q =>
    (eval s.mem l q).bind fun r =>
      match r with
      | .num v => assignNew (newObj s (.num v)) x
      | _ => .raise
  | .old t q =>
    (eval s.mem l q).bind fun r =>
      match t, r with
      | .arr, .arr d => assignNew (newWith s (.arr d i.targets.isEmpty) (pick as i.targets)) x
      | .obj, .obj b =>
        assignNew { newWith s (.inst b true) (pick as i.targets) with leaked := s.leaked + 1 } x
      | _, _ => .raise
  | .fresh v =>
    assignNew (newObj { s with mem := (newData s.mem v).1 } (.arr (newData s.mem v).2 true)) x
  | .make c qs =>
    (evalAll s.mem l qs).bind fun rs =>
      (construct p c rs s.mem).bind fun r =>
        assignNew (newObj { s with mem := r.1 } (.inst r.2 false)) x
where
  evalAll (m : Mem) (l : Locals) : List Path → Res (List Ref)
    | [] => .ok []
    | q :: qs => (eval m l q).bind fun r => (evalAll m l qs).map (r :: ·)

/-- The object of a method references the arguments which are persistent targets
(c_to_python_wrapper.py: _save_referenced_objects, called from 2085-2235). -/
def saveTargets (os : List PyObj) (as : List (Nat × PyObj)) (rs : List Nat) : List PyObj :=
  match as with
  | a :: _ => appendAll os a.1 rs
  | [] => os

/-- The wrapper of a function (c_to_python_wrapper.py:2085-2235): the persistent
targets are referenced by the object of the method, the function is called, its
result is wrapped. -/
def callFunc (p : Prog) (f : Func) (s : State) (x : Nat) (as : List (Nat × PyObj)) : Res State :=
  match compile f with
  | Option.none => .raise
  | some i =>
    if as.length ≠ f.nargs then .raise
    else
      (exec f.body s.mem (argLocals as)).bind fun r =>
        wrapResult p i as f.ret r.2
          { s with mem := r.1, objs := saveTargets s.objs as (pick as i.persistent) } x

/-- The setter of an attribute (c_to_python_wrapper.py:2573-2631): numbers and
pointers only; the object references the new value from then on. -/
def setter (s : State) (o b k z : Nat) (r : Ref) : Res State :=
  (getField s.mem b k).bind fun f =>
    match f, r with
    | .num _, .num v =>
      .ok { s with mem := setField s.mem b k (.num v), objs := append s.objs o z }
    | .ptr _, .arr d =>
      .ok { s with mem := setField s.mem b k (.ptr d), objs := append s.objs o z }
    | .obj _, .obj b' =>
      .ok { s with mem := setField s.mem b k (.obj b'), objs := append s.objs o z }
    | _, _ => .raise

/-- The getter of an attribute (c_to_python_wrapper.py:2500-2560).  An array: its
base is the object.  A class: a new Python object whose structure is the member,
and which counts as an alias if the member is a pointer. -/
def getter (s : State) (o b k x : Nat) : Res State :=
  (getField s.mem b k).bind fun f =>
    match f with
    | .num v => assignNew (newObj s (.num v)) x
    | .own d => assignNew (newWith s (.arr d false) [o]) x
    | .ptr d => assignNew (newWith s (.arr d false) [o]) x
    | .obj b' => assignNew { newWith s (.inst b' true) [o] with leaked := s.leaked + 1 } x
    | .sub b' => assignNew { newWith s (.inst b' false) [o] with leaked := s.leaked + 1 } x

/-- One statement of the Python program; the second component is what is printed. -/
def step (p : Prog) (s : State) : Op → Res (State × List Int)
  | .num x v => (assignNew (newObj s (.num v)) x).map (·, [])
  | .arr x v =>
    (assignNew (newObj { s with mem := (newData s.mem v).1 } (.arr (newData s.mem v).2 true)) x).map
      (·, [])
  | .new x c args =>
    (lookAll s args).bind fun as =>
      (construct p c (as.map fun a => a.2.kind.ref) s.mem).bind fun r =>
        (assignNew (newWith { s with mem := r.1 } (.inst r.2 false)
          (pick as (persistentInit (p.classes.getD c []) as.length))) x).map (·, [])
  | .copy x y =>
    (look s y).bind fun a => (assign { s with objs := incref s.objs a.1 } x a.1).map (·, [])
  | .get x y k =>
    (look s y).bind fun a =>
      match a.2.kind with
      | .inst b _ => (getter s a.1 b k x).map (·, [])
      | _ => .raise
  | .set y k z =>
    (look s y).bind fun a => (look s z).bind fun c =>
      match a.2.kind with
      | .inst b _ => (setter s a.1 b k c.1 c.2.kind.ref).map (·, [])
      | _ => .raise
  | .setNum y k v =>
    (look s y).bind fun a =>
      match a.2.kind with
      | .inst b _ =>
        (setter (newObj s (.num v)) a.1 b k s.objs.length (.num v)).bind fun s' =>
          (drop [s.objs.length] s').map (·, [])
      | _ => .raise
  | .call x f args =>
    match p.funcs[f]? with
    | Option.none => .raise
    | some fn => (lookAll s args).bind fun as => (callFunc p fn s x as).map (·, [])
  | .fill y v =>
    (look s y).bind fun a =>
      match a.2.kind with
      | .arr d _ => (fillData s.mem d v).map fun m => ({ s with mem := m }, [])
      | _ => .raise
  | .print y =>
    (look s y).bind fun a =>
      match a.2.kind with
      | .num v => .ok (s, [v])
      | .arr d _ => (readData s.mem d).map fun v => (s, [v])
      | _ => .raise
  | .del x => (look s x).bind fun _ => (drop (unbind s x).1 (unbind s x).2).map (·, [])

/-- A whole Python program. -/
def run (p : Prog) : State → List Op → Res (State × List Int)
  | s, [] => .ok (s, [])
  | s, o :: os =>
    (step p s o).bind fun r => (run p r.1 os).map fun r' => (r'.1, r.2 ++ r'.2)

end Verif.Lifetimes.C
