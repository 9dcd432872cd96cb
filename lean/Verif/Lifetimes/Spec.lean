/-
Objects of compiled classes as a Python program sees them: what plain Python
prints for every sequence of statements which create objects and arrays, read and
write attributes, call functions and methods, and forget variables.

Nothing here mentions pyccel, memory, pointers or reference counts.

Simplifications: the contents of an array are one number (all its elements have
the same value); a number is an integer; the body of a function has no loops.
-/
namespace Verif.Lifetimes

/-- What an attribute is annotated with. -/
inductive Ty
  | num | arr | obj
deriving DecidableEq, Repr

/-- `v.a.b…`: a variable of a function (its arguments come first) and the
attributes read one after the other.  Attributes are numbered. -/
structure Path where
  root : Nat
  attrs : List Nat
deriving DecidableEq, Repr

/-- A statement in the body of a function or of a method. -/
inductive Stmt
  /-- nothing -/
  | skip
  /-- one after the other -/
  | seq (a b : Stmt)
  /-- `if q > 0: a else: b` -/
  | ite (q : Path) (a b : Stmt)
  /-- `v = q`, where `q` is an array or an object and `v` a variable of the
  function which is not an argument -/
  | bind (v : Nat) (q : Path)
  /-- `p.k = q`, where `q` is an array or an object -/
  | store (p : Path) (k : Nat) (q : Path)
  /-- `p.k = q`, where `q` is a number -/
  | setNum (p : Path) (k : Nat) (q : Path)
  /-- `q[:] = v` -/
  | fill (q : Path) (v : Int)
  /-- `p.k = np.full(n, v)` -/
  | renew (p : Path) (k : Nat) (v : Int)
deriving DecidableEq, Repr

/-- What a function returns. -/
inductive Ret
  | none
  /-- a number -/
  | num (q : Path)
  /-- an array or an object which exists already -/
  | old (t : Ty) (q : Path)
  /-- `np.full(n, v)` -/
  | fresh (v : Int)
  /-- `C(args…)` -/
  | make (c : Nat) (args : List Path)
deriving DecidableEq, Repr

/-- A function; a method has its object as its first argument. -/
structure Func where
  nargs : Nat
  isMethod : Bool
  body : Stmt
  ret : Ret
deriving DecidableEq, Repr

/-- How the constructor of a class sets an attribute of an inner object. -/
inductive Leaf
  /-- `self.k = x` where `x` is the argument number `i` -/
  | arg (t : Ty) (i : Nat)
  /-- `self.k = np.full(n, v)` -/
  | fresh (v : Int)
deriving DecidableEq, Repr

/-- How the constructor of a class sets an attribute. -/
inductive Init
  | leaf (l : Leaf)
  /-- `self.k = D(…)`: an object of another class, whose attributes are set as
  listed (the arguments are those of the outer constructor).  Simplification: the
  inner object has no inner objects of its own. -/
  | sub (ls : List Leaf)
deriving DecidableEq, Repr

/-- The file: its classes (the attributes each constructor sets) and its functions. -/
structure Prog where
  classes : List (List Init)
  funcs : List Func
deriving DecidableEq, Repr

/-- A statement of the Python program which uses the compiled file. -/
inductive Op
  /-- `x = v` -/
  | num (x : Nat) (v : Int)
  /-- `x = np.full(n, v)` -/
  | arr (x : Nat) (v : Int)
  /-- `x = C(args…)` -/
  | new (x : Nat) (c : Nat) (args : List Nat)
  /-- `x = y` -/
  | copy (x y : Nat)
  /-- `x = y.k` -/
  | get (x y k : Nat)
  /-- `y.k = z` -/
  | set (y k z : Nat)
  /-- `y.k = v` -/
  | setNum (y k : Nat) (v : Int)
  /-- `x = f(args…)`, or `x = args[0].f(args[1:]…)` -/
  | call (x : Nat) (f : Nat) (args : List Nat)
  /-- `y[:] = v` -/
  | fill (y : Nat) (v : Int)
  /-- `print(y)`, where `y` is a number or an array -/
  | print (y : Nat)
  /-- `del x` -/
  | del (x : Nat)
deriving DecidableEq, Repr

namespace Py

/-- A value: a number, or a reference to an array or to an object. -/
inductive Val
  | none
  | num (v : Int)
  | arr (d : Nat)
  | obj (b : Nat)
deriving DecidableEq, Repr

/-- All arrays and all objects ever made. -/
structure Heap where
  arrs : List Int
  objs : List (List Val)
deriving DecidableEq, Repr

/-- `b.k` -/
def attr (h : Heap) (v : Val) (k : Nat) : Option Val :=
  match v with
  | .obj b => (h.objs[b]?).bind (·[k]?)
  | _ => .none

/-- Reading attributes one after the other. -/
def follow (h : Heap) : Val → List Nat → Option Val
  | v, [] => some v
  | v, k :: ks => (attr h v k).bind (follow h · ks)

/-- The variables of a function. -/
abbrev Env := Nat → Val

def eval (h : Heap) (e : Env) (p : Path) : Option Val :=
  match e p.root with
  | .none => .none
  | v => follow h v p.attrs

/-- `e[x] = v` -/
def upd (e : Env) (x : Nat) (v : Val) : Env := fun y => if y = x then v else e y

/-- `b.k = w`, for an attribute which exists. -/
def setAttr (h : Heap) (b k : Nat) (w : Val) : Option Heap :=
  match h.objs[b]? with
  | some fs => if k < fs.length then some { h with objs := h.objs.set b (fs.set k w) } else .none
  | .none => .none

/-- A new array. -/
def newArr (h : Heap) (v : Int) : Heap × Val :=
  ({ h with arrs := h.arrs ++ [v] }, .arr h.arrs.length)

/-- A new object with these attributes. -/
def newObj (h : Heap) (fs : List Val) : Heap × Val :=
  ({ h with objs := h.objs ++ [fs] }, .obj h.objs.length)

/-- Is the value of this type? -/
def hasTy : Val → Ty → Bool
  | .num _, .num => true
  | .arr _, .arr => true
  | .obj _, .obj => true
  | _, _ => false

/-- A function body.  `none`: an exception. -/
def exec : Stmt → Heap → Env → Option (Heap × Env)
  | .skip, h, e => some (h, e)
  | .seq a b, h, e => (exec a h e).bind fun r => exec b r.1 r.2
  | .ite q a b, h, e =>
    match eval h e q with
    | some (.num v) => if 0 < v then exec a h e else exec b h e
    | _ => .none
  | .bind v q, h, e =>
    match eval h e q with
    | some w => some (h, upd e v w)
    | .none => .none
  | .store p k q, h, e =>
    match eval h e p, eval h e q with
    | some (.obj b), some w => (setAttr h b k w).map (·, e)
    | _, _ => .none
  | .setNum p k q, h, e =>
    match eval h e p, eval h e q with
    | some (.obj b), some w => (setAttr h b k w).map (·, e)
    | _, _ => .none
  | .fill q v, h, e =>
    match eval h e q with
    | some (.arr d) => some ({ h with arrs := h.arrs.set d v }, e)
    | _ => .none
  | .renew p k v, h, e =>
    match eval h e p with
    | some (.obj b) => (setAttr (newArr h v).1 b k (newArr h v).2).map (·, e)
    | _ => .none

/-- One attribute set by a constructor. -/
def leaf (h : Heap) (args : List Val) : Leaf → Option (Heap × Val)
  | .arg _ i => (args[i]?).map (h, ·)
  | .fresh v => some (newArr h v)

def leaves (args : List Val) : List Leaf → Heap → Option (Heap × List Val)
  | [], h => some (h, [])
  | l :: ls, h =>
    (leaf h args l).bind fun r => (leaves args ls r.1).map fun r' => (r'.1, r.2 :: r'.2)

def inits (args : List Val) : List Init → Heap → Option (Heap × List Val)
  | [], h => some (h, [])
  | .leaf l :: ls, h =>
    (leaf h args l).bind fun r => (inits args ls r.1).map fun r' => (r'.1, r.2 :: r'.2)
  | .sub l :: ls, h =>
    (leaves args l h).bind fun r =>
      (inits args ls (newObj r.1 r.2).1).map fun r' => (r'.1, (newObj r.1 r.2).2 :: r'.2)

/-- `C(args…)` -/
def construct (p : Prog) (c : Nat) (args : List Val) (h : Heap) : Option (Heap × Val) :=
  (p.classes[c]?).bind fun is => (inits args is h).map fun r => newObj r.1 r.2

/-- The variables of a function when it starts. -/
def argEnv (args : List Val) : Env := fun i => args.getD i .none

/-- `f(args…)` -/
def call (p : Prog) (f : Func) (args : List Val) (h : Heap) : Option (Heap × Val) :=
  (exec f.body h (argEnv args)).bind fun r =>
    match f.ret with
    | .none => some (r.1, .none)
    | .num q => (eval r.1 r.2 q).map (r.1, ·)
    | .old _ q => (eval r.1 r.2 q).map (r.1, ·)
    | .fresh v => some (newArr r.1 v)
    | .make c qs => (qs.mapM (eval r.1 r.2)).bind fun vs => construct p c vs r.1

/-- The state of the Python program: its variables and everything they refer to. -/
structure State where
  heap : Heap
  env : Env

/-- The value of a variable which is defined. -/
def get (s : State) (x : Nat) : Option Val :=
  match s.env x with
  | .none => .none
  | v => some v

/-- One statement; the second component is what it prints.  `none`: an exception. -/
def step (p : Prog) (s : State) : Op → Option (State × List Int)
  | .num x v => some ({ s with env := upd s.env x (.num v) }, [])
  | .arr x v => some (⟨(newArr s.heap v).1, upd s.env x (newArr s.heap v).2⟩, [])
  | .new x c args =>
    (args.mapM (get s)).bind fun vs =>
      (construct p c vs s.heap).map fun r => (⟨r.1, upd s.env x r.2⟩, [])
  | .copy x y => (get s y).map fun v => ({ s with env := upd s.env x v }, [])
  | .get x y k =>
    (get s y).bind fun v => (attr s.heap v k).map fun w => ({ s with env := upd s.env x w }, [])
  | .set y k z =>
    match get s y, get s z with
    | some (.obj b), some w => (setAttr s.heap b k w).map fun h => ({ s with heap := h }, [])
    | _, _ => .none
  | .setNum y k v =>
    match get s y with
    | some (.obj b) => (setAttr s.heap b k (.num v)).map fun h => ({ s with heap := h }, [])
    | _ => .none
  | .call x f args =>
    (p.funcs[f]?).bind fun f =>
      (args.mapM (get s)).bind fun vs =>
        (call p f vs s.heap).map fun r => (⟨r.1, upd s.env x r.2⟩, [])
  | .fill y v =>
    match get s y with
    | some (.arr d) => some ({ s with heap := { s.heap with arrs := s.heap.arrs.set d v } }, [])
    | _ => .none
  | .print y =>
    match get s y with
    | some (.num v) => some (s, [v])
    | some (.arr d) => (s.heap.arrs[d]?).map fun v => (s, [v])
    | _ => .none
  | .del x => (get s x).map fun _ => ({ s with env := upd s.env x .none }, [])

/-- A whole program, started from `s`. -/
def run (p : Prog) : State → List Op → Option (State × List Int)
  | s, [] => some (s, [])
  | s, o :: os =>
    (step p s o).bind fun r => (run p r.1 os).map fun r' => (r'.1, r.2 ++ r'.2)

/-- Nothing exists yet. -/
def empty : State := ⟨⟨[], []⟩, fun _ => .none⟩

end Py

end Verif.Lifetimes
