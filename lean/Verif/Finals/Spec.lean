/-!
# Variables marked as `Final`: what Python programs do

Functions whose bodies are statements with numbers and NumPy arrays.  What Python changes when it runs
them, and which names are marked.
-/

namespace Verif.Finals.Spec

abbrev Name := Nat

/-- An annotation: marked as `Final` or not, and the number of dimensions (0: a number). -/
structure Ty where
  final : Bool
  rank : Nat
  deriving DecidableEq, Repr

/-- A subscript: an integer or a slice. -/
inductive Ix
  | at
  | slice
  deriving DecidableEq, Repr

/-- Expressions: a new value (`np.zeros(...)`, `1.5`), a variable, subscripts, `-e`, `e + e`. -/
inductive Expr
  | new (rank : Nat)
  | var (x : Name)
  | index (x : Name) (ixs : List Ix)
  | neg (e : Expr)
  | add (a b : Expr)
  deriving DecidableEq, Repr

/-- `x = e`, `x : t = e`, `x[ixs] = e`, `x += e`, `x[ixs] += e`, and `f(args)` with the function at
that place of the module. -/
inductive Stmt
  | assign (x : Name) (e : Expr)
  | declare (x : Name) (t : Ty) (e : Expr)
  | store (x : Name) (ixs : List Ix) (e : Expr)
  | aug (x : Name) (e : Expr)
  | augAt (x : Name) (ixs : List Ix) (e : Expr)
  | call (f : Nat) (args : List Expr)
  deriving DecidableEq, Repr

/-- The parameters of a function are its names `0, 1, …`. -/
structure Func where
  params : List Ty
  body : List Stmt
  deriving DecidableEq, Repr

/-! ## Python -/

/-- An object: whose memory it uses, and the number of dimensions. -/
structure Obj where
  id : Nat
  rank : Nat
  deriving DecidableEq, Repr

/-- While a function runs: what the names are bound to, the names that got another value, and the
memory that was written. -/
structure Run where
  env : Name → Option Obj
  next : Nat
  rebound : List Name
  mutated : List Nat

/-- Number of dimensions that subscripts leave. -/
def keeps (rank : Nat) (ixs : List Ix) : Nat := ixs.count .slice + (rank - ixs.length)

def Expr.rank (env : Name → Option Obj) : Expr → Nat
  | .new r => r
  | .var x => ((env x).map Obj.rank).getD 0
  | .index x ixs => keeps (((env x).map Obj.rank).getD 0) ixs
  | .neg e => e.rank env
  | .add a b => max (a.rank env) (b.rank env)

/-- The value of an expression: an array itself, a view of its memory, or something new. -/
def Expr.value (s : Run) : Expr → Obj
  | .var x =>
    match s.env x with
    | some o => if o.rank = 0 then ⟨s.next, 0⟩ else o
    | none => ⟨s.next, 0⟩
  | .index x ixs =>
    match s.env x with
    | some o => if keeps o.rank ixs = 0 then ⟨s.next, 0⟩ else ⟨o.id, keeps o.rank ixs⟩
    | none => ⟨s.next, 0⟩
  | e => ⟨s.next, e.rank s.env⟩

def put {α : Type} (g : Name → Option α) (x : Name) (a : α) : Name → Option α :=
  fun y => if y = x then some a else g y

/-- The memory of `x`. -/
def Run.ids (s : Run) (x : Name) : List Nat := ((s.env x).map fun o => [o.id]).getD []

/-- `x = e` in Python. -/
def Run.bind (s : Run) (x : Name) (e : Expr) : Run :=
  { env := put s.env x (e.value s), next := s.next + 1,
    rebound := if (s.env x).isSome then x :: s.rebound else s.rebound, mutated := s.mutated }

/-- One statement; `eff` says for each function which of its parameters it writes to. -/
def Run.step (eff : List (List Bool)) (s : Run) : Stmt → Run
  | .assign x e => s.bind x e
  | .declare x _ e => s.bind x e
  | .store x _ _ => { s with mutated := s.ids x ++ s.mutated }
  | .aug x _ =>
    if ((s.env x).map Obj.rank).getD 0 = 0 then { s with rebound := x :: s.rebound }
    else { s with mutated := s.ids x ++ s.mutated }
  | .augAt x _ _ => { s with mutated := s.ids x ++ s.mutated }
  | .call f args =>
    { s with
      next := s.next + 1
      mutated := (((args.zip ((eff[f]?).getD [])).filter (·.2)).map fun p => (p.1.value s).id)
        ++ s.mutated }

/-- The beginning of a call: every parameter has memory of its own. -/
def Func.start (f : Func) : Run :=
  { env := fun x => (f.params[x]?).map fun t => ⟨x, t.rank⟩, next := f.params.length,
    rebound := [], mutated := [] }

def Func.run (eff : List (List Bool)) (f : Func) : Run := f.body.foldl (Run.step eff) f.start

/-- Which parameters the function writes to. -/
def Func.writes (eff : List (List Bool)) (f : Func) : List Bool :=
  (List.range f.params.length).map fun k => decide (k ∈ (f.run eff).mutated)

/-- The functions of a module, each of which calls the ones before it. -/
def effects (fs : List Func) : List (List Bool) :=
  fs.foldl (fun eff f => eff ++ [f.writes eff]) []

/-! ## Final -/

/-- The parameters that are marked. -/
def Func.MarkedParam (f : Func) (x : Name) : Prop := ∃ t, f.params[x]? = some t ∧ t.final = true

/-- The names that are marked, by the parameter list or by a declaration. -/
def Func.Marked (f : Func) (x : Name) : Prop :=
  f.MarkedParam x ∨ ∃ t e, Stmt.declare x t e ∈ f.body ∧ t.final = true

/-- What a marked name promises: after the function has run, the name never got another value and the
memory of its value was not written. -/
def Kept (r : Run) (x : Name) : Prop :=
  x ∉ r.rebound ∧ ∀ o, r.env x = some o → o.id ∉ r.mutated

/-- `e` is `y` or subscripts of `y`. -/
def Expr.Of (e : Expr) (y : Name) : Prop := e = .var y ∨ ∃ ixs, e = .index y ixs

/-- No single elements or rows of a marked array are assigned, and marked arrays are only passed to
parameters that are marked themselves.  (`sigs`: the parameters of the functions of the module.) -/
def Stmt.Direct (sigs : List (List Ty)) (marked : Name → Prop) : Stmt → Prop
  | .store x ixs _ => marked x → ∀ i ∈ ixs, i = .slice
  | .augAt x ixs _ => marked x → ∀ i ∈ ixs, i = .slice
  | .call f args => ∀ sig, sigs[f]? = some sig → ∀ p ∈ args.zip sig, ∀ y, marked y → p.1.Of y →
      p.2.rank ≠ 0 → p.2.final = true
  | _ => True

/-- The state after the first `n` statements. -/
def Func.after (eff : List (List Bool)) (f : Func) (n : Nat) : Run :=
  (f.body.take n).foldl (Run.step eff) f.start

/-- The memory of the names `marked` never gets a second name. -/
def Func.OneName (eff : List (List Bool)) (f : Func) (marked : Name → Prop) : Prop :=
  ∀ n x y ox oy, marked x → (f.after eff n).env x = some ox → (f.after eff n).env y = some oy →
    ox.id = oy.id → y = x

/-- Every function of the module satisfies `Direct`; `marked` says which names of a function are
looked at. -/
def Direct (marked : Func → Name → Prop) (fs : List Func) : Prop :=
  ∀ (k : Nat) (f : Func), fs[k]? = some f → ∀ st ∈ f.body, st.Direct ((fs.take k).map Func.params) (marked f)

/-- Every function of the module satisfies `OneName`. -/
def OneName (marked : Func → Name → Prop) (fs : List Func) : Prop :=
  ∀ (k : Nat) (f : Func), fs[k]? = some f → f.OneName (effects (fs.take k)) (marked f)

/-- Every marked name of every function keeps its promise. -/
def AllKept (marked : Func → Name → Prop) (fs : List Func) : Prop :=
  ∀ (k : Nat) (f : Func), fs[k]? = some f → ∀ x, marked f x → Kept (f.run (effects (fs.take k))) x

/-! ## Reading -/

/-- `e` is an array marked as `Final`, all of it or slices of all its dimensions, or the negative of
such an array.  (`ty`: the annotations of the names.) -/
inductive Whole (ty : Name → Option Ty) : Expr → Prop
  | var (x : Name) (t : Ty) : ty x = some t → t.final = true → t.rank ≠ 0 → Whole ty (.var x)
  | index (x : Name) (t : Ty) (ixs : List Ix) : ty x = some t → t.final = true → t.rank ≠ 0 →
      (∀ i ∈ ixs, i = .slice) → Whole ty (.index x ixs)
  | neg (e : Expr) : Whole ty e → Whole ty (.neg e)

/-- Every name in the expression is known and has at most as many subscripts as dimensions. -/
def Legal (ty : Name → Option Ty) : Expr → Prop
  | .new _ => True
  | .var x => (ty x).isSome = true
  | .index x ixs => ∃ t, ty x = some t ∧ ixs ≠ [] ∧ ixs.length ≤ t.rank
  | .neg e => Legal ty e
  | .add a b => Legal ty a ∧ Legal ty b

end Verif.Finals.Spec
