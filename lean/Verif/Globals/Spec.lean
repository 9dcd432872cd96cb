/-!
# Variables of functions and of modules: what a user relies on

In Python an assignment in a function makes the name local to this function, wherever else it is used.
Programs here have functions, statements at the top of the file and a block
`if __name__ == "__main__":`.  What a program prints is what can be observed.
-/

namespace Verif.Globals.Spec

abbrev Name := Nat

/-- Expressions; `α` is what stands for a variable. -/
inductive Expr (α : Type)
  | lit (v : Int)
  | var (x : α)
  | bin (op : Int → Int → Int) (a b : Expr α)

/-- Statements: `x = e`, `x : int = e`, `x = f(args)`, `print(e)`, `if`, `while`. -/
inductive Stmt (α : Type)
  | skip
  | seq (a b : Stmt α)
  | assign (x : α) (e : Expr α)
  | ann (x : α) (e : Expr α)
  | call (x : α) (f : Name) (args : List (Expr α))
  | print (e : Expr α)
  | ite (c : Expr α) (t e : Stmt α)
  | while (c : Expr α) (b : Stmt α)

/-- `def name(params): body; return ret`; `retAnn` says that the type of the result is annotated. -/
structure Fun where
  name : Name
  params : List Name
  retAnn : Bool
  body : Stmt Name
  ret : Expr Name

/-- A file.  (The functions stand before the statements.) -/
structure Prog where
  funcs : List Fun
  mod : Stmt Name
  main : Stmt Name

/-- The variables of an expression. -/
def vars : Expr Name → List Name
  | .lit _ => []
  | .var x => [x]
  | .bin _ a b => vars a ++ vars b

/-- The names that a block assigns. -/
def assigned : Stmt Name → List Name
  | .skip | .print _ => []
  | .seq a b | .ite _ a b => assigned a ++ assigned b
  | .assign x _ | .ann x _ | .call x _ _ => [x]
  | .while _ b => assigned b

/-- The names that a block annotates. -/
def annotated : Stmt Name → List Name
  | .skip | .print _ | .assign _ _ | .call _ _ _ => []
  | .seq a b | .ite _ a b => annotated a ++ annotated b
  | .ann x _ => [x]
  | .while _ b => annotated b

/-- All names of a block. -/
def names : Stmt Name → List Name
  | .skip => []
  | .print e => vars e
  | .seq a b => names a ++ names b
  | .assign x e | .ann x e => x :: vars e
  | .call x _ as => x :: as.flatMap vars
  | .ite c a b => vars c ++ names a ++ names b
  | .while c b => vars c ++ names b

/-! ### Python -/

/-- The variables of the file, those of the running function, and what was printed. -/
structure State where
  glob : Name → Option Int
  loc : Name → Option Int
  out : List Int

/-- The value of a variable is set. -/
def put (m : Name → Option Int) (x : Name) (v : Int) : Name → Option Int :=
  fun y => if y = x then some v else m y

/-- The value of an expression, `none` if a variable has none (Python raises an exception). -/
def eval {α : Type} (rd : α → Option Int) : Expr α → Option Int
  | .lit v => some v
  | .var x => rd x
  | .bin op a b => (eval rd a).bind fun u => (eval rd b).map fun v => op u v

/-- The values of several expressions. -/
def evals {α : Type} (rd : α → Option Int) : List (Expr α) → Option (List Int)
  | [] => some []
  | e :: r => (eval rd e).bind fun v => (evals rd r).map fun l => v :: l

/-- The local variables at the beginning of a call. -/
def bindParams : List Name → List Int → Option (Name → Option Int)
  | [], [] => some fun _ => none
  | p :: ps, v :: vs => (bindParams ps vs).map fun m => put m p v
  | _, _ => none

/-- The names that are local to a function: the parameters and what it assigns, unless it declares them
with `global`. -/
def isLocal (decl : Name → List Name) (f : Fun) (x : Name) : Bool :=
  f.params.contains x || ((assigned f.body).contains x && !(decl f.name).contains x)

def State.read (loc : Name → Bool) (s : State) (x : Name) : Option Int :=
  if loc x then s.loc x else s.glob x

def State.write (loc : Name → Bool) (s : State) (x : Name) (v : Int) : State :=
  if loc x then { s with loc := put s.loc x v } else { s with glob := put s.glob x v }

/-- The function of a name. -/
def getFun : List Fun → Name → Option Fun
  | [], _ => none
  | f :: r, n => if f.name = n then some f else getFun r n

/-- Python runs a statement; `decl f` are the names that the function `f` declares with `global`, `loc`
says which names are local to the running code.  `none`: an exception, or more than `fuel` steps. -/
def exec (fs : List Fun) (decl : Name → List Name) :
    Nat → (Name → Bool) → Stmt Name → State → Option State
  | 0, _, _, _ => none
  | _ + 1, _, .skip, s => some s
  | n + 1, loc, .seq a b, s => (exec fs decl n loc a s).bind (exec fs decl n loc b)
  | _ + 1, loc, .assign x e, s => (eval (s.read loc) e).map (s.write loc x)
  | _ + 1, loc, .ann x e, s => (eval (s.read loc) e).map (s.write loc x)
  | n + 1, loc, .call x f as, s =>
    (evals (s.read loc) as).bind fun vs =>
    (getFun fs f).bind fun d =>
    (bindParams d.params vs).bind fun m =>
    (exec fs decl n (isLocal decl d) d.body { s with loc := m }).bind fun t =>
    (eval (t.read (isLocal decl d)) d.ret).map fun v =>
      State.write loc { t with loc := s.loc } x v
  | _ + 1, loc, .print e, s => (eval (s.read loc) e).map fun v => { s with out := s.out ++ [v] }
  | n + 1, loc, .ite c a b, s =>
    (eval (s.read loc) c).bind fun v => if v ≠ 0 then exec fs decl n loc a s else exec fs decl n loc b s
  | n + 1, loc, .while c b, s =>
    (eval (s.read loc) c).bind fun v =>
      if v ≠ 0 then (exec fs decl n loc b s).bind (exec fs decl n loc (.while c b)) else some s

/-- What Python prints, if each function `f` begins with `global` for the names `decl f`. -/
def runGlobal (p : Prog) (decl : Name → List Name) (fuel : Nat) : Option (List Int) :=
  (exec p.funcs decl fuel (fun _ => false) (.seq p.mod p.main) ⟨fun _ => none, fun _ => none, []⟩).map (·.out)

/-- What Python prints. -/
def run (p : Prog) (fuel : Nat) : Option (List Int) := runGlobal p (fun _ => []) fuel

/-- What Python prints, if the statements `use` stand in another file that begins with `from m import ...`
for the functions of the file and the variables `imported`.  The other file has its own variables, which
first have the values of those that are imported. -/
def runImport (p : Prog) (imported : List Name) (use : Stmt Name) (fuel : Nat) : Option (List Int) :=
  ((exec p.funcs (fun _ => []) fuel (fun _ => false) p.mod ⟨fun _ => none, fun _ => none, []⟩).bind fun s =>
    exec p.funcs (fun _ => []) fuel (fun _ => true) use
      { s with loc := fun x => if imported.contains x then s.glob x else none }).map (·.out)

/-! ### Programs -/

/-- The first statement with the name `x` is `x : int = ...`, in the outermost block. -/
def firstAnn (x : Name) : Stmt Name → Prop
  | .seq a b => if x ∈ names a then firstAnn x a else firstAnn x b
  | .ann y _ => y = x
  | _ => False

/-- A block without calls. -/
def NoCall : Stmt Name → Prop
  | .call _ _ _ => False
  | .seq a b | .ite _ a b => NoCall a ∧ NoCall b
  | .while _ b => NoCall b
  | _ => True

/-- `x` is visibly a variable of the function: a parameter, declared with its type before it is used, or
the result, whose type is annotated. -/
def Own (f : Fun) (x : Name) : Prop :=
  x ∈ f.params ∨ (f.retAnn = true ∧ f.ret = .var x) ∨ firstAnn x f.body

/-- Names that functions assign are names of variables of the file only if they are visibly local, and
`if __name__ == "__main__":` declares no variable of the file again. -/
structure Apart (p : Prog) : Prop where
  funcs : ∀ f ∈ p.funcs, ∀ x ∈ assigned f.body, x ∈ assigned p.mod → Own f x
  main : ∀ x ∈ annotated p.main, x ∉ assigned p.mod

/-- Names that a function annotates are names of variables of the file only if they are annotated before
they are used. -/
structure Tidy (p : Prog) : Prop where
  funcs : ∀ f ∈ p.funcs, ∀ x ∈ annotated f.body, x ∈ assigned p.mod → Own f x
  main : ∀ x ∈ annotated p.main, x ∉ assigned p.mod

end Verif.Globals.Spec
