import Verif.Globals.Spec

/-!
# Which variable a name refers to in the generated code

`pyccel/parser/scope.py` (`find`), `pyccel/parser/semantic.py` (`_assign_lhs_variable`,
`_visit_AnnotatedPyccelSymbol`, `_visit_FunctionDef`, `_annotate_the_called_function_def`,
`_visit_Module`), `pyccel/parser/syntactic.py` (`_get_unique_name`).  All values are integers: types are
not modelled (an assignment of another type is an error, C110).
-/

namespace Verif.Globals.Model
open Spec

/-- A variable of the generated code: of the running function (or of the program), or of the module. -/
inductive Ref
  | loc (x : Name)
  | glob (x : Name)
  deriving DecidableEq, Repr

/-- `Scope.find`, for the scope of a function (or of the program) with the variables `L` in a module with
the variables `G`: `scope.py:312-320`, which looks into the scope and then into its parent. -/
def find (G L : List Name) (x : Name) : Option Ref :=
  if L.contains x then some (.loc x) else if G.contains x then some (.glob x) else none

/-- The variables of an expression are looked up: `_visit_PyccelSymbol`, `semantic.py:4314-4317`.  A name
that is not found is an error. -/
def rExpr (G L : List Name) : Expr Name → Option (Expr Ref)
  | .lit v => some (.lit v)
  | .var x => (find G L x).map .var
  | .bin op a b => (rExpr G L a).bind fun a' => (rExpr G L b).map fun b' => .bin op a' b'

/-- Several expressions. -/
def rExprs (G L : List Name) : List (Expr Name) → Option (List (Expr Ref))
  | [] => some []
  | e :: r => (rExpr G L e).bind fun e' => (rExprs G L r).map fun r' => e' :: r'

/-- `var = self.scope.find(lhs)`, and a new variable of the scope `if var is None`:
`semantic.py:2264-2267`, `2340-2440`. -/
def lhs (G L : List Name) (x : Name) : Ref × List Name :=
  match find G L x with
  | some r => (r, L)
  | none => (.loc x, x :: L)

/-- The statements of a function or of the program, in the order of the text.  `res` is the result that
was declared before.  An annotated name is only looked for in the scope itself, where it may only be the
result: `semantic.py:4355-4363`. -/
def rStmt (G : List Name) (res : Option Name) : List Name → Stmt Name → Option (Stmt Ref × List Name)
  | L, .skip => some (.skip, L)
  | L, .seq a b =>
    (rStmt G res L a).bind fun (a', L) => (rStmt G res L b).map fun (b', L) => (.seq a' b', L)
  | L, .assign x e => (rExpr G L e).map fun e' => (.assign (lhs G L x).1 e', (lhs G L x).2)
  | L, .ann x e =>
    if L.contains x && res != some x then none
    else (rExpr G (x :: L) e).map fun e' => (.ann (.loc x) e', x :: L)
  | L, .call x f as => (rExprs G L as).map fun as' => (.call (lhs G L x).1 f as', (lhs G L x).2)
  | L, .print e => (rExpr G L e).map fun e' => (.print e', L)
  | L, .ite c a b =>
    (rExpr G L c).bind fun c' => (rStmt G res L a).bind fun (a', L) =>
      (rStmt G res L b).map fun (b', L) => (.ite c' a' b', L)
  | L, .while c b =>
    (rExpr G L c).bind fun c' => (rStmt G res L b).map fun (b', L) => (.while c' b', L)

/-- A function of the generated code. -/
structure CFun where
  name : Name
  params : List Name
  body : Stmt Ref
  ret : Expr Ref

/-- The name of the result: the variable that is returned, if the function assigns it and it is no
parameter (`_get_unique_name`, `syntactic.py:465-473`, with one `return`); otherwise a new name.  If its
type is annotated it is declared before the body is visited: `syntactic.py:1177-1180`,
`semantic.py:6543-6545`. -/
def result (f : Fun) : Option Name :=
  match f.ret with
  | .var x => if f.retAnn && (assigned f.body).contains x && !f.params.contains x then some x else none
  | _ => none

/-- `_visit_FunctionDef`, `semantic.py:6500-6590`, when the module has the variables `G`. -/
def rFun (G : List Name) (f : Fun) : Option CFun :=
  (rStmt G (result f) ((result f).toList ++ f.params) f.body).bind fun (b, L) =>
    (rExpr G L f.ret).map fun r => ⟨f.name, f.params, b, r⟩

/-- The functions that a block calls, in the order of the text. -/
def calls : Stmt Name → List Name
  | .skip | .assign _ _ | .ann _ _ | .print _ => []
  | .seq a b | .ite _ a b => calls a ++ calls b
  | .call _ f _ => [f]
  | .while _ b => calls b

/-- The functions that were visited, with the variables that the module had at this moment. -/
abbrev Visited := List (Name × List Name)

/-- A function is visited when the first call is, and with it the functions that it calls: `elif not
func.is_semantic: func = self._annotate_the_called_function_def(func, args)`, `semantic.py:1737-1738`.
(A function is marked before its body is visited, 6550-6551, so that there are no more nested visits than
functions: `fuel`.) -/
def touch (fs : List Fun) (G : List Name) : Nat → Visited → Name → Visited
  | 0, vis, _ => vis
  | n + 1, vis, f =>
    if (vis.lookup f).isSome then vis
    else match getFun fs f with
      | none => vis
      | some d => (calls d.body).foldl (touch fs G n) ((f, G) :: vis)

/-- The statements of the module, in the order of the text: each name that is assigned becomes a variable
of the module (`_visit_Module`, `semantic.py:3667`).  A call visits the function, before the variable that
takes its result is created. -/
def mStmt (fs : List Fun) : List Name × Visited → Stmt Name → Option (Stmt Ref × List Name × Visited)
  | (G, vis), .skip => some (.skip, G, vis)
  | (G, vis), .seq a b =>
    (mStmt fs (G, vis) a).bind fun (a', st) => (mStmt fs st b).map fun (b', st) => (.seq a' b', st)
  | (G, vis), .assign x e => (rExpr G [] e).map fun e' => (.assign (.glob x) e', x :: G, vis)
  | (G, vis), .ann x e =>
    if G.contains x then none else (rExpr (x :: G) [] e).map fun e' => (.ann (.glob x) e', x :: G, vis)
  | (G, vis), .call x f as =>
    (rExprs G [] as).map fun as' => (.call (.glob x) f as', x :: G, touch fs G (fs.length + 1) vis f)
  | (G, vis), .print e => (rExpr G [] e).map fun e' => (.print e', G, vis)
  | (G, vis), .ite c a b =>
    (rExpr G [] c).bind fun c' => (mStmt fs (G, vis) a).bind fun (a', st) =>
      (mStmt fs st b).map fun (b', st) => (.ite c' a' b', st)
  | (G, vis), .while c b =>
    (rExpr G [] c).bind fun c' => (mStmt fs (G, vis) b).map fun (b', st) => (.while c' b', st)

/-- The generated code. -/
structure CProg where
  funcs : List CFun
  mod : Stmt Ref
  main : Stmt Ref

/-- All functions: those that were not visited from the statements of the module are visited when all its
variables exist, `semantic.py:3711-3721`. -/
def rFuns (vis : Visited) (G : List Name) : List Fun → Option (List CFun)
  | [] => some []
  | f :: r => (rFun ((vis.lookup f.name).getD G) f).bind fun f' =>
      (rFuns vis G r).map fun r' => f' :: r'

/-- `_visit_Module`: the statements, the program (whose scope is a child of that of the module,
`semantic.py:3684-3698`), the functions. -/
def compile (p : Prog) : Option CProg :=
  (mStmt p.funcs ([], []) p.mod).bind fun (m, G, vis) =>
    (rStmt G none [] p.main).bind fun (main, _) =>
      (rFuns vis G p.funcs).map fun fs => ⟨fs, m, main⟩

/-! ### The generated code runs -/

/-- A variable of the generated code is read.  The value of a variable that was never set is undefined:
`none`. -/
def readC (s : State) : Ref → Option Int
  | .loc x => s.loc x
  | .glob x => s.glob x

def writeC (s : State) : Ref → Int → State
  | .loc x, v => { s with loc := put s.loc x v }
  | .glob x, v => { s with glob := put s.glob x v }

def getCFun : List CFun → Name → Option CFun
  | [], _ => none
  | f :: r, n => if f.name = n then some f else getCFun r n

/-- The generated C or Fortran code: statements are printed as they are, each call has its own local
variables (`ccode.py:2136-2160` declares the local ones, those of the module are declared once). -/
def execC (fs : List CFun) : Nat → Stmt Ref → State → Option State
  | 0, _, _ => none
  | _ + 1, .skip, s => some s
  | n + 1, .seq a b, s => (execC fs n a s).bind (execC fs n b)
  | _ + 1, .assign x e, s => (eval (readC s) e).map (writeC s x)
  | _ + 1, .ann x e, s => (eval (readC s) e).map (writeC s x)
  | n + 1, .call x f as, s =>
    (evals (readC s) as).bind fun vs =>
    (getCFun fs f).bind fun d =>
    (bindParams d.params vs).bind fun m =>
    (execC fs n d.body { s with loc := m }).bind fun t =>
    (eval (readC t) d.ret).map fun v => writeC { t with loc := s.loc } x v
  | _ + 1, .print e, s => (eval (readC s) e).map fun v => { s with out := s.out ++ [v] }
  | n + 1, .ite c a b, s => (eval (readC s) c).bind fun v => if v ≠ 0 then execC fs n a s else execC fs n b s
  | n + 1, .while c b, s =>
    (eval (readC s) c).bind fun v =>
      if v ≠ 0 then (execC fs n b s).bind (execC fs n (.while c b)) else some s

/-- What the compiled program prints: the program calls the initialisation of the module first,
`semantic.py:3919-3921`. -/
def runC (c : CProg) (fuel : Nat) : Option (List Int) :=
  (execC c.funcs fuel (.seq c.mod c.main) ⟨fun _ => none, fun _ => none, []⟩).map (·.out)

/-! ### Another file -/

/-- `from m import ...` in another file: the imported variables are those of `m` (`container[entry][t] =
e.clone(e.name)`, `semantic.py:7291`), and `Scope.find` looks into the imports of a scope after its own
variables (`scope.py:316-317`).  All names must exist (otherwise there is only a warning,
`semantic.py:7295-7300`, and the names are not found). -/
def compileImport (p : Prog) (imported : List Name) (use : Stmt Name) : Option (CProg × Stmt Ref) :=
  (mStmt p.funcs ([], []) p.mod).bind fun (m, G, vis) =>
    if imported.all G.contains then
      (rStmt imported none [] use).bind fun (u, _) =>
        (rFuns vis G p.funcs).map fun fs => (⟨fs, m, .skip⟩, u)
    else none

/-- What the other file prints: it calls the initialisation of `m` first, `semantic.py:7334`. -/
def runCImport (c : CProg) (use : Stmt Ref) (fuel : Nat) : Option (List Int) :=
  ((execC c.funcs fuel c.mod ⟨fun _ => none, fun _ => none, []⟩).bind fun s =>
    execC c.funcs fuel use { s with loc := fun _ => none }).map (·.out)

end Verif.Globals.Model
