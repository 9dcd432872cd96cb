import Verif.Nested.Spec
import Verif.Globals.Model
/-
Model for C172–C173: functions inside functions.  Names are found as for functions of a file (`Scope.find` goes to the scope around,
pyccel/parser/scope.py:312-330; nested functions are visited when they are called, the others at the end of the body,
pyccel/parser/semantic.py:6562-6577), so `Verif.Globals.Model.compile` is used, with the outer function in place of the file.
Fortran prints the nested functions after `contains` (pyccel/codegen/printing/fcode.py:3000-3002), where they share its variables:
this is `Verif.Globals.Model.runC`.  C prints them before the outer function with the addresses of these variables as further parameters.
Not modelled: functions nested twice (Fortran does not allow them; in C `global_vars`, semantic.py:6593-6594, has the variables of the next
function only), arrays, results of the outer function.
-/
namespace Verif.Nested.Model
open Verif.Globals.Spec Verif.Globals.Model Verif.Nested.Spec

/-- The variables of the outer function in an expression. -/
def outerE : Expr Ref → List Name
  | .lit _ => []
  | .var (.loc _) => []
  | .var (.glob x) => [x]
  | .bin _ a b => outerE a ++ outerE b

def outerR : Ref → List Name
  | .loc _ => []
  | .glob x => [x]

/-- The variables of the outer function in a block. -/
def outerS : Stmt Ref → List Name
  | .skip => []
  | .seq a b => outerS a ++ outerS b
  | .assign x e | .ann x e => outerR x ++ outerE e
  | .call x _ as => outerR x ++ as.flatMap outerE
  | .print e => outerE e
  | .ite c a b => outerE c ++ outerS a ++ outerS b
  | .while c b => outerE c ++ outerS b

/-- `global_vars`: the variables of the outer function `if body.is_user_of(g)` (semantic.py:6593-6594), which is also true for those
that called functions use, since a call refers to the definition (pyccel/ast/basic.py:242-262).  `fuel`: the number of functions. -/
def extras (fs : List CFun) : Nat → Name → List Name
  | 0, _ => []
  | n + 1, f => match getCFun fs f with
    | none => []
    | some d => outerS d.body ++ outerE d.ret ++ (callees d.body).flatMap (extras fs n)

def globalVars (fs : List CFun) (f : Name) : List Name := extras fs fs.length f

/-- `f` calls `g`, directly or not. -/
def reaches (fs : List CFun) : Nat → Name → Name → Bool
  | 0, _, _ => false
  | n + 1, f, g => match getCFun fs f with
    | none => false
    | some d => (callees d.body).contains g || (callees d.body).any fun h => reaches fs n h g

/-- The further arguments of a call of `g` in `f`: `for v in func.global_vars` (pyccel/codegen/printing/ccode.py:3141-3143).  While a function is
visited, `recursive_func_obj` stands for it, which has no `global_vars` (semantic.py:6550-6551): the calls that close a cycle pass none.  Which
call of a cycle this is depends on the order of the text; here it is each of them, which makes no difference, because all functions
of a cycle have the same `global_vars`. -/
def passed (fs : List CFun) (f g : Name) : List Name :=
  if reaches fs fs.length g f then [] else globalVars fs g

/-- The C compiler accepts the nested functions: a call has as many arguments as the function has parameters, and all variables are
declared. -/
def compilesC (fs : List CFun) : Bool :=
  fs.all fun d => (outerS d.body ++ outerE d.ret).all (globalVars fs d.name).contains &&
    (callees d.body).all fun g =>
      (passed fs d.name g).length == (globalVars fs g).length && (passed fs d.name g).all (globalVars fs d.name).contains

/-- The memory of the C program: the variables of each call have a number; 0 are those of the outer function. -/
structure Mem where
  frames : Nat → Name → Option Int
  next : Nat
  out : List Int

/-- The address that a name of the outer function stands for. -/
abbrev Ptrs := Name → Option (Nat × Name)

def readP (fr : Nat) (p : Ptrs) (s : Mem) : Ref → Option Int
  | .loc x => s.frames fr x
  | .glob x => (p x).bind fun a => s.frames a.1 a.2

def store (s : Mem) (k : Nat) (x : Name) (v : Int) : Mem :=
  { s with frames := fun j => if j = k then put (s.frames k) x v else s.frames j }

def writeP (fr : Nat) (p : Ptrs) (s : Mem) : Ref → Int → Option Mem
  | .loc x, v => some (store s fr x v)
  | .glob x, v => (p x).map fun a => store s a.1 a.2 v

/-- The parameters of the called function: `&x` in the outer function, the pointer itself in a nested one (`ObjectAddress(v)`, ccode.py:3143;
`is_c_pointer`, 504-507). -/
def pass (vars : List Name) (p : Ptrs) : Ptrs := fun x => if vars.contains x then p x else none

/-- C: `fr` is the number of the running call, `p` its pointers (ccode.py:2155-2158, 3061-3063: the variables are `_additional_args`,
printed as `(*x)`).  Each call has new local variables. -/
def execP (fs : List CFun) : Nat → Nat → Ptrs → Stmt Ref → Mem → Option Mem
  | 0, _, _, _, _ => none
  | _ + 1, _, _, .skip, s => some s
  | n + 1, fr, p, .seq a b, s => (execP fs n fr p a s).bind (execP fs n fr p b)
  | _ + 1, fr, p, .assign x e, s => (eval (readP fr p s) e).bind (writeP fr p s x)
  | _ + 1, fr, p, .ann x e, s => (eval (readP fr p s) e).bind (writeP fr p s x)
  | n + 1, fr, p, .call x f as, s =>
    (evals (readP fr p s) as).bind fun vs =>
    (getCFun fs f).bind fun d =>
    (bindParams d.params vs).bind fun m =>
    (execP fs n s.next (pass (globalVars fs f) p) d.body
      { s with frames := fun j => if j = s.next then m else s.frames j, next := s.next + 1 }).bind fun t =>
    (eval (readP s.next (pass (globalVars fs f) p) t) d.ret).bind fun v => writeP fr p t x v
  | _ + 1, fr, p, .print e, s => (eval (readP fr p s) e).map fun v => { s with out := s.out ++ [v] }
  | n + 1, fr, p, .ite c a b, s =>
    (eval (readP fr p s) c).bind fun v => if v ≠ 0 then execP fs n fr p a s else execP fs n fr p b s
  | n + 1, fr, p, .while c b, s =>
    (eval (readP fr p s) c).bind fun v =>
      if v ≠ 0 then (execP fs n fr p b s).bind (execP fs n fr p (.while c b)) else some s

/-- The outer function in C: its variables are in frame 0 (frame 1 is not used). -/
def runP (c : CProg) (fuel : Nat) : Option (List Int) :=
  if compilesC c.funcs then
    (execP c.funcs fuel 1 (fun x => some (0, x)) (.seq c.mod c.main) ⟨fun _ _ => none, 2, []⟩).map (·.out)
  else none

/-- What the call prints: in Fortran, in C. -/
def fortranRun (p : Nest) (fuel : Nat) : Option (Option (List Int)) := (compile p.prog).map fun c => runC c fuel

def cRun (p : Nest) (fuel : Nat) : Option (Option (List Int)) := (compile p.prog).map fun c => runP c fuel

end Verif.Nested.Model
