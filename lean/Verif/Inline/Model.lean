import Verif.Inline.Spec

/-!
# Functions marked with `@inline`: model

`pyccel/parser/semantic.py` ("semantic" below): a call of such a function is replaced by the statements of its
body, with other names for its variables, and the arguments in the place of the parameters.  The result is run
by the rules of `Spec` as a function without calls; variables that were not declared cannot be assigned.

Left out: arguments with keywords and default values (`None` included), arrays as arguments, several results,
methods, `for`, assignments with operators (`x += e`), functions with several types.
-/

namespace Verif.Inline.Model
open Spec

/-- The scope of the function that is compiled: the names in use there and in its module
(`symbol_in_use`, `pyccel/parser/scope.py:756-777`), and its variables. -/
structure Sc where
  used : List Name
  decl : List Name

/-- `get_new_name`: `pyccel/parser/scope.py:813-877`.  A name that is not in use; it is made from the old one and a
number, for which the largest number in use stands here. -/
def fresh (U : List Name) : Name := U.foldr max 0 + 1

/-- The left-hand side in the statements that are generated. -/
inductive Dest
  | var (y : Name)
  | cell (c : Nat)

/-- Returned symbols: `pyccel/parser/syntactic.py:1159-1161, 1170-1171, 465-467`. -/
def retSyms : Stmt → List Name
  | .ret (.name v) => [v]
  | .seq s t => retSyms s ++ retSyms t
  | .ite _ s t => retSyms s ++ retSyms t
  | .loop _ s => retSyms s
  | _ => []

/-- The number of `return` in the body. -/
def rets : Stmt → Nat
  | .ret _ => 1
  | .retCall _ _ => 1
  | .seq s t => rets s + rets t
  | .ite _ s t => rets s + rets t
  | .loop _ s => rets s
  | _ => 0

/-- The name of the result: `pyccel/parser/syntactic.py:446-473, 1170-1175`.  If one variable is returned, and it is
not an argument, this is the name; otherwise (`none`) it is a name that does not appear in the body. -/
def resName (F : Func) : Option Name :=
  match retSyms F.body with
  | [] => none
  | v :: vs => if vs.all (· = v) ∧ v ∉ F.params ∧ v ∈ F.body.assigned then some v else none

/-- The name of the result is replaced by the left-hand side, if that is a name: `semantic:6824-6834`. -/
def resDest (F : Func) (d : Dest) (x : Name) : Option Name :=
  match d with
  | .var y => if resName F = some x then some y else none
  | .cell _ => none

/-- The names of variables that are in use get a new name: `semantic:6841-6848`.  (The names of the parameters do
as well, but no statement is generated with them; after the call they are removed, `semantic:6941-6954`.) -/
def rename : List Name → List Name → List (Name × Name) × List Name
  | [], U => ([], U)
  | v :: vs, U =>
    let v' := if v ∈ U then fresh U else v
    let q := rename vs (v' :: U)
    ((v, v') :: q.1, q.2)

def toRename (F : Func) (d : Dest) : List Name :=
  F.body.assigned.eraseDups.filter fun x => !F.params.contains x && (resDest F d x).isNone

/-- What a name in the body becomes: parameters the argument (`semantic:6850-6893`,
`inline_variable_definition`), the result and the other variables their new name.  Other names stay the same,
unless the function comes from another module: `semantic:6746-6820`. -/
def mapOf (F : Func) (d : Dest) (args : List Expr) (ren : List (Name × Name)) (x : Name) : Expr :=
  match (F.params.zip args).lookup x with
  | some a => a
  | none =>
    match resDest F d x with
    | some y => .name y
    | none =>
      match ren.lookup x with
      | some y => .name y
      | none => if F.mod = 0 then .name x else .glob F.mod x

/-- The ways to replace calls: as a statement, and in an expression. -/
structure Inl where
  s : Sc → Dest → Nat → List Expr → Option (List Stmt × Sc)
  e : Sc → Nat → List Expr → Option (List Stmt × Expr × Sc)

mutual
/-- An expression becomes an expression, and statements that are put before the current statement
(`self._additional_exprs`).  For `cond`, `semantic:6243-6267`: first the value for true is visited, then the
condition, then the other value (in `x = a if c else b` the value for true is visited twice,
`semantic:5196-5211`; not modelled). -/
def visitE (I : Inl) (m : Name → Expr) : Expr → Sc → Option (List Stmt × Expr × Sc)
  | .lit n, sc => some ([], .lit n, sc)
  | .name x, sc => some ([], m x, sc)
  | .glob k x, sc => some ([], .glob k x, sc)
  | .load c, sc => some ([], .load c, sc)
  | .bin op a b, sc =>
    match visitE I m a sc with
    | none => none
    | some (p, a', sc1) =>
      match visitE I m b sc1 with
      | none => none
      | some (q, b', sc2) => some (p ++ q, .bin op a' b', sc2)
  | .cond c a b, sc =>
    match visitE I m a sc with
    | none => none
    | some (p, a', sc1) =>
      match visitE I m c sc1 with
      | none => none
      | some (q, c', sc2) =>
        match visitE I m b sc2 with
        | none => none
        | some (r, b', sc3) => some (p ++ (q ++ r), .cond c' a' b', sc3)
  | .ext k e, sc => (visitE I m e sc).map fun q => (q.1, .ext k q.2.1, q.2.2)
  | .call f args, sc =>
    match visitArgs I m args sc with
    | none => none
    | some (p, as, sc1) =>
      match I.e sc1 f as with
      | none => none
      | some (q, e', sc2) => some (p ++ q, e', sc2)
/-- `_handle_function_args`: `semantic:4809` -/
def visitArgs (I : Inl) (m : Name → Expr) : Exprs → Sc → Option (List Stmt × List Expr × Sc)
  | .nil, sc => some ([], [], sc)
  | .cons e es, sc =>
    match visitE I m e sc with
    | none => none
    | some (p, e', sc1) =>
      match visitArgs I m es sc1 with
      | none => none
      | some (q, es', sc2) => some (p ++ q, e' :: es', sc2)
end

/-- A block of statements. -/
def seqs : List Stmt → Stmt
  | [] => .skip
  | s :: ss => .seq s (seqs ss)

/-- `lhs = e` -/
def Dest.put : Dest → Expr → Stmt
  | .var y, e => .assign y e
  | .cell c, e => .store c e

def Expr.isName : Expr → Bool
  | .name _ => true
  | _ => false

/-- Only variables can be assigned. -/
def asVar : Expr → Option Name
  | .name y => some y
  | _ => none

/-- A statement becomes several (`_visit_CodeBlock`, `semantic:4099-4128`); `d` is the left-hand side of the
call that is replaced.  A name in the body for which an argument was put in stands for that argument also on the left
of `=` (`semantic:2264`).  `return`: `semantic:6901-6911`, nothing is generated if a name is returned to a name.
A call whose result is not used is an assignment to a new name (`pyccel/parser/syntactic.py:631-640`). -/
def visitS (I : Inl) (m : Name → Expr) (d : Option Dest) : Stmt → Sc → Option (List Stmt × Sc)
  | .skip, sc => some ([], sc)
  | .assign x e, sc =>
    match visitE I m e sc, asVar (m x) with
    | some (p, e', sc1), some y => some (p ++ [.assign y e'], sc1)
    | _, _ => none
  | .store c e, sc =>
    match visitE I m e sc with
    | none => none
    | some (p, e', sc1) => some (p ++ [.store c e'], sc1)
  | .call l f args, sc =>
    match visitArgs I m args sc with
    | none => none
    | some (p, as, sc1) =>
      match l with
      | .var x =>
        match asVar (m x) with
        | none => none
        | some y => (I.s sc1 (.var y) f as).map fun q => (p ++ q.1, q.2)
      | .cell c => (I.s sc1 (.cell c) f as).map fun q => (p ++ q.1, q.2)
      | .drop =>
        let t := fresh sc1.used
        (I.s ⟨t :: sc1.used, t :: sc1.decl⟩ (.var t) f as).map fun q => (p ++ q.1, q.2)
  | .seq s t, sc =>
    match visitS I m d s sc with
    | none => none
    | some (p, sc1) => (visitS I m d t sc1).map fun q => (p ++ q.1, q.2)
  -- `semantic:6123-6241`
  | .ite c s t, sc =>
    match visitE I m c sc with
    | none => none
    | some (p, c', sc1) =>
      match visitS I m d s sc1 with
      | none => none
      | some (s', sc2) =>
        match visitS I m d t sc2 with
        | none => none
        | some (t', sc3) => some (p ++ [.ite c' (seqs s') (seqs t')], sc3)
  -- `semantic:6114-6121`
  | .loop c s, sc =>
    match visitE I m c sc with
    | none => none
    | some (p, c', sc1) =>
      match visitS I m d s sc1 with
      | none => none
      | some (s', sc2) => some (p ++ [.loop c' (seqs s')], sc2)
  | .ret e, sc =>
    match d with
    | none => none
    | some (.var y) =>
      if Expr.isName e then some ([], sc)
      else (visitE I m e sc).map fun q => (q.1 ++ [.assign y q.2.1], q.2.2)
    | some (.cell c) => (visitE I m e sc).map fun q => (q.1 ++ [.store c q.2.1], q.2.2)
  | .retCall f args, sc =>
    match d with
    | none => none
    | some d =>
      match visitArgs I m args sc with
      | none => none
      | some (p, as, sc1) => (I.s sc1 d f as).map fun q => (p ++ q.1, q.2)

/-- A call as a statement: `_visit_InlineFunctionCall`, `semantic:6716-6959`. -/
def expand (funs : List Func) (I : Inl) (sc : Sc) (d : Dest) (f : Nat) (args : List Expr) :
    Option (List Stmt × Sc) :=
  match funs[f]? with
  | none => none
  | some F =>
    if F.params.length = args.length then
      let q := rename (toRename F d) sc.used
      visitS I (mapOf F d args q.1) (some d) F.body ⟨q.2, q.1.map (·.2) ++ sc.decl⟩
    else none

/-- The variables that the statements assign, also inside of others. -/
def targets (ss : List Stmt) : List Name := (seqs ss).assigned

/-- A call in an expression: `semantic:6737-6740, 6961-6989`.  The result gets a new name, which must have been
assigned.  If there is one `return`, and the last statement is an assignment, its right-hand side becomes the
value, and the new name is removed again. -/
def embed (funs : List Func) (I : Inl) (sc : Sc) (f : Nat) (args : List Expr) : Option (List Stmt × Expr × Sc) :=
  let t := fresh sc.used
  match funs[f]?, expand funs I ⟨t :: sc.used, t :: sc.decl⟩ (.var t) f args with
  | some F, some (out, sc') =>
    if t ∈ targets out then
      match out.getLast? with
      | some (.assign _ e) =>
        if rets F.body = 1 then some (out.dropLast, e, { sc' with decl := sc'.decl.erase t })
        else some (out, .name t, sc')
      | _ => some (out, .name t, sc')
    else none
  | _, _ => none

/-- Calls inside of each other up to depth `n`. -/
def inl (funs : List Func) : Nat → Inl
  | 0 => ⟨fun _ _ _ _ => none, fun _ _ _ => none⟩
  | n + 1 => ⟨expand funs (inl funs n), embed funs (inl funs n)⟩

/-- The statements that are generated for a function, and its variables. -/
def compile (P : Prog) (depth : Nat) : Option (List Stmt × List Name) :=
  (visitS (inl P.funs depth) .name none P.body ⟨P.locals ++ P.globals, P.locals⟩).map fun q => (q.1, q.2.decl)

/-- The generated code runs; nothing is called in it. -/
def runGen (G : Lib) (out : List Stmt) (L : List Name) (k : Nat) (ρ : Env) (w : World) : Option Out :=
  exec G (fun _ _ _ => none) L 0 k (seqs out) ρ w

end Verif.Inline.Model
