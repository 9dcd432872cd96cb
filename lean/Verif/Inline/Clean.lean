import Verif.Inline.Model

/-!
# Functions marked with `@inline`: the programs for which C81 is proved

For each condition there is a program in `Props` that does not meet it and computes something else than in Python.
`q f` claims that the function `f` calls no functions of unknown effect and changes no cells; `b f` claims that its
body is just `return e`.
-/

namespace Verif.Inline.Model
open Spec

mutual
/-- The names in an expression. -/
def namesE : Expr → List Name
  | .lit _ => []
  | .name x => [x]
  | .glob _ _ => []
  | .load _ => []
  | .bin _ a b => namesE a ++ namesE b
  | .cond c a b => namesE c ++ namesE a ++ namesE b
  | .ext _ e => namesE e
  | .call _ args => namesA args
def namesA : Exprs → List Name
  | .nil => []
  | .cons e es => namesE e ++ namesA es
end

mutual
/-- No `ext` in the expression. -/
def noExt : Expr → Bool
  | .bin _ a b => noExt a && noExt b
  | .cond c a b => noExt c && noExt a && noExt b
  | .ext _ _ => false
  | .call _ args => noExtA args
  | _ => true
def noExtA : Exprs → Bool
  | .nil => true
  | .cons e es => noExt e && noExtA es
end

/-- The value depends on variables only. -/
def plain : Expr → Bool
  | .bin _ a b => plain a && plain b
  | .cond c a b => plain c && plain a && plain b
  | .ext _ _ => false
  | .call _ _ => false
  | .load _ => false
  | _ => true

def plainA : Exprs → Bool
  | .nil => true
  | .cons e es => plain e && plainA es

def lengthA : Exprs → Nat
  | .nil => 0
  | .cons _ es => lengthA es + 1

/-- The names in a statement. -/
def namesS : Stmt → List Name
  | .skip => []
  | .assign x e => x :: namesE e
  | .store _ e => namesE e
  | .call (.var x) _ args => x :: namesA args
  | .call _ _ args => namesA args
  | .seq s t => namesS s ++ namesS t
  | .ite c s t => namesE c ++ namesS s ++ namesS t
  | .loop c s => namesE c ++ namesS s
  | .ret e => namesE e
  | .retCall _ args => namesA args

/-- `return f(...)` does not appear. -/
def noRetCall : Stmt → Bool
  | .seq s t => noRetCall s && noRetCall t
  | .ite _ s t => noRetCall s && noRetCall t
  | .loop _ s => noRetCall s
  | .retCall _ _ => false
  | _ => true

/-- The result is only assigned by `return e`, where `e` is no name. -/
def direct (funs : List Func) (f : Nat) : Bool :=
  match funs[f]? with
  | some F => resName F = none && noRetCall F.body
  | none => false

/-- If the body is `...; return e` or `...; r = e; return r`: what comes before, and `e`. -/
def splitRet : Stmt → Option (Stmt × Expr)
  | .ret e => if Expr.isName e then none else some (.skip, e)
  | .seq (.assign r e) (.ret (.name r')) => if r = r' then some (.skip, e) else none
  | .seq s t => (splitRet t).map fun q => (.seq s q.1, q.2)
  | _ => none

/-- The body ends with `if`, or `return r` after `if` or `while`. -/
def kept : Stmt → Bool
  | .ite _ _ _ => true
  | .seq (.ite _ _ _) (.ret (.name _)) => true
  | .seq (.loop _ _) (.ret (.name _)) => true
  | .seq _ t => kept t
  | _ => false

/-- The function can be called inside of expressions.  If the result is assigned just before the `return`, this must
be the only place where it appears. -/
def embeddable (F : Func) : Bool :=
  match splitRet F.body with
  | some (B, e) => (resName F).all fun r => !(namesS B).contains r && !(namesE e).contains r
  | none => kept F.body

section
variable (funs : List Func) (q b : Nat → Bool)

def arity (f n : Nat) : Bool :=
  match funs[f]? with
  | some F => F.params.length = n
  | none => false

def embeds (f : Nat) : Bool :=
  match funs[f]? with
  | some F => embeddable F
  | none => false

mutual
/-- Functions that are called inside of expressions have no effects; `strict`: where it is not sure that the call is made
exactly once, their body is just `return e`.  Arguments have no effects. -/
def cleanE (strict : Bool) : Expr → Bool
  | .bin _ a c => cleanE strict a && cleanE strict c
  | .cond c x y => cleanE strict c && cleanE true x && cleanE true y
  | .ext _ e => cleanE strict e
  | .call f args =>
    q f && (!strict || b f) && cleanA strict args && noExtA args && arity funs f (lengthA args) && embeds funs f
  | _ => true
def cleanA (strict : Bool) : Exprs → Bool
  | .nil => true
  | .cons e es => cleanE strict e && cleanA strict es
end

/-- The call of a function as a statement: arguments have no effects; if they depend on cells, the function has no
effects. -/
def cleanCall (quiet : Bool) (f : Nat) (args : Exprs) : Bool :=
  cleanA funs q b false args && noExtA args && arity funs f (lengthA args) && (plainA args || q f) && (!quiet || q f)

/-- Parameters are not assigned.  `return` only comes last (`tail`).  If names are returned, it is always the
same name `res`, and it is not a parameter.  In `x = f(... x ...)` the result of `f` has no name in `f`.  The condition of `while` needs no
statements. -/
def cleanS (params : List Name) (quiet : Bool) (res : Option Name) (tail : Bool) : Stmt → Bool
  | .skip => true
  | .assign x e => !params.contains x && cleanE funs q b false e && (!quiet || noExt e)
  | .store _ e => !quiet && cleanE funs q b false e
  | .call (.var x) f args =>
    !params.contains x && cleanCall funs q b quiet f args && (!(namesA args).contains x || direct funs f)
  | .call (.cell _) f args => !quiet && cleanCall funs q b quiet f args
  | .call .drop f args => cleanCall funs q b quiet f args
  | .seq s t => cleanS params quiet res false s && cleanS params quiet res tail t
  | .ite c s t =>
    cleanE funs q b false c && (!quiet || noExt c) && cleanS params quiet res tail s && cleanS params quiet res tail t
  | .loop c s => cleanE funs q b true c && (!quiet || noExt c) && cleanS params quiet res false s
  | .ret (.name v) => tail && res = some v
  | .ret e => tail && cleanE funs q b false e && (!quiet || noExt e)
  | .retCall f args =>
    tail && cleanCall funs q b quiet f args && (res.all (fun r => !(namesA args).contains r) || direct funs f)

/-- A body that is just `return e`. -/
def bare : Stmt → Bool
  | .ret e => !Expr.isName e && cleanE funs q b true e
  | _ => false

/-- Module variables in the body of a function of the same module are not hidden by local variables of the
caller. -/
def uncaptured (P : Prog) (F : Func) : Bool :=
  F.mod != 0 || (namesS F.body).all fun x => F.locals.contains x || (P.globals.contains x && !P.locals.contains x)

def cleanF (P : Prog) (f : Nat) (F : Func) : Bool :=
  decide F.params.Nodup && cleanS funs q b F.params (q f) (resName F) true F.body && (!b f || bare funs q b F.body) &&
    uncaptured P F

end

/-- All functions, by their number. -/
def allFuns (p : Nat → Func → Bool) : Nat → List Func → Bool
  | _, [] => true
  | i, F :: Fs => p i F && allFuns p (i + 1) Fs

/-- The programs for which C81 is proved. -/
def _root_.Verif.Inline.Spec.Prog.clean (P : Prog) (q b : Nat → Bool) : Bool :=
  allFuns (cleanF P.funs q b P) 0 P.funs &&
  cleanS P.funs q b [] false none false P.body &&
  (namesS P.body).all (fun x => P.locals.contains x || P.globals.contains x) &&
  P.body.assigned.all (fun x => P.locals.contains x)

end Verif.Inline.Model
