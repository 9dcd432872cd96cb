/-!
# Functions marked with `@inline`: specification

What Python does with a program in which functions call each other: a call evaluates its arguments once, from
left to right, before the body; the body runs with local variables of its own; `return` ends it.  Names that a
function does not assign are those of its module.

Numbers stand for names of variables.  Values are integers; operators are arbitrary partial functions.  Besides
the variables there are cells, which stand for elements of arrays and attributes of objects and can be changed
by all functions, and calls of functions that are not inlined, `ext`, whose results can depend on everything
that was called before; the list of those calls is visible from outside.
-/

namespace Verif.Inline.Spec

abbrev Name := Nat

mutual
inductive Expr
  | lit (n : Int)
  | name (x : Name)
  /-- the variable `x` of the module `m`, which is not the module of the program -/
  | glob (m : Nat) (x : Name)
  | load (c : Nat)
  | bin (op : Nat) (a b : Expr)
  /-- `a if c else b` -/
  | cond (c a b : Expr)
  | ext (k : Nat) (e : Expr)
  /-- a call of the function `f` in an expression -/
  | call (f : Nat) (args : Exprs)
inductive Exprs
  | nil
  | cons (e : Expr) (es : Exprs)
end

/-- Where the result of a call goes: `x = f(...)`, `a[0] = f(...)`, or just `f(...)`. -/
inductive Lhs
  | var (x : Name)
  | cell (c : Nat)
  | drop

inductive Stmt
  | skip
  /-- `x = e`, where `e` is not just a call -/
  | assign (x : Name) (e : Expr)
  /-- `a[0] = e`, where `e` is not just a call -/
  | store (c : Nat) (e : Expr)
  | call (l : Lhs) (f : Nat) (args : Exprs)
  | seq (s t : Stmt)
  | ite (c : Expr) (s t : Stmt)
  /-- `while` -/
  | loop (c : Expr) (s : Stmt)
  /-- `return e`, where `e` is not just a call -/
  | ret (e : Expr)
  /-- `return f(...)` -/
  | retCall (f : Nat) (args : Exprs)

structure Func where
  mod : Nat
  params : List Name
  body : Stmt

/-- The variables that are assigned in a body. -/
def Stmt.assigned : Stmt → List Name
  | .assign x _ => [x]
  | .call (.var x) _ _ => [x]
  | .seq s t => s.assigned ++ t.assigned
  | .ite _ s t => s.assigned ++ t.assigned
  | .loop _ s => s.assigned
  | _ => []

def Func.locals (F : Func) : List Name := F.params ++ F.body.assigned

/-- The values of module variables, the operators, the functions that are not inlined. -/
structure Lib where
  glob : Nat → Name → Option Int
  op : Nat → Int → Int → Option Int
  ext : Nat → Int → List (Nat × Int) → Int

structure World where
  heap : Nat → Int
  trace : List (Nat × Int)

def World.set (w : World) (c : Nat) (v : Int) : World := { w with heap := fun d => if d = c then v else w.heap d }

abbrev Env := Name → Option Int

def Env.set (ρ : Env) (x : Name) (v : Int) : Env := fun y => if y = x then some v else ρ y

/-- How calls run: the result (`none`: the function has no result) and the world after the call. -/
abbrev Calls := Nat → List Int → World → Option (Option Int × World)

/-- The value of a name in a function of the module `m` whose local variables are `L`. -/
def look (G : Lib) (L : List Name) (m : Nat) (ρ : Env) (x : Name) : Option Int :=
  if x ∈ L then ρ x else G.glob m x

mutual
/-- `none`: an exception. -/
def eval (G : Lib) (calls : Calls) (lk : Name → Option Int) : Expr → World → Option (Int × World)
  | .lit n, w => some (n, w)
  | .name x, w => (lk x).map (·, w)
  | .glob m x, w => (G.glob m x).map (·, w)
  | .load c, w => some (w.heap c, w)
  | .bin op a b, w =>
    match eval G calls lk a w with
    | none => none
    | some (u, w1) =>
      match eval G calls lk b w1 with
      | none => none
      | some (v, w2) => (G.op op u v).map (·, w2)
  | .cond c a b, w =>
    match eval G calls lk c w with
    | none => none
    | some (u, w1) => if u = 0 then eval G calls lk b w1 else eval G calls lk a w1
  | .ext k e, w =>
    match eval G calls lk e w with
    | none => none
    | some (v, w1) => some (G.ext k v w1.trace, { w1 with trace := w1.trace ++ [(k, v)] })
  | .call f args, w =>
    match evals G calls lk args w with
    | none => none
    | some (vs, w1) =>
      match calls f vs w1 with
      | some (some v, w2) => some (v, w2)
      | _ => none
def evals (G : Lib) (calls : Calls) (lk : Name → Option Int) : Exprs → World → Option (List Int × World)
  | .nil, w => some ([], w)
  | .cons e es, w =>
    match eval G calls lk e w with
    | none => none
    | some (v, w1) => (evals G calls lk es w1).map fun q => (v :: q.1, q.2)
end

/-- The end of a statement. -/
inductive Out
  | norm (ρ : Env) (w : World)
  | ret (v : Int) (w : World)

/-- A loop of at most `k` rounds; `none` also if that is not enough. -/
def iter (c : Env → World → Option (Int × World)) (b : Env → World → Option Out) : Nat → Env → World → Option Out
  | 0, _, _ => none
  | k + 1, ρ, w =>
    match c ρ w with
    | none => none
    | some (v, w1) =>
      if v = 0 then some (.norm ρ w1)
      else match b ρ w1 with
        | some (.norm ρ2 w2) => iter c b k ρ2 w2
        | o => o

/-- A statement in a function of module `m` with the local variables `L`.  Only declared variables can be
assigned.  Loops have at most `k` rounds. -/
def exec (G : Lib) (calls : Calls) (L : List Name) (m k : Nat) : Stmt → Env → World → Option Out
  | .skip, ρ, w => some (.norm ρ w)
  | .assign x e, ρ, w =>
    match eval G calls (look G L m ρ) e w with
    | none => none
    | some (v, w1) => if x ∈ L then some (.norm (ρ.set x v) w1) else none
  | .store c e, ρ, w =>
    match eval G calls (look G L m ρ) e w with
    | none => none
    | some (v, w1) => some (.norm ρ (w1.set c v))
  | .call l f args, ρ, w =>
    match evals G calls (look G L m ρ) args w with
    | none => none
    | some (vs, w1) =>
      match calls f vs w1, l with
      | some (some v, w2), .var x => if x ∈ L then some (.norm (ρ.set x v) w2) else none
      | some (some v, w2), .cell c => some (.norm ρ (w2.set c v))
      | some (_, w2), .drop => some (.norm ρ w2)
      | _, _ => none
  | .seq s t, ρ, w =>
    match exec G calls L m k s ρ w with
    | some (.norm ρ1 w1) => exec G calls L m k t ρ1 w1
    | o => o
  | .ite c s t, ρ, w =>
    match eval G calls (look G L m ρ) c w with
    | none => none
    | some (v, w1) => if v = 0 then exec G calls L m k t ρ w1 else exec G calls L m k s ρ w1
  | .loop c s, ρ, w =>
    iter (fun ρ w => eval G calls (look G L m ρ) c w) (fun ρ w => exec G calls L m k s ρ w) k ρ w
  | .ret e, ρ, w =>
    match eval G calls (look G L m ρ) e w with
    | none => none
    | some (v, w1) => some (.ret v w1)
  | .retCall f args, ρ, w =>
    match evals G calls (look G L m ρ) args w with
    | none => none
    | some (vs, w1) =>
      match calls f vs w1 with
      | some (some v, w2) => some (.ret v w2)
      | _ => none

/-- The arguments are the first values of the parameters. -/
def bind : List Name → List Int → Env
  | x :: xs, v :: vs => fun y => if y = x then some v else bind xs vs y
  | _, _ => fun _ => none

/-- Calls as in Python, at most `n` of them inside each other, and at most `n` rounds for each loop. -/
def callN (G : Lib) (funs : List Func) : Nat → Calls
  | 0, _, _, _ => none
  | n + 1, f, vs, w =>
    match funs[f]? with
    | none => none
    | some F =>
      if F.params.length = vs.length then
        match exec G (callN G funs n) F.locals F.mod n F.body (bind F.params vs) w with
        | none => none
        | some (.norm _ w1) => some (none, w1)
        | some (.ret v w1) => some (some v, w1)
      else none

/-- A function that calls inlined functions: their definitions, the names in its module (number 0), its local
variables, and its body. -/
structure Prog where
  funs : List Func
  globals : List Name
  locals : List Name
  body : Stmt

/-- The meaning of the program. -/
def Prog.run (G : Lib) (P : Prog) (n : Nat) (ρ : Env) (w : World) : Option Out :=
  exec G (callN G P.funs n) P.locals 0 n P.body ρ w

end Verif.Inline.Spec
