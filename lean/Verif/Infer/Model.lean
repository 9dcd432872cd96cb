import Verif.Infer.Spec

/-
The types that pyccel infers for the variables of a program, the check of later assignments, and the generated program.
-/
namespace Verif.Infer
open Verif.Types (addT)
open Verif.Types.Spec (Num)

/-- The type of a variable: a number, a homogeneous tuple (with the length it had at its declaration), a tuple that is stored as one variable
per element, or a list.  pyccel/ast/datatypes.py:883-1003. -/
inductive STy where
  | num (t : Num)
  | htup (t : Num) (n : Nat)
  | tup (ts : List Num)
  | list (t : Num)
deriving DecidableEq, Repr

/-- `==` on numeric types: identity, or a type of Python and one of NumPy with the same kind and size; `NumpyNumericType.__eq__`,
pyccel/ast/numpytypes.py:84-95. -/
def eqT (a b : Num) : Bool :=
  decide (a = b) || ((a.python != b.python) && decide (a.kind = b.kind ∧ a.width = b.width ∧ a.signif = b.signif))

/-- The type of an expression: operators add the types (pyccel/ast/operators.py:556-592), `a if c else b` adds the types of `a` and `b` unless they are
identical (operators.py:1787-1802), elements of tuples and lists have the element type.  `none` is an error. -/
def typ (Γ : Nat → Option STy) : Expr → Option Num
  | .lit t _ => some t
  | .var x => match Γ x with
    | some (.num t) => some t
    | _ => none
  | .elem x i => match Γ x with
    | some (.htup t _) => some t
    | some (.tup ts) => ts[i]?
    | some (.list t) => some t
    | _ => none
  | .bin _ a b => match typ Γ a, typ Γ b with
    | some t, some u => addT t u
    | _, _ => none
  | .cast t a => (typ Γ a).map (fun _ => t)
  | .cond c a b => match typ Γ c, typ Γ a, typ Γ b with
    | some _, some t, some u => if t = u then some t else addT t u
    | _, _, _ => none

/-- The types of several expressions: the arguments of a tuple or list, pyccel/ast/builtins.py:663-672 and 860-866. -/
def typs (Γ : Nat → Option STy) : List Expr → Option (List Num)
  | [] => some []
  | e :: es => match typ Γ e, typs Γ es with
    | some t, some ts => some (t :: ts)
    | _, _ => none

/-- The type of a tuple literal: homogeneous if all elements have the same kind and size; its element type is that of the last element, the one left in
the dictionary `unique_element_types`; pyccel/ast/builtins.py:663-721. -/
def tupT (ts : List Num) : Option STy :=
  match ts.getLast? with
  | none => none
  | some u => if ts.all (eqT · u) then some (.htup u ts.length) else some (.tup ts)

/-- The type of a list literal: that of its first element, all others have to be equal; pyccel/ast/builtins.py:860-884.
Simplification: no empty lists. -/
def listT : List Num → Option STy
  | [] => none
  | t :: ts => if ts.all (eqT t ·) then some (.list t) else none

/-- The type of a right-hand side: `_infer_type`, pyccel/parser/semantic.py:1063-1190.  Simplification: lists are not copied (that is an alias, C79). -/
def rhsT (Γ : Nat → Option STy) : Rhs → Option STy
  | .one e => (typ Γ e).map .num
  | .tup es => (typs Γ es).bind tupT
  | .list es => (typs Γ es).bind listT
  | .copy y => match Γ y with
    | some (.htup t n) => some (.htup t n)
    | some (.tup ts) => some (.tup ts)
    | _ => none

/-- All elements of the first list are equal to the corresponding ones of the second, which is not shorter:
pyccel/parser/semantic.py:2699-2713. -/
def eqTs : List Num → List Num → Bool
  | [], _ => true
  | t :: ts, u :: us => eqT t u && eqTs ts us
  | _ :: _, [] => false

/-- `_ensure_inferred_type_matches_existing`: may a variable of type `T` be assigned a value of type `U`?
pyccel/parser/semantic.py:2673-2744.  A tuple stored in several variables accepts a homogeneous tuple if the length and the type of the first
element match (2682-2698), and a tuple of several types if all its elements match (2699-2713).
Simplification: the length of tuples that are copied has to be the same, see semantic.py:5447-5454 (`r[i]` for all elements of the target). -/
def matchT (T U : STy) : Bool :=
  match T, U with
  | .num t, .num u => eqT u t
  | .htup t _, .htup u _ => eqT u t
  | .list t, .list u => eqT u t
  | .tup (t :: ts), .htup u n => decide (n = ts.length + 1) && eqT u t
  | .tup ts, .tup us => decide (us.length = ts.length) && eqTs us ts
  | .htup t _, .tup us => us.all (eqT · t)
  | _, _ => false

/-- An assignment.  A tuple literal that is assigned to a tuple stored in several variables becomes one assignment per element, and assignments to elements
are not checked: semantic.py:5153-5164, 2221-2222.  An element that does not exist is an error. -/
def assignT (Γ : Nat → Option STy) (x : Nat) (r : Rhs) : Option (Nat → Option STy) :=
  match Γ x, rhsT Γ r with
  | none, some U => some (upd Γ x U)
  | some T, some U => if ok T U then some Γ else none
  | _, none => none
where
  /-- Is the assignment accepted? -/
  ok (T U : STy) : Bool :=
    match r, T with
    | .tup es, .tup ts => decide (es.length ≤ ts.length)
    | _, _ => matchT T U

/-- The inference, in the order of the text: the types of the variables after the statement; `none` is an error.
`x op= e`: semantic.py:5595-5656 and 2678-2681; elements of lists: 2221-2222 (no check); `return r` assigns the result variable: 6308-6321. -/
def infer : (Nat → Option STy) → Stmt → Option (Nat → Option STy)
  | Γ, .skip => some Γ
  | Γ, .assign x r => assignT Γ x r
  | Γ, .setElem x _ e => match Γ x, typ Γ e with
    | some (.list _), some _ => some Γ
    | _, _ => none
  | Γ, .aug x _ e => match Γ x, typ Γ e with
    | some (.num t), some u => match addT t u with
      | some r => if eqT r t || decide ((addT t r).any (eqT t ·)) then some Γ else none
      | none => none
    | _, _ => none
  | Γ, .seq a b => (infer Γ a).bind (fun Γ' => infer Γ' b)
  | Γ, .ite c a b => match typ Γ c with
    | some _ => (infer Γ a).bind (fun Γ' => infer Γ' b)
    | none => none
  | Γ, .loop c a => match typ Γ c with
    | some _ => infer Γ a
    | none => none
  | Γ, .ret r => assignT Γ 0 r

/-- Reduction to `w` bits (C11 6.3.1.3, as gcc defines it), for integers stored by pyccel/codegen/printing/ccode.py `_print_Assign`. -/
def wrapW (w : Nat) (n : Int) : Int := (n + 2 ^ (w - 1)) % 2 ^ w - 2 ^ (w - 1)

/-- The conversion that C and Fortran do when a number is stored in a variable of a type: C11 6.3.1. -/
def conv (t : Num) (q : Rat) : Rat :=
  match t.kind with
  | .bool => if q = 0 then 0 else 1
  | .int => (wrapW t.width (trunc q) : Int)
  | _ => q

/-- The value of the generated expression; variables hold the numbers they consist of.  Simplification: operations are exact, see `Fits`.
Models the expressions printed by pyccel/codegen/printing/ccode.py (`_print_PyccelAdd` and its neighbours, `_print_IfTernaryOperator`). -/
def cEval (env : Nat → Option (List Rat)) : Expr → Option Rat
  | .lit _ q => some q
  | .var x => match env x with
    | some [q] => some q
    | _ => none
  | .elem x i => match env x with
    | some l => l[i]?
    | none => none
  | .bin o a b => match cEval env a, cEval env b with
    | some x, some y => opV o x y
    | _, _ => none
  | .cast t a => (cEval env a).map (conv t)
  | .cond c a b => match cEval env c with
    | some z => if z ≠ 0 then cEval env a else cEval env b
    | none => none

/-- The values of several expressions, as in `cEval`. -/
def cEvals (env : Nat → Option (List Rat)) : List Expr → Option (List Rat)
  | [] => some []
  | e :: es => match cEval env e, cEvals env es with
    | some v, some vs => some (v :: vs)
    | _, _ => none

/-- One assignment per element: pyccel/parser/semantic.py:5153-5164. -/
def storeEach (x : Nat) : Nat → List Num → List Expr → (Nat → Option (List Rat)) → Option (Nat → Option (List Rat))
  | _, _, [], env => some env
  | i, t :: ts, e :: es, env => match cEval env e with
    | some q => storeEach x (i + 1) ts es (fun y => if y = x then (env x).map (·.set i (conv t q)) else env y)
    | none => none
  | _, [], _ :: _, _ => none

/-- Conversion to the types of the elements when they are stored: C11 6.5.16.1. -/
def convs (T : STy) (l : List Rat) : List Rat :=
  match T with
  | .num t | .htup t _ | .list t => l.map (conv t)
  | .tup ts => List.zipWith conv ts l

/-- The numbers of a right-hand side: pyccel/codegen/printing/ccode.py `_print_Assign`. -/
def cRhs (env : Nat → Option (List Rat)) : Rhs → Option (List Rat)
  | .one e => (cEval env e).map ([·])
  | .tup es | .list es => cEvals env es
  | .copy y => env y

/-- The generated assignment for a variable of type `T`.  A tuple stored in several variables that has already a value gets its elements one after the other
(semantic.py:5153-5164); simplification: at its first assignment the elements are evaluated first. -/
def cAssign (T : STy) (x : Nat) (r : Rhs) (env : Nat → Option (List Rat)) : Option (Nat → Option (List Rat)) :=
  match T, r, env x with
  | .tup ts, .tup es, some _ => storeEach x 0 ts es env
  | _, _, _ => (cRhs env r).map (fun l => upd env x (convs T l))

/-- The truth value of a condition: pyccel/parser/semantic.py `_visit_If` and `_visit_While` cast it to `bool`. -/
def cCond (env : Nat → Option (List Rat)) (c : Expr) : Option Bool := (cEval env c).map (fun q => decide (q ≠ 0))

/-- The generated program, with the types `Γ` of its variables: pyccel/codegen/printing/ccode.py `_print_CodeBlock`, `_print_Assign`, `_print_If`,
`_print_While`, `_print_Return`. -/
def cRun (Γ : Nat → Option STy) (n : Nat) : Stmt → (Nat → Option (List Rat)) → Option (Bool × (Nat → Option (List Rat)))
  | .skip, env => some (false, env)
  | .assign x r, env => match Γ x with
    | some T => (cAssign T x r env).map (false, ·)
    | none => none
  | .setElem x i e, env => match Γ x, env x, cEval env e with
    | some (.list t), some l, some q => if i < l.length then some (false, upd env x (l.set i (conv t q))) else none
    | _, _, _ => none
  | .aug x o e, env => match Γ x, cEval env (.bin o (.var x) e) with
    | some (.num t), some q => some (false, upd env x [conv t q])
    | _, _ => none
  | .seq a b, env => match cRun Γ n a env with
    | some (false, env') => cRun Γ n b env'
    | r => r
  | .ite c a b, env => match cCond env c with
    | some true => cRun Γ n a env
    | some false => cRun Γ n b env
    | none => none
  | .loop c a, env => iter (cCond · c) (cRun Γ n a) n env
  | .ret r, env => match Γ 0 with
    | some T => (cAssign T 0 r env).map (true, ·)
    | none => none

end Verif.Infer
