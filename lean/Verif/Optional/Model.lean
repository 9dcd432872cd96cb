import Verif.Optional.Spec

/-
Model of optional arguments in pyccel: the translation of function bodies by the semantic stage, and the meaning of what is printed in
C and in Fortran.

Modelled in `pyccel/parser/semantic.py`: `_visit_FunctionDefArgument` (4040-4090), `_visit_Variable` and `_visit_PyccelSymbol`
(4239-4242, 4351), `_visit_PyccelBooleanOperator` (4680-4683), `_visit_Assign` (5464-5503), `_visit_AugAssign` (5592-5655),
`_visit_While` (6115-6122), `_visit_IfSection` with `treat_condition` (6124-6203), `_visit_If` (6205-6217),
`_visit_IfTernaryOperator` (6242-6267), `_visit_FunctionDef` (6650-6657), `_visit_PyccelIs` (7115-7138);
`PythonBool.__new__` in `pyccel/ast/builtins.py` (259-266).  Arguments of calls: `FCodePrinter._print_FunctionCall` (fcode.py 4240-4320),
`_print_FunctionCallArgument` (1505-1510), `CCodePrinter._print_FunctionCall` (ccode.py 3112-3130).

Simplified: all numbers are unbounded integers; assignments have one target; of what SymPy finds out about conditions only literals,
comparisons of literals and the rules of `and`, `or`, `not` are used (see C26 for the rest); an argument that is passed by reference is
copied in and out, so the same variable passed twice is not modelled as one place.
-/
namespace Verif.Optional

/-- Variables of the generated function: ordinary variables and parameters; an optional parameter (a pointer that may be `NULL` in C,
an `optional` dummy argument in Fortran); its local copy `x_loc` (semantic.py 5474-5481); the temporaries `condition…` (6154-6156). -/
inductive TV where
  | plain (x : Var)
  | arg (x : Var)
  | loc (x : Var)
  | cond (k : Nat)
deriving DecidableEq, Repr

/-- The variable for a name of the source, when `A` is assigned in the text above (semantic.py 4242, 4351, 5471, 5482). -/
def tv (O : Var → Bool) (A : List Var) (x : Var) : TV :=
  if O x then (if A.contains x then .loc x else .arg x) else .plain x

/-- Expressions (semantic.py 4239-4242, 4351). -/
def trE (O : Var → Bool) (A : List Var) : Expr Var → Expr TV
  | .lit n => .lit n
  | .var x => .var (tv O A x)
  | .add a b => .add (trE O A a) (trE O A b)
  | .div a b => .div (trE O A a) (trE O A b)

/-- `x` is still the argument itself here. -/
def isArg (O : Var → Bool) (A : List Var) (x : Var) : Bool := O x && !A.contains x

/-- `PythonBool` of an optional variable (builtins.py 259-266), as called for operands of `and` and `or` (semantic.py 4680-4683) and for
conditions of `if` (semantic.py 6137-6139). -/
def guardT (O : Var → Bool) (A : List Var) : Cond Var → Cond TV → Cond TV
  | .truth (.var x), c => if isArg O A x then .and (.notNone (.arg x)) c else c
  | _, c => c

/-- Conditions; tests against `None` of what is not an optional argument are literals (semantic.py 7134-7139). -/
def trCond (O : Var → Bool) (A : List Var) : Cond Var → Cond TV
  | .const b => .const b
  | .lt a b => .lt (trE O A a) (trE O A b)
  | .eq a b => .eq (trE O A a) (trE O A b)
  | .truth e => .truth (trE O A e)
  | .isNone x => if isArg O A x then .isNone (.arg x) else .const false
  | .notNone x => if isArg O A x then .notNone (.arg x) else .const true
  | .not c => .not (trCond O A c)
  | .and a b => .and (guardT O A a (trCond O A a)) (guardT O A b (trCond O A b))
  | .or a b => .or (guardT O A a (trCond O A a)) (guardT O A b (trCond O A b))

/-- `pyccel_to_sympy` refuses the condition (sympy_helper.py 316-317). -/
def opaque_ : Cond TV → Bool
  | .isNone _ | .notNone _ | .truth _ => true
  | .not c => opaque_ c
  | .and a b | .or a b => opaque_ a || opaque_ b
  | _ => false

/-- What SymPy finds out (sympy_helper.py 220-254, 306-310): literals and the rules of the connectives. -/
def sv : Cond TV → Option Bool
  | .const b => some b
  | .lt (.lit m) (.lit n) => some (decide (m < n))
  | .eq (.lit m) (.lit n) => some (decide (m = n))
  | .not c => (sv c).map (fun b => !b)
  | .and a b => match sv a, sv b with
    | some false, _ => some false
    | _, some false => some false
    | some true, some true => some true
    | _, _ => none
  | .or a b => match sv a, sv b with
    | some true, _ => some true
    | _, some true => some true
    | some false, some false => some false
    | _, _ => none
  | _ => none

/-- The condition of a section before `treat_condition` (semantic.py 6124-6139). -/
def secCond (O : Var → Bool) (A : List Var) (c : Cond Var) : Cond TV :=
  let c' := trCond O A c
  match (if opaque_ c' then none else sv c') with
  | some b => .const b
  | none => guardT O A c c'

/-- The variables which are assigned in the text, added to those above (semantic.py 5464-5482); `x = x` assigns nothing (5461). Sections
known to be false are not visited, nor are those after one known to be true (6132-6133, 6205-6217). -/
def aft (O : Var → Bool) : Code Var → List Var → List Var
  | .skip, A => A
  | .seq a b, A => aft O b (aft O a A)
  | .assign x e, A => if e = .var x then A else x :: A
  | .choose x _ _ _, A => x :: A
  | .aug _ _, A => A
  | .ret _, A => A
  | .ite c a b, A => match secCond O A c with
    | .const false => aft O b A
    | .const true => aft O a A
    | _ => aft O b (aft O a A)
  | .elif c a b, A => match secCond O A c with
    | .const false => aft O b A
    | .const true => aft O a A
    | _ => aft O b (aft O a A)
  | .loop _ a, A => aft O a A
  | .call r _ _ _, A => match r with
    | none => A
    | some x => x :: A

/-! ## `treat_condition` -/

/-- The operands of the outermost `and` (operators.py 1478-1482). -/
def conjs : Cond TV → List (Cond TV)
  | .and a b => conjs a ++ conjs b
  | c => [c]

/-- The conjunction of some operands (semantic.py 6146-6152). -/
def conj : List (Cond TV) → Cond TV
  | [] => .const true
  | [c] => c
  | c :: cs => .and c (conj cs)

/-- The variables of an expression, in order. -/
def evars {V : Type} : Expr V → List V
  | .lit _ => []
  | .var x => [x]
  | .add a b | .div a b => evars a ++ evars b

/-- Occurrences of variables in a condition (`get_direct_user_nodes`, semantic.py 6150). -/
def cvars {V : Type} : Cond V → List V
  | .const _ => []
  | .lt a b | .eq a b => evars a ++ evars b
  | .truth e => evars e
  | .isNone x | .notNone x => [x]
  | .not c => cvars c
  | .and a b | .or a b => cvars a ++ cvars b

/-- The variables of the tests `v is not None` in a condition, in order (`get_attribute_nodes(PyccelIsNot)`, semantic.py 6147). -/
def tests : Cond TV → List TV
  | .notNone x => [x]
  | .not c => tests c
  | .and a b | .or a b => tests a ++ tests b
  | _ => []

/-- `len(var_use) > 1` (semantic.py 6150-6152). -/
def used (cs : List (Cond TV)) (v : TV) : Bool := decide (1 < ((cs.flatMap cvars).filter (fun t => decide (t = v))).length)

/-- The first test that has to be split off (semantic.py 6147-6154).  `none`: the program is refused (6186-6191); otherwise the
variable and the operands that remain, if there is such a test. -/
def pick (all : List (Cond TV)) : List (Cond TV) → List (Cond TV) → Option (Option (TV × List (Cond TV)))
  | _, [] => some none
  | pre, c :: cs => match c with
    | .notNone v => if used all v then some (some (v, pre ++ cs)) else pick all (pre ++ [c]) cs
    | c => if (tests c).any (used all) then none else pick all (pre ++ [c]) cs

/-- All tests split off by the recursion of `treat_condition` (semantic.py 6157-6159), outermost first, and the operands that remain.
The first argument is larger than the number of operands. -/
def split : Nat → List (Cond TV) → Option (List TV × List (Cond TV))
  | 0, _ => none
  | n + 1, cs => match pick cs [] cs with
    | none => none
    | some none => some ([], cs)
    | some (some (v, rem)) => match split n rem with
      | none => none
      | some (vs, r) => some (v :: vs, r)

/-- `condition = c`; logical variables are 0 or 1 here (semantic.py 6170, 6174). -/
def setc (k : Nat) (c : Cond TV) : Code TV := .ite c (.assign (.cond k) (.lit 1)) (.assign (.cond k) (.lit 0))

/-- The statements put before the `if` (semantic.py 6164-6177), and the condition that remains (6178).  Those of the recursive call come
first. -/
def hoist (rem : Cond TV) : List TV → Nat → Code TV × Cond TV
  | [], _ => (.skip, rem)
  | t :: ts, k => (.seq (hoist rem ts (k + 1)).1
      (.ite (.notNone t) (setc k (hoist rem ts (k + 1)).2) (setc k (.const false))), .truth (.var (.cond k)))

/-- The nested `if`s in the body of the last section (semantic.py 6160-6163). -/
def nest (rem : Cond TV) (body : Code TV) : List TV → Code TV
  | [] => .ite rem body .skip
  | t :: ts => .ite (.notNone t) (nest rem body ts) .skip

/-- Statements to go before the statement, the statement, and the number of the next temporary. -/
structure Out where
  pre : Code TV
  code : Code TV
  next : Nat
deriving DecidableEq, Repr

/-- Statements of `_additional_exprs` are put before the statement that needed them (semantic.py `_visit_CodeBlock`). -/
def Out.all (o : Out) : Code TV := .seq o.pre o.code

/-- A section of an `if` with the sections after it (semantic.py 6141-6203). `last`: it is the last block as written. -/
def section_ (last : Bool) (c : Cond TV) (body : Code TV) (k : Nat) (rest : Nat → Option Out) : Option Out :=
  match split ((conjs c).length + 1) (conjs c) with
  | none => none
  | some ([], _) => match rest k with
    | none => none
    | some r => some ⟨r.pre, .ite c body r.code, r.next⟩
  | some (t :: ts, rem) =>
    if last then match rest k with
      | none => none
      | some r => some ⟨r.pre, .ite (.notNone t) (nest (conj rem) body ts) r.code, r.next⟩
    else match rest (k + (t :: ts).length) with
      | none => none
      | some r => some ⟨.seq (hoist (conj rem) (t :: ts) k).1 r.pre, .ite (hoist (conj rem) (t :: ts) k).2 body r.code, r.next⟩

/-- Nothing is written after the section. -/
def isSkip : Code Var → Bool
  | .skip => true
  | _ => false

/-- `elif` keeps its statements for the whole `if`; other statements after `else` keep their own. -/
def inRest (b : Code Var) (o : Out) : Out :=
  match b with
  | .elif _ _ _ => o
  | _ => ⟨.skip, o.all, o.next⟩

/-- The target of an assignment (semantic.py 5464-5482). -/
def lhs (O : Var → Bool) (x : Var) : TV := if O x then .loc x else .plain x

/-- Arguments of calls. -/
def trArgs (O : Var → Bool) (A : List Var) (args : List (Option (Expr Var))) : List (Option (Expr TV)) := args.map (fun a => a.map (trE O A))

/-- Statements, with the variables assigned in the text above and the number of the next temporary; `none`: refused. -/
def tr (O : Var → Bool) : Code Var → List Var → Nat → Option Out
  | .skip, _, k => some ⟨.skip, .skip, k⟩
  | .seq a b, A, k => match tr O a A k with
    | none => none
    | some o1 => match tr O b (aft O a A) o1.next with
      | none => none
      | some o2 => some ⟨.skip, .seq o1.all o2.all, o2.next⟩
  | .assign x e, A, k =>
    if e = .var x then (if O x && A.contains x then some ⟨.skip, .assign (.loc x) (.var (.loc x)), k⟩ else some ⟨.skip, .skip, k⟩)
    else some ⟨.skip, .assign (lhs O x) (trE O A e), k⟩
  | .choose x c a b, A, k => match trCond O A c with
    | .const t => some ⟨.skip, .assign (lhs O x) (trE O A (if t then a else b)), k⟩
    | c' => some ⟨.skip, .choose (lhs O x) c' (trE O A a) (trE O A b), k⟩
  | .aug x e, A, k => some ⟨.skip, .aug (tv O A x) (trE O A e), k⟩
  | .ret e, A, k => some ⟨.skip, .ret (trE O A e), k⟩
  | .ite c a b, A, k => match secCond O A c with
    | .const false => match tr O b A k with
      | none => none
      | some o => some ⟨.skip, o.all, o.next⟩
    | .const true => match tr O a A k with
      | none => none
      | some o => some ⟨.skip, o.all, o.next⟩
    | c' => match tr O a A k with
      | none => none
      | some oa => match section_ (isSkip b) c' oa.all oa.next (fun k => (tr O b (aft O a A) k).map (inRest b)) with
        | none => none
        | some o => some ⟨.skip, o.all, o.next⟩
  | .elif c a b, A, k => match secCond O A c with
    | .const false => (tr O b A k).map (inRest b)
    | .const true => match tr O a A k with
      | none => none
      | some o => some ⟨.skip, o.all, o.next⟩
    | c' => match tr O a A k with
      | none => none
      | some oa => section_ (isSkip b) c' oa.all oa.next (fun k => (tr O b (aft O a A) k).map (inRest b))
  | .loop c a, A, k => match tr O a A k with
    | none => none
    | some o => some ⟨.skip, .loop (trCond O A c) o.all, o.next⟩
  | .call r f args npos, A, k => some ⟨.skip, .call (r.map (lhs O)) f (trArgs O A args) npos, k⟩

/-- The optional parameters of a function (semantic.py 4048). -/
def optOf (ps : List (Var × Bool)) (x : Var) : Bool := ps.any (fun p => p.2 && decide (p.1 = x))

/-- `if x is not None: x_loc = x` for the optional arguments assigned somewhere (semantic.py 6650-6657). -/
def inits (ps : List (Var × Bool)) (F : List Var) : Code TV :=
  match ps with
  | [] => .skip
  | (x, o) :: ps => if o && F.contains x then .seq (.ite (.notNone (.arg x)) (.assign (.loc x) (.var (.arg x))) .skip) (inits ps F)
    else inits ps F

/-- The body of the generated function. -/
def trFunc (fn : Func) : Option (Code TV) := match tr (optOf fn.params) fn.body [] 0 with
  | none => none
  | some o => some (.seq (inits fn.params (aft (optOf fn.params) fn.body [])) o.all)

/-! ## The generated programs -/

/-- A value, or nothing: an absent argument or a variable not set. -/
abbrev St := TV → Option Int

/-- Expressions; reading what is absent or not set is undefined. -/
def tx (s : St) : Expr TV → Option Int
  | .lit n => some n
  | .var t => s t
  | .add a b => match tx s a, tx s b with
    | some x, some y => some (x + y)
    | _, _ => none
  | .div a b => match tx s a, tx s b with
    | some x, some y => if y = 0 then none else some (x.fdiv y)
    | _, _ => none

/-- Conditions.  `strict` is Fortran, where both operands of `.and.` and `.or.` may be evaluated (fcode.py 3689-3709); C evaluates the
second operand only if needed (ccode.py 1339-1361). -/
def tst (strict : Bool) (s : St) : Cond TV → Option Bool
  | .const b => some b
  | .lt a b => match tx s a, tx s b with
    | some x, some y => some (decide (x < y))
    | _, _ => none
  | .eq a b => match tx s a, tx s b with
    | some x, some y => some (decide (x = y))
    | _, _ => none
  | .truth e => (tx s e).map (fun n => decide (n ≠ 0))
  | .isNone t => some (s t).isNone
  | .notNone t => some (s t).isSome
  | .not c => (tst strict s c).map (fun b => !b)
  | .and a b => match tst strict s a with
    | none => none
    | some false => if strict then (tst strict s b).map (fun _ => false) else some false
    | some true => tst strict s b
  | .or a b => match tst strict s a with
    | none => none
    | some true => if strict then (tst strict s b).map (fun _ => true) else some true
    | some false => tst strict s b

/-- The arguments that parameters get in Fortran: written `None`s are left out of the list (fcode.py 4293), arguments without keyword go to
the first parameters, and those with keyword to their own (1505-1510). -/
def fBind {α : Type} (npos : Nat) (args : List (Option α)) : List (Option α) :=
  ((args.take npos).filterMap id).map some ++
    List.replicate ((args.take npos).length - ((args.take npos).filterMap id).length) none ++ args.drop npos

/-- One argument: to an optional parameter an optional argument is passed as it is, other expressions by value or address of a variable or
temporary (ccode.py 3117-3130). -/
def passArg (s : St) (opt : Bool) : Option (Expr TV) → Option (Option Int)
  | none => if opt then some none else none
  | some e => match opt, e with
    | true, .var (.arg x) => some (s (.arg x))
    | _, e => (tx s e).map some

/-- All arguments. -/
def passArgs (s : St) : List Bool → List (Option (Expr TV)) → Option (List (Option Int))
  | [], [] => some []
  | o :: os, a :: as => match passArg s o a, passArgs s os as with
    | some v, some vs => some (v :: vs)
    | _, _ => none
  | _, _ => none

/-- After the call, variables passed to optional parameters have the values that these have (`&x`, ccode.py 3118-3119). -/
def copyOut : List Bool → List (Option (Expr TV)) → List (Option Int) → St → St
  | o :: os, a :: as, v :: vs, s => match o, a with
    | true, some (.var t) => copyOut os as vs (upd s t v)
    | _, _ => copyOut os as vs s
  | _, _, _, s => s

/-- Statements.  `opts` gives the optional parameters of functions.  An optional argument that is changed in place does not compile in
Fortran, where it has `intent(in)` (fcode.py 2370-2385). `merge` evaluates both values (fcode.py 3535-3545). -/
def tRun (strict : Bool) (opts : Nat → List Bool) (call : Nat → List (Option Int) → Option (Option Int × List (Option Int))) (n : Nat) :
    Code TV → St → Option (St × Option Int)
  | .skip, s => some (s, none)
  | .seq a b, s => match tRun strict opts call n a s with
    | none => none
    | some (s', some v) => some (s', some v)
    | some (s', none) => tRun strict opts call n b s'
  | .assign x e, s => (tx s e).map (fun v => (upd s x (some v), none))
  | .choose x c a b, s => match tst strict s c with
    | none => none
    | some t =>
      if strict then match tx s a, tx s b with
        | some v, some w => some (upd s x (some (if t then v else w)), none)
        | _, _ => none
      else (tx s (if t then a else b)).map (fun v => (upd s x (some v), none))
  | .aug x e, s => match strict, x with
    | true, .arg _ => none
    | _, x => (tx s (.add (.var x) e)).map (fun v => (upd s x (some v), none))
  | .ret e, s => (tx s e).map (fun v => (s, some v))
  | .ite c a b, s => match tst strict s c with
    | none => none
    | some true => tRun strict opts call n a s
    | some false => tRun strict opts call n b s
  | .elif c a b, s => match tst strict s c with
    | none => none
    | some true => tRun strict opts call n a s
    | some false => tRun strict opts call n b s
  | .loop c a, s => loopN (fun s => tst strict s c) (tRun strict opts call n a) n s
  | .call r f args npos, s => match passArgs s (opts f) (if strict then fBind npos args else args) with
    | none => none
    | some vs => match call f vs with
      | none => none
      | some (v, out) => match r, v with
        | none, _ => some (copyOut (opts f) (if strict then fBind npos args else args) out s, none)
        | some x, some v => some (upd (copyOut (opts f) (if strict then fBind npos args else args) out s) x (some v), none)
        | some _, none => none

/-- The parameters at the start of a call. -/
def tInit : List (Var × Bool) → List (Option Int) → St
  | (x, o) :: ps, v :: vs => upd (tInit ps vs) (if o then .arg x else .plain x) v
  | _, _ => fun _ => none

/-- What the optional parameters are at the end; other parameters are passed by value. -/
def tOut : List (Var × Bool) → List (Option Int) → St → List (Option Int)
  | (x, o) :: ps, v :: vs, s => (if o then s (.arg x) else v) :: tOut ps vs s
  | _, _, _ => []

/-- The optional parameters of the functions of a program. -/
def optsOf (fs : Nat → Option Func) (f : Nat) : List Bool := match fs f with
  | none => []
  | some fn => fn.params.map (fun p => p.2)

/-- A call in the generated program: the value returned and the values of the parameters after it. -/
def tCall (strict : Bool) (fs : Nat → Option Func) (n : Nat) : Nat → Nat → List (Option Int) → Option (Option Int × List (Option Int))
  | 0, _, _ => none
  | d + 1, f, vs => match fs f with
    | none => none
    | some fn => match trFunc fn with
      | none => none
      | some code => if vs.length = fn.params.length then
          match tRun strict (optsOf fs) (tCall strict fs n d) n code (tInit fn.params vs) with
          | none => none
          | some (s, v) => some (v, tOut fn.params vs s)
        else none

end Verif.Optional
