import Verif.Optional.Model

/-
The discipline under which optional arguments are translated correctly: every use of an optional variable that needs a number is
dominated by a test, `x is None` is not tested in the text below an assignment to `x` unless `x` is known to be a number, loops assign
only what was assigned before, and in Fortran what may be evaluated needlessly cannot fail.
-/
namespace Verif.Optional

/-- The variables that are numbers when a condition is true, or false. -/
def facts {V : Type} : Cond V → Bool → List V
  | .notNone x, true => [x]
  | .isNone x, false => [x]
  | .truth (.var x), true => [x]
  | .not c, b => facts c (!b)
  | .and a b, true => facts a true ++ facts b true
  | .or a b, false => facts a false ++ facts b false
  | _, _ => []

/-- Every optional variable read is known to be a number.  (Ordinary variables that are not set raise an exception in Python.) -/
def exprOk (K : List TV) (e : Expr TV) : Bool := (evars e).all (fun t => match t with
  | .plain _ => true
  | t => K.contains t)

/-- The expression has a value: all variables are known to be numbers and divisors are literals. -/
def exprTot (K : List TV) : Expr TV → Bool
  | .lit _ => true
  | .var t => K.contains t
  | .add a b => exprTot K a && exprTot K b
  | .div a b => exprTot K a && (match b with
    | .lit n => decide (n ≠ 0)
    | _ => false)

/-- The condition has a value. -/
def condTot (K : List TV) : Cond TV → Bool
  | .lt a b | .eq a b => exprTot K a && exprTot K b
  | .truth e => exprTot K e
  | .not c => condTot K c
  | .and a b | .or a b => condTot K a && condTot K b
  | _ => true

/-- Optional variables are read only where they are known to be numbers; the second operand of a connective may rely on the first in C, and
must have a value in any case in Fortran. -/
def condOk (strict : Bool) (K : List TV) : Cond TV → Bool
  | .lt a b | .eq a b => exprOk K a && exprOk K b
  | .truth e => exprOk K e
  | .not c => condOk strict K c
  | .and a b => condOk strict K a && (if strict then condTot K b else condOk strict (K ++ facts a true) b)
  | .or a b => condOk strict K a && (if strict then condTot K b else condOk strict (K ++ facts a false) b)
  | _ => true

/-- Further requirement in Fortran only. -/
def strictOk (strict : Bool) (K : List TV) (c : Cond TV) : Bool := !strict || condOk true K c

/-- Tests against `None` below an assignment are about variables known to be numbers. -/
def foldOk (O : Var → Bool) (A N : List Var) : Cond Var → Bool
  | .isNone x | .notNone x => !(O x && A.contains x) || N.contains x
  | .not c => foldOk O A N c
  | .and a b | .or a b => foldOk O A N a && foldOk O A N b
  | _ => true

/-- The known variables in the generated program. -/
def ks (O : Var → Bool) (A N : List Var) : List TV := N.map (tv O A)

/-- A section of an `if`: its condition is read with knowledge `K`.  If tests are split off, what remains is read after them in the last
section; it is computed before the `if` in the others, where only the innermost test and what is known before the `if`, `H`, can be relied
on, except for a single test in the first section. -/
def secOk (strict first last : Bool) (K H : List TV) (c : Cond TV) : Bool :=
  condOk false K c && (match split ((conjs c).length + 1) (conjs c) with
  | none => false
  | some ([], _) => strictOk strict K c
  | some (t :: ts, rem) =>
    if last || (first && ts.isEmpty) then strictOk strict (K ++ (t :: ts)) (conj rem)
    else condTot (H ++ [(t :: ts).getLast (List.cons_ne_nil t ts)]) (conj rem))

/-- `e` is an optional argument not assigned above, which may be passed on. -/
def isArgVar (O : Var → Bool) (A : List Var) : Expr Var → Bool
  | .var x => isArg O A x
  | _ => false

/-- Arguments: `None` only for optional parameters; optional arguments may be passed on to optional parameters. -/
def argsOk (O : Var → Bool) (A : List Var) (K : List TV) : List Bool → List (Option (Expr Var)) → Bool
  | [], [] => true
  | o :: os, none :: as => o && argsOk O A K os as
  | o :: os, some e :: as => ((o && isArgVar O A e) || exprOk K (trE O A e)) && argsOk O A K os as
  | _, _ => false

/-- What is known after either of two branches; `none` for a branch that always returns. -/
def join : Option (List Var) → Option (List Var) → Option (List Var)
  | none, n => n
  | n, none => n
  | some a, some b => some (a.filter (fun x => b.contains x))

/-- Both branches are fine. -/
def both : Option (Option (List Var)) → Option (Option (List Var)) → Option (Option (List Var))
  | some a, some b => some (join a b)
  | _, _ => none

/-- The values of a conditional expression: both are computed by `merge`. -/
def chooseOk (strict : Bool) (O : Var → Bool) (A N : List Var) (a b : Expr Var) : Cond TV → Bool
  | .const t => exprOk (ks O A N) (trE O A (if t then a else b))
  | c' => if strict then exprTot (ks O A N) (trE O A a) && exprTot (ks O A N) (trE O A b)
    else exprOk (ks O A N ++ facts c' true) (trE O A a) && exprOk (ks O A N ++ facts c' false) (trE O A b)

/-- The discipline for statements: `A` is assigned in the text above, `H` known at the beginning of the enclosing `if`, `N` known here.
The result is what is known afterwards. -/
def check (strict : Bool) (opts : Nat → List Bool) (rets : Nat → Bool) (O : Var → Bool) :
    Code Var → List Var → List Var → List Var → Option (Option (List Var))
  | .skip, _, _, N => some (some N)
  | .seq a b, A, _, N => match check strict opts rets O a A N N with
    | none => none
    | some none => some none
    | some (some N') => check strict opts rets O b (aft O a A) N' N'
  | .assign x e, A, _, N =>
    if e = .var x then (if !(O x && A.contains x) || N.contains x then some (some N) else none)
    else if exprOk (ks O A N) (trE O A e) then some (some (x :: N)) else none
  | .choose x c a b, A, _, N =>
    if foldOk O A N c && condOk false (ks O A N) (trCond O A c) && strictOk strict (ks O A N) (trCond O A c) &&
      chooseOk strict O A N a b (trCond O A c)
    then some (some (x :: N)) else none
  | .aug x e, A, _, N => if !isArg O A x && exprOk (ks O A N) (trE O A (.add (.var x) e)) then some (some (x :: N)) else none
  | .ret e, A, _, N => if exprOk (ks O A N) (trE O A e) then some none else none
  | .ite c a b, A, _, N =>
    if foldOk O A N c && condOk false (ks O A N) (guardT O A c (trCond O A c)) then
      match secCond O A c with
      | .const false => check strict opts rets O b A N N
      | .const true => check strict opts rets O a A N N
      | c' => if secOk strict true (isSkip b) (ks O A N) (ks O A N) c' then
          both (check strict opts rets O a A (N ++ facts c true) (N ++ facts c true))
            (check strict opts rets O b (aft O a A) N (N ++ facts c false))
        else none
    else none
  | .elif c a b, A, H, N =>
    if foldOk O A N c && condOk false (ks O A N) (guardT O A c (trCond O A c)) then
      match secCond O A c with
      | .const false => check strict opts rets O b A H N
      | .const true => check strict opts rets O a A N N
      | c' => if secOk strict false (isSkip b) (ks O A N) (ks O A H) c' then
          both (check strict opts rets O a A (N ++ facts c true) (N ++ facts c true))
            (check strict opts rets O b (aft O a A) H (N ++ facts c false))
        else none
    else none
  | .loop c a, A, _, N =>
    if (aft O a A).all (fun x => !O x || A.contains x) && foldOk O A N c && condOk false (ks O A N) (trCond O A c) &&
      strictOk strict (ks O A N) (trCond O A c) && (check strict opts rets O a A (N ++ facts c true) (N ++ facts c true)).isSome
    then some (some (N ++ facts c false)) else none
  | .call r f args npos, A, _, N =>
    if argsOk O A (ks O A N) (opts f) args && (!strict || decide (fBind npos args = args)) && (r.isNone || rets f)
    then some (some (r.toList ++ N)) else none

/-- Whether a function returns a number. -/
def retsOf (fs : Nat → Option Func) (f : Nat) : Bool := match fs f with
  | none => false
  | some fn => fn.returns

/-- The parameters without default. -/
def required (ps : List (Var × Bool)) : List Var := (ps.filter (fun p => !p.2)).map (fun p => p.1)

/-- The discipline for a function of a program: the names of parameters differ, pyccel accepts the body, the body obeys, and a function that
returns a number does so on every path. -/
def checkFunc (strict : Bool) (fs : Nat → Option Func) (fn : Func) : Bool :=
  decide ((fn.params.map (fun p => p.1)).Nodup) && (trFunc fn).isSome &&
    (match check strict (optsOf fs) (retsOf fs) (optOf fn.params) fn.body [] (required fn.params) (required fn.params) with
    | none => false
    | some r => !fn.returns || r.isNone)

end Verif.Optional
