/-
Optional arguments: functions some of whose parameters have the default `None`, and the meaning of such functions in Python.

The programs are generic in the names of variables, so that the generated programs are programs of the same kind.
-/
namespace Verif.Optional

/-- Names of variables in the Python source. -/
abbrev Var := Nat

/-- Integer expressions. -/
inductive Expr (V : Type) where
  | lit (n : Int)
  | var (x : V)
  | add (a b : Expr V)
  /-- `a // b` -/
  | div (a b : Expr V)
deriving DecidableEq, Repr

/-- Conditions. -/
inductive Cond (V : Type) where
  | const (b : Bool)
  | lt (a b : Expr V)
  | eq (a b : Expr V)
  /-- an integer used as a condition -/
  | truth (e : Expr V)
  /-- `x is None` -/
  | isNone (x : V)
  /-- `x is not None` -/
  | notNone (x : V)
  | not (c : Cond V)
  | and (a b : Cond V)
  | or (a b : Cond V)
deriving DecidableEq, Repr

/-- Statements.  `ite c a b` is `if c: a else: b`; the `else` is absent when `b` is `skip`, and when `b` is `elif` it is written
`elif`.  `choose x c a b` is `x = a if c else b`.  `call r f args npos` is `r = f(args)`, one argument for each parameter, `none` for
a written or defaulted `None`; the first `npos` are passed by position and the others by keyword. -/
inductive Code (V : Type) where
  | skip
  | seq (a b : Code V)
  | assign (x : V) (e : Expr V)
  | choose (x : V) (c : Cond V) (a b : Expr V)
  /-- `x += e` -/
  | aug (x : V) (e : Expr V)
  | ret (e : Expr V)
  | ite (c : Cond V) (a b : Code V)
  | elif (c : Cond V) (a b : Code V)
  /-- `while c: a` -/
  | loop (c : Cond V) (a : Code V)
  | call (r : Option V) (f : Nat) (args : List (Option (Expr V))) (npos : Nat)
deriving DecidableEq, Repr

/-- A function: its parameters, each with whether its default is `None`; whether it returns a number; its body. -/
structure Func where
  params : List (Var × Bool)
  returns : Bool
  body : Code Var
deriving DecidableEq, Repr

/-! ## Python -/

/-- The value of a variable: unbound, `None`, or a number. -/
abbrev PySt := Var → Option (Option Int)

/-- Update of a function at one point. -/
def upd {V α : Type} [DecidableEq V] (s : V → α) (x : V) (v : α) : V → α := fun y => if y = x then v else s y

/-- The value of an expression; `none` is an exception. -/
def pyExpr (σ : PySt) : Expr Var → Option (Option Int)
  | .lit n => some (some n)
  | .var x => σ x
  | .add a b => match pyExpr σ a, pyExpr σ b with
    | some (some x), some (some y) => some (some (x + y))
    | _, _ => none
  | .div a b => match pyExpr σ a, pyExpr σ b with
    | some (some x), some (some y) => if y = 0 then none else some (some (x.fdiv y))
    | _, _ => none

/-- The truth value of a condition. -/
def pyTest (σ : PySt) : Cond Var → Option Bool
  | .const b => some b
  | .lt a b => match pyExpr σ a, pyExpr σ b with
    | some (some x), some (some y) => some (decide (x < y))
    | _, _ => none
  | .eq a b => match pyExpr σ a, pyExpr σ b with
    | some x, some y => some (decide (x = y))
    | _, _ => none
  | .truth e => match pyExpr σ e with
    | some (some n) => some (decide (n ≠ 0))
    | some none => some false
    | none => none
  | .isNone x => (σ x).map (fun v => v.isNone)
  | .notNone x => (σ x).map (fun v => v.isSome)
  | .not c => (pyTest σ c).map (fun b => !b)
  | .and a b => match pyTest σ a with
    | some true => pyTest σ b
    | r => r
  | .or a b => match pyTest σ a with
    | some false => pyTest σ b
    | r => r

/-- `while`, with at most `n` tests; the second component of a result is the value returned, if the body returned. -/
def loopN {S R : Type} (test : S → Option Bool) (body : S → Option (S × Option R)) : Nat → S → Option (S × Option R)
  | 0, _ => none
  | n + 1, s => match test s with
    | none => none
    | some false => some (s, none)
    | some true => match body s with
      | none => none
      | some (s', some v) => some (s', some v)
      | some (s', none) => loopN test body n s'

/-- The values of the arguments of a call. -/
def pyArgs (σ : PySt) : List (Option (Expr Var)) → Option (List (Option Int))
  | [] => some []
  | none :: l => (pyArgs σ l).map (fun vs => none :: vs)
  | some e :: l => match pyExpr σ e, pyArgs σ l with
    | some v, some vs => some (v :: vs)
    | _, _ => none

/-- A statement.  `call` is the meaning of the functions, `n` bounds the number of tests of each loop; `none` stands for an exception or
for a loop that is not finished. -/
def pyRun (call : Nat → List (Option Int) → Option (Option Int)) (n : Nat) : Code Var → PySt → Option (PySt × Option (Option Int))
  | .skip, σ => some (σ, none)
  | .seq a b, σ => match pyRun call n a σ with
    | none => none
    | some (σ', some v) => some (σ', some v)
    | some (σ', none) => pyRun call n b σ'
  | .assign x e, σ => (pyExpr σ e).map (fun v => (upd σ x (some v), none))
  | .choose x c a b, σ => match pyTest σ c with
    | none => none
    | some t => (pyExpr σ (if t then a else b)).map (fun v => (upd σ x (some v), none))
  | .aug x e, σ => (pyExpr σ (.add (.var x) e)).map (fun v => (upd σ x (some v), none))
  | .ret e, σ => (pyExpr σ e).map (fun v => (σ, some v))
  | .ite c a b, σ => match pyTest σ c with
    | none => none
    | some true => pyRun call n a σ
    | some false => pyRun call n b σ
  | .elif c a b, σ => match pyTest σ c with
    | none => none
    | some true => pyRun call n a σ
    | some false => pyRun call n b σ
  | .loop c a, σ => loopN (fun σ => pyTest σ c) (pyRun call n a) n σ
  | .call r f args _, σ => match pyArgs σ args with
    | none => none
    | some vs => match call f vs with
      | none => none
      | some v => match r with
        | none => some (σ, none)
        | some x => some (upd σ x (some v), none)

/-- The parameters at the start of a call. -/
def pyInit : List (Var × Bool) → List (Option Int) → PySt
  | (x, _) :: ps, v :: vs => upd (pyInit ps vs) x (some v)
  | _, _ => fun _ => none

/-- A call of function number `f` with at most `d` nested calls; a function that ends without `return` gives `None`. -/
def pyCall (fs : Nat → Option Func) (n : Nat) : Nat → Nat → List (Option Int) → Option (Option Int)
  | 0, _, _ => none
  | d + 1, f, vs => match fs f with
    | none => none
    | some fn => if vs.length = fn.params.length then
        match pyRun (pyCall fs n d) n fn.body (pyInit fn.params vs) with
        | none => none
        | some (_, some v) => some v
        | some (_, none) => some none
      else none

/-- A parameter without default gets a number. -/
def Fits : List (Var × Bool) → List (Option Int) → Prop
  | [], [] => True
  | (_, o) :: ps, v :: vs => (o = false → v.isSome) ∧ Fits ps vs
  | _, _ => False

end Verif.Optional
