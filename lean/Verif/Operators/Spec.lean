/-!
# Operators on objects of classes: what Python does

`a op b` and `a op= b`, where `a` and `b` are numbers or objects of classes written by the user, which
define some of the methods `__op__`, `__rop__` and `__iop__` (no inheritance, as the documentation of
pyccel requires, and no method that returns `NotImplemented`, which pyccel does not know).
-/

namespace Verif.Operators.Spec

/-- The operators for which a class can define methods. -/
inductive Op
  | add | sub | mul | truediv | pow | lshift | rshift | and | or
  | mod | floordiv | xor | matmul
  deriving DecidableEq, Repr

/-- The nine operators that pyccel's documentation lists as supported for classes: `+ - * / ** << >> &
|`. -/
def supported : List Op := [.add, .sub, .mul, .truediv, .pow, .lshift, .rshift, .and, .or]

/-- The methods: `__add__`, `__radd__`, `__iadd__`, … -/
inductive Meth
  | plain (o : Op)
  | refl (o : Op)
  | inpl (o : Op)
  deriving DecidableEq, Repr

/-- The type of an operand: a built-in number, or the class with a given number. -/
inductive Ty
  | num
  | cls (c : Nat)
  deriving DecidableEq, Repr

/-- Which methods the classes define. -/
abbrev Classes := Nat → Meth → Bool

/-- What an operator does. -/
inductive Act
  /-- arithmetic on numbers -/
  | builtin
  /-- the method of the left operand, with the right operand as its argument -/
  | left (m : Meth)
  /-- the method of the right operand, with the left operand as its argument -/
  | right (m : Meth)
  /-- `TypeError` -/
  | error
  deriving DecidableEq, Repr

/-- `a op b` in Python (the language reference, 3.3.8): the method of the left operand; if it does not
have one, the reflected method of the right operand, which is only tried if the operands have
different types. -/
def pyBin (C : Classes) (o : Op) : Ty → Ty → Act
  | .num, .num => .builtin
  | .num, .cls d => if C d (.refl o) then .right (.refl o) else .error
  | .cls c, .num => if C c (.plain o) then .left (.plain o) else .error
  | .cls c, .cls d =>
    if C c (.plain o) then .left (.plain o)
    else if c ≠ d ∧ C d (.refl o) then .right (.refl o)
    else .error

/-- `a op= b` in Python: the method `__iop__` of the left operand, otherwise `a = a op b`. -/
def pyAug (C : Classes) (o : Op) (a b : Ty) : Act :=
  match a with
  | .num => pyBin C o a b
  | .cls c => if C c (.inpl o) then .left (.inpl o) else pyBin C o a b

/-! ## The body of `__iop__` -/

/-- What a `return` statement returns: the object itself, or something else. -/
inductive Ret
  | self
  | other
  deriving DecidableEq, Repr

/-- The body of a method: actions on the state, `return`, and control structures. -/
inductive Stmt (σ : Type)
  | skip
  | act (f : σ → σ)
  | ret (r : Ret)
  | seq (a b : Stmt σ)
  | ite (c : σ → Bool) (a b : Stmt σ)
  /-- a loop whose number of turns is known when it starts -/
  | loop (n : σ → Nat) (a : Stmt σ)

/-- Repeat something until it returns. -/
def again {σ : Type} (f : σ → σ × Option Ret) : Nat → σ → σ × Option Ret
  | 0, s => (s, none)
  | n + 1, s =>
    match f s with
    | (s', none) => again f n s'
    | (s', some r) => (s', some r)

/-- Python: the state afterwards, and what was returned (`none`: the end of the body was reached, and
the method returns `None`). -/
def run {σ : Type} : Stmt σ → σ → σ × Option Ret
  | .skip, s => (s, none)
  | .act f, s => (f s, none)
  | .ret r, s => (s, some r)
  | .seq a b, s =>
    match run a s with
    | (s', none) => run b s'
    | (s', some r) => (s', some r)
  | .ite c a b, s => if c s then run a s else run b s
  | .loop n a, s => again (run a) (n s) s

/-- No `return`. -/
def noRet {σ : Type} : Stmt σ → Bool
  | .ret _ => false
  | .seq a b => noRet a && noRet b
  | .ite _ a b => noRet a && noRet b
  | .loop _ a => noRet a
  | _ => true

/-- Nothing follows a `return`. -/
def tail {σ : Type} : Stmt σ → Bool
  | .seq a b => noRet a && tail b
  | .ite _ a b => tail a && tail b
  | .loop _ a => noRet a
  | _ => true

/-- Every `return` returns the object itself. -/
def selfOnly {σ : Type} : Stmt σ → Bool
  | .ret .other => false
  | .seq a b => selfOnly a && selfOnly b
  | .ite _ a b => selfOnly a && selfOnly b
  | .loop _ a => selfOnly a
  | _ => true

/-- After `x op= y` with the method `__iop__`, what the name `x` denotes: the same object, or
something else. -/
def pyTarget (r : Option Ret) : Ret :=
  match r with
  | some .self => .self
  | _ => .other

end Verif.Operators.Spec
