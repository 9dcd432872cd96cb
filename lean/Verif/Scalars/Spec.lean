import Mathlib.Data.Int.Bitwise
import Verif.Types.Spec
import Verif.IntMath.Spec

/-
Integer expressions of Python and NumPy: the types `bool`, `int`, `numpy.int8` to `numpy.int64`, and their values.
-/
namespace Verif.Scalars
open Verif.Types.Spec (Num)
open Verif.IntMath.Spec (InRange)

/-- Binary operators. -/
inductive Bin where
  | add | sub | mul | fdiv | mod | shl | shr | band | bor | bxor
deriving DecidableEq, Repr

/-- Comparisons. -/
inductive Cmp where
  | lt | le | gt | ge | eq | ne
deriving DecidableEq, Repr

/-- Expressions.  `cast t a` is `bool(a)`, `int(a)`, `np.int8(a)`, …; `land`, `lor` and `lnot` are `and`, `or` and `not`. -/
inductive Expr where
  | lit (n : Nat)
  | bool (b : Bool)
  | var (x : Nat)
  | bin (o : Bin) (a b : Expr)
  | neg (a : Expr)
  | inv (a : Expr)
  | abs (a : Expr)
  | cmp (o : Cmp) (a b : Expr)
  | land (a b : Expr)
  | lor (a b : Expr)
  | lnot (a : Expr)
  | cast (t : Num) (a : Expr)
deriving DecidableEq, Repr

/-- `bool` or an integer type. -/
def Num.integral (t : Num) : Bool := decide (t = .pbool ∨ t = .pint ∨ t = .i8 ∨ t = .i16 ∨ t = .i32 ∨ t = .i64)

/-- `True` is 1 and `False` is 0. -/
def ofBool (b : Bool) : Int := if b then 1 else 0

/-- The operators on the integers of Python; `none` is an exception (division by zero, negative shift). -/
def intOp : Bin → Int → Int → Option Int
  | .add, x, y => some (x + y)
  | .sub, x, y => some (x - y)
  | .mul, x, y => some (x * y)
  | .fdiv, x, y => if y = 0 then none else some (x.fdiv y)
  | .mod, x, y => if y = 0 then none else some (x.fmod y)
  | .shl, x, y => if y < 0 then none else some (x * 2 ^ y.toNat)
  | .shr, x, y => if y < 0 then none else some (x.fdiv (2 ^ y.toNat))
  | .band, x, y => some (Int.land x y)
  | .bor, x, y => some (Int.lor x y)
  | .bxor, x, y => some (Int.xor x y)

/-- Comparisons of integers. -/
def intCmp : Cmp → Int → Int → Bool
  | .lt, x, y => decide (x < y)
  | .le, x, y => decide (x ≤ y)
  | .gt, x, y => decide (y < x)
  | .ge, x, y => decide (y ≤ x)
  | .eq, x, y => decide (x = y)
  | .ne, x, y => decide (x ≠ y)

/-- The type of a result: Python's `int` for two operands of Python, the NumPy type next to an operand of Python, the larger of two NumPy
types.  `&`, `|` and `^` of two truth values are truth values. -/
def resT (o : Bin) (a b : Num) : Num :=
  if a.python then
    if b.python then
      (match o with
      | .band | .bor | .bxor => if a = .pbool ∧ b = .pbool then .pbool else .pint
      | _ => .pint)
    else b
  else if b.python then a
  else if a.width ≤ b.width then b else a

/-- The type of `-a`, `~a` and `abs(a)`. -/
def unT (a : Num) : Num := if a = .pbool then .pint else a

/-- The values of a type. -/
def InT : Num → Int → Prop
  | .pbool, n => n = 0 ∨ n = 1
  | .pint, _ => True
  | t, n => InRange t.width n

instance (t : Num) (n : Int) : Decidable (InT t n) := by cases t <;> simp only [InT] <;> infer_instance

/-- Results that do not fit a NumPy type are reduced modulo a power of two. -/
def reduce : Num → Int → Int
  | .pbool, n | .pint, n => n
  | t, n => Int.bmod n (2 ^ t.width)

/-- The type of an expression in Python and NumPy; `Γ` gives the types of the variables. -/
def npTy (Γ : Nat → Num) : Expr → Option Num
  | .lit _ => some .pint
  | .bool _ => some .pbool
  | .var x => some (Γ x)
  | .bin o a b => match npTy Γ a, npTy Γ b with
    | some t, some u => some (resT o t u)
    | _, _ => none
  | .neg a | .inv a | .abs a => (npTy Γ a).map unT
  | .cmp _ a b => match npTy Γ a, npTy Γ b with
    | some _, some _ => some .pbool
    | _, _ => none
  | .land a b | .lor a b => match npTy Γ a, npTy Γ b with
    | some .pbool, some .pbool => some .pbool
    | _, _ => none
  | .lnot a => match npTy Γ a with
    | some .pbool => some .pbool
    | _ => none
  | .cast t a => (npTy Γ a).map (fun _ => t)

/-- The value of an expression in Python and NumPy; `none` is an exception.  An `int` next to a NumPy value has to fit the type of that.
(The type tests of `npTy` are repeated here because `none` also stands for expressions that are not considered.) -/
def np (Γ : Nat → Num) (env : Nat → Int) : Expr → Option (Num × Int)
  | .lit n => some (.pint, n)
  | .bool b => some (.pbool, ofBool b)
  | .var x => some (Γ x, env x)
  | .bin o a b => match np Γ env a, np Γ env b with
    | some (t, x), some (u, y) =>
      if InT (resT o t u) x ∧ InT (resT o t u) y ∨ resT o t u = .pbool then
        (intOp o x y).map (fun r => (resT o t u, reduce (resT o t u) r))
      else none
    | _, _ => none
  | .neg a => (np Γ env a).map (fun p => (unT p.1, reduce (unT p.1) (-p.2)))
  | .inv a => (np Γ env a).map (fun p => (unT p.1, Int.lnot p.2))
  | .abs a => (np Γ env a).map (fun p => (unT p.1, reduce (unT p.1) (p.2.natAbs : Int)))
  | .cmp o a b => match np Γ env a, np Γ env b with
    | some (_, x), some (_, y) => some (.pbool, ofBool (intCmp o x y))
    | _, _ => none
  | .land a b => match np Γ env a with
    | some (.pbool, x) => if x = 0 then some (.pbool, 0) else match np Γ env b with
      | some (.pbool, y) => some (.pbool, y)
      | _ => none
    | _ => none
  | .lor a b => match np Γ env a with
    | some (.pbool, x) => if x = 0 then (match np Γ env b with
      | some (.pbool, y) => some (.pbool, y)
      | _ => none) else some (.pbool, 1)
    | _ => none
  | .lnot a => match np Γ env a with
    | some (.pbool, x) => some (.pbool, ofBool (decide (x = 0)))
    | _ => none
  | .cast t a => match np Γ env a with
    | some (u, x) =>
      if t = .pbool then some (.pbool, ofBool (decide (x ≠ 0)))
      else if u = .pint ∧ ¬ InT t x then none else some (t, reduce t x)
    | none => none

/-- The values that fit a machine type: `int` has 64 bits. -/
def Fits : Num → Int → Prop
  | .pbool, n => n = 0 ∨ n = 1
  | t, n => InRange t.width n

instance (t : Num) (n : Int) : Decidable (Fits t n) := by cases t <;> simp only [Fits] <;> infer_instance

/-- The results of all operations that are carried out fit their types, shifts are by less than the number of
bits, and the quotient that belongs to `%` has 64 bits (`-2**63 % -1` is excluded).  With `eager` the
second operands of `and` and `or` count as well when Python does not evaluate them. -/
def Plain (eager : Bool) (Γ : Nat → Num) (env : Nat → Int) : Expr → Prop
  | .lit n => Fits .pint n
  | .bool _ => True
  | .var x => Fits (Γ x) (env x)
  | .bin o a b => Plain eager Γ env a ∧ Plain eager Γ env b ∧
    ∀ t x u y r, np Γ env a = some (t, x) → np Γ env b = some (u, y) → intOp o x y = some r →
      Fits (resT o t u) r ∧ (o = .shl ∨ o = .shr → y < (resT o t u).width) ∧ (o = .mod → InRange 64 (x.fdiv y))
  | .neg a => Plain eager Γ env a ∧ ∀ t x, np Γ env a = some (t, x) → Fits (unT t) (-x)
  | .abs a => Plain eager Γ env a ∧ ∀ t x, np Γ env a = some (t, x) → Fits (unT t) (x.natAbs : Int)
  | .inv a | .lnot a => Plain eager Γ env a
  | .cmp _ a b => Plain eager Γ env a ∧ Plain eager Γ env b
  | .land a b => Plain eager Γ env a ∧
    (∀ t x, np Γ env a = some (t, x) → x ≠ 0 → Plain eager Γ env b) ∧ (eager = true → Plain eager Γ env b ∧ np Γ env b ≠ none)
  | .lor a b => Plain eager Γ env a ∧
    (∀ t x, np Γ env a = some (t, x) → x = 0 → Plain eager Γ env b) ∧ (eager = true → Plain eager Γ env b ∧ np Γ env b ≠ none)
  | .cast t a => Plain eager Γ env a ∧ ∀ u x, np Γ env a = some (u, x) → t ≠ .pbool → Fits t x

end Verif.Scalars
