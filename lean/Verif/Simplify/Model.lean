import Verif.Types.Model
import Verif.Simplify.Spec
/-
Model of the simplifying constructors of pyccel/ast/operators.py.  Complex numbers, strings and
arrays are not represented.
-/
namespace Verif.Simplify
open Verif.Simplify.Spec
open Verif.Types (addT divT precision)
open Verif.Types.Spec (Num Kind)

/-- The type of a literal: pyccel/ast/literals.py:84-220. -/
def Lit.ty : Lit → Num
  | .bool _ => .pbool
  | .int _ t => t
  | .real _ t => t

/-- The sum of two types (defined for all of them, `C34_defined`). -/
def sumTy (a b : Num) : Num := (addT a b).getD .pbool

/-- The `class_type` of an expression: operators.py:313-332 (unary), 575-592 (arithmetic),
1036-1068 (division). -/
def ty : Ex → Num
  | .lit l => Lit.ty l
  | .var _ t => t
  | .neg a => ty a
  | .add a b => sumTy (ty a) (ty b)
  | .minus a b => sumTy (ty a) (ty b)
  | .mul a b => sumTy (ty a) (ty b)
  | .div a b => (divT (ty a) (ty b)).getD .pbool

/-- `==` on types: pyccel/ast/numpytypes.py:84-95 (a NumPy type equals the Python type of the same
kind and precision). -/
def tyEq (a b : Num) : Bool := a.kind = b.kind && precision a = precision b

/-- `convert_to_literal(value, dtype)` on numbers: literals.py:478-538. -/
def toLit (v : Rat) (t : Num) : Ex :=
  match t.kind with
  | .bool => .lit (.bool (v ≠ 0))
  | .int =>
    if 0 ≤ v then .lit (.int v.num.toNat t) else .neg (.lit (.int (-v).num.toNat t))
  | _ => .lit (.real v t)

/-- `node == n` for an integer `n`: `Literal.__eq__` compares the Python values
(literals.py:73-80), `PyccelUnarySub.__eq__` compares the argument with `-n`
(operators.py:419-423); other nodes never equal an integer. -/
def eqInt : Ex → Int → Bool
  | .lit l, n => l.value = n
  | .neg a, n => eqInt a (-n)
  | _, _ => false

/-- `node == node`: literals of the same class compare their Python values (literals.py:73-80:
`isinstance(other, type(self)) and self.python_value == other.python_value`), variables their
names (variable.py:433), and the operators compare by identity, which is represented by `same`. -/
def eqNode (same : Ex → Ex → Bool) : Ex → Ex → Bool
  | .lit (.bool a), .lit (.bool b) => a = b
  | .lit (.int n _), .lit (.int m _) => n = m
  | .lit (.real p _), .lit (.real q _) => p = q
  | .var x _, .var y _ => x = y
  | .lit _, _ => false
  | .var _ _, _ => false
  | a, b => same a b

/-- `isinstance(node, Literal)`. -/
def asLit : Ex → Option Lit
  | .lit l => some l
  | _ => none

/-- The tests of `PyccelAdd.make_simplified` after the one for a unary minus:
operators.py:749-773. -/
def addTail (same : Ex → Ex → Bool) (a b : Ex) : Ex :=
  let t := sumTy (ty a) (ty b)
  match asLit a, asLit b with
  | some x, some y => toLit (x.value + y.value) t
  | _, _ =>
    if tyEq t (ty b) && eqInt a 0 then b
    else if tyEq t (ty a) && eqInt b 0 then a
    else
      match a with
      | .minus p q => if eqNode same q b && tyEq (ty p) t then p else .add a b
      | .add p (.lit x) =>
        match asLit b with
        | some y => .add p (toLit (x.value + y.value) (sumTy (Lit.ty x) (Lit.ty y)))
        | none => .add a b
      | _ => .add a b

/-- The tests of `PyccelMinus.make_simplified` after the one for a unary minus:
operators.py:932-965. -/
def minusTail (same : Ex → Ex → Bool) (a b : Ex) : Ex :=
  let t := sumTy (ty a) (ty b)
  match asLit a, asLit b with
  | some x, some y => toLit (x.value - y.value) t
  | _, _ =>
    if tyEq t (ty b) && eqInt a 0 then .neg b
    else if tyEq t (ty a) && eqInt b 0 then a
    else
      match a with
      | .add p q =>
        if eqNode same q b && tyEq (ty p) t then p
        else match asLit q, asLit b with
          | some x, some y => .add p (toLit (x.value - y.value) (sumTy (Lit.ty x) (Lit.ty y)))
          | _, _ => .minus a b
      | .minus p q =>
        match asLit q, asLit b with
          | some x, some y => .minus p (toLit (x.value + y.value) (sumTy (Lit.ty x) (Lit.ty y)))
          | _, _ => .minus a b
      | _ => .minus a b

/-- `PyccelAdd.make_simplified` (`plus = true`) and `PyccelMinus.make_simplified`
(`plus = false`): a unary minus in the second argument switches to the other one,
operators.py:746-747 and 930-931. -/
def addMinus (same : Ex → Ex → Bool) (plus : Bool) (a : Ex) : Ex → Ex
  | .neg b => addMinus same (!plus) a b
  | b => if plus then addTail same a b else minusTail same a b

/-- `PyccelAdd.make_simplified`: operators.py:733-773. -/
def addS (same : Ex → Ex → Bool) (a b : Ex) : Ex := addMinus same true a b
/-- `PyccelMinus.make_simplified`: operators.py:917-965. -/
def minusS (same : Ex → Ex → Bool) (a b : Ex) : Ex := addMinus same false a b

/-- `isinstance(node, PyccelUnarySub) and node.args[0] == 1`: operators.py:873, 877. -/
def isMinusOne : Ex → Bool
  | .neg a => eqInt a 1
  | _ => false

/-- `PyccelMul.make_simplified`: operators.py:852-883.  The second test looks at the type of the
second argument, as the code does. -/
def mulS (a b : Ex) : Ex :=
  let t := sumTy (ty a) (ty b)
  if eqInt a 1 && tyEq (ty b) t then b
  else if eqInt b 1 && tyEq (ty b) t then a
  else if eqInt a 0 || eqInt b 0 then toLit 0 t
  else if isMinusOne a && tyEq (ty b) t then .neg b
  else if isMinusOne b && tyEq (ty a) t then .neg a
  else match asLit a, asLit b with
    | some x, some y => toLit (x.value * y.value) t
    | _, _ => .mul a b

/-- `PyccelDiv.make_simplified`: operators.py:1013-1034; dividing two literals by zero raises
`ZeroDivisionError` inside pyccel, `none`. -/
def divS (a b : Ex) : Option Ex :=
  let t := (divT (ty a) (ty b)).getD .pbool
  if eqInt b 1 && tyEq (ty a) t then some a
  else match asLit a, asLit b with
    | some x, some y => if y.value = 0 then none else some (toLit (x.value / y.value) t)
    | _, _ => some (.div a b)

/-- A literal or the negation of one, with its value: operators.py:1350-1364. -/
def signedLit : Ex → Option Rat
  | .lit l => some l.value
  | .neg (.lit l) => some (-l.value)
  | _ => none

/-- `PyccelGt.make_simplified`: operators.py:1336-1367. -/
def gtS (a b : Ex) : BEx :=
  match signedLit a, signedLit b with
  | some x, some y => .lit (x > y)
  | _, _ => .gt a b

/-- `PyccelNot.make_simplified`: operators.py:455-474. -/
def notS : BEx → BEx
  | .eq a b => .ne a b
  | .ne a b => .eq a b
  | a => .not a

/-- `isinstance(a, LiteralTrue)`, `isinstance(a, LiteralFalse)`. -/
def isLitB (v : Bool) : BEx → Bool
  | .lit b => b = v
  | _ => false

/-- `a.args if isinstance(a, PyccelAnd) else [a]`: operators.py:1478-1481. -/
def andArgs : BEx → List BEx
  | .and l => l
  | a => [a]
/-- The same for `PyccelOr`: operators.py:1539-1542. -/
def orArgs : BEx → List BEx
  | .or l => l
  | a => [a]

/-- `PyccelAnd(*args)`: nested conjunctions are flattened by one level. -/
def mkAnd (l : List BEx) : BEx := .and (l.flatMap andArgs)
/-- `PyccelOr(*args)`. -/
def mkOr (l : List BEx) : BEx := .or (l.flatMap orArgs)

/-- `PyccelAnd.make_simplified`: operators.py:1457-1475. -/
def andS (l : List BEx) : BEx :=
  if l.any (isLitB false) then .lit false
  else if l.all (isLitB true) then .lit true
  else mkAnd (l.filter fun a => !isLitB true a)

/-- `PyccelOr.make_simplified`: operators.py:1518-1537. -/
def orS (l : List BEx) : BEx :=
  if l.any (isLitB true) then .lit true
  else if l.all (isLitB false) then .lit false
  else mkOr (l.filter fun a => !isLitB false a)

end Verif.Simplify
