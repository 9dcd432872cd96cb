import Verif.Operands.Spec
/-
Model of the texts printed for library calls and for the operators around them.
-/
namespace Verif.Operands
open Verif.Exprs

/-- `_precedence` of the operators: pyccel/ast/operators.py:683 (`**`), 729, 848 (`+`, `-`), 913,
1011 (`*`, `/`), 1153 (comparisons). -/
def Op.prec : Op → Nat
  | .pow => 15
  | .mul | .div => 13
  | .add | .sub => 12
  | .lt => 7

/-! ### C -/

/-- Expression nodes; `paren` is `PyccelAssociativeParenthesis` (operators.py:510-530). -/
inductive CN
  | var (n : Nat)
  | neg (a : CN)
  | bin (o : Op) (a b : CN)
  | truth (a : CN)
  | call (f : Nat) (a : CN)
  | whr (c a b : CN)
  | paren (a : CN)
deriving DecidableEq, Repr

/-- `getattr(a, "precedence", 17)`: operators.py:268.  `PyccelFunction` nodes, among them
`NumpyWhere` (pyccel/ast/numpyext.py:1622-1680), have no attribute `precedence`. -/
def CN.prec : CN → Nat
  | .neg _ => 14
  | .bin o _ _ => o.prec
  | .paren _ => 18
  | _ => 17

/-- `PyccelOperator._handle_precedence`: operators.py:244-281. -/
def CN.wrap (P i : Nat) (e : CN) : CN :=
  if e.prec < P ∨ (e.prec = P ∧ i ≠ 0) then .paren e else e

/-- Signs are parenthesised by the signs and the arithmetic operators: operators.py:378-384,
650-656. -/
def CN.wrapSign : CN → CN
  | .neg a => .paren (.neg a)
  | e => e

/-- `PyccelPow._handle_precedence`: operators.py:688-702. -/
def CN.wrapPow (i : Nat) (e : CN) : CN :=
  if e.prec < 15 ∨ (e.prec = 15 ∧ i ≠ 1) then .paren e else e

/-- The operator nodes. -/
def CN.mkBin : Op → CN → CN → CN
  | .pow, a, b => .bin .pow (a.wrapPow 0) (b.wrapPow 1)
  | .lt, a, b => .bin .lt (a.wrap 7 0) (b.wrap 7 1)
  | o, a, b => .bin o (a.wrap o.prec 0).wrapSign (b.wrap o.prec 1).wrapSign

/-- The node built for the user's expression.  The arguments of calls are not parenthesised:
`PyccelFunction.__init__`, pyccel/ast/internals.py:49-51. -/
def CS.node : CS → CN
  | .var n => .var n
  | .neg a => .neg (a.node.wrap 14 0).wrapSign
  | .bin o a b => CN.mkBin o a.node b.node
  | .truth a => .truth a.node
  | .call f a => .call f a.node
  | .whr c a b => .whr c.node a.node b.node

/-- Text of the operators, pyccel/codegen/printing/ccode.py:1405-1407 (`<`), 1473-1491 (`**`),
3245-3343 (`+`, `-`, `*`, `/`), of `bool` (1143-1145), of calls (1137-1141, 2676-2810) and of
`np.where` (2813-2820).  Simplification: the operands are floating point numbers, so that no casts
are printed. -/
def CN.print : CN → CToks
  | .var n => [.atom (.var n)]
  | .neg a => .sym .sub :: a.print
  | .bin .pow a b => .fn .pow :: .lp :: ((a.print ++ .sym .comma :: b.print) ++ [.rp])
  | .bin .add a b => a.print ++ .sym .add :: b.print
  | .bin .sub a b => a.print ++ .sym .sub :: b.print
  | .bin .mul a b => a.print ++ .sym .mul :: b.print
  | .bin .div a b => a.print ++ .sym .div :: b.print
  | .bin .lt a b => a.print ++ .sym .lt :: b.print
  | .truth a => .lp :: ((a.print ++ .sym .ne :: [.atom .zero]) ++ [.rp])
  | .call f a => .fn (.fn f) :: .lp :: (a.print ++ [.rp])
  | .whr c a b => c.print ++ .q1 :: (a.print ++ .q2 :: b.print)
  | .paren a => .lp :: (a.print ++ [.rp])

/-- The C text of an expression. -/
def textC (s : CS) : CToks := s.node.print

/-! ### Fortran -/

/-- Expression nodes. -/
inductive FN
  | var (n : Nat)
  | neg (a : FN)
  | bin (o : Op) (a b : FN)
  | call (f : Nat) (a : FN)
  | whr (c a b : FN)
  | mpow (a b : FN)
  | sumI (i x : FN)
  | dot (a b : FN)
  | normInv (one : Nat) (x : FN)
  | normPow (p q : Nat) (x : FN)
  | normNeg (one o : Nat) (x : FN)
  | arange (a s : FN) (i : Nat)
  | paren (a : FN)
deriving DecidableEq, Repr

/-- `getattr(a, "precedence", 17)`: operators.py:268. -/
def FN.prec : FN → Nat
  | .neg _ => 14
  | .bin o _ _ => o.prec
  | .paren _ => 18
  | _ => 17

/-- `PyccelOperator._handle_precedence`: operators.py:244-281. -/
def FN.wrap (P i : Nat) (e : FN) : FN :=
  if e.prec < P ∨ (e.prec = P ∧ i ≠ 0) then .paren e else e

/-- operators.py:378-384, 650-656. -/
def FN.wrapSign : FN → FN
  | .neg a => .paren (.neg a)
  | e => e

/-- `PyccelPow._handle_precedence`: operators.py:688-702. -/
def FN.wrapPow (i : Nat) (e : FN) : FN :=
  if e.prec < 15 ∨ (e.prec = 15 ∧ i ≠ 1) then .paren e else e

/-- The operator nodes. -/
def FN.mkBin : Op → FN → FN → FN
  | .pow, a, b => .bin .pow (a.wrapPow 0) (b.wrapPow 1)
  | .lt, a, b => .bin .lt (a.wrap 7 0) (b.wrap 7 1)
  | o, a, b => .bin o (a.wrap o.prec 0).wrapSign (b.wrap o.prec 1).wrapSign

/-- The node built for the user's expression. -/
def FS.node : FS → FN
  | .var n => .var n
  | .neg a => .neg (a.node.wrap 14 0).wrapSign
  | .bin o a b => FN.mkBin o a.node b.node
  | .call f a => .call f a.node
  | .whr c a b => .whr c.node a.node b.node
  | .mpow a b => .mpow a.node b.node
  | .sumI i x => .sumI i.node x.node
  | .dot a b => .dot a.node b.node
  | .normInv one x => .normInv one x.node
  | .normPow p q x => .normPow p q x.node
  | .normNeg one o x => .normNeg one o x.node
  | .arange a s i => .arange a.node s.node i

/-- Text of a call. -/
def fCall (f : FF) (ts : FToks) : FToks := .fn f :: .lp :: (ts ++ [.rp])

/-- Text of the operators, pyccel/codegen/printing/fcode.py:3558-3620 (arithmetic), 3746-3758
(`<`), and of calls (3942-3975), `np.where` (1970-1983), `math.pow` (4010-4016), `np.sum` with an
initial value (1768-1781), `np.matmul` of vectors (1787-1800), `np.linalg.norm` (1816-1853) and
`np.arange` (2048-2064; only the expression of the implied do loop).  The factor `1 / order` of a
norm is folded to a literal by `PyccelDiv.make_simplified` (operators.py:1013-1034) only if the
order is a literal; `-2` is a `PyccelUnarySub`.  Simplification: the operands are floating point
numbers, so that no other casts are printed. -/
def FN.print : FN → FToks
  | .var n => [.atom (.var n)]
  | .neg a => .sym .sub :: a.print
  | .bin .pow a b => a.print ++ .sym .pow :: b.print
  | .bin .add a b => a.print ++ .sym .add :: b.print
  | .bin .sub a b => a.print ++ .sym .sub :: b.print
  | .bin .mul a b => a.print ++ .sym .mul :: b.print
  | .bin .div a b => a.print ++ .sym .div :: b.print
  | .bin .lt a b => a.print ++ .sym .lt :: b.print
  | .call f a => fCall (.fn f) a.print
  | .whr c a b => fCall .merge ((a.print ++ .sym .comma :: b.print) ++ .sym .comma :: c.print)
  | .mpow a b => a.print ++ .sym .pow :: b.print
  | .sumI i x => i.print ++ .sym .add :: fCall .sum x.print
  | .dot a b => fCall .sum (a.print ++ .sym .mul :: b.print)
  | .normInv one x =>
    [.atom (.var one)] ++ .sym .div ::
      fCall .sum ([.atom (.var one)] ++ .sym .div :: fCall .abs x.print)
  | .normPow p q x =>
    fCall .sum (fCall .abs x.print ++ .sym .pow :: [.atom (.var p)]) ++
      .sym .pow :: [.atom (.var q)]
  | .normNeg one o x =>
    fCall .sum (fCall .abs x.print ++ .sym .pow :: fCall .real (.sym .sub :: [.atom (.var o)])) ++
      .sym .pow :: (fCall .real [.atom (.var one)] ++
        .sym .div :: fCall .real (.lp :: ((.sym .sub :: [.atom (.var o)]) ++ [.rp])))
  | .arange a s i => fCall .seq (a.print ++ .sym .add :: (s.print ++ .sym .mul :: [.atom (.var i)]))
  | .paren a => .lp :: (a.print ++ [.rp])

/-- The Fortran text of an expression. -/
def textF (s : FS) : FToks := s.node.print

end Verif.Operands
