import Verif.Exprs.Spec
/-
Model of the operator nodes of pyccel's AST, of the parentheses they insert, and of the text the
three printers produce for them.
-/
namespace Verif.Exprs

/-- Expression nodes.  `PyccelAnd(a, b, c)` is represented by left nesting, `bin and (bin and a b)
c`: pyccel/ast/operators.py:1436-1560; `paren` is `PyccelAssociativeParenthesis`
(operators.py:510-530); `cast` is `PythonBool`/`PythonInt`/`PythonFloat`
(pyccel/ast/builtins.py:240-480); an atom is any node which is not a `PyccelOperator`. -/
inductive Expr
  | atom (n : Nat) (t : Ty)
  | un (o : UOp) (a : Expr)
  | bin (o : BOp) (a b : Expr)
  | ite (cond t f : Expr)
  | paren (a : Expr)
  | cast (t : Ty) (a : Expr)
deriving DecidableEq, Repr

/-- `_precedence` of the binary operators: pyccel/ast/operators.py:683, 729, 848, 913, 1011, 1098,
1128, 1153, 1455, 1517; pyccel/ast/bitwise_operators.py:179, 207, 296, 324, 352. -/
def BOp.prec : BOp → Nat
  | .pow => 15
  | .mul | .div | .mod | .fdiv => 13
  | .add | .sub => 12
  | .shl | .shr => 11
  | .band => 10
  | .bxor => 9
  | .bor => 8
  | .cmp _ => 7
  | .and => 5
  | .or => 4

/-- `getattr(a, "precedence", 17)`: pyccel/ast/operators.py:268; unary operators 376, 451,
bitwise_operators.py:51; parentheses 524; conditional expression 1734. -/
def Expr.prec : Expr → Nat
  | .atom _ _ | .cast _ _ => 17
  | .un .not _ => 6
  | .un _ _ => 14
  | .bin o _ _ => o.prec
  | .ite _ _ _ => 3
  | .paren _ => 18

/-- `class_type` of a node: `_calculate_type` of the unary (operators.py:314-332), bitwise
(bitwise_operators.py:53-83, 114-149, 231-269), arithmetic (operators.py:557-590, 1037-1068),
comparison (1156-1194), boolean (1411) and conditional (1763-1800) operators, with the scalar
promotions of pyccel/ast/datatypes.py:398-480.  Bitwise operators are applied to booleans and
integers only (Python rejects the others). -/
def Expr.ty : Expr → Ty
  | .atom _ t => t
  | .cast t _ => t
  | .paren a => a.ty
  | .un .not _ => .bool
  | .un .inv _ => .int
  | .un _ a => a.ty
  | .bin .div _ _ => .float
  | .bin (.cmp _) _ _ | .bin .and _ _ | .bin .or _ _ => .bool
  | .bin .band a b | .bin .bor a b | .bin .bxor a b =>
    if a.ty = .bool ∧ b.ty = .bool then .bool else .int
  | .bin .shl _ _ | .bin .shr _ _ => .int
  | .bin _ a b => a.ty.join b.ty
  | .ite _ t f => if t.ty = f.ty then t.ty else t.ty.join f.ty

/-- `PyccelOperator._handle_precedence` for argument `i` of an operator of precedence `P`:
operators.py:244-281. -/
def wrap (P i : Nat) (e : Expr) : Expr :=
  if e.prec < P ∨ (e.prec = P ∧ i ≠ 0) then .paren e else e

/-- The additional treatment of `PyccelUnary`/`PyccelUnarySub` arguments: operators.py:378-384,
650-656. -/
def wrapSign : Expr → Expr
  | .un .pos a => .paren (.un .pos a)
  | .un .neg a => .paren (.un .neg a)
  | e => e

/-- `PyccelPow._handle_precedence`: operators.py:688-702. -/
def wrapPow (i : Nat) (e : Expr) : Expr :=
  if e.prec < 15 ∨ (e.prec = 15 ∧ i ≠ 1) then .paren e else e

/-- `cast(a) if a.dtype is not class_type else a`. -/
def castTo (t : Ty) (e : Expr) : Expr := if e.ty = t then e else .cast t e

/-- An argument of `PyccelAnd`: cast to `bool` by `_visit_PyccelBooleanOperator`
(pyccel/parser/semantic.py:4680-4683), parenthesised by operators.py:1483-1489. -/
def andElem (e : Expr) : Expr := castTo .bool (wrap 5 0 e)

/-- An argument of `PyccelOr`: operators.py:1545-1551. -/
def orElem (e : Expr) : Expr :=
  castTo .bool (match e with
    | .bin .and a b => .paren (.bin .and a b)
    | e => wrap 4 0 e)

/-- The first arguments: those of a nested `PyccelAnd` are taken over, operators.py:1477-1481. -/
def andHead : Expr → Expr
  | .bin .and a b => .bin .and a b
  | e => andElem e

/-- operators.py:1539-1543. -/
def orHead : Expr → Expr
  | .bin .or a b => .bin .or a b
  | e => orElem e

/-- `PyccelAnd(a, b)`: operators.py:1477-1489. -/
def mkAnd (a : Expr) : Expr → Expr
  | .bin .and x y => .bin .and (mkAnd a x) y
  | b => .bin .and (andHead a) (andElem b)

/-- `PyccelOr(a, b)`: operators.py:1539-1551. -/
def mkOr (a : Expr) : Expr → Expr
  | .bin .or x y => .bin .or (mkOr a x) y
  | b => .bin .or (orHead a) (orElem b)

/-- Construction of a unary operator (semantic stage, `type(expr)(*visited_args)`,
pyccel/parser/semantic.py:1377). -/
def mkUn : UOp → Expr → Expr
  | .pos, a => .un .pos (wrapSign (wrap 14 0 a))
  | .neg, a => .un .neg (wrapSign (wrap 14 0 a))
  | .inv, a => .un .inv (castTo .int (wrap 14 0 a))
  | .not, a => .un .not (wrap 6 0 a)

/-- Construction of a binary operator.  The casts of the bitwise operators are those of
bitwise_operators.py:144-149, 263-269. -/
def mkBin : BOp → Expr → Expr → Expr
  | .pow, a, b => .bin .pow (wrapPow 0 a) (wrapPow 1 b)
  | .add, a, b => .bin .add (wrapSign (wrap 12 0 a)) (wrapSign (wrap 12 1 b))
  | .sub, a, b => .bin .sub (wrapSign (wrap 12 0 a)) (wrapSign (wrap 12 1 b))
  | .mul, a, b => .bin .mul (wrapSign (wrap 13 0 a)) (wrapSign (wrap 13 1 b))
  | .div, a, b => .bin .div (wrapSign (wrap 13 0 a)) (wrapSign (wrap 13 1 b))
  | .mod, a, b => .bin .mod (wrapSign (wrap 13 0 a)) (wrapSign (wrap 13 1 b))
  | .fdiv, a, b => .bin .fdiv (wrapSign (wrap 13 0 a)) (wrapSign (wrap 13 1 b))
  | .shl, a, b => .bin .shl (castTo .int (wrap 11 0 a)) (castTo .int (wrap 11 1 b))
  | .shr, a, b => .bin .shr (castTo .int (wrap 11 0 a)) (castTo .int (wrap 11 1 b))
  | .band, a, b =>
    let t := if a.ty = .bool ∧ b.ty = .bool then .bool else .int
    .bin .band (castTo t (wrap 10 0 a)) (castTo t (wrap 10 1 b))
  | .bxor, a, b =>
    let t := if a.ty = .bool ∧ b.ty = .bool then .bool else .int
    .bin .bxor (castTo t (wrap 9 0 a)) (castTo t (wrap 9 1 b))
  | .bor, a, b =>
    let t := if a.ty = .bool ∧ b.ty = .bool then .bool else .int
    .bin .bor (castTo t (wrap 8 0 a)) (castTo t (wrap 8 1 b))
  | .cmp c, a, b => .bin (.cmp c) (wrap 7 0 a) (wrap 7 1 b)
  | .and, a, b => mkAnd a b
  | .or, a, b => mkOr a b

/-- The node built for the user's expression: pyccel/parser/syntactic.py:932-1015, 1631-1637 and
pyccel/parser/semantic.py:1322-1389, 4676-4683, 6243-6267.  Both stages build the nodes with the
same constructors (`C22_rebuild`); rewrites of the semantic stage (`x**2`, `x**0.5`, operators on
containers and strings, conditional expressions with literal conditions) are not modelled. -/
def build : Src → Expr
  | .atom n t => .atom n t
  | .un o a => mkUn o (build a)
  | .bin o a b => mkBin o (build a) (build b)
  | .ite c t f => .ite (wrap 3 0 (build c)) (wrap 3 1 (build t)) (wrap 3 2 (build f))

/-- Rebuilding an operator from its arguments, as the semantic stage does with the tree of the
syntactic stage (pyccel/parser/semantic.py:1377, 4676-4683). -/
def rebuild : Expr → Expr
  | .atom n t => .atom n t
  | .un o a => mkUn o (rebuild a)
  | .bin o a b => mkBin o (rebuild a) (rebuild b)
  | .ite c t f => .ite (wrap 3 0 (rebuild c)) (wrap 3 1 (rebuild t)) (wrap 3 2 (rebuild f))
  | .paren a => .paren (rebuild a)
  | .cast t a => .cast t (rebuild a)

/-- The user's expression read off the node: parentheses and casts dropped. -/
def Expr.erase : Expr → Src
  | .atom n t => .atom n t
  | .un o a => .un o a.erase
  | .bin o a b => .bin o a.erase b.erase
  | .ite c t f => .ite c.erase t.erase f.erase
  | .paren a => a.erase
  | .cast _ a => a.erase

/-! ### The Python printer -/

def Ty.pyFn : Ty → PyFn
  | .bool => .bool | .int => .int | .float => .float

/-- Tokens printed by pyccel/codegen/printing/pycode.py:1698-1704 (conditional expression),
1875-1963 (operators). -/
def printPy : Expr → List (Tok PySym PyFn)
  | .atom n _ => [.atom (.var n)]
  | .paren a => .lp :: (printPy a ++ [.rp])
  | .cast t a => .fn t.pyFn :: .lp :: (printPy a ++ [.rp])
  | .un o a => .sym o.py :: printPy a
  | .bin o a b => printPy a ++ .sym o.py :: printPy b
  | .ite c t f => printPy t ++ .q1 :: (printPy c ++ .q2 :: printPy f)

/-! ### The C printer -/

/-- `isinstance(a, PyccelOperator) and not isinstance(a, PyccelAssociativeParenthesis)`. -/
def Expr.isOp : Expr → Bool
  | .un _ _ | .bin _ _ _ | .ite _ _ _ => true
  | _ => false

def Expr.isAnd : Expr → Bool
  | .bin .and _ _ => true
  | _ => false

def Expr.isOr : Expr → Bool
  | .bin .or _ _ => true
  | _ => false

abbrev CToks := List (Tok CSym CFn)

/-- `f"({self._print(a)})"` or `self._print(a)`: ccode.py:1340-1348, 1427-1430, 3302-3310. -/
def cArg (e : Expr) (ts : CToks) : CToks := if e.isOp then .lp :: (ts ++ [.rp]) else ts

/-- `f(x)`, and the casts `(T)(x)` of ccode.py:1132-1141. -/
def cCall (f : CFn) (ts : CToks) : CToks := .fn f :: .lp :: (ts ++ [.rp])

/-- Printing `NumpyFloat(a)` when `c`, else `a`. -/
def cCastIf (c : Bool) (ts : CToks) : CToks := if c then cCall .castFloat ts else ts

/-- Tokens printed by pyccel/codegen/printing/ccode.py:1327-1331 (conditional expression),
1339-1361 (`and`, `or`), 1363-1422 (comparisons of numbers), 1424-1431 (`not`), 1132-1145 (casts),
1445-1491 (`%`, `**`), 3245-3343 (the other operators). -/
def printC : Expr → CToks
  | .atom n _ => [.atom (.var n)]
  | .paren a => .lp :: (printC a ++ [.rp])
  | .cast .bool a => .lp :: ((printC a ++ [.sym .ne, .atom .zero]) ++ [.rp])
  | .cast .int a => cCall .castInt (printC a)
  | .cast .float a => cCall .castFloat (printC a)
  | .un .pos a => .sym .add :: printC a
  | .un .neg a => .sym .sub :: printC a
  | .un .inv a => .sym .inv :: printC a
  | .un .not a => .sym .not :: cArg a (printC a)
  | .bin .pow a b =>
    cCall .pow (cCastIf (a.ty ≠ .float) (printC a) ++ .sym .comma ::
      cCastIf (b.ty ≠ .float) (printC b))
  | .bin .add a b => printC a ++ .sym .add :: printC b
  | .bin .sub a b => printC a ++ .sym .sub :: printC b
  | .bin .mul a b => printC a ++ .sym .mul :: printC b
  | .bin .div a b =>
    let c := a.ty = .int ∧ b.ty = .int
    cCastIf c (printC a) ++ .sym .div :: cCastIf c (printC b)
  | .bin .mod a b =>
    if a.ty.join b.ty = .int then cCall .modulo (printC a ++ .sym .comma :: printC b)
    else cCall .fmodulo (cCastIf (a.ty = .int) (printC a) ++ .sym .comma ::
      cCastIf (b.ty = .int) (printC b))
  | .bin .fdiv a b =>
    if a.ty ≠ .float ∧ b.ty ≠ .float then cCall .floorDiv (printC a ++ .sym .comma :: printC b)
    else cCall .floor (cCastIf (a.ty ≠ .float) (printC a) ++ .sym .div ::
      cCastIf (b.ty ≠ .float) (printC b))
  | .bin .shl a b => printC a ++ .sym .shl :: printC b
  | .bin .shr a b => printC a ++ .sym .shr :: printC b
  | .bin .band a b =>
    cArg a (printC a) ++
      .sym (if a.ty = .bool ∧ b.ty = .bool then .land else .band) :: cArg b (printC b)
  | .bin .bor a b =>
    cArg a (printC a) ++
      .sym (if a.ty = .bool ∧ b.ty = .bool then .lor else .bor) :: cArg b (printC b)
  | .bin .bxor a b =>
    printC a ++ .sym (if a.ty = .bool ∧ b.ty = .bool then .ne else .bxor) :: printC b
  | .bin (.cmp c) a b => printC a ++ .sym c.c :: printC b
  | .bin .and a b =>
    (if a.isAnd then printC a else cArg a (printC a)) ++ .sym .land :: cArg b (printC b)
  | .bin .or a b =>
    (if a.isOr then printC a else cArg a (printC a)) ++ .sym .lor :: cArg b (printC b)
  | .ite c t f => .lp :: ((printC c ++ .q1 :: (printC t ++ .q2 :: printC f)) ++ [.rp])

/-! ### The Fortran printer -/

abbrev FToks := List (Tok FSym FFn)

def fCall (f : FFn) (ts : FToks) : FToks := .fn f :: .lp :: (ts ++ [.rp])

/-- `PythonInt(a)` for booleans, else `a`: fcode.py:3570-3577, 3748-3755. -/
def fNumToks (t : Ty) (ts : FToks) : FToks := if t = .bool then fCall .castInt ts else ts

/-- Printing a cast to `u` of an operand of type `t`: fcode.py:2108-2146. -/
def fCastToks (u t : Ty) (ts : FToks) : FToks :=
  match u with
  | .bool => if t = .bool then fCall .castBool ts
             else .lp :: ((ts ++ [.sym .ne, .atom .zero]) ++ [.rp])
  | .int => fCall .castInt ts
  | .float => fCall .castFloat ts

/-- `_apply_cast`: fcode.py:810-847. -/
def fApply (u t : Ty) (ts : FToks) : FToks := if t = u then ts else fCastToks u t ts

/-- Tokens printed by pyccel/codegen/printing/fcode.py:3540-3556 (conditional expression),
3558-3687 (arithmetic and bitwise operators), 3689-3709 (`and`, `or`), 3711-3797 (comparisons),
3799-3803 (`not`), 2108-2146 (casts). -/
def printF : Expr → FToks
  | .atom n _ => [.atom (.var n)]
  | .paren a => .lp :: (printF a ++ [.rp])
  | .cast u a => fCastToks u a.ty (printF a)
  | .un .pos a => .sym .add :: printF a
  | .un .neg a => .sym .sub :: printF a
  | .un .inv a => fCall .bitNot (printF a)
  | .un .not a => if a.ty = .bool then .sym .not :: printF a
                  else printF a ++ [.sym .eq, .atom .zero]
  | .bin .pow a b => printF a ++ .sym .pow :: printF b
  | .bin .add a b => fNumToks a.ty (printF a) ++ .sym .add :: fNumToks b.ty (printF b)
  | .bin .sub a b => fNumToks a.ty (printF a) ++ .sym .sub :: fNumToks b.ty (printF b)
  | .bin .mul a b => fNumToks a.ty (printF a) ++ .sym .mul :: fNumToks b.ty (printF b)
  | .bin .div a b =>
    if a.ty ≠ .float ∧ b.ty ≠ .float then
      fCall .castFloat (printF a) ++ .sym .div :: fCall .castFloat (printF b)
    else printF a ++ .sym .div :: printF b
  | .bin .mod a b =>
    if a.ty.join b.ty = .float then
      fCall .modulo ((if a.ty = .int then fCall .castFloat (printF a) else printF a) ++
        .sym .comma :: (if b.ty = .int then fCall .castFloat (printF b) else printF b))
    else fCall .modulo (printF a ++ .sym .comma :: printF b)
  | .bin .fdiv a b =>
    let t := a.ty.join b.ty
    if a.ty ≠ .float ∧ b.ty ≠ .float then
      fCall .floorDiv (fApply t a.ty (printF a) ++ .sym .comma :: fApply t b.ty (printF b))
    else fCall .floor (fApply t a.ty (printF a) ++ .sym .div :: fApply t b.ty (printF b))
  | .bin .shl a b => fCall .lshift (printF a ++ .sym .comma :: printF b)
  | .bin .shr a b => fCall .rshift (printF a ++ .sym .comma :: printF b)
  | .bin .band a b =>
    if a.ty = .bool ∧ b.ty = .bool then printF a ++ .sym .and :: printF b
    else fCall .iand (printF a ++ .sym .comma :: printF b)
  | .bin .bor a b =>
    if a.ty = .bool ∧ b.ty = .bool then printF a ++ .sym .or :: printF b
    else fCall .ior (printF a ++ .sym .comma :: printF b)
  | .bin .bxor a b =>
    if a.ty = .bool ∧ b.ty = .bool then printF a ++ .sym .neqv :: printF b
    else fCall .ieor (printF a ++ .sym .comma :: printF b)
  | .bin (.cmp c) a b =>
    if c.isEq then
      if a.ty = .bool ∧ b.ty = .bool then
        printF a ++ .sym (if c = .eq then .eqv else .neqv) :: printF b
      else printF a ++ .sym c.f :: printF b
    else fNumToks a.ty (printF a) ++ .sym c.f :: fNumToks b.ty (printF b)
  | .bin .and a b => fApply .bool a.ty (printF a) ++ .sym .and :: fApply .bool b.ty (printF b)
  | .bin .or a b => fApply .bool a.ty (printF a) ++ .sym .or :: fApply .bool b.ty (printF b)
  | .ite c t f =>
    let u := if t.ty = f.ty then t.ty else t.ty.join f.ty
    fCall .merge ((fApply u t.ty (printF t) ++ .sym .comma :: fApply u f.ty (printF f)) ++
      .sym .comma :: fApply .bool c.ty (printF c))

end Verif.Exprs
