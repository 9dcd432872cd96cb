import Verif.Exprs.Grammar
/-
Specification for C19–C22: the expressions a user writes, their meaning in Python, the meaning of
Python text, and the intended translations to C and Fortran.
-/
namespace Verif.Exprs

/-- Scalar types. -/
inductive Ty | bool | int | float
deriving DecidableEq, Repr

inductive UOp | pos | neg | inv | not
deriving DecidableEq, Repr

/-- The comparison operators on numbers (`is`, `in` are not modelled). -/
inductive Cmp | eq | ne | lt | le | gt | ge
deriving DecidableEq, Repr

/-- `==` and `!=`. -/
def Cmp.isEq : Cmp → Bool
  | .eq | .ne => true
  | _ => false

inductive BOp
  | pow | add | sub | mul | div | mod | fdiv | shl | shr | band | bxor | bor
  | cmp (c : Cmp) | and | or
deriving DecidableEq, Repr

/-- The abstract syntax tree of a Python expression over typed atoms (variables, literals, calls).
`BoolOp(And, [a, b, c])` is represented by left nesting. -/
inductive Src
  | atom (n : Nat) (t : Ty)
  | un (o : UOp) (a : Src)
  | bin (o : BOp) (a b : Src)
  | ite (cond t f : Src)
deriving DecidableEq, Repr

/-- Type of an arithmetic result: Python's promotion `bool < int < float`, with `bool`s promoted
to `int`. -/
def Ty.join : Ty → Ty → Ty
  | .float, _ | _, .float => .float
  | _, _ => .int

/-- Static type of an expression. -/
def Src.ty : Src → Ty
  | .atom _ t => t
  | .un .not _ => .bool
  | .un .inv _ => .int
  | .un _ a => a.ty
  | .bin .div _ _ => .float
  | .bin (.cmp _) _ _ | .bin .and _ _ | .bin .or _ _ => .bool
  | .bin .band a b | .bin .bor a b | .bin .bxor a b =>
    if a.ty = .bool ∧ b.ty = .bool then .bool else .int
  | .bin .shl _ _ | .bin .shr _ _ => .int
  | .bin _ a b => a.ty.join b.ty
  | .ite _ t f => if t.ty = f.ty then t.ty else t.ty.join f.ty

/-! ### Python -/

/-- Conversion functions called in printed Python. -/
inductive PyFn | bool | int | float
deriving DecidableEq, Repr

def UOp.py : UOp → PySym
  | .pos => .add | .neg => .sub | .inv => .inv | .not => .not

def BOp.py : BOp → PySym
  | .pow => .pow | .add => .add | .sub => .sub | .mul => .mul | .div => .div | .mod => .mod
  | .fdiv => .fdiv | .shl => .shl | .shr => .shr | .band => .band | .bxor => .bxor | .bor => .bor
  | .cmp .eq => .eq | .cmp .ne => .ne | .cmp .lt => .lt | .cmp .le => .le | .cmp .gt => .gt
  | .cmp .ge => .ge | .and => .and | .or => .or

/-- Any meaning of the atoms, operators and conversions. -/
structure PyInterp (V : Type) where
  atom : Atom → V
  un : PySym → V → V
  bin : PySym → V → V → V
  call : PyFn → V → V
  truthy : V → Bool

/-- Comparison operators of Python. -/
def PySym.isCmp : PySym → Bool
  | .eq | .ne | .lt | .le | .gt | .ge | .is | .isNot | .in => true
  | _ => false

/-- `and`, `or` return one of their operands. -/
def PyInterp.binOp {V : Type} (I : PyInterp V) (s : PySym) (a b : V) : V :=
  match s with
  | .and => if I.truthy a then b else a
  | .or => if I.truthy a then a else b
  | s => I.bin s a b

/-- The value of a Python text with syntax tree `t`.  A comparison whose left operand is an
unparenthesised comparison is a chain: `a < b < c` is `a < b and b < c`. -/
def pyEval {V : Type} (I : PyInterp V) : CST PySym PyFn → V
  | .atom a => I.atom a
  | .paren t => pyEval I t
  | .call f t => I.call f (pyEval I t)
  | .un s t => I.un s (pyEval I t)
  | .bin s (.bin s' a b) c =>
    if s.isCmp ∧ s'.isCmp then
      if I.truthy (pyEval I (.bin s' a b)) then I.bin s (pyEval I b) (pyEval I c)
      else pyEval I (.bin s' a b)
    else I.binOp s (pyEval I (.bin s' a b)) (pyEval I c)
  | .bin s a b => I.binOp s (pyEval I a) (pyEval I b)
  | .tern a b c => if I.truthy (pyEval I b) then pyEval I a else pyEval I c

/-- The value, in Python, of the expression the user wrote. -/
def srcEval {V : Type} (I : PyInterp V) : Src → V
  | .atom n _ => I.atom (.var n)
  | .un o a => I.un o.py (srcEval I a)
  | .bin o a b => I.binOp o.py (srcEval I a) (srcEval I b)
  | .ite c t f => if I.truthy (srcEval I c) then srcEval I t else srcEval I f

/-- The value `v` of an expression of type `t` as a value of type `u`. -/
def PyInterp.as {V : Type} (I : PyInterp V) (t u : Ty) (v : V) : V :=
  if t = u then v
  else I.call (match u with | .bool => .bool | .int => .int | .float => .float) v

/-- The value of the user's expression if the operands of `and` and `or` are turned into booleans first,
those of `<< >> ~` into integers, and those of `& | ^` into integers unless both are booleans. -/
def convEval {V : Type} (I : PyInterp V) : Src → V
  | .atom n _ => I.atom (.var n)
  | .un .inv a => I.un .inv (I.as a.ty .int (convEval I a))
  | .un o a => I.un o.py (convEval I a)
  | .bin o a b =>
    match o with
    | .and | .or => I.binOp o.py (I.as a.ty .bool (convEval I a)) (I.as b.ty .bool (convEval I b))
    | .shl | .shr => I.bin o.py (I.as a.ty .int (convEval I a)) (I.as b.ty .int (convEval I b))
    | .band | .bor | .bxor =>
      if a.ty = .bool ∧ b.ty = .bool then I.bin o.py (convEval I a) (convEval I b)
      else I.bin o.py (I.as a.ty .int (convEval I a)) (I.as b.ty .int (convEval I b))
    | _ => I.bin o.py (convEval I a) (convEval I b)
  | .ite c t f => if I.truthy (convEval I c) then convEval I t else convEval I f

/-- No implicit conversion is involved: the operands of `and`/`or` are booleans, those of
`& | ^` have the same type, those of `<< >> ~` are integers. -/
def Src.Uniform : Src → Prop
  | .atom _ _ => True
  | .un .inv a => a.ty = .int ∧ a.Uniform
  | .un _ a => a.Uniform
  | .bin o a b => a.Uniform ∧ b.Uniform ∧
    match o with
    | .and | .or => a.ty = .bool ∧ b.ty = .bool
    | .band | .bor | .bxor => (a.ty = .bool ∧ b.ty = .bool) ∨ (a.ty = .int ∧ b.ty = .int)
    | .shl | .shr => a.ty = .int ∧ b.ty = .int
    | _ => True
  | .ite c t f => c.Uniform ∧ t.Uniform ∧ f.Uniform

def Src.isCmp : Src → Bool
  | .bin (.cmp _) _ _ => true
  | _ => false

def Src.isIte : Src → Bool
  | .ite _ _ _ => true
  | _ => false

/-- No comparison is the left operand of a comparison, and no conditional expression is the
condition of a conditional expression. -/
def Src.PySafe : Src → Prop
  | .atom _ _ => True
  | .un _ a => a.PySafe
  | .bin o a b => a.PySafe ∧ b.PySafe ∧
    match o with
    | .cmp _ => a.isCmp = false
    | _ => True
  | .ite c t f => c.PySafe ∧ t.PySafe ∧ f.PySafe ∧ c.isIte = false

/-! ### Reassociation -/

/-- `a o (x o y)` written as `(a o x) o y`. -/
def Src.snoc (o : BOp) (a : Src) : Src → Src
  | .bin o' x y => if o' = o then .bin o (Src.snoc o a x) y else .bin o a (.bin o' x y)
  | b => .bin o a b

/-- All nested `and`s are grouped to the left, and so are all nested `or`s. -/
def Src.norm : Src → Src
  | .atom n t => .atom n t
  | .un o a => .un o a.norm
  | .bin .and a b => Src.snoc .and a.norm b.norm
  | .bin .or a b => Src.snoc .or a.norm b.norm
  | .bin o a b => .bin o a.norm b.norm
  | .ite c t f => .ite c.norm t.norm f.norm

/-! ### C -/

/-- Functions and casts in printed C.  A cast `(T)(x)` is represented as a call. -/
inductive CFn | castInt | castFloat | modulo | fmodulo | floorDiv | floor | pow
deriving DecidableEq, Repr

abbrev CTree := CST CSym CFn

def CTree.call2 (f : CFn) (a b : CTree) : CTree := .call f (.bin .comma a b)

def Cmp.c : Cmp → CSym
  | .eq => .eq | .ne => .ne | .lt => .lt | .le => .le | .gt => .gt | .ge => .ge

/-- Conversion of an operand of type `t` to a truth value. -/
def cBool (t : Ty) (x : CTree) : CTree := if t = .bool then x else .bin .ne x (.atom .zero)
/-- Conversion to a `double`. -/
def cFloat (t : Ty) (x : CTree) : CTree := if t = .float then x else .call .castFloat x
/-- Conversion to an integer. -/
def cInt (t : Ty) (x : CTree) : CTree := if t = .int then x else .call .castInt x

/-- The C expression (without parentheses) that a Python expression is to be translated to. -/
def Src.toC : Src → CTree
  | .atom n _ => .atom (.var n)
  | .un .pos a => .un .add a.toC
  | .un .neg a => .un .sub a.toC
  | .un .inv a => .un .inv (cInt a.ty a.toC)
  | .un .not a => .un .not a.toC
  | .bin .pow a b => CTree.call2 .pow (cFloat a.ty a.toC) (cFloat b.ty b.toC)
  | .bin .add a b => .bin .add a.toC b.toC
  | .bin .sub a b => .bin .sub a.toC b.toC
  | .bin .mul a b => .bin .mul a.toC b.toC
  | .bin .div a b =>
    if a.ty = .int ∧ b.ty = .int then .bin .div (.call .castFloat a.toC) (.call .castFloat b.toC)
    else .bin .div a.toC b.toC
  | .bin .mod a b =>
    if a.ty.join b.ty = .int then CTree.call2 .modulo a.toC b.toC
    else CTree.call2 .fmodulo (if a.ty = .int then .call .castFloat a.toC else a.toC)
      (if b.ty = .int then .call .castFloat b.toC else b.toC)
  | .bin .fdiv a b =>
    if a.ty ≠ .float ∧ b.ty ≠ .float then CTree.call2 .floorDiv a.toC b.toC
    else .call .floor (.bin .div (cFloat a.ty a.toC) (cFloat b.ty b.toC))
  | .bin .shl a b => .bin .shl (cInt a.ty a.toC) (cInt b.ty b.toC)
  | .bin .shr a b => .bin .shr (cInt a.ty a.toC) (cInt b.ty b.toC)
  | .bin .band a b =>
    if a.ty = .bool ∧ b.ty = .bool then .bin .land a.toC b.toC
    else .bin .band (cInt a.ty a.toC) (cInt b.ty b.toC)
  | .bin .bor a b =>
    if a.ty = .bool ∧ b.ty = .bool then .bin .lor a.toC b.toC
    else .bin .bor (cInt a.ty a.toC) (cInt b.ty b.toC)
  | .bin .bxor a b =>
    if a.ty = .bool ∧ b.ty = .bool then .bin .ne a.toC b.toC
    else .bin .bxor (cInt a.ty a.toC) (cInt b.ty b.toC)
  | .bin (.cmp c) a b => .bin c.c a.toC b.toC
  | .bin .and a b => .bin .land (cBool a.ty a.toC) (cBool b.ty b.toC)
  | .bin .or a b => .bin .lor (cBool a.ty a.toC) (cBool b.ty b.toC)
  | .ite c t f => .tern c.toC t.toC f.toC

/-- Is the expression a bitwise `&`, `|` or `^`? -/
def Src.isBit : Src → Bool
  | .bin .band _ _ | .bin .bor _ _ | .bin .bxor _ _ => true
  | _ => false

def Src.isBand : Src → Bool
  | .bin .band _ _ => true
  | _ => false

def Src.isBor : Src → Bool
  | .bin .bor _ _ => true
  | _ => false

def Src.isBxor : Src → Bool
  | .bin .bxor _ _ => true
  | _ => false

/-- `==` or `!=`. -/
def Src.isEq : Src → Bool
  | .bin (.cmp c) _ _ => c.isEq
  | _ => false

/-- The nestings whose C text keeps its structure: no bitwise operation is an operand of a
comparison (but a boolean `^` may be the left operand of `==`, `!=`), no `==`/`!=` is the left
operand of `<`, `<=`, `>`, `>=`, no `&` is an operand of a boolean `^`, and no integer bitwise
operation is used as a truth value by `and`, `or`. -/
def Src.CSafe : Src → Prop
  | .atom _ _ => True
  | .un _ a => a.CSafe
  | .bin o a b => a.CSafe ∧ b.CSafe ∧
    match o with
    | .cmp c => (a.isBit = false ∨ c.isEq = true ∧ a.isBxor = true ∧ a.ty = .bool) ∧
        b.isBit = false ∧ (c.isEq = true ∨ a.isEq = false)
    | .bxor => a.ty = .bool ∧ b.ty = .bool → a.isBand = false ∧ b.isBand = false
    | .and | .or => (a.ty = .bool ∨ a.isBit = false) ∧ (b.ty = .bool ∨ b.isBit = false)
    | _ => True
  | .ite c t f => c.CSafe ∧ t.CSafe ∧ f.CSafe

/-! ### Fortran -/

/-- Functions in printed Fortran (`kind` arguments are omitted). -/
inductive FFn
  | castBool | castInt | castFloat | merge | modulo | floorDiv | floor | lshift | rshift
  | ieor | ior | iand | bitNot
deriving DecidableEq, Repr

abbrev FTree := CST FSym FFn

def FTree.call2 (f : FFn) (a b : FTree) : FTree := .call f (.bin .comma a b)
def FTree.call3 (f : FFn) (a b c : FTree) : FTree := .call f (.bin .comma (.bin .comma a b) c)

/-- Conversion of an operand of type `t` to a logical. -/
def fBool (t : Ty) (x : FTree) : FTree := if t = .bool then x else .bin .ne x (.atom .zero)
/-- Conversion to a real. -/
def fFloat (t : Ty) (x : FTree) : FTree := if t = .float then x else .call .castFloat x
/-- Conversion to an integer. -/
def fInt (t : Ty) (x : FTree) : FTree := if t = .int then x else .call .castInt x
/-- Conversion of a logical to an integer, other types being kept. -/
def fNum (t : Ty) (x : FTree) : FTree := if t = .bool then .call .castInt x else x
/-- Conversion from type `t` to type `u`. -/
def fTo (u t : Ty) (x : FTree) : FTree :=
  match u with
  | .bool => fBool t x
  | .int => fInt t x
  | .float => fFloat t x

def Cmp.f : Cmp → FSym
  | .eq => .eq | .ne => .ne | .lt => .lt | .le => .le | .gt => .gt | .ge => .ge

/-- The Fortran expression (without parentheses) that a Python expression is to be translated
to. -/
def Src.toF : Src → FTree
  | .atom n _ => .atom (.var n)
  | .un .pos a => .un .add a.toF
  | .un .neg a => .un .sub a.toF
  | .un .inv a => .call .bitNot (fInt a.ty a.toF)
  | .un .not a => if a.ty = .bool then .un .not a.toF else .bin .eq a.toF (.atom .zero)
  | .bin .pow a b => .bin .pow a.toF b.toF
  | .bin .add a b => .bin .add (fNum a.ty a.toF) (fNum b.ty b.toF)
  | .bin .sub a b => .bin .sub (fNum a.ty a.toF) (fNum b.ty b.toF)
  | .bin .mul a b => .bin .mul (fNum a.ty a.toF) (fNum b.ty b.toF)
  | .bin .div a b =>
    if a.ty ≠ .float ∧ b.ty ≠ .float then
      .bin .div (.call .castFloat a.toF) (.call .castFloat b.toF)
    else .bin .div a.toF b.toF
  | .bin .mod a b =>
    if a.ty.join b.ty = .float then
      FTree.call2 .modulo (if a.ty = .int then .call .castFloat a.toF else a.toF)
        (if b.ty = .int then .call .castFloat b.toF else b.toF)
    else FTree.call2 .modulo a.toF b.toF
  | .bin .fdiv a b =>
    if a.ty ≠ .float ∧ b.ty ≠ .float then FTree.call2 .floorDiv (fInt a.ty a.toF) (fInt b.ty b.toF)
    else .call .floor (.bin .div (fFloat a.ty a.toF) (fFloat b.ty b.toF))
  | .bin .shl a b => FTree.call2 .lshift (fInt a.ty a.toF) (fInt b.ty b.toF)
  | .bin .shr a b => FTree.call2 .rshift (fInt a.ty a.toF) (fInt b.ty b.toF)
  | .bin .band a b =>
    if a.ty = .bool ∧ b.ty = .bool then .bin .and a.toF b.toF
    else FTree.call2 .iand (fInt a.ty a.toF) (fInt b.ty b.toF)
  | .bin .bor a b =>
    if a.ty = .bool ∧ b.ty = .bool then .bin .or a.toF b.toF
    else FTree.call2 .ior (fInt a.ty a.toF) (fInt b.ty b.toF)
  | .bin .bxor a b =>
    if a.ty = .bool ∧ b.ty = .bool then .bin .neqv a.toF b.toF
    else FTree.call2 .ieor (fInt a.ty a.toF) (fInt b.ty b.toF)
  | .bin (.cmp c) a b =>
    if c.isEq then
      if a.ty = .bool ∧ b.ty = .bool then
        .bin (if c = .eq then .eqv else .neqv) a.toF b.toF
      else .bin c.f a.toF b.toF
    else .bin c.f (fNum a.ty a.toF) (fNum b.ty b.toF)
  | .bin .and a b => .bin .and (fBool a.ty a.toF) (fBool b.ty b.toF)
  | .bin .or a b => .bin .or (fBool a.ty a.toF) (fBool b.ty b.toF)
  | .ite c t f =>
    FTree.call3 .merge (fTo (Src.ite c t f).ty t.ty t.toF) (fTo (Src.ite c t f).ty f.ty f.toF)
      (fBool c.ty c.toF)

/-- `==` or `!=` on booleans, printed `.eqv.`, `.neqv.`. -/
def Src.isEqv : Src → Bool
  | .bin (.cmp c) a b => c.isEq && (a.ty = .bool && b.ty = .bool)
  | _ => false

/-- `not` of a boolean, printed `.not.`. -/
def Src.isNotB : Src → Bool
  | .un .not a => a.ty = .bool
  | _ => false

/-- Printed with one of `.eqv.`, `.neqv.`. -/
def Src.isEquiv (s : Src) : Bool := s.isEqv || (s.isBxor && s.ty = .bool)

/-- The nestings whose Fortran text keeps its structure: no `not` or bitwise operation or boolean
`==`/`!=` as operand of `not` on booleans, no `^` as operand of a boolean `|`, no boolean
`==`/`!=`/`^` as operand of `and`/`or`, no boolean `|` as operand of `and`, no boolean `&`
(`|`) as right operand of `and` (`or`), no boolean `^` as right operand of `==`/`!=`, and no
comparison of a boolean with a number by `==`/`!=`. -/
def Src.FSafe : Src → Prop
  | .atom _ _ => True
  | .un o a => a.FSafe ∧
    match o with
    | .not => a.ty = .bool → a.isNotB = false ∧ a.isBit = false ∧ a.isEqv = false
    | _ => True
  | .bin o a b => a.FSafe ∧ b.FSafe ∧
    match o with
    | .bor => a.ty = .bool ∧ b.ty = .bool → a.isBxor = false ∧ b.isBxor = false
    | .cmp c => c.isEq = true →
        (a.ty = .bool ↔ b.ty = .bool) ∧ (a.ty = .bool → b.isBxor = false)
    | .and => (a.isEquiv = false ∧ b.isEquiv = false) ∧
        (a.ty = .bool → a.isBor = false) ∧
        (b.ty = .bool → b.isBor = false ∧ b.isBand = false)
    | .or => (a.isEquiv = false ∧ b.isEquiv = false) ∧
        (b.ty = .bool → b.isBor = false)
    | _ => True
  | .ite c t f => c.FSafe ∧ t.FSafe ∧ f.FSafe

/-- No `==`/`!=` compares a boolean with a number (Fortran has no such comparison). -/
def Src.Alike : Src → Prop
  | .atom _ _ => True
  | .un _ a => a.Alike
  | .bin o a b => a.Alike ∧ b.Alike ∧
    match o with
    | .cmp c => c.isEq = true → (a.ty = .bool ↔ b.ty = .bool)
    | _ => True
  | .ite c t f => c.Alike ∧ t.Alike ∧ f.Alike

end Verif.Exprs
