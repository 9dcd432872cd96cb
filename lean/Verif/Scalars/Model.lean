import Verif.Scalars.Spec
import Verif.Types.Model
import Verif.IntMath.Model

/-
The types that pyccel gives to integer expressions, the C and Fortran expressions that it prints for them, and their evaluation in C and
in Fortran.  Parentheses are the subject of C20 and C21: here expressions are trees.
-/
namespace Verif.Scalars
open Verif.Types (addT andT)
open Verif.Types.Spec (Num)
open Verif.IntMath (chk wrap arithWidth pyFloorDiv pycModulo fFloorDiv fModulo)

/-- The class type of a binary operator: `PyccelArithmeticOperator._calculate_type` (pyccel/ast/operators.py:556-592) and
`PyccelBitOperator._calculate_type` for shifts (pyccel/ast/bitwise_operators.py:110-141) add the types,
`PyccelBitComparisonOperator._calculate_type` (bitwise_operators.py:231-269) uses `&` of the types. -/
def binT : Bin → Num → Num → Option Num
  | .band, a, b | .bor, a, b | .bxor, a, b => andT a b
  | _, a, b => addT a b

/-- The type of an expression; `none` for what is not modelled.  Unary minus has the type of its argument (operators.py:313-332), `~` gives `int`
on scalars (bitwise_operators.py:63-66), `abs` gives `int` for `int` and `float` for all else (pyccel/ast/builtins.py:1547-1551),
comparisons, `and`, `or` and `not` give `bool` (operators.py:1155-1185, 432-470, 1398-1412).
Simplification: `and`, `or` and `not` of truth values only. -/
def tyOf (Γ : Nat → Num) : Expr → Option Num
  | .lit _ => some .pint
  | .bool _ => some .pbool
  | .var x => some (Γ x)
  | .bin o a b => match tyOf Γ a, tyOf Γ b with
    | some t, some u => binT o t u
    | _, _ => none
  | .neg a => tyOf Γ a
  | .inv a => (tyOf Γ a).map (fun _ => .pint)
  | .abs a => (tyOf Γ a).map (fun t => if t = .pint then .pint else .pfloat)
  | .cmp _ a b => match tyOf Γ a, tyOf Γ b with
    | some _, some _ => some .pbool
    | _, _ => none
  | .land a b | .lor a b => match tyOf Γ a, tyOf Γ b with
    | some .pbool, some .pbool => some .pbool
    | _, _ => none
  | .lnot a => match tyOf Γ a with
    | some .pbool => some .pbool
    | _ => none
  | .cast t a => (tyOf Γ a).map (fun _ => t)

/-! ### C -/

/-- C expressions: `floorDiv w` is `py_floor_div_T` for the type `T` of `w` bits, `modulo` is `pyc_modulo`, `labs` is the function of the
standard library, `cast w` is `(T)(a)`. -/
inductive C where
  | lit (w : Nat) (n : Int)
  | var (x : Nat)
  | add (a b : C) | sub (a b : C) | mul (a b : C)
  | shl (a b : C) | shr (a b : C)
  | and (a b : C) | or (a b : C) | xor (a b : C)
  | neg (a : C) | not (a : C)
  | floorDiv (w : Nat) (a b : C)
  | modulo (a b : C)
  | labs (a : C)
  | cmp (o : Cmp) (a b : C)
  | land (a b : C) | lor (a b : C) | lnot (a : C)
  | cast (w : Nat) (a : C)
deriving DecidableEq, Repr

/-- The width of a C type: `bool` is stored in a byte; `get_c_type`, pyccel/codegen/printing/ccode.py:1865-1925. -/
def cWidth (t : Num) : Nat := if t = .pbool then 8 else t.width

/-- The type of a literal printed without a macro: `int` if that is enough, otherwise `long` (C11 6.4.4.1). -/
def plainLit (n : Int) : C := if IntMath.Spec.InRange 32 n then .lit 32 n else .lit 64 n

/-- A cast: `_print_PythonBool` (ccode.py:1143-1145) or `_print_PythonInt` (1137-1141); casts of literals give literals of the new type
(pyccel/ast/builtins.py:605-607), printed with `INT64_C` for types of 8 bytes and plainly for the others (ccode.py:1150-1157). -/
def castC (t : Num) (a : Expr) (c : C) : C :=
  if t = .pbool then .cmp .ne c (.lit 32 0)
  else match a with
    | .lit n => if t.width = 64 then .lit 64 n else plainLit n
    | _ => .cast (cWidth t) c

/-- `cast(a) if a.dtype is not class_type else a`: bitwise_operators.py:74, 139, 267. -/
def coerceC (t u : Num) (a : Expr) (c : C) : C := if u = t then c else castC t a c

/-- The C code: ccode.py:3245-3342 (arithmetic, shifts, bits), 1363-1440 (comparisons, `not`), 1339-1361 (`and`, `or`), 1445-1453 (`%`),
992-1001 (`abs`), 1333-1337 (`True` and `False`). -/
def toC (Γ : Nat → Num) : Expr → Option C
  | .lit n => some (.lit 64 n)
  | .bool b => some (.lit 32 (ofBool b))
  | .var x => some (.var x)
  | .bin o a b => match toC Γ a, toC Γ b, tyOf Γ a, tyOf Γ b with
    | some c, some d, some ta, some tb => match binT o ta tb with
      | none => none
      | some t => some (match o with
        | .add => .add c d
        | .sub => .sub c d
        | .mul => .mul c d
        | .fdiv => .floorDiv t.width c d
        | .mod => .modulo c d
        | .shl => .shl (coerceC t ta a c) (coerceC t tb b d)
        | .shr => .shr (coerceC t ta a c) (coerceC t tb b d)
        | .band => if t = .pbool then .land (coerceC t ta a c) (coerceC t tb b d) else .and (coerceC t ta a c) (coerceC t tb b d)
        | .bor => if t = .pbool then .lor (coerceC t ta a c) (coerceC t tb b d) else .or (coerceC t ta a c) (coerceC t tb b d)
        | .bxor => if t = .pbool then .cmp .ne (coerceC t ta a c) (coerceC t tb b d) else .xor (coerceC t ta a c) (coerceC t tb b d))
    | _, _, _, _ => none
  | .neg a => (toC Γ a).map .neg
  | .inv a => match toC Γ a, tyOf Γ a with
    | some c, some ta => some (.not (coerceC .pint ta a c))
    | _, _ => none
  | .abs a => (toC Γ a).map .labs
  | .cmp o a b => match toC Γ a, toC Γ b with
    | some c, some d => some (.cmp o c d)
    | _, _ => none
  | .land a b => match toC Γ a, toC Γ b with
    | some c, some d => some (.land c d)
    | _, _ => none
  | .lor a b => match toC Γ a, toC Γ b with
    | some c, some d => some (.lor c d)
    | _, _ => none
  | .lnot a => (toC Γ a).map .lnot
  | .cast t a => (toC Γ a).map (castC t a)

/-- An operation on bits of two's complement numbers. -/
def bits (w : Nat) (f : BitVec w → BitVec w → BitVec w) (x y : Int) : Int := (f (BitVec.ofInt w x) (BitVec.ofInt w y)).toInt

/-- The evaluation of a C expression: width and value; `none` is undefined behaviour.  Operands narrower than `int` are promoted and the
narrower operand is converted (C11 6.3.1.1, 6.3.1.8; all types are signed and `bool` holds 0 or 1, so that these conversions keep the value).
Shifts have the type of the promoted left operand (6.5.7); shifts of negative numbers are taken as gcc defines them. -/
def evalC (Γ : Nat → Num) (env : Nat → Int) : C → Option (Nat × Int)
  | .lit w n => some (w, n)
  | .var x => some (cWidth (Γ x), env x)
  | .add a b => arith (evalC Γ env a) (evalC Γ env b) (fun _ x y => x + y)
  | .sub a b => arith (evalC Γ env a) (evalC Γ env b) (fun _ x y => x - y)
  | .mul a b => arith (evalC Γ env a) (evalC Γ env b) (fun _ x y => x * y)
  | .and a b => arith (evalC Γ env a) (evalC Γ env b) (fun w => bits w (· &&& ·))
  | .or a b => arith (evalC Γ env a) (evalC Γ env b) (fun w => bits w (· ||| ·))
  | .xor a b => arith (evalC Γ env a) (evalC Γ env b) (fun w => bits w (· ^^^ ·))
  | .shl a b => shift (evalC Γ env a) (evalC Γ env b) (fun x n => x * 2 ^ n)
  | .shr a b => shift (evalC Γ env a) (evalC Γ env b) (fun x n => x >>> n)
  | .neg a => match evalC Γ env a with
    | some (w, x) => (chk (arithWidth w) (-x)).map (fun z => (arithWidth w, z))
    | none => none
  | .not a => match evalC Γ env a with
    | some (w, x) => some (arithWidth w, (~~~ BitVec.ofInt (arithWidth w) x).toInt)
    | none => none
  | .floorDiv w a b => match evalC Γ env a, evalC Γ env b with
    | some (_, x), some (_, y) => (pyFloorDiv w (wrap w x) (wrap w y)).map (fun z => (w, z))
    | _, _ => none
  | .modulo a b => match evalC Γ env a, evalC Γ env b with
    | some (_, x), some (_, y) => (pycModulo (wrap 64 x) (wrap 64 y)).map (fun z => (64, z))
    | _, _ => none
  | .labs a => match evalC Γ env a with
    | some (_, x) => (chk 64 (wrap 64 x).natAbs).map (fun z => (64, z))
    | none => none
  | .cmp o a b => match evalC Γ env a, evalC Γ env b with
    | some (_, x), some (_, y) => some (32, ofBool (intCmp o x y))
    | _, _ => none
  | .land a b => match evalC Γ env a with
    | some (_, x) => if x = 0 then some (32, 0) else match evalC Γ env b with
      | some (_, y) => some (32, ofBool (decide (y ≠ 0)))
      | none => none
    | none => none
  | .lor a b => match evalC Γ env a with
    | some (_, x) => if x ≠ 0 then some (32, 1) else match evalC Γ env b with
      | some (_, y) => some (32, ofBool (decide (y ≠ 0)))
      | none => none
    | none => none
  | .lnot a => match evalC Γ env a with
    | some (_, x) => some (32, ofBool (decide (x = 0)))
    | none => none
  | .cast w a => match evalC Γ env a with
    | some (_, x) => some (w, wrap w x)
    | none => none
where
  /-- An operation in the common type of the operands. -/
  arith (a b : Option (Nat × Int)) (f : Nat → Int → Int → Int) : Option (Nat × Int) :=
    match a, b with
    | some (v, x), some (w, y) =>
      (chk (max (arithWidth v) (arithWidth w)) (f (max (arithWidth v) (arithWidth w)) x y)).map
        (fun z => (max (arithWidth v) (arithWidth w), z))
    | _, _ => none
  /-- A shift. -/
  shift (a b : Option (Nat × Int)) (f : Int → Nat → Int) : Option (Nat × Int) :=
    match a, b with
    | some (v, x), some (_, y) =>
      if 0 ≤ y ∧ y < arithWidth v then (chk (arithWidth v) (f x y.toNat)).map (fun z => (arithWidth v, z)) else none
    | _, _ => none

/-- An assignment to a variable of type `t` in C: conversion to `bool` compares with zero (C11 6.3.1.2). -/
def storeC (t : Num) (v : Int) : Int := if t = .pbool then ofBool (decide (v ≠ 0)) else wrap t.width v

/-! ### Fortran -/

/-- Fortran expressions: `merge w a` is `MERGE(1_k, 0_k, a)` and `int w a` is `Int(a, kind = k)` for the kind `k` of `w` bits. -/
inductive F where
  | lit (w : Nat) (n : Int)
  | logical (b : Bool)
  | var (x : Nat)
  | add (a b : F) | sub (a b : F) | mul (a b : F)
  | lshift (a b : F) | rshift (a b : F)
  | iand (a b : F) | ior (a b : F) | ieor (a b : F)
  | neg (a : F) | not (a : F)
  | floorDiv (a b : F)
  | modulo (a b : F)
  | abs (a : F)
  | cmp (o : Cmp) (a b : F)
  | eqv (a b : F) | neqv (a b : F)
  | and (a b : F) | or (a b : F) | lnot (a : F)
  | merge (w : Nat) (a : F)
  | int (w : Nat) (a : F)
deriving DecidableEq, Repr

/-- `PythonInt(a) if a is a bool else a`: pyccel/codegen/printing/fcode.py:3572-3608, 3737-3795. -/
def asInt (u : Num) (c : F) : F := if u = .pbool then .merge 64 c else c

/-- A cast: `_print_PythonInt` and `_print_PythonBool`, fcode.py:2108-2150 (`logical(a, kind)` of a truth value is that value); literals as
in `castC`, printed with the kind of the new type. -/
def castF (t u : Num) (a : Expr) (c : F) : F :=
  if t = .pbool then (if u = .pbool then c else .cmp .ne c (.lit 32 0))
  else match a with
    | .lit n => .lit t.width n
    | _ => if u = .pbool then .merge t.width c else .int t.width c

/-- The cast of an operand whose type is not that of the result (bitwise_operators.py:139, 267; fcode.py:810-847). -/
def coerceF (t u : Num) (a : Expr) (c : F) : F := if u = t then c else castF t u a c

/-- A comparison: fcode.py:3709-3795. -/
def cmpF (o : Cmp) (ta tb : Num) (c d : F) : F :=
  match o with
  | .eq => if ta = .pbool ∧ tb = .pbool then .eqv c d else .cmp .eq c d
  | .ne => if ta = .pbool ∧ tb = .pbool then .neqv c d else .cmp .ne c d
  | o => .cmp o (asInt ta c) (asInt tb d)

/-- The Fortran code: fcode.py:3566-3805, 1382-1384 (`abs`). -/
def toF (Γ : Nat → Num) : Expr → Option F
  | .lit n => some (.lit 64 n)
  | .bool b => some (.logical b)
  | .var x => some (.var x)
  | .bin o a b => match toF Γ a, toF Γ b, tyOf Γ a, tyOf Γ b with
    | some c, some d, some ta, some tb => match binT o ta tb with
      | none => none
      | some t => some (match o with
        | .add => .add (asInt ta c) (asInt tb d)
        | .sub => .sub (asInt ta c) (asInt tb d)
        | .mul => .mul (asInt ta c) (asInt tb d)
        | .fdiv => .floorDiv (coerceF t ta a c) (coerceF t tb b d)
        | .mod => .modulo c d
        | .shl => .lshift (coerceF t ta a c) (coerceF t tb b d)
        | .shr => .rshift (coerceF t ta a c) (coerceF t tb b d)
        | .band => if t = .pbool then .and (coerceF t ta a c) (coerceF t tb b d) else .iand (coerceF t ta a c) (coerceF t tb b d)
        | .bor => if t = .pbool then .or (coerceF t ta a c) (coerceF t tb b d) else .ior (coerceF t ta a c) (coerceF t tb b d)
        | .bxor => if t = .pbool then .neqv (coerceF t ta a c) (coerceF t tb b d) else .ieor (coerceF t ta a c) (coerceF t tb b d))
    | _, _, _, _ => none
  | .neg a => (toF Γ a).map .neg
  | .inv a => match toF Γ a, tyOf Γ a with
    | some c, some ta => some (.not (coerceF .pint ta a c))
    | _, _ => none
  | .abs a => (toF Γ a).map .abs
  | .cmp o a b => match toF Γ a, toF Γ b, tyOf Γ a, tyOf Γ b with
    | some c, some d, some ta, some tb => some (cmpF o ta tb c d)
    | _, _, _, _ => none
  | .land a b => match toF Γ a, toF Γ b with
    | some c, some d => some (.and c d)
    | _, _ => none
  | .lor a b => match toF Γ a, toF Γ b with
    | some c, some d => some (.or c d)
    | _, _ => none
  | .lnot a => (toF Γ a).map .lnot
  | .cast t a => match toF Γ a, tyOf Γ a with
    | some c, some u => some (castF t u a c)
    | _, _ => none

/-- The types of Fortran: logical, or integer of a kind with so many bits. -/
inductive FTy where
  | logical
  | int (w : Nat)
deriving DecidableEq, Repr

/-- The Fortran type of a variable: `print_kind` and `_print_Declare`, fcode.py:413-450, 2258-2330. -/
def fVarTy (t : Num) : FTy := if t = .pbool then .logical else .int t.width

/-- The type of a Fortran expression; `none` means that it does not compile.  Arithmetic on different kinds has the larger kind (F2018 10.1.9.3);
`IAND`, `IOR`, `IEOR` and `MODULO` accept different kinds as an extension of gfortran; the generic function `pyc_floor_div`
(pyccel/stdlib/math/pyc_math_f90.F90:70-75) has no specific function for two different kinds. -/
def fTy (Γ : Nat → Num) : F → Option FTy
  | .lit w _ => some (.int w)
  | .logical _ => some .logical
  | .var x => some (fVarTy (Γ x))
  | .add a b | .sub a b | .mul a b | .iand a b | .ior a b | .ieor a b | .modulo a b => match fTy Γ a, fTy Γ b with
    | some (.int v), some (.int w) => some (.int (max v w))
    | _, _ => none
  | .lshift a b | .rshift a b => match fTy Γ a, fTy Γ b with
    | some (.int v), some (.int _) => some (.int v)
    | _, _ => none
  | .floorDiv a b => match fTy Γ a, fTy Γ b with
    | some (.int v), some (.int w) => if v = w then some (.int v) else none
    | _, _ => none
  | .neg a | .not a | .abs a => match fTy Γ a with
    | some (.int w) => some (.int w)
    | _ => none
  | .cmp _ a b => match fTy Γ a, fTy Γ b with
    | some (.int _), some (.int _) => some .logical
    | _, _ => none
  | .eqv a b | .neqv a b | .and a b | .or a b => match fTy Γ a, fTy Γ b with
    | some .logical, some .logical => some .logical
    | _, _ => none
  | .lnot a => match fTy Γ a with
    | some .logical => some .logical
    | _ => none
  | .merge w a => match fTy Γ a with
    | some .logical => some (.int w)
    | _ => none
  | .int w a => match fTy Γ a with
    | some (.int _) => some (.int w)
    | _ => none

/-- The value of a Fortran expression that compiles (0 and 1 for logical values) with its kind (0 for logical values); `none` is a result that
is not a value of its type.  Both operands of `.and.` and `.or.` may be evaluated (F2018 10.1.7), so both have to have a value. -/
def evalF (Γ : Nat → Num) (env : Nat → Int) : F → Option (Nat × Int)
  | .lit w n => (chk w n).map (fun z => (w, z))
  | .logical b => some (0, ofBool b)
  | .var x => some (if Γ x = .pbool then 0 else (Γ x).width, env x)
  | .add a b => arith (evalF Γ env a) (evalF Γ env b) (fun _ x y => x + y)
  | .sub a b => arith (evalF Γ env a) (evalF Γ env b) (fun _ x y => x - y)
  | .mul a b => arith (evalF Γ env a) (evalF Γ env b) (fun _ x y => x * y)
  | .iand a b => arith (evalF Γ env a) (evalF Γ env b) (fun w => bits w (· &&& ·))
  | .ior a b => arith (evalF Γ env a) (evalF Γ env b) (fun w => bits w (· ||| ·))
  | .ieor a b => arith (evalF Γ env a) (evalF Γ env b) (fun w => bits w (· ^^^ ·))
  | .lshift a b => shift (evalF Γ env a) (evalF Γ env b) (fun x n => x * 2 ^ n)
  | .rshift a b => shift (evalF Γ env a) (evalF Γ env b) (fun x n => x >>> n)
  | .modulo a b => match evalF Γ env a, evalF Γ env b with
    | some (v, x), some (w, y) => (fModulo x y).map (fun z => (max v w, z))
    | _, _ => none
  | .floorDiv a b => match evalF Γ env a, evalF Γ env b with
    | some (v, x), some (_, y) => (fFloorDiv v x y).map (fun z => (v, z))
    | _, _ => none
  | .neg a => match evalF Γ env a with
    | some (w, x) => (chk w (-x)).map (fun z => (w, z))
    | none => none
  | .not a => match evalF Γ env a with
    | some (w, x) => some (w, (~~~ BitVec.ofInt w x).toInt)
    | none => none
  | .abs a => match evalF Γ env a with
    | some (w, x) => (chk w x.natAbs).map (fun z => (w, z))
    | none => none
  | .cmp o a b => both (evalF Γ env a) (evalF Γ env b) (intCmp o)
  | .eqv a b => both (evalF Γ env a) (evalF Γ env b) (fun x y => decide (x = y))
  | .neqv a b => both (evalF Γ env a) (evalF Γ env b) (fun x y => decide (x ≠ y))
  | .and a b => both (evalF Γ env a) (evalF Γ env b) (fun x y => decide (x ≠ 0 ∧ y ≠ 0))
  | .or a b => both (evalF Γ env a) (evalF Γ env b) (fun x y => decide (x ≠ 0 ∨ y ≠ 0))
  | .lnot a => match evalF Γ env a with
    | some (_, x) => some (0, ofBool (decide (x = 0)))
    | none => none
  | .merge w a => match evalF Γ env a with
    | some (_, x) => some (w, if x ≠ 0 then 1 else 0)
    | none => none
  | .int w a => match evalF Γ env a with
    | some (_, x) => (chk w x).map (fun z => (w, z))
    | none => none
where
  /-- An operation in the larger kind. -/
  arith (a b : Option (Nat × Int)) (f : Nat → Int → Int → Int) : Option (Nat × Int) :=
    match a, b with
    | some (v, x), some (w, y) => (chk (max v w) (f (max v w) x y)).map (fun z => (max v w, z))
    | _, _ => none
  /-- A shift. -/
  shift (a b : Option (Nat × Int)) (f : Int → Nat → Int) : Option (Nat × Int) :=
    match a, b with
    | some (v, x), some (_, y) => if 0 ≤ y ∧ y < v then (chk v (f x y.toNat)).map (fun z => (v, z)) else none
    | _, _ => none
  /-- A relation between two values. -/
  both (a b : Option (Nat × Int)) (f : Int → Int → Bool) : Option (Nat × Int) :=
    match a, b with
    | some (_, x), some (_, y) => some (0, ofBool (f x y))
    | _, _ => none

end Verif.Scalars
