import Verif.Types.Spec
/-
Model of the type computations of pyccel: pyccel/ast/datatypes.py, pyccel/ast/numpytypes.py and
the type and shape methods of pyccel/ast/operators.py, pyccel/ast/bitwise_operators.py.
-/
namespace Verif.Types
open Spec

/-- `numpy.result_type` (an external function; NumPy ≥ 2, pyproject.toml) as a function of two
types.  `int`, `float`, `complex` are weak: they raise the kind of the other operand, keeping its
precision where there is one.  Checked against the definition of NumPy in
`C34_numpy_promotion` and `C34_weak_operand`. -/
def realOf : Nat → Num
  | 24 => .f32 | 53 => .f64 | _ => .f128
/-- The complex type with the given significand (see `realOf`). -/
def complexOf : Nat → Num
  | 24 => .c64 | 53 => .c128 | _ => .c256
/-- The integer type of the given width (see `realOf`). -/
def intOf : Nat → Num
  | 8 => .i8 | 16 => .i16 | 32 => .i32 | _ => .i64

/-- Significand needed to hold a type in a real type: 16-bit integers fit `float32`, larger ones
are promoted to `float64` (part of the model of `numpy.result_type`). -/
def needSignif (a : Num) : Nat :=
  match a.kind with
  | .bool => 24
  | .int => if a.width ≤ 16 then 24 else 53
  | _ => a.signif

/-- `numpy.result_type`, see `realOf`. -/
def npResultType (a b : Num) : Num :=
  let strong (a b : Num) : Num :=
    match max a.kind.level b.kind.level with
    | 0 => .pbool
    | 1 => intOf (max a.width b.width)
    | 2 => realOf (max (needSignif a) (needSignif b))
    | _ => complexOf (max (needSignif a) (needSignif b))
  match a.weak, b.weak with
  | false, false => strong a b
  | true, true => strong a b
  | true, false => weakWith a b
  | false, true => weakWith b a
where
  /-- A Python scalar of type `w` with a sized type `s`. -/
  weakWith (w s : Num) : Num :=
    if w.kind.level ≤ s.kind.level then s
    else match w.kind with
      | .int => .i64
      | .real => .f64
      | .complex => if s.kind = .real then complexOf s.signif else .c128
      | .bool => .pbool

/-- `PythonNativeBool.__add__`, `PythonNativeInt.__add__`, `PythonNativeFloat.__add__`,
`PythonNativeComplex.__add__`: pyccel/ast/datatypes.py:411-419, 444-451, 473-480, 495-500.
`none` is `NotImplemented`. -/
def pyAdd (a b : Num) : Option Num :=
  match a with
  | .pbool => if b = .pbool then some .pint else if b.python then some b else none
  | .pint => if b = .pbool then some a else if b.python then some b else none
  | .pfloat => if b = .pcomplex then some b else if b.python then some a else none
  | .pcomplex => if b.python then some a else none
  | _ => none

/-- `NumpyNumericType.__add__` (and `__radd__`): pyccel/ast/numpytypes.py:67-82.  The arguments
of `numpy.result_type` are instances of the two types, so NumPy sees Python scalars as weak. -/
def npAdd (a b : Num) : Option Num := some (npResultType a b)

/-- The expression `a + b` between two types: Python calls `a.__add__(b)` and, if that gives
`NotImplemented`, `b.__radd__(a)` (the types of Python define no `__radd__`). -/
def addT (a b : Num) : Option Num :=
  if a.python then (pyAdd a b).orElse fun _ => if b.python then none else npAdd b a
  else npAdd a b

/-- The `precision` of a type, in bytes of a component: datatypes.py:409, 442, 471, 493 and the
NumPy types numpytypes.py:135-300 (`bool` has -1). -/
def precision : Num → Int
  | .pbool => -1
  | .i8 => 1 | .i16 => 2 | .i32 => 4 | .i64 | .pint => 8
  | .f32 | .c64 => 4 | .f64 | .c128 | .pfloat | .pcomplex => 8 | .f128 | .c256 => 16

/-- `numpy_precision_map[(kind, precision)]`: numpytypes.py:500-512; `none` is `KeyError`. -/
def precisionMap (k : Kind) (p : Int) : Option Num :=
  match k with
  | .bool => if p = -1 then some .pbool else none
  | .int => if p = 1 then some .i8 else if p = 2 then some .i16 else if p = 4 then some .i32
      else if p = 8 then some .i64 else none
  | .real => if p = 4 then some .f32 else if p = 8 then some .f64 else if p = 16 then some .f128
      else none
  | .complex => if p = 4 then some .c64 else if p = 8 then some .c128
      else if p = 16 then some .c256 else none

/-- `NumpyIntType.__and__` and `__rand__`: numpytypes.py:114-132. -/
def npAnd (a b : Num) : Option Num :=
  if a.kind ≠ .int then none
  else if b = .pbool then some a else precisionMap .int (max (precision a) (precision b))

/-- `PythonNativeBool.__and__`, `PythonNativeInt.__and__`: datatypes.py:421-428, 453-458. -/
def pyAnd (a b : Num) : Option Num :=
  match a with
  | .pbool => if b = .pbool then some .pbool else if b.python then some b else none
  | .pint => if b.python then some a else none
  | _ => none

/-- The expression `a & b` between two types, used for the operators `&`, `|`, `^`:
pyccel/ast/bitwise_operators.py:231-269. -/
def andT (a b : Num) : Option Num :=
  (if a.python then pyAnd a b else npAnd a b).orElse fun _ => if b.python then none else npAnd b a

/-- The type of `a / b` on scalars: pyccel/ast/operators.py:1036-1068 (an integer or boolean type
is replaced by `float`). -/
def divT (a b : Num) : Option Num :=
  (addT a b).map fun c => if c.kind.level ≤ 1 then .pfloat else c

/-- The type of `-a`: `PyccelUnary._calculate_type`, operators.py:313-332. -/
def negT (a : Num) : Num := a

/-- The types of scalars and NumPy arrays.  `NumpyNDArrayType.get_new`: numpytypes.py:312-345. -/
inductive Ty
  | scalar (n : Num)
  | arr (elem : Num) (rank : Nat) (order : Option Ord)
deriving DecidableEq, Repr

/-- The `rank` of a type. -/
def Ty.rank : Ty → Nat
  | .scalar _ => 0
  | .arr _ r _ => r
/-- The `order` of a type. -/
def Ty.order : Ty → Option Ord
  | .scalar _ => none
  | .arr _ _ o => o
/-- The `element_type` of an array, the type itself for a scalar. -/
def Ty.elem : Ty → Num
  | .scalar n => n
  | .arr e _ _ => e

/-- `NumpyNDArrayType.get_new`: numpytypes.py:312-345 (assertions give `none`). -/
def getNew (elem : Num) (rank : Nat) (order : Option Ord) : Option Ty :=
  if 2 ≤ rank ∧ order = none then none
  else if elem.weak then none
  else if rank = 0 then some (.scalar elem)
  else some (.arr elem rank order)

/-- `order in (None, "F")`: numpytypes.py:365-366. -/
def fContiguous (o : Option Ord) : Bool := o ≠ some .C

/-- `NumpyNDArrayType.__add__`: numpytypes.py:347-368. -/
def arrAdd (a b : Ty) : Option Ty :=
  let res := npResultType a.elem b.elem
  let rank := max b.rank a.rank
  let order := if rank < 2 then none
    else if fContiguous b.order && fContiguous a.order then some .F else some .C
  getNew res rank order

/-- The expression `a + b` on any two types. -/
def addTy (a b : Ty) : Option Ty :=
  match a, b with
  | .scalar m, .scalar n => (addT m n).map .scalar
  | .scalar _, .arr .. => arrAdd b a      -- `__radd__`, numpytypes.py:370-372
  | .arr .., _ => arrAdd a b

/-- `NumpyNDArrayType.switch_basic_type`: numpytypes.py:388-414. -/
def switchBasic (t : Ty) (n : Num) : Option Ty := do
  let m ← precisionMap n.kind (precision n)
  getNew m t.rank t.order

/-- `NumpyNDArrayType.__and__` (and `__rand__`): numpytypes.py:374-386.  The rank and order of
`self` are kept, whatever those of `other`. -/
def arrAnd (a b : Ty) : Option Ty := do switchBasic a (← andT a.elem b.elem)

/-- The expression `a & b` on any two types. -/
def andTy (a b : Ty) : Option Ty :=
  match a, b with
  | .scalar m, .scalar n => (andT m n).map .scalar
  | .scalar _, .arr .. => arrAnd b a
  | .arr .., _ => arrAnd a b

/-! ### Nested containers -/

/-- Types with nested containers: scalars, NumPy arrays, and the one-dimensional homogeneous
containers (lists, sets, tuples; `tag` tells which), datatypes.py:883-1052. -/
inductive CTy
  | scalar (n : Num)
  | arr (elem : Num) (rank : Nat) (order : Option Ord)
  | cont (tag : Nat) (elem : CTy)
deriving DecidableEq, Repr

/-- The `rank` property: datatypes.py:783-791, numpytypes.py:460-468. -/
def CTy.rank : CTy → Int
  | .scalar _ => 0
  | .arr _ r _ => r
  | .cont _ e => 1 + e.rank

/-- The result of `switch_rank`: a type, or the array type of rank −1, −2, … which
`NumpyNDArrayType.get_new` builds without complaint from a negative rank. -/
inductive SwitchResult
  | ty (t : CTy)
  | negativeRank (elem : Num) (rank : Int)
deriving DecidableEq, Repr

/-- `HomogeneousContainerType.switch_rank`, datatypes.py:741-771, and
`NumpyNDArrayType.switch_rank`, numpytypes.py:416-441, called with a rank only.  `none` is an
exception: `AssertionError`, or `AttributeError` on scalars, which have no `switch_rank`. -/
def switchRank : CTy → Int → Option SwitchResult
  | .scalar _, _ => none
  | .arr e _ o, k =>
    if k = 0 then some (.ty (.scalar e))
    else if k < 0 then some (.negativeRank e k)
    else
      let o' := if k > 1 then o else none
      if 2 ≤ k ∧ o' = none then none else some (.ty (.arr e k.toNat o'))
  | .cont tag e, k =>
    if ¬ k < (CTy.cont tag e).rank then none
    else if (CTy.cont tag e).rank - k = 1 then some (.ty e)
    else switchRank e (k - 1)

/-! ### Broadcasting -/

/-- What `broadcast` uses of sympy (pyccel/ast/sympy_helper.py and `sympy.Expr`): expressions with
integer values in every environment, the constants among them, and a test whether an expression
is constant.  `==` on sympy expressions is modelled by equality of canonical forms. -/
structure SymAlg where
  /-- sympy expressions -/
  E : Type
  [dec : DecidableEq E]
  /-- assignments of integers to the symbols -/
  Env : Type
  eval : Env → E → Int
  /-- `sympy.Integer(1)` -/
  one : E
  eval_one : ∀ ρ, eval ρ one = 1
  /-- `is_constant()` -/
  isConst : E → Bool
  /-- `(e1 - e2).is_constant()` -/
  constDiff : E → E → Bool
  const_one : isConst one = true
  const_sound : ∀ e, isConst e = true → ∀ ρ σ, eval ρ e = eval σ e
  /-- Constants with the same value have the same canonical form. -/
  const_canon : ∀ e f, isConst e = true → isConst f = true →
    (∀ ρ, eval ρ e = eval ρ f) → e = f
  diff_sound : ∀ e f, constDiff e f = true → ∀ ρ σ, eval ρ e - eval ρ f = eval σ e - eval σ f

attribute [instance] SymAlg.dec

/-- One dimension of `broadcast`: pyccel/ast/operators.py:124-144; `none` is
`PyccelSemanticError`. -/
def bDim (A : SymAlg) (e1 e2 : A.E) : Option A.E :=
  if e1 = e2 then some e1
  else if e1 = A.one then some e2
  else if e2 = A.one then some e1
  else if A.isConst e1 && !A.isConst e2 then some e1
  else if A.isConst e2 && !A.isConst e1 then some e2
  else if !A.isConst e2 && !A.isConst e1 && !A.constDiff e1 e2 then some e1
  else none

/-- Padding of the shorter shape with ones on the left: operators.py:100-121. -/
def padLeft (A : SymAlg) (n : Nat) (s : List A.E) : List A.E :=
  List.replicate (n - s.length) A.one ++ s

/-- Elementwise application: the loop at operators.py:123-155. -/
def bZip (A : SymAlg) : List A.E → List A.E → Option (List A.E)
  | e1 :: s1, e2 :: s2 => do
    let e ← bDim A e1 e2
    let s ← bZip A s1 s2
    pure (e :: s)
  | _, _ => some []

/-- `broadcast`: operators.py:78-156, for two shapes which are not `None` (a scalar, `None`, is
the empty shape: 102-107 pad it with ones). -/
def broadcast (A : SymAlg) (s1 s2 : List A.E) : Option (List A.E) :=
  let n := max s1.length s2.length
  bZip A (padLeft A n s1) (padLeft A n s2)

end Verif.Types
