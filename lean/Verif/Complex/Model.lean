import Verif.Complex.Spec

/-!
# complex(a, b): model of the code
-/

namespace Verif.Complex
open Spec Verif.Floats

/-- The nodes that a call of `complex` becomes: `a0` and `a1` are the arguments, `real` and `imag` are `PythonReal` and `PythonImag`
(pyccel/ast/builtins.py:134-192), `mulI` is `PyccelMul(_, LiteralImaginaryUnit())`, `litc` is `LiteralComplex`, `cast` and `mk` are
`PythonComplex` with `is_cast` and without. -/
inductive Node
  | a0 | a1
  | real (n : Node) | imag (n : Node)
  | add (m n : Node) | sub (m n : Node) | neg (n : Node)
  | mulI (n : Node)
  | litc (re im : Fl)
  | cast (n : Node)
  | mk (re im : Node)
deriving DecidableEq

/-- `arg.python_value == 0`. -/
def isZero : Val → Bool
  | .int n => n == 0
  | .flt _ (.zero _) => true
  | .cplx _ (.zero _) (.zero _) => true
  | _ => false

/-- The literal of `PythonComplex.__new__` for two literals: builtins.py:309-327 (the parts are numbers of Python). -/
def fold (a b : Val) : Fl × Fl :=
  (if b.isC then Fl.sub .dbl a.re b.im else a.re,
   if a.isC then Fl.add .dbl a.im b.re else b.re)

/-- `PythonComplex.__new__` and `__init__`: builtins.py:307-367.  The second argument is `LiteralFloat(0)` if it is not given (line 307). -/
def build (a : Arg) (b : Option Arg) : Node :=
  let b := b.getD ⟨.flt .dbl (.zero false), true⟩
  if a.lit && b.lit then .litc (fold a.v b.v).1 (fold a.v b.v).2
  else if a.v.isC && b.v.isC then .add .a0 (.mulI .a1)
  else if b.lit && isZero b.v then .cast .a0
  else if a.v.isC then .mk (.real .a0) (.add (.imag .a0) .a1)
  else if b.v.isC then
    if a.lit && isZero a.v then .mk (.neg (.imag .a1)) (.real .a1)
    else .mk (.sub .a0 (.imag .a1)) (.real .a1)
  else .mk .a0 .a1

/-- The precision in which an operation on two numbers is done, in C (C11 6.3.1.8) and in Fortran: integers take that of the other operand. -/
def prec : Val → Val → Prec
  | .int _, .int _ => .dbl
  | .int _, .flt p _ | .int _, .cplx p _ _ | .flt p _, .int _ | .cplx p _ _, .int _ => p
  | .flt p _, .flt q _ | .flt p _, .cplx q _ _ | .cplx p _ _, .flt q _ | .cplx p _ _, .cplx q _ _ => if p = .dbl then .dbl else q

/-- `u + v`: a real operand is not made complex first (C11 G.5.2). -/
def addV (u v : Val) : Val :=
  let p := prec u v
  match u, v with
  | .int m, .int n => .int (m + n)
  | .cplx _ x y, .cplx _ x' y' => .cplx p (Fl.add p x x') (Fl.add p y y')
  | .cplx _ x y, w => .cplx p (Fl.add p x (w.at_ p)) y
  | w, .cplx _ x y => .cplx p (Fl.add p (w.at_ p) x) y
  | u, w => .flt p (Fl.add p (u.at_ p) (w.at_ p))

/-- `u - v` for real numbers (the only ones that are subtracted here). -/
def subV (u v : Val) : Option Val :=
  let p := prec u v
  match u, v with
  | .int m, .int n => some (.int (m - n))
  | .cplx .., _ => none
  | _, .cplx .. => none
  | u, w => some (.flt p (Fl.sub p (u.at_ p) (w.at_ p)))

def negV : Val → Option Val
  | .int n => some (.int (-n))
  | .flt p x => some (.flt p x.neg)
  | .cplx .. => none

def one : Fl := .num 1
def pz : Fl := .zero false

/-- `u * (0 + 1i)` where the constant has precision `q` (C11 G.5.1).  A product of two complex numbers both of whose parts are NaN is
computed again in another way, which is left out: the result is `none`. -/
def mulIV (q : Prec) (u : Val) : Option Val :=
  let p := prec u (.cplx q pz one)
  match u with
  | .cplx _ x y =>
    let r := Fl.sub p (Fl.mul p x pz) (Fl.mul p y one)
    let i := Fl.add p (Fl.mul p x one) (Fl.mul p y pz)
    if r = .nan ∧ i = .nan then none else some (.cplx p r i)
  | w => some (.cplx p (Fl.mul p (w.at_ p) pz) (Fl.mul p (w.at_ p) one))

/-- A conversion to a complex number of double precision. -/
def toCplx : Val → Val
  | .int n => .cplx .dbl (.ofQ (fl n)) pz
  | .flt _ x => .cplx .dbl x pz
  | .cplx _ x y => .cplx .dbl x y

/-- The value in C: `_print_PythonComplex`, `_print_LiteralComplex` and `_print_LiteralImaginaryUnit`, ccode.py:1164-1192 (`_Complex_I` has
type `float complex`, C11 7.3.1), `_print_PythonReal` and `_print_PythonImag`, 3559-3563 (`creal` and `cimag` return `double`).  The parts of
a literal are written as they are (`repr`); a literal without a real part is a product only. -/
def evalC (v0 v1 : Val) : Node → Option Val
  | .a0 => some v0
  | .a1 => some v1
  | .real n => match evalC v0 v1 n with
    | some (.cplx _ x _) => some (.flt .dbl x)
    | r => r
  | .imag n => match evalC v0 v1 n with
    | some (.cplx _ _ y) => some (.flt .dbl y)
    | _ => none
  | .add m n => match evalC v0 v1 m, evalC v0 v1 n with
    | some u, some w => some (addV u w)
    | _, _ => none
  | .sub m n => match evalC v0 v1 m, evalC v0 v1 n with
    | some u, some w => subV u w
    | _, _ => none
  | .neg n => match evalC v0 v1 n with
    | some u => negV u
    | none => none
  | .mulI n => match evalC v0 v1 n with
    | some u => mulIV .sgl u
    | none => none
  | .litc re im =>
    if isZero (.flt .dbl re) then mulIV .sgl (.flt .dbl im)
    else match mulIV .sgl (.flt .dbl im) with
      | some w => some (addV (.flt .dbl re) w)
      | none => none
  | .cast n => (evalC v0 v1 n).map toCplx
  | .mk r i => match evalC v0 v1 r, evalC v0 v1 i with
    | some u, some w => match mulIV .sgl w with
      | some t => some (toCplx (addV u t))
      | none => none
    | _, _ => none

/-- The value in Fortran: `_print_PythonComplex`, fcode.py:2126-2138 (`cmplx(re, im, kind)`), `_print_LiteralComplex` 4044-4047,
`_print_LiteralImaginaryUnit` 4027-4029 (of double precision), `_print_PythonReal` and `_print_PythonImag` 1541-1547 (the results have the
precision of the argument). -/
def evalF (v0 v1 : Val) : Node → Option Val
  | .a0 => some v0
  | .a1 => some v1
  | .real n => match evalF v0 v1 n with
    | some (.cplx p x _) => some (.flt p x)
    | r => r
  | .imag n => match evalF v0 v1 n with
    | some (.cplx p _ y) => some (.flt p y)
    | _ => none
  | .add m n => match evalF v0 v1 m, evalF v0 v1 n with
    | some u, some w => some (addV u w)
    | _, _ => none
  | .sub m n => match evalF v0 v1 m, evalF v0 v1 n with
    | some u, some w => subV u w
    | _, _ => none
  | .neg n => match evalF v0 v1 n with
    | some u => negV u
    | none => none
  | .mulI n => match evalF v0 v1 n with
    | some (.cplx p x y) => mulIV .dbl (.cplx p x y)
    | _ => none
  | .litc re im => some (.cplx .dbl re im)
  | .cast n => (evalF v0 v1 n).map toCplx
  | .mk r i => match evalF v0 v1 r, evalF v0 v1 i with
    | some (.cplx ..), _ => none
    | _, some (.cplx ..) => none
    | some u, some w => some (.cplx .dbl (u.at_ .dbl) (w.at_ .dbl))
    | _, _ => none

/-- The number of times that the text of an argument (`false`: the first) is in the code. -/
def Node.count (k : Bool) : Node → ℕ
  | .a0 => if k then 0 else 1
  | .a1 => if k then 1 else 0
  | .real n | .imag n | .neg n | .mulI n | .cast n => n.count k
  | .add m n | .sub m n | .mk m n => m.count k + n.count k
  | .litc .. => 0

/-- The two parts of the result, which is stored in a variable of type `complex`. -/
def parts : Option Val → Option (Fl × Fl)
  | some (.cplx _ x y) => some (x, y)
  | _ => none

/-- `complex(a, b)` in C. -/
def runC (a : Arg) (b : Option Arg) : Option (Fl × Fl) :=
  parts (evalC a.v ((b.map (·.v)).getD (.flt .dbl (.zero false))) (build a b))

/-- `complex(a, b)` in Fortran. -/
def runF (a : Arg) (b : Option Arg) : Option (Fl × Fl) :=
  parts (evalF a.v ((b.map (·.v)).getD (.flt .dbl (.zero false))) (build a b))

/-- A literal `kj` in C: `LiteralComplex.__new__` makes it the imaginary unit for `k = 1` (pyccel/ast/literals.py:231-240), printed
`_Complex_I`; otherwise it is printed `(k * _Complex_I)` (ccode.py:1164-1170). -/
def litV (k : ℚ) : Option Val :=
  if k = 1 then some (.cplx .sgl pz one) else mulIV .sgl (.flt .dbl (.num k))

/-- `x * z` for a real and a complex number in C (C11 G.5.1). -/
def mulV (u : Val) : Val → Option Val
  | .cplx q x y =>
    let p := prec u (.cplx q x y)
    match u with
    | .cplx .. => none
    | u => some (.cplx p (Fl.mul p (u.at_ p) x) (Fl.mul p (u.at_ p) y))
  | _ => none

/-- `x + kj` and `x * kj` in C (`_print_PyccelAdd`, `_print_PyccelMul`, ccode.py:3245-3256), stored in a variable of type `complex`. -/
def unitC (o : Op) (u : Val) (k : ℚ) : Option (Fl × Fl) :=
  match litV k with
  | none => none
  | some w => match o with
    | .add => parts (some (addV u w))
    | .mul => parts (mulV u w)

end Verif.Complex
