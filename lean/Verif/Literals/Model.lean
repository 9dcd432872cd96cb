import Verif.Literals.Spec

/-!
# Number literals: what pyccel prints, and what the compilers read
-/

namespace Verif.Literals.Model
open Verif.Literals.Spec
open Verif.Floats.Spec (Nearest)

inductive Lang
  | c | fortran
  deriving DecidableEq

/-! ## The abstract syntax tree -/

/-- `LiteralInteger`, `LiteralFloat` with the Python number it holds (always of double precision) and with a
type of single or double precision, and the two `Constant`s.
`pyccel/ast/literals.py:101-190`, `pyccel/ast/mathext.py:1059-1066` -/
inductive Node
  | int (n : ℕ)
  | float (v : Num) (single : Bool)
  | inf
  | nan
  deriving DecidableEq

/-- `_visit_Constant`: the number is read by Python.  `NumpyFloat32(r)` of a literal gives a literal of single
precision, which holds the same number of double precision.
`pyccel/parser/syntactic.py:843-847`, `pyccel/ast/builtins.py:511-516`, `pyccel/ast/numpyext.py:463-480` -/
inductive Parses : Lit → Node → Prop
  | int {n : ℕ} : Parses (.int n) (.int n)
  | float {r : ℚ} {v : Num} : Double r v → Parses (.float r) (.float v false)
  | float32 {r : ℚ} {v : Num} : Double r v → Parses (.float32 r) (.float v true)
  | inf : Parses .inf .inf
  | nan : Parses .nan .nan

/-! ## Printing -/

/-- What is printed: an integer with eight bytes (`INT64_C(n)`, `n_i64`), a decimal number with the suffix for
single or double precision (`rf`, `r`, `r_f32`, `r_f64`), the name `inf` with such a suffix, the macros `HUGE_VAL`
and `NAN`, and `Huge(x)` with the variable of the left-hand side. -/
inductive Tok
  | int (n : ℕ)
  | dec (r : ℚ) (single : Bool)
  | infName
  | hugeVal
  | nanMacro
  | huge
  deriving DecidableEq

/-- `repr` of the number of a `LiteralFloat`.  Simplification: `repr` of NaN is not needed, because no decimal
number is read as NaN. -/
def printFloat (repr : ℚ → ℚ) (v : Num) (single : Bool) : Tok :=
  match v with
  | .fin d => .dec (repr d) single
  | _ => .infName

/-- `_print_LiteralInteger`, `_print_LiteralFloat` and `_print_Constant` in C.
`pyccel/codegen/printing/ccode.py:1150-1162, 3657-3673` -/
def printC (repr : ℚ → ℚ) : Node → Option Tok
  | .int n => some (.int n)
  | .float v s => some (printFloat repr v s)
  | .inf => some .hugeVal
  | .nan => some .nanMacro

/-- `_print_Literal` and `_print_Constant` in Fortran (`none`: an error is reported), and `_print_Assign` if
`whole`: the right-hand side is `math.inf` or `-math.inf`.
`pyccel/codegen/printing/fcode.py:1512-1516, 2498-2504, 4034-4036` -/
def printF (repr : ℚ → ℚ) (whole : Bool) : Node → Option Tok
  | .int n => some (.int n)
  | .float v s => some (printFloat repr v s)
  | .inf => if whole then some .huge else some (printFloat repr (.inf false) false)
  | .nan => none

def print (repr : ℚ → ℚ) (l : Lang) (whole : Bool) (n : Node) : Option Tok :=
  match l with
  | .c => printC repr n
  | .fortran => printF repr whole n

/-! ## The compilers -/

/-- The largest number of a type (`Huge(x)` in Fortran). -/
def hugest (single : Bool) : ℚ := if single then 2 ^ 128 - 2 ^ 104 else 2 ^ 1024 - 2 ^ 971

/-- The value of what is printed; none if the program is not valid.  `single`: the type of the variable on the
left-hand side.  Integers have 64 bits.  Decimal numbers are rounded to the nearest number of their type (the
standards leave that to the compilers; gcc and gfortran do it).  A number that is too large is infinity in C
(gcc warns), and an error in Fortran.  The name `inf` is not declared, a name with an underscore is not declared
either. -/
inductive Reads (l : Lang) (single : Bool) : Tok → Num → Prop
  | int {n : ℕ} : n < 2 ^ 63 → Reads l single (.int n) (.fin n)
  | double {r d : ℚ} : Double r (.fin d) → Reads l single (.dec r false) (.fin d)
  | single {r y : ℚ} : SingleOf r (.fin y) → Reads l single (.dec r true) (.fin y)
  | doubleInf {r : ℚ} : l = .c → Double r (.inf false) → Reads l single (.dec r false) (.inf false)
  | singleInf {r : ℚ} : l = .c → SingleOf r (.inf false) → Reads l single (.dec r true) (.inf false)
  | hugeVal : Reads l single .hugeVal (.inf false)
  | nanMacro : Reads l single .nanMacro .nan
  | huge : Reads l single .huge (.fin (hugest single))

/-- The value that a literal (`neg`: with a minus before it) has in the translated program.  `whole`: it is all of
the right-hand side of an assignment to a variable (`single`: of single precision).
`pyccel/codegen/printing/ccode.py:3342-3343`, `pyccel/codegen/printing/fcode.py:2498-2504, 3686-3687` -/
def Runs (repr : ℚ → ℚ) (l : Lang) (whole single neg : Bool) (a : Lit) (v : Num) : Prop :=
  ∃ n t w, Parses a n ∧ print repr l whole n = some t ∧ Reads l single t w ∧ v = if neg then w.neg else w

/-! ## Tests -/

/-- The printed expressions. -/
inductive TExpr
  | isfinite | isinf | isnan
  | not (e : TExpr)
  | and (a b : TExpr)
  deriving DecidableEq

/-- `np.isfinite(x)`, … for a number `x` of floating point.
`pyccel/codegen/printing/ccode.py:2669-2697`, `pyccel/codegen/printing/fcode.py:193-194, 3839-3867` -/
def numpyTest : Lang → Test → TExpr
  | .c, .isfinite => .isfinite
  | .c, .isinf => .isinf
  | .c, .isnan => .isnan
  | .fortran, .isfinite => .isfinite
  | .fortran, .isinf => .and (.not .isfinite) (.not .isnan)
  | .fortran, .isnan => .isnan

/-- `math.isfinite(x)`, …; `none`: an error is reported.
`pyccel/codegen/printing/ccode.py:2759-2793`, `pyccel/codegen/printing/fcode.py:233-234, 3988-3997` -/
def mathTest : Lang → Test → Option TExpr
  | .c, .isfinite => some .isfinite
  | .c, .isinf => some .isinf
  | .c, .isnan => some .isnan
  | .fortran, .isnan => some .isnan
  | .fortran, _ => none

/-- The functions of the languages (`isfinite`, `isinf`, `isnan`; `ieee_is_finite`, `ieee_is_nan`, `isnan`). -/
def TExpr.eval : TExpr → Num → Bool
  | .isfinite, v => match v with | .fin _ => true | _ => false
  | .isinf, v => match v with | .inf _ => true | _ => false
  | .isnan, v => match v with | .nan => true | _ => false
  | .not e, v => !e.eval v
  | .and a b, v => a.eval v && b.eval v

end Verif.Literals.Model
