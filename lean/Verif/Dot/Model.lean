import Verif.Dot.Spec

/-!
# Dot products and functions of complex numbers: model
-/

namespace Verif.Dot.Model
open Verif.Dot.Spec

/-- The product of two elements: /repo/pyccel/codegen/printing/ccode.py:964-975.  The model of
complex numbers makes the conjugate of a real number the number itself. -/
def termC (f : Fun) (x y : Num) : Num :=
  match f with
  | .vecdot => x.conj.mul y
  | .matmul => x.mul y

/-- The body of the loop: /repo/pyccel/codegen/printing/ccode.py:965-977.  `conv` is the
conversion to the type of the target, done by the `+=` of C. -/
def step (f : Fun) (conv : Num → Num) (target : Place) (a b : Vec) (m : Mem) (i : Nat) : Mem :=
  store m target (conv ((m target).add (termC f (m (a.place i)) (m (b.place i)))))

/-- The loop `for (c_range(i, n))`: /repo/pyccel/codegen/printing/ccode.py:981-986, where `n` is
the length of the first vector. -/
def loop (f : Fun) (conv : Num → Num) (target : Place) (a b : Vec) : Nat → Mem → Mem
  | 0, m => m
  | n + 1, m => step f conv target a b (loop f conv target a b n m) n

/-- `x = vecdot(a, b)` in C, `lhs = 0` and the loop:
/repo/pyccel/codegen/printing/ccode.py:934-937, 981-991, 3375-3378. -/
def assignC (f : Fun) (conv : Num → Num) (m : Mem) (target : Place) (a b : Vec) : Mem :=
  loop f conv target a b a.len (store m target .zero)

/-- `x op= vecdot(a, b)` in C: /repo/pyccel/codegen/printing/ccode.py:3345-3360 and 934-937: the
assignment found there is the augmented assignment itself, and the text
`x op= x = 0; for …` is printed.  C does not say whether the old value of `x` is read before
(`early`) or after `x = 0`. -/
def augC (f : Fun) (conv : Num → Num) (o : Op) (early : Bool) (m : Mem) (target : Place)
    (a b : Vec) : Mem :=
  let old := if early then m target else .zero
  loop f conv target a b a.len (store m target (conv (o.value old .zero)))

/-- An operand of an expression in C: a temporary variable gets the product, then the statement
is executed: /repo/pyccel/codegen/printing/ccode.py:938-941, 987-989.  The temporary `tmp` has
the type of the product. -/
def operandC (f : Fun) (m : Mem) (tmp target : Place) (g : Num → Num) (a b : Vec) : Mem :=
  let m' := assignC f id m tmp a b
  store m' target (g (m' tmp))

/-- The terms of `dot_product(a, b)`, which takes the conjugate of the first vector, and of
`sum(a * b)`: /repo/pyccel/codegen/printing/fcode.py:1787-1801, 2069-2070. -/
def termF (f : Fun) (x y : Num) : Num :=
  match f with
  | .vecdot => x.conj.mul y
  | .matmul => x.mul y

/-- Fortran: `dot_product(a, b)`, which takes the conjugate of the first vector, and
`sum(a * b)`: /repo/pyccel/codegen/printing/fcode.py:1787-1801, 2069-2070.  The right-hand side
is computed before the assignment. -/
def assignF (f : Fun) (conv : Num → Num) (o : Op) (m : Mem) (target : Place) (a b : Vec) : Mem :=
  let terms := (List.range a.len).map fun i => termF f (m (a.place i)) (m (b.place i))
  store m target (conv (o.value (m target) (terms.foldl Num.add .zero)))

/-! ## Functions of complex numbers -/

/-- `atan2(y, x)` of C, exact: the angle of the point. -/
noncomputable def atan2 (y x : ℝ) : ℝ := Complex.arg ⟨x, y⟩

/-- `cmath.phase(z)`; `isComplex` tells if the type of `z` is complex:
/repo/pyccel/parser/semantic.py:7780-7787. -/
noncomputable def phaseC (isComplex : Bool) (z : ℂ) : ℝ :=
  if isComplex then atan2 z.im z.re else 0

/-- `cmath.polar(z)`: /repo/pyccel/parser/semantic.py:7708-7724. -/
noncomputable def polarC (z : ℂ) : ℝ × ℝ :=
  let x := z.re
  let y := z.im
  (Real.sqrt (x * x + y * y), atan2 y x)

/-- `cmath.rect(r, phi)`: /repo/pyccel/parser/semantic.py:7750-7757. -/
noncomputable def rectC (r φ : ℝ) : ℂ :=
  (r * Real.cos φ : ℝ) + (r * Real.sin φ : ℝ) * Complex.I

/-- The arguments of `math.sqrt` that are recognised: a product of a variable with itself, a
square, anything else: /repo/pyccel/parser/semantic.py:7588-7615. -/
inductive SqrtArg where
  | self (x : ℝ)
  | pow (x : ℝ) (n : ℤ)
  | other (x : ℝ)

/-- The value of the argument (exact): /repo/pyccel/parser/semantic.py:7588-7615. -/
noncomputable def SqrtArg.val : SqrtArg → ℝ
  | .self x => x * x
  | .pow x n => x ^ n
  | .other x => x

/-- `math.sqrt`: /repo/pyccel/parser/semantic.py:7588-7617. -/
noncomputable def sqrtC : SqrtArg → ℝ
  | .self x => |x|
  | .pow x n => if n = 2 then |x| else Real.sqrt (x ^ n)
  | .other x => Real.sqrt x

/-- The arguments of `cmath.sqrt` that are recognised: the product of a number and its
conjugate, in both orders: /repo/pyccel/parser/semantic.py:7652-7666. -/
inductive CSqrtArg where
  | conjLeft (z : ℂ)
  | conjRight (z : ℂ)
  | other (z : ℂ)

/-- The value of the argument (exact): /repo/pyccel/parser/semantic.py:7652-7666. -/
noncomputable def CSqrtArg.val : CSqrtArg → ℂ
  | .conjLeft z => (starRingEnd ℂ) z * z
  | .conjRight z => z * (starRingEnd ℂ) z
  | .other z => z

/-- `cmath.sqrt`: /repo/pyccel/parser/semantic.py:7650-7682. -/
noncomputable def csqrtC : CSqrtArg → ℂ
  | .conjLeft z => (‖z‖ : ℝ)
  | .conjRight z => (‖z‖ : ℝ)
  | .other z => z ^ (1 / 2 : ℂ)

end Verif.Dot.Model
