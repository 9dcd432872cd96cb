import Verif.Floats.Fl

/-!
# complex(a, b): specification

Floating-point numbers with infinities, NaN and the sign of zero, in single and double precision (the range of
exponents is not bounded), and what `complex(a, b)` is in Python.
-/

namespace Verif.Complex.Spec
open Verif.Floats

inductive Prec
  | sgl | dbl
deriving DecidableEq

/-- Numbers with 24 bits, scaled by a power of two. -/
def Rep24 (x : ℚ) : Prop := ∃ m e : ℤ, |m| < 2 ^ 24 ∧ x = m * 2 ^ e

/-- The nearest number with 24 bits; of two the even one (`Floats.fl` is the same with 53 bits). -/
def fs (x : ℚ) : ℚ := rne (x / 2 ^ (Int.log 2 |x| - 23)) * 2 ^ (Int.log 2 |x| - 23)

/-- The result of an operation whose exact result is `x`. -/
def rnd : Prec → ℚ → ℚ
  | .sgl, x => fs x
  | .dbl, x => fl x

/-- A floating-point number: NaN, an infinity, a zero (`true`: the negative one) or another number. -/
inductive Fl
  | nan
  | inf (neg : Bool)
  | zero (neg : Bool)
  | num (q : ℚ)
deriving DecidableEq

def Fl.ofQ (q : ℚ) : Fl := if q = 0 then .zero false else .num q

/-- IEEE 754 addition in a given precision. -/
def Fl.add (p : Prec) : Fl → Fl → Fl
  | .nan, _ => .nan
  | _, .nan => .nan
  | .inf s, .inf t => if s = t then .inf s else .nan
  | .inf s, _ => .inf s
  | _, .inf t => .inf t
  | .zero s, .zero t => .zero (s && t)
  | .zero _, .num b => .num b
  | .num a, .zero _ => .num a
  | .num a, .num b => if a + b = 0 then .zero false else .num (rnd p (a + b))

def Fl.neg : Fl → Fl
  | .nan => .nan
  | .inf s => .inf !s
  | .zero s => .zero !s
  | .num q => .num (-q)

def Fl.sub (p : Prec) (x y : Fl) : Fl := Fl.add p x y.neg

/-- IEEE 754 multiplication. -/
def Fl.mul (p : Prec) : Fl → Fl → Fl
  | .nan, _ => .nan
  | _, .nan => .nan
  | .inf s, .inf t => .inf (s != t)
  | .inf _, .zero _ => .nan
  | .zero _, .inf _ => .nan
  | .inf s, .num b => .inf (s != decide (b < 0))
  | .num a, .inf t => .inf (decide (a < 0) != t)
  | .zero s, .zero t => .zero (s != t)
  | .zero s, .num b => .zero (s != decide (b < 0))
  | .num a, .zero t => .zero (decide (a < 0) != t)
  | .num a, .num b => .num (rnd p (a * b))

def Fl.finite : Fl → Bool
  | .nan | .inf _ => false
  | .zero _ | .num _ => true

/-- Equal, except that the signs of two zeros may differ. -/
def Fl.Same (x y : Fl) : Prop := x = y ∨ ∃ s t, x = .zero s ∧ y = .zero t

/-- The numbers of a precision. -/
def Fl.IsFloat (p : Prec) : Fl → Prop
  | .num q => match p with
    | .sgl => Rep24 q
    | .dbl => Floats.Spec.Rep q
  | _ => True

/-- The numbers that may be passed: integers (and truth values), `np.float32` and `float`, `np.complex64` and `complex`. -/
inductive Val
  | int (n : ℤ)
  | flt (p : Prec) (x : Fl)
  | cplx (p : Prec) (re im : Fl)
deriving DecidableEq

def Val.isC : Val → Bool
  | .cplx .. => true
  | _ => false

def Val.WF : Val → Prop
  | .int _ => True
  | .flt p x => x.IsFloat p
  | .cplx p x y => x.IsFloat p ∧ y.IsFloat p

def Val.Finite : Val → Prop
  | .int _ => True
  | .flt _ x => x.finite = true
  | .cplx _ x y => x.finite = true ∧ y.finite = true

/-- The real part in double precision. -/
def Val.re : Val → Fl
  | .int n => .ofQ (fl n)
  | .flt _ x => x
  | .cplx _ x _ => x

/-- The imaginary part of a complex number (0 for others). -/
def Val.im : Val → Fl
  | .cplx _ _ y => y
  | _ => .zero false

/-- Python's `complex(a)` and `complex(a, b)` (`complex_new_impl` in CPython): the imaginary part of `b` is subtracted from the real
part of `a` and the imaginary part of `a` is added to the real part of `b`, if these are complex numbers. -/
def pyComplex (a : Val) : Option Val → Fl × Fl
  | none => (a.re, a.im)
  | some b => (if b.isC then Fl.sub .dbl a.re b.im else a.re, if a.isC then Fl.add .dbl b.re a.im else b.re)

/-- The same complex number, except for the signs of zeros. -/
def SameC (z w : Fl × Fl) : Prop := z.1.Same w.1 ∧ z.2.Same w.2

/-- A number that is not in double precision yet: an integer or an `np.float32`. -/
def Val.narrow : Val → Bool
  | .int _ => true
  | .flt p _ => p == .sgl
  | .cplx .. => false

/-- The integer is the same number in single and in double precision. -/
def Val.ShortInt : Val → Prop
  | .int n => fs n = fl n
  | _ => True

/-- The number as it is in a precision. -/
def Val.at_ (p : Prec) : Val → Fl
  | .int n => .ofQ (rnd p n)
  | .flt _ x => x
  | .cplx _ x _ => x

/-- The sum is the same in single and in double precision. -/
def ShortSum (x y : Val) : Prop := (Fl.add .sgl (x.at_ .sgl) (y.at_ .sgl)).Same (Fl.add .dbl (x.at_ .dbl) (y.at_ .dbl))

/-- An argument that is written as a literal. -/
structure Arg where
  v : Val
  lit : Bool
deriving DecidableEq

/-- Literals are not negative (a minus sign is an operator). -/
def Fl.nonneg : Fl → Bool
  | .nan => false
  | .inf s | .zero s => !s
  | .num q => decide (0 ≤ q)

def Val.Lit : Val → Prop
  | .int n => 0 ≤ n
  | .flt p x => p = .dbl ∧ x.nonneg = true ∧ x.finite = true
  | .cplx p x y => p = .dbl ∧ x = .zero false ∧ y.nonneg = true ∧ y.finite = true

/-- An argument: a number, and a literal as Python's grammar has them. -/
def Arg.WF (a : Arg) : Prop := a.v.WF ∧ (a.lit = true → a.v.Lit)

/-- The literals `0`, `0.0` and `0j`. -/
def Val.Null : Val → Prop
  | .int n => n = 0
  | .flt _ x => x = .zero false
  | .cplx _ x y => x = .zero false ∧ y = .zero false

/-- The C code computes in sufficient precision: two numbers of type `np.complex64` are added in single precision, and integers are
converted to single precision unless the second argument is a `float`. -/
def CPrecise : Val → Val → Prop
  | .cplx .sgl x y, .cplx .sgl x' y' => ShortSum (.flt .sgl x) (.flt .sgl y'.neg) ∧ ShortSum (.flt .sgl y) (.flt .sgl x')
  | .cplx .., _ => True
  | _, .cplx .. => True
  | u, w => w.narrow = true → u.ShortInt ∧ w.ShortInt

/-- The Fortran code computes in sufficient precision: a part of a number of type `np.complex64` and a number that is no `float` are added
in single precision. -/
def FPrecise : Val → Val → Prop
  | .cplx .., .cplx .. => True
  | .cplx .sgl _ y, w => w.narrow = true → ShortSum (.flt .sgl y) w
  | u, .cplx .sgl _ y => u.narrow = true → ShortSum u (.flt .sgl y.neg)
  | _, _ => True

inductive Op
  | add | mul
deriving DecidableEq

/-- Python's `x + kj` and `x * kj` for a real number `x`, which is made complex first. -/
def pyUnit : Op → Fl → ℚ → Fl × Fl
  | .add, x, k => (Fl.add .dbl x (.zero false), Fl.add .dbl (.zero false) (.num k))
  | .mul, x, k =>
    (Fl.sub .dbl (Fl.mul .dbl x (.zero false)) (Fl.mul .dbl (.zero false) (.num k)),
     Fl.add .dbl (Fl.mul .dbl x (.num k)) (Fl.mul .dbl (.zero false) (.zero false)))

end Verif.Complex.Spec
