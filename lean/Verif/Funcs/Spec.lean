/-!
# What NumPy's `cross`, `sign`, and `min`/`max` of complex arrays compute

Written from the NumPy documentation, without reference to the compiler.
Floating point numbers are the rational numbers (no rounding), plus the
special values where a property is about them.
-/

namespace Verif.Funcs

/-- `idx` is a valid index of an array of shape `sh`. -/
def InB : List Nat → List Nat → Prop
  | [], [] => True
  | i :: is, n :: ns => i < n ∧ InB is ns
  | _, _ => False

/-- The three components of the cross product of two vectors. -/
def crossP (x y : Nat → Rat) : Nat → Rat
  | 0 => x 1 * y 2 - x 2 * y 1
  | 1 => x 2 * y 0 - x 0 * y 2
  | _ => x 0 * y 1 - x 1 * y 0

/-- NumPy's broadcasting rule: along a dimension of size one the only element
is used for every index. -/
def stretch : List Nat → List Nat → List Nat
  | n :: ns, i :: is => (if n = 1 then 0 else i) :: stretch ns is
  | _, _ => []

/-- Two shapes of equal rank can be broadcast together. -/
def Compat : List Nat → List Nat → Prop
  | [], [] => True
  | m :: ms, n :: ns => (m = n ∨ m = 1 ∨ n = 1) ∧ Compat ms ns
  | _, _ => False

/-- The shape two compatible shapes are broadcast to. -/
def common : List Nat → List Nat → List Nat
  | m :: ms, n :: ns => (if m = 1 then n else m) :: common ms ns
  | _, _ => []

/-- The vector of the array `x` (shape `sh`, vectors along axis `ax`) that
NumPy uses at the position `idx` of the other dimensions. -/
def vecAt (x : List Nat → Rat) (sh : List Nat) (ax : Nat) (idx : List Nat) :
    Nat → Rat :=
  fun k => x ((stretch (sh.eraseIdx ax) idx).insertIdx ax k)

/-- The shape of `np.cross(a, b, axisa, axisb, axisc)` for vectors of three
elements. -/
def npCrossShape (sa sb : List Nat) (axa axb axc : Nat) : List Nat :=
  (common (sa.eraseIdx axa) (sb.eraseIdx axb)).insertIdx axc 3

/-- `r` holds the values of `np.cross(a, b, axisa, axisb, axisc)`. -/
def IsCross (a b : List Nat → Rat) (sa sb : List Nat) (axa axb axc : Nat)
    (r : List Nat → Rat) : Prop :=
  ∀ idx k, InB idx (common (sa.eraseIdx axa) (sb.eraseIdx axb)) → k < 3 →
    r (idx.insertIdx axc k)
      = crossP (vecAt a sa axa idx) (vecAt b sb axb idx) k

/-- A real floating point number: a rational number, an infinity or a NaN with
its sign bit. -/
inductive Fl where
  | fin (q : Rat)
  | inf (neg : Bool)
  | nan (neg : Bool)
deriving DecidableEq

/-- `np.sign` of a floating point number. -/
def npSign : Fl → Fl
  | .fin q => .fin (if q < 0 then -1 else if q = 0 then 0 else 1)
  | .inf neg => .fin (if neg then -1 else 1)
  | .nan s => .nan s

/-- A complex number whose components are rational numbers or NaN (`none`). -/
structure Cx where
  re : Option Rat
  im : Option Rat
deriving DecidableEq

/-- Has a component that is NaN. -/
def Cx.hasNan (z : Cx) : Bool := z.re.isNone || z.im.isNone

/-- The order in which NumPy sorts complex numbers without NaN: by the real
part, then by the imaginary part. -/
def Cx.le (z w : Cx) : Prop :=
  ∃ zr zi wr wi, z = ⟨some zr, some zi⟩ ∧ w = ⟨some wr, some wi⟩ ∧
    (zr < wr ∨ (zr = wr ∧ zi ≤ wi))

/-- `m` is `np.min` of the array: the smallest element, unless an element is
NaN; then the result is NaN too. -/
def IsMin (l : List Cx) (m : Cx) : Prop :=
  if l.any Cx.hasNan then m.hasNan = true else m ∈ l ∧ ∀ z ∈ l, m.le z

/-- `m` is `np.max` of the array. -/
def IsMax (l : List Cx) (m : Cx) : Prop :=
  if l.any Cx.hasNan then m.hasNan = true else m ∈ l ∧ ∀ z ∈ l, z.le m

end Verif.Funcs
