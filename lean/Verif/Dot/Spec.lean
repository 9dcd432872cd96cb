import Mathlib.Analysis.SpecialFunctions.Complex.Arg
import Mathlib.Analysis.SpecialFunctions.Pow.Real

/-!
# Dot products and functions of complex numbers: specification

Nothing here refers to the model.  Elements of arrays are complex numbers with exact rational
parts (a real number has the imaginary part 0): rounding is not part of the property.
-/

namespace Verif.Dot.Spec

/-- A number. -/
structure Num where
  re : Rat
  im : Rat
deriving DecidableEq

@[ext] theorem Num.ext' {a b : Num} (h1 : a.re = b.re) (h2 : a.im = b.im) : a = b := by
  cases a; cases b; simp_all

def Num.zero : Num := ⟨0, 0⟩
def Num.add (a b : Num) : Num := ⟨a.re + b.re, a.im + b.im⟩
def Num.sub (a b : Num) : Num := ⟨a.re - b.re, a.im - b.im⟩
def Num.mul (a b : Num) : Num := ⟨a.re * b.re - a.im * b.im, a.re * b.im + a.im * b.re⟩
def Num.conj (a : Num) : Num := ⟨a.re, -a.im⟩

/-- A place of the memory: an array (or a variable) and a position in it. -/
abbrev Place := Nat × Nat

/-- The contents of the memory. -/
abbrev Mem := Place → Num

/-- A vector that the program can name: an array, a part of it or a row or column of it. -/
structure Vec where
  base : Nat
  start : Nat
  step : Nat
  len : Nat

/-- The place of an element. -/
def Vec.place (v : Vec) (i : Nat) : Place := (v.base, v.start + v.step * i)

/-- The memory after an assignment. -/
def store (m : Mem) (p : Place) (x : Num) : Mem := fun q => if q = p then x else m q

/-- The two functions: `np.vecdot` takes the complex conjugate of the first vector,
`np.matmul` (and `@`) does not. -/
inductive Fun where
  | vecdot
  | matmul
deriving DecidableEq

/-- The term of the sum. -/
def Fun.term (f : Fun) (a b : Num) : Num :=
  match f with
  | .vecdot => a.conj.mul b
  | .matmul => a.mul b

/-- The dot product of the first `n` elements, in the memory `m`. -/
def dot (f : Fun) (m : Mem) (a b : Vec) : Nat → Num
  | 0 => .zero
  | n + 1 => (dot f m a b n).add (f.term (m (a.place n)) (m (b.place n)))

/-- `=`, `+=` and `-=`. -/
inductive Op where
  | set
  | plus
  | minus
deriving DecidableEq

/-- The value that the target gets. -/
def Op.value (o : Op) (old x : Num) : Num :=
  match o with
  | .set => x
  | .plus => old.add x
  | .minus => old.sub x

/-- Python: the product is computed, then assigned (and converted to the type of the
target). -/
def python (f : Fun) (conv : Num → Num) (o : Op) (m : Mem) (target : Place) (a b : Vec) : Mem :=
  store m target (conv (o.value (m target) (dot f m a b a.len)))

/-- The target is not an element of the vector. -/
def Apart (target : Place) (a : Vec) : Prop := ∀ i, i < a.len → a.place i ≠ target

/-- Conversions that can be done after each addition instead of once at the end: none, or the
reduction of integers modulo a power of two. -/
def Additive (conv : Num → Num) : Prop :=
  conv .zero = .zero ∧ ∀ x y, conv ((conv x).add y) = conv (x.add y)

/-! ## Functions of complex numbers (exact) -/

/-- Python's `cmath.phase` and `cmath.polar`, `math.sqrt` and `cmath.sqrt`. -/
noncomputable def phase (z : ℂ) : ℝ := Complex.arg z
noncomputable def polar (z : ℂ) : ℝ × ℝ := (‖z‖, Complex.arg z)
noncomputable def rect (r φ : ℝ) : ℂ := r * Complex.exp (φ * Complex.I)
noncomputable def csqrt (z : ℂ) : ℂ := z ^ (1 / 2 : ℂ)

end Verif.Dot.Spec
