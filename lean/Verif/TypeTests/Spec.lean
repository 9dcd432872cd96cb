/-
Specification for C176: `isinstance(x, t)` in Python.
-/
namespace Verif.TypeTests.Spec

/-- The classes of values. -/
inductive Cls where
  | bool | int | float | complex | str | none
  | list | set | dict | tuple | ndarray
  | npBool
  /-- `np.int8`, … -/
  | npInt (bits : Nat)
  | npFloat (bits : Nat)
  | npComplex (bits : Nat)
  /-- a class of the user -/
  | user (c : Nat)
deriving DecidableEq, Repr

/-- The direct bases of a class (`bases`: those of the user's classes): `bool` is a subclass of `int`, `np.float64` of `float`,
`np.complex128` of `complex` (abstract classes such as `object` and `np.number` are left out). -/
inductive Base (bases : Nat → List Nat) : Cls → Cls → Prop where
  | bool : Base bases .bool .int
  | float64 : Base bases (.npFloat 64) .float
  | complex128 : Base bases (.npComplex 128) .complex
  | user {c d : Nat} (h : d ∈ bases c) : Base bases (.user c) (.user d)

/-- Subclasses. -/
inductive Sub (bases : Nat → List Nat) : Cls → Cls → Prop where
  | refl (c : Cls) : Sub bases c c
  | step {a b c : Cls} (h : Base bases a b) (t : Sub bases b c) : Sub bases a c

/-- The second argument: a class, or a tuple (or union) of such arguments. -/
inductive Test where
  | cls (c : Cls)
  | nil
  | cons (t ts : Test)
deriving DecidableEq, Repr

/-- `isinstance(v, t)` for a value `v` of class `c`. -/
def Inst (bases : Nat → List Nat) (c : Cls) : Test → Prop
  | .cls d => Sub bases c d
  | .nil => False
  | .cons t ts => Inst bases c t ∨ Inst bases c ts

/-- The classes that occur in the second argument. -/
def Test.classes : Test → List Cls
  | .cls c => [c]
  | .nil => []
  | .cons t ts => t.classes ++ ts.classes

/-- The tests about which compiled programs are wrong, for a parameter that is declared with class `p` and a value of class `c`: the booleans of
NumPy are not told from Python's, `np.float64` and `np.complex128` are not known to be subclasses, and values of these classes that are given for
`float` and `complex` are converted. -/
def exceptions : Cls → Cls → List Cls
  | .bool, .bool => [.npBool]
  | .bool, .npBool => [.bool, .int]
  | .float, .npFloat 64 => [.npFloat 64]
  | .complex, .npComplex 128 => [.npComplex 128]
  | .npFloat 64, .npFloat 64 => [.float]
  | .npComplex 128, .npComplex 128 => [.complex]
  | _, _ => []

end Verif.TypeTests.Spec
