/-
Specification for C34-C37: Python's and NumPy's rules for the type of `a op b` and for
broadcasting.
-/
namespace Verif.Types.Spec

/-- The numeric types of Python and NumPy that pyccel knows (`pbool` also stands for
`numpy.bool_`, which pyccel does not distinguish from `bool`). -/
inductive Num
  | pbool | pint | pfloat | pcomplex
  | i8 | i16 | i32 | i64
  | f32 | f64 | f128
  | c64 | c128 | c256
deriving DecidableEq, Repr

/-- All of them. -/
def Num.all : List Num :=
  [.pbool, .pint, .pfloat, .pcomplex, .i8, .i16, .i32, .i64, .f32, .f64, .f128, .c64, .c128, .c256]

theorem Num.mem_all (n : Num) : n ∈ Num.all := by cases n <;> decide

/-- A statement about all numeric types is decided by going through the whole list. -/
instance Num.decForall (p : Num → Prop) [DecidablePred p] : Decidable (∀ n, p n) :=
  decidable_of_iff (∀ n ∈ Num.all, p n) ⟨fun h n => h n (Num.mem_all n), fun h n _ => h n⟩

/-- Boolean, integer, real or complex. -/
inductive Kind | bool | int | real | complex
deriving DecidableEq, Repr

def Kind.level : Kind → Nat
  | .bool => 0 | .int => 1 | .real => 2 | .complex => 3

def Num.kind : Num → Kind
  | .pbool => .bool
  | .pint | .i8 | .i16 | .i32 | .i64 => .int
  | .pfloat | .f32 | .f64 | .f128 => .real
  | .pcomplex | .c64 | .c128 | .c256 => .complex

/-- The types `int`, `float` and `complex`, which NumPy treats as weak: they contribute their
kind but not their size (NEP 50, NumPy ≥ 2). -/
def Num.weak : Num → Bool
  | .pint | .pfloat | .pcomplex => true
  | _ => false

/-- The types of Python. -/
def Num.python : Num → Bool
  | .pbool | .pint | .pfloat | .pcomplex => true
  | _ => false

/-- Bits of an integer type. -/
def Num.width : Num → Nat
  | .i8 => 8 | .i16 => 16 | .i32 => 32 | .i64 | .pint => 64 | _ => 0

/-- Bits of the significand of a real or complex type. -/
def Num.signif : Num → Nat
  | .f32 | .c64 => 24 | .f64 | .c128 | .pfloat | .pcomplex => 53 | .f128 | .c256 => 64 | _ => 0

/-- Python's type of `a + b` (or `-`, `*`, ...) on built-in numbers. -/
def pyArith (a b : Num) : Num :=
  if a.kind = .complex ∨ b.kind = .complex then .pcomplex
  else if a.kind = .real ∨ b.kind = .real then .pfloat
  else .pint

/-- Python's type of `a & b`, `a | b`, `a ^ b` on `bool` and `int`. -/
def pyBit (a b : Num) : Num := if a = .pbool ∧ b = .pbool then .pbool else .pint

/-- `numpy.can_cast(a, b, "safe")`: the kind does not decrease, and every value is representable,
except that 64-bit integers count as castable to the 64-bit real and complex types. -/
def safeCast (a b : Num) : Bool :=
  match a.kind, b.kind with
  | .bool, _ => true
  | .int, .int => a.width ≤ b.width
  | .int, .real | .int, .complex => a.width ≤ b.signif || b.signif ≥ 53
  | .real, .real | .real, .complex | .complex, .complex => a.signif ≤ b.signif
  | _, _ => false

/-- `c` is the smallest type to which both `a` and `b` can be cast safely, among the types with a
size: NumPy's definition of `numpy.result_type` on arrays and NumPy scalars. -/
def IsPromotion (a b c : Num) : Prop :=
  c.weak = false ∧ safeCast a c = true ∧ safeCast b c = true ∧
    ∀ d : Num, d.weak = false → safeCast a d = true → safeCast b d = true → safeCast c d = true

/-- The integers representable exactly in a type: the range of a two's complement integer, or
`m * 2^e` with a significand that fits. -/
def HasInt (t : Num) (n : Int) : Prop :=
  match t.kind with
  | .bool => n = 0 ∨ n = 1
  | .int => -2 ^ (t.width - 1) ≤ n ∧ n < 2 ^ (t.width - 1)
  | .real | .complex => ∃ (m : Int) (e : Nat), n = m * 2 ^ e ∧ m.natAbs < 2 ^ t.signif

/-- Memory ordering of an array. -/
inductive Ord | C | F
deriving DecidableEq, Repr

/-- NumPy's broadcasting of two extents: equal, or one of them is 1. -/
def npDim (a b : Int) : Option Int :=
  if a = b then some a else if a = 1 then some b else if b = 1 then some a else none

/-- NumPy's broadcasting of two shapes, aligned at the last dimension (shapes are given last
dimension first). -/
def npBroadcastRev : List Int → List Int → Option (List Int)
  | [], ys => some ys
  | xs, [] => some xs
  | x :: xs, y :: ys => do
    let z ← npDim x y
    let zs ← npBroadcastRev xs ys
    pure (z :: zs)

/-- NumPy's `broadcast_shapes`. -/
def npBroadcast (xs ys : List Int) : Option (List Int) :=
  (npBroadcastRev xs.reverse ys.reverse).map List.reverse

end Verif.Types.Spec
