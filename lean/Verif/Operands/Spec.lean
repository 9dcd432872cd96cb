import Verif.Exprs.Grammar
/-
Specification for C114–C115: expressions which contain calls of library functions.

The value of an expression is given for arbitrary operations (`Ops`): a statement made for every
choice of the operations says that the same operations are applied to the same operands.  The text
printed for an expression is read with the grammar of the target language (`Verif.Exprs.Grammar`),
and what has been read is evaluated with the same operations.  Arrays are values like any other:
`+`, `abs`, … act on them element by element, `sum` reduces them.
-/
namespace Verif.Operands
open Verif.Exprs

/-- Operators between numbers. -/
inductive Op | add | sub | mul | div | pow | lt
deriving DecidableEq, Repr

/-- The operations. -/
structure Ops (V : Type) where
  bin : Op → V → V → V
  neg : V → V
  ne : V → V → V
  zero : V
  cond : V → V → V → V
  fn : Nat → V → V
  sum : V → V
  abs : V → V
  real : V → V
  seq : V → V

/-! ### Python expressions translated to C -/

/-- Expressions: names and literals (numbered), `-a`, `a o b`, `bool(a)`, calls `f(a)`, and
`np.where(c, a, b)`. -/
inductive CS
  | var (n : Nat)
  | neg (a : CS)
  | bin (o : Op) (a b : CS)
  | truth (a : CS)
  | call (f : Nat) (a : CS)
  | whr (c a b : CS)
deriving DecidableEq, Repr

/-- The value Python gives the expression. -/
def CS.value {V : Type} (I : Ops V) (env : Nat → V) : CS → V
  | .var n => env n
  | .neg a => I.neg (a.value I env)
  | .bin o a b => I.bin o (a.value I env) (b.value I env)
  | .truth a => I.ne (a.value I env) I.zero
  | .call f a => I.fn f (a.value I env)
  | .whr c a b => I.cond (c.value I env) (a.value I env) (b.value I env)

/-- Functions named in C texts. -/
inductive CF | fn (n : Nat) | pow
deriving DecidableEq, Repr

abbrev CTree := CST CSym CF
abbrev CToks := List (Tok CSym CF)

/-- C's meaning of the operator symbols used. -/
def cSym : CSym → Option Op
  | .add => some .add
  | .sub => some .sub
  | .mul => some .mul
  | .div => some .div
  | .lt => some .lt
  | _ => none

/-- The value of a C expression; `none` if it uses something else than the above. -/
def cValue {V : Type} (I : Ops V) (env : Nat → V) : CTree → Option V
  | .atom (.var n) => some (env n)
  | .atom .zero => some I.zero
  | .paren t => cValue I env t
  | .call (.fn f) t => (cValue I env t).map (I.fn f)
  | .call .pow (.bin .comma a b) => do
    let x ← cValue I env a
    let y ← cValue I env b
    pure (I.bin .pow x y)
  | .call .pow _ => none
  | .un .sub t => (cValue I env t).map I.neg
  | .un _ _ => none
  | .bin s a b => do
    let x ← cValue I env a
    let y ← cValue I env b
    match s with
    | .ne => pure (I.ne x y)
    | s => (cSym s).map fun o => I.bin o x y
  | .tern c a b => do
    let x ← cValue I env c
    let y ← cValue I env a
    let z ← cValue I env b
    pure (I.cond x y z)

/-- No call of `np.where` is an operand of an operator, the argument of `bool`, or the condition
of another `np.where`. -/
def CS.Whole : CS → Prop
  | .var _ => True
  | .neg a => a.Whole ∧ ∀ c x y, a ≠ .whr c x y
  | .bin .pow a b => a.Whole ∧ b.Whole
  | .bin _ a b => (a.Whole ∧ ∀ c x y, a ≠ .whr c x y) ∧ (b.Whole ∧ ∀ c x y, b ≠ .whr c x y)
  | .truth a => a.Whole ∧ ∀ c x y, a ≠ .whr c x y
  | .call _ a => a.Whole
  | .whr c a b => (c.Whole ∧ ∀ d x y, c ≠ .whr d x y) ∧ a.Whole ∧ b.Whole

/-! ### Python expressions translated to Fortran -/

/-- Expressions: names and literals (numbered), `-a`, `a o b`, calls `f(a)`, `np.where(c, a, b)`,
`math.pow(a, b)`, `np.sum(x, initial=i)`, `a @ b` for vectors, `np.linalg.norm(x, -1)`,
`np.linalg.norm(x, p)` for a positive order `p` which is neither 1 nor 2 (`q` is the literal
`1 / p`), `np.linalg.norm(x, -o)` for an order `-o` other than `-1` (`one` is the literal 1), and
`np.arange(a, b, s)` (`i` is the array 0, 1, 2, …). -/
inductive FS
  | var (n : Nat)
  | neg (a : FS)
  | bin (o : Op) (a b : FS)
  | call (f : Nat) (a : FS)
  | whr (c a b : FS)
  | mpow (a b : FS)
  | sumI (i x : FS)
  | dot (a b : FS)
  | normInv (one : Nat) (x : FS)
  | normPow (p q : Nat) (x : FS)
  | normNeg (one o : Nat) (x : FS)
  | arange (a s : FS) (i : Nat)
deriving DecidableEq, Repr

/-- The value Python gives the expression. -/
def FS.value {V : Type} (I : Ops V) (env : Nat → V) : FS → V
  | .var n => env n
  | .neg a => I.neg (a.value I env)
  | .bin o a b => I.bin o (a.value I env) (b.value I env)
  | .call f a => I.fn f (a.value I env)
  | .whr c a b => I.cond (c.value I env) (a.value I env) (b.value I env)
  | .mpow a b => I.bin .pow (a.value I env) (b.value I env)
  | .sumI i x => I.bin .add (i.value I env) (I.sum (x.value I env))
  | .dot a b => I.sum (I.bin .mul (a.value I env) (b.value I env))
  | .normInv one x => I.bin .div (env one) (I.sum (I.bin .div (env one) (I.abs (x.value I env))))
  | .normPow p q x =>
    I.bin .pow (I.sum (I.bin .pow (I.abs (x.value I env)) (env p))) (env q)
  | .normNeg one o x =>
    I.bin .pow (I.sum (I.bin .pow (I.abs (x.value I env)) (I.real (I.neg (env o)))))
      (I.bin .div (I.real (env one)) (I.real (I.neg (env o))))
  | .arange a s i => I.seq (I.bin .add (a.value I env) (I.bin .mul (s.value I env) (env i)))

/-- Functions named in Fortran texts; `seq` is the array constructor `[(…, i = 0, n - 1)]`. -/
inductive FF | fn (n : Nat) | merge | sum | abs | real | seq
deriving DecidableEq, Repr

abbrev FTree := CST FSym FF
abbrev FToks := List (Tok FSym FF)

/-- Fortran's meaning of the operator symbols used. -/
def fSym : FSym → Option Op
  | .add => some .add
  | .sub => some .sub
  | .mul => some .mul
  | .div => some .div
  | .pow => some .pow
  | .lt => some .lt
  | _ => none

/-- The value of a Fortran expression. -/
def fValue {V : Type} (I : Ops V) (env : Nat → V) : FTree → Option V
  | .atom (.var n) => some (env n)
  | .atom .zero => some I.zero
  | .paren t => fValue I env t
  | .call (.fn f) t => (fValue I env t).map (I.fn f)
  | .call .sum t => (fValue I env t).map I.sum
  | .call .abs t => (fValue I env t).map I.abs
  | .call .real t => (fValue I env t).map I.real
  | .call .seq t => (fValue I env t).map I.seq
  | .call .merge (.bin .comma (.bin .comma a b) c) => do
    let x ← fValue I env c
    let y ← fValue I env a
    let z ← fValue I env b
    pure (I.cond x y z)
  | .call .merge _ => none
  | .un .sub t => (fValue I env t).map I.neg
  | .un _ _ => none
  | .bin s a b => do
    let x ← fValue I env a
    let y ← fValue I env b
    (fSym s).map fun o => I.bin o x y
  | .tern _ _ _ => none

/-- How tightly the text of an expression holds together in Fortran: 5 for comparisons, 7 for sums
and signs, 8 for products, 9 for powers, 20 for texts which nothing can divide. -/
def FS.level : FS → Nat
  | .neg _ | .bin .add _ _ | .bin .sub _ _ | .sumI _ _ => 7
  | .bin .mul _ _ | .bin .div _ _ | .normInv _ _ | .normNeg _ _ _ => 8
  | .bin .pow _ _ | .mpow _ _ | .normPow _ _ _ => 9
  | .bin .lt _ _ => 5
  | _ => 20

/-- Calls which are printed as an operator. -/
def FS.Loose : FS → Prop
  | .sumI _ _ | .normInv _ _ | .normPow _ _ _ | .normNeg _ _ _ | .mpow _ _ => True
  | _ => False

/-- Every call printed as an operator is used where an operator of its level may stand without
parentheses; the arguments which are spliced into an operator are tight enough for it; there is no
norm of a negative order other than -1; and no comparison is compared with `<`. -/
def FS.Whole : FS → Prop
  | .var _ => True
  | .neg a => a.Whole ∧ (a.Loose → 8 ≤ a.level)
  | .bin .add a b | .bin .sub a b =>
    a.Whole ∧ b.Whole ∧ (a.Loose → 7 ≤ a.level) ∧ (b.Loose → 8 ≤ b.level)
  | .bin .mul a b | .bin .div a b =>
    a.Whole ∧ b.Whole ∧ (a.Loose → 8 ≤ a.level) ∧ (b.Loose → 9 ≤ b.level)
  | .bin .pow a b => a.Whole ∧ b.Whole ∧ (a.Loose → 10 ≤ a.level) ∧ (b.Loose → 9 ≤ b.level)
  | .bin .lt a b => a.Whole ∧ b.Whole ∧ ∀ x y, a ≠ .bin .lt x y
  | .call _ a => a.Whole
  | .whr c a b => c.Whole ∧ a.Whole ∧ b.Whole
  | .mpow a b => a.Whole ∧ b.Whole ∧ 10 ≤ a.level ∧ 9 ≤ b.level
  | .sumI i x => i.Whole ∧ x.Whole ∧ 7 ≤ i.level
  | .dot a b => a.Whole ∧ b.Whole ∧ 8 ≤ a.level ∧ 9 ≤ b.level
  | .normInv _ x | .normPow _ _ x => x.Whole
  | .normNeg _ _ _ => False
  | .arange a s _ => a.Whole ∧ s.Whole ∧ 7 ≤ a.level ∧ 8 ≤ s.level

end Verif.Operands
