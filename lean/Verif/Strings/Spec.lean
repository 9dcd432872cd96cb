/-!
# Strings

Python's strings are sequences of code points; C, Fortran and the functions of
the Python C API work on bytes in UTF-8.  This file defines both and what a
Python program with string variables computes.  Nothing here refers to the
compiler.
-/

namespace Verif.Strings

/-- A sequence of code points, or of bytes. -/
abbrev Str := List Nat

/-- The code points a Python string can contain and that have an encoding. -/
def Scalar (c : Nat) : Prop := c < 1114112

/-- UTF-8 encoding of one code point. -/
def enc (c : Nat) : Str :=
  if c < 128 then [c]
  else if c < 2048 then [192 + c / 64, 128 + c % 64]
  else if c < 65536 then [224 + c / 4096, 128 + c / 64 % 64, 128 + c % 64]
  else [240 + c / 262144, 128 + c / 4096 % 64, 128 + c / 64 % 64, 128 + c % 64]

/-- UTF-8 encoding of a string. -/
def utf8 (s : Str) : Str := s.flatMap enc

/-- Only ASCII characters. -/
def Ascii (s : Str) : Prop := ∀ c ∈ s, c < 128

/-- Without the blanks at the end. -/
def rstrip (s : Str) : Str := (s.reverse.dropWhile (· == 32)).reverse

/-- Up to the first null character. -/
def upToNul (s : Str) : Str := s.takeWhile (· != 0)

/-! ### Programs with string variables -/

/-- The right-hand side of an assignment to a string variable: an expression
that makes a new string from the contents of some variables (a literal, `str(x)`,
the call of a function), or just a variable. -/
inductive Rhs where
  | fresh (uses : List Nat) (f : List Str → Str)
  | copy (y : Nat)

/-- What is executed: an assignment, or a use of a variable (in a comparison, in
`print`), whose value is observed.  `d` tells whether the compiler regards the
variable as allocated; Python ignores it. -/
inductive Ev where
  | asg (d : Bool) (x : Nat) (r : Rhs)
  | use (y : Nat)

/-- The Python variables; `none` is an unbound variable. -/
abbrev Env := Nat → Option Str

/-- The value of a right-hand side in Python; `none` if a variable is unbound. -/
def Rhs.val (env : Env) : Rhs → Option Str
  | .fresh uses f => (uses.mapM env).map f
  | .copy y => env y

/-- Python executes the statements; the result is what was observed and the
variables. -/
def pyRun : List Ev → Env → Option (List Str × Env)
  | [], env => some ([], env)
  | .asg _ x r :: l, env =>
    (r.val env).bind fun s => pyRun l (fun v => if v = x then some s else env v)
  | .use y :: l, env =>
    (env y).bind fun s => (pyRun l env).map fun r => (s :: r.1, r.2)

end Verif.Strings
