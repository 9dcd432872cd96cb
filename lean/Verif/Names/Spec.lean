/-
Specification for C28–C32: names, reserved words, name tables.
-/
namespace Verif.Names.Spec

/-- Identifiers are lists of characters. -/
abbrev Name := List Char

/-- The 44 keywords of C11 (ISO/IEC 9899:2011, 6.4.1). -/
def c11Keywords : List String :=
  ["auto", "break", "case", "char", "const", "continue", "default", "do", "double", "else",
   "enum", "extern", "float", "for", "goto", "if", "inline", "int", "long", "register",
   "restrict", "return", "short", "signed", "sizeof", "static", "struct", "switch", "typedef",
   "union", "unsigned", "void", "volatile", "while", "_Alignas", "_Alignof", "_Atomic", "_Bool",
   "_Complex", "_Generic", "_Imaginary", "_Noreturn", "_Static_assert", "_Thread_local"]

/-- Fortran identifiers are case-insensitive; C and Python ones are not. -/
inductive Language | c | fortran | python
deriving DecidableEq, Repr

/-- Two identifiers denote the same thing to the target compiler. -/
def Same : Language → Name → Name → Prop
  | .fortran, a, b => a.map Char.toLower = b.map Char.toLower
  | _, a, b => a = b

instance (l : Language) (a b : Name) : Decidable (Same l a b) := by
  cases l <;> unfold Same <;> infer_instance

end Verif.Names.Spec
