/-!
# The text and the names of a function given to epyccel: specification

Nothing here refers to the model.  A line of a file is the list of its characters, with
the newline.  Python's rules:

* the surroundings of a function may indent all its lines; taking this indentation away
  does not change the function;
* a comment is not part of the code, wherever it starts;
* the header of a method goes from `def` to the `:` before the body, over one line or several;
* a name that is not local is looked up in the functions around the definition, then in the
  module in which the function was *defined*, then among the built-in names.
-/

namespace Verif.Source.Spec

/-- The characters of a literal string (a list of characters that the kernel can read). -/
macro "chars!" s:str : term => do
  let cs := s.getString.toList.map fun c => Lean.Syntax.mkCharLit c
  `(([$(cs.toArray),*] : List Char))

abbrev Line := List Char
abbrev Name := List Char

/-- White space. -/
def White (c : Char) : Prop := c = ' ' ∨ c = '\t' ∨ c = '\n' ∨ c = '\r'

instance (c : Char) : Decidable (White c) := inferInstanceAs (Decidable (_ ∨ _))

/-- A character of a name. -/
def NameChar (c : Char) : Prop :=
  ('a' ≤ c ∧ c ≤ 'z') ∨ ('A' ≤ c ∧ c ≤ 'Z') ∨ ('0' ≤ c ∧ c ≤ '9') ∨ c = '_'

instance (c : Char) : Decidable (NameChar c) := inferInstanceAs (Decidable (_ ∨ _))

/-- The line begins the definition of a function called `n`. -/
def Defines (l : Line) (n : Name) : Prop :=
  ∃ a b c r, l = a ++ chars! "def" ++ b ++ n ++ c ++ '(' :: r ∧
    (∀ x ∈ a, White x) ∧ b ≠ [] ∧ (∀ x ∈ b, White x) ∧ n ≠ [] ∧ (∀ x ∈ n, NameChar x) ∧
    (∀ x ∈ c, White x)

/-- The code ends with a colon. -/
def EndsWithColon (code : List Char) : Prop :=
  ∃ a w, code = a ++ ':' :: w ∧ ∀ x ∈ w, White x

/-- A line of a header: code, and maybe a comment. -/
structure HeadLine where
  code : List Char
  comment : Option (List Char)

/-- The characters of a header line. -/
def HeadLine.text (h : HeadLine) : Line :=
  match h.comment with
  | none => h.code ++ ['\n']
  | some c => h.code ++ '#' :: (c ++ ['\n'])

/-- A simple header line: no `#` in the code, none inside the comment, and the single quotes
of the code in pairs. -/
def HeadLine.Simple (h : HeadLine) : Prop :=
  '#' ∉ h.code ∧ (∀ c, h.comment = some c → '#' ∉ c) ∧ h.code.count '\'' % 2 = 0

/-- A piece of the source of a function or of a class, without the indentation that all the
lines share: any line of text, a line of white space, or the header of a method (its first
line, the other lines, the name and the signature as Python knows it). -/
inductive Piece where
  | text (l : Line)
  | blank (l : Line)
  | header (first : HeadLine) (others : List HeadLine) (name : Name) (sig : List Char)

/-- The lines of a piece in the file: `ind` is the indentation shared by the lines; a line of
white space need not have it. -/
def inFile (ind : List Char) : Piece → List Line
  | .text l => [ind ++ l]
  | .blank l => [l]
  | .header f o _ _ => (ind ++ f.text) :: o.map fun h => ind ++ h.text

/-- The indentation of a line. -/
def indent (l : Line) : Nat := (l.takeWhile fun c => decide (White c)).length

/-- The lines that should be translated: every header is replaced by one line with the
signature, every other line of text is as it was (a line of white space may lose some). -/
def wanted (ind : List Char) : Piece → List Line
  | .text l => [l]
  | .blank l => [l.drop ind.length]
  | .header f _ n s =>
      [List.replicate (indent f.text) ' ' ++ chars! "def " ++ n ++ s ++ chars! ":\n"]

/-- The methods that are defined, with their signatures. -/
def methodsOf : List Piece → List (Name × List Char)
  | [] => []
  | .header _ _ n s :: t => (n, s) :: methodsOf t
  | _ :: t => methodsOf t

/-- A piece is regular, for the given method names: lines of text do not look like the
definition of a method; the lines of a header are simple, its first line defines the method,
the others do not look like a definition and only the last line ends with a colon. -/
def Piece.Regular (names : List Name) : Piece → Prop
  | .text l => ∀ n ∈ names, ¬ Defines l n
  | .blank l => ∀ x ∈ l, White x
  | .header f o n _ =>
      Defines f.text n ∧ (∀ h ∈ f :: o, h.Simple) ∧
      (∀ h ∈ o, ∀ k ∈ names, ¬ Defines h.text k) ∧
      (∀ h ∈ (f :: o).dropLast, ¬ EndsWithColon h.code) ∧
      (∀ h, (f :: o).getLast? = some h → EndsWithColon h.code)

/-- The first line of the source starts at the shared indentation. -/
def StartsAt : List Piece → Prop
  | .text (c :: _) :: _ => ¬ White c
  | .header f _ _ _ :: _ => ∃ c r, f.text = c :: r ∧ ¬ White c
  | _ => False

/-! ## Names -/

/-- An object that a name can refer to: a function of the user, a built-in function, or a
function of a library (its own name and its module). -/
inductive Obj where
  | user (f : Nat)
  | builtin (n : Name)
  | library (n m : Name)
deriving DecidableEq

/-- The functions of the user: the names of the module of a function, the names of the
functions around its definition, and the names that it calls (and are not its own). -/
structure World where
  globals : Nat → Name → Option Obj
  cells : Nat → Name → Option Obj
  calls : Nat → List Name

/-- What is visible around a function, without the built-in names. -/
def around (w : World) (f : Nat) (n : Name) : Option Obj :=
  (w.cells f n).or (w.globals f n)

/-- What Python finds when the function `f` uses the name `n`. -/
def pyFind (w : World) (builtins : List Name) (f : Nat) (n : Name) : Option Obj :=
  (around w f n).or (if n ∈ builtins then some (.builtin n) else none)

/-- `g` is `f` or is called by Python, directly or not, when `f` runs. -/
inductive Runs (w : World) (builtins : List Name) (f : Nat) : Nat → Prop where
  | self : Runs w builtins f f
  | call {g h : Nat} {n : Name} : Runs w builtins f g → n ∈ w.calls g →
      pyFind w builtins g n = some (.user h) → Runs w builtins f h

/-- The names used by the functions that run mean the same around each of them as around the
function `root`, none of them hides one of the names `reserved`, and functions of libraries are
used under their own names, which are not reserved. -/
def Plain (w : World) (builtins reserved : List Name) (root : Nat) : Prop :=
  ∀ g, Runs w builtins root g → ∀ n ∈ w.calls g,
    around w g n = around w root n ∧
    (n ∈ reserved → around w g n = none) ∧
    (∀ k m, around w g n = some (.library k m) → k = n ∧ k ∉ reserved)

end Verif.Source.Spec
