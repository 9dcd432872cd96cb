/-
Specifications for the text level of the printers (C46 - C51): how C and Fortran read character
literals, how `printf` and `write` produce output, how Python's `print` does, how Fortran joins
continued lines, and what it means for indentation to leave the text alone.
Nothing here refers to the model of pyccel.
-/
namespace Verif.Text.Spec

/-- A piece of text. -/
abbrev Str := List Char

/-- The text of a Lean string literal. -/
abbrev s (x : String) : Str := x.toList

/-! ## String literals -/

/-- The simple escape sequences of C (C11 6.4.4.4). -/
def simpleEscape : Char → Option Char
  | '\'' => some '\''
  | '"' => some '"'
  | '?' => some '?'
  | '\\' => some '\\'
  | 'a' => some (Char.ofNat 7)
  | 'b' => some (Char.ofNat 8)
  | 'f' => some (Char.ofNat 12)
  | 'n' => some '\n'
  | 'r' => some '\r'
  | 't' => some '\t'
  | 'v' => some (Char.ofNat 11)
  | _ => none

/-- Reading a C string literal after its opening quote (C11 6.4.5): the characters it denotes and
the text after the closing quote.  An unescaped end of line is an error, and so is any escape
other than the simple ones (octal, hexadecimal and universal escapes are not read: text using
them is rejected, never misread). -/
def cString : Str → Option (Str × Str)
  | [] => none
  | '"' :: r => some ([], r)
  | '\n' :: _ => none
  | '\r' :: _ => none
  | ['\\'] => none
  | '\\' :: e :: r =>
    match simpleEscape e, cString r with
    | some c, some (t, q) => some (c :: t, q)
    | _, _ => none
  | c :: r =>
    match cString r with
    | some (t, q) => some (c :: t, q)
    | none => none

/-- Reading a sequence of adjacent string literals and macros standing for string literals
(translation phases 4 and 6: macros are expanded, adjacent literals are concatenated).
`ρ` gives the text of each macro; `fuel` bounds the number of tokens. -/
def cStrings (ρ : Str → Option Str) : Nat → Str → Option Str
  | 0, _ => none
  | _ + 1, [] => some []
  | n + 1, '"' :: r =>
    match cString r with
    | none => none
    | some (t, q) => match cStrings ρ n q with | some u => some (t ++ u) | none => none
  | n + 1, c :: r =>
    let name := (c :: r).takeWhile fun x => x.isAlphanum || x == '_'
    if name = [] then none
    else match ρ name, cStrings ρ n ((c :: r).dropWhile fun x => x.isAlphanum || x == '_') with
      | some t, some u => some (t ++ u)
      | _, _ => none

/-- Reading a Fortran character literal after its opening apostrophe (F2003 4.4.4): a doubled
apostrophe denotes one, and a backslash is an ordinary character. -/
def fString : Str → Option (Str × Str)
  | [] => none
  | '\'' :: '\'' :: r =>
    match fString r with
    | some (t, q) => some ('\'' :: t, q)
    | none => none
  | '\'' :: r => some ([], r)
  | '\n' :: _ => none
  | c :: r =>
    match fString r with
    | some (t, q) => some (c :: t, q)
    | none => none

/-- The value of a decimal numeral. -/
def decimal : Str → Nat := fun d => d.foldl (fun n c => 10 * n + (c.toNat - 48)) 0

/-- Reading one operand of a character expression: a literal or `ACHAR(n)`. -/
def fOperand : Str → Option (Str × Str)
  | '\'' :: r => fString r
  | 'A' :: 'C' :: 'H' :: 'A' :: 'R' :: '(' :: r =>
    match r.dropWhile Char.isDigit with
    | ')' :: q => some ([Char.ofNat (decimal (r.takeWhile Char.isDigit))], q)
    | _ => none
  | _ => none

/-- Dropping blanks in front. -/
def skip : Str → Str := List.dropWhile (· == ' ')

/-- The value of a Fortran character expression made of literals, `ACHAR(n)` and `//`.
`fuel` bounds the number of operands. -/
def fCharExpr : Nat → Str → Option Str
  | 0, _ => none
  | n + 1, t =>
    match fOperand (skip t) with
    | none => none
    | some (v, r) =>
      match skip r with
      | [] => some v
      | '/' :: '/' :: q => match fCharExpr n q with | some w => some (v ++ w) | none => none
      | _ => none

/-! ## String expressions -/

/-- Concatenations of C string literals and macros that stand for string literals: what a user
builds with `CStringExpression` (c_concepts.py 199-229; anything else is refused by `append`,
271-276). -/
inductive CExpr
  | lit (x : Str)
  | mac (name : Str)
  | expr (es : List CExpr)
  deriving Repr

/-- The operands that are not concatenations. -/
inductive CAtom
  | lit (x : Str)
  | mac (name : Str)
  deriving DecidableEq, Repr

/-- The text of a part of a string expression. -/
def CAtom.text (ρ : Str → Str) : CAtom → Str
  | .lit x => x
  | .mac n => ρ n

/-- The name can be the name of a macro. -/
def IsName (n : Str) : Prop := n ≠ [] ∧ ∀ c ∈ n, (c.isAlphanum || c == '_') = true

mutual
/-- The text of a string expression, `ρ` giving the text of the macros. -/
def CExpr.text (ρ : Str → Str) : CExpr → Str
  | .lit x => x
  | .mac n => ρ n
  | .expr es => textAll ρ es
@[inherit_doc CExpr.text]
def textAll (ρ : Str → Str) : List CExpr → Str
  | [] => []
  | e :: es => e.text ρ ++ textAll ρ es
end

mutual
/-- Every macro of the expression has a valid name. -/
def CExpr.named : CExpr → Prop
  | .lit _ => True
  | .mac n => IsName n
  | .expr es => namedAll es
@[inherit_doc CExpr.named]
def namedAll : List CExpr → Prop
  | [] => True
  | e :: es => e.named ∧ namedAll es
end

/-- There are no two macros in a row. -/
def NoTwo : List CAtom → Prop
  | [] => True
  | .mac _ :: .mac _ :: _ => False
  | _ :: r => NoTwo r

/-- No two literals in a row. -/
def Apart : List CAtom → Prop
  | [] => True
  | [_] => True
  | .lit _ :: .lit _ :: _ => False
  | _ :: b :: r => Apart (b :: r)

/-! ## Output -/

/-- What `printf` writes: `%s` takes the next argument, `%%` is a per cent sign, and everything
but `%` is copied.  Any other conversion, and a missing argument, is undefined (`none`);
superfluous arguments are ignored. -/
def printf : Str → List Str → Option Str
  | [], _ => some []
  | '%' :: '%' :: r, as => (printf r as).map ('%' :: ·)
  | '%' :: 's' :: r, a :: as => (printf r as).map (a ++ ·)
  | '%' :: _, _ => none
  | c :: r, as => (printf r as).map (c :: ·)

/-- Joining with a separator, as Python's `sep.join`. -/
def joined (sep : Str) : List Str → Str
  | [] => []
  | [x] => x
  | x :: xs => x ++ sep ++ joined sep xs

/-- The arguments of `print` considered here: string literals, numbers (given by the text Python
shows for them), Booleans (literal or computed), tuples, lists and sets written in the call, and
one-dimensional arrays (given by the texts of their elements). -/
inductive Kind
  | tuple | list | set
  deriving DecidableEq, Repr

@[inherit_doc Kind]
inductive Arg
  | lit (x : Str)
  | num (shown : Str)
  | bool (literal : Bool) (b : Bool)
  | seq (k : Kind) (elems : List Arg)
  | array (elems : List Str)
  deriving Repr

/-- The text Python shows for a Boolean. -/
def showBool (b : Bool) : Str := if b then s "True" else s "False"

/-- What Python writes around the elements of a tuple, list or set. -/
def Kind.enclose : Kind → List Str → Str
  | .tuple, [x] => s "(" ++ x ++ s ",)"
  | .tuple, xs => s "(" ++ joined (s ", ") xs ++ s ")"
  | .list, xs => s "[" ++ joined (s ", ") xs ++ s "]"
  | .set, [] => s "set()"
  | .set, xs => s "{" ++ joined (s ", ") xs ++ s "}"

mutual
/-- `repr` (Python, and NumPy for arrays; strings with only ordinary characters). -/
def Arg.repr : Arg → Str
  | .lit x => s "'" ++ x ++ s "'"
  | .num x => x
  | .bool _ b => showBool b
  | .seq k es => k.enclose (reprs es)
  | .array xs => s "array([" ++ joined (s ", ") xs ++ s "])"
/-- `repr` of every element. -/
def reprs : List Arg → List Str
  | [] => []
  | a :: as => a.repr :: reprs as
end

/-- `str`. -/
def Arg.str : Arg → Str
  | .lit x => x
  | .array xs => s "[" ++ joined (s " ") xs ++ s "]"
  | a => a.repr

/-- What Python's `print(*args, sep=sep, end=fin)` writes. -/
def pyPrint (sep fin : Str) (args : List Arg) : Str := joined sep (args.map Arg.str) ++ fin

mutual
/-- How deep tuples, lists and sets are nested. -/
def Arg.depth : Arg → Nat
  | .seq _ es => depths es + 1
  | _ => 0
@[inherit_doc Arg.depth]
def depths : List Arg → Nat
  | [] => 0
  | a :: as => max a.depth (depths as)
end

/-- Elements of tuples, lists and sets that are shown as in Python: no strings (`repr` shows
quotes), no arrays, no list or set with exactly one element, no empty set.  `leaf` restricts the
Booleans. -/
inductive Inner (leaf : Arg → Prop) : Arg → Prop
  | num {x} : Inner leaf (.num x)
  | bool {l b} (h : leaf (.bool l b)) : Inner leaf (.bool l b)
  | seq {k es} (h : ∀ e ∈ es, Inner leaf e) (h1 : es.length = 1 → k = .tuple)
      (h0 : es = [] → k ≠ .set) : Inner leaf (.seq k es)

/-- Arguments that are shown as in Python; `leaf` restricts the strings and the Booleans. -/
inductive Outer (leaf : Arg → Prop) : Arg → Prop
  | lit {x} (h : leaf (.lit x)) : Outer leaf (.lit x)
  | array {xs} : Outer leaf (.array xs)
  | inner {a} (h : Inner leaf a) : Outer leaf a

/-- The argument is an array. -/
def Arg.isArray : Arg → Prop
  | .array _ => True
  | _ => False

/-- A `printf` call: its format and its arguments.  Every argument is passed as its text, with the
conversion `%s`. -/
structure Printf where
  fmt : Str
  args : List Str
  deriving Repr

/-- A Fortran `write` with format `A`/`I0`/…: the items written, and `advance`. -/
structure Write where
  items : List Str
  advance : Bool
  deriving Repr

/-- What a sequence of `printf` calls writes. -/
def run : List Printf → Option Str
  | [] => some []
  | p :: ps =>
    match printf p.fmt p.args, run ps with
    | some a, some b => some (a ++ b)
    | _, _ => none

/-- What a sequence of `write` statements writes. -/
def runF : List Write → Str
  | [] => []
  | w :: ws => w.items.flatten ++ (if w.advance then s "\n" else []) ++ runF ws

/-- Strings without per cent signs. -/
def NoPercent : Arg → Prop
  | .lit x => '%' ∉ x
  | _ => True

/-- Booleans that are literals or false. -/
def FBool : Arg → Prop
  | .bool l b => l = true ∨ b = false
  | _ => True

/-! ## Comments -/

/-- White space, as Python's `str.isspace`. -/
def isSpace (c : Char) : Bool :=
  [9, 10, 11, 12, 13, 28, 29, 30, 31, 32, 0x85, 0xa0, 0x1680, 0x2000, 0x2001, 0x2002, 0x2003,
   0x2004, 0x2005, 0x2006, 0x2007, 0x2008, 0x2009, 0x200a, 0x2028, 0x2029, 0x202f, 0x205f,
   0x3000].contains c.toNat

/-- Text without the white space in front. -/
def trimL : Str → Str := List.dropWhile isSpace

/-- Text without the white space at the end. -/
def trimR (x : Str) : Str := (x.reverse.dropWhile isSpace).reverse

/-- Reading a C comment after its `/*`: the text after the first `*/`. -/
def cComment : Str → Option Str
  | [] => none
  | '*' :: '/' :: r => some r
  | _ :: r => cComment r

/-- A Fortran source line that has no effect whatever the compiler flags: blank, or a comment that
is not a directive or conditional compilation sentinel (`!$`). -/
def fInert (l : Str) : Prop :=
  match trimL l with
  | [] => True
  | '!' :: '$' :: _ => False
  | '!' :: _ => True
  | _ => False

/-! ## Indentation -/

/-- A line without the blanks and tabs in front. -/
def lstripped : Str → Str := List.dropWhile fun c => c == ' ' || c == '\t'

/-- The characters at which Python's `splitlines` ends a line. -/
def isBreak (c : Char) : Bool :=
  [10, 11, 12, 13, 28, 29, 30, 0x85, 0x2028, 0x2029].contains c.toNat

/-- The blanks in front of a line. -/
def margin (l : Str) : Nat := (l.takeWhile (· == ' ')).length

/-- The line ends with an opening brace. -/
def opens (l : Str) : Bool :=
  match l.reverse with
  | '\n' :: '{' :: _ => true
  | _ => false

/-- The line starts with a closing brace. -/
def closes (l : Str) : Bool :=
  match lstripped l with
  | '}' :: _ => true
  | _ => false

/-- The line is blank. -/
def blank (l : Str) : Bool := lstripped l == [] || lstripped l == ['\n']

/-- How many blocks are open at the end of some lines. -/
def level (ls : List Str) : Int := (ls.countP opens : Int) - (ls.countP closes : Int)

/-- A line as Python's `splitlines(True)` gives them: there is no newline but at the end. -/
def isLine (l : Str) : Prop := '\n' ∉ l.dropLast

/-- The lines of a text, without the newlines. -/
def linesOf : Str → List Str
  | [] => [[]]
  | c :: r =>
    if c = '\n' then [] :: linesOf r
    else match linesOf r with
      | [] => [[c]]
      | l :: ls => (c :: l) :: ls

/-! ## Fortran continuation lines -/

/-- A line whose last non-blank character is `&` is continued; this is the text before the `&`. -/
def continued (l : Str) : Option Str :=
  match (trimR l).reverse with
  | '&' :: r => some r.reverse
  | _ => none

/-- A line without the directive sentinel `!$omp` or `!$acc` in front. -/
def noSentinel (l : Str) : Str :=
  match trimL l with
  | '!' :: '$' :: 'o' :: 'm' :: 'p' :: r => r
  | '!' :: '$' :: 'a' :: 'c' :: 'c' :: r => r
  | _ => l

/-- The text a continuation line contributes (F2003 3.3.1.3): if its first non-blank character
is `&`, what follows that character, and otherwise the whole line.  A directive sentinel
`!$omp` or `!$acc` in front is not part of the text. -/
def continuation (l : Str) : Str :=
  match trimL (noSentinel l) with
  | '&' :: r => r
  | _ => noSentinel l

/-- The ampersand is the only character of the line that is not white space.  There shall be no
such line (F2003 3.3.1.3). -/
def loneAmp (l : Str) : Bool := trimL (trimR l) == ['&']

/-- The text of the continuation lines of a statement: all but the last must be continued, the
last must not be. -/
def joinRest : List Str → Option Str
  | [] => none
  | [l] => if (continued l).isSome then none else some (continuation l)
  | l :: ls =>
    if loneAmp l then none
    else match continued (continuation l), joinRest ls with
      | some b, some t => some (b ++ t)
      | _, _ => none

/-- The statement that a list of source lines spells. -/
def joinLines : List Str → Option Str
  | [] => none
  | [l] => if (continued l).isSome then none else some l
  | l :: ls =>
    if loneAmp l then none
    else match continued l, joinRest ls with
      | some b, some t => some (b ++ t)
      | _, _ => none

/-- The character delimits character literals. -/
def isQuote (c : Char) : Bool := c == '"' || c == '\''

/-- The literal a reader is in after reading a character: `none` outside of literals, otherwise
the delimiter that ends the literal. -/
def nextQ : Option Char → Char → Option Char
  | none, c => if isQuote c then some c else none
  | some q, c => if c == q then none else some q

/-- The literal a reader is in after reading a text. -/
def afterQ (st : Option Char) (x : Str) : Option Char := x.foldl nextQ st

/-- Letters, digits and the characters that make up numbers and names. -/
def isWord (c : Char) : Bool :=
  c == '_' || c == '+' || c == '-' || c == '.' || c.isAlphanum

/-- Parentheses, which are lexical tokens of their own. -/
def isParen (c : Char) : Bool := c == '(' || c == ')'

/-- Two neighbouring characters that cannot belong to one lexical token: one belongs to names and
numbers and the other one does not, or one is a parenthesis. -/
def apart (a b : Char) : Bool :=
  (isWord a != isWord b) || isParen a || isParen b

/-- A text in normal form: outside of literals, white space is dropped, and a single blank is put
wherever there was white space between two characters, or where they cannot belong to one lexical
token anyway.  So two texts with the same normal form have the same tokens. -/
def norm : (st : Option Char) → (last : Option Char) → (gap : Bool) → Str → Str
  | _, _, _, [] => []
  | none, last, gap, c :: r =>
    if isSpace c then norm none last true r
    else
      (match last with
        | some d => if gap || apart d c then [' '] else []
        | none => []) ++ c :: norm (nextQ none c) (some c) false r
  | some q, _, _, c :: r => c :: norm (nextQ (some q) c) (some c) false r

/-- Outside of literals there is neither an ampersand nor an exclamation mark. -/
def clean : Option Char → Str → Prop
  | _, [] => True
  | none, c :: r => c ≠ '&' ∧ c ≠ '!' ∧ clean (nextQ none c) r
  | some q, c :: r => clean (nextQ (some q) c) r

/-- Every run of `n` characters of names and numbers, and every run of `n` other characters that
are neither white space nor parentheses, ends in a character literal. -/
def ShortRuns (n : Nat) (st : Option Char) (x : Str) : Prop :=
  ∀ a w : Str, ∀ c : Char, ∀ b : Str, x = a ++ (w ++ [c]) ++ b → w.length + 1 = n →
    ((∀ d ∈ w ++ [c], isWord d = true) ∨
      (∀ d ∈ w ++ [c], isWord d = false ∧ d ≠ ' ' ∧ d ≠ '\t' ∧ isParen d = false)) →
    afterQ st (a ++ w) ≠ none ∨ isQuote c = true

/-- The same tokens. -/
def SameTokens (x y : Str) : Prop := norm none none false x = norm none none false y

/-- A line that can be broken: a statement or a directive, indented by at most 64 characters, with
all literals closed, with neither `&` nor `!` outside of literals, and without names or numbers
that are too long for the lines. -/
inductive Wrappable : Str → Prop
  | stmt (lead : Str) (c : Char) (rest : Str) (hl : ∀ c ∈ lead, isSpace c = true)
      (h64 : lead.length ≤ 64) (hc : isWord c = true) (hcl : clean none (c :: rest))
      (hq : afterQ none (lead ++ c :: rest) = none)
      (hs : ShortRuns (66 - lead.length) none (lead ++ c :: rest)) : Wrappable (lead ++ c :: rest)
  | directive (lead tag rest : Str) (ht : tag = s "!$omp" ∨ tag = s "!$acc")
      (hl : ∀ c ∈ lead, isSpace c = true) (h64 : lead.length ≤ 64) (hcl : clean none rest)
      (hq : afterQ none rest = none)
      (hs : ShortRuns (66 - lead.length) none (lead ++ (tag ++ ' ' :: rest))) :
      Wrappable (lead ++ (tag ++ ' ' :: rest))

/-- A comment indented by at most 64 characters, or a blank line that is short enough. -/
def Inert (l : Str) : Prop :=
  fInert l ∧ ((trimL l = [] ∧ l.length ≤ 72) ∨ l.length ≤ (trimL l).length + 64)

/-- The lines `g` stand for the line `l`: they spell the same tokens, or `l` has no effect and is
kept. -/
def StandsFor (g : List Str) (l : Str) : Prop :=
  (fInert l ∧ (g = [l] ∨ g = [l ++ ['\n']])) ∨ ∃ t, joinLines g = some t ∧ SameTokens t l

/-- Two lists correspond element by element. -/
def Each {α β : Type} (R : α → β → Prop) : List α → List β → Prop
  | [], [] => True
  | a :: as, b :: bs => R a b ∧ Each R as bs
  | _, _ => False

end Verif.Text.Spec
