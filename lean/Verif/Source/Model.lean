import Verif.Source.Spec

/-!
# The text and the names of a function given to epyccel: model
-/

namespace Verif.Source.Model
open Verif.Source.Spec

/-- `str.isspace` for one character: /repo/pyccel/commands/epyccel.py:74 (`lstrip`), for the
ASCII white space of a source file. -/
def ws (c : Char) : Bool := c == ' ' || c == '\t' || c == '\n' || c == '\r'

/-- A character of `[a-zA-Z0-9_]`: /repo/pyccel/commands/epyccel.py:93. -/
def word (c : Char) : Bool :=
  ('a' ≤ c && c ≤ 'z') || ('A' ≤ c && c ≤ 'Z') || ('0' ≤ c && c ≤ '9') || c == '_'

/-- `len(l) - len(l.lstrip())`: /repo/pyccel/commands/epyccel.py:74, 121. -/
def leading (l : Line) : Nat := l.length - (l.dropWhile ws).length

/-- Removal of the indentation of the first line:
/repo/pyccel/commands/epyccel.py:72-75. -/
def unindent : List Line → List Line
  | [] => []
  | l :: t => (l :: t).map fun x => x.drop (leading l)

/-- The text before the last `#`, if there is one (`rfind`): /repo/pyccel/commands/epyccel.py:80. -/
def beforeLastHash : Line → Option Line
  | [] => none
  | c :: t =>
    match beforeLastHash t with
    | some r => some (c :: r)
    | none => if c = '#' then some [] else none

/-- `l[:comment]`; the index is -1 when there is no `#`, and the last character is cut:
/repo/pyccel/commands/epyccel.py:80-83. -/
def cut (l : Line) : Line := (beforeLastHash l).getD l.dropLast

/-- The line without its comment: /repo/pyccel/commands/epyccel.py:79-84.  Both halves of the
test count single quotes. -/
def commentless (l : Line) : Line :=
  if (cut l).count '\'' % 2 = 0 then cut l ++ ['\n'] else l

/-- `l.strip().endswith(":")`: /repo/pyccel/commands/epyccel.py:127. -/
def endsColon (l : Line) : Bool := (l.reverse.dropWhile ws).head? == some ':'

/-- The part of the regular expression after `def`: /repo/pyccel/commands/epyccel.py:93. -/
def afterDef (l : Line) : Option Name :=
  let r := l.dropWhile ws
  let n := r.takeWhile word
  if l.takeWhile ws ≠ [] ∧ n ≠ [] ∧ ((r.dropWhile word).dropWhile ws).head? = some '(' then some n
  else none

/-- `re.match(^\s*def\s+([a-zA-Z0-9_]+)\s*\()`: /repo/pyccel/commands/epyccel.py:93-94.  The
character sets are disjoint, so that the longest match is the only one. -/
def protoName (l : Line) : Option Name :=
  match l.dropWhile ws with
  | 'd' :: 'e' :: 'f' :: r => afterDef r
  | _ => none

/-- `prototypes[name]`: the last line that matches, the dictionary keeps the last index:
/repo/pyccel/commands/epyccel.py:95. -/
def lastDef (n : Name) : List Line → Nat → Option Nat → Option Nat
  | [], _, acc => acc
  | l :: t, i, acc => lastDef n t (i + 1) (if protoName l = some n then some i else acc)

/-- The last line of a header (`next(…)`, which raises `StopIteration` when there is none):
/repo/pyccel/commands/epyccel.py:124-128. -/
def endOf (cl : List Line) (i : Nat) : Option Nat :=
  ((cl.drop i).findIdx? endsColon).map (· + i)

/-- The new header of a method: /repo/pyccel/commands/epyccel.py:121, 132.  The replacement of
type variables in the signature (lines 134-156) is not modelled. -/
def prototype (old : Line) (n : Name) (sig : List Char) : Line :=
  List.replicate (leading old) ' ' ++ chars! "def " ++ n ++ sig ++ chars! ":\n"

/-- Replacement of the header of one method: /repo/pyccel/commands/epyccel.py:118-130, 159. -/
def rewrite (cl : List Line) (m : Name × List Char) (i : Nat) (lines : List Line) :
    Option (List Line) :=
  (endOf cl i).map fun e =>
    (if i < e then lines.take (i + 1) ++ lines.drop (e + 1) else lines).set i
      (prototype ((lines[i]?).getD []) m.1 m.2)

/-- The loop over the methods from the last to the first: /repo/pyccel/commands/epyccel.py:105-159.
The methods sorted by descending index are visited by counting the index down. -/
def loop (cl L : List Line) (ms : List (Name × List Char)) : Nat → List Line → Option (List Line)
  | 0, lines => some lines
  | i + 1, lines =>
    match ms.find? fun m => lastDef m.1 L 0 none == some i with
    | none => loop cl L ms i lines
    | some m => (rewrite cl m i lines).bind (loop cl L ms i)

/-- The lines returned by `get_source_code_and_context` (before they are joined), `none` when
an exception is raised: /repo/pyccel/commands/epyccel.py:65-161.  A method without a line of
its own raises `KeyError` in the sort (line 107). -/
def sourceText (raw : List Line) (ms : List (Name × List Char)) : Option (List Line) :=
  let L := unindent raw
  if ms.any fun m => (lastDef m.1 L 0 none).isNone then none
  else loop (L.map commentless) L ms L.length L

/-! ## Names -/

/-- The names of `builtin_functions_dict`: /repo/pyccel/ast/builtins.py:1884-1907. -/
def builtinNames : List Name :=
  [chars! "abs", chars! "bool", chars! "complex", chars! "dict", chars! "enumerate",
   chars! "float", chars! "int", chars! "isinstance", chars! "len", chars! "list", chars! "map",
   chars! "max", chars! "min", chars! "not", chars! "range", chars! "round", chars! "set",
   chars! "str", chars! "sum", chars! "tuple", chars! "type", chars! "zip"]

/-- The context of a translation: the module of the function given to epyccel, updated with
what is around it: /repo/pyccel/commands/epyccel.py:101-112. -/
def context (w : World) (root : Nat) (n : Name) : Option Obj :=
  match w.cells root n with
  | some o => some o
  | none => w.globals root n

/-- The function called by the name `n`, in the function given to epyccel or in a function that
it calls: /repo/pyccel/parser/semantic.py:4801-4807, 4970-5000 and
/repo/pyccel/parser/syntactic.py:1336-1350 (functions of the context are parsed and kept in
the one context).  Functions of the file itself are not modelled: the file contains only the
function given to epyccel.  `known` are the modules that pyccel recognises; the name used in
the call is imported from the module. -/
def pyccelFind (w : World) (known : List Name) (root : Nat) (n : Name) : Option Obj :=
  if n ∈ builtinNames then some (.builtin n)
  else
    match context w root n with
    | none => none
    | some (.user f) => some (.user f)
    | some (.builtin k) => if k ∈ builtinNames then some (.builtin k) else none
    | some (.library k m) =>
      if k ∈ builtinNames then some (.builtin k)
      else if m ∈ known then some (.library n m) else none

/-- The functions of the user that are translated: /repo/pyccel/parser/syntactic.py:1336-1350. -/
inductive Translated (w : World) (known : List Name) (root : Nat) : Nat → Prop where
  | self : Translated w known root root
  | call {g h : Nat} {n : Name} : Translated w known root g → n ∈ w.calls g →
      pyccelFind w known root n = some (.user h) → Translated w known root h

end Verif.Source.Model
