import Verif.Text.Spec
/-!
# Text produced by the printers

`pyccel/codegen/printing/{ccode,fcode,pycode,codeprinter}.py` and `CStringExpression` from
`pyccel/ast/c_concepts.py`.  Strings are lists of characters.
-/

namespace Verif.Text

open Verif.Text.Spec (Str s joined lstripped isBreak isSpace trimL trimR Kind Arg showBool CExpr CAtom Printf Write)

/-! ## String literals -/

/-- `str.replace(c, new)` for a single character `c`. -/
def replace (c : Char) (new : Str) (x : Str) : Str := x.flatMap fun d => if d = c then new else [d]

/-- The chain of replacements of `CCodePrinter._print_LiteralString`, ccode.py 1624-1635. -/
def cEscaped (x : Str) : Str :=
  replace '\'' ['\\', '\''] <|
  replace '"' ['\\', '"'] <|
  replace (Char.ofNat 11) ['\\', 'v'] <|
  replace '\t' ['\\', 't'] <|
  replace '\r' ['\\', 'r'] <|
  replace '\n' ['\\', 'n'] <|
  replace (Char.ofNat 12) ['\\', 'f'] <|
  replace (Char.ofNat 8) ['\\', 'b'] <|
  replace (Char.ofNat 7) ['\\', 'a'] <|
  replace '\\' ['\\', '\\'] x

/-- `CCodePrinter._print_LiteralString`, ccode.py 1622-1636. -/
def cLiteral (x : Str) : Str := s "cstr_lit(\"" ++ cEscaped x ++ s "\")"

/-- `CCodePrinter._print_CStrStr` of a literal string, ccode.py 4122-4128: `&cstr_lit(` and the
closing parenthesis are cut off. -/
def cStrStr (x : Str) : Str := ((s "&" ++ cLiteral x).drop 10).dropLast

/-- `sp_chars` of `FCodePrinter._print_LiteralString`, fcode.py 2779. -/
def spChars : List Char :=
  [Char.ofNat 7, Char.ofNat 8, Char.ofNat 12, '\r', '\t', Char.ofNat 11, '\'', '\n']

/-- The flush of `sub_str`, fcode.py 2784-2786 and 2790-2791. -/
def flushed (sub : Str) : List Str := if sub = [] then [] else [s "'" ++ sub ++ s "'"]

/-- The loop of `FCodePrinter._print_LiteralString`, fcode.py 2780-2791, with the current
`sub_str`. -/
def fPieces : Str → Str → List Str
  | sub, [] => flushed sub
  | sub, c :: r =>
    if c ∈ spChars then
      flushed sub ++ (s "ACHAR(" ++ (toString c.toNat).toList ++ s ")") :: fPieces [] r
    else fPieces (sub ++ [c]) r

/-- `FCodePrinter._print_LiteralString`, fcode.py 2776-2792. -/
def fLiteral (x : Str) : Str :=
  if x = [] then s "''" else joined (s " // ") (fPieces [] x)

/-! ## C string expressions -/

/-- The list merged by lines 330-336 of `get_flat_expression_list`: consecutive literals are put
together.  The first argument is `result[-1]`. -/
def mergeLits : CAtom → List CAtom → List CAtom
  | last, [] => [last]
  | .lit x, .lit y :: r => mergeLits (.lit (x ++ y)) r
  | last, a :: r => last :: mergeLits a r

/-- Lines 328-336 of `get_flat_expression_list`. -/
def merged : List CAtom → List CAtom
  | [] => []
  | a :: r => mergeLits a r

mutual
/-- `CStringExpression.get_flat_expression_list`, c_concepts.py 317-336 (an operand that is not an
expression is kept as it is). -/
def flatOne : CExpr → List CAtom
  | .lit x => [.lit x]
  | .mac n => [.mac n]
  | .expr es => merged (flatAll es)
/-- Lines 322-327: the operands one after the other. -/
def flatAll : List CExpr → List CAtom
  | [] => []
  | e :: es => flatOne e ++ flatAll es
end

/-- `CStringExpression.__add__`, c_concepts.py 236-251. -/
def _root_.Verif.Text.Spec.CExpr.add : CExpr → CExpr → CExpr
  | .expr es, o => .expr (es ++ [o])
  | e, o => .expr [e, o]

/-- `CStringExpression.append` / `__iadd__`, c_concepts.py 258-278. -/
def _root_.Verif.Text.Spec.CExpr.append : CExpr → CExpr → CExpr
  | .expr es, o => .expr (es ++ [o])
  | e, _ => e

/-- `CStringExpression.join`, c_concepts.py 280-315. -/
def _root_.Verif.Text.Spec.CExpr.join (sep : CExpr) : List CExpr → CExpr
  | [] => .expr []
  | x :: xs => xs.foldl (fun r e => (r.append sep).append e) ((CExpr.expr []).append x)

/-- `_print_CStringExpression` and `_print_CMacro`, ccode.py 1706-1710. -/
def cAtom : CAtom → Str
  | .lit x => cStrStr x
  | .mac n => n

@[inherit_doc cAtom]
def printExpr (e : CExpr) : Str := (flatOne e).flatMap cAtom

/-! ## `print`

Macros have been expanded, and every number is passed as its text with the conversion `%s` (a
simplification: the conversions of `get_print_format_and_arg`, ccode.py 1638-1704, are not
modelled). -/

/-- `formatted_args_to_printf`, ccode.py 1736-1744 (output to stdout). -/
def toPrintf (sep : Str) (fmts : List Str) (vals : List Str) (fin : Str) : Printf :=
  ⟨joined sep fmts ++ fin, vals⟩

/-- `if args_format: code += formatted_args_to_printf(args_format, args, sep)`, ccode.py
1774-1777 and 1812-1815. -/
def cFlush (sep : Str) (fmts vals : List Str) (fin : Str) : List Printf :=
  if fmts = [] then [] else [toPrintf sep fmts vals fin]

/-- `tuple_tags`, `list_tags`, `set_tags`, ccode.py 1750-1761, fcode.py 1093-1104. -/
def tags : Kind → Str × Str
  | .tuple => (s "(", s ")")
  | .list => (s "[", s "]")
  | .set => (s "{", s "}")

/-- `[… for elem in f for print_arg in (elem, container_sep)][:-1]` and the comma after a single
element, ccode.py 1778-1784, fcode.py 1127-1133. -/
def spread (es : List Arg) : List Arg :=
  (es.flatMap fun e => [e, .lit (s ", ")]).dropLast ++
    (if es.length = 1 then [.lit (s ",")] else [])

/-- The statements for an array argument, ccode.py 1816-1852, run on an array with the given
elements: `[`, every element but the last one followed by a blank, the last one, `]`.
`fin` is what follows the bracket. -/
def cArray (xs : List Str) (fin : Str) : List Printf :=
  ⟨s "[", []⟩ :: xs.dropLast.map (fun x => ⟨s "%s ", [x]⟩) ++
    (match xs.getLast? with | some x => [⟨s "%s", [x]⟩] | none => []) ++ [⟨s "]" ++ fin, []⟩]

/-- The loop of `CCodePrinter._print_PythonPrint` over the arguments, ccode.py 1763-1862, with the
pending `args_format` and `args`.  `self._print(PythonPrint(…))` is `inner`. -/
def cLoop (inner : List Arg → Str → Str → List Printf) (sep fin : Str) :
    List Arg → List Str → List Str → List Printf
  | [], fmts, vals => cFlush sep fmts vals fin
  | .seq k es :: r, fmts, vals =>
    cFlush sep fmts vals sep ++
      inner (.lit (tags k).1 :: spread es ++ [.lit (tags k).2]) [] (if r = [] then fin else sep) ++
      cLoop inner sep fin r [] []
  | .array xs :: r, fmts, vals =>
    cFlush sep fmts vals sep ++ cArray xs (if r = [] then fin else []) ++ cLoop inner sep fin r [] []
  | .lit x :: r, fmts, vals => cLoop inner sep fin r (fmts ++ [x]) vals
  | .num x :: r, fmts, vals => cLoop inner sep fin r (fmts ++ [s "%s"]) (vals ++ [x])
  | .bool _ b :: r, fmts, vals =>
    cLoop inner sep fin r (fmts ++ [s "%s"]) (vals ++ [showBool b])

/-- `CCodePrinter._print_PythonPrint`, ccode.py 1712-1863, for calls nested at most `n` deep. -/
def cPrint : Nat → List Arg → Str → Str → List Printf
  | 0, _, _, _ => []
  | n + 1, args, sep, fin =>
    if args = [] then [toPrintf sep [] [] fin] else cLoop (cPrint n) sep fin args [] []

/-- `_formatted_args_to_print`, fcode.py 1201-1254. -/
def toWrite (sep : Str) (vals : List Str) (fin : Str) : Write :=
  ⟨(vals.flatMap fun v => [v, sep]).dropLast ++ (if fin = s "\n" then [] else [fin]), fin = s "\n"⟩

@[inherit_doc cFlush]
def fFlush (sep : Str) (vals : List Str) (fin : Str) : List Write :=
  if vals = [] then [] else [toWrite sep vals fin]

/-- The text written for a Boolean: `'True'`/`'False'` for literals and
`merge("True ", "False", x)` otherwise, fcode.py 1316-1323. -/
def fBool : Bool → Bool → Str
  | true, b => showBool b
  | false, b => if b then s "True " else s "False"

/-- The statements for an array argument, fcode.py 1155-1193. -/
def fArray (xs : List Str) : List Write :=
  toWrite (s " ") [s "["] [] :: xs.dropLast.map (fun x => toWrite (s " ") [x] (s " ")) ++
    (match xs.getLast? with | some x => [toWrite (s " ") [x] []] | none => []) ++
    [toWrite (s " ") [] (s "]")]

/-- The loop of `FCodePrinter._print_PythonPrint`, fcode.py 1106-1198. -/
def fLoop (inner : List Arg → Str → Str → List Write) (sep fin : Str) :
    List Arg → List Str → List Write
  | [], vals => [toWrite sep vals fin]
  | .seq k es :: r, vals =>
    fFlush sep vals sep ++
      inner (.lit (tags k).1 :: spread es ++ [.lit (tags k).2]) [] (if r = [] then [] else sep) ++
      fLoop inner sep fin r []
  | .array xs :: r, vals => fFlush sep vals sep ++ fArray xs ++ fLoop inner sep fin r []
  | .lit x :: r, vals => fLoop inner sep fin r (vals ++ [x])
  | .num x :: r, vals => fLoop inner sep fin r (vals ++ [x])
  | .bool l b :: r, vals => fLoop inner sep fin r (vals ++ [fBool l b])

/-- `FCodePrinter._print_PythonPrint`, fcode.py 1069-1199, for calls nested at most `n` deep.  The
items of a `write` are the values of the printed expressions (C47 is about the literals). -/
def fPrint : Nat → List Arg → Str → Str → List Write
  | 0, _, _, _ => []
  | n + 1, args, sep, fin => fLoop (fPrint n) sep fin args []

/-! ## Comments -/

/-- `_treat_comment_line`, syntactic.py 313-359, for a line that is not a directive: the text of
the comment; `none` for directives. -/
def commentText (line : Str) : Option Str :=
  let txt := trimL (line.drop 1)
  if txt.head? = some '$' then none else some txt

/-- `CCodePrinter._print_Comment`, ccode.py 3710-3713. -/
def cCommentLine (txt : Str) : Str := s "/*" ++ txt ++ s "*/\n"

/-- `FCodePrinter._print_Comment`, fcode.py 1338-1340. -/
def fCommentLine (txt : Str) : Str := s "!" ++ txt ++ s "\n"

/-- A line of a docstring in `FCodePrinter._print_CommentBlock`, fcode.py 1360, `ln` being the
width of the box. -/
def fDocLine (ln : Nat) (txt : Str) : Str :=
  s "!" ++ txt ++ List.replicate (ln - txt.length) ' ' ++ s "!"

/-- A line of a docstring in `CCodePrinter._print_CommentBlock`, ccode.py 3748. -/
def cDocLine (ln : Nat) (txt : Str) : Str :=
  s "/*" ++ txt ++ List.replicate (ln - txt.length) ' ' ++ s "*/\n"

/-! ## Indentation -/

/-- `str.splitlines(True)`: the pending line and the rest of the text.  A carriage return followed
by a newline is one line end. -/
def splitLines : Str → Str → List Str
  | [], [] => []
  | cur, [] => [cur]
  | cur, '\r' :: '\n' :: r => (cur ++ ['\r', '\n']) :: splitLines [] r
  | cur, c :: r => if isBreak c then (cur ++ [c]) :: splitLines [] r else splitLines (cur ++ [c]) r

/-- `" " * n` for a possibly negative number. -/
def blanks (n : Int) : Str := List.replicate n.toNat ' '

/-- The loop of `indent_code`, ccode.py 4172-4184 and fcode.py 4518-4532: the lines that are left
alone, the width of a tabulation, the lines that increase and decrease the level. -/
def indentLoop (alone inc dec : Str → Bool) (tab : Nat) : Int → List Str → List Str
  | _, [] => []
  | level, l :: ls =>
    if alone l then l :: indentLoop alone inc dec tab level ls
    else
      let lv := level - (dec l).toNat
      (blanks (lv * tab) ++ l) :: indentLoop alone inc dec tab (lv + (inc l).toNat) ls

/-- `line == "" or line == "\n"`, ccode.py 4178. -/
def cAlone (l : Str) : Bool := l = [] ∨ l = ['\n']

/-- `line.endswith("{\n")`, ccode.py 4172. -/
def cInc (l : Str) : Bool := ['{', '\n'].isSuffixOf l

/-- `any(map(line.startswith, "}\n"))`, ccode.py 4173. -/
def cDec (l : Str) : Bool := l.head? = some '}' ∨ l.head? = some '\n'

/-- `CCodePrinter.indent_code` of a list of lines, ccode.py 4168-4185. -/
def cIndent (ls : List Str) : List Str := indentLoop cAlone cInc cDec 4 0 (ls.map lstripped)

/-- `line in ("", "\n") or line.startswith("#")`, fcode.py 4522. -/
def fAlone (l : Str) : Bool := l = [] ∨ l = ['\n'] ∨ l.head? = some '#'

/-- `FCodePrinter.indent_code` of a list of lines, fcode.py 4513-4534.  The regular expressions
`inc_regex` and `dec_regex` (fcode.py 298-323) are parameters: nothing proved depends on them. -/
def fIndent (inc dec : Str → Bool) (ls : List Str) : List Str :=
  indentLoop fAlone inc dec 2 0 (ls.map lstripped)

/-- `doprint`, codeprinter.py 65-68, for C: the text is split into lines, indented and put together
again. -/
def cFormat (text : Str) : Str := (cIndent (splitLines [] text)).flatten

/-- `x.strip("\n")`. -/
def stripNl (x : Str) : Str := ((x.dropWhile (· == '\n')).reverse.dropWhile (· == '\n')).reverse

/-- `PythonCodePrinter._indent_codestring`, pycode.py 153-159, with four blanks. -/
def pyIndent (x : Str) : Str :=
  if x = [] then x
  else s "    " ++ replace '\n' (s "\n    ") (stripNl x) ++ s "\n"

/-! ## Long Fortran lines -/

/-- How a run ends: with a result, with an exception, or not within the given number of steps. -/
inductive Run (α : Type)
  | ok (a : α)
  | error
  | running
  deriving DecidableEq, Repr

/-- `my_alnum`, fcode.py 4391. -/
def myAlnum (c : Char) : Bool := "_+-.".toList.contains c || c.isDigit || c.isAlpha

/-- `my_white`, fcode.py 4392. -/
def myWhite (c : Char) : Bool := " \t()".toList.contains c

/-- `x[i]` with Python's negative indices; `none` is an `IndexError`. -/
def pyGet (x : Str) (i : Int) : Option Char :=
  if 0 ≤ i then x[i.toNat]? else if -i ≤ x.length then x[(x.length + i).toNat]? else none

/-- `x[:i]`. -/
def pyTake (x : Str) (i : Int) : Str := if 0 ≤ i then x.take i.toNat else x.take (x.length + i).toNat

/-- `x[i:]`. -/
def pyDrop (x : Str) (i : Int) : Str := if 0 ≤ i then x.drop i.toNat else x.drop (x.length + i).toNat

/-- The test of the lambda `split`, fcode.py 4398-4403, on `line[pos]` and `line[pos - 1]`. -/
def boundary (a b : Char) : Bool :=
  (myAlnum a && !myAlnum b) || (!myAlnum a && myAlnum b) || (myWhite a && !myWhite b) ||
    (!myWhite a && myWhite b)

/-- The loop `while not split(pos)`, fcode.py 4404-4408. -/
def scan (x : Str) (endpos : Int) : Nat → Int → Run Int
  | 0, _ => .running
  | n + 1, pos =>
    match pyGet x pos, pyGet x (pos - 1) with
    | some a, some b =>
      if boundary a b then .ok pos
      else if pos - 1 = 0 then .ok endpos else scan x endpos n (pos - 1)
    | _, _ => .error

/-- `split_pos_code`, fcode.py 4394-4408. -/
def splitPos (x : Str) (endpos : Int) : Run Int :=
  if (x.length : Int) ≤ endpos then .ok x.length
  else scan x endpos (endpos + x.length + 2).toNat endpos

/-- The positions matched by `("[^"]*")|('[^']*')`, fcode.py 4426-4433: a quote opens an
interval if it occurs again later on, and the interval ends with that occurrence.  The first
argument is the delimiter of the current interval. -/
def quoteMask : Option Char → Str → List Bool
  | _, [] => []
  | none, c :: r =>
    if Spec.isQuote c && r.contains c then true :: quoteMask (some c) r
    else false :: quoteMask none r
  | some q, c :: r => true :: quoteMask (if c == q then none else some q) r

/-- `pos in inside_quotes_positions`. -/
def inQuotes (mask : List Bool) (pos : Int) : Bool := 0 ≤ pos && mask[pos.toNat]?.getD false

/-- Lines 4442-4452 and 4462-4473: the hunk, and the rest of the line. -/
def cutAt (inside : Bool) (x : Str) (pos : Int) : Str × Str :=
  let r := if inside then pyDrop x pos else trimL (pyDrop x pos)
  let h := if inside then pyTake x pos else trimR (pyTake x pos)
  (if r = [] then h else h ++ (if inside then s "&" else s " &"), r)

/-- The beginning of a continuation line, fcode.py 4475-4482. -/
def hunkStart (tab : Nat) (lastInside omp acc : Bool) : Str :=
  List.replicate tab ' ' ++
    (if lastInside then s "&" else if omp then s "!$omp &" else if acc then s "!$acc &"
     else s "      ")

/-- The loop `while len(line) > 0`, fcode.py 4456-4487. -/
def wrapRest (mask : List Bool) (total tab : Nat) (omp acc : Bool) :
    Nat → Bool → Str → Run (List Str)
  | 0, _, _ => .running
  | n + 1, lastInside, x =>
    if x = [] then .ok []
    else
      match splitPos x (65 - tab) with
      | .error => .error
      | .running => .running
      | .ok pos =>
        let inside := inQuotes mask (pos + (total - x.length))
        let (hunk, r) := cutAt inside x pos
        match wrapRest mask total tab omp acc n inside r with
        | .error => .error
        | .running => .running
        | .ok ls => .ok ((hunkStart tab lastInside omp acc ++ hunk) :: ls)

/-- `cline.startswith("!") and not cline.startswith("!$")`, fcode.py 4420. -/
def isComment (cline : Str) : Bool := (s "!").isPrefixOf cline && !(s "!$").isPrefixOf cline

/-- The body of the loop over the lines, fcode.py 4417-4489, with at most `n` continuation
lines.  `line.index(cline[0])` is the number of characters `lstrip` removed. -/
def wrapLine (n : Nat) (line : Str) : Run (List Str) :=
  if line.length ≤ 72 then .ok [line]
  else
    let cline := trimL (line.take 72)
    if isComment cline then .ok [line]
    else if cline = [] then .error
    else
      let tab := 72 - cline.length
      let mask := quoteMask none line
      match splitPos line 72 with
      | .error => .error
      | .running => .running
      | .ok pos =>
        let omp := (s "!$omp").isPrefixOf cline
        let acc := (s "!$acc").isPrefixOf cline
        if (omp || acc) && pos < 5 then .error
        else
          let inside := inQuotes mask pos
          let (hunk, r) := cutAt inside line pos
          match wrapRest mask line.length tab omp acc n inside r with
          | .error => .error
          | .running => .running
          | .ok ls => .ok (hunk :: ls)

/-- `l if l.endswith("\n") else l + "\n"`, fcode.py 4490. -/
def endNl (l : Str) : Str := if ['\n'].isSuffixOf l then l else l ++ ['\n']

/-- `_wrap_fortran`, fcode.py 4373-4490, with at most `n` continuation lines for each line. -/
def wrap (n : Nat) : List Str → Run (List Str)
  | [] => .ok []
  | l :: ls =>
    match wrapLine n l, wrap n ls with
    | .ok a, .ok b => .ok (a.map endNl ++ b)
    | .running, _ => .running
    | .error, _ => .error
    | .ok _, .running => .running
    | .ok _, .error => .error

end Verif.Text
