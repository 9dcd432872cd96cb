/-!
# Comments and annotations: what a user relies on

Annotations (`#$ omp ...`, `#$ header ...`) are comments for Python, which drops them.  pyccel puts them
back into the tree of the program.  A program is a tree of statements and comments; those that stand in
one block have the same column.
-/

namespace Verif.Comments.Spec

/-- A comment that stands on its own line (or several such comments in consecutive lines with the same
column: their first line). -/
structure Com where
  line : Nat
  col : Nat
  deriving DecidableEq, Repr

/-- A statement without a block, a statement with a block (and, after `else` or `elif`, another), or a
comment.  As in Python's `ast`, `elif` is an `else` with one `if`. -/
inductive Node
  | leaf (line col : Nat)
  | block (line col : Nat) (isIf : Bool) (body orelse : List Node)
  | com (c : Com)
  deriving Repr

mutual
/-- What Python's parser keeps. -/
def strip : Node → List Node
  | .leaf l c => [.leaf l c]
  | .block l c i b e => [.block l c i (stripAll b) (stripAll e)]
  | .com _ => []

def stripAll : List Node → List Node
  | [] => []
  | n :: r => strip n ++ stripAll r
end

mutual
/-- The comments, in the order of the file. -/
def coms : Node → List Com
  | .leaf _ _ => []
  | .block _ _ _ b e => comsAll b ++ comsAll e
  | .com c => [c]

def comsAll : List Node → List Com
  | [] => []
  | n :: r => coms n ++ comsAll r
end

mutual
/-- The lines on which statements and comments begin, in the order of the tree. -/
def lines : Node → List Nat
  | .leaf l _ => [l]
  | .block l _ _ b e => l :: (linesAll b ++ linesAll e)
  | .com c => [c.line]

def linesAll : List Node → List Nat
  | [] => []
  | n :: r => lines n ++ linesAll r
end

/-- Comments that stand directly in the block. -/
def isCom : Node → Bool
  | .com _ => true
  | _ => false

/-- An `if`. -/
def isIf : Node → Bool
  | .block _ _ i _ _ => i
  | _ => false

def line : Node → Nat
  | .leaf l _ => l
  | .block l _ _ _ _ => l
  | .com c => c.line

/-- The first statement of a block. -/
def firstStmt (l : List Node) : Option Node := l.find? fun n => !isCom n

/-- The line `L` of the `else` between two blocks: no other `else` stands between `L` and the first
statement of the second block. -/
def ElseLine (els : List Nat) (b e : List Node) (L : Nat) : Prop :=
  L ∈ els ∧ (∀ x ∈ linesAll b, x < L) ∧ (∀ x ∈ linesAll e, L < x) ∧
    ∀ s, firstStmt e = some s → ∀ L' ∈ els, L' ≤ line s → L' ≤ L

mutual
/-- Formatting: what stands in a block has one column, which is larger than that of the statement with
the block (but equal for `elif`); `els` are the lines with `else:`. -/
def formatted (els : List Nat) (c : Nat) : Node → Prop
  | .leaf _ k => k = c
  | .com x => x.col = c
  | .block _ k _ b e =>
    k = c ∧ (∃ c', c < c' ∧ formattedAll els c' b) ∧ firstStmt b ≠ none ∧
    (e = [] ∨
     ((∃ n, e = [n] ∧ isIf n = true) ∧ formattedAll els c e) ∨
     ((∃ c', c < c' ∧ formattedAll els c' e) ∧ firstStmt e ≠ none ∧ ∃ L, ElseLine els b e L))

def formattedAll (els : List Nat) (c : Nat) : List Node → Prop
  | [] => True
  | n :: r => formatted els c n ∧ formattedAll els c r
end

mutual
/-- No `else` and no `elif`. -/
def noElse : Node → Prop
  | .leaf _ _ => True
  | .com _ => True
  | .block _ _ _ b e => noElseAll b ∧ e = []

def noElseAll : List Node → Prop
  | [] => True
  | n :: r => noElse n ∧ noElseAll r
end

mutual
/-- Comments near `else` that are put back rightly: if the second block begins with `if`, no comment
stands directly in it; if it is not a single `if`, and there are comments in the first block, there are
comments in the second. -/
def careful : Node → Prop
  | .leaf _ _ => True
  | .com _ => True
  | .block _ _ _ b e =>
    carefulAll b ∧ carefulAll e ∧
    ((∃ s, firstStmt e = some s ∧ isIf s = true) → ∀ n ∈ e, isCom n = false) ∧
    ((∀ n, e = [n] → isIf n = false) → e ≠ [] → comsAll b = [] ∨ comsAll e ≠ [])

/-- And if there are comments in a statement with `else` or `elif`, the next comment (if any) in the
same block stands directly in the block. -/
def carefulAll : List Node → Prop
  | [] => True
  | n :: r =>
    careful n ∧ carefulAll r ∧
    (match n with
     | .block _ c _ b e => e ≠ [] → comsAll b ++ comsAll e ≠ [] → ∀ x, (comsAll r).head? = some x → x.col = c
     | _ => True)
end

/-! ## Comments in the text -/

/-- Where a line begins: in code, in a string with triple quotes, in a string with single quotes that
goes on after a backslash. -/
inductive Lex
  | code
  | tri (q : Char)
  | one (q : Char)
  deriving DecidableEq, Repr

/-- From the beginning of a line to its end: Python's lexical analysis of strings and comments (without
the nested quotes of f-strings). -/
def scan : Lex → List Char → Lex
  | .code, [] => .code
  | .tri q, [] => .tri q
  | .one _, [] => .code
  | .code, a :: r =>
    if a = '#' then .code
    else if a = '"' ∨ a = '\'' then
      if r.take 2 = [a, a] then scan (.tri a) (r.drop 2) else scan (.one a) r
    else scan .code r
  | .tri q, a :: r =>
    if a = '\\' then scan (.tri q) (r.drop 1)
    else if a = q ∧ r.take 2 = [q, q] then scan .code (r.drop 2) else scan (.tri q) r
  | .one q, a :: r =>
    if a = '\\' then if r = [] then .one q else scan (.one q) (r.drop 1)
    else if a = q then scan .code r else scan (.one q) r
termination_by _ l => l.length
decreasing_by all_goals simp <;> omega

/-- The lines with the state in which they begin. -/
def starts : Lex → List (List Char) → List (Lex × List Char)
  | _, [] => []
  | x, l :: r => (x, l) :: starts (scan x l) r

/-- The column of the first character that is not blank, if this is `#`. -/
def hashAt : List Char → Option Nat
  | [] => none
  | c :: r => if c = '#' then some 0 else if c.isWhitespace then (hashAt r).map (· + 1) else none

/-- The comments that stand alone on their lines, numbered from `i`. -/
def comments : Nat → List (Lex × List Char) → List Com
  | _, [] => []
  | i, (x, l) :: r =>
    match x, hashAt l with
    | .code, some k => ⟨i, k⟩ :: comments (i + 1) r
    | _, _ => comments (i + 1) r

end Verif.Comments.Spec
