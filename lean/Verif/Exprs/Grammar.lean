/-
Specification for C19–C21: expression grammars of the target languages.

A grammar is given, as in the language references, by levels of nonterminals: an expression of
level `n` is an expression of a higher level, or an operator of level `n` applied to operands of
prescribed levels.  `Deriv L n t` says that the concrete syntax tree `t` (which keeps its
parentheses) is a derivation tree for the nonterminal of level `n`, and `flatten t` is the token
sequence it derives.
-/
namespace Verif.Exprs

/-- Atoms of a text: variables, and the literal `0`. -/
inductive Atom | var (n : Nat) | zero
deriving DecidableEq, Repr

/-- Tokens of a text over the operator symbols `S` and function names `F`.  `q1`, `q2` are the two
separators of a conditional expression: `if`/`else` in Python, `?`/`:` in C. -/
inductive Tok (S F : Type)
  | atom (a : Atom) | lp | rp | fn (f : F) | sym (s : S) | q1 | q2
deriving DecidableEq, Repr

/-- Concrete syntax trees. -/
inductive CST (S F : Type)
  | atom (a : Atom)
  | paren (t : CST S F)
  | call (f : F) (args : CST S F)
  | un (s : S) (t : CST S F)
  | bin (s : S) (a b : CST S F)
  | tern (a b c : CST S F)
deriving DecidableEq, Repr

/-- The text of a concrete syntax tree. -/
def CST.flatten {S F : Type} : CST S F → List (Tok S F)
  | .atom a => [.atom a]
  | .paren t => .lp :: (t.flatten ++ [.rp])
  | .call f t => .fn f :: .lp :: (t.flatten ++ [.rp])
  | .un s t => .sym s :: t.flatten
  | .bin s a b => a.flatten ++ .sym s :: b.flatten
  | .tern a b c => a.flatten ++ .q1 :: (b.flatten ++ .q2 :: c.flatten)

/-- Removing the parentheses: the abstract syntax tree. -/
def CST.strip {S F : Type} : CST S F → CST S F
  | .atom a => .atom a
  | .paren t => t.strip
  | .call f t => .call f t.strip
  | .un s t => .un s t.strip
  | .bin s a b => .bin s a.strip b.strip
  | .tern a b c => .tern a.strip b.strip c.strip

/-- A binary operator: the level of the expression it forms and the levels of its operands. -/
structure BinRule where
  lev : Nat
  left : Nat
  right : Nat

/-- A prefix operator: the level of the expression it forms and the level of its operand. -/
structure PreRule where
  lev : Nat
  arg : Nat

/-- Left-associative operators of level `n`: `n → n op (n+1)`. -/
def leftAssoc (n : Nat) : Option BinRule := some ⟨n, n, n + 1⟩

/-- The expression grammar of a language.  A conditional expression `a q1 b q2 c` forms an
expression of level 3 from operands of level 4, `mid` and 3. -/
structure Lang (S : Type) where
  bin : S → Option BinRule
  pre : S → Option PreRule
  hasTern : Bool
  mid : Nat

/-- `t` is a derivation tree for the nonterminal of level `n`. -/
def Deriv {S F : Type} (L : Lang S) : Nat → CST S F → Prop
  | _, .atom _ => True
  | _, .paren t => Deriv L 0 t
  | _, .call _ t => Deriv L 0 t
  | n, .un s t => ∃ p, L.pre s = some p ∧ n ≤ p.lev ∧ Deriv L p.arg t
  | n, .bin s a b => ∃ p, L.bin s = some p ∧ n ≤ p.lev ∧ Deriv L p.left a ∧ Deriv L p.right b
  | n, .tern a b c => L.hasTern = true ∧ n ≤ 3 ∧ Deriv L 4 a ∧ Deriv L L.mid b ∧ Deriv L 3 c

/-- The text `ts` is an expression of the language, with syntax tree `t`. -/
def Parses {S F : Type} (L : Lang S) (ts : List (Tok S F)) (t : CST S F) : Prop :=
  t.flatten = ts ∧ Deriv L 0 t

/-! ### Python (The Python Language Reference, 6.17 and the grammar in 6.5–6.13) -/

inductive PySym
  | comma | or | and | not | eq | ne | lt | le | gt | ge | is | isNot | in | bor | bxor | band
  | shl | shr | add | sub | mul | div | mod | fdiv | inv | pow
deriving DecidableEq, Repr

/-- `comparison ::= or_expr (comp_operator or_expr)*` is represented by left nesting.
`power ::= primary ["**" u_expr]`, `u_expr ::= power | ("-" | "+" | "~") u_expr`,
`not_test ::= comparison | "not" not_test`,
`conditional_expression ::= or_test ["if" or_test "else" expression]`. -/
def pyLang : Lang PySym where
  bin
    | .comma => leftAssoc 0
    | .or => leftAssoc 4
    | .and => leftAssoc 5
    | .eq | .ne | .lt | .le | .gt | .ge | .is | .isNot | .in => leftAssoc 7
    | .bor => leftAssoc 8
    | .bxor => leftAssoc 9
    | .band => leftAssoc 10
    | .shl | .shr => leftAssoc 11
    | .add | .sub => leftAssoc 12
    | .mul | .div | .mod | .fdiv => leftAssoc 13
    | .pow => some ⟨15, 16, 14⟩
    | .not | .inv => none
  pre
    | .not => some ⟨6, 6⟩
    | .add | .sub | .inv => some ⟨14, 14⟩
    | _ => none
  hasTern := true
  mid := 4

/-! ### C (ISO C11, 6.5.2–6.5.17) -/

inductive CSym
  | comma | lor | land | not | bor | bxor | band | eq | ne | lt | le | gt | ge | shl | shr
  | add | sub | mul | div | inv
deriving DecidableEq, Repr

def cLang : Lang CSym where
  bin
    | .comma => leftAssoc 0
    | .lor => leftAssoc 4
    | .land => leftAssoc 5
    | .bor => leftAssoc 6
    | .bxor => leftAssoc 7
    | .band => leftAssoc 8
    | .eq | .ne => leftAssoc 9
    | .lt | .le | .gt | .ge => leftAssoc 10
    | .shl | .shr => leftAssoc 11
    | .add | .sub => leftAssoc 12
    | .mul | .div => leftAssoc 13
    | .not | .inv => none
  pre
    | .add | .sub | .inv | .not => some ⟨14, 14⟩
    | _ => none
  hasTern := true
  mid := 0

/-! ### Fortran (ISO/IEC 1539-1:2018, R1002–R1022) -/

inductive FSym
  | comma | eqv | neqv | or | and | not | eq | ne | lt | le | gt | ge
  | add | sub | mul | div | pow
deriving DecidableEq, Repr

/-- `mult-operand is level-1-expr [power-op mult-operand]`,
`add-operand is [add-operand mult-op] mult-operand`,
`level-2-expr is [[level-2-expr] add-op] add-operand`,
`level-4-expr is [level-3-expr rel-op] level-3-expr`, `and-operand is [not-op] level-4-expr`,
`or-operand is [or-operand and-op] and-operand`, `equiv-operand is [equiv-operand or-op]
or-operand`, `level-5-expr is [level-5-expr equiv-op] equiv-operand`.  Argument lists are
represented with `comma`. -/
def fLang : Lang FSym where
  bin
    | .comma => leftAssoc 0
    | .eqv | .neqv => leftAssoc 1
    | .or => leftAssoc 2
    | .and => leftAssoc 3
    | .eq | .ne | .lt | .le | .gt | .ge => some ⟨5, 6, 6⟩
    | .add | .sub => leftAssoc 7
    | .mul | .div => leftAssoc 8
    | .pow => some ⟨9, 10, 9⟩
    | .not => none
  pre
    | .not => some ⟨4, 5⟩
    | .add | .sub => some ⟨7, 8⟩
    | _ => none
  hasTern := false
  mid := 0

end Verif.Exprs
