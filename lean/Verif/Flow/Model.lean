import Verif.Flow.Spec

/-
Model of how pyccel treats conditionals, while loops and conditions, from the Python syntax tree to
the structure of the generated C and Fortran code.

Modelled: `SyntaxParser._visit_If`, `SyntaxParser._visit_Compare`, `SemanticParser._visit_IfSection`
(pruning part), `SemanticParser._visit_If`, `SemanticParser._visit_IfTernaryOperator` (scalars),
`CCodePrinter._print_If`, `_print_While`, `_print_CodeBlock` (the handling of `_additional_code`),
`_print_PythonMinMax` (integers), and `FCodePrinter._print_If`, `_print_While`,
`_print_IfTernaryOperator`.

Not modelled here: the text of the expressions (area Exprs), the names of the temporaries (area
Names; here the k-th temporary is distinct from the others and from the user's variables), the
splitting of `a is not None and …`.
-/

namespace Verif.Flow.Model
open Verif.Flow.Spec

variable (D : Dom)

/-! ### Pyccel's tree -/

mutual
/-- `Assign`, `If`, `While`, `Break`, `Continue`, `Return`: /repo/pyccel/ast/core.py.  -/
inductive Stmt
  | assign (x : Nat) (e : Expr D)
  | ifs (secs : Secs)
  | while (c : Cond D) (body : Block)
  | brk
  | cont
  | ret (e : Expr D)
/-- The `IfSection`s of an `If`. -/
inductive Secs
  | nil
  | cons (c : Cond D) (body : Block) (rest : Secs)
/-- `CodeBlock`. -/
inductive Block
  | nil
  | cons (s : Stmt) (rest : Block)
end

variable {D}

def Block.append : Block D → Block D → Block D
  | .nil, b => b
  | .cons s r, b => .cons s (r.append b)

mutual
/-- Meaning of pyccel's tree: the first section whose condition holds is run. -/
def Stmt.run (n : Nat) : Stmt D → Env D → Out (Env D) D.V
  | .assign x e, s =>
    match evalE s e with
    | none => .err
    | some v => .norm (s.set x v)
  | .ifs secs, s => secs.run n s
  | .while c body, s => loop (fun s => evalC s c) (fun s => body.run n s) n s
  | .brk, s => .brk s
  | .cont, s => .cont s
  | .ret e, s =>
    match evalE s e with
    | none => .err
    | some v => .ret v s
def Secs.run (n : Nat) : Secs D → Env D → Out (Env D) D.V
  | .nil, s => .norm s
  | .cons c body rest, s =>
    match evalC s c with
    | none => .err
    | some true => body.run n s
    | some false => rest.run n s
def Block.run (n : Nat) : Block D → Env D → Out (Env D) D.V
  | .nil, s => .norm s
  | .cons st rest, s => (st.run n s).andThen (rest.run n)
end

/-! ### Syntactic stage -/

mutual
/-- /repo/pyccel/parser/syntactic.py:1574-1629 `_visit_If` (the branch which is not
`if __name__ == "__main__"`), `_visit_While`, `_visit_Assign`, `_visit_Return`, `_visit_Break`,
`_visit_Continue`.  An `else` which contains exactly one `If` is merged into the chain; an empty
one disappears; any other becomes a last section whose condition is `LiteralTrue`. -/
def visitStmt : PStmt D → Stmt D
  | .assign x e => .assign x e
  | .ite c body orelse =>
    match visitBlock orelse with
    | .cons (.ifs secs) .nil => .ifs (.cons c (visitBlock body) secs)
    | .nil => .ifs (.cons c (visitBlock body) .nil)
    | b => .ifs (.cons c (visitBlock body) (.cons (.lit true) b .nil))
  | .while c body => .while c (visitBlock body)
  | .brk => .brk
  | .cont => .cont
  | .ret e => .ret e
def visitBlock : PBlock D → Block D
  | .nil => .nil
  | .cons s r => .cons (visitStmt s) (visitBlock r)
end

/-! ### Semantic stage -/

mutual
/-- /repo/pyccel/parser/semantic.py:6243-6267 `_visit_IfTernaryOperator`, scalar case, inside an
expression: a literal condition selects its branch. -/
def pruneE : Expr D → Expr D
  | .lit v => .lit v
  | .var x => .var x
  | .bin o a b => .bin o (pruneE a) (pruneE b)
  | .min a b => .min (pruneE a) (pruneE b)
  | .max a b => .max (pruneE a) (pruneE b)
  | .tern c a b =>
    match pruneC c with
    | .lit true => pruneE a
    | .lit false => pruneE b
    | c' => .tern c' (pruneE a) (pruneE b)
def pruneC : Cond D → Cond D
  | .lit b => .lit b
  | .cmp o a b => .cmp o (pruneE a) (pruneE b)
  | .truth a => .truth (pruneE a)
  | .not c => .not (pruneC c)
  | .and c d => .and (pruneC c) (pruneC d)
  | .or c d => .or (pruneC c) (pruneC d)
end

/-- /repo/pyccel/parser/semantic.py:6123-6138: the condition is visited, translated to SymPy, and
replaced by a literal if SymPy evaluates it to `true` or `false`.  SymPy is the parameter `oracle`
(`none`: SymPy leaves the condition unevaluated, or it cannot be translated). -/
def foldCond (oracle : Cond D → Option Bool) (c : Cond D) : Cond D :=
  match oracle (pruneC c) with
  | some b => .lit b
  | none => pruneC c

mutual
/-- /repo/pyccel/parser/semantic.py:6207-6241 `_visit_If` and 4099-4128 `_visit_CodeBlock` (a
statement which becomes a `CodeBlock` is spliced into the enclosing block), 6112-6121
`_visit_While` (the condition is not pruned).  Simplification: the shape analysis of allocated
arrays (6220-6239), which only marks variables, is left out. -/
def pruneStmt (oracle : Cond D → Option Bool) : Stmt D → Block D
  | .assign x e => .cons (.assign x (pruneE e)) .nil
  | .ifs secs =>
    match pruneSecs oracle secs with
    | .cons (.lit true) body _ => body
    | secs' => .cons (.ifs secs') .nil
  | .while c body => .cons (.while (pruneC c) (pruneBlock oracle body)) .nil
  | .brk => .cons .brk .nil
  | .cont => .cons .cont .nil
  | .ret e => .cons (.ret (pruneE e)) .nil
/-- The loop of `_visit_If`, lines 6210-6218: a section whose condition is `LiteralFalse` is
dropped, the sections after a `LiteralTrue` are not looked at. -/
def pruneSecs (oracle : Cond D → Option Bool) : Secs D → Secs D
  | .nil => .nil
  | .cons c body rest =>
    match foldCond oracle c with
    | .lit false => pruneSecs oracle rest
    | .lit true => .cons (.lit true) (pruneBlock oracle body) .nil
    | c' => .cons c' (pruneBlock oracle body) (pruneSecs oracle rest)
def pruneBlock (oracle : Cond D → Option Bool) : Block D → Block D
  | .nil => .nil
  | .cons s r => (pruneStmt oracle s).append (pruneBlock oracle r)
end

/-! ### Generated code -/

/-- Values of the user's variables and of the temporaries. -/
abbrev TState (D : Dom) := Env D × (Nat → D.V)

mutual
/-- Statements of the generated code; `E` and `C` are its expressions and conditions. -/
inductive TStmt (E C : Type)
  | assign (x : Nat) (e : E)
  /-- assignment of a temporary -/
  | setTmp (k : Nat) (e : E)
  | ifs (secs : TSecs E C)
  | while (c : C) (body : TBlock E C)
  | brk
  | cont
  | ret (e : E)
inductive TSecs (E C : Type)
  | nil
  /-- `[else] if (c) { … }` -/
  | cons (c : C) (body : TBlock E C) (rest : TSecs E C)
  /-- `else { … }` -/
  | els (body : TBlock E C)
inductive TBlock (E C : Type)
  | nil
  | cons (s : TStmt E C) (rest : TBlock E C)
end

def TBlock.append {E C : Type} : TBlock E C → TBlock E C → TBlock E C
  | .nil, b => b
  | .cons s r, b => .cons s (r.append b)

section
variable {E C : Type} (evE : TState D → E → Option D.V) (evC : TState D → C → Option Bool)

mutual
/-- Meaning of the generated statements, given that of expressions and conditions. -/
def TStmt.run (n : Nat) : TStmt E C → TState D → Out (TState D) D.V
  | .assign x e, s =>
    match evE s e with
    | none => .err
    | some v => .norm (s.1.set x v, s.2)
  | .setTmp k e, s =>
    match evE s e with
    | none => .err
    | some v => .norm (s.1, fun j => if j = k then v else s.2 j)
  | .ifs secs, s => secs.run n s
  | .while c body, s => loop (fun s => evC s c) (fun s => body.run n s) n s
  | .brk, s => .brk s
  | .cont, s => .cont s
  | .ret e, s =>
    match evE s e with
    | none => .err
    | some v => .ret v s
def TSecs.run (n : Nat) : TSecs E C → TState D → Out (TState D) D.V
  | .nil, s => .norm s
  | .cons c body rest, s =>
    match evC s c with
    | none => .err
    | some true => body.run n s
    | some false => rest.run n s
  | .els body, s => body.run n s
def TBlock.run (n : Nat) : TBlock E C → TState D → Out (TState D) D.V
  | .nil, s => .norm s
  | .cons st rest, s => (st.run n s).andThen (rest.run n)
end
end

/-! ### C -/

variable (D)

mutual
/-- C expressions: no `min` or `max` on integers, but temporaries and `?:`. -/
inductive CExpr
  | lit (v : D.V)
  | var (x : Nat)
  | tmp (k : Nat)
  | bin (o : Bin) (a b : CExpr)
  | tern (c : CCond) (a b : CExpr)
inductive CCond
  | lit (b : Bool)
  | cmp (o : Cmp) (a b : CExpr)
  | truth (a : CExpr)
  | not (c : CCond)
  | and (c d : CCond)
  | or (c d : CCond)
end

variable {D}

mutual
/-- C11 6.5: `&&`, `||` and `?:` evaluate only what they need; an operation on which Python would
raise is undefined (`none`). -/
def cevalE (s : TState D) : CExpr D → Option D.V
  | .lit v => some v
  | .var x => some (s.1 x)
  | .tmp k => some (s.2 k)
  | .bin o a b =>
    match cevalE s a with
    | none => none
    | some u => match cevalE s b with
      | none => none
      | some v => D.bin o u v
  | .tern c a b =>
    match cevalC s c with
    | none => none
    | some true => cevalE s a
    | some false => cevalE s b
def cevalC (s : TState D) : CCond D → Option Bool
  | .lit b => some b
  | .cmp o a b =>
    match cevalE s a with
    | none => none
    | some u => match cevalE s b with
      | none => none
      | some v => some (D.cmp o u v)
  | .truth a => (cevalE s a).map D.truth
  | .not c => (cevalC s c).map (!·)
  | .and c d =>
    match cevalC s c with
    | none => none
    | some false => some false
    | some true => cevalC s d
  | .or c d =>
    match cevalC s c with
    | none => none
    | some true => some true
    | some false => cevalC s d
end

/-- The contents of `_additional_code`: assignments of temporaries. -/
abbrev Setup (D : Dom) := List (Nat × CExpr D)

/-- `isinstance(arg, (Variable, Literal))`: /repo/pyccel/codegen/printing/ccode.py:1080, 1088 (in `_print_PythonMinMax`). -/
def simple : Expr D → Bool
  | .lit _ => true
  | .var _ => true
  | _ => false

/-- /repo/pyccel/codegen/printing/ccode.py:1080-1095: an argument of an integer `min` which is
neither a variable nor a literal is assigned to a new temporary, in `_additional_code`.  `k` is the
number of temporaries in use; `p` the code (and its setup) of the argument. -/
def minArg (a : Expr D) (p : Setup D × CExpr D × Nat) : Setup D × CExpr D × Nat :=
  if simple a then p else (p.1 ++ [(p.2.2, p.2.1)], .tmp p.2.2, p.2.2 + 1)

mutual
/-- `CCodePrinter._print` on expressions: what is appended to `_additional_code`, and the
expression. /repo/pyccel/codegen/printing/ccode.py:1327-1331 (`_print_IfTernaryOperator`),
1079-1097 (`_print_PythonMinMax` on two integers). -/
def lowE : Expr D → Nat → Setup D × CExpr D × Nat
  | .lit v, k => ([], .lit v, k)
  | .var x, k => ([], .var x, k)
  | .bin o a b, k =>
    let p := lowE a k
    let q := lowE b p.2.2
    (p.1 ++ q.1, .bin o p.2.1 q.2.1, q.2.2)
  | .min a b, k =>
    let p := minArg a (lowE a k)
    let q := minArg b (lowE b p.2.2)
    (p.1 ++ q.1, .tern (.cmp .lt p.2.1 q.2.1) p.2.1 q.2.1, q.2.2)
  | .max a b, k =>
    let p := minArg a (lowE a k)
    let q := minArg b (lowE b p.2.2)
    (p.1 ++ q.1, .tern (.cmp .gt p.2.1 q.2.1) p.2.1 q.2.1, q.2.2)
  | .tern c a b, k =>
    let r := lowC c k
    let p := lowE a r.2.2
    let q := lowE b p.2.2
    (r.1 ++ p.1 ++ q.1, .tern r.2.1 p.2.1 q.2.1, q.2.2)
/-- `CCodePrinter._print` on conditions: 1339-1361 (`_print_PyccelAnd`, `_print_PyccelOr`),
`_print_PyccelNot`, comparisons, `_print_PythonBool`. -/
def lowC : Cond D → Nat → Setup D × CCond D × Nat
  | .lit b, k => ([], .lit b, k)
  | .cmp o a b, k =>
    let p := lowE a k
    let q := lowE b p.2.2
    (p.1 ++ q.1, .cmp o p.2.1 q.2.1, q.2.2)
  | .truth a, k =>
    let p := lowE a k
    (p.1, .truth p.2.1, p.2.2)
  | .not c, k =>
    let p := lowC c k
    (p.1, .not p.2.1, p.2.2)
  | .and c d, k =>
    let p := lowC c k
    let q := lowC d p.2.2
    (p.1 ++ q.1, .and p.2.1 q.2.1, q.2.2)
  | .or c d, k =>
    let p := lowC c k
    let q := lowC d p.2.2
    (p.1 ++ q.1, .or p.2.1 q.2.1, q.2.2)
end

/-- Print `_additional_code` in front of a block. -/
def prepend : Setup D → TBlock (CExpr D) (CCond D) → TBlock (CExpr D) (CCond D)
  | [], b => b
  | (k, e) :: r, b => .cons (.setTmp k e) (prepend r b)

mutual
/-- One statement of a `CodeBlock`, with the `_additional_code` it produced in front:
/repo/pyccel/codegen/printing/ccode.py:3525-3543 (`_print_CodeBlock`), 1301-1325 (`_print_If`),
1292-1297 (`_print_While`), `_print_Assign`, `_print_Return`, `_print_Break`, `_print_Continue`. -/
def lowStmt : Stmt D → Nat → TBlock (CExpr D) (CCond D) × Nat
  | .assign x e, k =>
    let p := lowE e k
    (prepend p.1 (.cons (.assign x p.2.1) .nil), p.2.2)
  | .ifs secs, k =>
    match secs with
    | .cons (.lit true) body .nil => lowBlock body k
    | secs =>
      let p := lowSecs secs k
      (prepend p.1 (.cons (.ifs p.2.1) .nil), p.2.2)
  | .while c body, k =>
    let b := lowBlock body k
    let p := lowC c b.2
    (prepend p.1 (.cons (.while p.2.1 b.1) .nil), p.2.2)
  | .brk, k => (.cons .brk .nil, k)
  | .cont, k => (.cons .cont .nil, k)
  | .ret e, k =>
    let p := lowE e k
    (prepend p.1 (.cons (.ret p.2.1) .nil), p.2.2)
/-- The loop of `_print_If`: the setups of all the conditions are collected (`condition_setup`) and
end up in front of the whole `if`.  A section which is last and whose condition is `LiteralTrue` is
an `else`. -/
def lowSecs : Secs D → Nat → Setup D × TSecs (CExpr D) (CCond D) × Nat
  | .nil, k => ([], .nil, k)
  | .cons c body rest, k =>
    let b := lowBlock body k
    match c, rest with
    | .lit true, .nil => ([], .els b.1, b.2)
    | c, rest =>
      let p := lowC c b.2
      let r := lowSecs rest p.2.2
      (p.1 ++ r.1, .cons p.2.1 b.1 r.2.1, r.2.2)
def lowBlock : Block D → Nat → TBlock (CExpr D) (CCond D) × Nat
  | .nil, k => (.nil, k)
  | .cons s r, k =>
    let p := lowStmt s k
    let q := lowBlock r p.2
    (p.1.append q.1, q.2)
end

/-- The whole way from Python to C. -/
def toC (oracle : Cond D → Option Bool) (p : PBlock D) : TBlock (CExpr D) (CCond D) :=
  (lowBlock (pruneBlock oracle (visitBlock p)) 0).1

def runC (n : Nat) (b : TBlock (CExpr D) (CCond D)) (s : TState D) : Out (TState D) D.V :=
  b.run cevalE cevalC n s

/-! ### Fortran

`min` and `max` are intrinsics, so there are no temporaries, but `merge`, `.and.` and `.or.` do not
promise to leave an operand unevaluated. -/

mutual
/-- /repo/pyccel/codegen/printing/fcode.py:3512-3538 `_print_If`, 3424-3430 `_print_While`.
Simplification: an `If` without sections, for which the printer returns the empty string, is a
conditional without sections. -/
def forStmt : Stmt D → TBlock (Expr D) (Cond D)
  | .assign x e => .cons (.assign x e) .nil
  | .ifs secs =>
    match secs with
    | .cons (.lit true) body .nil => forBlock body
    | secs => .cons (.ifs (forSecs secs)) .nil
  | .while c body => .cons (.while c (forBlock body)) .nil
  | .brk => .cons .brk .nil
  | .cont => .cons .cont .nil
  | .ret e => .cons (.ret e) .nil
def forSecs : Secs D → TSecs (Expr D) (Cond D)
  | .nil => .nil
  | .cons c body rest =>
    match c, rest with
    | .lit true, .nil => .els (forBlock body)
    | c, rest => .cons c (forBlock body) (forSecs rest)
def forBlock : Block D → TBlock (Expr D) (Cond D)
  | .nil => .nil
  | .cons s r => (forStmt s).append (forBlock r)
end

mutual
/-- Fortran 2018, 10.1.7: a processor need not evaluate all operands if the result can be
established otherwise, and need not stop early either.  `lazyC c d s` is the choice of the
processor for `c .and. d` (and `c .or. d`); `lazyE c a b s` its choice for
`merge(a, b, c)`. -/
def fevalE (lazyC : Cond D → Cond D → Env D → Bool) (lazyE : Cond D → Expr D → Expr D → Env D → Bool)
    (s : Env D) : Expr D → Option D.V
  | .lit v => some v
  | .var x => some (s x)
  | .bin o a b =>
    match fevalE lazyC lazyE s a with
    | none => none
    | some u => match fevalE lazyC lazyE s b with
      | none => none
      | some v => D.bin o u v
  | .min a b =>
    match fevalE lazyC lazyE s a with
    | none => none
    | some u => match fevalE lazyC lazyE s b with
      | none => none
      | some v => some (if D.cmp .lt v u then v else u)
  | .max a b =>
    match fevalE lazyC lazyE s a with
    | none => none
    | some u => match fevalE lazyC lazyE s b with
      | none => none
      | some v => some (if D.cmp .gt v u then v else u)
  | .tern c a b =>
    if lazyE c a b s then
      match fevalC lazyC lazyE s c with
      | none => none
      | some true => fevalE lazyC lazyE s a
      | some false => fevalE lazyC lazyE s b
    else
      match fevalE lazyC lazyE s a with
      | none => none
      | some u => match fevalE lazyC lazyE s b with
        | none => none
        | some v => match fevalC lazyC lazyE s c with
          | none => none
          | some true => some u
          | some false => some v
def fevalC (lazyC : Cond D → Cond D → Env D → Bool) (lazyE : Cond D → Expr D → Expr D → Env D → Bool)
    (s : Env D) : Cond D → Option Bool
  | .lit b => some b
  | .cmp o a b =>
    match fevalE lazyC lazyE s a with
    | none => none
    | some u => match fevalE lazyC lazyE s b with
      | none => none
      | some v => some (D.cmp o u v)
  | .truth a => (fevalE lazyC lazyE s a).map D.truth
  | .not c => (fevalC lazyC lazyE s c).map (!·)
  | .and c d =>
    if lazyC c d s then
      match fevalC lazyC lazyE s c with
      | none => none
      | some false => some false
      | some true => fevalC lazyC lazyE s d
    else
      match fevalC lazyC lazyE s c with
      | none => none
      | some u => match fevalC lazyC lazyE s d with
        | none => none
        | some v => some (u && v)
  | .or c d =>
    if lazyC c d s then
      match fevalC lazyC lazyE s c with
      | none => none
      | some true => some true
      | some false => fevalC lazyC lazyE s d
    else
      match fevalC lazyC lazyE s c with
      | none => none
      | some u => match fevalC lazyC lazyE s d with
        | none => none
        | some v => some (u || v)
end

/-- The whole way from Python to Fortran. -/
def toFortran (oracle : Cond D → Option Bool) (p : PBlock D) : TBlock (Expr D) (Cond D) :=
  forBlock (pruneBlock oracle (visitBlock p))

def runF (lazyC : Cond D → Cond D → Env D → Bool) (lazyE : Cond D → Expr D → Expr D → Env D → Bool)
    (n : Nat) (b : TBlock (Expr D) (Cond D)) (s : TState D) : Out (TState D) D.V :=
  b.run (fun s => fevalE lazyC lazyE s.1) (fun s => fevalC lazyC lazyE s.1) n s

/-! ### SymPy's equality test

SymPy is not part of /repo; this is the one rule of it that matters for NaN: `Eq(a, b)` of two
structurally equal expressions evaluates to `true`, hence `Ne(a, b)` to `false`
(/repo/pyccel/ast/sympy_helper.py:214-220 builds `sp.Eq` and `sp.Ne`). -/

/-- SymPy on comparisons of a variable with itself; everything else is left unevaluated. -/
def sameVar : Cond D → Option Bool
  | .cmp .eq (.var x) (.var y) => if x = y then some true else none
  | .cmp .ne (.var x) (.var y) => if x = y then some false else none
  | .lit b => some b
  | _ => none

/-! ### Chained comparisons -/

/-- A conjunction of comparisons of effectful operands, as built by `_visit_Compare`. -/
inductive Conj (σ V : Type)
  | cmp (o : Cmp) (a b : Operand σ V)
  | and (c d : Conj σ V)

/-- Meaning: `PyccelAnd` evaluates its arguments from left to right and stops at the first false. -/
def Conj.eval {σ V : Type} (cmp : Cmp → V → V → Bool) : Conj σ V → σ → Option (Bool × σ)
  | .cmp o a b, s =>
    match a s with
    | none => none
    | some (u, s') => match b s' with
      | none => none
      | some (v, s'') => some (cmp o u v, s'')
  | .and c d, s =>
    match c.eval cmp s with
    | none => none
    | some (false, s') => some (false, s')
    | some (true, s') => d.eval cmp s'

/-- /repo/pyccel/parser/syntactic.py:1017-1049 `_visit_Compare`, the loop: `first` is the previous
comparator and `comparison` the conjunction so far. -/
def visitCompareLoop {σ V : Type} (first : Operand σ V) (comparison : Option (Conj σ V)) :
    List (Cmp × Operand σ V) → Option (Conj σ V)
  | [] => comparison
  | (o, second) :: rest =>
    let expr := Conj.cmp o first second
    visitCompareLoop second
      (some (match comparison with | some c => .and c expr | none => expr)) rest

def visitCompare {σ V : Type} (left : Operand σ V) (rest : List (Cmp × Operand σ V)) :
    Option (Conj σ V) :=
  visitCompareLoop left none rest

end Verif.Flow.Model
