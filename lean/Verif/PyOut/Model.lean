/-
Model of `pyccel/codegen/printing/pycode.py`: the code that is printed for functions with several types, for blocks and for assignments to arrays.
-/
import Verif.PyOut.Spec

namespace Verif.PyOut.Model

open Spec

/-- `get_type_checks` (pycode.py:470–519) for the variable `x`; `tmp` numbers the temporary variables. `none`: `NotImplementedError`. The list of
checks that is joined by `" and "` is nested to the left. -/
def checks (tmp x : Nat) : Ty → Option Test
  | .array dt r o => some (
      let t := ((Test.isArray x).and (.dtype x dt)).and (.ndim x r)
      match o with
      | some o => t.and (.flag x o)
      | none => t)
  | .num c => some (.isNum x c)
  | .seq k t => (checks (tmp + 1) tmp t).map fun e => (Test.isSeq x k).and (.all e tmp x)
  | .other _ => none

/-- `" and ".join(self.get_type_checks(a, t) for a, t in zip(arg_names, a_t))` (pycode.py:697–701), from the argument `i` on; `n` is the number of
arguments. -/
def conj (n i : Nat) : List Ty → Option (Option Test)
  | [] => some none
  | t :: ts => (checks n i t).bind fun a => (conj n (i + 1) ts).map fun r => some (match r with
    | none => a
    | some b => a.and b)

/-- `" or ".join(f"({c})" for c in checks)` (pycode.py:702–705). An empty list of checks (a function without arguments) is not printed. -/
def disj : List (List Ty) → Option (Option Test)
  | [] => some none
  | s :: ss => (conj s.length 0 s).bind fun a => (disj ss).map fun r =>
    match a, r with
    | none, r => r
    | some a, none => some a
    | some a, some b => some (a.or b)

/-- `bodies.setdefault(b, []).append(types)` (pycode.py:645–650): the texts in the order of their first occurrence. -/
def setdefault (b : List Nat × Nat) (s : List Ty) : List ((List Nat × Nat) × List (List Ty)) → List ((List Nat × Nat) × List (List Ty))
  | [] => [(b, [s])]
  | (c, l) :: r => if c = b then (c, l ++ [s]) :: r else (c, l) :: setdefault b s r

/-- The loop over the functions (pycode.py:645–650). -/
def bodies (fs : List Func) : List ((List Nat × Nat) × List (List Ty)) :=
  fs.foldl (fun d f => setdefault (f.imports, f.body) f.types d) []

/-- `bodies_to_print[new_body] = arg_types` (pycode.py:679): an entry that exists is replaced in its place. -/
def assign (b : Nat) (l : List (List Ty)) : List (Nat × List (List Ty)) → List (Nat × List (List Ty))
  | [] => [(b, l)]
  | (c, m) :: r => if c = b then (c, l) :: r else (c, m) :: assign b l r

/-- `bodies_to_print` (pycode.py:655–679). Docstrings, which are the same for all the functions, are left out. -/
def toPrint (d : List ((List Nat × Nat) × List (List Ty))) : List (Nat × List (List Ty)) :=
  d.foldl (fun p e => assign e.1.2 e.2 p) []

/-- The branches (pycode.py:690–707). -/
def branches : List (Nat × List (List Ty)) → Option (List (Test × Nat))
  | [] => some []
  | (b, ss) :: r => (disj ss).bind fun t => t.bind fun t => (branches r).map fun l => (t, b) :: l

/-- `_print_Interface` (pycode.py:635–717). -/
def interface (fs : List Func) : Option Printed :=
  match bodies fs with
  | [(b, _)] => some (.plain b.1 b.2)
  | d => (branches (toPrint d)).map fun l => .chain (d.flatMap fun e => e.1.1) l

/-- `_indent_codestring` (pycode.py:153–159). Text begins and ends with lines that are not blank here. -/
def indent (ls : List Line) : List Line := ls.map fun l => ⟨l.indent + 4, l.word⟩

/-- A block without statements, `len(expr.body) == 0`. -/
def isNil : Code → Bool
  | .nil => true
  | _ => false

/-- The last section. -/
def isLast : Chain → Bool
  | .nil => true
  | _ => false

/-- The head of a section (pycode.py:1681–1689). -/
def head (first : Bool) (c : Cond) (rest : Chain) : Head :=
  if first then .if_ c
  else if isLast rest && c == .tt then .else_
  else .elif_ c

mutual
/-- The statements of a block: `_print_CodeBlock` (pycode.py:1221–1226) without the case of an empty block, `_print_For` (1228–1240), `_print_While`
(1287–1292), `_print_Pass` (1666–1667), `_print_Comment` (1075–1077), `_print_Deallocate` (1393–1394) and the other nodes that print nothing. -/
def stmts : Code → List Line
  | .nil => []
  | .stmt s r => ⟨0, .stmt s⟩ :: stmts r
  | .pass r => ⟨0, .pass⟩ :: stmts r
  | .silent r => stmts r
  | .comment r => ⟨0, .comment⟩ :: stmts r
  | .loop n b r => ⟨0, .head (.loop n)⟩ :: (indent (if isNil b then [⟨0, .pass⟩] else stmts b) ++ stmts r)
  | .ifs c r => sections true c ++ stmts r
/-- `_print_If` (pycode.py:1679–1696). -/
def sections (first : Bool) : Chain → List Line
  | .nil => []
  | .cons c b r => ⟨0, .head (head first c r)⟩ :: (indent (if isNil b then [⟨0, .pass⟩] else stmts b) ++ sections false r)
end

/-- `_print_CodeBlock` (pycode.py:1221–1226). -/
def block (b : Code) : List Line := if isNil b then [⟨0, .pass⟩] else stmts b

/-- `_print_FunctionDef` (pycode.py:719–799) of a function without decorators, imports and functions of its own. -/
def function (d : Def) : List Line :=
  ⟨0, .head (.def_ d.name)⟩ :: ((if d.doc then indent [⟨0, .doc⟩] else []) ++ indent (block d.body) ++ [⟨0, .blank⟩])

/-- The functions of a module, one after the other (`_print_Module`, pycode.py:1742–1790). -/
def module : List Def → List Line
  | [] => []
  | d :: ds => function d ++ module ds

/-- Statements one after the other. -/
def append : Code → Code → Code
  | .nil, q => q
  | .stmt s r, q => .stmt s (append r q)
  | .pass r, q => .pass (append r q)
  | .silent r, q => .silent (append r q)
  | .comment r, q => .comment (append r q)
  | .loop n b r, q => .loop n b (append r q)
  | .ifs c r, q => .ifs c (append r q)

mutual
/-- `_visit_CodeBlock` (semantic.py:4099–4128) and the constructor of `CodeBlock` (ast/core.py:602–613), which leaves out `EmptyNode` and takes in the
statements of blocks. -/
def visit : Src → Code
  | .nil => .nil
  | .stmt s r => .stmt s (visit r)
  | .pass r => .pass (visit r)
  | .comment r => .comment (visit r)
  | .empty r => visit r
  | .loop n b r => .loop n (visit b) (visit r)
  | .ifs c r => match visitIf c with
    | .inl b => append b (visit r)
    | .inr ch => .ifs ch (visit r)
/-- `_visit_If` (semantic.py:6207–6241): sections with a condition that is false are dropped; a section with a condition that is true is the last one,
and if it is also the first one only its statements are left (`inl`). -/
def visitIf : SrcChain → Code ⊕ Chain
  | .nil => .inr .nil
  | .cons (some false) _ _ r => visitIf r
  | .cons (some true) _ b _ => .inl (visit b)
  | .cons none c b r => .inr (.cons (.expr c) (visit b) (match visitIf r with
    | .inl b' => .cons .tt b' .nil
    | .inr ch => ch))
end

/-- The printed assignment: `y = x`, `y = x.T` (`slice = false`), `y[:, :] = x` or `y[:, :] = x.T` (`slice = true`). -/
structure Asg where
  slice : Bool
  tr : Bool
deriving DecidableEq, Repr

/-- What the semantic stage makes of an assignment of `x` (of order `o`, rank at least 2) or `x.T` (semantic.py:2145–2160, 5287–5293): whether it is an
`AliasAssign`, whether the right-hand side is still a transposition, and the orders of both sides. A new name has the order of the right-hand side. -/
def visitAssign (l : Lhs) (r : Rhs) (o : Order) : Bool × Bool × Order × Order :=
  match l, r with
  | .name, .var => (true, false, o, o)
  | .name, .tr => (true, false, o.flip, o)
  | .slice ol, .var => (false, false, ol, o)
  | .slice ol, .tr => (false, true, ol, o.flip)

/-- `_print_AliasAssign` (pycode.py:1354–1363) and `_print_Assign` (pycode.py:1326–1332): `.T` is added to a variable whose order is not the one of the
left-hand side. -/
def printAssign (l : Lhs) (r : Rhs) (o : Order) : Asg :=
  let (alias, tr, ol, or) := visitAssign l r o
  if alias then ⟨false, tr || or != ol⟩
  else if tr then ⟨true, true⟩
  else ⟨true, or != ol⟩

end Verif.PyOut.Model
