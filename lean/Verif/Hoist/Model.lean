import Verif.Hoist.Spec
/-
Model of the way the semantic stage takes calls out of expressions:
/repo/pyccel/parser/semantic.py `_handle_function` (the branch for array results),
`_visit_FunctionCallArgument`, `_visit_PyccelPow`, `_visit_CodeBlock`.

Not modelled: tuples, classes and methods, calls which are indexed, inlined functions, conditional
expressions and comprehensions; the loops into which operators on arrays are unravelled; names (the
temporaries are numbered).
-/
namespace Verif.Hoist

mutual
/-- Expressions of the generated program: `tmp k` is a temporary variable. -/
inductive Tgt
  | lit (n : Nat)
  | elem (n : Nat)
  | tmp (k : Nat)
  | call (arr : Bool) (f : Nat) (as : TArgs)
  | op (arr : Bool) (o : Nat) (a b : Tgt)
  | root (a : Tgt)
/-- Arguments in the generated program. -/
inductive TArgs
  | nil
  | cons (a : Tgt) (as : TArgs)
end

/-- The arguments as a list. -/
def TArgs.toList : TArgs → List Tgt
  | .nil => []
  | .cons a as => a :: as.toList

/-- The result of visiting something: the statements added before the current one
(`_additional_exprs[-1]`), the expression, and the next free temporary. -/
structure Out (α : Type) where
  code : List (Nat × Tgt)
  val : α
  next : Nat

/-- semantic.py:3999-4018 `_visit_FunctionCallArgument`: the argument is visited; if the result is an
operator on arrays, the argument is visited again as the right-hand side of an assignment to a
temporary.  `isOp` says whether the result is an operator on arrays, `v1` and `v2` are the two
visits.  Simplification: elementwise library functions count as operators. -/
def asArg (isOp : Bool) (v1 v2 : Nat → Out Tgt) (k : Nat) : Out Tgt :=
  let r1 := v1 k
  if isOp then
    let r2 := v2 r1.next
    ⟨r1.code ++ r2.code ++ [(r2.next, r2.val)], .tmp r2.next, r2.next + 1⟩
  else r1

mutual
/-- A visit of an expression which has been visited before.  A call which returns an array was made
the right-hand side of an assignment by the first visit (semantic.py:1754-1760), and stays a child of
that assignment, so that `parent_assign` is not empty any more and the call stays where it is
(semantic.py:1745-1753).  `**`: semantic.py:4725-4760 visits the base and then a call of `sqrt` on
it. -/
def again : Src → Nat → Out Tgt
  | .lit n, k => ⟨[], .lit n, k⟩
  | .elem n, k => ⟨[], .elem n, k⟩
  | .call arr f as, k =>
    let r := againArgs as k
    ⟨r.code, .call arr f r.val, r.next⟩
  | .op arr o a b, k =>
    let r1 := again a k
    let r2 := again b r1.next
    ⟨r1.code ++ r2.code, .op arr o r1.val r2.val, r2.next⟩
  | .root a, k =>
    let r1 := again a k
    let r2 := asArg a.isOp (again a) (again a) r1.next
    ⟨r1.code ++ r2.code, .root r2.val, r2.next⟩
/-- semantic.py:1530-1565 `_handle_function_args` at a later visit. -/
def againArgs : Args → Nat → Out TArgs
  | .nil, k => ⟨[], .nil, k⟩
  | .cons a as, k =>
    let r1 := asArg a.isOp (again a) (again a) k
    let r2 := againArgs as r1.next
    ⟨r1.code ++ r2.code, .cons r1.val r2.val, r2.next⟩
end

mutual
/-- The first visit of an expression which is not the right-hand side of an assignment.  A call
which returns an array (semantic.py:1745-1763) becomes an assignment to a temporary; its arguments
have been visited by `_visit_FunctionCall` (semantic.py:4801-4808) and are visited again with the
assignment. -/
def first : Src → Nat → Out Tgt
  | .lit n, k => ⟨[], .lit n, k⟩
  | .elem n, k => ⟨[], .elem n, k⟩
  | .call true f as, k =>
    let r1 := firstArgs as k
    let r2 := againArgs as r1.next
    ⟨r1.code ++ r2.code ++ [(r2.next, .call true f r2.val)], .tmp r2.next, r2.next + 1⟩
  | .call false f as, k =>
    let r := firstArgs as k
    ⟨r.code, .call false f r.val, r.next⟩
  | .op arr o a b, k =>
    let r1 := first a k
    let r2 := first b r1.next
    ⟨r1.code ++ r2.code, .op arr o r1.val r2.val, r2.next⟩
  | .root a, k =>
    let r1 := first a k
    let r2 := asArg a.isOp (again a) (again a) r1.next
    ⟨r1.code ++ r2.code, .root r2.val, r2.next⟩
/-- semantic.py:1530-1565 `_handle_function_args` at the first visit. -/
def firstArgs : Args → Nat → Out TArgs
  | .nil, k => ⟨[], .nil, k⟩
  | .cons a as, k =>
    let r1 := asArg a.isOp (first a) (again a) k
    let r2 := firstArgs as r1.next
    ⟨r1.code ++ r2.code, .cons r1.val r2.val, r2.next⟩
end

/-- semantic.py:4099-4128 `_visit_CodeBlock`, 5003-5340 `_visit_Assign`, 5595-5630
`_visit_AugAssign`, 6269-6338 `_visit_Return`: a statement with one expression.  With `direct` the
expression is the right-hand side of an assignment (`_visit_Return` makes one); an augmented
assignment does not count (semantic.py:1745-1747). -/
def translate (direct : Bool) : Src → Out Tgt
  | .call true f as =>
    if direct then
      let r := firstArgs as 0
      ⟨r.code, .call true f r.val, r.next⟩
    else first (.call true f as) 0
  | e => first e 0

mutual
/-- fcode.py:4301-4319: a call which returns an array is printed as a subroutine call whose result
is the left-hand side of the assignment it belongs to; anywhere else `results` is `None` and printing
fails.  Is the expression free of such calls? -/
def Tgt.noArr : Tgt → Bool
  | .lit _ => true
  | .elem _ => true
  | .tmp _ => true
  | .call arr _ as => !arr && as.noArr
  | .op _ _ a b => a.noArr && b.noArr
  | .root a => a.noArr
/-- The same for arguments. -/
def TArgs.noArr : TArgs → Bool
  | .nil => true
  | .cons a as => a.noArr && as.noArr
end

/-- fcode.py:4238-4328 `_print_FunctionCall`: can the right-hand side of an assignment be printed? -/
def Tgt.fortranRhs : Tgt → Bool
  | .call _ _ as => as.noArr
  | e => e.noArr

/-- Can the whole statement be printed in Fortran?  If not `direct`, the expression is not the
right-hand side of an assignment. -/
def fortranOk (direct : Bool) (r : Out Tgt) : Bool :=
  r.code.all (fun p => p.2.fortranRhs) && (if direct then r.val.fortranRhs else r.val.noArr)

/-! ## Running the generated program

The operands of an operator and the arguments of a call are evaluated in any order: neither C nor
Fortran prescribes one (C17 6.5p3, Fortran 2018 10.1.7).  Simplification: the evaluations of two
operands are not interleaved. -/

/-- An operand to be evaluated, or its value. -/
inductive Slot (V : Type)
  | todo (t : Tgt)
  | done (v : V)

mutual
/-- `Run I ρ t s v s'`: with the temporaries `ρ`, evaluating `t` in the state `s` can give the value
`v` and the state `s'`. -/
inductive Run {V S : Type} (I : Interp V S) (ρ : Nat → V) : Tgt → S → V → S → Prop
  | lit (n s) : Run I ρ (.lit n) s (I.lit n) s
  | elem (n s) : Run I ρ (.elem n) s (I.elem n s) s
  | tmp (k s) : Run I ρ (.tmp k) s (ρ k) s
  | call (arr f as s vs s1) : RunAll I ρ (as.toList.map .todo) s vs s1 →
      Run I ρ (.call arr f as) s (I.call f vs s1).1 (I.call f vs s1).2
  | op (arr o a b s va vb s1) : RunAll I ρ [.todo a, .todo b] s [va, vb] s1 →
      Run I ρ (.op arr o a b) s (if arr then I.opA o va vb s1 else I.opS o va vb) s1
  | root (a s v s1) : Run I ρ a s v s1 → Run I ρ (.root a) s (I.root v) s1
/-- Evaluating operands in any order. -/
inductive RunAll {V S : Type} (I : Interp V S) (ρ : Nat → V) :
    List (Slot V) → S → List V → S → Prop
  | finish (vs s) : RunAll I ρ (vs.map .done) s vs s
  | step (l t r s v s1 vs s') : Run I ρ t s v s1 → RunAll I ρ (l ++ .done v :: r) s1 vs s' →
      RunAll I ρ (l ++ .todo t :: r) s vs s'
end

/-- Give a temporary a value. -/
def upd {V : Type} (ρ : Nat → V) (k : Nat) (v : V) : Nat → V := fun i => if i = k then v else ρ i

/-- Running the statements added before the current one, in order. -/
inductive RunCode {V S : Type} (I : Interp V S) :
    List (Nat × Tgt) → (Nat → V) → S → (Nat → V) → S → Prop
  | nil (ρ s) : RunCode I [] ρ s ρ s
  | cons (k t c ρ s v s1 ρ' s') : Run I ρ t s v s1 → RunCode I c (upd ρ k v) s1 ρ' s' →
      RunCode I ((k, t) :: c) ρ s ρ' s'

/-- A run of the generated statement: the added statements, then the expression. -/
def Runs {V S : Type} (I : Interp V S) (r : Out Tgt) (ρ : Nat → V) (s : S) (v : V) (s' : S) : Prop :=
  ∃ ρ1 s1, RunCode I r.code ρ s ρ1 s1 ∧ Run I ρ1 r.val s1 v s'

end Verif.Hoist
