import Verif.Loops.Spec
import Verif.IntMath.Model
/-
Model of the loops generated for `for ... in range/zip/enumerate/product`.
-/
namespace Verif.Loops
open Spec Verif.IntMath

/-- The step argument of a range as the printers see it: an integer literal (non-negative),
a negated literal (`PyccelUnarySub(LiteralInteger)`), or any other expression.
pyccel/ast/builtins.py:1342-1360 (defaults are literals), pyccel/ast/utilities.py
`is_literal_integer`. -/
inductive Step (σ : Type) | lit (k : Nat) | neg (k : Nat) | expr (e : σ → Int)

/-- Run-time value of the step expression. -/
def Step.val {σ : Type} : Step σ → σ → Int
  | .lit k, _ => k
  | .neg k, _ => -(k : Int)
  | .expr e, s => e s

/-- A `PythonRange` node: pyccel/ast/builtins.py:1320-1390. -/
structure Range (σ : Type) where
  start : σ → Int
  stop : σ → Int
  step : Step σ

/-- `PythonRange(*args)` with one or two arguments: builtins.py:1346-1353. -/
def Range.of1 {σ : Type} (stop : σ → Int) : Range σ := ⟨fun _ => 0, stop, .lit 1⟩
def Range.of2 {σ : Type} (start stop : σ → Int) : Range σ := ⟨start, stop, .lit 1⟩

/-- Result of running a C loop: finished, undefined behaviour, or still running when the
fuel is exhausted. -/
inductive Res (σ : Type) | fin (s : σ) | ub | fuel

/-- The stop condition printed by `_print_For`: pyccel/codegen/printing/ccode.py:3505-3510.
Literal step: `i > stop` if the literal is negative, `i < stop` otherwise; expression:
`(step > 0) ? (i < stop) : (i > stop)`, evaluated at every iteration. -/
def cCond {σ : Type} (v : Var σ) (r : Range σ) (s : σ) : Bool :=
  match r.step with
  | .lit _ => v.get s < r.stop s
  | .neg k => if -(k : Int) < 0 then v.get s > r.stop s else v.get s < r.stop s
  | .expr e => if e s > 0 then v.get s < r.stop s else v.get s > r.stop s

/-- C `for` statement after its initialisation: test, body, `i += step`; `break` leaves
without the increment. -/
def cLoop {σ : Type} (v : Var σ) (r : Range σ) (body : σ → σ × Ctl) : Nat → σ → Res σ
  | 0, _ => .fuel
  | n + 1, s =>
    if cCond v r s then
      match body s with
      | (s', .brk) => .fin s'
      | (s', .next) =>
        match chk 64 (v.get s' + r.step.val s') with
        | none => .ub
        | some i => cLoop v r body n (v.set s' i)
    else .fin s

/-- `for (i = start; cond; i += step) { body }`: ccode.py:3499-3520. -/
def cFor {σ : Type} (v : Var σ) (r : Range σ) (body : σ → σ × Ctl) (fuel : Nat) (s : σ) : Res σ :=
  cLoop v r body fuel (v.set s (r.start s))

/-- The inclusive upper bound printed for a Fortran DO loop:
pyccel/codegen/printing/fcode.py:3111-3125 (`stop - 1`, `stop + 1` or
`merge(stop - 1, stop + 1, step > 0)`). -/
def fStop {σ : Type} (r : Range σ) (s : σ) : Int :=
  match r.step with
  | .lit _ => r.stop s - 1
  | .neg _ => r.stop s + 1
  | .expr e => if e s > 0 then r.stop s - 1 else r.stop s + 1

/-- Iteration count of `DO v = m1, m2, m3` (F2018 11.1.7.4.1): `MAX(INT((m2-m1+m3)/m3), 0)`. -/
def doCount (m1 m2 m3 : Int) : Nat := ((m2 - m1 + m3).tdiv m3).toNat

/-- Execution of the DO construct once the iteration count is established: the DO variable
is incremented after every completed iteration (F2018 11.1.7.4.3). -/
def doLoop {σ : Type} (v : Var σ) (m3 : Int) (body : σ → σ × Ctl) : Nat → σ → σ
  | 0, s => s
  | n + 1, s =>
    match body s with
    | (s', .brk) => s'
    | (s', .next) => doLoop v m3 body n (v.set s' (v.get s' + m3))

/-- `do i = start, stop', step` … `end do`: pyccel/codegen/printing/fcode.py:3186-3216 with
the range printed by fcode.py:3102-3128.  The bounds are evaluated once, before the loop.
A zero step is a run-time error in Fortran; the theorems exclude it. -/
def fFor {σ : Type} (v : Var σ) (r : Range σ) (body : σ → σ × Ctl) (s : σ) : σ :=
  let m1 := r.start s
  let m2 := fStop r s
  let m3 := r.step.val s
  doLoop v m3 body (doCount m1 m2 m3) (v.set s m1)

/-- One `range` loop of a comprehension.  `known` records whether sympy can decide the sign of
the step (it is a number); for a symbolic step `step < 0` raises `TypeError`, which is ignored.
The bounds may depend on the indices of the enclosing loops (`env`). -/
structure CLoop where
  start : List Int → Int
  stop : List Int → Int
  step : List Int → Int
  known : Bool

/-- The bounds after the swap of pyccel/parser/semantic.py:5861-5865. -/
def CLoop.bounds (c : CLoop) (env : List Int) : Int × Int :=
  if c.known = true ∧ c.step env < 0 then (c.stop env, c.start env) else (c.start env, c.stop env)

/-- `ceiling(x / y)` in exact arithmetic (sympy), `y ≠ 0`. -/
def ceilDiv (x y : Int) : Int := if 0 < y then -((-x) / y) else -(x / (-y))

/-- `size = (stop - start) / step; if step != 1: size = ceiling(size)`:
pyccel/parser/semantic.py:5866-5868. -/
def CLoop.size (c : CLoop) (env : List Int) : Int :=
  let (a, b) := c.bounds env
  if c.known = true ∧ c.step env = 1 then b - a else ceilDiv (b - a) (c.step env)

/-- The size check of semantic.py:5916-5925 for one loop with literal bounds: a negative size is
an error; otherwise the size is used for the allocation. -/
def CLoop.accepted (c : CLoop) : Option Int :=
  if c.size [] < 0 then none else some (c.size [])

/-- The total size of a comprehension with several loops: semantic.py:5878 and 5926-5929
(`dim.subs(index, start + step*index)`, `Summation(dim, (index, 0, size - 1)).doit()`, from the
innermost loop outwards, starting from 1).  The summation is assumed exact; a negative upper
bound (for which sympy uses another convention) is `none`. -/
def nestDim : List CLoop → List Int → Option Int
  | [], _ => some 1
  | c :: cs, env =>
    let n := c.size env
    let vals := (List.range n.toNat).map fun (j : Nat) =>
      nestDim cs (env ++ [(c.bounds env).1 + c.step env * j])
    if n < 0 then none else vals.foldr (fun x acc => x.bind fun a => acc.map (a + ·)) (some 0)

/-- The length of one argument of `zip`: known at compile time or only at run time (with its
run-time value). -/
inductive Len | lit (n : Nat) | dyn (n : Nat)

def Len.val : Len → Nat
  | .lit n => n
  | .dyn n => n

def Len.lit? : Len → Option Nat
  | .lit n => some n
  | .dyn _ => none

/-- Minimum of a list of lengths (`min(lengths)` / `PythonMin(...)`), 0 for the empty list,
which `PythonZip` rejects. -/
def minList : List Nat → Nat
  | [] => 0
  | [n] => n
  | n :: ns => min n (minList ns)

/-- `PythonZip._length`: pyccel/ast/builtins.py:1463-1471: the minimum of the literal lengths
if there is any, the run-time minimum of all lengths otherwise. -/
def zipLength (ls : List Len) : Nat :=
  let lits := ls.filterMap Len.lit?
  if lits.isEmpty then minList (ls.map Len.val) else minList lits

/-- One array argument of `zip`: its elements and whether its length is a literal. -/
structure ZArg (α : Type) where
  elems : List α
  isLit : Bool

def ZArg.len {α : Type} (a : ZArg α) : Len :=
  if a.isLit then .lit a.elems.length else .dyn a.elems.length

/-- The values assigned to the targets in the iterations of `for ... in zip(*args)`:
`range(length)` (builtins.py:1515-1526) and `a[index]` for every argument
(builtins.py:1486-1500). `none` is an out-of-bounds read. -/
def zipIterations {α : Type} (args : List (ZArg α)) : List (Option (List α)) :=
  (List.range (zipLength (args.map ZArg.len))).map fun k => args.mapM fun a => a.elems[k]?

/-- The values assigned in the iterations of `for i, x in enumerate(l, start)`:
builtins.py:443-488: `index + start` and `l[index]` for `index in range(len(l))`. -/
def enumIterations {α : Type} (start : Int) (l : List α) : List (Option (Int × α)) :=
  (List.range l.length).map fun (k : Nat) => (l[k]?).map fun x => ((k : Int) + start, x)

/-- A nest of loops built for `itertools.product`. -/
inductive Nest (α : Type) | body | loop (xs : List α) (inner : Nest α)

/-- `_visit_For` on a `Product`: pyccel/parser/semantic.py:5672-5690: starting from the body,
wrap a loop for each argument, from the last to the first. -/
def buildNest {α : Type} (args : List (List α)) : Nest α :=
  args.reverse.foldl (fun acc xs => .loop xs acc) .body

/-- The tuples of loop-variable values for which the innermost body is executed, in order. -/
def Nest.visits {α : Type} : Nest α → List (List α)
  | .body => [[]]
  | .loop xs inner => xs.flatMap fun x => inner.visits.map (x :: ·)

/-- The reductions over generator expressions. -/
inductive Red | sum | min | max
deriving DecidableEq

/-- Start value: 0, `MaxLimit`, `MinLimit` of the 64-bit integer type:
pyccel/parser/semantic.py:2958-2971, printed as INT64_MAX / INT64_MIN
(pyccel/codegen/printing/ccode.py `_print_MaxLimit`, `_print_MinLimit`). -/
def Red.init : Red → Int
  | .sum => 0
  | .min => 2 ^ 63 - 1
  | .max => -2 ^ 63

/-- The update in the innermost body: `lhs += e`, `lhs = min(lhs, e)`, `lhs = max(lhs, e)`:
pyccel/parser/syntactic.py:1518-1525. -/
def Red.op : Red → Int → Int → Int
  | .sum, a, b => a + b
  | .min, a, b => if a < b then a else b
  | .max, a, b => if a > b then a else b

/-- The code generated for `lhs = sum/min/max(e for idx in … if c)`: assign the start value to
`lhs` (semantic.py:3006-3009), then run the loops; `xs` are the values taken by the index
(a tuple for nested generators), `setIdx` assigns them. -/
def genReduce {σ α : Type} (red : Red) (lhs : Var σ) (setIdx : σ → α → σ) (c : σ → Bool)
    (e : σ → Int) (xs : List α) (s : σ) : σ :=
  xs.foldl (fun t x =>
    let t := setIdx t x
    if c t then lhs.set t (red.op (lhs.get t) (e t)) else t) (lhs.set s red.init)

end Verif.Loops
