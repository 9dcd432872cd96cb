import Verif.Iterate.Spec

/-!
# Loops over lists, arrays and dictionaries: model of the code

`CCodePrinter._print_For` (codegen/printing/ccode.py 3433-3520) and `FCodePrinter._print_For`
(codegen/printing/fcode.py 3134-3216), with `VariableIterator.get_range` and `get_assign_targets`
(ast/builtins.py 1772-1812), `Variable.shape_can_change` (ast/variable.py 251-272) and the printing
of the length of a container (ccode.py 2420-2442, fcode.py 2078-2106).

The libraries STC and gFTL are not part of the repository.  What is assumed of them:

* `c_each(it, T, v)` of STC on a vector takes the addresses of the first element and of the end of
  the elements when the loop starts, and then goes from one to the other; `push` and `insert` put the
  element into the buffer of the vector if there is room, and otherwise move the elements to another
  buffer and free the first; `erase` and `pull` move the elements that follow down by one place and
  leave the memory after them as it is;
* a hash map or hash set of STC is visited in the order of its table, which is some order;
* `Vector % of(k)` of gFTL outside the vector is undefined; `Map` and `Set` are sorted by key.

The elements are scalars, the iterated object is a variable, and the length of a loop is below
`2^63`.
-/

namespace Verif.Iterate.Model
open Spec

/-- The result of generated code: it can have undefined behaviour. -/
inductive Out (β : Type)
  | ok (v : β)
  | ub
  deriving DecidableEq, Repr

/-! ## Lists in Fortran -/

/-- `m` more turns of `do i = 0, l % size() - 1`, from `i = k`: fcode.py 3187-3209.  The number of
turns of a Fortran loop is computed once, when it starts.  Each turn begins with the assignment of
the element to the target (3199-3206). -/
def fLoop {σ α : Type} (body : Body σ α) : Nat → Nat → σ → List α → Out (σ × List α × Ctl)
  | 0, _, s, l => .ok (s, l, .next)
  | m + 1, k, s, l =>
    match l[k]? with
    | none => .ub
    | some x =>
      match body x s l with
      | (s', ops, .brk) => .ok (s', runAll l ops, .brk)
      | (s', ops, .next) => fLoop body m (k + 1) s' (runAll l ops)

/-- The loop over a list in Fortran: ast/builtins.py 1772-1783, with `l % size()` (fcode.py
2097-2100), which a list always has instead of a constant (ast/variable.py 268-272). -/
def fFor {σ α : Type} (body : Body σ α) (s : σ) (l : List α) : Out (σ × List α × Ctl) :=
  fLoop body l.length 0 s l

/-! ## Lists in C -/

/-- A vector of STC: its elements, and the rest of its buffer (`none`: never written). -/
structure Vec (α : Type) where
  live : List α
  rest : List (Option α)
  deriving DecidableEq, Repr

/-- The room in a new buffer, beyond what is needed (assumed of STC only that it is some number). -/
abbrev Growth := Nat → Nat

/-- A change of a vector, and whether its buffer was moved. -/
def Vec.run {α : Type} (g : Growth) (v : Vec α) : Op α → Vec α × Bool
  | .set k x => ({ v with live := v.live.set k x }, false)
  | .push x =>
    match v.rest with
    | [] => (⟨v.live ++ [x], List.replicate (g v.live.length) none⟩, true)
    | _ :: r => (⟨v.live ++ [x], r⟩, false)
  | .insert k x =>
    if k ≤ v.live.length then
      match v.rest with
      | [] => (⟨v.live.insertIdx k x, List.replicate (g v.live.length) none⟩, true)
      | _ :: r => (⟨v.live.insertIdx k x, r⟩, false)
    else (v, false)
  | .erase k =>
    if k < v.live.length then
      (⟨v.live.eraseIdx k, v.live.getLast? :: v.rest⟩, false)
    else (v, false)

/-- The changes that the body makes. -/
def Vec.runAll {α : Type} (g : Growth) : Vec α → List (Op α) → Vec α × Bool
  | v, [] => (v, false)
  | v, o :: r =>
    let a := v.run g o
    let b := Vec.runAll g a.1 r
    (b.1, a.2 || b.2)

/-- `m` more turns of `for (c_each(it, T, l)) { x = *it.ref; body }`, from the `k`-th place of the
buffer: ccode.py 3439-3451 and 3479-3481.  `moved`: the buffer in which the iterator points has been
freed. -/
def cLoop {σ α : Type} (g : Growth) (body : Body σ α) :
    Nat → Nat → σ → Vec α → Bool → Out (σ × List α × Ctl)
  | 0, _, s, v, _ => .ok (s, v.live, .next)
  | m + 1, k, s, v, moved =>
    if moved then .ub
    else
      match (v.live.map some ++ v.rest)[k]? with
      | some (some x) =>
        match body x s v.live with
        | (s', ops, .brk) => .ok (s', (v.runAll g ops).1.live, .brk)
        | (s', ops, .next) => cLoop g body m (k + 1) s' (v.runAll g ops).1 (v.runAll g ops).2
      | _ => .ub

/-- The loop over a list in C, for a vector with the given unused places. -/
def cFor {σ α : Type} (g : Growth) (body : Body σ α) (s : σ) (l : List α) (rest : List (Option α)) :
    Out (σ × List α × Ctl) :=
  cLoop g body l.length 0 s ⟨l, rest⟩ false

/-! ## Arrays -/

/-- A change of the array in generated code: there is one variable, and an assignment to it writes
the new elements into it, after it has been given the new length (parser/semantic.py 2849-2876). -/
def aRun {α : Type} (a : List α) : AOp α → List α
  | .write k v => a.set k v
  | .rebind b => b

/-- `for (i = 0; i < a.shape[0]; i += 1) { x = a[i]; body }`: ccode.py 3482-3520.  The condition is
evaluated before every turn.  `CArr body k s a s' a' c` as in `PyLoop`. -/
inductive CArr {σ α : Type} (body : ABody σ α) :
    Nat → σ → List α → σ → List α → Ctl → Prop
  | done {k s a} : a.length ≤ k → CArr body k s a s a .next
  | brk {k s a x s' ops} : a[k]? = some x → body x s a = (s', ops, .brk) →
      CArr body k s a s' (ops.foldl aRun a) .brk
  | next {k s a x s' ops r b c} : a[k]? = some x → body x s a = (s', ops, .next) →
      CArr body (k + 1) s' (ops.foldl aRun a) r b c → CArr body k s a r b c

/-- `m` more turns of `do i = 0, size(a) - 1`: fcode.py 3187-3209 (the array has the bounds `0:`). -/
def fArr {σ α : Type} (body : ABody σ α) : Nat → Nat → σ → List α → Out (σ × List α × Ctl)
  | 0, _, s, a => .ok (s, a, .next)
  | m + 1, k, s, a =>
    match a[k]? with
    | none => .ub
    | some x =>
      match body x s a with
      | (s', ops, .brk) => .ok (s', ops.foldl aRun a, .brk)
      | (s', ops, .next) => fArr body m (k + 1) s' (ops.foldl aRun a)

/-- The loop over an array in C. -/
def CArrFor {σ α : Type} (body : ABody σ α) (s : σ) (a : List α) (s' : σ) (a' : List α) (c : Ctl) :
    Prop :=
  CArr body 0 s a s' a' c

/-- The loop over an array in Fortran. -/
def fArrFor {σ α : Type} (body : ABody σ α) (s : σ) (a : List α) : Out (σ × List α × Ctl) :=
  fArr body a.length 0 s a

/-! ## Dictionaries and sets -/

/-- Put an item in its place in a list sorted by key. -/
def place {ν : Type} (p : Int × ν) : List (Int × ν) → List (Int × ν)
  | [] => [p]
  | q :: r => if p.1 ≤ q.1 then p :: q :: r else q :: place p r

/-- The order in which a `Map` of gFTL (fcode.py 641-646) holds its items. -/
def sorted {ν : Type} : List (Int × ν) → List (Int × ν)
  | [] => []
  | p :: r => place p (sorted r)

/-- `it = d % begin()`, `last = d % end()`, `do while (it /= last)`, `k = it % first()`,
`v = it % second()`, …, `call it % next()`: fcode.py 3140-3185.  (Integer keys.  A set has the element
alone, `it % of()`.) -/
def fDict {σ ν : Type} (body : DBody σ Int ν) (d : List (Int × ν)) (s : σ) : σ :=
  visit body (sorted d) s

/-- `for (c_each(it, T, d)) { k = it.ref->first; v = it.ref->second; … }`: ccode.py 3456-3478, for a
hash table that holds its items in the given order. -/
def cDict {σ κ ν : Type} (body : DBody σ κ ν) (slots : List (κ × ν)) (s : σ) : σ :=
  visit body slots s

end Verif.Iterate.Model
