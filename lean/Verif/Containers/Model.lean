import Verif.Containers.Spec

/-!
# Lists, sets, dictionaries and managed pointers: model of the code

`pyccel/stdlib/STC_Extensions/*.h` (C), `pyccel/stdlib/gFTL_functions/*.inc` (Fortran), the printing
of the methods of lists, sets and dictionaries in `codegen/printing/ccode.py` and `fcode.py`, and
their translation in `parser/semantic.py`.

The libraries STC and gFTL are not part of the repository; what they document is assumed:

* a vector is a sequence with `push`, `insert_at`, `erase_at`; `advance` from its beginning gives
  an iterator without an element when it reaches the end, and dereferencing that one, or a position
  before the beginning, is undefined;
* a hash set or map is visited in some order that every change can disturb; an element that has not
  been visited when another one is erased is still visited afterwards, and one that has been visited
  may be visited again (the erasure in a table with open addressing moves elements);
* `at` and `at_mut` of a key that is not there, and `pull` on an empty vector, are undefined.
-/

namespace Verif.Containers.Model
open Spec

variable {α : Type}

/-! ## Lists in C -/

/-- An iterator of a vector: at an element, without one (`ref == NULL`), or outside the buffer. -/
inductive Iter
  | at (k : Nat)
  | null
  | wild
  deriving DecidableEq, Repr

/-- `advance(begin(self), i)` of STC. -/
def advance (l : List α) (i : Int) : Iter :=
  if i < 0 then .wild else if i.toNat < l.length then .at i.toNat else .null

/-- `_pull_elem`: stdlib/STC_Extensions/List_extensions.h 9-21. -/
def pullElem (l : List α) (i : Int) : Out (α × List α) :=
  match advance l i with
  | .at k =>
    match l[k]? with
    | some v => .ok (v, l.take k ++ l.drop (k + 1))
    | none => .ub
  | .null => .ub
  | .wild => .ub

/-- `pull` of STC: remove and return the last element. -/
def pull (l : List α) : Out (α × List α) :=
  match l.getLast? with
  | some v => .ok (v, l.dropLast)
  | none => .ub

/-- The index of a call to `pop`: none, an integer literal (with or without a minus sign), or any
other expression, which has some value at run time. -/
inductive Idx
  | absent
  | lit (k : Int)
  | dyn (v : Int)
  deriving DecidableEq, Repr

/-- The index for Python. -/
def Idx.value : Idx → Int
  | .absent => -1
  | .lit k => k
  | .dyn v => v

/-- `CCodePrinter._print_ListPop`: ccode.py 3888-3916 (the index part).  The length that is added to
a negative literal is `PythonLen(list)`, for a list the size at run time (ast/variable.py 251-272). -/
def cPop (l : List α) : Idx → Out (α × List α)
  | .absent => pull l
  | .lit k => pullElem l (if k < 0 then l.length + k else k)
  | .dyn v => pullElem l v

/-- 64-bit signed arithmetic. -/
def wrap (i : Int) : Int := (i + 2 ^ 63) % 2 ^ 64 - 2 ^ 63

/-- 64-bit conversion to unsigned. -/
def unsigned (i : Int) : Int := i % 2 ^ 64

/-- `_insert`: List_extensions.h 50-65.  `idx += (intptr_t)n` is 64-bit arithmetic, and the
comparison with `n` is an unsigned one. -/
def cInsert (l : List α) (idx : Int) (v : α) : Out (List α) :=
  let n : Int := l.length
  let idx := if idx < 0 then wrap (idx + n) else idx
  let idx := if idx < 0 then 0 else idx
  if unsigned idx ≥ n then .ok (l ++ [v])
  else match advance l idx with
    | .at k => .ok (l.take k ++ v :: l.drop k)
    | .null => .ub
    | .wild => .ub

/-- The loop of `_min` (List_extensions.h 26-34), of `_max` with `less` the other way round (37-45),
and of `_min`, `_max` of sets (Set_extensions.h 102-125): the elements are visited in order, the
first one included. -/
def scan (less : α → α → Bool) (best : α) : List α → α
  | [] => best
  | x :: l => scan less (if less x best then x else best) l

/-- `_min`: List_extensions.h 26-34 and Set_extensions.h 102-112. -/
def cMin (less : α → α → Bool) : List α → Out α
  | [] => .ub
  | a :: t => .ok (scan less a (a :: t))

/-- `_max`: List_extensions.h 37-45 and Set_extensions.h 115-125. -/
def cMax (less : α → α → Bool) : List α → Out α
  | [] => .ub
  | a :: t => .ok (scan (fun x b => less b x) a (a :: t))

/-- `l.extend(m)` for two variables: a loop over `m` that appends to `l`
(`SemanticParser._build_ListExtend`: semantic.py 7521-7554). -/
def extend (l : List α) : List α → List α
  | [] => l
  | x :: m => extend (l ++ [x]) m

/-- `l.extend(l)` in C: `for (c_each(it, vec, l)) { index = *it.ref; push(&l, index); }`
(ccode.py 3438-3478).  The iterator has the addresses of the next element and of the end of the
buffer as they were at the beginning; `push` moves the elements to another buffer when there is no
room (`cap` elements fit), and then the iterator is of no use any more. -/
def cExtendSelf (cap : Nat) (dangling : Bool) (l : List α) : List α → Out (List α)
  | [] => .ok l
  | x :: todo =>
    if dangling then .ub
    else cExtendSelf (if l.length = cap then 2 * cap + 1 else cap) (decide (l.length = cap))
      (l ++ [x]) todo

/-- `l.extend(l)` in Fortran: `do i = 0, size - 1; index = l(i); call l % push_back(index)`
(fcode.py 3186-3216); the bound is evaluated once, the element is read in each iteration. -/
def fExtendSelf (l : List α) (i : Nat) : Nat → Out (List α)
  | 0 => .ok l
  | k + 1 =>
    match l[i]? with
    | some x => fExtendSelf (l ++ [x]) (i + 1) k
    | none => .ub

/-- `l.extend([e₁, e₂, …])`: one `append` for each expression (semantic.py 7523-7540).  An expression
may read the list. -/
def extendLit (l : List α) : List (List α → α) → List α
  | [] => l
  | e :: es => extendLit (l ++ [e l]) es

/-! ## Lists in Fortran -/

/-- `FCodePrinter._print_ListPop`: fcode.py 1556-1597. -/
def fPop (l : List α) : Idx → Out (α × List α)
  | .absent => pull l
  | .lit k => pullElem l (if k < 0 then l.length - (-k) else k)
  | .dyn v => pullElem l v

/-- `Vector_insert`: stdlib/gFTL_functions/Vector_extensions.inc 83-102 (`insert` of gFTL puts the
value before the iterator). -/
def fInsert (l : List α) (idx : Int) (v : α) : Out (List α) :=
  let n : Int := l.length
  let pos := idx
  let pos := if pos < 0 then wrap (pos + n) else pos
  let pos := if pos < 0 then 0 else pos
  let pos := if pos > n then n else pos
  if 0 ≤ pos ∧ pos ≤ n then .ok (l.take pos.toNat ++ v :: l.drop pos.toNat) else .ub

/-- `Vector_reverse`: Vector_extensions.inc 13-31.  Positions begin with 1. -/
def fReverse (l : List α) (left right : Nat) : Out (List α) :=
  if left < right then
    match l[left - 1]?, l[right - 1]? with
    | some x, some y => fReverse ((l.set (left - 1) y).set (right - 1) x) (left + 1) (right - 1)
    | _, _ => .ub
  else .ok l
termination_by right - left

/-- `Vector_min`: Vector_extensions.inc 33-56 (`stop` for an empty vector). -/
def fMin (less : α → α → Bool) : List α → Out α
  | [] => .ub
  | a :: t => .ok (scan less a (a :: t))

/-- `Vector_max`: Vector_extensions.inc 58-81. -/
def fMax (less : α → α → Bool) : List α → Out α
  | [] => .ub
  | a :: t => .ok (scan (fun x b => less b x) a (a :: t))

/-! ## Sets

A set is the list of its elements in the order in which an iterator visits them. -/

section
variable [DecidableEq α]

/-- `insert`: an element that is there is left as it is. -/
def insertElem (s : List α) (x : α) : List α := if x ∈ s then s else s ++ [x]

/-- Insert all elements of `t` (Set_extensions.h 33-37; fcode.py 1664: `insert(begin, end)`;
semantic.py 7955-7969: a loop with `add`). -/
def insertAll (s : List α) : List α → List α
  | [] => s
  | x :: t => insertAll (insertElem s x) t

/-- One turn of the loops of `_intersection_update` and `_difference_update`
(Set_extensions.h 47-76, Set_extensions.inc 32-68): the elements that the iterator has passed, and
the rest, beginning with the one it is at.  `erases` tells from the present contents whether an
element is erased.  Erasing may bring elements that have been passed (`back`) in front of the
iterator again. -/
inductive Turn (erases : List α → α → Bool) : List α × List α → List α × List α → Prop
  | next (seen : List α) (x : α) (todo : List α) (h : erases (seen ++ x :: todo) x = false) :
      Turn erases (seen, x :: todo) (seen ++ [x], todo)
  | erase (seen : List α) (x : α) (todo back seen' todo' : List α)
      (h : erases (seen ++ x :: todo) x = true)
      (hs : seen.Perm (seen' ++ back)) (ht : todo'.Perm (todo ++ back)) :
      Turn erases (seen, x :: todo) (seen', todo')

/-- Any number of turns. -/
inductive Turns (erases : List α → α → Bool) : List α × List α → List α × List α → Prop
  | refl (c : List α × List α) : Turns erases c c
  | step {a b c : List α × List α} (h : Turn erases a b) (hs : Turns erases b c) : Turns erases a c

/-- The whole loop, from the first element in some order of the set, until none is left. -/
def Loop (erases : List α → α → Bool) (s r : List α) : Prop :=
  ∃ o, o.Perm s ∧ Turns erases ([], o) (r, [])

/-- A variable gets a value. -/
def put (env : Nat → List α) (d : Nat) (r : List α) : Nat → List α := fun v => if v = d then r else env v

/-- `other` as the function sees it: the set itself, if the same variable is passed twice. -/
def other (env : Nat → List α) (d t : Nat) (cur : List α) : List α := if t = d then cur else env t

/-- What one call leaves in `d`: `add` in a loop, `intersection_update(d, t)` and
`difference_update(d, t)` (ccode.py 3991-4015, fcode.py 1673-1695). -/
def Update1 (op : SetOp) (env : Nat → List α) (d t : Nat) (r : List α) : Prop :=
  match op with
  | .union => r.Perm (insertAll (env d) (env t))
  | .inter => Loop (fun cur x => !(other env d t cur).contains x) (env d) r
  | .diff => Loop (fun cur x => (other env d t cur).contains x) (env d) r

/-- One call after the other, one for each argument (ccode.py 3999-4002, 4011-4014; fcode.py
1680-1683, 1692-1695; semantic.py 7949-7971). -/
inductive Updates (op : SetOp) (d : Nat) : (Nat → List α) → List Nat → (Nat → List α) → Prop
  | nil (env : Nat → List α) : Updates op d env [] env
  | cons {env env' : Nat → List α} {t : Nat} {ts : List Nat} {r : List α}
      (h : Update1 op env d t r) (hs : Updates op d (put env d r) ts env') :
      Updates op d env (t :: ts) env'

/-- Statements in Fortran.  Intersections and differences are a copy and updates
(`_build_SetIntersection`: semantic.py 8075-8103, `_build_SetDifference` 8403-8431), the union is a
copy to the target and an insertion of each argument (fcode.py 1640-1672); variables of these types
are not reallocated (fcode.py 2672-2673). -/
inductive FExec (env : Nat → List α) : SetStmt → Out (Nat → List α) → Prop
  | assign (op : SetOp) (first : Bool) (d s : Nat) (ts : List Nat) (r : List α) (env' : Nat → List α)
      (hr : r.Perm (env s)) (h : Updates op d (put env d r) ts env') :
      FExec env (.assign op first d s ts) (.ok env')
  | update (op : SetOp) (d : Nat) (ts : List Nat) (env' : Nat → List α) (h : Updates op d env ts env') :
      FExec env (.update op d ts) (.ok env')

/-- The union of a set with others: `_union`, Set_extensions.h 25-42. -/
def unionAll (s : List α) : List (List α) → List α
  | [] => s
  | t :: ts => unionAll (insertAll s t) ts

/-- Statements in C.  A variable that has a value already is reallocated before the statement
(semantic.py 2751-2880, `Allocate` with status `allocated`): for a union, whose size is not known,
it is dropped (ccode.py 2451-2454), and for the copy that begins an intersection or a difference it
is cleared (ccode.py 2460-2465).  Arguments of functions, for which this is an error, and status
`unknown`, which is the same for these types, are left out. -/
inductive CExec (env : Nat → List α) : SetStmt → Out (Nat → List α) → Prop
  | union (d s : Nat) (ts : List Nat) (first : Bool) (r : List α)
      (hd : first = true ∨ (s ≠ d ∧ d ∉ ts)) (hr : r.Perm (unionAll (env s) (ts.map env))) :
      CExec env (.assign .union first d s ts) (.ok (put env d r))
  | dropped (d s : Nat) (ts : List Nat) (hd : s = d ∨ d ∈ ts) :
      CExec env (.assign .union false d s ts) .ub
  | assign (op : SetOp) (hop : op ≠ .union) (first : Bool) (d s : Nat) (ts : List Nat) (r : List α)
      (env' : Nat → List α)
      (hr : r.Perm ((if first then env else put env d []) s)) (h : Updates op d (put env d r) ts env') :
      CExec env (.assign op first d s ts) (.ok env')
  | update (op : SetOp) (d : Nat) (ts : List Nat) (env' : Nat → List α) (h : Updates op d env ts env') :
      CExec env (.update op d ts) (.ok env')

/-- The loop of `is_disjoint`. -/
def noneIn (longest : List α) : List α → Bool
  | [] => true
  | x :: l => if longest.contains x then false else noneIn longest l

/-- `_is_disjoint`: Set_extensions.h 84-98.  `same`: both arguments are the same object. -/
def cDisjoint (same : Bool) (self other : List α) : Bool :=
  if self.length < other.length then noneIn other self
  else if same then noneIn other self else noneIn self other

/-- `Set_is_disjoint`: Set_extensions.inc 70-102. -/
def fDisjoint (self other : List α) : Bool :=
  if self.length > other.length then noneIn self other else noneIn other self

/-- `_pop`: Set_extensions.h 8-17, Set_pop: Set_extensions.inc 17-30. -/
def setPop : List α → Out (α × List α)
  | [] => .ub
  | x :: s => .ok (x, s)

/-- `discard` and `remove` are both `erase` (ast/class_defs.py 261-267; ccode.py 4017-4021,
fcode.py 1697-1701). -/
def discard (s : List α) (x : α) : List α := s.filter (fun y => y ≠ x)

end

/-- `Set_min`: Set_extensions.inc 105-114: the first of the elements, which gFTL keeps sorted. -/
def fSetMin : List α → Out α
  | [] => .ub
  | x :: _ => .ok x

/-- `Set_max`: Set_extensions.inc 117-128. -/
def fSetMax (s : List α) : Out α :=
  match s.getLast? with
  | some x => .ok x
  | none => .ub

/-! ## Dictionaries

A dictionary is the list of its pairs in the order in which an iterator visits them. -/

section
variable {K V : Type} [DecidableEq K]

/-- `at`: the value of a key that must be there. -/
def look (m : List (K × V)) (k : K) : Out V :=
  match m.find? (fun p => p.1 = k) with
  | some p => .ok p.2
  | none => .ub

/-- `contains` -/
def contains (m : List (K × V)) (k : K) : Bool := m.any (fun p => p.1 = k)

/-- `erase` of a key -/
def erase (m : List (K × V)) (k : K) : List (K × V) := m.filter (fun p => p.1 ≠ k)

/-- `_pop`: Dict_extensions.h 11-15, `Map_pop`: Map_extensions.inc 12-24. -/
def mapPop (m : List (K × V)) (k : K) : Out (V × List (K × V)) :=
  match look m k with
  | .ok v => .ok (v, erase m k)
  | .ub => .ub

/-- The operations: `_print_DictGetItem` (ccode.py 4098-4117, `at` and, for an assignment, `at_mut`;
fcode.py 1720-1723), `_print_DictGet` (ccode.py 4045-4064), `_print_DictPop` (ccode.py 4066-4083,
fcode.py 1725-1739), `pop_with_default` (Dict_extensions.h 26-31, Map_extensions.inc 26-43),
`popitem` (Dict_extensions.h 40-45, Map_extensions.inc 45-59), `_print_PyccelIn` (ccode.py 1433-1443,
fcode.py 3805-3811), `_print_DictClear`.  Fortran has no `get` with a default. -/
def dictStep (m : List (K × V)) : DictOp K V → Out (Val K V × List (K × V))
  | .item k =>
    match look m k with
    | .ok v => .ok (.value v, m)
    | .ub => .ub
  | .setItem k v =>
    match look m k with
    | .ok _ => .ok (.nothing, m.map (fun p => if p.1 = k then (p.1, v) else p))
    | .ub => .ub
  | .get k v =>
    if contains m k then
      match look m k with
      | .ok v => .ok (.value v, m)
      | .ub => .ub
    else .ok (.value v, m)
  | .pop k =>
    match mapPop m k with
    | .ok (v, m) => .ok (.value v, m)
    | .ub => .ub
  | .popDefault k v =>
    if contains m k then
      match mapPop m k with
      | .ok (v, m) => .ok (.value v, m)
      | .ub => .ub
    else .ok (.value v, m)
  | .popitem =>
    match m with
    | [] => .ub
    | p :: m => .ok (.pair p.1 p.2, m)
  | .mem k => .ok (.bool (contains m k), m)
  | .clear => .ok (.nothing, [])

/-- A value in front of those that the rest of a history returns. -/
def first (v : Val K V) :
    Out (List (Val K V) × List (K × V)) → Out (List (Val K V) × List (K × V))
  | .ok (vs, e) => .ok (v :: vs, e)
  | .ub => .ub

/-- A history of operations with what they return.  The order of the pairs may change with every
operation. -/
inductive DictRun : List (K × V) → List (DictOp K V) → Out (List (Val K V) × List (K × V)) → Prop
  | nil (m : List (K × V)) : DictRun m [] (.ok ([], m))
  | ub (m : List (K × V)) (o : DictOp K V) (os : List (DictOp K V)) (h : dictStep m o = .ub) :
      DictRun m (o :: os) .ub
  | step {m m' m'' : List (K × V)} {o : DictOp K V} {os : List (DictOp K V)} {v : Val K V}
      {r : Out (List (Val K V) × List (K × V))}
      (h : dictStep m o = .ok (v, m')) (hp : m''.Perm m') (hs : DictRun m'' os r) :
      DictRun m (o :: os) (first v r)

end

/-! ## Managed pointers -/

/-- `struct { value* get; bool is_owning; }`: Managed_memory.h 9-13.  Objects that `make` created
have a number; `none` is a local variable. -/
structure Handle where
  get : Option Nat
  owning : Bool
  deriving DecidableEq, Repr

/-- The variables, how often each object has been freed, and the number of the next object. -/
structure Heap where
  var : Nat → Option Handle
  freed : Nat → Nat
  next : Nat

def Heap.start : Heap := ⟨fun _ => none, fun _ => 0, 0⟩

def Heap.assign (s : Heap) (h : Nat) (p : Handle) : Heap :=
  { s with var := fun x => if x = h then some p else s.var x }

/-- `free` of an object. -/
def Heap.free (s : Heap) (o : Nat) : Heap :=
  { s with freed := fun x => if x = o then s.freed x + 1 else s.freed x }

/-- Managed_memory.h 29-69; a variable without a value is not to be used.  `_drop` and `_release` do
not change the handle; freeing a local variable, and releasing what is not owned, are undefined. -/
def Heap.step (s : Heap) : PtrOp → Out Heap
  | .make h => .ok ({ s with next := s.next + 1 }.assign h ⟨some s.next, true⟩)
  | .fromVar h => .ok (s.assign h ⟨none, false⟩)
  | .clone h g =>
    match s.var g with
    | some p => .ok (s.assign h ⟨p.get, false⟩)
    | none => .ub
  | .steal h g =>
    match s.var g with
    | some p => .ok (s.assign h p)
    | none => .ub
  | .drop g =>
    match s.var g with
    | some ⟨some o, true⟩ => .ok (s.free o)
    | some ⟨none, true⟩ => .ub
    | some ⟨_, false⟩ => .ok s
    | none => .ub
  | .release g =>
    match s.var g with
    | some ⟨some o, true⟩ => .ok (s.free o)
    | some ⟨none, true⟩ => .ub
    | some ⟨_, false⟩ => .ub
    | none => .ub

/-- A history of operations. -/
def Heap.run (s : Heap) : List PtrOp → Out Heap
  | [] => .ok s
  | o :: os =>
    match s.step o with
    | .ok s => s.run os
    | .ub => .ub

end Verif.Containers.Model
