/-!
# Loops over lists, arrays and dictionaries: what Python does

`for x in c: body`, where `c` is the name of a list, of an array, or of a dictionary, and where the
body can change `c`.
-/

namespace Verif.Iterate.Spec

/-- How one execution of the body ends: the loop goes on, or it ends with `break`. -/
inductive Ctl
  | next
  | brk
  deriving DecidableEq, Repr

/-! ## Lists -/

/-- A change of a list of `α`. -/
inductive Op (α : Type)
  /-- `l[k] = v` -/
  | set (k : Nat) (v : α)
  /-- `l.append(v)` -/
  | push (v : α)
  /-- `l.insert(k, v)` -/
  | insert (k : Nat) (v : α)
  /-- `l.pop(k)`, `del l[k]` -/
  | erase (k : Nat)
  deriving DecidableEq, Repr

/-- The list after a change.  (A change at a position that the list does not have is an error in
Python; here it changes nothing.) -/
def Op.run {α : Type} (l : List α) : Op α → List α
  | .set k v => l.set k v
  | .push v => l ++ [v]
  | .insert k v => if k ≤ l.length then l.insertIdx k v else l
  | .erase k => l.eraseIdx k

/-- The body of a loop: from the element, the other variables and the contents of the list, the
other variables afterwards, the changes made to the list, and how the body ends. -/
abbrev Body (σ α : Type) := α → σ → List α → σ × List (Op α) × Ctl

/-- The changes that a body makes, one after the other. -/
def runAll {α : Type} (l : List α) (ops : List (Op α)) : List α := ops.foldl Op.run l

/-- The loop over a list, from the element at position `k`.  Python's iterator of a list is a
position: it is compared with the length that the list has at that moment, and the element is read
at that moment.  `PyLoop body k s l j s' l' c`: starting with the variables `s` and the list `l`,
the loop ends (by itself or with `break`, according to `c`) after it has visited `j` elements
(counted from the beginning of the list), with the variables `s'` and the list `l'`. -/
inductive PyLoop {σ α : Type} (body : Body σ α) :
    Nat → σ → List α → Nat → σ → List α → Ctl → Prop
  | done {k s l} : l.length ≤ k → PyLoop body k s l k s l .next
  | brk {k s l x s' ops} : l[k]? = some x → body x s l = (s', ops, .brk) →
      PyLoop body k s l (k + 1) s' (runAll l ops) .brk
  | next {k s l x s' ops j r m c} : l[k]? = some x → body x s l = (s', ops, .next) →
      PyLoop body (k + 1) s' (runAll l ops) j r m c → PyLoop body k s l j r m c

/-- `for x in l: body` in Python. -/
def PyFor {σ α : Type} (body : Body σ α) (s : σ) (l : List α) (j : Nat) (s' : σ) (l' : List α)
    (c : Ctl) : Prop :=
  PyLoop body 0 s l j s' l' c

/-! ## Arrays -/

/-- What a body can do to the array `a` that is iterated over: change an element, or give the name
`a` to another array. -/
inductive AOp (α : Type)
  /-- `a[k] = v` -/
  | write (k : Nat) (v : α)
  /-- `a = ...` -/
  | rebind (b : List α)
  deriving DecidableEq, Repr

/-- The body of a loop over an array: it sees what the name `a` denotes. -/
abbrev ABody (σ α : Type) := α → σ → List α → σ × List (AOp α) × Ctl

/-- The array that the loop was started with, and, if the name has been given to another array, that
one. -/
structure Bound (α : Type) where
  obj : List α
  other : Option (List α)
  deriving DecidableEq, Repr

/-- What the name `a` denotes. -/
def Bound.cur {α : Type} (b : Bound α) : List α := b.other.getD b.obj

/-- A change, in Python. -/
def AOp.run {α : Type} (b : Bound α) : AOp α → Bound α
  | .write k v =>
    match b.other with
    | none => { b with obj := b.obj.set k v }
    | some o => { b with other := some (o.set k v) }
  | .rebind o => { b with other := some o }

/-- The loop over an array in Python, from position `k`, with `m` elements to visit: the iterator
holds the array itself, not its name. -/
def pyArr {σ α : Type} (body : ABody σ α) : Nat → Nat → σ → Bound α → σ × Bound α × Ctl
  | 0, _, s, b => (s, b, .next)
  | m + 1, k, s, b =>
    match b.obj[k]? with
    | none => (s, b, .next)
    | some x =>
      match body x s b.cur with
      | (s', ops, .brk) => (s', ops.foldl AOp.run b, .brk)
      | (s', ops, .next) => pyArr body m (k + 1) s' (ops.foldl AOp.run b)

/-- `for x in a: body` in Python: the variables afterwards, what `a` denotes, and how the loop
ended. -/
def pyArrFor {σ α : Type} (body : ABody σ α) (s : σ) (a : List α) : σ × List α × Ctl :=
  match pyArr body a.length 0 s ⟨a, none⟩ with
  | (s', b, c) => (s', b.cur, c)

/-! ## Dictionaries -/

/-- The body of a loop over the items of a dictionary (or the elements of a set) that does not
change it. -/
abbrev DBody (σ κ ν : Type) := κ → ν → σ → σ × Ctl

/-- Visit items in a given order, until `break`. -/
def visit {σ κ ν : Type} (body : DBody σ κ ν) : List (κ × ν) → σ → σ
  | [], s => s
  | (k, v) :: r, s =>
    match body k v s with
    | (s', .next) => visit body r s'
    | (s', .brk) => s'

/-- `for k, v in d.items(): body` in Python, for a dictionary given as its items in the order in
which the keys were inserted: that is the order in which they are visited. -/
def pyDict {σ κ ν : Type} (body : DBody σ κ ν) (d : List (κ × ν)) (s : σ) : σ := visit body d s

/-- The keys of a dictionary are different. -/
def Keys {κ ν : Type} (d : List (κ × ν)) : Prop := (d.map Prod.fst).Nodup

/-- The order of two items does not matter to the body, and it has no `break`. -/
def Commutes {σ κ ν : Type} (body : DBody σ κ ν) : Prop :=
  (∀ k v s, (body k v s).2 = .next) ∧
  ∀ k v k' v' s, (body k v (body k' v' s).1).1 = (body k' v' (body k v s).1).1

end Verif.Iterate.Spec
