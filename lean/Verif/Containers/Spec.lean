/-!
# Lists, sets, dictionaries and managed pointers: specification

What Python's containers do, stated on their elements; and what it means for a history of
operations on managed pointers to use each of them properly.
-/

namespace Verif.Containers.Spec

/-- What a piece of generated code does: it ends with a value, or its behaviour is undefined (it
crashes, aborts or goes on with garbage). -/
inductive Out (β : Type) where
  | ok (b : β)
  | ub
  deriving DecidableEq, Repr

/-! ## Lists -/

/-- The position from the front that the Python index `i` of a list of `n` elements denotes. -/
def addr (n : Nat) (i : Int) : Int := if i < 0 then i + n else i

/-- The place where `l.insert(i, x)`, that is `l[i:i] = [x]`, puts `x`: positions before the front
are the front, those after the end are the end. -/
def slot (n : Nat) (i : Int) : Nat := (min (max (addr n i) 0) n).toNat

/-- After Python's `l.insert(i, x)` the list `l` has become `r`. -/
structure Inserted {α : Type} (l : List α) (i : Int) (x : α) (r : List α) : Prop where
  longer : r.length = l.length + 1
  before : ∀ j, j < slot l.length i → r[j]? = l[j]?
  there : r[slot l.length i]? = some x
  after : ∀ j, slot l.length i ≤ j → r[j + 1]? = l[j]?

/-- Python's `l.pop(i)` returns `v` and leaves `r`.  If there are no such `v` and `r`, Python raises
IndexError. -/
structure Popped {α : Type} (l : List α) (i : Int) (v : α) (r : List α) : Prop where
  shorter : r.length + 1 = l.length
  ok : ∃ p : Nat, (p : Int) = addr l.length i ∧ l[p]? = some v ∧
    (∀ j, j < p → r[j]? = l[j]?) ∧ (∀ j, p ≤ j → r[j]? = l[j + 1]?)

/-- Python's `min(l)` for the list with first element `a` and the others `t`: the best so far is
given up for every element that is smaller.  (With elements that are not ordered, such as NaN, the
result depends on the order of the elements.) -/
def least {α : Type} (less : α → α → Bool) : α → List α → α
  | a, [] => a
  | a, x :: t => least less (if less x a then x else a) t

/-! ## Sets -/

/-- The binary operations on sets. -/
inductive SetOp
  | union | inter | diff
  deriving DecidableEq, Repr

/-- `x` is in the result of the operation on `s` and the sets `ts`, as mathematics has it. -/
def SetOp.mem {α : Type} (x : α) (s : List α) (ts : List (List α)) : SetOp → Prop
  | .union => x ∈ s ∨ ∃ t ∈ ts, x ∈ t
  | .inter => x ∈ s ∧ ∀ t ∈ ts, x ∈ t
  | .diff => x ∈ s ∧ ∀ t ∈ ts, x ∉ t

/-- A statement on set variables (which are numbered). -/
inductive SetStmt
  /-- `d = s.op(t₁, t₂, …)`; `first` says that `d` has no value yet. -/
  | assign (op : SetOp) (first : Bool) (d s : Nat) (ts : List Nat)
  /-- `d.update(t₁, …)`, `d.intersection_update(t₁, …)`, `d.difference_update(t₁, …)`, `d |= t`,
  `d &= t` and `d -= t`. -/
  | update (op : SetOp) (d : Nat) (ts : List Nat)
  deriving DecidableEq, Repr

def SetStmt.target : SetStmt → Nat
  | .assign _ _ d _ _ => d
  | .update _ d _ => d

/-- What Python makes of the statement: the target has the elements that the operation gives on the
values *before* the statement. -/
def SetStmt.result {α : Type} (env : Nat → List α) (x : α) : SetStmt → Prop
  | .assign op _ _ s ts => op.mem x (env s) (ts.map env)
  | .update op d ts => op.mem x (env d) (ts.map env)

/-! ## Dictionaries -/

/-- Operations on a dictionary. -/
inductive DictOp (K V : Type)
  /-- `d[k]` -/
  | item (k : K)
  /-- `d[k] = v` -/
  | setItem (k : K) (v : V)
  /-- `d.get(k, v)` -/
  | get (k : K) (v : V)
  /-- `d.pop(k)` -/
  | pop (k : K)
  /-- `d.pop(k, v)` -/
  | popDefault (k : K) (v : V)
  /-- `d.popitem()` -/
  | popitem
  /-- `k in d` -/
  | mem (k : K)
  /-- `d.clear()` -/
  | clear
  deriving DecidableEq, Repr

/-- What an operation returns. -/
inductive Val (K V : Type)
  | nothing
  | value (v : V)
  | pair (k : K) (v : V)
  | bool (b : Bool)
  deriving DecidableEq, Repr

section
variable {K V : Type} [DecidableEq K]

/-- The value of a key in a dictionary given as the list of its pairs, oldest first. -/
def value (d : List (K × V)) (k : K) : Option V := (d.find? (fun p => p.1 = k)).map (·.2)

/-- The dictionary without the key. -/
def without (d : List (K × V)) (k : K) : List (K × V) := d.filter (fun p => p.1 ≠ k)

/-- Python's dictionary operations on the list of the pairs, oldest first.  `none`: Python raises
KeyError. -/
def python (d : List (K × V)) : DictOp K V → Option (Val K V × List (K × V))
  | .item k => (value d k).map (fun v => (.value v, d))
  | .setItem k v =>
    some (.nothing, if (value d k).isSome
      then d.map (fun p => if p.1 = k then (p.1, v) else p) else d ++ [(k, v)])
  | .get k v => some (.value ((value d k).getD v), d)
  | .pop k => (value d k).map (fun v => (.value v, without d k))
  | .popDefault k v => some (.value ((value d k).getD v), without d k)
  | .popitem => d.getLast?.map (fun p => (.pair p.1 p.2, d.dropLast))
  | .mem k => some (.bool (value d k).isSome, d)
  | .clear => some (.nothing, [])

/-- A history of operations in Python, with what they return. -/
def pythons (d : List (K × V)) : List (DictOp K V) → Option (List (Val K V) × List (K × V))
  | [] => some ([], d)
  | o :: os => do
    let (v, d) ← python d o
    let (vs, d) ← pythons d os
    return (v :: vs, d)

end

/-! ## Managed pointers -/

/-- Operations on managed pointers (handles), which are stored in numbered variables. -/
inductive PtrOp
  /-- `h = make(value)`: a new object -/
  | make (h : Nat)
  /-- `h = from_ptr(&x)` for a local variable `x` -/
  | fromVar (h : Nat)
  /-- `h = clone(g)` -/
  | clone (h g : Nat)
  /-- `h = steal(g)` -/
  | steal (h g : Nat)
  /-- `drop(&g)` -/
  | drop (g : Nat)
  /-- `release(g)` -/
  | release (g : Nat)
  deriving DecidableEq, Repr

/-- What is known of a variable if handles are used as they are meant to be. -/
inductive Use
  /-- it never had a value, or has given it up -/
  | empty
  /-- it is responsible for an object -/
  | owner
  /-- it refers to an object that others are responsible for -/
  | alias
  deriving DecidableEq, Repr

/-- The uses of the variables after an operation; `none`: the operation misuses a handle.  A handle
that has been dropped, released or stolen from is not used any more, a handle that is responsible
for an object is not overwritten, and only such a handle is released. -/
def use (u : Nat → Use) : PtrOp → Option (Nat → Use)
  | .make h => if u h = .owner then none else some (fun x => if x = h then .owner else u x)
  | .fromVar h => if u h = .owner then none else some (fun x => if x = h then .alias else u x)
  | .clone h g =>
    if u h = .owner ∨ u g = .empty then none else some (fun x => if x = h then .alias else u x)
  | .steal h g =>
    if h = g ∨ u h = .owner ∨ u g = .empty then none
    else some (fun x => if x = h then u g else if x = g then .empty else u x)
  | .drop g => if u g = .empty then none else some (fun x => if x = g then .empty else u x)
  | .release g => if u g = .owner then some (fun x => if x = g then .empty else u x) else none

/-- The uses after a history of operations. -/
def uses (u : Nat → Use) : List PtrOp → Option (Nat → Use)
  | [] => some u
  | o :: os => (use u o).bind (fun u => uses u os)

end Verif.Containers.Spec
