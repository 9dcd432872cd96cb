/-!
# `x = np.array(…)`: what Python computes
-/

namespace Verif.Display.Spec

/-- Array variables. -/
abbrev Name := Nat

/-- Subscripts, one for every dimension. -/
abbrev Ix := List Nat

/-- The contents of the arrays. -/
abbrev Mem := Name → Ix → Int

/-- A number: a literal, an element of an array, or computed from numbers. -/
inductive Elem where
  | lit (n : Int)
  | at (x : Name) (i : Ix)
  | neg (a : Elem)
  | add (a b : Elem)
  | mul (a b : Elem)
  deriving DecidableEq, Repr

def Elem.val (m : Mem) : Elem → Int
  | .lit n => n
  | .at x i => m x i
  | .neg a => - a.val m
  | .add a b => a.val m + b.val m
  | .mul a b => a.val m * b.val m

/-- The elements of arrays that are read. -/
def Elem.reads : Elem → List (Name × Ix)
  | .lit _ => []
  | .at x i => [(x, i)]
  | .neg a => a.reads
  | .add a b => a.reads ++ b.reads
  | .mul a b => a.reads ++ b.reads

/-- An array variable or a slice of one: element `i` of it is element `pos i` of `base`. -/
structure View where
  base : Name
  shape : List Nat
  pos : Ix → Ix

/-- A whole variable. -/
def View.whole (x : Name) (s : List Nat) : View := ⟨x, s, id⟩

/-- `x[k]`. -/
def View.row (x : Name) (s : List Nat) (k : Nat) : View := ⟨x, s, (k :: ·)⟩

/-- The argument of `np.array`: lists (or tuples), in lists, of numbers and arrays. -/
inductive Data where
  | num (e : Elem)
  | view (v : View)
  | list (ds : List Data)

/-- Subscripts of an array with that shape. -/
def Inside : List Nat → Ix → Prop
  | [], [] => True
  | n :: s, i :: is => i < n ∧ Inside s is
  | _, _ => False

mutual
/-- The argument has that shape: no list is empty, and all members of a list have the same shape. -/
def Regular : Data → List Nat → Prop
  | .num _, s => s = []
  | .view v, s => s = v.shape ∧ s ≠ []
  | .list ds, s => ds ≠ [] ∧ ∃ s' : List Nat, s = ds.length :: s' ∧ Regulars ds s'
def Regulars : List Data → List Nat → Prop
  | [], _ => True
  | d :: ds, s => Regular d s ∧ Regulars ds s
end

mutual
/-- Lists of numbers, however deep; no member is an array. -/
def Numbers : Data → Prop
  | .num _ => True
  | .view _ => False
  | .list ds => NumbersL ds
def NumbersL : List Data → Prop
  | [] => True
  | d :: ds => Numbers d ∧ NumbersL ds
end

mutual
/-- The expression of an element of the array that Python builds. -/
def Data.elem : Data → Ix → Elem
  | .num e, _ => e
  | .view v, i => .at v.base (v.pos i)
  | .list ds, i => Data.elems ds (i.headD 0) i.tail
def Data.elems : List Data → Nat → Ix → Elem
  | [], _, _ => .lit 0
  | d :: _, 0, i => d.elem i
  | _ :: ds, k + 1, i => Data.elems ds k i
end

/-- The element of the array that Python builds: everything is read before anything is written. -/
def Data.get (m : Mem) (d : Data) (i : Ix) : Int := (d.elem i).val m

/-- The order in which the elements of an array are written down. -/
def Before : Ix → Ix → Prop
  | i :: is, j :: js => i < j ∨ (i = j ∧ Before is js)
  | _, _ => False

/-- The memory after `x = np.array(d, ndmin=…)` in Python, where `pad` dimensions are added. -/
def Python (x : Name) (s : List Nat) (pad : Nat) (d : Data) (m m' : Mem) : Prop :=
  (∀ i : Ix, Inside s i → m' x (List.replicate pad 0 ++ i) = d.get m i) ∧
    (∀ (y : Name) (i : Ix), (y = x → ¬ Inside (List.replicate pad 1 ++ s) i) → m' y i = m y i)

end Verif.Display.Spec
