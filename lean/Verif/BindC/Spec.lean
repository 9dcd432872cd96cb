/-!
# Calls from Python of functions that are compiled to Fortran

What a function receives and returns in Python.
-/
namespace Verif.BindC.Spec

abbrev Name := Nat

inductive Ty
  | num
  | arr
  | str
  | tup
  | lst
  | set
  deriving DecidableEq, Repr

/-- A Python value: its type and its elements (characters of a string, one element for a number). -/
structure Val where
  ty : Ty
  data : List Int
  deriving DecidableEq, Repr

/-- What follows the name of a parameter: nothing, `= None` or `= v`. -/
inductive Default
  | required
  | absent
  | value (v : Val)
  deriving DecidableEq, Repr

structure Param where
  name : Name
  ty : Ty
  dflt : Default
  deriving DecidableEq, Repr

/-- What a call gives for a parameter. -/
inductive Given
  | omitted
  | none
  | value (v : Val)
  deriving DecidableEq, Repr

/-- What the parameter is in Python: a value or `None`. -/
def received (p : Param) : Given → Option Val
  | .value v => some v
  | .none => none
  | .omitted =>
    match p.dflt with
    | .value v => some v
    | _ => none

/-- A value of a type: a number is one number, a set has no element twice. -/
def Typed (t : Ty) (v : Val) : Prop :=
  v.ty = t ∧ (t = .num → v.data.length = 1) ∧ (t = .set → v.data.Nodup)

/-- Calls of the declared types: `None` only where it is the default, all required arguments given. -/
def Legal (p : Param) : Given → Prop
  | .value v => Typed p.ty v
  | .none => p.dflt = .absent
  | .omitted => p.dflt ≠ .required

/-- Parameters that are accepted (`Optionals are not yet supported` for containers). -/
def Supported (p : Param) : Prop :=
  match p.dflt with
  | .required => True
  | .absent => p.ty = .num ∨ p.ty = .arr ∨ p.ty = .str
  | .value v => (p.ty = .num ∨ p.ty = .str) ∧ Typed p.ty v

/-- The same value: the same elements in the same order; for sets the same elements. -/
def Same (a b : Val) : Prop :=
  a.ty = b.ty ∧ if a.ty = .set then ∀ x, x ∈ a.data ↔ x ∈ b.data else a.data = b.data

def SameOpt : Option Val → Option Val → Prop
  | some a, some b => Same a b
  | none, none => True
  | _, _ => False

/-! ### Results -/

/-- Containers that a function returns: a list, a set or a dictionary with its items in order. -/
inductive Res
  | lst (l : List Int)
  | set (l : List Int)
  | dict (l : List (Int × Int))
  deriving DecidableEq, Repr

/-- Neither elements of a set nor keys occur twice. -/
def Res.Ok : Res → Prop
  | .lst _ => True
  | .set l => l.Nodup
  | .dict l => (l.map (·.1)).Nodup

/-- Equal in the sense of Python's `==`: the order matters for lists only. -/
def Res.Eq : Res → Res → Prop
  | .lst a, .lst b => a = b
  | .set a, .set b => ∀ x, x ∈ a ↔ x ∈ b
  | .dict a, .dict b => ∀ k v, (k, v) ∈ a ↔ (k, v) ∈ b
  | _, _ => False

/-! ### Memory -/

/-- Tuples, lists and sets. -/
abbrev copied (t : Ty) : Prop := t = .tup ∨ t = .lst ∨ t = .set

/-- Memory blocks, `none` once they are released. -/
abbrev Heap := List (Option (List Int))

/-- All blocks that were taken are released: the later heap has the live blocks of the earlier heap, at the
same addresses with the same contents, and no other. -/
def Released (before after : Heap) : Prop :=
  ∀ a : Nat, (after[a]?).join = (before[a]?).join

end Verif.BindC.Spec
