/-!
# Declarations of container types in C: specification

Python types, the C types that represent them, what each of these C types is made of, and the order in which declarations
are accepted.
-/

namespace Verif.CTypes

/-- The numbers. -/
inductive Num
  | bool | int8 | int16 | int32 | int64 | float | double
deriving DecidableEq, Repr

/-- Python types.  `cplx`: complex numbers whose parts are `n`.  `array n r k`: arrays (and tuples) of numbers with `r`
dimensions; `k` tells C order, Fortran order and tuples apart, which C stores alike. -/
inductive PyType
  | num (n : Num) | cplx (n : Num) | str
  | array (n : Num) (c : Bool) (r k : Nat)
  | list (t : PyType) | set (t : PyType) | dict (k v : PyType)
deriving DecidableEq, Repr

/-- C types: the type of a value, and the managed pointer to a value. -/
inductive CType
  | val (t : PyType) | ptr (t : PyType)
deriving DecidableEq, Repr

namespace Spec

/-- Up to the layout of arrays. -/
def plain : PyType → PyType
  | .array n c r _ => .array n c r 0
  | .list t => .list (plain t)
  | .set t => .set (plain t)
  | .dict k v => .dict (plain k) (plain v)
  | t => t

/-- The same C type. -/
def Same : CType → CType → Prop
  | .val t, .val u => plain t = plain u
  | .ptr t, .ptr u => plain t = plain u
  | _, _ => False

/-- Containers hold numbers and strings directly, and other containers by managed pointers. -/
def stored : PyType → CType
  | .num n => .val (.num n)
  | .cplx n => .val (.cplx n)
  | .str => .val .str
  | t => .ptr t

/-- What the declaration of a C type mentions. -/
def needs : CType → List CType
  | .val (.array n false _ _) => [.val (.num n)]
  | .val (.array n true _ _) => [.val (.cplx n)]
  | .val (.list t) => [stored t]
  | .val (.set t) => [stored t]
  | .val (.dict k v) => [stored k, stored v]
  | .val _ => []
  | .ptr t => [.val t]

/-- Header files of the C library and of STC with types that are not containers. -/
inductive Header
  | stdint | stdbool | complex | cstr
deriving DecidableEq, Repr

/-- The header file that declares a type which is not a container (`float` and `double` need none). -/
def header : PyType → Option Header
  | .num .bool => some .stdbool
  | .num .float => none
  | .num .double => none
  | .num _ => some .stdint
  | .cplx _ => some .complex
  | .str => some .cstr
  | _ => none

def Basic : CType → Prop
  | .val (.num _) => True
  | .val (.cplx _) => True
  | .val .str => True
  | _ => False

/-- The templates of containers. -/
inductive Kind
  | span (rank : Nat) | vec | hset | hmap | managed
deriving DecidableEq, Repr

def kind : CType → Option Kind
  | .val (.array _ _ r _) => some (.span r)
  | .val (.list _) => some .vec
  | .val (.set _) => some .hset
  | .val (.dict _ _) => some .hmap
  | .val _ => none
  | .ptr _ => some .managed

/-- Line by line, the beginning of a C file: included header files and declarations of containers, with their template,
their name and the names of the types they mention. -/
inductive Item (Name : Type)
  | incl (h : Header)
  | decl (k : Kind) (name : Name) (elems : List Name)
deriving DecidableEq, Repr

/-- The declaration of the C type `T`. -/
def Item.IsDecl {Name : Type} (name : CType → Name) (T : CType) (i : Item Name) : Prop :=
  ∃ k, kind T = some k ∧ i = .decl k (name T) ((needs T).map name)

/-- After the lines `before`, the C type `U` can be mentioned. -/
def Known {Name : Type} (name : CType → Name) (before : List (Item Name)) (U : CType) : Prop :=
  (Basic U ∧ ∃ t, U = .val t ∧ ∀ h, header t = some h → .incl h ∈ before) ∨ ∃ i ∈ before, i.IsDecl name U

/-- Every declaration comes after those of the types it mentions. -/
def Ordered {Name : Type} (name : CType → Name) (items : List (Item Name)) : Prop :=
  ∀ before i after, items = before ++ i :: after →
    (∃ h, i = .incl h) ∨ ∃ T, i.IsDecl name T ∧ ∀ U ∈ needs T, Known name before U

/-- The names that are declared, in order. -/
def declared {Name : Type} (items : List (Item Name)) : List Name :=
  items.filterMap fun
    | .decl _ n _ => some n
    | .incl _ => none

def isHashable : PyType → Bool
  | .list _ => false
  | .set _ => false
  | .dict _ _ => false
  | _ => true

/-- The types of Python: keys of dictionaries and elements of sets are hashable. -/
def InPython : PyType → Prop
  | .list t => InPython t
  | .set t => isHashable t = true ∧ InPython t
  | .dict k v => isHashable k = true ∧ InPython k ∧ InPython v
  | _ => True

def isArray : PyType → Bool
  | .array .. => true
  | _ => false

/-- No arrays or tuples in lists, sets and dictionaries. -/
def Supported : PyType → Prop
  | .list t => isArray t = false ∧ Supported t
  | .set t => isArray t = false ∧ Supported t
  | .dict k v => (isArray k = false ∧ isArray v = false) ∧ Supported k ∧ Supported v
  | _ => True

end Spec
end Verif.CTypes
