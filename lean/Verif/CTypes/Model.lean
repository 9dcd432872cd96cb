import Verif.CTypes.Spec

/-!
# Declarations of container types in C

Not modelled: classes, the modules that the user imports (their header files come first too), `stc/common`, the header files
without types, the lines of a declaration that do not mention types, and that the name of a complex type has a space and not
`_` where it is mentioned.
-/

namespace Verif.CTypes.Model
open Verif.CTypes.Spec

/-- The parts of a name between the `_`; a number such as `int64_t` is one part.
`pyccel/codegen/printing/ccode.py:369-382, 1897-1971` -/
inductive Word
  | num (n : Num) | complex | cstr | array | dim (r : Nat) | vec | hset | hmap | mem
deriving DecidableEq, Repr

abbrev Name := List Word

/-- The sources of imports that declare containers, `pyccel/codegen/printing/ccode.py:327-334`. -/
inductive Source
  | managed | cspan | hmap | hset | vec
deriving DecidableEq, Repr

/-- Alphabetical order of the sources. -/
def Source.order : Source → Nat
  | .managed => 0
  | .cspan => 1
  | .hmap => 2
  | .hset => 3
  | .vec => 4

/-- One target of an import: `AsName(VariableTypeAnnotation(dtype), i_type)`. -/
structure Target where
  source : Source
  alias : Name
  type : CType
deriving DecidableEq, Repr

/-- The imports collected by the printer. -/
structure Imports where
  headers : List Header
  targets : List Target

/-- `pyccel/codegen/printing/codeprinter.py:84-101`, header files. -/
def Imports.addHeader (s : Imports) (h : Header) : Imports :=
  if h ∈ s.headers then s else { s with headers := s.headers ++ [h] }

/-- `pyccel/codegen/printing/codeprinter.py:84-101`, `pyccel/ast/core.py:4004-4025`: targets are the keys of a dictionary, and
equal if their aliases are (`pyccel/ast/core.py:183-195`). -/
def Imports.addTarget (s : Imports) (t : Target) : Imports :=
  if s.targets.any fun u => u.source = t.source && u.alias = t.alias then s
  else { s with targets := s.targets ++ [t] }

/-- `get_c_type` of a number, `pyccel/codegen/printing/ccode.py:1897-1908`. -/
def getNum (n : Num) (s : Imports) : Imports × Name :=
  match n with
  | .bool => (s.addHeader .stdbool, [.num .bool])
  | .float => (s, [.num .float])
  | .double => (s, [.num .double])
  | n => (s.addHeader .stdint, [.num n])

/-- `get_c_type` of a complex number, `pyccel/codegen/printing/ccode.py:1899-1901`. -/
def getCplx (n : Num) (s : Imports) : Imports × Name :=
  let r := getNum n (s.addHeader .complex)
  (r.1, r.2 ++ [.complex])

/-- `get_c_type(dtype, in_container=True)`, given the result of `get_c_type(dtype)`: containers are stored by a
`MemoryHandlerType`.  `pyccel/codegen/printing/ccode.py:1914-1915, 1958-1967` -/
def getStored (t : PyType) (r : Imports × Name) : Imports × Name :=
  match t with
  | .num _ => r
  | .cplx _ => r
  | .str => r
  | t => (r.1.addTarget ⟨.managed, r.2 ++ [.mem], .ptr t⟩, r.2 ++ [.mem])

/-- `get_c_type(dtype)`, `pyccel/codegen/printing/ccode.py:1897-1956`. -/
def getC : PyType → Imports → Imports × Name
  | .num n, s => getNum n s
  | .cplx n, s => getCplx n s
  | .str, s => (s.addHeader .cstr, [.cstr])
  | .array n c r k, s =>
    let e := if c then getCplx n s else getNum n s
    let name := .array :: e.2 ++ [.dim r]
    (e.1.addTarget ⟨.cspan, name, .val (.array n c r k)⟩, name)
  | .list t, s =>
    let e := getStored t (getC t s)
    (e.1.addTarget ⟨.vec, .vec :: e.2, .val (.list t)⟩, .vec :: e.2)
  | .set t, s =>
    let e := getStored t (getC t s)
    (e.1.addTarget ⟨.hset, .hset :: e.2, .val (.set t)⟩, .hset :: e.2)
  | .dict k v, s =>
    let a := getStored k (getC k s)
    let b := getStored v (getC v a.1)
    (b.1.addTarget ⟨.hmap, .hmap :: a.2 ++ b.2, .val (.dict k v)⟩, .hmap :: a.2 ++ b.2)

/-- `rank`: `pyccel/ast/datatypes.py:784-791, 837-845, 1320-1327`. -/
def rank : PyType → Nat
  | .num _ => 0
  | .cplx _ => 0
  | .str => 1
  | .array _ _ r _ => r
  | .list t => 1 + rank t
  | .set t => 1 + rank t
  | .dict _ v => 1 + rank v

/-- `rank` of the type of a target, `pyccel/ast/low_level_tools.py:223-232`. -/
def typeRank : CType → Nat
  | .val t => rank t
  | .ptr t => rank t

/-- The first part of the key for sorting, twice: the rank, and 0.5 more for managed pointers.
`pyccel/codegen/printing/ccode.py:428-435` -/
def key (t : Target) : Nat := 2 * typeRank t.type + if t.source = .managed then 1 else 0

/-- Comparison of the keys; `cmp` compares aliases as strings.  `pyccel/codegen/printing/ccode.py:428-442` -/
def before (cmp : Name → Name → Bool) (a b : Target) : Bool :=
  if key a ≠ key b then decide (key a < key b)
  else if a.source.order ≠ b.source.order then decide (a.source.order < b.source.order)
  else cmp a.alias b.alias

def insertT (cmp : Name → Name → Bool) (t : Target) : List Target → List Target
  | [] => [t]
  | u :: us => if before cmp t u then t :: u :: us else u :: insertT cmp t us

/-- `list.sort`, `pyccel/codegen/printing/ccode.py:428-442` (the keys are different, so the method does not matter). -/
def sort (cmp : Name → Name → Bool) : List Target → List Target
  | [] => []
  | t :: ts => insertT cmp t (sort cmp ts)

/-- `_get_stc_element_type_decl`: what is stored in a list, a set or a dictionary; arrays are an error.
`pyccel/codegen/printing/ccode.py:889-905` -/
def element (s : Imports) (t : PyType) : Option Name :=
  match t with
  | .num _ => some (getC t s).2
  | .cplx _ => some (getC t s).2
  | .str => some [.cstr]
  | .array .. => none
  | _ => some (getStored t (getC t s)).2

/-- `_print_Import` of one target, `pyccel/codegen/printing/ccode.py:1504-1525, 1546-1606`. -/
def printTarget (s : Imports) (t : Target) : Option (Item Name) :=
  match t.type with
  | .val (.array n c r _) => some (.decl (.span r) t.alias [(if c then getCplx n s else getNum n s).2])
  | .val (.dict k v) =>
    match element s k, element s v with
    | some a, some b => some (.decl .hmap t.alias [a, b])
    | _, _ => none
  | .val (.list u) => (element s u).map fun a => .decl .vec t.alias [a]
  | .val (.set u) => (element s u).map fun a => .decl .hset t.alias [a]
  | .ptr u => some (.decl .managed t.alias [(getC u s).2])
  | .val _ => none

/-- All that the printer collects while it prints code that uses the types `used`, in this order. -/
def collect (used : List PyType) : Imports := used.foldl (fun s t => (getC t s).1) ⟨[], []⟩

/-- `"".join(self._print(i) for i in imports)`, `pyccel/codegen/printing/ccode.py:1254, 3846`; an error in one of them is an
error. -/
def printAll (s : Imports) : List Target → Option (List (Item Name))
  | [] => some []
  | t :: ts =>
    match printTarget s t, printAll s ts with
    | some a, some b => some (a :: b)
    | _, _ => none

/-- The beginning of the C file: the imports are printed last, those without containers first (in alphabetical order, which
does not matter here).  `pyccel/codegen/printing/ccode.py:445-448, 1246-1254, 3838-3846` -/
def fileHead (cmp : Name → Name → Bool) (used : List PyType) : Option (List (Item Name)) :=
  let s := collect used
  (printAll s (sort cmp s.targets)).map (s.headers.map .incl ++ ·)

end Verif.CTypes.Model
