/-!
# Calls of compiled functions from Python: specification

Python objects with reference counts, the types of arguments and results, and what it means that a Python
object and a C value are the same.
-/

namespace Verif.Wrapper.Spec

/-- Addresses of Python objects. -/
abbrev Id := Nat

/-- Objects without parts.  `npBool` and `npInt` are NumPy scalars (`np.bool_`, `np.int32`, …); floats are
their bits; strings are their code points; `inst c p` is an instance of the compiled class `c` whose C
structure is at `p`. -/
inductive Atom
  | none
  | bool (b : Bool)
  | npBool (b : Bool)
  | int (z : Int)
  | npInt (w : Nat) (z : Int)
  | float (x : Nat)
  | str (s : List Nat)
  | inst (c p : Nat)
  deriving DecidableEq

/-- Objects.  The elements of a set are in the order in which they are iterated; `iter c k` is an iterator
of `c` which has given `k` elements. -/
inductive Obj
  | atom (a : Atom)
  | list (xs : List Id)
  | tuple (xs : List Id)
  | set (xs : List Id)
  | dict (kvs : List (Id × Id))
  | iter (c : Id) (k : Nat)
  deriving DecidableEq

/-- The references an object holds. -/
def Obj.refs : Obj → List Id
  | .atom _ => []
  | .list xs => xs
  | .tuple xs => xs
  | .set xs => xs
  | .dict kvs => kvs.flatMap fun p => [p.1, p.2]
  | .iter c _ => [c]

/-- An object and its reference count. -/
structure Cell where
  obj : Obj
  rc : Int

/-- All objects; the address is the position.  Object `0` is `None`. -/
abbrev Heap := List Cell

def Heap.obj (h : Heap) (i : Id) : Option Obj := h[i]?.map (·.obj)

/-- The reference count. -/
def Heap.rc (h : Heap) (i : Id) : Int := (h[i]?.map (·.rc)).getD 0

/-- How many references other objects hold. -/
def Heap.uses (h : Heap) (i : Id) : Nat := (h.flatMap fun c => c.obj.refs).count i

/-- Every reference is counted: `ext` are the references that the running Python program holds.  (An
object is destroyed when its count becomes zero.) -/
def Safe (h : Heap) (ext : List Id) : Prop := ∀ i, (h.uses i + ext.count i : Int) ≤ h.rc i

/-- Nothing else is counted, so that every object is destroyed when it is not used any more. -/
def Exact (h : Heap) (ext : List Id) : Prop := ∀ i, (h.uses i + ext.count i : Int) = h.rc i

/-! ## Types -/

inductive Lang
  | c
  | fortran
  deriving DecidableEq

/-- Types of scalars: `bool`, `int`, `np.int8`, …, `float`, `str`, a compiled class. -/
inductive Ty
  | bool
  | int
  | npInt (w : Nat)
  | float
  | str
  | inst (c : Nat)
  deriving DecidableEq

/-- Types of arguments; `final` is `Final[list[t]]`. -/
inductive Arg
  | atom (t : Ty)
  | tuple (t : Ty)
  | list (t : Ty) (final : Bool)
  | set (t : Ty) (final : Bool)
  deriving DecidableEq

mutual
/-- Types of results; `pack` is a tuple with elements of different types. -/
inductive ResTy
  | atom (t : Ty)
  | list (t : Ty)
  | tuple (t : Ty)
  | set (t : Ty)
  | dict (k v : Ty)
  | pack (ts : ResTys)
inductive ResTys
  | nil
  | cons (t : ResTy) (ts : ResTys)
end

/-- Scalars in C; strings are bytes. -/
inductive CAtom
  | bool (b : Bool)
  | int (z : Int)
  | float (x : Nat)
  | str (bs : List Nat)
  | ptr (p : Nat)
  deriving DecidableEq

/-- Arguments in C. -/
inductive CVal
  | atom (a : CAtom)
  | seq (as : List CAtom)

mutual
/-- Results in C. -/
inductive CRes
  | atom (a : CAtom)
  | seq (as : List CAtom)
  | dict (kvs : List (CAtom × CAtom))
  | pack (cs : CRess)
inductive CRess
  | nil
  | cons (c : CRes) (cs : CRess)
end

/-! ## Text -/

/-- The UTF-8 bytes of a code point; there are none for surrogates. -/
def utf8 (c : Nat) : Option (List Nat) :=
  if c < 0x80 then some [c]
  else if c < 0x800 then some [0xC0 + c / 64, 0x80 + c % 64]
  else if 0xD800 ≤ c ∧ c < 0xE000 then none
  else if c < 0x10000 then some [0xE0 + c / 4096, 0x80 + c / 64 % 64, 0x80 + c % 64]
  else if c < 0x110000 then
    some [0xF0 + c / 262144, 0x80 + c / 4096 % 64, 0x80 + c / 64 % 64, 0x80 + c % 64]
  else none

/-- The UTF-8 bytes of a string. -/
def encode : List Nat → Option (List Nat)
  | [] => some []
  | c :: cs => do return (← utf8 c) ++ (← encode cs)

/-! ## Values -/

/-- The Python object and the C scalar are the same. -/
def Same : Atom → CAtom → Prop
  | .bool b, .bool b' => b = b'
  | .npBool b, .bool b' => b = b'
  | .int z, .int z' => z = z'
  | .npInt _ z, .int z' => z = z'
  | .float x, .float x' => x = x'
  | .str s, .str bs => encode s = some bs
  | .inst _ p, .ptr p' => p = p'
  | _, _ => False

/-- The object has the type.  `bool` includes NumPy's. -/
def IsA : Atom → Ty → Prop
  | .bool _, .bool => True
  | .npBool _, .bool => True
  | .int _, .int => True
  | .npInt w _, .npInt w' => w = w'
  | .float _, .float => True
  | .str _, .str => True
  | .inst c _, .inst c' => c = c'
  | _, _ => False

/-- Object `i` is a scalar of type `t`. -/
def Heap.isA (h : Heap) (t : Ty) (i : Id) : Prop := ∃ a, h.obj i = some (.atom a) ∧ IsA a t

/-- Object `i` is accepted by an annotation. -/
def Heap.hasType (h : Heap) (i : Id) : Arg → Prop
  | .atom t => h.isA t i
  | .tuple t => ∃ xs, h.obj i = some (.tuple xs) ∧ ∀ x ∈ xs, h.isA t x
  | .list t _ => ∃ xs, h.obj i = some (.list xs) ∧ ∀ x ∈ xs, h.isA t x
  | .set t _ => ∃ xs, h.obj i = some (.set xs) ∧ ∀ x ∈ xs, h.isA t x

/-- Lists are related element by element. -/
def Each {α β : Type} (R : α → β → Prop) : List α → List β → Prop
  | [], [] => True
  | a :: as, b :: bs => R a b ∧ Each R as bs
  | _, _ => False

/-- Every argument has its type. -/
def AllTyped (h : Heap) (sig : List Arg) (is : List Id) : Prop := Each (fun i k => h.hasType i k) is sig

/-- Object `i` is the scalar `c`. -/
def Heap.is (h : Heap) (i : Id) (c : CAtom) : Prop := ∃ a, h.obj i = some (.atom a) ∧ Same a c

/-- Object `i` is the C value. -/
def Heap.arg (h : Heap) (i : Id) : Arg → CVal → Prop
  | .atom _, .atom c => h.is i c
  | .tuple _, .seq cs => ∃ xs, h.obj i = some (.tuple xs) ∧ Each h.is xs cs
  | .list _ _, .seq cs => ∃ xs, h.obj i = some (.list xs) ∧ Each h.is xs cs
  | .set _ _, .seq cs => ∃ xs, h.obj i = some (.set xs) ∧ Each h.is xs cs
  | _, _ => False

/-- Object `i` is the scalar `c` and has the type. -/
def Heap.typed (h : Heap) (t : Ty) (i : Id) (c : CAtom) : Prop :=
  ∃ a, h.obj i = some (.atom a) ∧ IsA a t ∧ Same a c

mutual
/-- Object `i` has the type and is the C value. -/
def Heap.res (h : Heap) : ResTy → CRes → Id → Prop
  | .atom t, .atom c, i => h.typed t i c
  | .list t, .seq cs, i => ∃ xs, h.obj i = some (.list xs) ∧ Each (h.typed t) xs cs
  | .tuple t, .seq cs, i => ∃ xs, h.obj i = some (.tuple xs) ∧ Each (h.typed t) xs cs
  | .set t, .seq cs, i => ∃ xs, h.obj i = some (.set xs) ∧ Each (h.typed t) xs cs
  | .dict k v, .dict kvs, i => ∃ xs, h.obj i = some (.dict xs) ∧
      Each (fun x c => h.typed k x.1 c.1 ∧ h.typed v x.2 c.2) xs kvs
  | .pack ts, .pack cs, i => ∃ xs, h.obj i = some (.tuple xs) ∧ h.ress ts cs xs
  | _, _, _ => False
def Heap.ress (h : Heap) : ResTys → CRess → List Id → Prop
  | .nil, .nil, [] => True
  | .cons t ts, .cons c cs, x :: xs => h.res t c x ∧ h.ress ts cs xs
  | _, _, _ => False
end

/-- Object `i` is what a function with the result `c` should return: `None` if it has no result. -/
def Heap.returned (h : Heap) (i : Id) (c : CRes) : Option ResTy → Prop
  | none => h.obj i = some (.atom .none)
  | some t => h.res t c i

/-! ## Conditions -/

/-- A scalar that arrives as it is: not a NumPy boolean; 64 bits are enough (and the bits of a NumPy
integer, as always); a string has no null character and no surrogates and, for Fortran, is ASCII. -/
def Plain (L : Lang) : Atom → Prop
  | .none => False
  | .bool _ => True
  | .npBool _ => False
  | .int z => -2 ^ 63 ≤ z ∧ z < 2 ^ 63
  | .npInt w z => -2 ^ (w - 1) ≤ z ∧ z < 2 ^ (w - 1) ∧ 1 ≤ w
  | .float _ => True
  | .str s => 0 ∉ s ∧ (encode s).isSome ∧ (L = .fortran → ∀ c ∈ s, c < 128)
  | .inst _ _ => True

/-- The scalars of an argument are plain. -/
def Heap.plain (L : Lang) (h : Heap) (i : Id) : Prop :=
  match h.obj i with
  | some (.atom a) => Plain L a
  | some o => ∀ x ∈ o.refs, ∀ a, h.obj x = some (.atom a) → Plain L a
  | none => False

/-- The strings of an argument have no surrogates. -/
def Heap.text (h : Heap) (i : Id) : Prop :=
  match h.obj i with
  | some (.atom (.str s)) => (encode s).isSome
  | some o => ∀ x ∈ o.refs, ∀ s, h.obj x = some (.atom (.str s)) → (encode s).isSome
  | none => True

/-- A C scalar of the type that Python can represent: bytes are UTF-8 without null characters. -/
def Sendable : Ty → CAtom → Prop
  | .bool, .bool _ => True
  | .int, .int _ => True
  | .npInt _, .int _ => True
  | .float, .float _ => True
  | .str, .str bs => ∃ s, 0 ∉ s ∧ encode s = some bs
  | .inst _, .ptr _ => True
  | _, _ => False

mutual
/-- The result has the type; sets have no element and dictionaries no key twice. -/
def CRes.ok : ResTy → CRes → Prop
  | .atom t, .atom c => Sendable t c
  | .list t, .seq cs => ∀ c ∈ cs, Sendable t c
  | .tuple t, .seq cs => ∀ c ∈ cs, Sendable t c
  | .set t, .seq cs => cs.Nodup ∧ ∀ c ∈ cs, Sendable t c
  | .dict k v, .dict kvs => (kvs.map (·.1)).Nodup ∧ ∀ x ∈ kvs, Sendable k x.1 ∧ Sendable v x.2
  | .pack ts, .pack cs => CRess.ok ts cs
  | _, _ => False
def CRess.ok : ResTys → CRess → Prop
  | .nil, .nil => True
  | .cons t ts, .cons c cs => CRes.ok t c ∧ CRess.ok ts cs
  | _, _ => False
end

/-- What the compiled function leaves in an argument. -/
def CVal.ok : Arg → CVal → Prop
  | .list t _, .seq cs => ∀ c ∈ cs, Sendable t c
  | .set t _, .seq cs => cs.Nodup ∧ ∀ c ∈ cs, Sendable t c
  | .atom _, .atom _ => True
  | .tuple _, .seq _ => True
  | _, _ => False

/-- What the compiled function gives back has the right types. -/
def WellTyped (sig : List Arg) (res : Option ResTy) (out : List CVal × CRes) : Prop :=
  Each CVal.ok sig out.1 ∧ ∀ t, res = some t → CRes.ok t out.2

/-- Changes of the argument are visible to the caller. -/
def Arg.shared : Arg → Bool
  | .list _ final => !final
  | .set _ final => !final
  | _ => false

/-- The objects whose changes are visible to the caller. -/
def sharedIds (sig : List Arg) (is : List Id) : List Id :=
  ((sig.zip is).filter (·.1.shared)).map (·.2)

/-! ## Numbers of references -/

/-- The number of elements. -/
def Heap.size (h : Heap) (i : Id) : Nat := ((h.obj i).map (·.refs.length)).getD 0

/-- References that are lost for an argument: one for each element and one for the iterator, once for
tuples, twice for lists and sets. -/
def lostArg (h : Heap) (i : Id) : Arg → Nat
  | .atom _ => 0
  | .tuple _ => h.size i + 1
  | .list _ _ => 2 * (h.size i + 1)
  | .set _ _ => 2 * (h.size i + 1)

def lostArgs (h : Heap) (sig : List Arg) (is : List Id) : Nat :=
  ((sig.zip is).map fun p => lostArg h p.2 p.1).sum

mutual
/-- References that are lost for a result: one for each element of a set, two for each of a dictionary. -/
def lostRes : ResTy → CRes → Nat
  | .set _, .seq cs => cs.length
  | .dict _ _, .dict kvs => 2 * kvs.length
  | .pack ts, .pack cs => lostRess ts cs
  | _, _ => 0
def lostRess : ResTys → CRess → Nat
  | .cons t ts, .cons c cs => lostRes t c + lostRess ts cs
  | _, _ => 0
end

/-- References that are lost when the changes of the arguments are made visible to the caller: one for
each element. -/
def lostBack (L : Lang) (sig : List Arg) (out : List CVal) : Nat :=
  ((sig.zip out).map fun p => match p.2 with
    | .seq cs => if L = .c ∧ p.1.shared then cs.length else 0
    | .atom _ => 0).sum

/-- All of them. -/
def lost (L : Lang) (h : Heap) (sig : List Arg) (is : List Id) (res : Option ResTy)
    (out : List CVal × CRes) : Nat :=
  lostArgs h sig is + (res.map (lostRes · out.2)).getD 0 + lostBack L sig out.1

mutual
/-- Results without sets and dictionaries. -/
def ResTy.simple : ResTy → Bool
  | .atom _ => true
  | .list _ => true
  | .tuple _ => true
  | .set _ => false
  | .dict _ _ => false
  | .pack ts => ts.simple
def ResTys.simple : ResTys → Bool
  | .nil => true
  | .cons t ts => t.simple && ts.simple
end

end Verif.Wrapper.Spec
