import Verif.Cache.Spec
/-!
# Type objects and their caches

The classmethods `get_new` that build the parametrised types, the caches in front of them, and the
equality of the objects that they return.
-/

namespace Verif.Cache

open Verif.Cache.Spec

/-- A type object (`PyccelType`, pyccel/ast/datatypes.py 138-220).  Each parametrised type carries
the number of its creation, which is its identity: `get_new` makes a new class each time and the
metaclass `Singleton` (pyccel/utilities/metaclasses.py 11-45) makes one object of each class.
Simplification: the element type of an array is one of the types without parameters, and the
assertions of `get_new` are not modelled. -/
inductive Obj
  | basic (n : Atom)
  | generic
  | string
  | final (i : Nat) (t : Obj)
  | tuple (i : Nat) (t : Obj)
  | list (i : Nat) (t : Obj)
  | set (i : Nat) (t : Obj)
  | inhom (i : Nat) (ts : List Obj)
  | dict (i : Nat) (k v : Obj)
  | array (i : Nat) (n : Atom) (rank : Nat) (order : Option Order)

/-- The identity of an object: what `is` compares. -/
inductive Ident
  | cls (n : Atom)
  | generic
  | string
  | made (i : Nat)
  deriving DecidableEq, Repr

namespace Obj

/-- The identity of an object. -/
def ident : Obj → Ident
  | basic n => .cls n
  | generic => .generic
  | string => .string
  | final i _ => .made i
  | tuple i _ => .made i
  | list i _ => .made i
  | set i _ => .made i
  | inhom i _ => .made i
  | dict i _ _ => .made i
  | array i _ _ _ => .made i

/-- Python's `a is b`. -/
def same (a b : Obj) : Bool := a.ident = b.ident

mutual
/-- The type that an object describes, without the identities. -/
def shape : Obj → Ty
  | basic n => .basic n
  | generic => .generic
  | string => .string
  | final _ t => .final (shape t)
  | tuple _ t => .tuple (shape t)
  | list _ t => .list (shape t)
  | set _ t => .set (shape t)
  | inhom _ ts => .inhom (shapes ts)
  | dict _ k v => .dict (shape k) (shape v)
  | array _ n r o => .array n r o
termination_by structural t => t
/-- `shape` for each object of a list. -/
def shapes : List Obj → List Ty
  | [] => []
  | t :: ts => shape t :: shapes ts
termination_by structural ts => ts
end

/-- The object that a `Final` object qualifies (`underlying_type`, datatypes.py 260-266). -/
def strip : Obj → Obj
  | final _ t => strip t
  | t => t

end Obj

mutual
/-- `rank` (datatypes.py 318-325, 784-791, 837-844, 1129-1134 with 1196-1203, 1320-1327). -/
def rank : Ty → Nat
  | .basic _ => 0
  | .generic => 0
  | .string => 1
  | .final t => rank t
  | .tuple t => 1 + rank t
  | .list t => 1 + rank t
  | .set t => 1 + rank t
  | .inhom ts => match ranks ts with
    | [] => 1
    | r :: rs => if rs.all (· = r) then r + 1 else 1
  | .dict _ v => 1 + rank v
  | .array _ r _ => r
termination_by structural t => t
/-- `rank` for each type of a list. -/
def ranks : List Ty → List Nat
  | [] => []
  | t :: ts => rank t :: ranks ts
termination_by structural ts => ts
end

mutual
/-- `order` (datatypes.py 328-336, 794-802, 857-865, 912-914, 985-987, 1018, 1136-1147, 1330-1338).
A function of the type alone, so it is computed from the type without the identities. -/
def order : Ty → Option Order
  | .basic _ => none
  | .generic => none
  | .string => none
  | .final t => order t
  | .tuple t => if order t = some .c ∨ rank t = 1 then some .c else none
  | .list t => if order t = some .c ∨ rank t = 1 then some .c else none
  | .set _ => none
  | .inhom ts =>
    if rank (.inhom ts) = 2 then some .c
    else if rank (.inhom ts) > 2 then (if (orders ts).all (· = some .c) then some .c else none)
    else none
  | .dict _ _ => none
  | .array _ _ o => o
termination_by structural t => t
/-- `order` for each type of a list. -/
def orders : List Ty → List (Option Order)
  | [] => []
  | t :: ts => order t :: orders ts
termination_by structural ts => ts
end

/-- A hash value.  Simplification: hash values are as long as they need to be, so two of them are
equal only if they were computed from the same parts. -/
inductive Hash
  | cls (n : Atom)
  | generic
  | string
  | made (i : Nat)
  | tuple (t : Hash)
  | list (t : Hash) (o : Option Order)
  | set (t : Hash)
  | dict (k v : Hash)
  | array (t : Hash) (rank : Nat) (o : Option Order)
  deriving DecidableEq, Repr

namespace Obj

/-- `__hash__` (datatypes.py 254-255, 544-545, 879-880, 952-953, 1003-1004, 1051-1052, 1347-1348 and
pyccel/ast/numpytypes.py 97-98, 486-487).  The classes without a `__hash__` have that of `object`, which is
the identity. -/
def hash : Obj → Hash
  | basic n => .cls n
  | generic => .generic
  | string => .string
  | final _ t => hash t
  | tuple _ t => .tuple (hash t)
  | list _ t => .list (hash t) (order (.list (shape t)))
  | set _ t => .set (hash t)
  | inhom i _ => .made i
  | dict _ k v => .dict (hash k) (hash v)
  | array _ n r o => .array (.cls n) r o

/-- Whether a number type of NumPy and a number type of Python are equal (numpytypes.py 89-93).  The
precisions of `int`, `float` and `complex` are 8 (datatypes.py 439, 468, 490; on the platforms where
`numpy.dtype(int).alignment` is 8). -/
def twin (k : Kind) (bytes : Nat) (k' : Kind) : Bool := k' = k && bytes = 8

/-- The answer of `a.__eq__(o)`, `none` for `NotImplemented`, for a type without parameters: that of
`NumpyNumericType` (numpytypes.py 84-95) or that of `object`.  (For `bool` and the other types the
former is `False` or `NotImplemented`, which comes to the same, as they have the `__eq__` of
`object`.) -/
def atomMeth : Atom → Obj → Option Bool
  | .numpy k p, o =>
    if o.ident = .cls (.numpy k p) then some true
    else match o.strip with
      | basic (.numpy _ _) => some false
      | basic (.native k') => some (twin k p k')
      | _ => none
  | a, o => if o.ident = .cls a then some true else none

/-- The answer of `b.__eq__(a)`, `none` for `NotImplemented`, for an `a` whose own answer was
`NotImplemented`.  See `meth`, with which it agrees on these (`meth_leaf`). -/
def leafMeth : Obj → Obj → Option Bool
  | final _ u, a => leafMeth u a
  | basic n, a => atomMeth n a
  | generic, _ => some true
  | inhom i _, a => if a.ident = .made i then some true else none
  | _, _ => some false

/-- Is `b` the type `Final[a]` for a type `a` without parameters? -/
def derived : Obj → Obj → Bool
  | basic n, final _ (basic n') => n = n'
  | _, _ => false

/-- Python's `a == b` from the answer `m` of `a.__eq__(b)`: when that is `NotImplemented` then
`b.__eq__` is asked, and then the identities are compared.  Python asks `b.__eq__` first if the class
of `b` is derived from that of `a`, which is so if `b` is `Final[a]`: then the answer is that of
`a.__eq__(a)`, which is `True` for a type without parameters, and that of `a.__eq__(b)` for the
others (`pyEq_protocol`). -/
def eqOf (m : Option Bool) (a b : Obj) : Bool :=
  if derived a b then true
  else match m with
    | some r => r
    | none => match leafMeth b a with
      | some r => r
      | none => same a b

/-- The answer of `a.__eq__(b)`, `none` for `NotImplemented`: of a `Final` type (datatypes.py
257-258), of `GenericType` (541-542), of `StringType` (876-877), of the containers (946-950,
996-1001, 1045-1049, 1340-1345), of the arrays (numpytypes.py 489-495), and `object.__eq__` for the
others. -/
def meth : Obj → Obj → Option Bool
  | basic n, o => atomMeth n o
  | generic, _ => some true
  | string, o => match o.strip with
    | string => some true
    | _ => some false
  | final _ u, o => meth u o
  | tuple _ t, o => match o.strip with
    | tuple _ t' => some (eqOf (meth t t') t t')
    | _ => some false
  | list _ t, o => match o.strip with
    | list _ t' => some (eqOf (meth t t') t t' && order (.list (shape t)) = order (.list (shape t')))
    | _ => some false
  | set _ t, o => match o.strip with
    | set _ t' => some (eqOf (meth t t') t t')
    | _ => some false
  | inhom i _, o => if o.ident = .made i then some true else none
  | dict _ k v, o => match o.strip with
    | dict _ k' v' => some (eqOf (meth k k') k k' && eqOf (meth v v') v v')
    | _ => some false
  | array _ n r o, a => match a.strip with
    | array _ n' r' o' => some (eqOf (atomMeth n (basic n')) (basic n) (basic n') && r = r' && o = o')
    | _ => some false

/-- Python's `a == b`. -/
def pyEq (a b : Obj) : Bool := eqOf (meth a b) a b

end Obj

/-- A call of `get_new`, with its arguments. -/
inductive Call
  | final (t : Obj)
  | tuple (t : Obj)
  | list (t : Obj)
  | set (t : Obj)
  | inhom (ts : List Obj)
  | dict (k v : Obj)
  | array (n : Atom) (rank : Nat) (order : Option Order)

/-- The classes that have a `get_new`. -/
inductive Fam | final | tuple | list | set | inhom | dict | array
  deriving DecidableEq, Repr

namespace Call

/-- The class whose `get_new` is called. -/
def fam : Call → Fam
  | final _ => .final
  | tuple _ => .tuple
  | list _ => .list
  | set _ => .set
  | inhom _ => .inhom
  | dict _ _ => .dict
  | array _ _ _ => .array

/-- The arguments that are types. -/
def args : Call → List Obj
  | final t => [t]
  | tuple t => [t]
  | list t => [t]
  | set t => [t]
  | inhom ts => ts
  | dict k v => [k, v]
  | array n _ _ => [.basic n]

/-- The other arguments. -/
def params : Call → Option (Nat × Option Order)
  | array _ r o => some (r, o)
  | _ => none

/-- Do the arguments of two calls make the same cache key?  The keys are tuples: their hash values
must be equal, and their items must be identical or equal. -/
def keyEq (c c' : Call) : Bool :=
  decide (c.args.map Obj.hash = c'.args.map Obj.hash) && decide (c.params = c'.params) &&
    (c.args.zip c'.args).all fun p => Obj.same p.1 p.2 || Obj.pyEq p.1 p.2

/-- The body of `get_new`: `FinalType` (datatypes.py 231-280), `HomogeneousTupleType` (895-921),
`HomogeneousListType` (968-994), `HomogeneousSetType` (1020-1044), `InhomogeneousTupleType`
(1110-1159), `DictType` (1251-1278), `NumpyNDArrayType` (numpytypes.py 310-344). -/
def build (i : Nat) : Call → Obj
  | final (.final j u) => .final j u
  | final t => .final i t
  | tuple t => .tuple i t
  | list t => .list i t
  | set t => .set i t
  | inhom ts => .inhom i ts
  | dict k v => .dict i k v
  | array n 0 _ => .basic n
  | array n (r + 1) o => .array i n (r + 1) o

end Call

/-- The number of results that `functools.lru_cache` keeps by default. -/
def maxsize : Nat := 128

/-- The state of the process: the number of the next object, and the cache of each `get_new`, the
most recently used result first. -/
structure State where
  next : Nat
  cache : Fam → List (Call × Obj)

/-- The state of a new process. -/
def State.init : State := ⟨0, fun _ => []⟩

/-- `functools.lru_cache` around `get_new`: a result that is found is moved to the front, otherwise a
new object is made and the least recently used result is dropped if there are more than `maxsize`.
Simplification: if several keys are equal to that of the call then the most recently used is taken
(Python takes the one that it meets first in its hash table). -/
def getNew (c : Call) (s : State) : Obj × State :=
  match (s.cache c.fam).find? fun e => e.1.keyEq c with
  | some e =>
    (e.2, ⟨s.next, fun f => if f = c.fam
      then e :: (s.cache c.fam).eraseP (fun e => e.1.keyEq c) else s.cache f⟩)
  | none =>
    (c.build s.next, ⟨s.next + 1, fun f => if f = c.fam
      then ((c, c.build s.next) :: s.cache c.fam).take maxsize else s.cache f⟩)

mutual
/-- The type object for an annotation: the types of the arguments first, then `get_new`
(`_get_indexed_type`, pyccel/parser/semantic.py 3089-3275).  Simplification: annotations without
unions.  The types of expressions are made by the same calls: `[x]` makes `list[A]` for the type `A`
of `x` (pyccel/ast/builtins.py 875-882). -/
def get : Ty → State → Obj × State
  | .basic n, s => (.basic n, s)
  | .generic, s => (.generic, s)
  | .string, s => (.string, s)
  | .final t, s => getNew (.final (get t s).1) (get t s).2
  | .tuple t, s => getNew (.tuple (get t s).1) (get t s).2
  | .list t, s => getNew (.list (get t s).1) (get t s).2
  | .set t, s => getNew (.set (get t s).1) (get t s).2
  | .inhom ts, s => getNew (.inhom (gets ts s).1) (gets ts s).2
  | .dict k v, s =>
    getNew (.dict (get k s).1 (get v (get k s).2).1) (get v (get k s).2).2
  | .array n r o, s => getNew (.array n r o) s
termination_by structural t => t
/-- `get` for each annotation of a list. -/
def gets : List Ty → State → List Obj × State
  | [], s => ([], s)
  | t :: ts, s => ((get t s).1 :: (gets ts (get t s).2).1, (gets ts (get t s).2).2)
termination_by structural ts => ts
end

/-- The state after the annotations of a history. -/
def after : List Ty → State → State
  | [], s => s
  | t :: ts, s => after ts (get t s).2

end Verif.Cache
