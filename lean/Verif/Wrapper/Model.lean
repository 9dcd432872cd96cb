import Verif.Wrapper.Spec

/-!
# Calls of compiled functions from Python: model

The C code that `CToPythonWrapper` (`pyccel/codegen/wrapper/c_to_python_wrapper.py`, "wrapper" below)
generates around a function, as its effect on the objects of Python.  The result `none` stands for a crash.
Left out: arrays (C18), arguments with default values and the parsing of the argument tuple (C43), overloaded
functions (C45), the C memory of converted containers, methods, and failures of the Python library (no
memory).  Small integers, `True`, … are objects like all others.
-/

namespace Verif.Wrapper.Model
open Spec

/-! ## The C API of Python -/

/-- A new object, with one reference. -/
def alloc (h : Heap) (o : Obj) : Heap × Id := (h ++ [⟨o, 1⟩], h.length)

/-- `Py_INCREF` -/
def incref (h : Heap) (i : Id) : Heap := h.modify i fun c => { c with rc := c.rc + 1 }

/-- `Py_DECREF` -/
def decref (h : Heap) (i : Id) : Heap := h.modify i fun c => { c with rc := c.rc - 1 }

/-- An object is changed. -/
def setObj (h : Heap) (i : Id) (o : Obj) : Heap := h.modify i fun c => { c with obj := o }

/-- The elements of a list, a tuple or a set. -/
def items (h : Heap) (i : Id) : Option (List Id) :=
  match h.obj i with
  | some (.list xs) => some xs
  | some (.tuple xs) => some xs
  | some (.set xs) => some xs
  | _ => none

/-- `PyObject_GetIter`: a new reference to an iterator, which holds one to the container. -/
def getIter (h : Heap) (i : Id) : Heap × Id := alloc (incref h i) (.iter i 0)

/-- `PyIter_Next`: a new reference to the next element. -/
def next (h : Heap) (it : Id) : Option (Heap × Id) :=
  match h.obj it with
  | some (.iter c k) => do
    let x ← (← items h c)[k]?
    return (incref (setObj h it (.iter c (k + 1))) x, x)
  | _ => none

/-- `PyList_SetItem`, `PyTuple_SetItem` at the next free position: the reference is taken over. -/
def setItem (h : Heap) (i x : Id) : Option Heap :=
  match h.obj i with
  | some (.list xs) => some (setObj h i (.list (xs ++ [x])))
  | some (.tuple xs) => some (setObj h i (.tuple (xs ++ [x])))
  | _ => none

/-- `PyList_Append`: there is one more reference. -/
def listAppend (h : Heap) (i x : Id) : Option Heap :=
  match h.obj i with
  | some (.list xs) => some (setObj (incref h x) i (.list (xs ++ [x])))
  | _ => none

/-- `PySet_Add`: there is one more reference if the element is new. -/
def setAdd (h : Heap) (i x : Id) : Option Heap :=
  match h.obj i with
  | some (.set xs) =>
    if xs.any (fun y => h.obj y = h.obj x) then some h
    else some (setObj (incref h x) i (.set (xs ++ [x])))
  | _ => none

/-- `PyDict_SetItem`: there is one more reference to each.  (C dictionaries have no key twice, C40; the
replacement of a value is not modelled.) -/
def dictSet (h : Heap) (i k v : Id) : Option Heap :=
  match h.obj i with
  | some (.dict kvs) =>
    if kvs.any (fun y => h.obj y.1 = h.obj k) then none
    else some (setObj (incref (incref h k) v) i (.dict (kvs ++ [(k, v)])))
  | _ => none

/-- `PyList_Clear`, `PySet_Clear`: the references to the elements are given up. -/
def clear (h : Heap) (i : Id) : Option Heap :=
  match h.obj i with
  | some (.list xs) => some (setObj (xs.foldl decref h) i (.list []))
  | some (.set xs) => some (setObj (xs.foldl decref h) i (.set []))
  | _ => none

/-- Decoding of UTF-8, as `PyUnicode_FromString` does it.  (Encodings that are too long, and
surrogates, are not sorted out: C strings come from `encode` or from the compiled program.) -/
def decode : List Nat → Option (List Nat)
  | [] => some []
  | a :: bs =>
    if a < 0x80 then (decode bs).map (a :: ·)
    else match bs with
      | [] => none
      | b :: bs =>
        if a < 0xE0 then (decode bs).map (((a - 0xC0) * 64 + (b - 0x80)) :: ·)
        else match bs with
          | [] => none
          | c :: bs =>
            if a < 0xF0 then
              (decode bs).map (((a - 0xE0) * 4096 + (b - 0x80) * 64 + (c - 0x80)) :: ·)
            else match bs with
              | [] => none
              | d :: bs => (decode bs).map
                  (((a - 0xF0) * 262144 + (b - 0x80) * 4096 + (c - 0x80) * 64 + (d - 0x80)) :: ·)

/-! ## Scalars -/

/-- `PyIs_Bool`, `PyIs_NativeInt`, `PyIs_Int8`, …, `PyIs_NativeFloat`, `PyUnicode_Check`,
`PyObject_TypeCheck`: `pyccel/stdlib/cwrapper/cwrapper.h:157-222`, `pyccel/ast/cwrapper.py:1755-1760`,
`wrapper:474-503` -/
def check (t : Ty) (o : Obj) : Bool :=
  match t, o with
  | .bool, .atom (.bool _) => true
  | .bool, .atom (.npBool _) => true
  | .int, .atom (.int _) => true
  | .npInt w, .atom (.npInt w' _) => w = w'
  | .float, .atom (.float _) => true
  | .str, .atom (.str _) => true
  | .inst c, .atom (.inst c' _) => c = c'
  | _, _ => false

/-- The `w` lowest bits, as a signed number. -/
def wrap (w : Nat) (z : Int) : Int := (z + 2 ^ (w - 1)) % 2 ^ w - 2 ^ (w - 1)

/-- `PyBool_to_Bool`, `PyInt64_to_Int64`, …: `pyccel/stdlib/cwrapper/cwrapper.h:78-113`;
`PyLong_AsLongLong` gives `-1` and sets an exception for large numbers, which is not looked at.  Strings:
`cstr_from` of the UTF-8 bytes in C (up to a null byte), the bytes with the number of characters in Fortran,
`wrapper:3802-3830`.  Instances: `wrapper:3181-3200`.  The second component says that an exception is
set. -/
def cast (L : Lang) (t : Ty) (a : Atom) : Option (CAtom × Bool) :=
  match t, a with
  | .bool, a => some (.bool (a = .bool true), false)
  | .int, .int z => if -2 ^ 63 ≤ z ∧ z < 2 ^ 63 then some (.int z, false) else some (.int (-1), true)
  | .npInt w, .npInt _ z => some (.int (wrap w z), false)
  | .float, .float x => some (.float x, false)
  | .str, .str s =>
    (encode s).map fun bs => match L with
      | .c => (.str (bs.takeWhile (· ≠ 0)), false)
      | .fortran => (.str (bs.take s.length), false)
  | .inst _, .inst _ p => some (.ptr p, false)
  | _, _ => none

/-- `Bool_to_PyBool`, `Int64_to_PyLong`, `Int8_to_NumpyLong`, …: `pyccel/stdlib/cwrapper/cwrapper.c:63-129`,
`pyccel/ast/cwrapper.py:1364-1369`; `Py_BuildValue("s", …)`, `wrapper:4370-4394`; new instances,
`wrapper:3896-3962` (with the list of referenced objects left out). -/
def uncast (t : Ty) (c : CAtom) : Option Atom :=
  match t, c with
  | .bool, .bool b => some (.bool b)
  | .int, .int z => some (.int z)
  | .npInt w, .int z => some (.npInt w z)
  | .float, .float x => some (.float x)
  | .str, .str bs => (decode (bs.takeWhile (· ≠ 0))).map .str
  | .inst c, .ptr p => some (.inst c p)
  | _, _ => none

/-- A new object for a scalar.  `wrapper:3964-3991` -/
def toObj (h : Heap) (t : Ty) (c : CAtom) : Option (Heap × Id) :=
  (uncast t c).map fun a => alloc h (.atom a)

/-! ## Arguments -/

/-- The loop over the elements of a container which checks their types.  The references to the elements
and to the iterator are not given up.  `wrapper:581-606` -/
def checkLoop (t : Ty) (h : Heap) (it : Id) : Nat → Bool → Option (Heap × Bool)
  | 0, b => some (h, b)
  | n + 1, b => do
    let (h, x) ← next h it
    let o ← h.obj x
    checkLoop t h it n (b && check t o)

/-- The kind of container an object is. -/
def isKind : Arg → Obj → Bool
  | .tuple _, .tuple _ => true
  | .list _ _, .list _ => true
  | .set _ _, .set _ => true
  | _, _ => false

/-- The type of the elements. -/
def elem : Arg → Ty
  | .atom t => t
  | .tuple t => t
  | .list t _ => t
  | .set t _ => t

/-- `_get_type_check_condition`: `wrapper:431-628` -/
def checkArg (h : Heap) (k : Arg) (i : Id) : Option (Heap × Bool) := do
  let o ← h.obj i
  match k with
  | .atom t => return (h, check t o)
  | k =>
    if isKind k o then
      let (h', it) := getIter h i
      checkLoop (elem k) h' it (← items h i).length true
    else return (h, false)

/-- The loop over the elements of a tuple, with borrowed references.  `wrapper:3449-3461` -/
def castTuple (L : Lang) (t : Ty) (h : Heap) : List Id → Option (List CAtom × Bool)
  | [] => some ([], false)
  | x :: xs => do
    match ← h.obj x with
    | .atom a =>
      let (c, e) ← cast L t a
      let (cs, e') ← castTuple L t h xs
      return (c :: cs, e || e')
    | _ => none

/-- The loop over the elements of a list or set.  The references to the elements and to the iterator are
not given up.  `wrapper:3536-3554, 3673-3691` -/
def castLoop (L : Lang) (t : Ty) (h : Heap) (it : Id) : Nat → Option (Heap × List CAtom × Bool)
  | 0 => some (h, [], false)
  | n + 1 => do
    let (h, x) ← next h it
    match ← h.obj x with
    | .atom a =>
      let (c, e) ← cast L t a
      let (h, cs, e') ← castLoop L t h it n
      return (h, c :: cs, e || e')
    | _ => none

/-- `_extract_FunctionDefArgument`: `wrapper:3051-3127, 3344-3737` -/
def castArg (L : Lang) (h : Heap) (k : Arg) (i : Id) : Option (Heap × CVal × Bool) := do
  match k with
  | .atom t =>
    match ← h.obj i with
    | .atom a =>
      let (c, e) ← cast L t a
      return (h, .atom c, e)
    | _ => none
  | .tuple t =>
    let (cs, e) ← castTuple L t h (← items h i)
    return (h, .seq cs, e)
  | k =>
    let xs ← items h i
    let (h', it) := getIter h i
    let (h', cs, e) ← castLoop L (elem k) h' it xs.length
    return (h', .seq cs, e)

/-- What the caller gets: a result, a `TypeError` (with its message), or a `SystemError` because a result
is returned with an exception set. -/
inductive Outcome
  | ok (r : Id)
  | typeError (msg : Id)
  | systemError (r : Id)

/-- The reference that is handed over. -/
def Outcome.id : Outcome → Id
  | .ok r => r
  | .typeError m => m
  | .systemError r => r

/-- `PyErr_SetObject(PyExc_TypeError, PyUnicode_FromFormat(…, PyObject_Str(…)))`:
`pyccel/codegen/printing/cwrappercode.py:773-778`; the references to the two new strings are not given
up.  The texts are left out. -/
def raiseTypeError (h : Heap) : Heap × Id :=
  let (h, _) := alloc h (.atom (.str []))
  let (h, m) := alloc h (.atom (.str []))
  (incref h m, m)

/-- The arguments one after the other: `wrapper:2152-2154, 2335-2346`.  The inner `none` is a
`TypeError`. -/
def castArgs (L : Lang) (h : Heap) : List Arg → List Id → Option (Heap × Option (List CVal × Bool))
  | [], [] => some (h, some ([], false))
  | k :: ks, i :: is => do
    let (h, b) ← checkArg h k i
    if b then
      let (h, c, e) ← castArg L h k i
      let (h, r) ← castArgs L h ks is
      return (h, r.map fun x => (c :: x.1, e || x.2))
    else return (h, none)
  | _, _ => none

/-! ## Results -/

/-- The loop that fills a list or a tuple.  `wrapper:4243-4270` -/
def fillSeq (t : Ty) (i : Id) : Heap → List CAtom → Option Heap
  | h, [] => some h
  | h, c :: cs => do
    let (h, x) ← toObj h t c
    fillSeq t i (← setItem h i x) cs

/-- The loop that fills a set.  The references to the elements are not given up.
`wrapper:4236-4242, 4256-4270, 3567-3599` -/
def fillSet (t : Ty) (i : Id) : Heap → List CAtom → Option Heap
  | h, [] => some h
  | h, c :: cs => do
    let (h, x) ← toObj h t c
    fillSet t i (← setAdd h i x) cs

/-- The loop that fills a dictionary.  The references to keys and values are not given up.
`wrapper:4336-4366` -/
def fillDict (k v : Ty) (i : Id) : Heap → List (CAtom × CAtom) → Option Heap
  | h, [] => some h
  | h, c :: cs => do
    let (h, x) ← toObj h k c.1
    let (h, y) ← toObj h v c.2
    fillDict k v i (← dictSet h i x y) cs

/-- The loop that fills a list argument again.  The references to the elements are not given up.
`wrapper:3703-3735` -/
def fillList (t : Ty) (i : Id) : Heap → List CAtom → Option Heap
  | h, [] => some h
  | h, c :: cs => do
    let (h, x) ← toObj h t c
    fillList t i (← listAppend h i x) cs

mutual
/-- `_extract_FunctionDefResult`: `wrapper:3844-4394` -/
def result : ResTy → CRes → Heap → Option (Heap × Id)
  | .atom t, .atom c, h => toObj h t c
  | .list t, .seq cs, h => do
    let (h, i) := alloc h (.list [])
    return (← fillSeq t i h cs, i)
  | .tuple t, .seq cs, h => do
    let (h, i) := alloc h (.tuple [])
    return (← fillSeq t i h cs, i)
  | .set t, .seq cs, h => do
    let (h, i) := alloc h (.set [])
    return (← fillSet t i h cs, i)
  | .dict k v, .dict kvs, h => do
    let (h, i) := alloc h (.dict [])
    return (← fillDict k v i h kvs, i)
  | .pack ts, .pack cs, h => do
    -- `PyTuple_Pack`, then `Py_DECREF` of the elements: `wrapper:4143-4162`
    let (h, xs) ← results ts cs h
    let (h, i) := alloc (xs.foldl incref h) (.tuple xs)
    return (xs.foldl decref h, i)
  | _, _, _ => none
/-- The elements of a tuple.  `wrapper:4146-4155` -/
def results : ResTys → CRess → Heap → Option (Heap × List Id)
  | .nil, .nil, h => some (h, [])
  | .cons t ts, .cons c cs, h => do
    let (h, x) ← result t c h
    let (h, xs) ← results ts cs h
    return (h, x :: xs)
  | _, _, _ => none
end

/-- The contents of list and set arguments are replaced by what the function left, if the language is C and
the argument is not `Final`.  `wrapper:2205, 3556-3599, 3693-3735` -/
def writeBack (L : Lang) (h : Heap) (k : Arg) (i : Id) (c : CVal) : Option Heap :=
  match L, k, c with
  | .c, .list t false, .seq cs => do fillList t i (← clear h i) cs
  | .c, .set t false, .seq cs => do fillSet t i (← clear h i) cs
  | _, _, _ => some h

/-- All arguments in order.  `wrapper:2205` -/
def writeBacks (L : Lang) (h : Heap) : List Arg → List Id → List CVal → Option Heap
  | k :: ks, i :: is, c :: cs => do writeBacks L (← writeBack L h k i c) ks is cs
  | _, _, _ => some h

/-- `_wrap_FunctionDef`: the wrapper of the compiled function `g`, which gives the arguments as it leaves
them and a result.  `res` is `none` for functions without results: `None` is returned with one more
reference.  `wrapper:2152-2222` -/
def call (L : Lang) (sig : List Arg) (res : Option ResTy) (g : List CVal → List CVal × CRes)
    (h : Heap) (is : List Id) : Option (Heap × Outcome) := do
  let (h, r) ← castArgs L h sig is
  match r with
  | none =>
    let (h, m) := raiseTypeError h
    return (h, .typeError m)
  | some (cs, e) =>
    let (cs', c) := g cs
    let (h, r) ← match res with
      | none => some (h, 0)
      | some t => result t c h
    let h ← writeBacks L h sig is cs'
    let h := if res.isNone then incref h 0 else h
    return (h, if e then .systemError r else .ok r)

/-- The wrapper of an operator method (`__add__`, …) of class `c`: `self` is not checked
(`wrapper:2335-2350`, bound arguments) but read as an instance of the class (`wrapper:3181-3200`), which is
undefined for other objects. -/
def slot (L : Lang) (c : Nat) (k : Arg) (res : Option ResTy) (g : Nat → List CVal → List CVal × CRes)
    (h : Heap) (x y : Id) : Option (Heap × Outcome) :=
  match h.obj x with
  | some (.atom (.inst c' p)) => if c = c' then call L [k] res (g p) h [y] else none
  | _ => none

/-- `x + y` in Python when the type of `x` does not know the addition to the class of `y`, or is the class.
The method is in the slot `nb_add` of the class (`pyccel/codegen/printing/cwrappercode.py:551-616`), which
Python calls if one of the operands is an instance.  The outcome is `Sum.inr ()` (a `TypeError` of Python)
otherwise. -/
def binop (L : Lang) (c : Nat) (k : Arg) (res : Option ResTy) (g : Nat → List CVal → List CVal × CRes)
    (h : Heap) (x y : Id) : Option ((Heap × Outcome) ⊕ Unit) :=
  if (h.obj x).any (check (.inst c)) || (h.obj y).any (check (.inst c)) then
    (slot L c k res g h x y).map .inl
  else some (.inr ())

end Verif.Wrapper.Model
