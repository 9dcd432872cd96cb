import Verif.BindC.Spec

/-!
# The wrappers between Python and Fortran

Two wrappers are generated: a C function which takes the Python objects apart
(`pyccel/codegen/wrapper/c_to_python_wrapper.py`) and a Fortran function which is called by it and calls the
translated function (`pyccel/codegen/wrapper/fortran_to_c_wrapper.py`).
Left out: the parsing of the argument tuple (C43), the conversion of elements (C74), strides of arrays (C18),
arrays of rank above 1, instances of classes, reference counts (C75, C76).
-/
namespace Verif.BindC.Model
open Spec

/-! ### Memory -/

/-- Memory that the wrapper does not own (the data of an array, the text of a string, a variable of the
wrapper) is identified by the parameter. -/
inductive Ptr
  | null
  | obj (n : Name)
  | heap (a : Nat)
  deriving DecidableEq, Repr

structure Mem where
  obj : Name → List Int
  heap : Heap

def Mem.load (m : Mem) : Ptr → Option (List Int)
  | .null => none
  | .obj n => some (m.obj n)
  | .heap a => (m.heap[a]?).join

/-- `malloc`: a new block.  Its contents are arbitrary; here 0. -/
def malloc (h : Heap) (n : Nat) : Heap × Nat := (h ++ [some (List.replicate n 0)], h.length)

/-- `free` -/
def free (h : Heap) (a : Nat) : Heap := h.set a none

def poke (h : Heap) (a i : Nat) (v : Int) : Heap := h.modify a (·.map fun c => c.set i v)

/-! ### The C function -/

/-- An argument of the Fortran function: a number, or a pointer and a size. -/
inductive CArg
  | val (v : Int)
  | ptr (p : Ptr) (size : Nat)
  deriving DecidableEq, Repr

/-- `for i in range(size): arr[i] = next(iter)`, `c_to_python_wrapper.py:3452-3460` (tuples),
`3516-3538` (sets), `3636-3665` (lists) -/
def fill (h : Heap) (a : Nat) : Nat → List Int → Heap
  | _, [] => h
  | i, v :: l => fill (poke h a i v) a (i + 1) l

/-- The C-compatible argument, `c_to_python_wrapper.py:2253-2354` with the functions
`_extract_X_FunctionDefArgument`: numbers `3092-3128`, arrays `3236-3277`, tuples `3400-3462`, sets
`3464-3538`, lists `3602-3665`, strings `3775-3818`.

If the parameter has a default value, the code `default_init` of the type is run first and the conversion only
if the object is not `None` (`2301-2334`; an omitted argument is `None`, `389-394`).  The type of arrays and
strings has its own `default_init`, which makes a null pointer; numbers are set to the default. -/
def collect (p : Param) (g : Given) (m : Mem) : Mem × CArg :=
  match p.ty, p.dflt, g with
  | .num, .absent, .value v => ({ m with obj := fun n => if n = p.name then v.data else m.obj n }, .ptr (.obj p.name) 1)
  | .num, .absent, _ => (m, .ptr .null 0)
  | .num, _, .value v => (m, .val (v.data.headD 0))
  | .num, .value d, _ => (m, .val (d.data.headD 0))
  | .num, .required, _ => (m, .val 0)
  | .arr, _, .value v => ({ m with obj := fun n => if n = p.name then v.data else m.obj n }, .ptr (.obj p.name) v.data.length)
  | .str, _, .value v => ({ m with obj := fun n => if n = p.name then v.data else m.obj n }, .ptr (.obj p.name) v.data.length)
  | .arr, _, _ => (m, .ptr .null 0)
  | .str, _, _ => (m, .ptr .null 0)
  | _, _, .value v =>
    let (h, a) := malloc m.heap v.data.length
    ({ m with heap := fill h a 0 v.data }, .ptr (.heap a) v.data.length)
  | _, _, _ => (m, .ptr .null 0)

def collectAll : List (Param × Given) → Mem → Mem × List (Param × CArg)
  | [], m => (m, [])
  | (p, g) :: l, m =>
    let (m, c) := collect p g m
    let (m, cs) := collectAll l m
    (m, (p, c) :: cs)

/-! ### The Fortran function -/

/-- The body of the Fortran function. -/
inductive Tree
  | call (args : List Param)
  | test (p : Param) (yes no : Tree)
  deriving Repr

def optional (p : Param) : Bool := p.dflt == .absent

/-- `next_optional_arg`, `fortran_to_c_wrapper.py:134-141` -/
def next (args handled : List Param) : Option Param :=
  args.find? fun p => optional p && !handled.contains p

/-- Optional parameters that have not been handled. -/
def todo (args handled : List Param) : List Param := args.filter fun p => optional p && !handled.contains p

/-- `FortranToCWrapper._get_function_def_body`, `fortran_to_c_wrapper.py:105-180`: one test for each optional
argument; where it is absent the argument is removed from the call.  The recursion ends as each call has one
optional argument less to handle; `fuel` is their number. -/
def build : Nat → List Param → List Param → Tree
  | 0, args, _ => .call args
  | fuel + 1, args, handled =>
    match next args handled with
    | none => .call args
    | some p => .test p (build fuel args (handled ++ [p])) (build fuel (args.erase p) (handled ++ [p]))

def wrapper (params : List Param) : Tree := build (todo params []).length params []

/-- Elements 1 to `n` of a Fortran array, one after the other. -/
def elements (c : List Int) (n : Nat) : List Int := (List.range n).map fun i => c.getD i 0

/-- Insertion into a set of the gFTL library, which is ordered. -/
def insertS (x : Int) : List Int → List Int
  | [] => [x]
  | y :: l => if x < y then x :: y :: l else if x = y then y :: l else y :: insertS x l

/-- The code that is run for an argument of the call and the value that is passed:
`_extract_FixedSizeNumericType_FunctionDefArgument` (`fortran_to_c_wrapper.py:442-467`), arrays (`491-572`),
tuples (`574-617`), strings (`620-686`: the characters are appended one by one to an empty string), lists and
sets (`688-775`: the elements are appended or added one by one).  A null pointer cannot be read; a loop over
no element does not read it. -/
def argument (m : Mem) (p : Param) : CArg → Option Val
  | .val v => some ⟨p.ty, [v]⟩
  | .ptr q n =>
    match p.ty with
    | .num => (m.load q).map fun c => ⟨.num, elements c 1⟩
    | .arr => (m.load q).map fun c => ⟨.arr, elements c n⟩
    | .tup => (m.load q).map fun c => ⟨.tup, elements c n⟩
    | .str => if n = 0 then some ⟨.str, []⟩ else
        (m.load q).map fun c => ⟨.str, (elements c n).foldl (fun s x => s ++ [x]) []⟩
    | .lst => if n = 0 then some ⟨.lst, []⟩ else
        (m.load q).map fun c => ⟨.lst, (elements c n).foldl (fun s x => s ++ [x]) []⟩
    | .set => if n = 0 then some ⟨.set, []⟩ else
        (m.load q).map fun c => ⟨.set, (elements c n).foldl (fun s x => insertS x s) []⟩

def arguments (m : Mem) (cs : List (Param × CArg)) : List Param → Option (List (Name × Val))
  | [] => some []
  | p :: l =>
    ((cs.lookup p).bind (argument m p)).bind fun v => (arguments m cs l).map fun vs => (p.name, v) :: vs

/-- `FunctionCall.__init__`, `pyccel/ast/core.py:1980-2007`: if there are fewer arguments than parameters the
others get their defaults; `None` is not printed (`pyccel/codegen/printing/fcode.py:4305`).  All arguments are
keyword arguments, `fortran_to_c_wrapper.py:428-430`. -/
def complete (params : List Param) (given : List (Name × Val)) : List (Name × Val) :=
  if given.length = params.length then given
  else params.filterMap fun p =>
    match given.lookup p.name with
    | some v => some (p.name, v)
    | none =>
      match p.dflt with
      | .value v => some (p.name, v)
      | _ => none

/-- The Fortran function runs: the keywords and values of the call of the translated function. -/
def runTree (params : List Param) (m : Mem) (cs : List (Param × CArg)) : Tree → Option (List (Name × Val))
  | .call args => (arguments m cs args).map (complete params)
  | .test p yes no =>
    match cs.lookup p with
    | some (.ptr .null _) => runTree params m cs no
    | some _ => runTree params m cs yes
    | none => none

/-- A call from Python: what is passed to the translated function and the memory afterwards.  Nothing is
released after the call: only arguments that are arrays in C are (`c_to_python_wrapper.py:2186-2198`). -/
def call (args : List (Param × Given)) (m : Mem) : Option (List (Name × Val)) × Mem :=
  let (m, cs) := collectAll args m
  (runTree (args.map (·.1)) m cs (wrapper (args.map (·.1))), m)

/-- The memory after the same call has been made `n` times. -/
def calls : Nat → List (Param × Given) → Mem → Mem
  | 0, _, m => m
  | n + 1, args, m => (call args (calls n args m)).2

/-! ### Results -/

/-- `insert` of the map of the gFTL library, which is ordered by keys; an item with the same key is
replaced. -/
def insertM (k v : Int) : List (Int × Int) → List (Int × Int)
  | [] => [(k, v)]
  | (k', v') :: l => if k < k' then (k, v) :: (k', v') :: l else if k = k' then (k, v) :: l
      else (k', v') :: insertM k v l

/-- The Fortran container that the translated function returns: elements and items are inserted in the order
of the Python program. -/
def represent : Res → Res
  | .lst l => .lst l
  | .set l => .set (l.foldl (fun s x => insertS x s) [])
  | .dict l => .dict (l.foldl (fun s x => insertM x.1 x.2 s) [])

/-- `idx = 0; for elem in var: arr[idx + 1] = elem; idx = idx + 1`, `fortran_to_c_wrapper.py:1266-1276` (sets),
`1303-1317` (lists, with the loop counter); Fortran arrays begin with 1. -/
def store (h : Heap) (a : Nat) : Nat → List Int → Heap
  | _, [] => h
  | idx, x :: l => store (poke h a ((idx + 1) - 1) x) a (idx + 1) l

/-- `for (i = 0; i < size; i++) item = arr[i]`, `c_to_python_wrapper.py:4264-4267` -/
def fetch (h : Heap) (a : Nat) (n : Nat) : Option (List Int) :=
  ((h[a]?).join).map fun c => (List.range n).map fun i => c.getD i 0

/-- `PySet_Add` -/
def addPy (s : List Int) (x : Int) : List Int := if s.contains x then s else s ++ [x]

/-- `PyDict_SetItem` -/
def setItem (d : List (Int × Int)) (k v : Int) : List (Int × Int) :=
  if (d.map (·.1)).contains k then d.map fun x => if x.1 = k then (k, v) else x else d ++ [(k, v)]

/-- The result of a call: the Fortran function copies the container into memory of `c_malloc`
(`fortran_to_c_wrapper.py:1236-1316` for lists and sets, `1318-1448` for dictionaries, with one block for the
keys and one for the values), the C function makes the Python object (`c_to_python_wrapper.py:4171-4274`,
`4276-4368`) and releases the memory if it is a list or a set (`4271-4272`). -/
def giveBack (h : Heap) : Res → Option Res × Heap
  | .lst l =>
    let (h, a) := malloc h l.length
    let h := store h a 0 l
    ((fetch h a l.length).map .lst, free h a)
  | .set l =>
    let (h, a) := malloc h l.length
    let h := store h a 0 l
    ((fetch h a l.length).map fun c => .set (c.foldl addPy []), free h a)
  | .dict l =>
    let (h, a) := malloc h l.length
    let (h, b) := malloc h l.length
    let h := store (store h a 0 (l.map (·.1))) b 0 (l.map (·.2))
    ((fetch h a l.length).bind fun ks => (fetch h b l.length).map fun vs =>
      .dict ((ks.zip vs).foldl (fun d x => setItem d x.1 x.2) []), h)

def result (h : Heap) (r : Res) : Option Res × Heap := giveBack h (represent r)

end Verif.BindC.Model
