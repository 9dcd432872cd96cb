import Verif.Names.Spec
import Verif.Names.Keywords
import Mathlib.Data.Nat.Digits.Defs
/-
Model of the name clash checkers (pyccel/naming/) and of the name tables of scopes
(pyccel/parser/scope.py).
-/
namespace Verif.Names
open Spec

/-! ### Name clash checkers -/

/-- Text compared by `has_clash`: Fortran lower-cases
(pyccel/naming/fortrannameclashchecker.py:185-186; ASCII lower-casing here), C and Python
compare exactly (cnameclashchecker.py:136, pythonnameclashchecker.py). -/
def fold : Language → Name → Name
  | .fortran, n => n.map Char.toLower
  | _, n => n

/-- `keywords` of each checker (empty for Python: pythonnameclashchecker.py). -/
def keywords : Language → List Name
  | .c => cKeywords.map String.toList
  | .fortran => fKeywords.map String.toList
  | .python => []

/-- `has_clash`: cnameclashchecker.py:136, fortrannameclashchecker.py:185-186. -/
def hasClash (l : Language) (name : Name) (symbols : List Name) : Bool :=
  (keywords l).contains (fold l name) || (symbols.map (fold l)).contains (fold l name)

/-- A decimal digit as a character. -/
def digitChar (d : Nat) : Char := Char.ofNat (48 + d)

/-- `"{counter:0=4d}"`: the decimal digits, padded to 4 with zeros
(pyccel/utilities/strings.py:76). -/
def pad4 (n : Nat) : Name :=
  let ds := (Nat.digits 10 n).reverse
  (List.replicate (4 - ds.length) 0 ++ ds).map digitChar

/-- `name_format.format(prefix=…, counter=…)`: strings.py:76-77. -/
def numbered (pre : Name) (counter : Nat) : Name := pre ++ '_' :: pad4 counter

/-- The `while` loop of `create_incremented_string` (strings.py:71-90), with a bound on the
number of iterations: `none` means that the loop has not ended within the bound. -/
def incrLoop (clash : Name → Bool) (pre : Name) : Nat → Nat → Option (Name × Nat)
  | 0, _ => none
  | fuel + 1, c =>
    if clash (numbered pre c) then incrLoop clash pre fuel (c + 1)
    else some (numbered pre c, c + 1)

/-- `create_incremented_string` with a name clash checker. -/
def createIncremented (l : Language) (forbidden : List Name) (pre : Name) (counter : Nat) :
    Option (Name × Nat) :=
  incrLoop (fun n => hasClash l n forbidden) pre ((keywords l).length + forbidden.length + 1) counter

/-- `create_incremented_string` without a checker (`while name in forbidden_exprs`). -/
def createIncrementedPlain (forbidden : List Name) (pre : Name) (counter : Nat) :
    Option (Name × Nat) :=
  incrLoop (fun n => forbidden.contains n) pre (forbidden.length + 1) counter

/-- `_get_collisionless_name`: pyccel/naming/languagenameclashchecker.py:49-56. -/
def collisionless (l : Language) (name : Name) (symbols : List Name) : Option Name :=
  if hasClash l name symbols then
    (createIncremented l (keywords l ++ symbols) name 1).map Prod.fst
  else some name

/-- The `context` argument of `get_collisionless_name`. -/
inductive Ctx | module | function | class_ | variable | wrapper
deriving DecidableEq, Repr

/-- The type of a scope (the `parent_context` argument). -/
inductive Kind | module | function | class_ | loop | program
deriving DecidableEq, Repr

/-- `"operator" + name[1:-2]` for dunder names: cnameclashchecker.py:174-175. -/
def dunder (n : Name) : Name :=
  if n.length > 4 ∧ n[0]? = some '_' ∧ n[1]? = some '_' ∧ n[n.length - 1]? = some '_' ∧
      n[n.length - 2]? = some '_' then
    "operator".toList ++ (n.drop 1).take (n.length - 3)
  else n

/-- `"private" + name` for names starting with an underscore: cnameclashchecker.py:176-177. -/
def privateName (n : Name) : Name :=
  if n[0]? = some '_' then "private".toList ++ n else n

/-- The mangling which precedes the collision search in C: cnameclashchecker.py:164-182. -/
def mangleC (name pre : Name) (ctx : Ctx) (parent : Kind) : Name :=
  if ctx = .wrapper then name
  else
    let n := if name = "__init__".toList then "init".toList else name
    let n := if n = "__del__".toList then "drop".toList else n
    let n := privateName (dunder n)
    if ctx = .function ∨ (parent = .module ∧ ctx ≠ .module) then pre ++ n else n

/-- The same in Fortran: fortrannameclashchecker.py:214-232. -/
def mangleF (name pre : Name) (ctx : Ctx) (parent : Kind) : Name :=
  if ctx = .wrapper then name
  else
    let n := if name = "__init__".toList then
        (if parent = .module then pre ++ "init".toList else "init".toList) else name
    let n := if n = "__del__".toList then
        (if parent = .module then pre ++ "free".toList else "free".toList) else n
    privateName (dunder n)

/-- Mangling by language; Python does none (pythonnameclashchecker.py). -/
def mangle : Language → Name → Name → Ctx → Kind → Name
  | .c => mangleC
  | .fortran => mangleF
  | .python => fun n _ _ _ => n

/-- `get_collisionless_name`: cnameclashchecker.py:138-182, fortrannameclashchecker.py:188-239
(the warning for names longer than 96 characters is not modelled). -/
def getCollisionless (l : Language) (name : Name) (symbols : List Name) (pre : Name) (ctx : Ctx)
    (parent : Kind) : Option Name :=
  collisionless l (mangle l name pre ctx parent) symbols

/-! ### Scopes -/

/-- The static part of a family of nested scopes (pyccel/parser/scope.py:99-152): the target
language (`Scope.name_clash_checker`), and for every scope its parent (created earlier), type and
`symbol_prefix`. -/
structure Tree where
  lang : Language
  par : Nat → Option Nat
  par_lt : ∀ i p, par i = some p → p < i
  kind : Nat → Kind
  pre : Nat → Name

/-- A Python dictionary from names to names. -/
abbrev Dict := List (Name × Name)

/-- `d.get(k)`. -/
def Dict.get (d : Dict) (k : Name) : Option Name := (d.find? fun e => e.1 == k).map Prod.snd
/-- `d[k] = v`. -/
def Dict.set (d : Dict) (k v : Name) : Dict := (k, v) :: d.filter fun e => e.1 != k
/-- `d.pop(k)`. -/
def Dict.del (d : Dict) (k : Name) : Dict := d.filter fun e => e.1 != k
/-- `d.values()`. -/
def Dict.values (d : Dict) : List Name := d.map Prod.snd
/-- `d.keys()`. -/
def Dict.keys (d : Dict) : List Name := d.map Prod.fst

/-- The mutable part: `_used_symbols`, `_original_symbol`, `_dummy_counter` of every scope. -/
structure St where
  used : Nat → Dict
  orig : Nat → Dict
  dummy : Nat → Nat

/-- All scopes initially empty. -/
def St.init : St := ⟨fun _ => [], fun _ => [], fun _ => 0⟩

/-- Pointwise update. -/
def upd {α : Type} (f : Nat → α) (i : Nat) (a : α) : Nat → α := fun j => if j = i then a else f j

/-- The scope and its enclosing scopes, innermost first (`parent_scope` chain). -/
def Tree.chain (t : Tree) (i : Nat) : List Nat :=
  match h : t.par i with
  | none => [i]
  | some p => i :: t.chain p
termination_by i
decreasing_by exact t.par_lt i p h

/-- `all_used_symbols`: scope.py:713-725. -/
def allUsed (t : Tree) (s : St) (i : Nat) : List Name :=
  (t.chain i).flatMap fun j => (s.used j).values

/-- `all_python_symbols`: scope.py:728-740. -/
def allPython (t : Tree) (s : St) (i : Nat) : List Name :=
  (t.chain i).flatMap fun j => (s.used j).keys

/-- Whether symbols of this scope are stored in the parent (`is_loop`; `allow_loop_scoping` is
always `False` in the repository). -/
def Tree.isLoop (t : Tree) (i : Nat) : Bool := t.kind i = .loop

/-- `self._used_symbols[k] = v; self._original_symbol[v] = k`. -/
def put (s : St) (i : Nat) (k v : Name) : St :=
  { s with used := upd s.used i ((s.used i).set k v)
           orig := upd s.orig i ((s.orig i).set v k) }

/-- The non-loop branch of `insert_symbol`: scope.py:603-618. -/
def insertHere (t : Tree) (s : St) (i : Nat) (k : Name) (ctx : Ctx) : Option (St × Name) :=
  match (s.used i).get k with
  | some v => some (s, v)
  | none =>
    match getCollisionless t.lang k (allUsed t s i) (t.pre i) ctx (t.kind i) with
    | some v => some (put s i k v, v)
    | none => none

/-- `insert_symbol`: scope.py:569-618 (`DottedName`s are not modelled).  A loop scope hands the
symbol to its parent with the default `object_type`. -/
def insertSymbol (t : Tree) (s : St) (i : Nat) (k : Name) (ctx : Ctx) : Option (St × Name) :=
  if t.isLoop i then
    match h : t.par i with
    | some p => insertSymbol t s p k .variable
    | none => none
  else insertHere t s i k ctx
termination_by i
decreasing_by exact t.par_lt i p h

/-- The name searched for by `get_new_name` outside its first branch: scope.py:849-865. -/
def newNameBase (t : Tree) (s : St) (i : Nat) : Option Name → Option (Name × Nat)
  | none => createIncremented t.lang (allUsed t s i) "Dummy".toList (s.dummy i)
  | some cur => (createIncrementedPlain (allUsed t s i) cur 1).map fun r => (r.1, s.dummy i)

/-- `get_new_name`: scope.py:813-877. -/
def getNewName (t : Tree) (s : St) (i : Nat) (cur : Option Name) (ctx : Ctx) :
    Option (St × Name) :=
  let fresh : Option (St × Name) := do
    let (n, c) ← newNameBase t s i cur
    let s := { s with dummy := upd s.dummy i c }
    let v ← getCollisionless t.lang n (allUsed t s i) (t.pre i) ctx (t.kind i)
    insertSymbol t (put s i v v) i v ctx
  match cur with
  | some k => if hasClash t.lang k (allPython t s i) then fresh else insertSymbol t s i k ctx
  | none => fresh

/-- `get_expected_name` (for a name other than `_`): scope.py:922-946. -/
def expectedName (t : Tree) (s : St) (i : Nat) (k : Name) : Option Name :=
  (t.chain i).findSome? fun j => (s.used j).get k

/-- `get_python_name`: scope.py:1071-1093. -/
def pythonName (t : Tree) (s : St) (i : Nat) (v : Name) : Option Name :=
  (t.chain i).findSome? fun j => (s.orig j).get v

/-- Operations on the name tables.
`enter i k`: the scope `i` of a function named `k` is created with the entry of `k` of the
enclosing scope (pyccel/parser/syntactic.py:1242-1248 and the other calls of
`create_new_function_scope`).
`remove`: `remove_symbol`, scope.py:653-667.
`lowLevel`: `insert_low_level_symbol`, scope.py:620-651, which reports an error if the name
clashes (`none`: compilation fails; in a loop scope the parent's new entry always clashes). -/
inductive Op
  | insert (i : Nat) (k : Name) (ctx : Ctx)
  | newName (i : Nat) (cur : Option Name) (ctx : Ctx)
  | enter (i : Nat) (k : Name)
  | remove (i : Nat) (k : Name)
  | lowLevel (i : Nat) (k v : Name)
deriving DecidableEq

/-- One operation. -/
def step (t : Tree) (s : St) : Op → Option St
  | .insert i k ctx => (insertSymbol t s i k ctx).map Prod.fst
  | .newName i cur ctx => (getNewName t s i cur ctx).map Prod.fst
  | .enter i k =>
    match t.par i with
    | some p =>
      match (s.used p).get k with
      | some v => if s.used i = [] then some (put s i k v) else none
      | none => none
    | none => none
  | .remove i k =>
    match (s.used i).get k with
    | some v => some { s with used := upd s.used i ((s.used i).del k)
                              orig := upd s.orig i ((s.orig i).del v) }
    | none => some s
  | .lowLevel i k v =>
    if t.isLoop i || ((s.used i).get k).isSome || hasClash t.lang v (allUsed t s i) then none
    else some (put s i k v)

/-- A history of operations, all of which succeed. -/
def run (t : Tree) : St → List Op → Option St
  | s, [] => some s
  | s, op :: ops => (step t s op).bind fun s' => run t s' ops

/-! ### Histories -/

/-- No name given by the step to a symbol of a scope is used for a different symbol by a scope
nested in it. -/
def NoCapture (t : Tree) (s s' : St) : Prop :=
  ∀ j k v, (k, v) ∈ s'.used j → (k, v) ∉ s.used j →
    ∀ d, j ∈ t.chain d → d ≠ j → ∀ k' v', (k', v') ∈ s'.used d → Same t.lang v' v → k' = k

/-- No symbol is given a new name by the step. -/
def Keeps (s s' : St) : Prop :=
  ∀ i k v w, (s.used i).get k = some v → (s'.used i).get k = some w → w = v

/-- A history of operations none of which gives a symbol a name that a nested scope already uses
for a different symbol. -/
inductive RunSafe (t : Tree) : St → List Op → St → Prop
  | nil (s : St) : RunSafe t s [] s
  | cons {s s' s'' : St} {op : Op} {ops : List Op} (h : step t s op = some s')
      (hn : NoCapture t s s') (hr : RunSafe t s' ops s'') : RunSafe t s (op :: ops) s''

/-- A history without captured names in which `get_new_name` renames no symbol. -/
inductive RunSafe' (t : Tree) : St → List Op → St → Prop
  | nil (s : St) : RunSafe' t s [] s
  | cons {s s' s'' : St} {op : Op} {ops : List Op} (h : step t s op = some s')
      (hn : NoCapture t s s') (hk : Keeps s s') (hr : RunSafe' t s' ops s'') :
      RunSafe' t s (op :: ops) s''

/-- A module scope 0 containing a function scope 1. -/
def demoTree (l : Language) : Tree where
  lang := l
  par := fun i => if i = 1 then some 0 else none
  par_lt := by intro i p h; split at h <;> simp_all
  kind := fun i => if i = 0 then .module else .function
  pre := fun i => if i = 0 then "m__".toList else "m__f__".toList

/-- The names expected in scope 1 after a history. -/
def demoNames (l : Language) (ops : List Op) (ks : List String) : List (Option String) :=
  ks.map fun k => ((run (demoTree l) St.init ops).bind fun s =>
    expectedName (demoTree l) s 1 k.toList).map String.ofList

/-! ### Lookup of objects -/

/-- The categories of objects stored in a scope, in the order of the dictionary: scope.py:89-97. -/
inductive Cat | functions | variables | classes | imports | aliases | decorators | constructs
deriving DecidableEq, Repr

/-- Order of the categories: scope.py:89-97. -/
def cats : List Cat :=
  [.functions, .variables, .classes, .imports, .aliases, .decorators, .constructs]

/-- Objects (`_locals` and `_imports`) of every scope; objects are numbered. -/
structure Objs where
  locals : Nat → Cat → List (Name × Nat)
  imports : Nat → Cat → List (Name × Nat)

/-- Lookup in a dictionary of objects. -/
def olookup (d : List (Name × Nat)) (k : Name) : Option Nat :=
  (d.find? fun e => e.1 == k).map Prod.snd

/-- What a scope itself knows under a name: the loop of `find`, scope.py:311-316. -/
def findHere (o : Objs) (i : Nat) (k : Name) (cs : List Cat) : Option Nat :=
  cs.findSome? fun c => (olookup (o.locals i c) k).or (olookup (o.imports i c) k)

/-- `[category] if category else self._locals.keys()`: scope.py:311. -/
def catList : Option Cat → List Cat
  | some c => [c]
  | none => cats

/-- `find`: scope.py:281-324.  `none` is the result `None`. -/
def find (t : Tree) (o : Objs) (i : Nat) (k : Name) (cat : Option Cat) (localOnly : Bool) :
    Option Nat :=
  match findHere o i k (catList cat) with
  | some x => some x
  | none =>
    match h : t.par i with
    | some p => if t.isLoop i || !localOnly then find t o p k cat localOnly else none
    | none => none
termination_by i
decreasing_by exact t.par_lt i p h

/-- `dict.update` on dictionaries of objects. -/
def oupdate (d e : List (Name × Nat)) : List (Name × Nat) := e ++ d

/-- `find_all`: scope.py:326-352. -/
def findAll (t : Tree) (o : Objs) (i : Nat) (c : Cat) : List (Name × Nat) :=
  match h : t.par i with
  | some p => oupdate (oupdate (findAll t o p c) (o.locals i c)) (o.imports i c)
  | none => oupdate (oupdate [] (o.locals i c)) (o.imports i c)
termination_by i
decreasing_by exact t.par_lt i p h

/-- `insert_variable` for a variable that is not a tuple and not named `_`: scope.py:385-437.
`none` is the `RuntimeError` for an existing name. -/
def insertVariable (t : Tree) (o : Objs) (i : Nat) (k : Name) (x : Nat) : Option Objs :=
  if t.isLoop i then
    match h : t.par i with
    | some p => insertVariable t o p k x
    | none => none
  else
    match olookup (o.locals i .variables) k with
    | some _ => none
    | none => some { o with locals := upd o.locals i (fun c =>
        if c = .variables then (k, x) :: o.locals i c else o.locals i c) }
termination_by i
decreasing_by exact t.par_lt i p h

end Verif.Names
