import Verif.Calls.Spec
/-!
# Calling functions: what Pyccel does

* `visitArguments` – the syntactic stage reads the parameter list;
* `sortArgs`, `functionCall`, `handleFunction` – a call inside the translated code;
* `parseTuple`, `wrapperArgs` – a call from Python to the compiled extension;
* `typeCheck`, `dispatch`, `point` – choice of an overload.

Values are abstract (`V`, `Obj`), types are abstract (`Ty`).
-/

namespace Verif.Calls

/-! ## Reading the parameter list -/

/-- The kinds of `FunctionDefArgument` (`pyccel/ast/core.py` 1560-1760: the flags
`posonly`, `kwonly`, `is_vararg`, `is_kwarg`; at most one is set by the
syntactic stage). -/
inductive Kind where
  | posonly | normal | vararg | kwonly | kwarg
  deriving DecidableEq

/-- A `FunctionDefArgument` (`pyccel/ast/core.py` 1560-1760): only the name, the
kind and the default value. -/
structure FArg (V : Type) where
  name : String
  kind : Kind
  dflt : Option V

/-- Python's `l[:n]` for a possibly negative `n`. -/
def sliceTo {α : Type} (l : List α) (n : Int) : List α :=
  if n < 0 then l.take (l.length - n.natAbs) else l.take n.toNat

/-- Python's `l[n:]` for a possibly negative `n`. -/
def sliceFrom {α : Type} (l : List α) (n : Int) : List α :=
  if n < 0 then l.drop (l.length - n.natAbs) else l.drop n.toNat

/-- `SyntaxParser._visit_arguments` (`pyccel/parser/syntactic.py` 733-826).
Annotations are not modelled, nor the replacement of `self` in methods (lines
787-800). -/
def visitArguments {V : Type} (a : PyArguments V) : List (FArg V) :=
  -- lines 739-748: positional-only parameters never get a default
  let po := a.posonly.map (fun n => FArg.mk n .posonly none)
  -- lines 750-770
  let nExpl : Int := (a.args.length : Int) - a.defaults.length
  let noDflt := (sliceTo a.args nExpl).map (fun n => FArg.mk n .normal none)
  let withDflt := ((sliceFrom a.args nExpl).zip a.defaults).map
    (fun nd => FArg.mk nd.1 .normal (some nd.2))
  -- lines 772-785
  let va := a.vararg.toList.map (fun n => FArg.mk n .vararg none)
  -- lines 802-815
  let ko := (a.kwonly.zip a.kwDefaults).map (fun nd => FArg.mk nd.1 .kwonly nd.2)
  -- lines 817-830
  let kw := a.kwarg.toList.map (fun n => FArg.mk n .kwarg none)
  po ++ noDflt ++ withDflt ++ va ++ ko ++ kw

/-! ## Calls inside the translated code -/

/-- What is passed for one parameter: a value, the tuple built for `*args` or the
dictionary built for `**kwargs`. -/
inductive Arg (V : Type) where
  | val (v : V)
  | tuple (vs : List V)
  | dict (kvs : List (String × V))
  deriving DecidableEq

/-- An entry of `input_args` (`pyccel/parser/semantic.py` 1833-1847). -/
inductive IArg (V : Type) where
  | one (v : V)
  | starred (vs : List V)

/-- The loop over the call's arguments (`pyccel/parser/semantic.py` 1833-1847).
`none` is the `IndexError` of `func_args[len(input_args)]`.  `kwargs` is a
dictionary; the caller never repeats a keyword. -/
def collect {V : Type} (fargs : List (FArg V)) :
    List (Spec.CArg V) → List (IArg V) → List (String × V) →
      Option (List (IArg V) × List (String × V))
  | [], input, kws => some (input, kws)
  | .pos v :: l, input, kws => collect fargs l (input ++ [.one v]) kws
  | .star vs :: l, input, kws =>
      match fargs[input.length]? with
      | none => none
      | some f =>
          if f.kind ≠ .vararg then collect fargs l (input ++ vs.map .one) kws
          else collect fargs l (input ++ [.starred vs]) kws
  | .kw n v :: l, input, kws => collect fargs l input (kws ++ [(n, v)])

/-- The values packed in the tuple of `*args` (`pyccel/parser/semantic.py`
1850-1864).  A starred argument is only unpacked when it is the sole one: the
test in line 1861 looks at the call argument instead of its value, so that any
other starred argument reaches `PythonTuple`, which cannot handle it (`none`). -/
def packRest {V : Type} : List (IArg V) → Option (List V)
  | [.starred vs] => some vs
  | l => l.mapM (fun a => match a with | .one v => some v | .starred _ => none)

/-- The positional entries of `input_args` as call arguments.  Entries before the
`*args` parameter are never starred. -/
def plainArgs {V : Type} (l : List (IArg V)) : Option (List (Arg V)) :=
  l.mapM (fun a => match a with | .one v => some (.val v) | .starred _ => none)

/-- `dict.pop(name, None)`: the value found and the remaining dictionary. -/
def pop {V : Type} (kws : List (String × V)) (n : String) : Option V × List (String × V) :=
  (kws.lookup n, kws.filter (fun kv => kv.1 != n))

/-- The loop completing the arguments (`pyccel/parser/semantic.py` 1866-1874); an
entry `none` is a missing argument.  Returns the leftover keywords too. -/
def complete {V : Type} : List (FArg V) → List (String × V) →
    List (Option (Arg V)) × List (String × V)
  | [], kws => ([], kws)
  | f :: l, kws =>
      if f.kind = .vararg then
        let r := complete l kws
        (some (.tuple []) :: r.1, r.2)
      else if f.kind = .kwarg then complete l kws
      else
        let p := pop kws f.name
        let r := complete l p.2
        ((if p.1.isSome then p.1 else f.dflt).map .val :: r.1, r.2)

/-- The leftover keywords (`pyccel/parser/semantic.py` 1876-1882). -/
def addKwargs {V : Type} (fargs : List (FArg V)) (res : List (Option (Arg V)))
    (left : List (String × V)) : Option (List (Option (Arg V))) :=
  if left.isEmpty then some res
  else match fargs.getLast? with
    | some f => if f.kind = .kwarg then some (res ++ [some (.dict left)]) else none
    | none => none

/-- `SemanticParser._sort_function_call_args` (`pyccel/parser/semantic.py`
1804-1884).  The outer `none` is a failed assertion or another exception. -/
def sortArgs {V : Type} (fargs : List (FArg V)) (args : List (Spec.CArg V)) :
    Option (List (Option (Arg V))) :=
  -- lines 1824-1829
  let nPosonly := (fargs.takeWhile (fun f => f.kind = .posonly)).length
  let nPoss := (fargs.takeWhile (fun f => f.kind ≠ .vararg)).length
  match collect fargs args [] [] with
  | none => none
  | some (input, kws) =>
    -- line 1848
    if input.length < nPosonly then none
    else
      -- lines 1849-1864
      match (if input.length > nPoss then
          (packRest (input.drop nPoss)).bind fun t =>
            (plainArgs (input.take nPoss)).map fun p => p ++ [.tuple t]
        else plainArgs input) with
      | none => none
      | some first =>
        -- lines 1866-1874
        let r := complete (fargs.drop first.length) kws
        addKwargs fargs (first.map some ++ r.1) r.2

/-- `SemanticParser._handle_function` and the constructor of `FunctionCall`
(`pyccel/parser/semantic.py` 1765-1800, `pyccel/ast/core.py` 1980-2007): too many
or missing arguments are errors; fewer arguments than parameters make the
constructor rebuild the list, which leaves a hole (`none`) for any parameter
without value.  `none` at the outer level is an error or a hole: in both cases
no code is generated.  The types of the arguments are not modelled. -/
def handleFunction {V : Type} (fargs : List (FArg V)) (args : List (Spec.CArg V)) :
    Option (List (Arg V)) :=
  match sortArgs fargs args with
  | none => none
  | some as =>
    if as.length > fargs.length then none
    else match as.mapM id with
      | none => none
      | some vs => if vs.length = fargs.length then some vs else none

/-! ## Calls from Python -/

/-- The characters of a `PyArg_ParseTupleAndKeywords` format (`|`, `$`, `O`). -/
inductive Fmt where
  | bar | dollar | obj
  deriving DecidableEq

/-- `PyArg_ParseTupleNode.__init__` (`pyccel/ast/cwrapper.py` 264-274). -/
def format {V : Type} : List (FArg V) → Bool → Bool → List Fmt
  | [], _, _ => []
  | f :: l, hasDflt, hasKw =>
      let b := f.dflt.isSome && !hasDflt
      let k := decide (f.kind = .kwonly) && !hasKw
      (if b then [.bar] else []) ++ (if k then [.dollar] else []) ++ [.obj] ++
        format l (hasDflt || b) (hasKw || k)

/-- One slot of a parsed format: its keyword (`""` for positional-only), whether
it may be omitted, whether it is keyword-only. -/
structure Slot where
  name : String
  optional : Bool
  kwonly : Bool
  deriving DecidableEq

/-- How CPython reads a format (documentation of `PyArg_ParseTupleAndKeywords`):
everything after `|` is optional, everything after `$` is keyword-only, and a
`|` after a `$` is an invalid format (`SystemError` at each call). -/
def readFormat : List Fmt → List String → Bool → Bool → Option (List Slot)
  | [], [], _, _ => some []
  | .bar :: l, ns, opt, kwo => if opt || kwo then none else readFormat l ns true kwo
  | .dollar :: l, ns, opt, kwo => if kwo then none else readFormat l ns opt true
  | .obj :: l, n :: ns, opt, kwo => (readFormat l ns opt kwo).map (⟨n, opt, kwo⟩ :: ·)
  | _, _, _, _ => none

/-- `PyArg_ParseTupleAndKeywords` on a valid format: for each slot, the object
stored or `none` when the C variable is left as it was.  Slot `i` takes the
positional argument `i`, else the keyword with its (non-empty) name; a missing
argument is an error unless the slot is optional.  Outer `none`: an exception. -/
def parseSlots {V : Type} : List Slot → List V → List (String × V) → Option (List (Option V))
  | [], [], kws => if kws.isEmpty then some [] else none
  | [], _ :: _, _ => none
  | s :: l, v :: pos, kws =>
      if s.kwonly then none
      else if s.name ≠ "" ∧ (kws.lookup s.name).isSome then none
      else (parseSlots l pos kws).map (some v :: ·)
  | s :: l, [], kws =>
      if s.name ≠ "" ∧ (kws.lookup s.name).isSome then
        (parseSlots l [] (pop kws s.name).2).map (kws.lookup s.name :: ·)
      else if s.optional then (parseSlots l [] kws).map (none :: ·)
      else none

/-- The names in `kwlist` (`pyccel/codegen/wrapper/c_to_python_wrapper.py`
379-384): the name of the C variable, which is the Python name unless a clash
made Pyccel rename it (`cname`). -/
def kwlist {V : Type} (cname : String → String) (fargs : List (FArg V)) : List String :=
  fargs.map (fun f => if f.kind = .posonly then "" else cname f.name)

/-- What a C variable holds when the wrapped function is called. -/
inductive CVal (V : Type) where
  | val (v : V)
  /-- never assigned: reading it is undefined behaviour -/
  | uninit
  deriving DecidableEq

/-- The value of one parameter (`pyccel/codegen/wrapper/c_to_python_wrapper.py`
`_wrap_FunctionDefArgument` 2301-2348): a defaulted parameter whose variable is
still `None` after parsing gets its default.  Type checks are not modelled here
(see `dispatch`). -/
def argValue {V : Type} [DecidableEq V] (pyNone : V) (dflt : Option V) (parsed : Option V) :
    CVal V :=
  match dflt, parsed with
  | some d, none => .val d
  | some d, some v => if v = pyNone then .val d else .val v
  | none, none => .uninit
  | none, some v => .val v

/-- The wrapper of a function (`pyccel/codegen/wrapper/c_to_python_wrapper.py`
386-401): the variables of defaulted parameters start as `None`, then the call is
parsed.  `none` is an exception.  Functions with `*args` or `**kwargs` are not
wrapped (`pyccel/ast/cwrapper.py` 276-281). -/
def wrapperArgs {V : Type} [DecidableEq V] (pyNone : V) (cname : String → String)
    (fargs : List (FArg V)) (c : Spec.Call V) : Option (List (CVal V)) :=
  if fargs.any (fun f => f.kind = .vararg || f.kind = .kwarg) then none
  else
    match readFormat (format fargs false false) (kwlist cname fargs) false false with
    | none => none
    | some slots =>
      (parseSlots slots c.pos c.kw).map fun vals =>
        (fargs.zip vals).map (fun fv => argValue pyNone fv.1.dflt fv.2)

/-! ## Overloads -/

/-- The implementation of one overload, as far as the dispatch sees it: the type
of each parameter. -/
abbrev Overload (Ty : Type) := List Ty

/-- `list({a.class_type: a for a in interface_args})`
(`pyccel/codegen/wrapper/c_to_python_wrapper.py` 698-701): the distinct types, in
order of first appearance. -/
def possibleTypes {Ty : Type} [DecidableEq Ty] (col : List Ty) : List Ty :=
  col.foldl (fun acc t => if t ∈ acc then acc else acc ++ [t]) []

/-- `next(i for i, p_t in enumerate(possible_types) if p_t is a.class_type)`. -/
def typeIndex {Ty : Type} [DecidableEq Ty] (ts : List Ty) (t : Ty) : Nat := ts.idxOf t

/-- The columns of the table of parameter types: `[func.arguments[i].var for func
in orig_funcs]` for each `i`.  The first overload gives the number of
parameters. -/
def columns {Ty : Type} (fs : List (Overload Ty)) (n : Nat) : List (List Ty) :=
  (List.range n).map (fun i => fs.filterMap (fun f => f[i]?))

/-- The flag of one overload: the loop over the arguments in
`_get_type_check_function` (`c_to_python_wrapper.py` 694-768), restricted to
`argument_type_flags[func]`.  `dfl` says which parameters of the first overload
have a default. -/
def flag {Ty : Type} [DecidableEq Ty] : List (List Ty) → List Bool → List Ty → Nat → Nat
  | col :: cols, d :: dfl, t :: ts, step =>
      let pt := possibleTypes col
      (if d then 0 else if pt.length ≠ 1 then typeIndex pt t * step else 0) +
        flag cols dfl ts (step * pt.length)
  | _, _, _, _ => 0

/-- The generated type check function (same loop, lines 721-768).  `none` is the
result `-1` with a `TypeError` set. -/
def typeCheck {Ty Obj : Type} [DecidableEq Ty] (check : Obj → Ty → Bool) :
    List (List Ty) → List Bool → List Obj → Nat → Option Nat
  | col :: cols, d :: dfl, x :: xs, step =>
      let pt := possibleTypes col
      if d then typeCheck check cols dfl xs (step * pt.length)
      else if pt.length ≠ 1 then
        match pt.findIdx? (fun t => check x t) with
        | some i => (typeCheck check cols dfl xs (step * pt.length)).map (i * step + ·)
        | none => none
      else
        match pt with
        | [t] => if check x t then typeCheck check cols dfl xs (step * pt.length) else none
        | _ => none
  | _, _, _, _ => some 0

/-- `_wrap_Interface` (`c_to_python_wrapper.py` 2015-2050): the chain of `if`s over
the overloads.  `none` is a `TypeError`. -/
def dispatch {Ty Obj : Type} [DecidableEq Ty] (check : Obj → Ty → Bool)
    (fs : List (Overload Ty)) (dfl : List Bool) (xs : List Obj) : Option Nat := do
  let cols := columns fs dfl.length
  let ind ← typeCheck check cols dfl xs 1
  fs.findIdx? (fun f => flag cols dfl f 1 = ind)

/-- The overload chosen from Python together with the checks of defaulted
parameters made by its own wrapper (`_wrap_FunctionDefArgument` 2316-2334).  An
omitted argument is `none`.  The outcome is the overload that runs. -/
def callInterface {Ty Obj : Type} [DecidableEq Ty] (check : Obj → Ty → Bool)
    (fs : List (Overload Ty)) (dfl : List Bool) (xs : List (Option Obj)) : Option Nat := do
  let k ← dispatch (fun (x : Option Obj) t => x.any (fun o => check o t)) fs dfl xs
  let f ← fs[k]?
  if ((f.zip dfl).zip xs).all (fun p => !p.1.2 || (p.2.all (fun o => check o p.1.1))) then
    pure k
  else none

/-- `Interface.point` (`pyccel/ast/core.py` 3201-3244): the overload chosen for a
call inside the translated code, from the static types of the arguments. -/
def point {Ty : Type} [DecidableEq Ty] (fs : List (Overload Ty)) (ts : List Ty) : Option Nat :=
  fs.findIdx? (fun f => decide (ts.length ≤ f.length) && (ts.zip f).all (fun p => p.1 = p.2))

end Verif.Calls
