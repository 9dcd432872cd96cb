import Verif.Build.Spec
/-!
# The registry of errors, the pipeline and the command line

`pyccel/errors/errors.py`, `pyccel/codegen/pipeline.py`, `pyccel/codegen/python_wrapper.py`,
`pyccel/commands/console.py`, `pyccel/commands/pyccel_compile.py`, `pyccel/commands/epyccel.py`.
-/

namespace Verif.Build

open Verif.Build.Spec

/-! ## `Errors` -/

/-- `Errors` with `ErrorsMode`, errors.py 193-289: `error_info_map` is an `OrderedDict` from files to
lists of messages. -/
structure Errors where
  mode : Mode := .user
  target : Option String := none
  map : List (String × List Report) := []

/-- `ErrorInfo.blocker`, errors.py 156-160. -/
def blocker (m : Mode) (r : Report) : Bool :=
  (m == .developer && r.sev != .warning && !r.raising) || r.sev == .fatal

/-- `_add_error_info`, errors.py 401-404. -/
def addInfo (f : String) (r : Report) : List (String × List Report) → List (String × List Report)
  | [] => [(f, [r])]
  | (g, rs) :: m => if g = f then (g, rs ++ [r]) :: m else (g, rs) :: addInfo f r m

/-- The file of a message, errors.py 342-343 and 142. -/
def Errors.filename (e : Errors) (r : Report) : String :=
  match r.file with
  | some f => f
  | none => e.target.getD ""

/-- `report`, errors.py 291-399: the new registry, and whether an exception is raised.
Simplification: positions and symbols are not modelled. -/
def Errors.report (e : Errors) (r : Report) : Errors × Bool :=
  if e.mode == .user && r.sev == .internal then (e, false)
  else ({ e with map := addInfo (e.filename r) r e.map }, blocker e.mode r)

/-- `reset`, errors.py 256-275. -/
def Errors.reset (e : Errors) : Errors := { e with target := none, map := [] }

/-- `set_target`, errors.py 277-289, and `set_mode`, 209-221. -/
def Errors.next (e : Errors) : Op → Errors
  | .report r => (e.report r).1
  | .reset => e.reset
  | .setTarget f => { e with target := some f }
  | .setMode m => { e with mode := m }

/-- A history of calls. -/
def Errors.after (h : List Op) : Errors := h.foldl Errors.next {}

/-- `has_errors`, errors.py 422-429. -/
def Errors.hasErrors (e : Errors) : Bool :=
  e.map.any fun p => p.2.any fun r => r.sev != .warning

/-- `has_warnings`, errors.py 413-420. -/
def Errors.hasWarnings (e : Errors) : Bool :=
  e.map.any fun p => p.2.any fun r => r.sev == .warning

/-- `num_messages`, errors.py 409-411. -/
def Errors.numMessages (e : Errors) : Nat := (e.map.map fun p => p.2.length).sum

/-- `__str__`, errors.py 451-475: the messages in the order in which they are printed.  The headings
are not modelled. -/
def Errors.printed (e : Errors) : List Entry :=
  e.map.flatMap fun p => p.2.map fun r => ⟨p.1, r⟩

/-! ## The visitors -/

/-- How a piece of code ends. -/
inductive Out
  | ok
  | pyccelError
  | otherError
  deriving DecidableEq, Repr

/-- What a stage does: it reports messages, raises an exception, or visits, prints or wraps a node,
which means that a method with more such actions is called. -/
inductive Act
  | report (r : Report)
  | raisePyccel
  | raiseNotImplemented
  | raiseOther
  | visit (as : List Act)

/-- How the code ends before an enclosing visitor sees it. -/
inductive Raised
  | ok
  | pyccel
  | notImplemented
  | other
  deriving DecidableEq, Repr

/-- The message of the visitors for `NotImplementedError`. -/
def notImplementedReport : Report := ⟨none, .fatal, "PYCCEL_RESTRICTION_TODO", false⟩

/-- The message of the visitors for other exceptions. -/
def internalReport : Report := ⟨none, .fatal, "PYCCEL_INTERNAL_ERROR", false⟩

/-- The `except` clauses of `_visit` (syntactic.py 548-565, semantic.py 3604-3621), `_wrap`
(wrapper.py 120-137) and `_print` (codeprinter.py 151-168).  The reports are fatal. -/
def handler (e : Errors) : Raised → Errors × Raised
  | .ok => (e, .ok)
  | .pyccel => (e, .pyccel)
  | .notImplemented => ((e.report notImplementedReport).1, .pyccel)
  | .other => if e.mode == .user then ((e.report internalReport).1, .pyccel) else (e, .other)

/-- An exception ends the code. -/
def andThen (t : Errors × Raised) (k : Errors → Errors × Raised) : Errors × Raised :=
  match t.2 with
  | .ok => k t.1
  | _ => t

mutual
/-- One action. -/
def act (e : Errors) : Act → Errors × Raised
  | .report r => ((e.report r).1, if (e.report r).2 then .pyccel else .ok)
  | .raisePyccel => (e, .pyccel)
  | .raiseNotImplemented => (e, .notImplemented)
  | .raiseOther => (e, .other)
  | .visit as => handler (acts e as).1 (acts e as).2
  termination_by structural a => a
/-- Actions one after the other. -/
def acts (e : Errors) : List Act → Errors × Raised
  | [] => (e, .ok)
  | a :: as => andThen (act e a) fun e => acts e as
  termination_by structural as => as
end

/-! ## The pipeline -/

/-- The state of the pipeline: the registry, and the stages that have been begun and completed. -/
structure St where
  errors : Errors
  begun : List Stage := []
  done : List Stage := []

/-- What the stages do with a given file. -/
abbrev World := Stage → List Act

/-- A stage, and the code after it. -/
def stage (w : World) (k : Stage) (s : St) (cont : St → St × Out) : St × Out :=
  match acts s.errors (w k) with
  | (e, .ok) => cont ⟨e, s.begun ++ [k], s.done ++ [k]⟩
  | (e, .pyccel) => (⟨e, s.begun ++ [k], s.done⟩, .pyccelError)
  | (e, _) => (⟨e, s.begun ++ [k], s.done⟩, .otherError)

/-- `if errors.has_errors(): raise …`, and the code after it. -/
def check (s : St) (cont : St → St × Out) : St × Out :=
  if s.errors.hasErrors then (s, .pyccelError) else cont s

/-- `create_shared_library`, python_wrapper.py 90-181, and the code after it (pipeline.py 347-361).
The first `return` gives a pair, the second `None`, which the caller cannot unpack. -/
def createSharedLibrary (w : World) (s : St) (cont : St → St × Out) : St × Out :=
  stage w .wrapping s fun s =>
  if s.errors.hasErrors then cont s else
  stage w .wrapperPrinting s fun s =>
  if s.errors.hasErrors then (s, .otherError) else
  stage w .library s cont

/-- `execute_pyccel`, pipeline.py 132-361.  Not modelled: the checks of the arguments, the creation
of folders, the choice of the compiler. -/
def execute (o : Options) (w : World) (e : Errors) : St × Out :=
  let semanticOnly := o.semanticOnly || o.stub
  stage w .syntactic ⟨e.reset, [], []⟩ fun s =>
  check s fun s =>
  -- 226-228: `if syntax_only:` prints the timers
  stage w .semantic s fun s =>
  check s fun s =>
  if semanticOnly then (s, .ok) else
  stage w .codegen s fun s =>
  check s fun s =>
  if o.lang = .python then stage w .copy s fun s => (s, .ok) else
  stage w .dependencies s fun s =>
  if o.convertOnly then (s, .ok) else
  stage w .compilation s fun s =>
  (fun k => if o.isProgram then stage w .program s k else k s) fun s =>
  createSharedLibrary w s fun s =>
  check s fun s => (s, .ok)

/-- `pyccel_command`, console.py 111-121: a `PyccelError` is caught, the messages are printed, the
exit status is `has_errors()`.  Another exception ends the command with a traceback. -/
def console (r : St × Out) : Exit :=
  match r.2 with
  | .otherError => ⟨1, [], true, r.1.begun, r.1.done⟩
  | _ => ⟨if r.1.errors.hasErrors then 1 else 0, r.1.errors.printed, false, r.1.begun, r.1.done⟩

/-- `pyccel compile`. -/
def compile (o : Options) (w : World) (e : Errors) : Exit := console (execute o w e)

/-! ## Where the translated Python file goes -/

/-- A path: a folder (absolute) and a name. -/
structure Path where
  folder : String
  name : String
  deriving DecidableEq, Repr

/-- pyccel_compile.py 209-224 and pipeline.py 170-174, 258-263: where the printed Python file is
copied to, `none` if the command refuses.  `output` is `none` or the path after `--output`; the test
`output == ""` compares a `pathlib.Path` or `None` with a string. -/
def pythonTarget (source : Path) (output : Option String) : Option Path :=
  let outputIsEmptyString := false
  if outputIsEmptyString then none
  else some ⟨output.getD source.folder, source.name⟩

/-! ## Parallel `epyccel` -/

/-- How `epyccel_seq` ends on the root process; `m` is the path and the names, `x` the exception. -/
inductive SeqOut
  | built (m : String)
  | pyccelError (x : String)
  | otherError (x : String)
  deriving DecidableEq, Repr

/-- What is broadcast. -/
inductive Msg
  | success (b : Bool)
  | exception (x : String)
  | text (m : String)
  deriving DecidableEq, Repr

/-- How `epyccel` ends on a process. -/
inductive RankOut
  | module (m : String)
  | nothing
  | raises (x : String)
  /-- The process waits in a broadcast that the root process does not enter. -/
  | waits
  deriving DecidableEq, Repr

/-- The root process, epyccel.py 550-599 and 640: what it broadcasts, and its result.
Simplification: `mod_path`, `mod_name` and `obj_name` are one message. -/
def rootRank (bcast : Bool) : SeqOut → List Msg × RankOut
  | .pyccelError x => ([], .raises x)
  | .otherError x => ([.success false, .exception x], .raises x)
  | .built m => (.success true :: (if bcast then [.text m] else []), .module m)

/-- Another process, epyccel.py 584-611 and 640: it gets the messages in order. -/
def otherRank (bcast : Bool) : List Msg → RankOut
  | .success true :: ms =>
    if bcast then
      match ms with
      | .text m :: _ => .module m
      | _ => .waits
    else .nothing
  | .success false :: .exception x :: _ => .raises x
  | _ => .waits

end Verif.Build
