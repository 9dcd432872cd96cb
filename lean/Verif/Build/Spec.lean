/-!
# Error messages, exit status and outputs: specification

What a user of the command line sees: which messages are printed, the exit status, which stages of
the translation were completed, which files are written.
-/

namespace Verif.Build.Spec

/-- How bad a message is. -/
inductive Sev
  | warning
  | error
  | fatal
  | internal
  deriving DecidableEq, Repr

/-- User mode or developer mode. -/
inductive Mode
  | user
  | developer
  deriving DecidableEq, Repr

/-- A message: the file it is about (if given), the severity and the text.  `raising`: it is
reported from a line with a `raise` in it. -/
structure Report where
  file : Option String
  sev : Sev
  text : String
  raising : Bool
  deriving DecidableEq, Repr

/-- What happens to the registry of messages. -/
inductive Op
  | report (r : Report)
  | reset
  | setTarget (file : String)
  | setMode (m : Mode)
  deriving DecidableEq, Repr

/-- A message with the file under which it is listed. -/
structure Entry where
  file : String
  report : Report
  deriving DecidableEq, Repr

/-- The state of the registry according to the specification: the mode, the current file, and the
messages since the last reset in the order in which they came. -/
structure Log where
  mode : Mode := .user
  target : Option String := none
  entries : List Entry := []

/-- Internal messages are for developers only. -/
def visible (m : Mode) (r : Report) : Bool := !(m == .user && r.sev == .internal)

/-- One event. -/
def Log.next (l : Log) : Op → Log
  | .report r =>
    if visible l.mode r then
      { l with entries := l.entries ++ [⟨(r.file.or l.target).getD "", r⟩] }
    else l
  | .reset => { l with target := none, entries := [] }
  | .setTarget f => { l with target := some f }
  | .setMode m => { l with mode := m }

/-- A history. -/
def Log.after (h : List Op) : Log := h.foldl Log.next {}

/-- A message that makes a translation fail. -/
def Entry.isError (e : Entry) : Prop := e.report.sev ≠ .warning

instance (e : Entry) : Decidable e.isError := inferInstanceAs (Decidable (_ ≠ _))

/-! ## The command line -/

/-- The stages of a translation. -/
inductive Stage
  | syntactic
  | semantic
  | codegen
  | copy
  | dependencies
  | compilation
  | program
  | wrapping
  | wrapperPrinting
  | library
  deriving DecidableEq, Repr

/-- Target languages. -/
inductive Lang
  | fortran
  | c
  | python
  deriving DecidableEq, Repr

/-- The options of `pyccel compile`. -/
structure Options where
  syntaxOnly : Bool := false
  semanticOnly : Bool := false
  convertOnly : Bool := false
  /-- The file is a stub file. -/
  stub : Bool := false
  lang : Lang := .fortran
  /-- The file contains a program. -/
  isProgram : Bool := false
  deriving DecidableEq, Repr

/-- The stages that the options ask for, as the help texts of the options say. -/
def wanted (o : Options) : List Stage :=
  if o.syntaxOnly then [.syntactic]
  else if o.semanticOnly || o.stub then [.syntactic, .semantic]
  else if o.lang = .python then [.syntactic, .semantic, .codegen, .copy]
  else if o.convertOnly then [.syntactic, .semantic, .codegen, .dependencies]
  else [.syntactic, .semantic, .codegen, .dependencies, .compilation] ++
    (if o.isProgram then [.program] else []) ++ [.wrapping, .wrapperPrinting, .library]

/-- What is left when the command has ended: the exit status, the messages on the screen, whether
there is a Python traceback, and the stages that were begun and those that were completed. -/
structure Exit where
  status : Nat
  printed : List Entry
  traceback : Bool
  begun : List Stage
  done : List Stage
  deriving DecidableEq, Repr

end Verif.Build.Spec
