import Verif.Link.Spec

/-!
# Compiling and linking: model of the code

`CompileObj` (codegen/compiling/basic.py), `Compiler` (codegen/compiling/compilers.py),
`recompile_object` and `manage_dependencies` (codegen/utilities.py) and the creation of the objects
in codegen/pipeline.py.  Not modelled: macOS and Windows, conda, locks (C52).
-/

namespace Verif.Link.Model
open Spec

mutual
/-- `CompileObj.extra_modules`: basic.py 228-237.  (A set; the order of object files does not
matter.) -/
def files : Obj → List Name
  | .mk _ _ _ ds => filesAll ds

/-- The loop of `extra_modules`. -/
def filesAll : List Obj → List Name
  | [] => []
  | d :: r => (if d.file then d.name :: files d else []) ++ filesAll r
end

/-- The objects that pyccel makes.  Those without a file are stub files, which are made without
dependencies (codegen/utilities.py 343-351), and headers, which depend on headers (`STC_Extensions` on
`stc`, `gFTL_functions` on `gFTL`: library_config.py 735-744; `stc` and `gFTL` have no dependencies:
445, 469, 633).  All others have a file: pipeline.py 274-283 and 319-324, python_wrapper.py 130-140,
utilities.py 112-120, library_config.py 728-734. -/
inductive Made : Obj → Prop
  | header {n : Name} {l : List Name} {ds : List Obj} (h : ∀ d ∈ ds, Made d)
      (hf : ∀ d ∈ ds, d.file = false) : Made (.mk n false l ds)
  | object {n : Name} {l : List Name} {ds : List Obj} (h : ∀ d ∈ ds, Made d) : Made (.mk n true l ds)

mutual
/-- `CompileObj.libs`: basic.py 205-213. -/
def allLibs : Obj → List Name
  | .mk _ _ l ds => l ++ allLibsOf ds

/-- The second part of the list. -/
def allLibsOf : List Obj → List Name
  | [] => []
  | d :: r => allLibs d ++ allLibsOf r
end

/-- `dict.fromkeys(l).keys()`: `Compiler._get_property`, compilers.py 258-267. -/
def firsts : List Name → List Name
  | [] => []
  | x :: r => x :: (firsts r).filter (· != x)

/-- The options `-l` of a command: compilers.py 418-420.  The libraries of the compiler itself follow
those of the object. -/
def libFlags (config : List Name) (o : Obj) : List Name := firsts (allLibs o ++ config)

/-- `Compiler._get_flags`: compilers.py 204-222. -/
def flags (user : List Flag) (debug : Bool) (debugFlags releaseFlags general tools : List Flag) :
    List Flag :=
  user ++ (if debug then debugFlags else releaseFlags) ++ general ++ tools

/-- The options of the user with which the files of a translation are compiled: the module
(pipeline.py 274-283), and the program, whose object is made without `flags` (pipeline.py 319-324). -/
def userFlags (user : List Flag) (program : Bool) : List Flag := if program then [] else user

/-- The folders of the options `-I`: `CompileObj.include` is a set (basic.py 117-119, 190-198), and the
order of a set of paths is any order.  `order` is one of them. -/
def IsOrder (given order : List Name) : Prop := order.Perm given.eraseDups

/-- The object file of a library: contents of the source and options it was compiled from, and its
time. -/
structure Built where
  src : Nat
  opts : Nat
  time : Nat
  deriving DecidableEq, Repr

/-- The copy of a library in the folder of pyccel. -/
structure Lib where
  src : Nat
  time : Nat
  built : Option Built
  deriving DecidableEq, Repr

/-- Whether the library is compiled again: `recompile_object`, codegen/utilities.py 151-162. -/
def outdated (l : Lib) : Bool :=
  match l.built with
  | some b => decide (b.time < l.time)
  | none => true

/-- One event.  An upgrade removes the folder with the object file and copies the sources with their
times: `StdlibInstaller.install_to`, library_config.py 101-126. -/
def step (l : Lib) : Event → Lib
  | .write c t => { l with src := c, time := t }
  | .upgrade c m => { src := c, time := m, built := none }
  | .use o t => if outdated l then { l with built := some ⟨l.src, o, t⟩ } else l

/-- A history. -/
def run (l : Lib) (h : List Event) : Lib := h.foldl step l

end Verif.Link.Model
