/-!
# Sessions: a Python process that calls `epyccel`

What a Python process finds when it imports a module, and what a user expects of the calls of `epyccel`
that it makes.
-/

namespace Verif.Session.Spec

/-- Folders. -/
abbrev Dir := Nat

/-- Names of modules: `p.q.base_tag`; the name of a module of the user has no tag. -/
structure Name where
  pkg : List Nat
  base : Nat
  tag : Option Nat
  deriving DecidableEq, Repr

/-- The text or the machine code of a module. -/
abbrev Code := Nat

/-- A file that can be imported. -/
inductive File
  | library (c : Code)
  | source (c : Code)
  deriving DecidableEq, Repr

/-- What a folder contains for a name: a shared library, a Python file. -/
structure Entry where
  lib : Option Code
  src : Option Code
  deriving DecidableEq, Repr

/-- Python takes the shared library if there is one. -/
def Entry.best (e : Entry) : Option File :=
  match e.lib, e.src with
  | some c, _ => some (.library c)
  | none, some c => some (.source c)
  | none, none => none

/-- What matters of a Python process: the current folder, `sys.path`, `sys.modules`, the files, the stage
of pyccel, and the names for which the process holds a lock. -/
structure Py where
  cwd : Dir
  path : List Dir
  modules : Name → Option File
  disk : Dir → Name → Entry
  stage : Option Nat
  locks : List Name

/-- The file found along a search path: the first folder that has one. -/
def locate (disk : Dir → Name → Entry) : List Dir → Name → Option File
  | [], _ => none
  | d :: ds, n =>
    match (disk d n).best with
    | some f => some f
    | none => locate disk ds n

/-- What `import n` gives: the module that is loaded already, or the file that is found. -/
def imported (s : Py) (n : Name) : Option File :=
  match s.modules n with
  | some f => some f
  | none => locate s.disk s.path n

mutual
/-- A compiled module: its name, the folder of its shared library, and the compiled modules that it
uses. -/
inductive Mod
  | mk (name : Name) (dir : Dir) (deps : Mods)
inductive Mods
  | nil
  | cons (m : Mod) (ms : Mods)
end

mutual
/-- The modules below, with their folders. -/
def Mod.all : Mod → List (Name × Dir)
  | .mk n d deps => (n, d) :: deps.all
def Mods.all : Mods → List (Name × Dir)
  | .nil => []
  | .cons m ms => m.all ++ ms.all
end

/-- The name of a compiled module. -/
def Mod.name : Mod → Name
  | .mk n _ _ => n

/-- The names of the modules that are used directly. -/
def Mods.direct : Mods → List Name
  | .nil => []
  | .cons m ms => m.name :: ms.direct

/-- What a compiled module should find under a name: the module that is loaded already, or the library in
the folder of that module. -/
def own (home : Name → Dir) (s : Py) (n : Name) : Option File :=
  match s.modules n with
  | some f => some f
  | none => (s.disk (home n) n).best

/-- What can go wrong in a call of `epyccel`. -/
inductive Step
  | write | check | addCwd | translate | build | finish | addDir | load | removeDir | verify | attribute
  | release
  deriving DecidableEq, Repr

/-- A call of `epyccel`: the folder `__epyccel__` in which it works, the beginning of the name, what is
built (a library unless the language is Python), the random tags that are drawn, the names that other
processes hold, the steps that fail for reasons outside, the stage that is reached, and the compiled
modules that the new module uses. -/
structure Call where
  dir : Dir
  pkg : List Nat
  base : Nat
  code : Code
  out : Code
  compiled : Bool
  tags : List Nat
  taken : Name → Bool
  fails : Step → Bool
  reached : Nat
  deps : Mods
  broken : Name → Bool

/-- What is built. -/
def Call.file (c : Call) : File := if c.compiled then .library c.out else .source c.out

/-- What a process does. -/
inductive Event
  | call (c : Call)
  | chdir (d : Dir)
  | import (n : Name)

/-- The folders in which a process is while it calls `epyccel`, and those in which `epyccel` works. -/
def visited : Dir → List Event → List Dir
  | _, [] => []
  | d, .call c :: es => d :: c.dir :: visited d es
  | _, .chdir d :: es => visited d es
  | d, .import _ :: es => visited d es

/-- The names of the compiled modules that the new modules use. -/
def used : List Event → List Name
  | [] => []
  | .call c :: es => c.deps.all.map Prod.fst ++ used es
  | _ :: es => used es

end Verif.Session.Spec
