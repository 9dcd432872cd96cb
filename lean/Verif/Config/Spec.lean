/-!
# Registered compilers: specification

`pyccel config register FAMILY FILE`, `pyccel config remove FAMILY`, and the use of a family for compiling.
-/

namespace Verif.Config.Spec

/-- Names of files and folders, and what the user gives as a family. -/
abbrev Name := List Char

/-- Absolute paths. -/
abbrev Path := List Name

/-- The contents of a compiler configuration (any JSON file that `pyccel config check` accepts). -/
abbrev Cfg := Nat

/-- `some c`: a complete configuration; `none`: anything else, also an incomplete one. -/
inductive Ent
  | dir
  | file (c : Option Cfg)
  deriving DecidableEq

/-- The file system. -/
abbrev Fs := Path → Option Ent

/-- A name of one folder: not empty, no `/`, not `.` or `..`. -/
def Simple (f : Name) : Prop := f ≠ [] ∧ '/' ∉ f ∧ f ≠ ['.'] ∧ f ≠ ['.', '.']

instance (f : Name) : Decidable (Simple f) := by unfold Simple; infer_instance

/-- What happens when the library is built for the new compiler: files are written (paths below the folder of the
library), and the build succeeds or fails. -/
structure Inst where
  files : List (Path × Ent)
  ok : Bool
  deriving DecidableEq

/-- The commands. -/
inductive Cmd
  | register (f : Name) (c : Cfg) (i : Inst)
  | remove (f : Name)
  deriving DecidableEq

def Cmd.family : Cmd → Name
  | .register f _ _ => f
  | .remove f => f

/-- The build of the library succeeds. -/
def Cmd.Builds : Cmd → Prop
  | .register _ _ i => i.ok = true
  | .remove _ => True

/-- Which families are registered, with which configuration. -/
abbrev Reg := Name → Option Cfg

def put (r : Reg) (f : Name) (c : Option Cfg) : Reg := fun g => if g = f then c else r g

/-- What a command should do, and whether it succeeds.  A family is not registered twice; if the library cannot be built
then nothing is registered. -/
def step (r : Reg) : Cmd → Reg × Bool
  | .register f c i => if r f = none ∧ i.ok = true then (put r f (some c), true) else (r, false)
  | .remove f => if r f = none then (r, false) else (put r f none, true)

def run (r : Reg) : List Cmd → Reg × List Bool
  | [] => (r, [])
  | c :: cs => let (r', b) := step r c; let (r'', bs) := run r' cs; (r'', b :: bs)

/-- There is nothing in the folder `home`, and the path to it is not blocked by a file. -/
def Fresh (home : Path) (fs : Fs) : Prop :=
  (∀ q, q ≠ [] → fs (home ++ q) = none) ∧ ∀ p, p <+: home → fs p = none ∨ fs p = some .dir

end Verif.Config.Spec
