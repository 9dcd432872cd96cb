import Verif.ConfigCheck.Spec

/-!
# `pyccel config check`

`true`: exit status 0.  An exception of Python counts as failure.
-/

namespace Verif.ConfigCheck.Model
open Verif.ConfigCheck.Spec

/-- `pyccel/commands/pyccel_config.py:200`.  What a `for` loop over a value visits; `none`: an exception.  A string is visited character by character.
Simplification: the keys of an object are not paths, so that a loop over an object that is not empty fails. -/
def items (env : Env) : J → Option (List J)
  | .str s => some ((env.chars s).map .str)
  | .num => none
  | .list l => some l
  | .obj [] => some []
  | .obj _ => none

/-- One element of `include`, `libdir` or `dependencies`.  `pyccel/commands/pyccel_config.py:200-214, 243-256` -/
def pathOk (env : Env) : J → Bool
  | .str s => env.absolute s && env.found s
  | _ => false

/-- One element of `libs`: a name, or a path with several parts.  `pyccel/commands/pyccel_config.py:228-242` -/
def libOk (env : Env) : J → Bool
  | .str s => env.bare s || (env.absolute s && env.found s)
  | _ => false

/-- A loop over `config.get(key, ())`.  `pyccel/commands/pyccel_config.py:200, 214, 228, 243` -/
def checkItems (env : Env) (p : J → Bool) : Option J → Bool
  | none => true
  | some v => match items env v with
    | some l => l.all p
    | none => false

/-- `check_config_paths`; `pyccel/commands/pyccel_config.py:181-258` -/
def checkPaths (env : Env) (l : List (Key × J)) : Bool :=
  checkItems env (pathOk env) (lookup .incl l) && checkItems env (pathOk env) (lookup .libdir l) &&
    checkItems env (libOk env) (lookup .libs l) && checkItems env (pathOk env) (lookup .dependencies l)

/-- The keys of the configuration of GNU whose values are strings.
`pyccel/compilers/default_compilers.py:16-33`, `pyccel/commands/pyccel_config.py:304-308` -/
def strKeys (fortran : Bool) : List Key := [.exec, .mpiExec] ++ if fortran then [.moduleOutputFlag] else []

/-- Those whose values are lists.  `pyccel/compilers/default_compilers.py:16-33, 240-241, 310-311` -/
def listKeys : List Key := [.debugFlags, .releaseFlags, .generalFlags, .standardFlags, .libs]

/-- `accelerator_keys`; `pyccel/commands/pyccel_config.py:302` -/
def toolKeys : List Key := [.flags, .libs, .libdir, .incl, .dependencies]

/-- `isinstance(v, str)`; `pyccel/commands/pyccel_config.py:331, 361` -/
def isStr : J → Bool
  | .str _ => true
  | _ => false

/-- `isinstance(v, list)`; `pyccel/commands/pyccel_config.py:331` -/
def isList : J → Bool
  | .list _ => true
  | _ => false

/-- `isinstance(v, list) and isinstance(next(iter(v), ""), str)`: only the first element is looked at.
`pyccel/commands/pyccel_config.py:369-371` -/
def listOfStr : J → Bool
  | .list [] => true
  | .list (v :: _) => isStr v
  | _ => false

/-- The settings of a tool; `pyccel/commands/pyccel_config.py:347-379` -/
def checkTool (env : Env) (python : Bool) : J → Bool
  | .obj l => l.all fun kv =>
      (if kv.1 ∈ toolKeys then listOfStr kv.2
        else if python && kv.1 == .sharedSuffix then isStr kv.2 else true) && checkPaths env l
  | _ => false

/-- The settings of a language; unknown keys and missing keys are only warnings.
`pyccel/commands/pyccel_config.py:304-379` -/
def checkLang (env : Env) (fortran : Bool) : J → Bool
  | .obj l =>
      (l.all fun kv => (!(kv.1 ∈ strKeys fortran) || isStr kv.2) && (!(kv.1 ∈ listKeys) || isList kv.2)) &&
      checkPaths env l &&
      l.all fun kv => !(kv.1 ∈ [Key.mpi, .openmp, .openacc, .python]) || checkTool env (kv.1 == .python) kv.2
  | _ => false

/-- `pyccel_config_check`; `pyccel/commands/pyccel_config.py:261-382` -/
def check (env : Env) : J → Bool
  | .obj l =>
      if l.all fun kv => !(kv.1 ∈ [Key.c, .fortran]) then false
      else if l.any fun kv => !(kv.1 ∈ [Key.c, .fortran]) then false
      else l.all fun kv => checkLang env (kv.1 == .fortran) kv.2
  | _ => false

/-- What `pyccel config register` saves: the version is put into the configuration (a new key at the end).
`pyccel/commands/pyccel_config.py:416-418` -/
def saved (version : Nat) : J → J
  | .obj l => .obj (l ++ [(.pyccelVersion, .str version)])
  | v => v

/-- `pyccel config export` of a registered family: what was saved, unchanged.
`pyccel/codegen/compiling/compilers.py:676-696` -/
def exported (version : Nat) (v : J) : J := saved version v

end Verif.ConfigCheck.Model
