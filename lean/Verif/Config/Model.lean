import Verif.Config.Spec

/-!
# Registered compilers: what pyccel does
-/

namespace Verif.Config.Model
open Verif.Config.Spec

/-- `$PYCCEL_CONFIG_HOME` or `~/.pyccel` as it is written, and the folder that it is (without symbolic links).
Simplifications: the path is absolute; nothing below this folder is a symbolic link.
`pyccel/commands/pyccel_config.py:421-423, 467-469` -/
structure Env where
  shown : Path
  real : Path
  deriving DecidableEq

/-! ## Paths -/

def split : List Char → List Name
  | [] => [[]]
  | c :: cs =>
    if c = '/' then [] :: split cs
    else match split cs with
      | w :: ws => (c :: w) :: ws
      | [] => [[c]]

/-- The parts of `pathlib.Path(f)`: empty ones and `.` are dropped. -/
def parts (f : Name) : List Name := (split f).filter fun w => w ≠ [] && w ≠ ['.']

/-- `resolve()` of a path without symbolic links. -/
def norm (base : Path) (ps : List Name) : Path :=
  ps.foldl (fun acc w => if w = ['.', '.'] then acc.dropLast else acc ++ [w]) base

/-- `config_dirpath = (pyccel_config_home / compiler_family).resolve()`; `/` gives the family if that is an absolute
path.  `pyccel/commands/pyccel_config.py:424, 470` -/
def dirpath (env : Env) (f : Name) : Path :=
  norm (if f.head? = some '/' then [] else env.real) (parts f)

/-- `Path.stem` of a name: without what follows the last dot, unless the dot is the first or the last character. -/
def stem (n : Name) : Name :=
  let suffix := n.reverse.takeWhile (· != '.')
  let i := n.length - suffix.length - 1
  if suffix.length < n.length ∧ 0 < i ∧ suffix ≠ [] then n.take i else n

def cfgName : Name := ['c', 'o', 'n', 'f', 'i', 'g', '.', 'j', 's', 'o', 'n']
def stcName : Name := ['S', 'T', 'C']
/-- `build-FAMILY` -/
def buildName (f : Name) : Name := ['b', 'u', 'i', 'l', 'd', '-'] ++ f

/-! ## Changing files -/

def write (fs : Fs) (p : Path) (e : Ent) : Fs := fun q => if q = p then some e else fs q

def writes : Fs → List (Path × Ent) → Fs
  | fs, [] => fs
  | fs, (p, e) :: ws => writes (write fs p e) ws

/-- `shutil.rmtree` -/
def rmtree (fs : Fs) (d : Path) : Fs := fun p => if d <+: p then none else fs p

/-- The folder and those around it. -/
def prefixes (d : Path) : List Path := (List.range (d.length + 1)).map d.take

/-- `pyccel_config_register`: what is written, in this order; `none`: an error is reported before anything is written.
The folders are made by `mkdir(parents=True)`, which fails if the folder exists or a file is in the way.  The
configuration file is created when it is opened, and complete when it is closed.  Then the library is built.
`pyccel/commands/pyccel_config.py:406-449` -/
def registerWrites (env : Env) (fs : Fs) (f : Name) (c : Cfg) (i : Inst) : Option (List (Path × Ent)) :=
  let d := dirpath env f
  if ¬ env.shown <+: d then none
  else if fs d ≠ none then none
  else if (prefixes d).any (fun p => fs p ≠ none && fs p ≠ some .dir) then none
  else some (((prefixes d).filter fun p => fs p = none).map (fun p => (p, Ent.dir)) ++
    [(d ++ [cfgName], .file none), (d ++ [cfgName], .file (some c))] ++
    i.files.map fun q => (d ++ stcName :: q.1, q.2))

/-- `pyccel_config_register`; the folder of the build is removed at the end.  If the library cannot be built, an exception
ends the command.  `pyccel/commands/pyccel_config.py:385-452` -/
def register (env : Env) (fs : Fs) (f : Name) (c : Cfg) (i : Inst) : Fs × Bool :=
  match registerWrites env fs f c i with
  | none => (fs, false)
  | some ws =>
    if i.ok then (rmtree (writes fs ws) (dirpath env f ++ [stcName, buildName f]), true) else (writes fs ws, false)

/-- The command ends (is killed, the disk is full, …) after `k` steps. -/
def registerCrash (env : Env) (fs : Fs) (f : Name) (c : Cfg) (i : Inst) (k : Nat) : Fs :=
  match registerWrites env fs f c i with
  | none => fs
  | some ws => writes fs (ws.take k)

/-- `pyccel_config_remove`; `rmtree` of a file is an error.  `pyccel/commands/pyccel_config.py:455-484` -/
def remove (env : Env) (fs : Fs) (f : Name) : Fs × Bool :=
  let d := dirpath env f
  if ¬ env.shown <+: d then (fs, false)
  else if fs d = some .dir then (rmtree fs d, true)
  else (fs, false)

def step (env : Env) (fs : Fs) : Cmd → Fs × Bool
  | .register f c i => register env fs f c i
  | .remove f => remove env fs f

def run (env : Env) (fs : Fs) : List Cmd → Fs × List Bool
  | [] => (fs, [])
  | c :: cs => let (fs', b) := step env fs c; let (fs'', bs) := run env fs' cs; (fs'', b :: bs)

/-! ## Using a family -/

/-- The compilers that pyccel knows.  `pyccel/compilers/default_compilers.py:321-329` -/
def vendors : List Name :=
  [['G', 'N', 'U'], ['i', 'n', 't', 'e', 'l'], ['P', 'G', 'I'], ['n', 'v', 'i', 'd', 'i', 'a'], ['L', 'L', 'V', 'M']]

/-- The configuration of a compiler. -/
inductive Info
  | builtin (f : Name)
  | cfg (c : Cfg)
  deriving DecidableEq

def json : Name := ['.', 'j', 's', 'o', 'n']

/-- `Compiler(f)`; `none`: an error.  `here`: the JSON files that can be reached from the current folder.
`pyccel/codegen/compiling/compilers.py:101-130` -/
def use (env : Env) (here : Name → Option Cfg) (fs : Fs) (f : Name) : Option Info :=
  match (if json <:+ f then here f else none) with
  | some c => some (.cfg c)
  | none =>
    if f ∈ vendors then some (.builtin f)
    else
      match fs (dirpath env f), fs (dirpath env f ++ [cfgName]) with
      | some _, some (.file (some c)) => some (.cfg c)
      | _, _ => none

/-- What the command line accepts for `--compiler-family`: `d.stem` of everything in the folder (`d.is_dir` is not
called, so that it is always true).  `pyccel/commands/argparse_helpers.py:35-40, 210-217` -/
def Choice (env : Env) (fs : Fs) (f : Name) : Prop :=
  f ∈ vendors ∨ ∃ n, fs (env.real ++ [n]) ≠ none ∧ stem n = f

/-- The compiler that the command line uses for `--compiler-family f`. -/
def UsesCli (env : Env) (here : Name → Option Cfg) (fs : Fs) (f : Name) (x : Info) : Prop :=
  Choice env fs f ∧ use env here fs f = some x

end Verif.Config.Model
