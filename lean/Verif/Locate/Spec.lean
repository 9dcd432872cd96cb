/-!
# Which file an import statement refers to: specification

The search of Python (`importlib`, `PathFinder`): packages with and without `__init__.py`, modules.
-/

namespace Verif.Locate.Spec

/-- A folder, or a file without its suffix: an absolute path.  Names are numbered. -/
abbrev Path := List Nat

/-- The file system: `py p`: the file `p.py`; `pyi p`: `p.pyi`; `folder p`; `init p`: the file `p/__init__.py`. -/
structure Fs where
  py : Path → Bool
  pyi : Path → Bool
  folder : Path → Bool
  init : Path → Bool

/-- The result of the search for one name in a list of folders. -/
inductive Found
  | pkg (p : Path)
  | mod (p : Path)
  | space (ps : List Path)
  | no

/-- The first folder with a package or a module of this name; in one folder a package comes before a module.  If there is
none, then all folders of this name are together a package without `__init__.py`. -/
def step (fs : Fs) (path : List Path) (x : Nat) : Found :=
  match path.find? fun d => fs.init (d ++ [x]) || fs.py (d ++ [x]) with
  | some d => if fs.init (d ++ [x]) then .pkg (d ++ [x]) else .mod (d ++ [x])
  | none => match path.filter fun d => fs.folder (d ++ [x]) with
    | [] => .no
    | ds => .space (ds.map (· ++ [x]))

/-- What Python finds for a name with dots. -/
def pyImport (fs : Fs) : List Path → List Nat → Found
  | _, [] => .no
  | path, [x] => step fs path x
  | path, x :: y :: xs => match step fs path x with
    | .pkg p => pyImport fs [p] (y :: xs)
    | .space ps => pyImport fs ps (y :: xs)
    | _ => .no

/-- What Python loads: a module file, or the `__init__.py` of a package (`true`). -/
def pyFind (fs : Fs) (path : List Path) (names : List Nat) : Option (Path × Bool) :=
  match pyImport fs path names with
  | .pkg p => some (p, true)
  | .mod p => some (p, false)
  | _ => none

/-- The folder `n` levels above. -/
def above (n : Nat) (d : Path) : Path := d.take (d.length - n)

/-- An import statement: the number of dots in front, and the names between dots.  `sys` is `sys.path`; `dir` is the
folder of the file with the statement. -/
def pyLoads (fs : Fs) (sys : List Path) (dir : Path) (dots : Nat) (names : List Nat) : Option (Path × Bool) :=
  match dots with
  | 0 => pyFind fs sys names
  | n + 1 => pyFind fs [above n dir] names

/-- No name is used twice in a folder: for a module and for a folder.  Files are in folders. -/
structure Tidy (fs : Fs) : Prop where
  one : ∀ p, fs.py p = true → fs.folder p = false
  init : ∀ p, fs.init p = true → fs.folder p = true
  inside : ∀ p, fs.py p = true → fs.folder p.dropLast = true
  up : ∀ p, fs.folder p = true → fs.folder p.dropLast = true

/-- All folders on the way to a module are packages with `__init__.py`. -/
def Packages (fs : Fs) (dir : Path) (names : List Nat) : Prop :=
  ∀ a b, names = a ++ b → a ≠ [] → b ≠ [] → fs.init (dir ++ a) = true

end Verif.Locate.Spec
