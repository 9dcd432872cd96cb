import Verif.Locate.Spec

/-!
# `get_filename_from_import`
-/

namespace Verif.Locate.Model
open Verif.Locate.Spec

/-- A file that was found: a Python file or a stub file. -/
inductive Kind
  | py | pyi
  deriving DecidableEq

/-- The loop over the beginnings of a name, the longest first: what `importlib.import_module` gives for the first that can
be imported.  Simplification: modules are found, but not executed; `sys` is `sys.path` of the process of pyccel.
`pyccel/parser/base.py:93-104` -/
def package (fs : Fs) (sys : List Path) (names : List Nat) : Nat → Found
  | 0 => .no
  | n + 1 => match pyImport fs sys (names.take (n + 1)) with
    | .no => package fs sys names n
    | r => r

/-- `filename_stem`; `pyccel/parser/base.py:77-111`.  Dots in front: the folder of the file, or one of those around it.
Dots in the name: the file below the folder if it exists, otherwise the last name in the folder of the file of the package
(packages without file: an exception).  Otherwise: a file in the folder.  Simplification: the folder is an absolute path. -/
def stem (fs : Fs) (sys : List Path) (dir : Path) (dots : Nat) (names : List Nat) : Option Path :=
  match dots with
  | n + 1 => if dir.length < n then none else some (above n dir ++ names)
  | 0 =>
    if names.length ≤ 1 then some (dir ++ names)
    else if fs.py (dir ++ names) then some (dir ++ names)
    else match package fs sys names names.length with
      | .pkg p => some (p ++ [names.getLastD 0])
      | .mod p => some (p.dropLast ++ [names.getLastD 0])
      | _ => none

/-- The file: `own p`: the path is in the folder of pyccel, where stub files come first.
`pyccel/parser/base.py:113-140` -/
def locate (fs : Fs) (own : Path → Bool) (sys : List Path) (dir : Path) (dots : Nat) (names : List Nat) :
    Option (Path × Kind) :=
  match stem fs sys dir dots names with
  | none => none
  | some p =>
    if fs.pyi p && own p then some (p, .pyi)
    else if fs.py p then some (p, .py)
    else if fs.pyi p then some (p, .pyi)
    else none

end Verif.Locate.Model
