import Verif.Clean.Spec

/-!
# `pyccel clean`

pyccel/commands/pyccel_clean.py:28-82.  Simplified: every removal is permitted; every folder can be
listed; nobody else changes the file system meanwhile.
-/

namespace Verif.Clean

open Verif.Clean.Spec

/-- How a call ends: as it should, with an exception (both with the file system then), or not within
the number of nested calls that the model allows. -/
inductive Res
  | ok (r : Node)
  | fail (r : Node)
  | fuel

/-- `f.startswith("__pyccel__") or f.startswith("__epyccel__")` (pyccel_clean.py:72). -/
def generated (f : Name) : Bool := pyccel.isPrefixOf f || epyccel.isPrefixOf f

/-- `os.path.isfile(file_name)` (pyccel_clean.py:74): links are followed. -/
def isfile (r : Node) (p : Path) : Bool :=
  match follow r p with
  | some (.file _ _) => true
  | _ => false

/-- `os.access(file_name, os.X_OK)` (pyccel_clean.py:80): links are followed; folders can be
entered. -/
def access (r : Node) (p : Path) : Bool :=
  match follow r p with
  | some (.file x _) => x
  | some (.dir _) => true
  | _ => false

/-- `shutil.rmtree(file_name, ignore_errors=True)` (pyccel_clean.py:73): removes a folder; a link
or a file gives an error that is ignored. -/
def rmtree (r : Node) (p : Path) (f : Name) : Node :=
  match walk r limit p with
  | none => r
  | some d =>
    match look r (d ++ [f]) with
    | some (.dir _) => erase r d f
    | _ => r

/-- `os.remove(file_name)` (pyccel_clean.py:77, 79, 81): raises an exception for a folder; removes a
link, not what it refers to. -/
def remove (r : Node) (p : Path) (f : Name) : Res :=
  match walk r limit p with
  | none => .fail r
  | some d =>
    match look r (d ++ [f]) with
    | none => .fail r
    | some (.dir _) => .fail r
    | some _ => .ok (erase r d f)

/-- The body of the loop (pyccel_clean.py:71-81); `rec` is the nested call. -/
def one (rec : Node → Path → Res) (o : Opts) (p : Path) (f : Name) (r : Node) : Res :=
  if generated f then .ok (rmtree r p f)
  else if !isfile r (p ++ [f]) && o.recursive then rec r (p ++ [f])
  else if dotPyccel.isSuffixOf f then remove r p f
  else if o.libs && o.ext.isSuffixOf f then remove r p f
  else if o.programs && access r (p ++ [f]) then remove r p f
  else .ok r

/-- The loop (pyccel_clean.py:70-81): an exception ends it. -/
def loop (rec : Node → Path → Res) (o : Opts) (p : Path) : List Name → Node → Res
  | [], r => .ok r
  | f :: fs, r =>
    match one rec o p f r with
    | .ok r' => loop rec o p fs r'
    | .fail r' => .fail r'
    | .fuel => .fuel

/-- `pyccel_clean` (pyccel_clean.py:28-81) with a single folder: the names are listed once
(`os.listdir`, line 69), which raises an exception if the path is not a folder.  The first argument
bounds the number of nested calls. -/
def clean (o : Opts) : Nat → Node → Path → Res
  | 0, _, _ => .fuel
  | n + 1, r, p =>
    match follow r p with
    | some (.dir es) => loop (clean o n) o p (es.map Prod.fst) r
    | _ => .fail r

/-- `pyccel_clean` with several folders (pyccel_clean.py:58-66). -/
def cleanAll (o : Opts) (n : Nat) : List Path → Node → Res
  | [], r => .ok r
  | p :: ps, r =>
    match clean o n r p with
    | .ok r' => cleanAll o n ps r'
    | .fail r' => .fail r'
    | .fuel => .fuel

/-- The file system after a call that ended in any way. -/
def Res.after : Res → Option Node
  | .ok r => some r
  | .fail r => some r
  | .fuel => none

end Verif.Clean
