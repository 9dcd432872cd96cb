/-!
# The file system, and what `pyccel clean` may remove

This file is the specification: it describes the operating system, not pyccel.
A file system is a tree.  A path is the list of the names from the root.
-/

namespace Verif.Clean.Spec

/-- A name of a file: its characters. -/
abbrev Name := List Char

/-- A path from the root.  The components `.` and `..` are resolved already. -/
abbrev Path := List Name

/-- What a name can stand for. -/
inductive Node
  /-- A regular file: may it be executed, and what it contains. -/
  | file (exec : Bool) (data : Nat)
  /-- A pipe, a socket, a device. -/
  | other
  /-- A symbolic link. -/
  | link (to : Path)
  /-- A folder. -/
  | dir (es : List (Name × Node))

/-- The entry of a folder with a name. -/
def entry : List (Name × Node) → Name → Option Node
  | [], _ => none
  | (k, n) :: es, f => if k = f then some n else entry es f

/-- What is found at a path when no link is followed. -/
def look : Node → Path → Option Node
  | n, [] => some n
  | .dir es, c :: cs =>
    match entry es c with
    | none => none
    | some n => look n cs
  | .file _ _, _ :: _ => none
  | .other, _ :: _ => none
  | .link _, _ :: _ => none

/-- Part of `walk`: go on from the folder `done`; `more` goes on after a link. -/
def step (r : Node) (more : Path → Option Path) : Path → Path → Option Path
  | done, [] => some done
  | done, c :: cs =>
    match look r (done ++ [c]) with
    | none => none
    | some (.link t) => more (t ++ cs)
    | some _ => step r more (done ++ [c]) cs

/-- The path without links that a path stands for.  There is none if something on the way does
not exist, or if `b` links or more are met. -/
def walk (r : Node) : Nat → Path → Option Path
  | 0, _ => none
  | b + 1, p => step r (walk r b) [] p

/-- Linux follows at most 40 links. -/
def limit : Nat := 41

/-- What the path stands for when links are followed. -/
def follow (r : Node) (p : Path) : Option Node :=
  match walk r limit p with
  | none => none
  | some d => look r d

/-- The file system without the entry `f` of the folder at `d`, and without what is below. -/
def erase : Node → Path → Name → Node
  | .dir es, [], f => .dir (es.filter fun e => !decide (e.1 = f))
  | .dir es, c :: cs, f => .dir (es.map fun e => if e.1 = c then (e.1, erase e.2 cs f) else e)
  | .file x y, _, _ => .file x y
  | .other, _, _ => .other
  | .link t, _, _ => .link t

/-- The options of `pyccel clean`, and the ending of Python's shared libraries. -/
structure Opts where
  recursive : Bool := true
  libs : Bool := false
  programs : Bool := false
  ext : Name

/-- `__pyccel__`. -/
def pyccel : Name := ['_', '_', 'p', 'y', 'c', 'c', 'e', 'l', '_', '_']

/-- `__epyccel__`. -/
def epyccel : Name := ['_', '_', 'e', 'p', 'y', 'c', 'c', 'e', 'l', '_', '_']

/-- `.pyccel`. -/
def dotPyccel : Name := ['.', 'p', 'y', 'c', 'c', 'e', 'l']

/-- The name of a folder that pyccel makes. -/
def Generated (f : Name) : Prop := pyccel <+: f ∨ epyccel <+: f

/-- What stands at the path can be executed. -/
def Program (r : Node) (q : Path) : Prop := ∃ data, follow r q = some (.file true data)

/-- The user asked to remove what stands at the path `q`: it is in a folder of pyccel, or it is
such a folder, or it is a file of the kinds named by the options. -/
def Asked (o : Opts) (r : Node) (q : Path) : Prop :=
  (∃ f ∈ q, Generated f) ∨
  ∃ d f, q = d ++ [f] ∧
    (dotPyccel <:+ f ∨ o.libs = true ∧ o.ext <:+ f ∨ o.programs = true ∧ Program r q)

/-- The same thing stands there as before: the same file, link or device; or a folder that may have
lost some of its entries. -/
def Same : Node → Node → Prop
  | .dir es', .dir es => (es'.map Prod.fst).Sublist (es.map Prod.fst)
  | .file x' y', .file x y => x' = x ∧ y' = y
  | .other, .other => True
  | .link t', .link t => t' = t
  | _, _ => False

/-- What should be gone: a folder of pyccel, or a file of the kinds named by the options. -/
def Junk (o : Opts) (f : Name) : Node → Prop
  | .dir _ => Generated f
  | .file x _ => ¬Generated f ∧
      (dotPyccel <:+ f ∨ o.libs = true ∧ o.ext <:+ f ∨ o.programs = true ∧ x = true)
  | _ => False

/-- Below the folder `d` there are files and folders only, and no folder lists a name twice. -/
def Plain (r : Node) (d : Path) : Prop :=
  ∀ q n, look r (d ++ q) = some n →
    match n with
    | .file _ _ => True
    | .dir es => (es.map Prod.fst).Nodup
    | _ => False

/-- Below the folder `d` there are no symbolic links. -/
def NoLinks (r : Node) (d : Path) : Prop := ∀ q t, look r (d ++ q) ≠ some (.link t)

end Verif.Clean.Spec
