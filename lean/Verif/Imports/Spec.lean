/-!
# Programs of several files: specification

What Python does with files that import each other.  Files and names are numbered.  A statement that is not an import
or a call of a function from a file does an arbitrary step on the world `W`: variables, output, and so on.
-/

namespace Verif.Imports.Spec

abbrev File := Nat
abbrev Name := Nat

inductive Stmt (W : Type) where
  /-- `pass`, or a comment -/
  | skip
  | act (f : W → W)
  /-- `import n as a`; `import n` and `from n import x` are `imp n n`. -/
  | imp (n a : Name)
  /-- A call of function `k` in the module that is imported as `n`. -/
  | call (n : Name) (k : Nat)
  /-- A call of function `k` in the same file. -/
  | own (k : Nat)
  | seq (s t : Stmt W)
  | ite (c : W → Bool) (s t : Stmt W)
  | loop (c : W → Bool) (s : Stmt W)

/-- A file: the statements at its top, the block after `if __name__ == "__main__":`, the statements after that block,
and the bodies of functions.  `allocs`: the variables at the top of the file that need memory to be freed; those with `true` are
made by the compiler for intermediate results. -/
structure Source (W : Type) where
  body : List (Stmt W)
  main : List (Stmt W) := []
  after : List (Stmt W) := []
  funcs : List (List (Stmt W)) := []
  allocs : List (Nat × Bool) := []

/-- `find f n`: the file that is meant by the name `n` in file `f`.  (Names that begin with a dot mean different
files in different directories.) -/
structure Project (W : Type) where
  src : File → Source W
  find : File → Name → Option File

def block {W : Type} : List (Stmt W) → Stmt W
  | [] => .skip
  | s :: ss => .seq s (block ss)

/-- The modules that are loaded (`sys.modules`), and the world. -/
structure Py (W : Type) where
  loaded : List File
  w : W

/-- Python runs a statement in file `f`, in at most `n` steps.  A file that is imported is entered in `sys.modules`, then its
statements run; they do not run again at another import.  To call a function, its file must be loaded. -/
def py {W : Type} (P : Project W) : Nat → File → Stmt W → Py W → Option (Py W)
  | 0, _, _, _ => none
  | _ + 1, _, .skip, st => some st
  | _ + 1, _, .act g, st => some { st with w := g st.w }
  | n + 1, f, .imp x _, st =>
    match P.find f x with
    | none => none
    | some g =>
      if g ∈ st.loaded then some st
      else py P n g (block ((P.src g).body ++ (P.src g).after)) { st with loaded := g :: st.loaded }
  | n + 1, f, .call x k, st =>
    match P.find f x with
    | none => none
    | some g =>
      match (P.src g).funcs[k]? with
      | none => none
      | some b => if g ∈ st.loaded then py P n g (block b) st else none
  | n + 1, f, .own k, st =>
    match (P.src f).funcs[k]? with
    | none => none
    | some b => py P n f (block b) st
  | n + 1, f, .seq s t, st =>
    match py P n f s st with
    | none => none
    | some st1 => py P n f t st1
  | n + 1, f, .ite c s t, st => if c st.w then py P n f s st else py P n f t st
  | n + 1, f, .loop c s, st =>
    if c st.w then
      match py P n f s st with
      | none => none
      | some st1 => py P n f (.loop c s) st1
    else some st

/-- Python runs file `f`. -/
def pyRun {W : Type} (P : Project W) (n : Nat) (f : File) (w : W) : Option (Py W) :=
  py P n f (block ((P.src f).body ++ (P.src f).main ++ (P.src f).after)) ⟨[f], w⟩

/-- The names imported by statements, but not inside of `if` and `while`. -/
def imports {W : Type} : List (Stmt W) → List (Name × Name)
  | [] => []
  | .imp x a :: ss => (x, a) :: imports ss
  | _ :: ss => imports ss

/-- All imports in a file. -/
def Source.imports {W : Type} (s : Source W) : List (Name × Name) :=
  Spec.imports (s.body ++ s.after) ++ Spec.imports s.main ++ (s.funcs.map Spec.imports).flatten

/-- File `f` imports file `g`. -/
def Imports {W : Type} (P : Project W) (f g : File) : Prop :=
  ∃ x a, (x, a) ∈ (P.src f).imports ∧ P.find f x = some g

inductive Reaches {W : Type} (P : Project W) : File → File → Prop
  | refl (f : File) : Reaches P f f
  | step {f g h : File} : Imports P f g → Reaches P g h → Reaches P f h

/-- A name means the same file wherever it is used. -/
def Consistent {W : Type} (P : Project W) : Prop :=
  ∀ f g x a b, P.find f x = some a → P.find g x = some b → a = b

/-- A file that, directly or not, imports itself can be reached. -/
def Circle {W : Type} (P : Project W) (f : File) : Prop :=
  ∃ g h, Reaches P f g ∧ Imports P g h ∧ Reaches P h g

def Stmt.isImport {W : Type} : Stmt W → Bool
  | .imp _ _ => true
  | _ => false

/-- Imports come before the other statements. -/
def importsFirst {W : Type} : List (Stmt W) → Bool
  | [] => true
  | s :: ss => if s.isImport then importsFirst ss else ss.all fun t => !t.isImport

/-- No local name is used for two modules. -/
def OneName (is : List (Name × Name)) : Prop := ∀ x y a, (x, a) ∈ is → (y, a) ∈ is → x = y

/-- Everywhere in a file, imports come first, and no local name is used for two modules. -/
def Source.Tidy {W : Type} (s : Source W) : Prop :=
  (importsFirst (s.body ++ s.after) = true ∧ OneName (Spec.imports (s.body ++ s.after))) ∧
  (importsFirst s.main = true ∧ OneName (Spec.imports s.main)) ∧
  ∀ b ∈ s.funcs, importsFirst b = true ∧ OneName (Spec.imports b)

/-- File `f` imports file `g` at its top, without `as`. -/
def Plain {W : Type} (P : Project W) (f g : File) : Prop :=
  ∃ x, (x, x) ∈ Spec.imports ((P.src f).body ++ (P.src f).after) ∧ P.find f x = some g

inductive PlainReaches {W : Type} (P : Project W) (f : File) : File → Prop
  | refl : PlainReaches P f f
  | step {g h : File} : PlainReaches P f g → Plain P g h → PlainReaches P f h

def Stmt.isSkip {W : Type} : Stmt W → Bool
  | .skip => true
  | _ => false

/-- The variables of a file have different names, and if there are any, there is a statement. -/
def Source.AllocsOk {W : Type} (s : Source W) : Prop :=
  (s.allocs.map (·.1)).Nodup ∧
  (s.allocs ≠ [] → (s.body ++ s.after).any (fun t => !t.isImport && !t.isSkip) = true)

/-! ## Order of files in a build -/

/-- A file of a project: the directories that contain it, from the outside, its own name, and what it imports. -/
structure Src where
  dirs : List Nat
  name : Nat
  deps : List (List Nat × Nat)
deriving DecidableEq

def Src.path (s : Src) : List Nat × Nat := (s.dirs, s.name)

/-- `l` is an order in which all files come after the files that they import. -/
def Sorted (l : List Src) : Prop :=
  ∀ pre s post, l = pre ++ s :: post → ∀ d ∈ s.deps, ∃ t ∈ pre, t.path = d

/-- All files that are imported are in the list. -/
def Closed (l : List Src) : Prop := ∀ s ∈ l, ∀ d ∈ s.deps, ∃ t ∈ l, t.path = d

/-- Files and directories that are in a directory. -/
inductive Key
  | file (p : List Nat × Nat)
  | dir (d : Nat)
deriving DecidableEq

/-- File `p` is `k`, or inside of `k`, where `k` is in directory `folder`. -/
def In (folder : List Nat) : Key → List Nat × Nat → Prop
  | .file q, p => p = q ∧ p.1 = folder
  | .dir c, p => ∃ rest, p.1 = folder ++ c :: rest

/-- In directory `folder`, something of `k` imports something of `k'`, and they are not the same directory. -/
def Needs (l : List Src) (folder : List Nat) (k k' : Key) : Prop :=
  ∃ s ∈ l, ∃ d ∈ s.deps, In folder k s.path ∧ In folder k' d ∧ ∀ c, k = .dir c → k' ≠ .dir c

/-! ## Names of targets -/

/-- Without two underscores one after the other, and without an underscore at the end. -/
def Clean (c : List Char) : Prop := (∀ a b, c ≠ a ++ '_' :: '_' :: b) ∧ ∀ a, c ≠ a ++ ['_']

end Verif.Imports.Spec
