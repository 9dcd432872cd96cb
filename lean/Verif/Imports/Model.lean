import Verif.Imports.Spec

/-!
# Programs of several files: model

Files are found and parsed (`pyccel/parser/parser.py`), translated (`pyccel/parser/semantic.py`, "semantic" below), and
put in order for the build (`pyccel/codegen/compiling/project.py`).

Left out: whether files were compiled before (C30, C49), what is imported from a module (`from m import x` is `import m`),
modules that are part of pyccel, `__init__.py`, stub files with `#$ header` lines.
-/

namespace Verif.Imports.Model
open Spec

variable {W : Type}

/-! ## Files that are parsed -/

/-- A `dict`; entries that are newer come first. -/
abbrev Dict := List (Name × File)

/-- The imports of a file, one after the other: `pyccel/parser/parser.py:361-369`.  After the name itself, all names
that the other file knows are entered, and replace what was there. -/
def link (find : Name → Option File) (sub : File → Option Dict) : List (Name × Name) → Dict → Option Dict
  | [], d => some d
  | (x, _) :: is, d =>
    match find x with
    | none => none
    | some g =>
      match sub g with
      | none => none
      | some e => link find sub is (e ++ (x, g) :: d)

/-- `Parser.parse` and `parse_sons`: `pyccel/parser/parser.py:175-210, 273-371`, with the order of imports of
`collect_all_imports`, `pyccel/parser/scope.py:1001-1007`.  A file is entered in
`d_parsers_by_filename` after its imports were parsed (line 359), so nothing stops a circle; `n` is the depth of calls.
(A file that was entered is not parsed again; it has the same result.) -/
def parse (P : Project W) : Nat → File → Option Dict
  | 0, _ => none
  | n + 1, f => link (P.find f) (parse P n) (P.src f).imports []

/-! ## Translation -/

/-- Statements that are generated.  `init g`: a call of the function with the statements at the top of `g`.
`free v`: the memory of a variable of this file is freed. -/
inductive CStmt (W : Type) where
  | skip
  | act (f : W → W)
  | init (g : File)
  | call (g : File) (k : Nat)
  | free (v : Nat)
  | seq (s t : CStmt W)
  | ite (c : W → Bool) (s t : CStmt W)
  | loop (c : W → Bool) (s : CStmt W)

/-- The result for a file.  `free`: the files whose function to free memory is called, and the variables
that are freed then. -/
structure CFile (W : Type) where
  init : Option (CStmt W)
  free : Option (List File × List Nat)
  main : CStmt W
  funcs : List (CStmt W)

def cblock : List (CStmt W) → CStmt W
  | [] => .skip
  | s :: ss => .seq s (cblock ss)

/-- Other statements than imports.  An import inside of another statement is an error (`semantic:7168-7173`), so is
one in `import a, b`.  Names of modules are known if they are imported in the file, or in the function (`scope`). -/
def tr (d : Dict) (f : File) (scope : List Name) : Stmt W → Option (CStmt W)
  | .skip => some .skip
  | .act g => some (.act g)
  | .imp _ _ => none
  | .call x k => if x ∈ scope then (d.lookup x).map (.call · k) else none
  | .own k => some (.call f k)
  | .seq s t =>
    match tr d f scope s with
    | none => none
    | some s' => (tr d f scope t).map (.seq s')
  | .ite c s t =>
    match tr d f scope s with
    | none => none
    | some s' => (tr d f scope t).map (.ite c s')
  | .loop c s => (tr d f scope s).map (.loop c)

def isSkip : CStmt W → Bool
  | .skip => true
  | _ => false

/-- Translates the statements that are no imports. -/
def trs (d : Dict) (f : File) (scope : List Name) : List (Stmt W) → Option (List (CStmt W))
  | [] => some []
  | s :: ss =>
    if s.isImport then trs d f scope ss
    else
      match tr d f scope s with
      | none => none
      | some s' => (trs d f scope ss).map (s' :: ·)

/-- `_visit_Import`: `semantic:7236-7249, 7327-7335`.  The file is `d_parsers[source]`.  There is a call of its
function for initialisation if it has one and if no import has used the same local name before (`seen`). -/
def inits (d : Dict) (M : File → Option (CFile W)) : List Name → List (Name × Name) → Option (List (CStmt W))
  | _, [] => some []
  | seen, (x, a) :: is =>
    match d.lookup x with
    | none => none
    | some g =>
      match M g with
      | none => none
      | some c =>
        if a ∈ seen then inits d M seen is
        else (inits d M (a :: seen) is).map fun r => if c.init.isSome then .init g :: r else r

/-- Imports and other statements of a block: the calls for the imports come first (`semantic:3639-3640, 3666,
3694-3697, 6556, 6563`). -/
def trBlock (d : Dict) (M : File → Option (CFile W)) (f : File) (scope : List Name) (ss : List (Stmt W)) :
    Option (List (CStmt W)) :=
  match inits d M [] (imports ss) with
  | none => none
  | some r => (trs d f (scope ++ (imports ss).map (·.1)) ss).map (r ++ ·)

/-- `for i, v in enumerate(dealloc_vars): if v in to_remove: d = deallocs.pop(i)`: `semantic:3776-3780`.  What is taken out is
freed at the end of the initialisation, the rest in the function to free memory. -/
def popLoop : List (Nat × Bool) → Nat → List Nat → List Nat → Option (List Nat × List Nat)
  | [], _, rest, out => some (out, rest)
  | (_, tmp) :: vs, i, rest, out =>
    if tmp then
      match rest[i]? with
      | none => none
      | some v => popLoop vs (i + 1) (rest.eraseIdx i) (out ++ [v])
    else popLoop vs (i + 1) rest out

def split (allocs : List (Nat × Bool)) : Option (List Nat × List Nat) :=
  popLoop allocs 0 (allocs.map (·.1)) []

/-- `container["imports"][source_target] = Import(source, …)`: `semantic:7344-7355`. -/
def insertImp (x a : Name) : List (Name × Name) → List (Name × Name)
  | [] => [(x, a)]
  | (y, b) :: l => if b = a then (x, a) :: l else (y, b) :: insertImp x a l

def container (is : List (Name × Name)) : List (Name × Name) := is.foldl (fun c i => insertImp i.1 i.2 c) []

/-- The imports whose memory is freed: `semantic:3820-3838`.  They are looked up by their *local* name. -/
def frees (d : Dict) (M : File → Option (CFile W)) : List (Name × Name) → List File
  | [] => []
  | (x, a) :: is =>
    if (d.lookup a).isSome then
      match d.lookup x with
      | none => frees d M is
      | some g =>
        match M g with
        | some c => if c.free.isSome then g :: frees d M is else frees d M is
        | none => frees d M is
    else frees d M is

/-- All files that are imported are translated before: `pyccel/parser/parser.py:234-235, 373-395`. -/
def sons (P : Project W) (M : File → Option (CFile W)) (f : File) : Bool :=
  (P.src f).imports.all fun i =>
    match P.find f i.1 with
    | none => false
    | some g => (M g).isSome

def trFuncs (d : Dict) (M : File → Option (CFile W)) (f : File) (scope : List Name) :
    List (List (Stmt W)) → Option (List (CStmt W))
  | [] => some []
  | b :: bs =>
    match trBlock d M f scope b with
    | none => none
    | some b' => (trFuncs d M f scope bs).map (cblock b' :: ·)

/-- `_visit_Module`: `semantic:3634-3949`.  There is a function for initialisation if there is something to do
(line 3731); it ends with the memory of intermediate results being freed. -/
def assemble (P : Project W) (d : Dict) (M : File → Option (CFile W)) (f : File) : Option (CFile W) :=
  let s := P.src f
  let top := imports (s.body ++ s.after)
  let scope := top.map (·.1)
  if sons P M f then
    match trBlock d M f scope (s.body ++ s.after), trBlock d M f scope s.main, trFuncs d M f scope s.funcs with
    | some b, some m, some fs =>
      if b.all isSkip then some { init := none, free := none, main := cblock m, funcs := fs }
      else
        match split s.allocs with
        | none => none
        | some (temps, rest) =>
          let fr := frees d M (container top)
          some { init := some (cblock (b ++ temps.map .free)),
                 free := if rest.isEmpty && fr.isEmpty then none else some (fr, rest),
                 main := cblock m, funcs := fs }
    | _, _, _ => none
  else none

/-- `Parser.annotate`: `pyccel/parser/parser.py:212-260`. -/
def compile (P : Project W) : Nat → File → Option (CFile W)
  | 0, _ => none
  | n + 1, f =>
    match parse P (n + 1) f with
    | none => none
    | some d => assemble P d (compile P n) f

/-! ## The generated code runs -/

/-- The files whose variable `initialised` is true; the world; the variables whose memory was freed. -/
structure CSt (W : Type) where
  ini : List File
  w : W
  freed : List (File × Nat)

/-- `if not initialised: …; initialised = True`: `semantic:3782-3787`. -/
def cx (M : File → Option (CFile W)) : Nat → File → CStmt W → CSt W → Option (CSt W)
  | 0, _, _, _ => none
  | _ + 1, _, .skip, st => some st
  | _ + 1, _, .act g, st => some { st with w := g st.w }
  | n + 1, _, .init g, st =>
    match M g with
    | none => none
    | some c =>
      match c.init with
      | none => none
      | some b =>
        if g ∈ st.ini then some st
        else (cx M n g b st).map fun r => { r with ini := g :: r.ini }
  | n + 1, _, .call g k, st =>
    match M g with
    | none => none
    | some c =>
      match c.funcs[k]? with
      | none => none
      | some b => cx M n g b st
  | _ + 1, f, .free v, st => some { st with freed := st.freed ++ [(f, v)] }
  | n + 1, f, .seq s t, st =>
    match cx M n f s st with
    | none => none
    | some st1 => cx M n f t st1
  | n + 1, f, .ite c s t, st => if c st.w then cx M n f s st else cx M n f t st
  | n + 1, f, .loop c s, st =>
    if c st.w then
      match cx M n f s st with
      | none => none
      | some st1 => cx M n f (.loop c s) st1
    else some st

mutual
/-- `if initialised: …; initialised = False`: `semantic:3843-3850`. -/
def fr (M : File → Option (CFile W)) : Nat → File → CSt W → Option (CSt W)
  | 0, _, _ => none
  | n + 1, f, st =>
    match M f with
    | none => none
    | some c =>
      match c.free with
      | none => none
      | some (gs, vs) =>
        if f ∈ st.ini then
          (frs M n gs st).map fun r =>
            { r with ini := r.ini.filter (· != f), freed := r.freed ++ vs.map fun v => (f, v) }
        else some st
def frs (M : File → Option (CFile W)) : Nat → List File → CSt W → Option (CSt W)
  | 0, _, _ => none
  | _ + 1, [], st => some st
  | n + 1, g :: gs, st =>
    match fr M n g st with
    | none => none
    | some st1 => frs M n gs st1
end

/-- The start of a program: the module is initialised, and then the block after `if __name__ == "__main__":` runs
(`semantic:3914-3916`). -/
def runMain (M : File → Option (CFile W)) (n : Nat) (f : File) (w : W) : Option (CSt W) :=
  match M f with
  | none => none
  | some c =>
    match (if c.init.isSome then cx M n f (.init f) ⟨[], w, []⟩ else some ⟨[], w, []⟩) with
    | none => none
    | some st => cx M n f c.main st

/-- The program, with the call to free memory at its end (`semantic:3918-3920`). -/
def run (M : File → Option (CFile W)) (n : Nat) (f : File) (w : W) : Option (CSt W) :=
  match M f, runMain M n f w with
  | some c, some st => if c.free.isSome then fr M n f st else some st
  | _, _ => none

/-- A Python interpreter imports compiled files one after the other.  Each shared library contains the code of all files
that it needs (`pyccel/codegen/compiling/compilers.py:612-622`, `m_code`), and so its own variables `initialised`. -/
def runExts (M : File → Option (CFile W)) (n : Nat) : List File → W → Option W
  | [], w => some w
  | f :: fs, w =>
    match M f with
    | none => none
    | some c =>
      if c.init.isSome then
        match cx M n f (.init f) ⟨[], w, []⟩ with
        | none => none
        | some st => runExts M n fs st.w
      else runExts M n fs w

/-! ## Order of files: `DirTarget`, `pyccel/codegen/compiling/project.py:179-248` -/

/-- A file, or a directory with its files in order; what must come before. -/
structure Target where
  key : Key
  deps : List Key
  files : List Src

/-- The part of directory `folder` that a file is in: lines 198-202.  Nothing if it is somewhere else. -/
def keyOf (folder : List Nat) (p : List Nat × Nat) : Option Key :=
  if p.1 = folder then some (.file p)
  else if folder <+: p.1 then (p.1[folder.length]?).map .dir else none

/-- The subdirectory of a file, if any: lines 182-185. -/
def subdir (folder : List Nat) (s : Src) : Option Nat := s.dirs[folder.length]?

def fileTarget (folder : List Nat) (s : Src) : Target :=
  ⟨.file s.path, s.deps.filterMap (keyOf folder), [s]⟩

/-- `_dependencies`: those that are not inside of the directory (lines 246-248). -/
def dirTarget (folder : List Nat) (d : Nat) (files : List Src) : Target :=
  ⟨.dir d, ((files.flatMap (·.deps)).filter fun p => !(folder ++ [d]).isPrefixOf p.1).filterMap (keyOf folder), files⟩

/-- The first one for which everything it needs was placed: lines 207-209. -/
def pick (placed : List Key) : List Target → Option (Target × List Target)
  | [] => none
  | t :: ts =>
    if t.deps.all placed.contains then some (t, ts)
    else (pick placed ts).map fun q => (q.1, t :: q.2)

/-- Lines 204-217; if some are left, "Found circular dependencies between directories" is reported. -/
def place : Nat → List Key → List Target → Option (List Target)
  | _, _, [] => some []
  | 0, _, _ :: _ => none
  | n + 1, placed, t :: ts =>
    match pick placed (t :: ts) with
    | none => none
    | some (u, us) => (place n (placed ++ [u.key]) us).map (u :: ·)

/-- The directories and files of `folder`, in the order of their first appearance: lines 180-190, 193-195. -/
def targets (folder : List Nat) (sub : List Nat → List Src → Option (List Src)) (l : List Src) :
    List (Option Nat) → Option (List Target)
  | [] => some []
  | none :: gs =>
    (targets folder sub l gs).map
      fun r => (l.filter fun s => subdir folder s = none).map (fileTarget folder) ++ r
  | some d :: gs =>
    match sub (folder ++ [d]) (l.filter fun s => subdir folder s = some d) with
    | none => none
    | some fs => (targets folder sub l gs).map fun r => dirTarget folder d fs :: r

/-- All files of a directory, in the order in which they are built.  `n`: the depth of directories. -/
def dirOrder : Nat → List Nat → List Src → Option (List Src)
  | 0, _, _ => none
  | n + 1, folder, l =>
    match targets folder (dirOrder n) l (l.map (subdir folder)).eraseDups with
    | none => none
    | some ts => (place ts.length [] ts).map fun r => r.flatMap (·.files)

def depth (l : List Src) : Nat := (l.map (·.dirs.length)).foldr max 0

def buildOrder (l : List Src) : Option (List Src) := dirOrder (depth l + 1) [] l

/-! ## Names of targets -/

/-- `target_name`: `pyccel/codegen/make_pipeline.py:205, 249-254`.  `parts`: directories and the name of the file. -/
def targetName (conflict : Bool) (parts : List (List Char)) : List Char :=
  if conflict then ['_', '_'].intercalate parts else parts.getLastD []

def targetNames (l : List (List (List Char))) : List (List Char) :=
  let stems := l.map (·.getLastD [])
  l.map (targetName (stems.eraseDups.length != l.length))

end Verif.Imports.Model
