/-!
# `pyccel config check`: specification

What a compiler configuration must be like so that pyccel can compile with it.
-/

namespace Verif.ConfigCheck.Spec

/-- The keys of a configuration, at all levels; `other`: any key that pyccel does not know. -/
inductive Key
  | c | fortran | pyccelVersion
  | exec | mpiExec | moduleOutputFlag
  | debugFlags | releaseFlags | generalFlags | standardFlags
  | flags | libs | libdir | incl | dependencies | sharedSuffix
  | mpi | openmp | openacc | python
  | other (n : Nat)
  deriving DecidableEq

/-- JSON: strings are numbered; anything that is not a string, a list or an object is `num`. -/
inductive J
  | str (s : Nat)
  | num
  | list (l : List J)
  | obj (l : List (Key × J))

def lookup (k : Key) : List (Key × J) → Option J
  | [] => none
  | (k', v) :: l => if k' = k then some v else lookup k l

/-- The computer: which strings are absolute paths, which exist, which are names without a slash; and the characters of a
string. -/
structure Env where
  absolute : Nat → Bool
  found : Nat → Bool
  bare : Nat → Bool
  chars : Nat → List Nat

/-- A list of strings. -/
def Strings (v : J) (p : Nat → Prop) : Prop := ∃ l : List Nat, v = .list (l.map .str) ∧ ∀ s ∈ l, p s

/-- A folder or file that is found, wherever pyccel is called. -/
def PathOk (env : Env) (s : Nat) : Prop := env.absolute s = true ∧ env.found s = true

/-- The paths and libraries that are given at one level. -/
structure PathsOk (env : Env) (l : List (Key × J)) : Prop where
  incl : ∀ v, lookup .incl l = some v → Strings v (PathOk env)
  libdir : ∀ v, lookup .libdir l = some v → Strings v (PathOk env)
  dependencies : ∀ v, lookup .dependencies l = some v → Strings v (PathOk env)
  libs : ∀ v, lookup .libs l = some v → Strings v fun s => env.bare s = true ∨ PathOk env s

/-- The settings of a tool (MPI, OpenMP, OpenACC, Python). -/
structure ToolOk (env : Env) (v : J) (python : Bool) : Prop where
  obj : ∃ l, v = .obj l ∧ PathsOk env l ∧
    (∀ w, lookup .flags l = some w → Strings w fun _ => True) ∧
    (python = true → ∀ w, lookup .sharedSuffix l = some w → ∃ s, w = .str s)

/-- The settings of a language can be used to compile. -/
structure LangOk (env : Env) (fortran : Bool) (l : List (Key × J)) : Prop where
  exec : ∃ s, lookup .exec l = some (.str s)
  mpiExec : ∀ v, lookup .mpiExec l = some v → ∃ s, v = .str s
  moduleFlag : fortran = true → ∀ v, lookup .moduleOutputFlag l = some v → ∃ s, v = .str s
  flags : ∀ k ∈ [Key.debugFlags, .releaseFlags, .generalFlags, .standardFlags], ∀ v, lookup k l = some v →
    Strings v fun _ => True
  paths : PathsOk env l
  tools : ∀ k ∈ [Key.mpi, .openmp, .openacc, .python], ∀ v, lookup k l = some v → ToolOk env v (k == .python)

/-- A configuration that can be used: settings for C or Fortran or both, and nothing else. -/
def Usable (env : Env) (v : J) : Prop :=
  ∃ l, v = .obj l ∧ l ≠ [] ∧ ∀ kv ∈ l, (kv.1 = .c ∨ kv.1 = .fortran) ∧
    ∃ m, kv.2 = .obj m ∧ LangOk env (kv.1 == .fortran) m

/-- JSON objects as Python reads them: no key twice, at the levels that matter. -/
def Distinct (l : List (Key × J)) : Prop := (l.map Prod.fst).Nodup

/-- The keys of a configuration are distinct at all levels. -/
def AllDistinct (v : J) : Prop :=
  ∀ l, v = .obj l → ∀ kv ∈ l, ∀ m, kv.2 = .obj m → Distinct m ∧ ∀ kw ∈ m, ∀ n, kw.2 = .obj n → Distinct n

end Verif.ConfigCheck.Spec
