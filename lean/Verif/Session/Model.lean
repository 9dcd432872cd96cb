import Verif.Session.Spec

/-!
# Sessions: `epyccel`
-/

namespace Verif.Session.Model
open Verif.Session.Spec

/-! ## Loading a compiled module -/

mutual
/-- The function `import` that is printed for a compiled module, and that a module which uses it calls:
the first entry of `sys.path` is replaced by the folder of the module, the module is imported
(`PyCapsule_Import`), and the entry is put back, whether the import has failed or not.  A module that is
loaded is not loaded again; otherwise the file is searched, and its initialisation imports the modules
that it uses (`_build_module_init_function`, 1024-1159).  Simplification: the file that is found uses the
modules that are given.  `pyccel/codegen/wrapper/c_to_python_wrapper.py:1161-1252` -/
def importDep (broken : Name → Bool) (s : Py) : Mod → Py × Bool
  | .mk n d deps =>
    match s.path with
    | [] => (s, false)
    | stash :: rest =>
      let s1 := { s with path := d :: rest }
      let r :=
        match s1.modules n with
        | some _ => (s1, true)
        | none =>
          match locate s1.disk s1.path n with
          | none => (s1, false)
          | some f =>
            let r := importAll broken s1 deps
            if r.2 = false ∨ broken n = true then (r.1, false)
            else ({ r.1 with modules := fun m => if m = n then some f else r.1.modules m }, true)
      ({ r.1 with path := r.1.path.set 0 stash }, r.2)

/-- One after the other, until one fails. -/
def importAll (broken : Name → Bool) (s : Py) : Mods → Py × Bool
  | .nil => (s, true)
  | .cons m ms =>
    let r := importDep broken s m
    if r.2 then importAll broken r.1 ms else r
end

/-! ## The name -/

/-- `get_unique_name`: names of loaded modules are passed over, then those that another process holds or
that are loaded under the last part of the name.  `none`: more tags are drawn.
`pyccel/commands/epyccel.py:157-203` -/
def pick (c : Call) (s : Py) : List Nat → Option Name
  | [] => none
  | t :: ts =>
    if (s.modules ⟨c.pkg, c.base, some t⟩).isSome then pick c s ts
    else if c.taken ⟨[], c.base, some t⟩ || (s.modules ⟨[], c.base, some t⟩).isSome then pick c s ts
    else some ⟨[], c.base, some t⟩

/-! ## The call -/

/-- A piece of Python: statements in a sequence, and `try: … finally: …`. -/
inductive Prog
  | step (p : Step)
  | seq (p q : Prog)
  | tryFinally (p q : Prog)

/-- The process, with the module that has been imported (`package`). -/
structure Local where
  py : Py
  package : Option File

/-- One file of a folder is written. -/
def put (disk : Dir → Name → Entry) (d : Dir) (n : Name) (f : Entry → Entry) : Dir → Name → Entry :=
  fun d' n' => if d' = d ∧ n' = n then f (disk d n) else disk d' n'

/-- A step; `false`: it raises an exception.

* `write`: the source is written (`pyccel/commands/epyccel.py:349-358`)
* `check`: the name of a built-in package (`pyccel/codegen/pipeline.py:133-136`)
* `addCwd`: `sys.path.insert(0, base_dirpath)` (150-153)
* `translate`, `build`: the other stages (155-370); `translate` leaves the stage where it stopped
* `finish`: `pyccel_stage.pyccel_finished()` (`pyccel/commands/epyccel.py:385-387`)
* `addDir`, `load`, `removeDir`: the import (389-397)
* `verify`: the loader must be that of a library unless the language is Python (399-403)
* `attribute`: the function is taken from the module (405-409)
* `release`: the lock (410-411) -/
def step (c : Call) (n : Name) (p : Step) (s : Local) : Local × Bool :=
  match p with
  | .write =>
    if c.fails .write then (s, false)
    else ({ s with py := { s.py with disk := put s.py.disk c.dir n fun e => { e with src := some c.code } } },
      true)
  | .check => (s, !c.fails .check)
  | .addCwd => ({ s with py := { s.py with path := s.py.cwd :: s.py.path } }, true)
  | .translate => ({ s with py := { s.py with stage := some c.reached } }, !c.fails .translate)
  | .build =>
    if c.fails .build then (s, false)
    else if c.compiled then
      ({ s with py := { s.py with disk := put s.py.disk c.dir n fun e => { e with lib := some c.out } } },
        true)
    else
      ({ s with py := { s.py with disk := put s.py.disk c.dir n fun e => { e with src := some c.out } } },
        true)
  | .finish => ({ s with py := { s.py with stage := none } }, true)
  | .addDir => ({ s with py := { s.py with path := c.dir :: s.py.path } }, true)
  | .load =>
    match s.py.modules n with
    | some f => ({ s with package := some f }, true)
    | none =>
      match locate s.py.disk s.py.path n with
      | none => (s, false)
      | some f =>
        let r := importAll c.broken s.py c.deps
        if r.2 = false ∨ c.fails .load = true then ({ s with py := r.1 }, false)
        else ({ py := { r.1 with modules := fun m => if m = n then some f else r.1.modules m },
                package := some f }, true)
  | .removeDir =>
    if c.dir ∈ s.py.path then ({ s with py := { s.py with path := s.py.path.erase c.dir } }, true)
    else (s, false)
  | .verify =>
    (s, !c.compiled || match s.package with
      | some (.library _) => true
      | _ => false)
  | .attribute => (s, !c.fails .attribute)
  | .release => ({ s with py := { s.py with locks := s.py.locks.erase n } }, true)

/-- Python's sequences and `finally`. -/
def exec (c : Call) (n : Name) : Prog → Local → Local × Bool
  | .step p, s => step c n p s
  | .seq p q, s =>
    let r := exec c n p s
    if r.2 then exec c n q r.1 else r
  | .tryFinally p q, s =>
    let r := exec c n p s
    let r' := exec c n q r.1
    (r'.1, r.2 && r'.2)

/-- `execute_pyccel`.  `pyccel/codegen/pipeline.py:127-385` -/
def executePyccel : Prog :=
  .seq (.step .check) (.seq (.step .addCwd) (.seq (.step .translate) (.step .build)))

/-- `epyccel_seq`, after the name has been found.  `pyccel/commands/epyccel.py:344-411` -/
def body : Prog :=
  .tryFinally
    (.seq (.step .write) (.seq (.tryFinally executePyccel (.step .finish))
      (.seq (.step .addDir) (.seq (.step .load) (.seq (.step .removeDir)
        (.seq (.step .verify) (.step .attribute)))))))
    (.step .release)

/-- A call: the process afterwards, and the module if there was no exception.
`pyccel/commands/epyccel.py:206-414` -/
def epyccel (c : Call) (s : Py) : Py × Option File :=
  match pick c s c.tags with
  | none => (s, none)
  | some n =>
    let r := exec c n body { py := { s with locks := n :: s.locks }, package := none }
    (r.1.py, if r.2 then r.1.package else none)

/-- An event. -/
def happen (s : Py) : Event → Py
  | .call c => (epyccel c s).1
  | .chdir d => { s with cwd := d }
  | .import n => { s with modules := fun m => if m = n then imported s n else s.modules m }

/-- A history. -/
def run : Py → List Event → Py
  | s, [] => s
  | s, e :: es => run (happen s e) es

end Verif.Session.Model
