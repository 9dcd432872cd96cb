import Verif.Locks.Spec
/-!
# `CompileObj` and `FileLockSet` as context managers

`pyccel/codegen/compiling/basic.py` and `pyccel/codegen/compiling/file_locks.py`.  A `FileLock`
blocks as long as another process, or another object, holds the lock on its file.  Simplification:
acquiring one object twice is not modelled, no block does it if its locks are different.
-/

namespace Verif.Locks

open Verif.Locks.Spec

/-- A `with` block: the locks that `__enter__` acquires and `__exit__` releases, in this order, and
the files that the command in the block reads or writes. -/
structure Block where
  acqs : List Nat
  rels : List Nat
  uses : List Nat

/-- `FileLockSet.__enter__` and `__exit__`, file_locks.py 31-38, around work on the files of the
locks. -/
def fileLockSet (locks : List Nat) : Block := ⟨locks, locks.reverse, locks⟩

/-- A `CompileObj`, basic.py 92-124: the source file, the object file (`module_target`),
`has_target_file`, and the dependencies.  A file is identified with its lock. -/
inductive Obj
  | mk (source target : Nat) (hasTarget : Bool) (deps : List Obj)

namespace Obj

def source : Obj → Nat | mk s _ _ _ => s
def target : Obj → Nat | mk _ t _ _ => t
def hasTarget : Obj → Bool | mk _ _ h _ => h
def deps : Obj → List Obj | mk _ _ _ ds => ds

mutual
/-- `extra_modules`, basic.py 230-237.  Simplification: a list with repetitions for the set. -/
def extraModules : Obj → List Nat
  | mk _ _ _ ds => extraModulesOf ds
  termination_by structural o => o
/-- The loop of `extra_modules`. -/
def extraModulesOf : List Obj → List Nat
  | [] => []
  | o :: os => (if o.hasTarget then o.target :: extraModules o else []) ++ extraModulesOf os
  termination_by structural os => os
end

/-- `acquire_simple_lock` and `release_simple_lock`, basic.py 276-286 and 304-314. -/
def simple (o : Obj) : List Nat := if o.hasTarget then [o.target] else []

/-- `CompileObj.__enter__`, `acquire_lock`, basic.py 260-286.  `g` is the lock
`compilation_in_progress`, a file in the current working directory of the process. -/
def enter (g : Nat) (o : Obj) : List Nat :=
  g :: (o.source :: o.simple ++ o.deps.flatMap simple)

/-- `CompileObj.__exit__`, `release_lock`, basic.py 288-314. -/
def exit (g : Nat) (o : Obj) : List Nat :=
  (o.deps.flatMap simple ++ [o.source] ++ o.simple) ++ [g]

/-- `compile_module`, compilers.py 428-487: nothing is done without a target file. -/
def compileModule (g : Nat) (o : Obj) : List Block :=
  if o.hasTarget then [⟨o.enter g, o.exit g, [o.source, o.target]⟩] else []

/-- `compile_program`, compilers.py 489-550.  The file of the program is not modelled. -/
def compileProgram (g : Nat) (o : Obj) : Block :=
  ⟨o.enter g, o.exit g, o.extraModules ++ [o.source]⟩

/-- `compile_shared_library`, compilers.py 552-629.  The file of the library is not modelled. -/
def compileSharedLibrary (g : Nat) (o : Obj) : Block :=
  ⟨o.enter g, o.exit g, o.target :: o.extraModules⟩

/-- What a process wants from the compiler. -/
inductive Job
  | module (o : Obj)
  | program (o : Obj)
  | library (o : Obj)

/-- The object of a job. -/
def Job.obj : Job → Obj
  | module o => o
  | program o => o
  | library o => o

/-- The blocks of a job. -/
def Job.blocks (g : Nat) : Job → List Block
  | module o => o.compileModule g
  | program o => [o.compileProgram g]
  | library o => [o.compileSharedLibrary g]

/-- A process with the lock `g` in its working directory, that does these jobs: pipeline.py 319-361
calls `compile_module`, `compile_program` and `create_shared_library` one after the other. -/
def jobs (g : Nat) (js : List Job) : List Block := js.flatMap (Job.blocks g)

end Obj

/-- `with block: run_command(…)`, compilers.py 484-485, 545-546, 624-625. -/
def Block.acts (b : Block) : List Act :=
  b.acqs.map .acq ++ .work b.uses b.rels.length :: b.rels.map .rel

/-- What a process does that goes through `with` blocks one after the other. -/
def program (bs : List Block) : List Act := bs.flatMap Block.acts

/-- At the beginning every process has its program, and no lock is held. -/
def start (prog : Nat → List Block) : State := ⟨fun _ => none, fun p => program (prog p)⟩

end Verif.Locks
