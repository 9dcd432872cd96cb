/-!
# Processes that take file locks: specification

Files with their locks (`l`) and the processes (`p`, `q`) are numbered.  What a user can observe is
who holds which lock, which processes have ended, and which are working on what.
-/

namespace Verif.Locks.Spec

/-- What a process does next. -/
inductive Act
  /-- Wait until the lock is free, and take it. -/
  | acq (l : Nat)
  /-- Give the lock back. -/
  | rel (l : Nat)
  /-- Work on the files `ls`.  If the work ends with an exception the process still does the next
  `k` actions, and ends. -/
  | work (ls : List Nat) (k : Nat)
  deriving DecidableEq, Repr

/-- The state of the computer: who holds the locks, and what the processes still have to do. -/
structure State where
  holder : Nat → Option Nat
  todo : Nat → List Act

/-- Process `p` has `r` left to do. -/
def State.goesOn (s : State) (p : Nat) (r : List Act) : State :=
  { s with todo := fun q => if q = p then r else s.todo q }

/-- Lock `l` has the holder `o`. -/
def State.held (s : State) (l : Nat) (o : Option Nat) : State :=
  { s with holder := fun m => if m = l then o else s.holder m }

/-- A step of process `p` on its own account. -/
inductive Step (p : Nat) (s : State) : State → Prop
  | acquire (l : Nat) (r : List Act) (ht : s.todo p = .acq l :: r) (hf : s.holder l = none) :
      Step p s ((s.held l (some p)).goesOn p r)
  | release (l : Nat) (r : List Act) (ht : s.todo p = .rel l :: r) :
      Step p s ((s.held l none).goesOn p r)
  | done (ls : List Nat) (k : Nat) (r : List Act) (ht : s.todo p = .work ls k :: r) :
      Step p s (s.goesOn p r)
  | raises (ls : List Nat) (k : Nat) (r : List Act) (ht : s.todo p = .work ls k :: r) :
      Step p s (s.goesOn p (r.take k))

/-- Process `p` is killed: the operating system gives its locks back. -/
def State.killed (s : State) (p : Nat) : State :=
  { holder := fun l => if s.holder l = some p then none else s.holder l
    todo := fun q => if q = p then [] else s.todo q }

/-- Taking a lock fails (the lock file cannot be created, say): an exception ends what process `p`
was to do, but the process itself lives on, and keeps its locks. -/
inductive Fails (p : Nat) (s : State) : State → Prop
  | mk (l : Nat) (r : List Act) (ht : s.todo p = .acq l :: r) : Fails p s (s.goesOn p [])

/-- The states that can be reached from `s`; acquisitions can fail only if `f` holds. -/
inductive Reach (f : Prop) (s : State) : State → Prop
  | refl : Reach f s s
  | step {t u : State} (p : Nat) (h : Reach f s t) (hs : Step p t u) : Reach f s u
  | kill {t : State} (p : Nat) (h : Reach f s t) : Reach f s (t.killed p)
  | fail {t u : State} (p : Nat) (hf : f) (h : Reach f s t) (hs : Fails p t u) : Reach f s u

/-- Process `p` has done all it had to do. -/
def State.ended (s : State) (p : Nat) : Prop := s.todo p = []

/-- Process `p` is working on the files `ls`. -/
def State.working (s : State) (p : Nat) (ls : List Nat) : Prop :=
  ∃ k r, s.todo p = .work ls k :: r

/-- No process waits for ever: if there is one that has not ended, some process can go on. -/
def State.NoDeadlock (s : State) : Prop :=
  (∃ p, ¬ s.ended p) → ∃ p t, Step p s t

end Verif.Locks.Spec
