import Verif.Locks.Lemmas
/-!
# Compilations that run at the same time
-/

namespace Verif.Locks

open Verif.Locks.Spec Verif.Locks.Obj

/-! ## Compilation objects -/

theorem simple_sub (o : Obj) {l : Nat} (h : l ∈ o.simple) : o.hasTarget = true ∧ l = o.target := by
  unfold simple at h
  split at h
  · next h' => exact ⟨h', by simpa using h⟩
  · cases h

theorem exit_perm (g : Nat) (o : Obj) : (o.exit g).Perm (o.enter g) := by
  unfold exit enter
  refine (List.perm_append_singleton g _).trans (List.Perm.cons g ?_)
  rw [List.append_assoc, List.singleton_append]
  exact List.perm_append_comm

theorem block_shape (g : Nat) (js : List Job) : ∀ b ∈ jobs g js, ∃ j ∈ js,
    b.acqs = j.obj.enter g ∧ b.rels = j.obj.exit g ∧ b ∈ j.blocks g := by
  intro b hb
  obtain ⟨j, hj, hb⟩ := List.mem_flatMap.1 hb
  refine ⟨j, hj, ?_, ?_, hb⟩ <;>
    · cases j <;> simp only [Job.blocks, compileModule] at hb
      · split at hb
        · rw [List.mem_singleton.1 hb]; rfl
        · cases hb
      · rw [List.mem_singleton.1 hb]; rfl
      · rw [List.mem_singleton.1 hb]; rfl

/-- The locks that a job takes are different. -/
def Distinct (g : Nat) (js : List Job) : Prop := ∀ j ∈ js, (j.obj.enter g).Nodup

instance (g : Nat) (js : List Job) : Decidable (Distinct g js) :=
  inferInstanceAs (Decidable (∀ j ∈ js, (j.obj.enter g).Nodup))

theorem jobs_good {g : Nat} {js : List Job} (h : Distinct g js) : ∀ b ∈ jobs g js, b.Good := by
  intro b hb
  obtain ⟨j, hj, h1, h2, _⟩ := block_shape g js b hb
  exact ⟨h1 ▸ h j hj, h1 ▸ h2 ▸ exit_perm g j.obj⟩

theorem jobs_guarded {g : Nat} {js : List Job} (h : Distinct g js) :
    ∀ b ∈ jobs g js, Guarded g b := by
  intro b hb
  obtain ⟨j, hj, h1, h2, _⟩ := block_shape g js b hb
  exact { jobs_good h b hb with first := ⟨_, h1⟩, last := ⟨_, h2⟩ }

theorem waits {s : State} {p l q : Nat} (h1 : (s.todo p).head? = some (.acq l))
    (h2 : s.holder l = some q) : ∀ t, ¬ Step p s t := by
  intro t h
  cases h with
  | acquire l' r' h3 h4 => rw [h3] at h1; cases h1; rw [h2] at h4; cases h4
  | release l' r' h3 => rw [h3] at h1; cases h1
  | done l' k r' h3 => rw [h3] at h1; cases h1
  | raises l' k r' h3 => rw [h3] at h1; cases h1

theorem works {s : State} {p k : Nat} {ls : List Nat}
    (h : (s.todo p).head? = some (.work ls k)) : s.working p ls := by
  cases ht : s.todo p with
  | nil => rw [ht] at h; cases h
  | cons a r => rw [ht] at h; cases h; exact ⟨k, r, ht⟩

/-! ## The properties -/

/-- **C52** (released).  Processes `p`, each with its own working directory and its own list of
compilations and links, run at the same time; commands may fail, processes may be killed.  As long
as no acquisition of a lock fails, a process that has ended holds no lock. -/
theorem C52_released_partial (g : Nat → Nat) (js : Nat → List Job)
    (hd : ∀ p, Distinct (g p) (js p)) {s : State}
    (h : Reach False (start fun p => jobs (g p) (js p)) s) (p : Nat) (he : s.ended p) :
    ∀ l, s.holder l ≠ some p :=
  ended_free (reach_phase (G := Block.Good) (fun _ h => h) (fun p => jobs_good (hd p)) h p) he

/-- **C52** (released).  The same for `FileLockSet`. -/
theorem C52_set_released_partial (prog : Nat → List (List Nat))
    (hd : ∀ p, ∀ ls ∈ prog p, ls.Nodup) {s : State}
    (h : Reach False (start fun p => (prog p).map fileLockSet) s) (p : Nat) (he : s.ended p) :
    ∀ l, s.holder l ≠ some p := by
  refine ended_free (reach_phase (G := Block.Good) (fun _ h => h) ?_ h p) he
  intro q b hb
  obtain ⟨ls, hls, rfl⟩ := List.mem_map.1 hb
  exact ⟨hd q ls hls, List.reverse_perm ls⟩

/-- **C52** (released) fails if taking a lock fails inside `__enter__`: Python does not call
`__exit__`, the locks taken before, the lock `compilation_in_progress` among them, stay held as
long as the process lives, and other processes wait for ever. -/
theorem C52_released_violated : ∃ (g : Nat → Nat) (js : Nat → List Job),
    (∀ p, Distinct (g p) (js p)) ∧
    ∃ s, Reach True (start fun p => jobs (g p) (js p)) s ∧ s.ended 0 ∧
      (∃ l, s.holder l = some 0) ∧ ¬ s.ended 1 ∧ ∀ t, ¬ Step 1 s t := by
  let o : Obj := .mk 1 2 true []
  let js : Nat → List Job := fun p => if p < 2 then [.module o] else []
  let s0 := start fun p => jobs 0 (js p)
  have h1 : Reach True s0 ((s0.held 0 (some 0)).goesOn 0
      [.acq 1, .acq 2, .work [1, 2] 3, .rel 1, .rel 2, .rel 0]) :=
    .step 0 .refl (.acquire 0 _ rfl rfl)
  have h2 := h1.fail 0 trivial (.mk 1 _ rfl)
  refine ⟨fun _ => 0, js, ?_, _, h2, rfl, ⟨0, rfl⟩, by simp [State.ended, State.goesOn, State.held, s0, start, js, jobs, program, Job.blocks, compileModule, o, hasTarget, Block.acts], ?_⟩
  · intro p j hj
    simp only [js] at hj
    split at hj
    · rw [List.mem_singleton.1 hj]; show (Obj.enter 0 _).Nodup; decide
    · cases hj
  · exact waits (l := 0) (q := 0) rfl rfl

/-- **C52** (exclusive).  With the same working directory, no two processes compile or link at the
same time, whatever fails and whoever is killed. -/
theorem C52_one_at_a_time (g : Nat) (js : Nat → List Job) (hd : ∀ p, Distinct g (js p)) {s : State}
    (h : Reach True (start fun p => jobs g (js p)) s) {p q : Nat} {ls ms : List Nat}
    (hp : s.working p ls) (hq : s.working q ms) : p = q := by
  have hph := reach_phase (G := Guarded g) (fun _ h => h.toGood) (fun p => jobs_guarded (hd p)) h
  obtain ⟨b, hb, _, h1⟩ := working_holds (hph p) hp
  obtain ⟨c, hc, _, h2⟩ := working_holds (hph q) hq
  obtain ⟨r, hr⟩ := hb.first
  obtain ⟨r', hr'⟩ := hc.first
  have e1 := h1 g (by rw [hr]; simp)
  have e2 := h2 g (by rw [hr']; simp)
  rw [e1] at e2
  exact Option.some.inj e2

/-- Of the object of a job: it has an object file if a library is made from it, and the modules that
it depends on do not depend on others. -/
def Flat (j : Job) : Prop :=
  (∀ o, j = .library o → o.hasTarget = true) ∧ ∀ d ∈ j.obj.deps, d.deps = []

theorem flat_extra (ds : List Obj) (h : ∀ d ∈ ds, d.deps = []) :
    extraModulesOf ds = ds.flatMap simple := by
  induction ds with
  | nil => rw [extraModulesOf]; rfl
  | cons d ds ih =>
    obtain ⟨s, t, ht, dds⟩ := d
    have : dds = [] := h (mk s t ht dds) (by simp)
    subst this
    rw [extraModulesOf, ih fun d hd => h d (by simp [hd]), extraModules, extraModulesOf, List.flatMap_cons]
    rfl

theorem flat_uses {g : Nat} {j : Job} (hj : Flat j) : ∀ b ∈ j.blocks g, ∀ l ∈ b.uses,
    l ∈ j.obj.enter g := by
  have hx : j.obj.extraModules = j.obj.deps.flatMap simple := by
    rw [← flat_extra _ hj.2]
    obtain ⟨s, t, ht, ds⟩ := j.obj
    rw [extraModules]; rfl
  intro b hb l hl
  cases j with
  | module o =>
    simp only [Job.blocks, compileModule] at hb
    split at hb
    · next ht =>
      rw [List.mem_singleton.1 hb] at hl
      simp only [Job.obj, enter, simple, ht, if_true, List.mem_cons, List.not_mem_nil, or_false]
        at hl ⊢
      rcases hl with rfl | rfl <;> simp
    · cases hb
  | program o =>
    rw [List.mem_singleton.1 hb] at hl
    simp only [Job.obj] at hx
    simp only [compileProgram, hx, List.mem_append, List.mem_singleton] at hl
    simp only [Job.obj, enter, List.mem_cons, List.mem_append]
    rcases hl with h | h
    · exact Or.inr (Or.inr h)
    · exact Or.inr (Or.inl (Or.inl h))
  | library o =>
    rw [List.mem_singleton.1 hb] at hl
    simp only [Job.obj] at hx
    simp only [compileSharedLibrary, hx, List.mem_cons] at hl
    simp only [Job.obj, enter, List.mem_cons, List.mem_append]
    rcases hl with h | h
    · refine Or.inr (Or.inl (Or.inr ?_))
      rw [simple, if_pos (hj.1 o rfl), h]; simp
    · exact Or.inr (Or.inr h)

/-- **C52** (exclusive).  Also in different working directories two processes never work on the same
source or object file at the same time, if the dependencies of what is compiled have no
dependencies. -/
theorem C52_exclusive_partial (g : Nat → Nat) (js : Nat → List Job)
    (hd : ∀ p, Distinct (g p) (js p)) (hf : ∀ p, ∀ j ∈ js p, Flat j) {s : State}
    (h : Reach True (start fun p => jobs (g p) (js p)) s) {p q : Nat} {ls ms : List Nat}
    (hp : s.working p ls) (hq : s.working q ms) {l : Nat} (hl : l ∈ ls) (hm : l ∈ ms) : p = q := by
  have hph := reach_phase (G := fun b => b.Good ∧ ∀ l ∈ b.uses, l ∈ b.acqs) (fun _ h => h.1)
    (fun p b hb => by
      refine ⟨jobs_good (hd p) b hb, ?_⟩
      obtain ⟨j, hj, h1, _, h2⟩ := block_shape _ _ b hb
      rw [h1]
      exact flat_uses (hf p j hj) b h2) h
  obtain ⟨b, hb, rfl, h1⟩ := working_holds (hph p) hp
  obtain ⟨c, hc, rfl, h2⟩ := working_holds (hph q) hq
  have e1 := h1 l (hb.2 l hl)
  have e2 := h2 l (hc.2 l hm)
  rw [e1] at e2
  exact Option.some.inj e2

/-- One step of the processes in the schedule; nothing happens if a process waits. -/
def exec : List Nat → State → State
  | [], s => s
  | p :: ps, s => exec ps (match s.todo p with
    | [] => s
    | .acq l :: r => if s.holder l = none then (s.held l (some p)).goesOn p r else s
    | .rel l :: r => (s.held l none).goesOn p r
    | .work _ _ :: r => s.goesOn p r)

theorem exec_reach {f : Prop} {s0 : State} (ps : List Nat) : ∀ s, Reach f s0 s → Reach f s0 (exec ps s) := by
  induction ps with
  | nil => intro s h; exact h
  | cons p ps ih =>
    intro s h
    refine ih _ ?_
    split
    · exact h
    · next l r ht =>
      split
      · next hf => exact h.step p (.acquire l r ht hf)
      · exact h
    · next l r ht => exact h.step p (.release l r ht)
    · next ls k r ht => exact h.step p (.done ls k r ht)

/-- Process 0 links the extension module of a module that imports another one, process 1 compiles
the imported one. -/
def raceJobs (p : Nat) : List Job :=
  if p = 0 then [.library (.mk 8 9 true [.mk 6 7 true [.mk 4 5 true []]])]
  else if p = 1 then [.module (.mk 4 5 true [])] else []

/-- **C52** (exclusive) fails in general: `__enter__` takes the locks of the direct dependencies, the
linker reads the object files of all of them.  In different working directories one process links
a library with an object file (5) that another process is writing. -/
theorem C52_exclusive_violated : ∃ (g : Nat → Nat) (js : Nat → List Job),
    (∀ p, Distinct (g p) (js p)) ∧
    ∃ s ls ms l, Reach False (start fun p => jobs (g p) (js p)) s ∧
      s.working 0 ls ∧ s.working 1 ms ∧ l ∈ ls ∧ l ∈ ms := by
  refine ⟨id, raceJobs, ?_, exec [0, 0, 0, 0, 1, 1, 1] (start fun p => jobs (id p) (raceJobs p)),
    [9, 7, 5], [4, 5], 5, exec_reach _ _ .refl, works (k := 4) (by decide +kernel),
    works (k := 3) (by decide +kernel), by simp, by simp⟩
  intro p j hj
  simp only [raceJobs] at hj
  split at hj
  · next h => subst h; rw [List.mem_singleton.1 hj]; decide
  · split at hj
    · next h => subst h; rw [List.mem_singleton.1 hj]; decide
    · cases hj

/-- **C52** (no deadlock).  With the same working directory: as long as no acquisition fails, there
is no deadlock, and from every state that can be reached the processes can come to an end, with no
lock held. -/
theorem C52_no_deadlock_partial (g : Nat) (js : Nat → List Job) (hd : ∀ p, Distinct g (js p))
    (n : Nat) (hn : ∀ p, n ≤ p → js p = []) {s : State}
    (h : Reach False (start fun p => jobs g (js p)) s) :
    s.NoDeadlock ∧ ∃ t, Reach False s t ∧ (∀ p, t.ended p) ∧ ∀ l, t.holder l = none := by
  have hph := fun {s} h => reach_phase (f := False) (G := Guarded g) (s := s) (fun _ h => h.toGood)
    (fun p => jobs_guarded (hd p)) h
  have hnd : ∀ s, Reach False (start fun p => jobs g (js p)) s → s.NoDeadlock :=
    fun s h => guarded_noDeadlock (hph h)
  refine ⟨hnd s h, ?_⟩
  obtain ⟨t, h1, h2, h3⟩ := reach_end n (fun p hp => by simp [start, hn p hp, jobs, program]) hnd _ s h
    Nat.le.refl
  refine ⟨t, h3 (Reach False s) .refl fun u v q hu hs => hu.step q hs, h2, fun l => ?_⟩
  cases hl : t.holder l with
  | none => rfl
  | some p => exact absurd hl (ended_free (hph h1 p) (h2 p) l)

/-- **C52** (no deadlock).  `FileLockSet`s that take their locks in increasing order, in finitely
many processes, do not lead to a deadlock either. -/
theorem C52_set_no_deadlock_partial (prog : Nat → List (List Nat))
    (hs : ∀ p, ∀ ls ∈ prog p, ls.Pairwise (· < ·)) (n : Nat) (hn : ∀ p, n ≤ p → prog p = [])
    {s : State} (h : Reach False (start fun p => (prog p).map fileLockSet) s) :
    s.NoDeadlock ∧ ∃ t, Reach False s t ∧ (∀ p, t.ended p) ∧ ∀ l, t.holder l = none := by
  obtain ⟨m, hm⟩ := bounded_locks (fun p => (prog p).map fileLockSet) n
    (fun p hp => by simp [hn p hp])
  have hph := fun {s} h => reach_phase (f := False) (G := Ordered m) (s := s)
    (prog := fun p => (prog p).map fileLockSet) (fun _ h => h.toGood)
    (fun p b hb => by
      obtain ⟨ls, hls, rfl⟩ := List.mem_map.1 hb
      exact { nodup := (hs p ls hls).imp (fun h => Nat.ne_of_lt h), perm := List.reverse_perm ls,
              sorted := hs p ls hls, bounded := hm p _ hb }) h
  have hnd : ∀ s, Reach False (start fun p => (prog p).map fileLockSet) s → s.NoDeadlock :=
    fun s h => ordered_noDeadlock (hph h)
  refine ⟨hnd s h, ?_⟩
  obtain ⟨t, h1, h2, h3⟩ := reach_end n (fun p hp => by simp [start, hn p hp, program]) hnd _ s h
    Nat.le.refl
  refine ⟨t, h3 (Reach False s) .refl fun u v q hu hs => hu.step q hs, h2, fun l => ?_⟩
  cases hl : t.holder l with
  | none => rfl
  | some p => exact absurd hl (ended_free (hph h1 p) (h2 p) l)

/-- Two modules that import the same two modules in opposite orders. -/
def oppositeJobs (p : Nat) : List Job :=
  if p = 0 then [.module (.mk 10 11 true [.mk 20 21 true [], .mk 30 31 true []])]
  else if p = 1 then [.module (.mk 12 13 true [.mk 30 31 true [], .mk 20 21 true []])] else []

/-- **C52** (no deadlock) fails in different working directories: two modules that import the same
two modules in opposite orders can wait for each other. -/
theorem C52_no_deadlock_violated : ∃ (g : Nat → Nat) (js : Nat → List Job),
    (∀ p, Distinct (g p) (js p)) ∧ (∀ p, 2 ≤ p → js p = []) ∧
    ∃ s, Reach False (start fun p => jobs (g p) (js p)) s ∧ ¬ s.NoDeadlock := by
  refine ⟨id, oppositeJobs, ?_, ?_,
    exec [0, 0, 0, 0, 1, 1, 1, 1] (start fun p => jobs (id p) (oppositeJobs p)),
    exec_reach _ _ .refl, ?_⟩
  · intro p j hj
    simp only [oppositeJobs] at hj
    split at hj
    · next h => subst h; rw [List.mem_singleton.1 hj]; decide
    · split at hj
      · next h => subst h; rw [List.mem_singleton.1 hj]; decide
      · cases hj
  · intro p hp; simp only [oppositeJobs]; rw [if_neg (by omega), if_neg (by omega)]
  · intro h
    have hne : (exec [0, 0, 0, 0, 1, 1, 1, 1]
        (start fun p => jobs (id p) (oppositeJobs p))).todo 0 ≠ [] := by decide +kernel
    obtain ⟨p, t, hs⟩ := h ⟨0, hne⟩
    match p with
    | 0 => exact waits (l := 31) (q := 1) (by decide +kernel) (by decide +kernel) t hs
    | 1 => exact waits (l := 21) (q := 0) (by decide +kernel) (by decide +kernel) t hs
    | p + 2 =>
      have hr := exec_reach (f := False) [0, 0, 0, 0, 1, 1, 1, 1] 
        (start fun p => jobs (id p) (oppositeJobs p)) .refl
      have h1 := reach_idle hr (p := p + 2) rfl
      have h2 := (Step.todo hs).1
      rw [h1] at h2
      simp at h2

/-! ## The hypotheses can be met -/

/-- A module, a main program that imports it, and its wrapper. -/
def exMod : Obj := .mk 1 2 true []
/-- See `exMod`. -/
def exMain : Obj := .mk 3 4 true [exMod, .mk 90 91 false []]
/-- See `exMod`. -/
def exWrap : Obj := .mk 5 6 true [exMain]
/-- What a call of pyccel does with them. -/
def exJobs : List Job := [.module exMod, .module exMain, .program exMain, .module exWrap, .library exWrap]

example : Distinct 0 exJobs := by decide
example : (jobs 0 exJobs).length = 5 := rfl
example : exWrap.extraModules = [4, 2] := rfl
example : Flat (.program exMain) := by
  refine ⟨fun o h => (by cases h), fun d hd => ?_⟩
  have h : d = exMod ∨ d = .mk 90 91 false [] := by simpa [exMain, Job.obj, deps] using hd
  rcases h with rfl | rfl <;> rfl

/-- Two processes that do the same. -/
def exTwo : State :=
  exec [0, 0, 0, 1, 1] (start fun p => jobs 9 (if p < 2 then [.module exMod] else []))

/-- While the first one works, the other one waits for the lock of the working directory. -/
example : exTwo.working 0 [1, 2] ∧ exTwo.todo 1 = program (jobs 9 [.module exMod]) :=
  ⟨works (k := 3) (by decide +kernel), by decide +kernel⟩

end Verif.Locks
