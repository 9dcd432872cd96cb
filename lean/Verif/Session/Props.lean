import Verif.Session.Lemmas

/-!
# Sessions: theorems
-/

namespace Verif.Session
open Spec Model

/-! ## One call -/

theorem ready_disk (c : Call) (n : Name) (s : Py) (d : Dir) (m : Name) (h : d ≠ c.dir ∨ m ≠ n) :
    (ready c n s).disk d m = s.disk d m := by
  have hne : ¬ (d = c.dir ∧ m = n) := by
    rintro ⟨e1, e2⟩
    rcases h with h | h
    · exact h e1
    · exact h e2
  simp [ready, put, hne]

/-- All that a call does, whatever fails. -/
theorem call_effect (c : Call) (s : Py) :
    (∃ pre, (epyccel c s).1.path = pre ++ s.path ∧ ∀ d ∈ pre, d = s.cwd ∨ d = c.dir) ∧
    (epyccel c s).1.cwd = s.cwd ∧ (epyccel c s).1.locks = s.locks ∧
    ((epyccel c s).1.stage = none ∨ (epyccel c s).1.stage = s.stage) ∧
    (∀ d m, m.tag = none ∨ s.modules m ≠ none → (epyccel c s).1.disk d m = s.disk d m) ∧
    (∀ m f, s.modules m = some f → (epyccel c s).1.modules m = some f) ∧
    (∀ m, m.tag = none → m ∉ c.deps.all.map Prod.fst → (epyccel c s).1.modules m = s.modules m) := by
  unfold epyccel
  cases hp : pick c s c.tags with
  | none =>
    exact ⟨⟨[], rfl, by simp⟩, rfl, rfl, Or.inr rfl, fun _ _ _ => rfl, fun _ _ h => h,
      fun _ _ _ => rfl⟩
  | some n =>
    obtain ⟨hpt, hpm, hpk⟩ := pick_some hp
    have hne : ∀ m : Name, m.tag = none ∨ s.modules m ≠ none → m ≠ n := by
      intro m hm e
      rw [e] at hm
      rcases hm with h | h
      · exact hpt h
      · exact h hpm
    simp only
    have hk := importAll_kept c.broken c.deps (ready c n s)
    rcases exec_cases c n s hpm with ⟨pre, disk, st, he, h1, h2, h3⟩ | ⟨pre, h1, he⟩ | ⟨pre, h1, he⟩ |
      ⟨f, b, _, he, _⟩
    · rw [he]
      refine ⟨⟨pre, rfl, ?_⟩, rfl, rfl, h2, fun d m hm => h3 d m (Or.inr (hne m hm)),
        fun _ _ h => h, fun _ _ _ => rfl⟩
      rcases h1 with h1 | h1 <;> subst h1 <;> simp
    · rw [he]
      refine ⟨⟨pre, rfl, ?_⟩, hk.cwd, rfl, Or.inl hk.stage, ?_, hk.stay, fun m _ hm => hk.only m hm⟩
      · rcases h1 with h1 | h1 <;> subst h1 <;> simp
      · intro d m hm
        simp only [hk.disk]
        exact ready_disk c n s d m (Or.inr (hne m hm))
    · rw [he]
      refine ⟨⟨pre, rfl, ?_⟩, rfl, rfl, Or.inl rfl, ?_, fun _ _ h => h, fun _ _ _ => rfl⟩
      · rcases h1 with h1 | h1 <;> subst h1 <;> simp
      · intro d m hm
        exact ready_disk c n s d m (Or.inr (hne m hm))
    · rw [he]
      refine ⟨⟨[s.cwd], rfl, by simp⟩, hk.cwd, rfl, Or.inl hk.stage, ?_, ?_, ?_⟩
      · intro d m hm
        simp only [hk.disk]
        exact ready_disk c n s d m (Or.inr (hne m hm))
      · intro m g hm
        have : m ≠ n := hne m (Or.inr (by rw [hm]; simp))
        simp only [this, if_false]
        exact hk.stay m g hm
      · intro m ht hm
        have : m ≠ n := hne m (Or.inl ht)
        simp only [this, if_false]
        exact hk.only m hm

/-! ## C189 later imports -/

theorem locate_pre (disk : Dir → Name → Entry) (n : Name) (rest : List Dir) : ∀ pre : List Dir,
    (∀ d ∈ pre, (disk d n).best = none ∨ (disk d n).best = locate disk rest n) →
    locate disk (pre ++ rest) n = locate disk rest n
  | [], _ => rfl
  | d :: pre, h => by
      simp only [List.cons_append, locate]
      have ih := locate_pre disk n rest pre fun x hx => h x (List.mem_cons_of_mem _ hx)
      rcases h d (List.mem_cons_self ..) with h1 | h1
      · rw [h1]; exact ih
      · cases hb : (disk d n).best with
        | none => exact ih
        | some f => rw [hb] at h1; exact h1

theorem locate_congr (disk disk' : Dir → Name → Entry) (n : Name) (h : ∀ d, disk d n = disk' d n) :
    ∀ path, locate disk path n = locate disk' path n
  | [] => rfl
  | d :: ds => by simp only [locate, h d, locate_congr disk disk' n h ds]

theorem imported_call (c : Call) (s : Py) (n : Name) (ht : n.tag = none)
    (hu : n ∉ c.deps.all.map Prod.fst)
    (hv : ∀ d, d = s.cwd ∨ d = c.dir →
      (s.disk d n).best = none ∨ (s.disk d n).best = locate s.disk s.path n) :
    imported (epyccel c s).1 n = imported s n ∧
      locate (epyccel c s).1.disk (epyccel c s).1.path n = locate s.disk s.path n := by
  obtain ⟨⟨pre, hpath, hpre⟩, _, _, _, hdisk, _, hmod⟩ := call_effect c s
  have hl : locate (epyccel c s).1.disk (epyccel c s).1.path n = locate s.disk s.path n := by
    rw [hpath, locate_congr _ s.disk n (fun d => hdisk d n (Or.inl ht))]
    exact locate_pre _ _ _ _ fun d hd => hv d (hpre d hd)
  refine ⟨?_, hl⟩
  unfold imported
  rw [hmod n ht hu, hl]

/-- C189.  After any history of calls of `epyccel`, whatever fails in them, of changes of the folder and
of imports, `import n` gives what it would have given before: as long as the folders in which the calls
are made, and those in which `epyccel` works, have no module `n`, or the one that was found anyhow; and
`n` is not one of the compiled modules that are used by what is translated.  Missing: other modules in
these folders, see below. -/
theorem C189_partial (n : Name) (ht : n.tag = none) : ∀ (h : List Event) (s : Py), n ∉ used h →
    (∀ d ∈ visited s.cwd h, (s.disk d n).best = none ∨ (s.disk d n).best = locate s.disk s.path n) →
    imported (run s h) n = imported s n
  | [], _, _, _ => rfl
  | .call c :: es, s, hu, hv => by
      simp only [used, List.mem_append, not_or] at hu
      obtain ⟨h1, h2⟩ := imported_call c s n ht hu.1 (fun d hd => hv d (by
        simp only [visited]
        rcases hd with hd | hd <;> simp [hd]))
      obtain ⟨_, hcwd, _, _, hdisk, _, _⟩ := call_effect c s
      simp only [run, happen]
      rw [← h1]
      refine C189_partial n ht es _ hu.2 fun d hd => ?_
      rw [h2, hdisk d n (Or.inl ht)]
      rw [hcwd] at hd
      exact hv d (by simp only [visited, List.mem_cons]; exact Or.inr (Or.inr hd))
  | .chdir d :: es, s, hu, hv => by
      simp only [run, happen]
      exact C189_partial n ht es { s with cwd := d } hu hv
  | .import m :: es, s, hu, hv => by
      simp only [run, happen]
      have : imported { s with modules := fun k => if k = m then imported s m else s.modules k } n =
          imported s n := by
        by_cases e : n = m
        · subst e
          simp only [imported, if_true]
          cases h1 : s.modules n with
          | some f => rfl
          | none =>
            simp only
            cases h2 : locate s.disk s.path n <;> rfl
        · simp [imported, e]
      rw [← this]
      exact C189_partial n ht es _ hu hv

/-- C189.  In particular for a process whose `sys.path` begins with its own folder, as in a script that
is started in its folder, if the folders in which `epyccel` works contain no modules of the user. -/
theorem C189_here_partial (n : Name) (ht : n.tag = none) (h : List Event) (s : Py) (rest : List Dir)
    (hp : s.path = s.cwd :: rest) (hu : n ∉ used h) (hc : ∀ d, Event.chdir d ∉ h)
    (he : ∀ c, Event.call c ∈ h → (s.disk c.dir n).best = none) :
    imported (run s h) n = imported s n := by
  refine C189_partial n ht h s hu fun d hd => ?_
  have hvis : ∀ (es : List Event) (w : Dir), (∀ d, Event.chdir d ∉ es) → ∀ d ∈ visited w es,
      d = w ∨ ∃ c, Event.call c ∈ es ∧ d = c.dir := by
    intro es
    induction es with
    | nil => intro w _ d hd; simp [visited] at hd
    | cons e es ih =>
      intro w hn d hd
      have hn' : ∀ d, Event.chdir d ∉ es := fun d hm => hn d (List.mem_cons_of_mem _ hm)
      cases e with
      | call c =>
        simp only [visited, List.mem_cons] at hd
        rcases hd with hd | hd | hd
        · exact Or.inl hd
        · exact Or.inr ⟨c, by simp, hd⟩
        · rcases ih w hn' d hd with h1 | ⟨c', h1, h2⟩
          · exact Or.inl h1
          · exact Or.inr ⟨c', List.mem_cons_of_mem _ h1, h2⟩
      | chdir d' => exact absurd (List.mem_cons_self ..) (hn d')
      | «import» m =>
        simp only [visited] at hd
        rcases ih w hn' d hd with h1 | ⟨c', h1, h2⟩
        · exact Or.inl h1
        · exact Or.inr ⟨c', List.mem_cons_of_mem _ h1, h2⟩
  rcases hvis h s.cwd hc d hd with h1 | ⟨c, h1, h2⟩
  · rw [h1, hp]
    simp only [locate]
    cases hb : (s.disk s.cwd n).best with
    | none => exact Or.inl rfl
    | some f => exact Or.inr rfl
  · rw [h2]; exact Or.inl (he c h1)

/-- A process in folder 1, with the folders 0 and 2 in `sys.path`; the folders 1 and 2 have a module
`helper`. -/
def start : Py :=
  { cwd := 1
    path := [0, 2]
    modules := fun _ => none
    disk := fun d n =>
      if n = ⟨[], 7, none⟩ then
        if d = 1 then ⟨none, some 10⟩ else if d = 2 then ⟨none, some 20⟩ else ⟨none, none⟩
      else ⟨none, none⟩
    stage := none
    locks := [] }

/-- `epyccel(f)` in that folder; `fails` are the steps that fail. -/
def simpleCall (fails : List Step) : Call :=
  { dir := 5, pkg := [], base := 3, code := 100, out := 101, compiled := true, tags := [42],
    taken := fun _ => false, fails := fun p => decide (p ∈ fails), reached := 4, deps := .nil,
    broken := fun _ => false }

example : imported (run start [.call (simpleCall []), .call (simpleCall [.translate])]) ⟨[], 8, none⟩ =
    imported start ⟨[], 8, none⟩ :=
  C189_partial _ rfl _ _ (by decide) (by
    intro d _
    left
    simp only [start]
    rw [if_neg (by decide)]
    rfl)

/-- C189 fails: every call that succeeds adds the folder of the process to `sys.path`, at the front, and
does not remove it. -/
theorem C189_path_violated (c : Call) (s : Py) (f : File) (h : (epyccel c s).2 = some f) :
    (epyccel c s).1.path = s.cwd :: s.path := by
  unfold epyccel at h ⊢
  cases hp : pick c s c.tags with
  | none => rw [hp] at h; simp at h
  | some n =>
    rw [hp] at h
    simp only at h ⊢
    rcases exec_cases c n s (pick_some hp).2.1 with ⟨pre, disk, st, he, _⟩ | ⟨pre, _, he⟩ |
      ⟨pre, _, he⟩ | ⟨g, b, _, he, _⟩
    · rw [he] at h; simp at h
    · rw [he] at h; simp at h
    · rw [he] at h; simp at h
    · rw [he]

example : (epyccel (simpleCall []) start).2 = some (.library 101) := by decide

/-- C189 fails: a later `import helper` finds another file than before the call. -/
theorem C189_other_violated : ∃ (s : Py) (c : Call) (n : Name), n.tag = none ∧
    (epyccel c s).2 = some c.file ∧ imported s n = some (.source 20) ∧
    imported (run s [.call c]) n = some (.source 10) :=
  ⟨start, simpleCall [], ⟨[], 7, none⟩, rfl, by decide, by decide, by decide⟩

/-- C189 fails: the same after a call that has raised an error. -/
theorem C189_failed_violated : ∃ (s : Py) (c : Call) (n : Name), n.tag = none ∧
    (epyccel c s).2 = none ∧ imported s n = some (.source 20) ∧
    imported (run s [.call c]) n = some (.source 10) :=
  ⟨start, simpleCall [.translate], ⟨[], 7, none⟩, rfl, by decide, by decide, by decide⟩

/-- C189 fails: if the new module cannot be loaded (its initialisation raises an error), the folder
`__epyccel__` stays in `sys.path` too. -/
theorem C189_load_violated : ∃ (s : Py) (c : Call), (epyccel c s).2 = none ∧
    (epyccel c s).1.path = c.dir :: s.cwd :: s.path :=
  ⟨start, simpleCall [.load], by decide, by decide⟩

/-- C189.  What was in `sys.path` stays there, in its order, whatever happens. -/
theorem C189_suffix : ∀ (h : List Event) (s : Py), ∃ pre, (run s h).path = pre ++ s.path ∧
    ∀ d ∈ pre, d ∈ visited s.cwd h
  | [], _ => ⟨[], rfl, by simp⟩
  | .call c :: es, s => by
      obtain ⟨⟨p1, h1, h1'⟩, hcwd, _⟩ := call_effect c s
      obtain ⟨p2, h2, h2'⟩ := C189_suffix es (epyccel c s).1
      refine ⟨p2 ++ p1, ?_, ?_⟩
      · simp only [run, happen]; rw [h2, h1, List.append_assoc]
      · intro d hd
        simp only [visited, List.mem_cons]
        rcases List.mem_append.mp hd with h3 | h3
        · have := h2' d h3
          rw [hcwd] at this
          exact Or.inr (Or.inr this)
        · rcases h1' d h3 with h4 | h4
          · exact Or.inl h4
          · exact Or.inr (Or.inl h4)
  | .chdir d :: es, s => C189_suffix es { s with cwd := d }
  | .import n :: es, s =>
      C189_suffix es { s with modules := fun m => if m = n then imported s n else s.modules m }

example : (run start [.call (simpleCall [.load]), .chdir 6, .call (simpleCall [.build])]).path =
    [6, 5, 1, 0, 2] := by decide

/-! ## C190 every call gives its own module, and leaves nothing behind -/

/-- C190.  What a call returns is what it has built (in the language Python: if the folder has no library
with a name that `epyccel` gives).  Its name was not in use in this process and in no other one. -/
theorem C190_own (c : Call) (s : Py) (f : File) (h : (epyccel c s).2 = some f)
    (hl : c.compiled = true ∨ ∀ n, n.tag ≠ none → (s.disk c.dir n).lib = none) :
    f = c.file ∧ ∃ n, n.base = c.base ∧ n.tag ≠ none ∧ s.modules n = none ∧ c.taken n = false ∧
      (epyccel c s).1.modules n = some f := by
  have hbase : ∀ (ts : List Nat) (n : Name), pick c s ts = some n → n.base = c.base := by
    intro ts
    induction ts with
    | nil => intro n hn; simp [pick] at hn
    | cons t ts ih =>
      intro n hn
      unfold pick at hn
      split at hn
      · exact ih n hn
      · split at hn
        · exact ih n hn
        · simp only [Option.some.injEq] at hn; rw [← hn]
  unfold epyccel at h ⊢
  cases hp : pick c s c.tags with
  | none => rw [hp] at h; simp at h
  | some n =>
    rw [hp] at h
    simp only at h ⊢
    obtain ⟨hpt, hpm, hpk⟩ := pick_some hp
    rcases exec_cases c n s hpm with ⟨pre, disk, st, he, _⟩ | ⟨pre, _, he⟩ |
      ⟨pre, _, he⟩ | ⟨g, b, hg, he, hb⟩
    · rw [he] at h; simp at h
    · rw [he] at h; simp at h
    · rw [he] at h; simp at h
    · rw [he] at h
      simp only at h
      cases b with
      | false => simp at h
      | true =>
        simp only [if_true, Option.some.injEq] at h
        subst h
        refine ⟨?_, n, hbase _ _ hp, hpt, hpm, hpk, by rw [he]; simp⟩
        cases hc : c.compiled with
        | true =>
          simp [ready, locate, put, hc, Entry.best] at hg
          rw [← hg]; simp [Call.file, hc]
        | false =>
          have hlib : (s.disk c.dir n).lib = none := by
            rcases hl with h1 | h1
            · rw [hc] at h1; simp at h1
            · exact h1 n hpt
          simp [ready, locate, put, hc, Entry.best, hlib] at hg
          rw [← hg]; simp [Call.file, hc]

/-- C190.  After any history, whatever fails: no lock is held, pyccel is in no stage, the modules that
were loaded before are still the same, and so are their files. -/
theorem C190_clean : ∀ (h : List Event) (s : Py), s.stage = none →
    (run s h).locks = s.locks ∧ (run s h).stage = none ∧
    ∀ n f, s.modules n = some f →
      (run s h).modules n = some f ∧ ∀ d, (run s h).disk d n = s.disk d n
  | [], _, hs => ⟨rfl, hs, fun _ _ hn => ⟨hn, fun _ => rfl⟩⟩
  | .call c :: es, s, hs => by
      obtain ⟨_, _, hlock, hstage, hdisk, hstay, _⟩ := call_effect c s
      have hs' : (epyccel c s).1.stage = none := by
        rcases hstage with h | h
        · exact h
        · rw [h, hs]
      obtain ⟨h1, h2, h3⟩ := C190_clean es (epyccel c s).1 hs'
      refine ⟨h1.trans hlock, h2, fun n f hn => ?_⟩
      obtain ⟨h4, h5⟩ := h3 n f (hstay n f hn)
      exact ⟨h4, fun d => (h5 d).trans (hdisk d n (Or.inr (by rw [hn]; simp)))⟩
  | .chdir d :: es, s, hs => C190_clean es { s with cwd := d } hs
  | .import m :: es, s, hs => by
      obtain ⟨h1, h2, h3⟩ := C190_clean es
        { s with modules := fun k => if k = m then imported s m else s.modules k } hs
      refine ⟨h1, h2, fun n f hn => h3 n f ?_⟩
      by_cases e : n = m
      · rw [← e]; simp [imported, hn]
      · simp [e, hn]

/-- A call that is interrupted in the middle. -/
example : (epyccel (simpleCall [.build]) start).2 = none ∧
    (run start [.call (simpleCall [.build])]).locks = [] := by decide

/-- C190.  The tag of a module that is loaded is not used again. -/
example : (epyccel (simpleCall []) (epyccel (simpleCall []) start).1).2 = none ∧
    (epyccel { simpleCall [] with tags := [42, 43] } (epyccel (simpleCall []) start).1).2 =
      some (.library 101) := by decide

/-! ## C191 compiled modules find those that they use -/

/-- C191.  From any folder and with any `sys.path`, a compiled module finds the compiled modules that it
uses, and these find theirs: each in its own folder, unless it is loaded already. -/
theorem C191_found (broken : Name → Bool) (home : Name → Dir) (s : Py) (ms : Mods) (hp : s.path ≠ [])
    (h : ∀ p ∈ ms.all, p.2 = home p.1 ∧ (s.disk (home p.1) p.1).best ≠ none ∧ broken p.1 = false) :
    (importAll broken s ms).2 = true ∧
    (∀ n ∈ ms.direct, (importAll broken s ms).1.modules n = own home s n) ∧
    ∀ n, (importAll broken s ms).1.modules n = s.modules n ∨
      (importAll broken s ms).1.modules n = own home s n := by
  have hr := importAll_right broken home s ms s hp ⟨rfl, fun _ => Or.inl rfl⟩ h
  exact ⟨hr.1, hr.2.2, hr.2.1.2⟩

/-- C191.  Whatever is missing or fails, `sys.path` is the same afterwards, and the modules that were
loaded are still there. -/
theorem C191_restored (broken : Name → Bool) (s : Py) (ms : Mods) :
    (importAll broken s ms).1.path = s.path ∧
    ∀ n f, s.modules n = some f → (importAll broken s ms).1.modules n = some f :=
  ⟨(importAll_kept broken ms s).path, (importAll_kept broken ms s).stay⟩

/-- Module 1 in folder 10 uses module 2 in folder 20. -/
def two : Mods := .cons (.mk ⟨[], 1, none⟩ 10 (.cons (.mk ⟨[], 2, none⟩ 20 .nil) .nil)) .nil

/-- These files, and a process that does not have the folders in its path. -/
def startTwo : Py :=
  { start with disk := fun d n =>
      if d = 10 * n.base ∧ n.tag = none then ⟨some n.base, none⟩ else ⟨none, none⟩ }

example : (importAll (fun _ => false) startTwo two).2 = true ∧
    (importAll (fun _ => false) startTwo two).1.modules ⟨[], 2, none⟩ = some (.library 2) ∧
    (importAll (fun _ => false) startTwo two).1.path = [0, 2] ∧
    (importAll (fun n => decide (n.base = 2)) startTwo two).2 = false ∧
    (importAll (fun n => decide (n.base = 2)) startTwo two).1.path = [0, 2] := by decide

example : ∀ p ∈ two.all, p.2 = 10 * p.1.base ∧
    (startTwo.disk (10 * p.1.base) p.1).best ≠ none := by decide

end Verif.Session
