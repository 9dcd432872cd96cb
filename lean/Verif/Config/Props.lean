import Verif.Config.Lemmas

/-!
# C195, C196, C197: registered compilers
-/

namespace Verif.Config
open Spec Model

/-! ## Concrete cases -/

/-- The folder `/h` in an empty file system, and the same with a symbolic link `/l` to it. -/
def env0 : Env := ⟨[['h']], [['h']]⟩
def envL : Env := ⟨[['l']], [['h']]⟩
def empty : Fs := fun p => if p = [] then some .dir else none

theorem fresh0 : Fresh env0.real empty := ⟨fun _ _ => rfl, fun p _ => by
  unfold empty
  split
  · exact .inr rfl
  · exact .inl rfl⟩

def built : Inst := ⟨[([], .dir), ([['b', 'u', 'i', 'l', 'd', '-', 'g']], .dir), ([['a']], .file none)], true⟩
def notBuilt : Inst := ⟨[([], .dir)], false⟩

/-! ## C195: what is deleted -/

/-- C195 (partial: for every name that the user may give, but only what is outside of the folder of the configurations).
Neither command changes or deletes anything outside of the folder; folders may be created on the way to it. -/
theorem C195_outside_partial (env : Env) (fs : Fs) (cmd : Cmd) {p : Path} (hp : ¬ env.shown <+: p) (he : fs p ≠ none) :
    (Model.step env fs cmd).1 p = fs p := by
  cases cmd with
  | register f c i =>
    simp only [Model.step, register]
    cases h : registerWrites env fs f c i with
    | none => rfl
    | some ws =>
      unfold registerWrites at h
      dsimp only at h
      split at h
      · cases h
      · next hd =>
        have hd := Decidable.of_not_not hd
        have key : writes fs ws p = fs p := by
          refine writes_other fun w hw e => ?_
          split at h
          · cases h
          · split at h
            · cases h
            · injection h with h
              subst h
              simp only [List.mem_append, List.mem_map, List.mem_filter, List.mem_cons, List.not_mem_nil, or_false] at hw
              rcases hw with (⟨q, ⟨_, hq⟩, rfl⟩ | rfl | rfl) | ⟨q, _, rfl⟩
              · simp at hq
                exact he (e ▸ hq)
              all_goals exact hp (e ▸ hd.trans (List.prefix_append _ _))
        have hp' : ¬ dirpath env f ++ [stcName, buildName f] <+: p := fun hc =>
          hp (hd.trans ((List.prefix_append _ _).trans hc))
        by_cases hi : i.ok = true
        · simp only [hi, if_true]
          rw [rmtree_out hp', key]
        · simp only [hi]
          exact key
  | remove f =>
    simp only [Model.step, remove]
    split
    · rfl
    · next hd =>
      have hd := Decidable.of_not_not hd
      split
      · exact rmtree_out fun hc => hp (hd.trans hc)
      · rfl

example : ¬ env0.shown <+: [['x']] := by decide

/-- C195 (partial: families whose name is the name of one folder).  `pyccel config remove f` deletes the folder of this
family and changes nothing else. -/
theorem C195_partial (env : Env) (fs : Fs) {f : Name} (hf : Simple f) (p : Path) :
    (remove env fs f).1 p = fs p ∨ ((remove env fs f).1 p = none ∧ env.real ++ [f] <+: p) := by
  simp only [remove, dirpath_simple env hf]
  split
  · exact .inl rfl
  · split
    · by_cases h : env.real ++ [f] <+: p
      · exact .inr ⟨rmtree_in h, h⟩
      · exact .inl (rmtree_out h)
    · exact .inl rfl

example : Simple ['g', 'n', 'u', '.', '1'] := by decide

/-- C195 fails: `pyccel config remove .` (and `pyccel config remove ""`) succeeds and deletes all configurations. -/
theorem C195_violated {env : Env} (he : env.shown = env.real) {fs : Fs} (hd : fs env.real = some .dir) {f : Name}
    (hf : f = ['.'] ∨ f = []) :
    (remove env fs f).2 = true ∧ ∀ q, (remove env fs f).1 (env.real ++ q) = none := by
  have e : dirpath env f = env.real := by rcases hf with rfl | rfl <;> rfl
  have : remove env fs f = (rmtree fs env.real, true) := by simp [remove, e, he, hd]
  rw [this]
  exact ⟨rfl, fun q => rmtree_in (List.prefix_append _ _)⟩

/-- Two families are registered, and both are gone. -/
example : (Model.run env0 empty [.register ['g'] 1 built, .register ['k'] 2 built, .remove ['.']]).2 = [true, true, true] ∧
    (Model.run env0 empty [.register ['g'] 1 built, .register ['k'] 2 built, .remove ['.']]).1 [['h'], ['k']] = none ∧
    (Model.run env0 empty [.register ['g'] 1 built, .register ['k'] 2 built]).1 [['h'], ['k']] = some .dir := by
  decide +kernel

/-- C195 fails: `pyccel config remove gnu/STC` succeeds, although no such family is registered, and deletes the library
of a registered family. -/
theorem C195_part_violated :
    (Model.run env0 empty [.register ['g'] 1 built, .remove ['g', '/', 'S', 'T', 'C']]).2 = [true, true] ∧
      (Spec.run (fun _ => none) [.register ['g'] 1 built, .remove ['g', '/', 'S', 'T', 'C']]).2 = [true, false] ∧
      (Model.run env0 empty [.register ['g'] 1 built]).1 [['h'], ['g'], stcName, ['a']] ≠ none ∧
      (Model.run env0 empty [.register ['g'] 1 built, .remove ['g', '/', 'S', 'T', 'C']]).1
        [['h'], ['g'], stcName, ['a']] = none := by
  decide +kernel

/-! ## C196: what is used -/

/-- C196 (partial: names of one folder, that are not names of built-in compilers and do not end in `.json`; the library can
be built; the path of the folder is written without symbolic links).  After every history of commands, each command has
succeeded exactly if it should, and the compiler of a family is the one that was registered last and not removed. -/
theorem C196_partial {env : Env} (he : env.shown = env.real) {fs : Fs} (h0 : Fresh env.real fs) {cmds : List Cmd}
    (hc : ∀ c ∈ cmds, Simple c.family ∧ c.Builds) (here : Name → Option Cfg) :
    (Model.run env fs cmds).2 = (Spec.run (fun _ => none) cmds).2 ∧
      ∀ f, Simple f → f ∉ vendors → ¬ json <:+ f →
        use env here (Model.run env fs cmds).1 f = ((Spec.run (fun _ => none) cmds).1 f).map Info.cfg := by
  obtain ⟨h1, h2⟩ := run_agrees he cmds (agrees_fresh h0) hc
  exact ⟨h1, fun f hf hv hj => use_agrees h2 here hf hv hj⟩

/-- C196 (partial: as before, and the name has no dot).  The command line accepts such a family with
`--compiler-family` exactly if it is registered. -/
theorem C196_cli_partial {env : Env} (he : env.shown = env.real) {fs : Fs} (h0 : Fresh env.real fs) {cmds : List Cmd}
    (hc : ∀ c ∈ cmds, Simple c.family ∧ c.Builds) (here : Name → Option Cfg) {f : Name} (hf : Simple f)
    (hv : f ∉ vendors) (hd : '.' ∉ f) (x : Info) :
    UsesCli env here (Model.run env fs cmds).1 f x ↔
      ∃ c, (Spec.run (fun _ => none) cmds).1 f = some c ∧ x = .cfg c := by
  obtain ⟨_, h2⟩ := run_agrees he cmds (agrees_fresh h0) hc
  have hj : ¬ json <:+ f := by
    rintro ⟨t, rfl⟩
    exact hd (by simp [json])
  have hu := use_agrees h2 here hf hv hj
  unfold UsesCli
  rw [hu]
  cases hr : (Spec.run (fun _ => none) cmds).1 f with
  | none => simp
  | some c =>
    obtain ⟨h3, _⟩ := h2.present f hf c hr
    simp only [Option.map_some, Option.some.injEq]
    constructor
    · rintro ⟨_, rfl⟩
      exact ⟨c, rfl, rfl⟩
    · rintro ⟨c', rfl, rfl⟩
      exact ⟨.inr ⟨f, by rw [h3]; simp, stem_eq hd⟩, rfl⟩

example : ∀ c ∈ [Cmd.register ['g'] 1 built, .remove ['g'], .register ['g'] 2 built], Simple c.family ∧ c.Builds := by
  intro c h
  simp only [List.mem_cons, List.not_mem_nil, or_false] at h
  rcases h with rfl | rfl | rfl <;> exact ⟨by decide, by simp [Cmd.Builds, built]⟩

/-- C196 fails: a family with a dot in its name (`g.1`) is registered, but the command line does not accept it; it offers
`g`, for which there is no configuration. -/
theorem C196_dot_violated (here : Name → Option Cfg) :
    (Model.run env0 empty [.register ['g', '.', '1'] 1 built]).2 = [true] ∧
      use env0 here (Model.run env0 empty [.register ['g', '.', '1'] 1 built]).1 ['g', '.', '1'] = some (.cfg 1) ∧
      ¬ Choice env0 (Model.run env0 empty [.register ['g', '.', '1'] 1 built]).1 ['g', '.', '1'] ∧
      Choice env0 (Model.run env0 empty [.register ['g', '.', '1'] 1 built]).1 ['g'] ∧
      use env0 here (Model.run env0 empty [.register ['g', '.', '1'] 1 built]).1 ['g'] = none := by
  have hc : ∀ c ∈ [Cmd.register ['g', '.', '1'] 1 built], Simple c.family ∧ c.Builds := by
    intro c h
    simp only [List.mem_cons, List.not_mem_nil, or_false] at h
    subst h
    exact ⟨by decide, by simp [Cmd.Builds, built]⟩
  obtain ⟨h1, h2⟩ := run_agrees (env := env0) rfl _ (agrees_fresh fresh0) hc
  refine ⟨h1, ?_, ?_, ?_, ?_⟩
  · rw [use_agrees h2 here (by decide) (by decide) (by decide)]; rfl
  · rintro (h | ⟨n, hn, hs⟩)
    · exact absurd h (by decide)
    · by_cases e : n = ['g', '.', '1']
      · subst e
        exact absurd hs (by decide)
      · refine hn ?_
        have hw : ∃ ws, registerWrites env0 empty ['g', '.', '1'] 1 built = some ws :=
          ⟨_, registerWrites_simple rfl (by decide) 1 built rfl fresh0.2⟩
        obtain ⟨ws, hw⟩ := hw
        have ho := writes_other (fs := empty) (registerWrites_other (by decide) hw e [])
        simp only [Model.run, Model.step, register, hw]
        show rmtree _ _ _ = none
        rw [rmtree]
        split
        · rfl
        · exact ho
  · refine .inr ⟨['g', '.', '1'], ?_, by decide⟩
    rw [(h2.present ['g', '.', '1'] (by decide) 1 rfl).1]
    simp
  · rw [use_agrees h2 here (by decide) (by decide) (by decide)]; rfl

/-- C196 fails: a family with the name of a built-in compiler can be registered, but it is never used. -/
theorem C196_vendor_violated :
    (Model.run env0 empty [.register ['i', 'n', 't', 'e', 'l'] 1 built]).2 = [true] ∧
      ∀ (here : Name → Option Cfg) (fs : Fs) f, f ∈ vendors → use env0 here fs f = some (.builtin f) := by
  refine ⟨by decide +kernel, fun here fs f hf => ?_⟩
  have hj : ¬ json <:+ f := by
    revert hf f
    decide
  simp [use, hf, hj]

/-- C196 fails: registering `g/k` makes `g` a family that cannot be registered, although it is not registered and has no
configuration. -/
theorem C196_nested_violated :
    (Model.run env0 empty [.register ['g', '/', 'k'] 1 built, .register ['g'] 2 built]).2 = [true, false] ∧
      (Spec.run (fun _ => none) [.register ['g', '/', 'k'] 1 built, .register ['g'] 2 built]).2 = [true, true] ∧
      use env0 (fun _ => none) (Model.run env0 empty [.register ['g', '/', 'k'] 1 built]).1 ['g'] = none := by
  decide +kernel

/-- C196 fails: if the path of the folder contains a symbolic link, no family can be registered or removed, because a path
without links is compared with the path as it is written. -/
theorem C196_link_violated {env : Env} {f : Name} (hf : Simple f) (hl : ¬ env.shown <+: env.real ++ [f]) (fs : Fs)
    (c : Cfg) (i : Inst) : register env fs f c i = (fs, false) ∧ remove env fs f = (fs, false) := by
  constructor
  · simp [register, registerWrites, dirpath_simple env hf, hl]
  · simp [remove, dirpath_simple env hf, hl]

example : ¬ envL.shown <+: envL.real ++ [['g']] := by decide

/-! ## C197: interrupted and failed registrations -/

/-- C197 (partial: the other families).  When a registration is interrupted at any moment, all other families have the same
compiler as before. -/
theorem C197_others_partial (env : Env) (here : Name → Option Cfg) (fs : Fs) {f g : Name} (hf : Simple f)
    (hg : Simple g) (hfg : g ≠ f) (c : Cfg) (i : Inst) (k : Nat) :
    use env here (registerCrash env fs f c i k) g = use env here fs g := by
  have key : ∀ q, registerCrash env fs f c i k (env.real ++ g :: q) = fs (env.real ++ g :: q) := by
    intro q
    unfold registerCrash
    cases h : registerWrites env fs f c i with
    | none => rfl
    | some ws => exact writes_other fun w hw => registerWrites_other hf h hfg q w (List.mem_of_mem_take hw)
  simp only [use, dirpath_simple env hg, List.append_assoc, List.singleton_append]
  rw [key [], key [cfgName]]

/-- What is written stays below the folder of the family or on the way to it. -/
theorem crash_agrees {env : Env} {fs : Fs} {r : Reg} (ha : Agrees env.real fs r) {f : Name} (hf : Simple f)
    (he : env.shown = env.real) (hr : r f = none) (c : Cfg) (i : Inst) (k : Nat) :
    (∀ p, p <+: env.real → registerCrash env fs f c i k p = none ∨ registerCrash env fs f c i k p = some .dir) ∧
      (∀ g, g ≠ f → ∀ q, registerCrash env fs f c i k (env.real ++ g :: q) = fs (env.real ++ g :: q)) ∧
      ((registerCrash env fs f c i k (env.real ++ [f]) = none ∧ ∀ q, registerCrash env fs f c i k (env.real ++ f :: q) = none)
        ∨ registerCrash env fs f c i k (env.real ++ [f]) = some .dir) := by
  have hn : fs (env.real ++ [f]) = none := ha.absent f hf hr []
  have hw := registerWrites_simple he hf c i hn ha.way
  have ho := fun g (hg : g ≠ f) q => registerWrites_other hf hw hg q
  unfold registerCrash
  rw [hw]
  dsimp only at *
  refine ⟨?_, ?_, ?_⟩
  · -- folders on the way are written as folders only
    have aux : ∀ (ws : List (Path × Ent)) (fs : Fs) p, (fs p = none ∨ fs p = some .dir) →
        (∀ w ∈ ws, w.1 = p → w.2 = .dir) → writes fs ws p = none ∨ writes fs ws p = some .dir := by
      intro ws
      induction ws with
      | nil => intro fs p h _; exact h
      | cons w ws ih =>
        intro fs p h hws
        refine ih _ p ?_ fun v hv => hws v (by simp [hv])
        by_cases e : p = w.1
        · right; simp [write, e, hws w (by simp) e.symm]
        · simp [write, e]; exact h
    intro p hp
    refine aux _ fs p (ha.way p hp) fun w hwm e => ?_
    have hwm := List.mem_of_mem_take hwm
    simp only [List.mem_append, List.mem_map, List.mem_filter, List.mem_cons, List.not_mem_nil, or_false] at hwm
    rcases hwm with (⟨q, _, rfl⟩ | rfl | rfl) | ⟨q, _, rfl⟩
    · rfl
    all_goals
      exfalso
      have := hp.length_le
      rw [← e] at this
      simp at this
      try omega
  · intro g hg q
    exact writes_other fun w hwm => ho g hg q w (List.mem_of_mem_take hwm)
  · -- the folder of the family is the last of the folders
    rw [List.append_assoc]
    generalize hD : ((prefixes (env.real ++ [f])).filter fun p => fs p = none) = D
    have hlast : ∃ D', D = D' ++ [env.real ++ [f]] ∧ ∀ p ∈ D', p <+: env.real := by
      refine ⟨(prefixes env.real).filter fun p => fs p = none, ?_, ?_⟩
      · rw [← hD]
        have : prefixes (env.real ++ [f]) = prefixes env.real ++ [env.real ++ [f]] := by
          unfold prefixes
          rw [List.length_append, List.length_singleton, List.range_succ, List.map_append]
          congr 1
          · apply List.map_congr_left
            intro a ha
            rw [List.mem_range] at ha
            rw [List.take_append_of_le_length (by omega)]
          · simp [List.take_of_length_le]
        rw [this, List.filter_append]
        simp [hn]
      · intro p hp
        exact mem_prefixes.1 (List.mem_filter.1 hp).1
    obtain ⟨D', rfl, hD'⟩ := hlast
    generalize hR : ([(env.real ++ [f, cfgName], Ent.file none), (env.real ++ [f, cfgName], Ent.file (some c))] ++
      i.files.map fun q => (env.real ++ f :: stcName :: q.1, q.2)) = R
    have hRm : ∀ w ∈ R, w.1 ≠ env.real ++ [f] := by
      intro w hwm e
      rw [← hR] at hwm
      simp only [List.mem_append, List.mem_map, List.mem_cons, List.not_mem_nil, or_false] at hwm
      rcases hwm with (rfl | rfl) | ⟨q, _, rfl⟩ <;> simp at e
    rcases Nat.lt_or_ge D'.length k with hk | hk
    · right
      have : ((D' ++ [env.real ++ [f]]).map (fun p => (p, Ent.dir)) ++ R).take k =
          (D' ++ [env.real ++ [f]]).map (fun p => (p, Ent.dir)) ++ R.take (k - (D'.length + 1)) := by
        rw [List.take_append, List.take_of_length_le (by simp; omega)]
        simp
      rw [this, writes_append, writes_other, writes_dirs, if_pos (by simp)]
      exact fun w hwm => hRm w (List.mem_of_mem_take hwm)
    · left
      have : ((D' ++ [env.real ++ [f]]).map (fun p => (p, Ent.dir)) ++ R).take k =
          (D'.take k).map (fun p => (p, Ent.dir)) := by
        rw [List.map_append, List.append_assoc, List.take_append_of_le_length (by simp; omega), List.map_take]
      rw [this]
      have hz : ∀ q, writes fs ((D'.take k).map fun p => (p, Ent.dir)) (env.real ++ f :: q) = none := by
        intro q
        rw [writes_dirs, if_neg]
        · exact ha.absent f hf hr q
        · intro hm
          have := (hD' _ (List.mem_of_mem_take hm)).length_le
          simp at this
          omega
      exact ⟨hz [], hz⟩

/-- C197 (partial: by hand).  After an interrupted registration of a new family, at any moment, the two commands
`pyccel config remove f` (which may find nothing) and `pyccel config register f` leave the family registered, with any
configuration. -/
theorem C197_repair_partial {env : Env} (he : env.shown = env.real) {fs : Fs} (h0 : Fresh env.real fs) {cmds : List Cmd}
    (hc : ∀ c ∈ cmds, Simple c.family ∧ c.Builds) {f : Name} (hf : Simple f)
    (hr : (Spec.run (fun _ => none) cmds).1 f = none) (c c' : Cfg) (i i' : Inst) (hi : i'.ok = true) (k : Nat)
    (here : Name → Option Cfg) (hv : f ∉ vendors) (hj : ¬ json <:+ f) :
    let s := Model.run env (registerCrash env (Model.run env fs cmds).1 f c i k) [.remove f, .register f c' i']
    s.2.getLast? = some true ∧ use env here s.1 f = some (.cfg c') := by
  obtain ⟨_, ha⟩ := run_agrees he cmds (agrees_fresh h0) hc
  generalize (Model.run env fs cmds).1 = fs1 at *
  generalize (Spec.run (fun _ => none) cmds).1 = r at *
  obtain ⟨h1, h2, h3⟩ := crash_agrees ha hf he hr c i k
  generalize registerCrash env fs1 f c i k = fs2 at *
  have ha2 : Agrees env.real (remove env fs2 f).1 r := by
    have other : ∀ g, g ≠ f → ∀ q, (remove env fs2 f).1 (env.real ++ g :: q) = fs1 (env.real ++ g :: q) := by
      intro g hg q
      rw [← h2 g hg q]
      simp only [remove, dirpath_simple env hf, he]
      simp
      split
      · exact rmtree_out (not_prefix_other hg)
      · rfl
    have gone : ∀ q, (remove env fs2 f).1 (env.real ++ f :: q) = none := by
      intro q
      simp only [remove, dirpath_simple env hf, he]
      simp
      rcases h3 with ⟨h4, h5⟩ | h4
      · simp [h4]; exact h5 q
      · simp [h4]; exact rmtree_in (by simp [List.prefix_append_right_inj])
    refine ⟨?_, ?_, ?_⟩
    · intro p hp
      simp only [remove, dirpath_simple env hf, he]
      simp
      split
      · dsimp only; rw [rmtree_out (longer_not_prefix (by simp) hp)]; exact h1 p hp
      · exact h1 p hp
    · intro g hg hrg q
      by_cases hgf : g = f
      · subst hgf; exact gone q
      · rw [other g hgf q]; exact ha.absent g hg hrg q
    · intro g hg c0 hc0
      have hgf : g ≠ f := by
        rintro rfl
        rw [hr] at hc0
        cases hc0
      have e1 := other g hgf []
      have e2 := other g hgf [cfgName]
      rw [e1, e2]
      exact ha.present g hg c0 hc0
  obtain ⟨h4, h5⟩ := registered he ha2 hf c' hr hi
  intro s
  have e1 : s.2 = [(remove env fs2 f).2, (register env (remove env fs2 f).1 f c' i').2] := rfl
  have e2 : s.1 = (register env (remove env fs2 f).1 f c' i').1 := rfl
  refine ⟨by rw [e1, h4]; rfl, ?_⟩
  rw [e2, use_agrees h5 here hf hv hj]
  simp [put]

/-- C197 fails: a registration that is interrupted before the file is complete (here after the folders were made) leaves a
family that cannot be used and cannot be registered. -/
theorem C197_interrupted_violated (c : Cfg) :
    use env0 (fun _ => none) (registerCrash env0 empty ['g'] 1 built 2) ['g'] = none ∧
      register env0 (registerCrash env0 empty ['g'] 1 built 2) ['g'] c built =
        (registerCrash env0 empty ['g'] 1 built 2, false) := by
  have h : registerCrash env0 empty ['g'] 1 built 2 (env0.real ++ [['g']]) ≠ none := by decide +kernel
  refine ⟨by decide +kernel, ?_⟩
  unfold register
  rw [registerWrites_exists (by decide) c built h]

/-- C197 fails: if the library cannot be built the command fails, but the family is registered: it is used, and cannot be
registered again. -/
theorem C197_failed_violated :
    (register env0 empty ['g'] 1 notBuilt).2 = false ∧
      use env0 (fun _ => none) (register env0 empty ['g'] 1 notBuilt).1 ['g'] = some (.cfg 1) ∧
      (register env0 (register env0 empty ['g'] 1 notBuilt).1 ['g'] 2 built).2 = false := by
  decide +kernel

end Verif.Config
