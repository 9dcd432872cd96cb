import Verif.Config.Model

/-!
# Registered compilers: lemmas
-/

namespace Verif.Config
open Spec Model

/-! ## Paths -/

theorem split_simple : ∀ {f : List Char}, '/' ∉ f → split f = [f]
  | [], _ => rfl
  | c :: cs, h => by
    have h1 : c ≠ '/' := fun e => h (by simp [e])
    have h2 : '/' ∉ cs := fun e => h (by simp [e])
    simp [split, h1, split_simple h2]

theorem parts_simple {f : Name} (h : Simple f) : parts f = [f] := by
  obtain ⟨h1, h2, h3, _⟩ := h
  simp [parts, split_simple h2, h1, h3]

theorem dirpath_simple (env : Env) {f : Name} (h : Simple f) : dirpath env f = env.real ++ [f] := by
  have hp := parts_simple h
  obtain ⟨h1, h2, _, h4⟩ := h
  have : f.head? ≠ some '/' := by
    intro e
    cases f with
    | nil => cases e
    | cons c cs =>
      injection e with e
      exact h2 (by simp [e])
  simp [dirpath, norm, hp, this, h4]

theorem prefix_snoc {p q : Path} {f : Name} : p <+: q ++ [f] ↔ p <+: q ∨ p = q ++ [f] := by
  rw [List.prefix_concat_iff]
  exact or_comm

theorem mem_prefixes {d p : Path} : p ∈ prefixes d ↔ p <+: d := by
  constructor
  · intro h
    obtain ⟨k, _, rfl⟩ := List.mem_map.1 h
    exact List.take_prefix k d
  · intro h
    refine List.mem_map.2 ⟨p.length, ?_, ?_⟩
    · rw [List.mem_range]; have := h.length_le; omega
    · exact (List.prefix_iff_eq_take.1 h).symm

theorem not_prefix_other {home q : Path} {f g : Name} (h : g ≠ f) : ¬ home ++ [f] <+: home ++ g :: q := by
  intro hc
  obtain ⟨t, ht⟩ := hc
  rw [List.append_assoc] at ht
  have := List.append_cancel_left ht
  simp at this
  exact h this.1.symm

/-! ## Writing -/

theorem writes_append : ∀ (fs : Fs) (a b : List (Path × Ent)), writes fs (a ++ b) = writes (writes fs a) b
  | _, [], _ => rfl
  | fs, (p, e) :: a, b => writes_append (write fs p e) a b

/-- Nothing else is changed. -/
theorem writes_other : ∀ {ws : List (Path × Ent)} {fs : Fs} {p : Path}, (∀ w ∈ ws, w.1 ≠ p) → writes fs ws p = fs p
  | [], _, _, _ => rfl
  | (q, e) :: ws, fs, p, h => by
    rw [writes, writes_other (fun w hw => h w (by simp [hw])), write, if_neg (fun e' => h (q, e) (by simp) e'.symm)]

/-- Making folders. -/
theorem writes_dirs : ∀ {l : List Path} {fs : Fs} {p : Path},
    writes fs (l.map fun p => (p, Ent.dir)) p = if p ∈ l then some .dir else fs p
  | [], _, _ => by simp [writes]
  | q :: l, fs, p => by
    simp only [List.map_cons, writes]
    rw [writes_dirs]
    by_cases h : p ∈ l
    · simp [h]
    · by_cases e : p = q
      · simp [e, write]
      · simp [h, e, write]

/-! ## A new family -/

/-- When a family with a simple name is registered, and what is written. -/
theorem registerWrites_simple {env : Env} (he : env.shown = env.real) {fs : Fs} {f : Name} (hf : Simple f) (c : Cfg)
    (i : Inst) (hn : fs (env.real ++ [f]) = none) (hh : ∀ p, p <+: env.real → fs p = none ∨ fs p = some .dir) :
    registerWrites env fs f c i = some (((prefixes (env.real ++ [f])).filter fun p => fs p = none).map
      (fun p => (p, Ent.dir)) ++
      [(env.real ++ [f, cfgName], .file none), (env.real ++ [f, cfgName], .file (some c))] ++
      i.files.map fun q => (env.real ++ f :: stcName :: q.1, q.2)) := by
  have h2 : (prefixes (env.real ++ [f])).any (fun p => fs p ≠ none && fs p ≠ some .dir) = false := by
    rw [List.any_eq_false]
    intro p hp
    rw [mem_prefixes, prefix_snoc] at hp
    rcases hp with hp | rfl
    · rcases hh p hp with h | h <;> simp [h]
    · simp [hn]
  unfold registerWrites
  rw [dirpath_simple env hf, he]
  simp only [List.prefix_append, not_true, if_false, hn, ne_eq]
  rw [if_neg (by rw [h2]; decide)]
  simp

/-- A family that exists is not registered. -/
theorem registerWrites_exists {env : Env} {fs : Fs} {f : Name} (hf : Simple f) (c : Cfg) (i : Inst)
    (hn : fs (env.real ++ [f]) ≠ none) : registerWrites env fs f c i = none := by
  unfold registerWrites
  rw [dirpath_simple env hf]
  simp [hn]

theorem cfg_ne_stc : cfgName ≠ stcName := by decide

/-- The files below the folder of another family are not written. -/
theorem registerWrites_other {env : Env} {fs : Fs} {f g : Name} (hf : Simple f) {c : Cfg} {i : Inst}
    {ws : List (Path × Ent)} (h : registerWrites env fs f c i = some ws) (hg : g ≠ f) (q : Path) :
    ∀ w ∈ ws, w.1 ≠ env.real ++ g :: q := by
  unfold registerWrites at h
  rw [dirpath_simple env hf] at h
  dsimp only at h
  split at h
  · cases h
  · split at h
    · cases h
    · split at h
      · cases h
      · injection h with h
        subst h
        intro w hw e
        simp only [List.mem_append, List.mem_map, List.mem_filter, List.mem_cons, List.not_mem_nil, or_false] at hw
        rcases hw with (⟨p, ⟨hp, _⟩, rfl⟩ | rfl | rfl) | ⟨p, _, rfl⟩
        · rw [mem_prefixes, prefix_snoc] at hp
          dsimp only at e
          rcases hp with hp | hp
          · have := hp.length_le
            rw [e] at this
            simp at this
            omega
          · rw [e] at hp
            have := List.append_cancel_left hp
            injection this with this _
            exact hg this
        · simp at e
          exact hg e.1.symm
        · simp at e
          exact hg e.1.symm
        · simp at e
          exact hg e.1.symm

/-! ## The invariant -/

/-- The file system is as the specification says. -/
structure Agrees (home : Path) (fs : Fs) (r : Reg) : Prop where
  way : ∀ p, p <+: home → fs p = none ∨ fs p = some .dir
  absent : ∀ f, Simple f → r f = none → ∀ q, fs (home ++ f :: q) = none
  present : ∀ f, Simple f → ∀ c, r f = some c →
    fs (home ++ [f]) = some .dir ∧ fs (home ++ [f, cfgName]) = some (.file (some c))

theorem agrees_fresh {home : Path} {fs : Fs} (h : Fresh home fs) : Agrees home fs fun _ => none :=
  ⟨h.2, fun f _ _ q => h.1 (f :: q) (by simp), fun _ _ _ hc => by cases hc⟩

theorem rmtree_in {fs : Fs} {d p : Path} (h : d <+: p) : rmtree fs d p = none := by simp [rmtree, h]
theorem rmtree_out {fs : Fs} {d p : Path} (h : ¬ d <+: p) : rmtree fs d p = fs p := by simp [rmtree, h]

theorem longer_not_prefix {home p q : Path} (hq : q ≠ []) (hp : p <+: home) : ¬ home ++ q <+: p := by
  intro hc
  have h1 := hp.length_le
  have h2 := hc.length_le
  rw [List.length_append] at h2
  have : 0 < q.length := List.length_pos_iff.2 hq
  omega

theorem registered {env : Env} (he : env.shown = env.real) {fs : Fs} {r : Reg} (ha : Agrees env.real fs r) {f : Name}
    (hf : Simple f) (c : Cfg) {i : Inst} (hr : r f = none) (hi : i.ok = true) :
    (register env fs f c i).2 = true ∧ Agrees env.real (register env fs f c i).1 (put r f (some c)) := by
  have hn : fs (env.real ++ [f]) = none := ha.absent f hf hr []
  have hw := registerWrites_simple he hf c i hn ha.way
  have ho := fun g (hg : g ≠ f) q => registerWrites_other hf hw hg q
  unfold register
  rw [hw]
  have hd : dirpath env f ++ [stcName, buildName f] = env.real ++ [f, stcName, buildName f] := by
    rw [dirpath_simple env hf, List.append_assoc]; rfl
  simp only [hi, if_true, hd]
  refine ⟨trivial, ?_, ?_, ?_⟩
  · intro p hp
    rw [rmtree_out (longer_not_prefix (by simp) hp), writes_append, writes_append]
    rw [writes_other (ws := i.files.map _), writes_other (ws := [_, _]), writes_dirs]
    · split
      · exact .inr rfl
      · exact ha.way p hp
    · intro w hw' e
      have : w.1 = env.real ++ [f, cfgName] := by
        simp only [List.mem_cons, List.not_mem_nil, or_false] at hw'
        rcases hw' with rfl | rfl <;> rfl
      rw [this] at e
      have := hp.length_le
      rw [← e] at this
      simp at this
      omega
    · intro w hw' e
      obtain ⟨q, _, rfl⟩ := List.mem_map.1 hw'
      have := hp.length_le
      rw [← e] at this
      simp at this
      omega
  · intro g hg hrg q
    have hgf : g ≠ f := by
      rintro rfl
      simp [put] at hrg
    rw [rmtree_out, writes_other (ho g hgf q)]
    · exact ha.absent g hg (by simpa [put, hgf] using hrg) q
    · intro hc
      exact not_prefix_other (q := q) hgf ((List.prefix_append_right_inj env.real).2 (by simp) |>.trans hc)
  · intro g hg c' hc'
    by_cases hgf : g = f
    · subst hgf
      have : c' = c := by simp [put] at hc'; exact hc'.symm
      subst this
      constructor
      · rw [rmtree_out (by simp [List.prefix_append_right_inj]), writes_append, writes_append, writes_other, writes_other, writes_dirs,
          if_pos]
        · rw [List.mem_filter, mem_prefixes]
          exact ⟨List.prefix_refl _, by simp [hn]⟩
        · intro w hw' e
          simp only [List.mem_cons, List.not_mem_nil, or_false] at hw'
          rcases hw' with rfl | rfl <;> simp at e
        · intro w hw' e
          obtain ⟨q, _, rfl⟩ := List.mem_map.1 hw'
          simp at e
      · rw [rmtree_out (by simp [List.prefix_append_right_inj, cfg_ne_stc.symm]), writes_append, writes_other, writes_append]
        · simp [writes, write]
        · intro w hw' e
          obtain ⟨q, _, rfl⟩ := List.mem_map.1 hw'
          simp at e
          exact cfg_ne_stc e.1.symm
    · have hr' : r g = some c' := by simpa [put, hgf] using hc'
      obtain ⟨h1, h2⟩ := ha.present g hg c' hr'
      have out : ∀ q, ¬ env.real ++ [f, stcName, buildName f] <+: env.real ++ g :: q := by
        intro q hc
        exact not_prefix_other (q := q) hgf ((List.prefix_append_right_inj env.real).2 (by simp) |>.trans hc)
      rw [rmtree_out (out []), rmtree_out (out [cfgName]), writes_other (ho g hgf []),
        writes_other (ho g hgf [cfgName])]
      exact ⟨h1, h2⟩

theorem removed {env : Env} (he : env.shown = env.real) {fs : Fs} {r : Reg} (ha : Agrees env.real fs r) {f : Name}
    (hf : Simple f) {c : Cfg} (hr : r f = some c) :
    (remove env fs f).2 = true ∧ Agrees env.real (remove env fs f).1 (put r f none) := by
  obtain ⟨h1, _⟩ := ha.present f hf c hr
  have e : remove env fs f = (rmtree fs (env.real ++ [f]), true) := by
    simp [remove, dirpath_simple env hf, he, h1]
  rw [e]
  dsimp only
  refine ⟨rfl, ?_, ?_, ?_⟩
  · intro p hp
    rw [rmtree_out (longer_not_prefix (by simp) hp)]
    exact ha.way p hp
  · intro g hg hrg q
    by_cases hgf : g = f
    · subst hgf
      exact rmtree_in (by simp [List.prefix_append_right_inj])
    · rw [rmtree_out (not_prefix_other hgf)]
      exact ha.absent g hg (by simpa [put, hgf] using hrg) q
  · intro g hg c' hc'
    have hgf : g ≠ f := by
      rintro rfl
      simp [put] at hc'
    rw [rmtree_out (not_prefix_other hgf), rmtree_out (not_prefix_other hgf)]
    exact ha.present g hg c' (by simpa [put, hgf] using hc')

theorem step_agrees {env : Env} (he : env.shown = env.real) {fs : Fs} {r : Reg} (ha : Agrees env.real fs r) {cmd : Cmd}
    (hf : Simple cmd.family) (hi : cmd.Builds) :
    (Model.step env fs cmd).2 = (Spec.step r cmd).2 ∧ Agrees env.real (Model.step env fs cmd).1 (Spec.step r cmd).1 := by
  cases cmd with
  | register f c i =>
    cases hr : r f with
    | none =>
      obtain ⟨h1, h2⟩ := registered he ha hf c hr hi
      have hi : i.ok = true := hi
      simp only [Model.step, Spec.step, hr, hi, and_self, if_true]
      exact ⟨h1, h2⟩
    | some c' =>
      obtain ⟨h1, _⟩ := ha.present f hf c' hr
      have := registerWrites_exists (env := env) (fs := fs) (f := f) hf c i (by rw [h1]; simp)
      simp only [Model.step, Spec.step, register, this, hr]
      simp
      exact ha
  | remove f =>
    cases hr : r f with
    | none =>
      have h1 : fs (env.real ++ [f]) = none := ha.absent f hf hr []
      have hf : Simple f := hf
      have : remove env fs f = (fs, false) := by simp [remove, dirpath_simple env hf, he, h1]
      simp only [Model.step, Spec.step, this, hr, if_true]
      exact ⟨trivial, ha⟩
    | some c =>
      obtain ⟨h1, h2⟩ := removed he ha hf hr
      simp only [Model.step, Spec.step, hr]
      simp
      exact ⟨h1, h2⟩

theorem run_agrees {env : Env} (he : env.shown = env.real) : ∀ (cmds : List Cmd) {fs : Fs} {r : Reg},
    Agrees env.real fs r → (∀ c ∈ cmds, Simple c.family ∧ c.Builds) →
    (Model.run env fs cmds).2 = (Spec.run r cmds).2 ∧ Agrees env.real (Model.run env fs cmds).1 (Spec.run r cmds).1
  | [], _, _, ha, _ => ⟨rfl, ha⟩
  | c :: cs, fs, r, ha, h => by
    obtain ⟨h1, h2⟩ := step_agrees he ha (h c (by simp)).1 (h c (by simp)).2
    obtain ⟨h3, h4⟩ := run_agrees he cs h2 fun d hd => h d (by simp [hd])
    simp only [Model.run, Spec.run]
    exact ⟨by rw [h1, h3], h4⟩

/-- The names for which `use` looks at the folder. -/
theorem use_agrees {env : Env} {fs : Fs} {r : Reg} (ha : Agrees env.real fs r) (here : Name → Option Cfg) {f : Name}
    (hf : Simple f) (hv : f ∉ vendors) (hj : ¬ json <:+ f) : use env here fs f = (r f).map Info.cfg := by
  simp only [use, if_neg hj, if_neg hv, dirpath_simple env hf]
  cases hr : r f with
  | none => rw [ha.absent f hf hr []]; rfl
  | some c =>
    obtain ⟨h1, h2⟩ := ha.present f hf c hr
    rw [h1, List.append_assoc]
    simp only [List.singleton_append, h2]
    rfl

theorem takeWhile_all : ∀ {l : List Char}, '.' ∉ l → l.takeWhile (· != '.') = l
  | [], _ => rfl
  | c :: l, h => by
    have h1 : c ≠ '.' := fun e => h (by simp [e])
    have h2 : '.' ∉ l := fun e => h (by simp [e])
    simp [List.takeWhile_cons, h1, takeWhile_all h2]

theorem stem_eq {f : Name} (h : '.' ∉ f) : stem f = f := by
  have : f.reverse.takeWhile (· != '.') = f.reverse := takeWhile_all (by simpa using h)
  simp [stem, this]

end Verif.Config
