import Verif.Session.Model

namespace Verif.Session.Model
open Verif.Session.Spec

/-- Nothing but `sys.modules` changes, and there only names of `ns` are added. -/
structure Kept (ns : List Name) (s s' : Py) : Prop where
  path : s'.path = s.path
  disk : s'.disk = s.disk
  cwd : s'.cwd = s.cwd
  stage : s'.stage = s.stage
  locks : s'.locks = s.locks
  stay : ∀ n f, s.modules n = some f → s'.modules n = some f
  only : ∀ n, n ∉ ns → s'.modules n = s.modules n

theorem Kept.refl (ns : List Name) (s : Py) : Kept ns s s :=
  ⟨rfl, rfl, rfl, rfl, rfl, fun _ _ h => h, fun _ _ => rfl⟩

theorem Kept.trans {ns : List Name} {s s' s'' : Py} (h : Kept ns s s') (h' : Kept ns s' s'') :
    Kept ns s s'' :=
  ⟨h'.path.trans h.path, h'.disk.trans h.disk, h'.cwd.trans h.cwd, h'.stage.trans h.stage,
    h'.locks.trans h.locks, fun n f hn => h'.stay n f (h.stay n f hn),
    fun n hn => (h'.only n hn).trans (h.only n hn)⟩

theorem Kept.mono {ns ns' : List Name} {s s' : Py} (h : Kept ns s s') (hs : ∀ n ∈ ns, n ∈ ns') :
    Kept ns' s s' :=
  ⟨h.path, h.disk, h.cwd, h.stage, h.locks, h.stay, fun n hn => h.only n fun hm => hn (hs n hm)⟩

/-- What the import proper does. -/
def core (broken : Name → Bool) (s1 : Py) (n : Name) (deps : Mods) : Py × Bool :=
  match s1.modules n with
  | some _ => (s1, true)
  | none =>
    match locate s1.disk s1.path n with
    | none => (s1, false)
    | some f =>
      let r := importAll broken s1 deps
      if r.2 = false ∨ broken n = true then (r.1, false)
      else ({ r.1 with modules := fun m => if m = n then some f else r.1.modules m }, true)

theorem importDep_nil (broken : Name → Bool) (s : Py) (n : Name) (d : Dir) (deps : Mods)
    (h : s.path = []) : importDep broken s (.mk n d deps) = (s, false) := by
  unfold importDep; rw [h]

theorem importDep_cons (broken : Name → Bool) (s : Py) (n : Name) (d : Dir) (deps : Mods)
    (x : Dir) (rest : List Dir) (h : s.path = x :: rest) :
    importDep broken s (.mk n d deps) =
      ({ (core broken { s with path := d :: rest } n deps).1 with
          path := (core broken { s with path := d :: rest } n deps).1.path.set 0 x },
        (core broken { s with path := d :: rest } n deps).2) := by
  conv => lhs; unfold importDep
  rw [h]
  rfl

theorem core_kept (broken : Name → Bool) (s : Py) (n : Name) (deps : Mods) (ns : List Name)
    (h : Kept ns s (importAll broken s deps).1) :
    Kept (n :: ns) s (core broken s n deps).1 := by
  unfold core
  split
  · exact Kept.refl _ _
  · rename_i hn
    split
    · exact Kept.refl _ _
    · simp only
      split
      · exact h.mono fun m hm => List.mem_cons_of_mem _ hm
      · refine ⟨h.path, h.disk, h.cwd, h.stage, h.locks, ?_, ?_⟩
        · intro m f hm
          by_cases hmn : m = n
          · rw [hmn, hn] at hm; simp at hm
          · simp only [hmn, if_false]; exact h.stay m f hm
        · intro m hm
          have h1 : m ≠ n := fun e => hm (by rw [e]; exact List.mem_cons_self ..)
          simp only [h1, if_false]
          exact h.only m fun e => hm (List.mem_cons_of_mem _ e)

mutual
theorem importDep_kept (broken : Name → Bool) : ∀ (m : Mod) (s : Py),
    Kept (m.all.map Prod.fst) s (importDep broken s m).1
  | .mk n d deps, s => by
      cases hp : s.path with
      | nil => rw [importDep_nil broken s n d deps hp]; exact Kept.refl _ _
      | cons x rest =>
        rw [importDep_cons broken s n d deps x rest hp]
        have h := core_kept broken { s with path := d :: rest } n deps _
          (importAll_kept broken deps { s with path := d :: rest })
        simp only [Mod.all, List.map_cons]
        refine ⟨?_, h.disk, h.cwd, h.stage, h.locks, h.stay, h.only⟩
        simp only
        rw [h.path, hp]
        rfl
theorem importAll_kept (broken : Name → Bool) : ∀ (ms : Mods) (s : Py),
    Kept (ms.all.map Prod.fst) s (importAll broken s ms).1
  | .nil, s => by unfold importAll; exact Kept.refl _ _
  | .cons m ms, s => by
      unfold importAll
      have h := importDep_kept broken m s
      simp only [Mods.all, List.map_append]
      have h1 : Kept (m.all.map Prod.fst ++ ms.all.map Prod.fst) s (importDep broken s m).1 :=
        h.mono fun n hn => List.mem_append_left _ hn
      split
      · exact h1.trans ((importAll_kept broken ms _).mono fun n hn => List.mem_append_right _ hn)
      · exact h1
end

/-! ## Every module is found -/

theorem core_right (broken : Name → Bool) (home : Name → Dir) (s0 s : Py) (n : Name) (rest : List Dir)
    (deps : Mods) (hp : s.path = home n :: rest)
    (hk : ∀ m, s.modules m = s0.modules m ∨ s.modules m = own home s0 m) (hd : s.disk = s0.disk)
    (hf : (s0.disk (home n) n).best ≠ none) (hb : broken n = false)
    (ha : (importAll broken s deps).2 = true) :
    (core broken s n deps).2 = true ∧
      ((core broken s n deps).1.modules n = own home s0 n) := by
  unfold core
  cases hn : s.modules n with
  | some f =>
    refine ⟨rfl, ?_⟩
    simp only
    rcases hk n with h | h
    · rw [hn] at h; rw [hn]; unfold own; rw [← h]
    · exact h
  | none =>
    have h0 : s0.modules n = none := by
      rcases hk n with h | h
      · rw [← h]; exact hn
      · rw [hn] at h
        unfold own at h
        cases hx : s0.modules n with
        | none => rfl
        | some f => rw [hx] at h; simp at h
    cases hbest : (s0.disk (home n) n).best with
    | none => exact absurd hbest hf
    | some f =>
      have hl : locate s.disk s.path n = some f := by
        rw [hp, hd]; simp [locate, hbest]
      simp [hl, ha, hb, h0, own, hbest]

/-- The modules are those of the beginning, or the right ones. -/
def Sound (home : Name → Dir) (s0 s : Py) : Prop :=
  s.disk = s0.disk ∧ ∀ m, s.modules m = s0.modules m ∨ s.modules m = own home s0 m

mutual
theorem importDep_right (broken : Name → Bool) (home : Name → Dir) (s0 : Py) : ∀ (m : Mod) (s : Py),
    s.path ≠ [] → Sound home s0 s →
    (∀ p ∈ m.all, p.2 = home p.1 ∧ (s0.disk (home p.1) p.1).best ≠ none ∧ broken p.1 = false) →
    (importDep broken s m).2 = true ∧ Sound home s0 (importDep broken s m).1 ∧
      (importDep broken s m).1.modules m.name = own home s0 m.name
  | .mk n d deps, s, hp, hs, h => by
      cases hpath : s.path with
      | nil => exact absurd hpath hp
      | cons x rest =>
        have hn := h (n, d) (by simp [Mod.all])
        have hd : d = home n := hn.1
        rw [importDep_cons broken s n d deps x rest hpath]
        have hs1 : Sound home s0 { s with path := d :: rest } := hs
        have ih := importAll_right broken home s0 deps { s with path := d :: rest } (by simp) hs1
          (fun p hm => h p (by simp only [Mod.all]; exact List.mem_cons_of_mem _ hm))
        have hc := core_right broken home s0 { s with path := d :: rest } n rest deps
          (by simp only [hd]) hs1.2 hs1.1 hn.2.1 hn.2.2 ih.1
        refine ⟨hc.1, ⟨?_, ?_⟩, hc.2⟩
        · have hk := core_kept broken { s with path := d :: rest } n deps _
            (importAll_kept broken deps _)
          exact hk.disk.trans hs.1
        · intro m
          simp only
          by_cases hm : m = n
          · rw [hm]; exact Or.inr hc.2
          · have : (core broken { s with path := d :: rest } n deps).1.modules m = s.modules m ∨
                (core broken { s with path := d :: rest } n deps).1.modules m =
                  (importAll broken { s with path := d :: rest } deps).1.modules m := by
              unfold core
              split
              · exact Or.inl rfl
              · split
                · exact Or.inl rfl
                · simp only
                  split
                  · exact Or.inr rfl
                  · right; simp [hm]
            rcases this with h1 | h1
            · rw [h1]; exact hs.2 m
            · rw [h1]; exact ih.2.1.2 m
theorem importAll_right (broken : Name → Bool) (home : Name → Dir) (s0 : Py) : ∀ (ms : Mods) (s : Py),
    s.path ≠ [] → Sound home s0 s →
    (∀ p ∈ ms.all, p.2 = home p.1 ∧ (s0.disk (home p.1) p.1).best ≠ none ∧ broken p.1 = false) →
    (importAll broken s ms).2 = true ∧ Sound home s0 (importAll broken s ms).1 ∧
      ∀ n ∈ ms.direct, (importAll broken s ms).1.modules n = own home s0 n
  | .nil, s, _, hs, _ => by unfold importAll; exact ⟨rfl, hs, by simp [Mods.direct]⟩
  | .cons m ms, s, hp, hs, h => by
      unfold importAll
      have h1 := importDep_right broken home s0 m s hp hs
        (fun p hm => h p (by simp only [Mods.all]; exact List.mem_append_left _ hm))
      simp only [h1.1, if_true]
      have hk := importDep_kept broken m s
      have h2 := importAll_right broken home s0 ms _ (by rw [hk.path]; exact hp) h1.2.1
        (fun p hm => h p (by simp only [Mods.all]; exact List.mem_append_right _ hm))
      refine ⟨h2.1, h2.2.1, fun n hn => ?_⟩
      simp only [Mods.direct, List.mem_cons] at hn
      rcases hn with hn | hn
      · have hne : ∃ f, own home s0 m.name = some f := by
          cases m with
          | mk n' d deps =>
            have := (h (n', d) (by simp [Mods.all, Mod.all])).2.1
            unfold own
            simp only [Mod.name]
            cases s0.modules n' with
            | some f => exact ⟨f, rfl⟩
            | none =>
              simp only at this ⊢
              exact Option.ne_none_iff_exists'.mp this
        obtain ⟨f, hf⟩ := hne
        rw [hn, hf]
        exact (importAll_kept broken ms _).stay _ _ (by rw [h1.2.2, hf])
      · exact h2.2.2 n hn
end

/-! ## One call -/

theorem pick_some {c : Call} {s : Py} : ∀ {ts : List Nat} {n : Name}, pick c s ts = some n →
    n.tag ≠ none ∧ s.modules n = none ∧ c.taken n = false
  | [], n, h => by simp [pick] at h
  | t :: ts, n, h => by
      unfold pick at h
      split at h
      · exact pick_some h
      · split at h
        · exact pick_some h
        · rename_i h1
          simp only [Option.some.injEq] at h
          subst h
          simp only [Bool.or_eq_true, not_or, Bool.not_eq_true, Option.isSome_eq_false_iff,
            Option.isNone_iff_eq_none] at h1
          exact ⟨by simp, h1.2, h1.1⟩

/-- The process when the import begins. -/
def ready (c : Call) (n : Name) (s : Py) : Py :=
  { s with
    path := c.dir :: s.cwd :: s.path
    disk := put (put s.disk c.dir n fun e => { e with src := some c.code }) c.dir n fun e =>
      if c.compiled then { e with lib := some c.out } else { e with src := some c.out }
    stage := none
    locks := n :: s.locks }

/-- What can come out of a call. -/
theorem exec_cases (c : Call) (n : Name) (s : Py) (hn : s.modules n = none) :
    (∃ pre disk st, exec c n body ⟨{ s with locks := n :: s.locks }, none⟩ =
        (⟨{ s with path := pre ++ s.path, disk := disk, stage := st }, none⟩, false) ∧
      (pre = [] ∨ pre = [s.cwd]) ∧ (st = none ∨ st = s.stage) ∧
      (∀ d m, (d ≠ c.dir ∨ m ≠ n) → disk d m = s.disk d m)) ∨
    (∃ pre, (pre = [s.cwd] ∨ pre = [c.dir, s.cwd]) ∧
      exec c n body ⟨{ s with locks := n :: s.locks }, none⟩ =
        (⟨{ (importAll c.broken (ready c n s) c.deps).1 with
            path := pre ++ s.path, locks := s.locks }, none⟩, false)) ∨
    (∃ pre, (pre = [s.cwd] ∨ pre = [c.dir, s.cwd]) ∧
      exec c n body ⟨{ s with locks := n :: s.locks }, none⟩ =
        (⟨{ s with path := pre ++ s.path, disk := (ready c n s).disk, stage := none }, none⟩, false)) ∨
    (∃ f b, locate (ready c n s).disk (ready c n s).path n = some f ∧
      exec c n body ⟨{ s with locks := n :: s.locks }, none⟩ =
        (⟨{ (importAll c.broken (ready c n s) c.deps).1 with
            path := s.cwd :: s.path, locks := s.locks,
            modules := fun m => if m = n then some f else
              (importAll c.broken (ready c n s) c.deps).1.modules m }, some f⟩, b) ∧
      (b = true → c.compiled = true → ∃ x, f = .library x)) := by
  by_cases h1 : c.fails .write = true
  · left
    exact ⟨[], s.disk, s.stage, by simp [exec, body, step, h1], Or.inl rfl, Or.inr rfl,
      fun _ _ _ => rfl⟩
  simp only [Bool.not_eq_true] at h1
  have hput : ∀ f, ∀ d m, (d ≠ c.dir ∨ m ≠ n) → put s.disk c.dir n f d m = s.disk d m := by
    intro f d m h
    unfold put
    rw [if_neg]
    rintro ⟨e1, e2⟩
    rcases h with h | h
    · exact h e1
    · exact h e2
  by_cases h2 : c.fails .check = true
  · left
    exact ⟨[], put s.disk c.dir n fun e => { e with src := some c.code }, none, by simp [exec, body, executePyccel, step, h1, h2], Or.inl rfl, Or.inl rfl, hput _⟩
  simp only [Bool.not_eq_true] at h2
  by_cases h3 : c.fails .translate = true
  · left
    exact ⟨[s.cwd], put s.disk c.dir n fun e => { e with src := some c.code }, none, by simp [exec, body, executePyccel, step, h1, h2, h3], Or.inr rfl, Or.inl rfl, hput _⟩
  simp only [Bool.not_eq_true] at h3
  by_cases h4 : c.fails .build = true
  · left
    exact ⟨[s.cwd], put s.disk c.dir n fun e => { e with src := some c.code }, none, by simp [exec, body, executePyccel, step, h1, h2, h3, h4], Or.inr rfl, Or.inl rfl, hput _⟩
  simp only [Bool.not_eq_true] at h4
  right
  have hdisk : (ready c n s).disk = if c.compiled then
      put (put s.disk c.dir n fun e => { e with src := some c.code }) c.dir n fun e =>
        { e with lib := some c.out }
      else put (put s.disk c.dir n fun e => { e with src := some c.code }) c.dir n fun e =>
        { e with src := some c.out } := by
    unfold ready
    simp only
    split <;> rfl
  have e1 : exec c n body ⟨{ s with locks := n :: s.locks }, none⟩ =
      (let r := exec c n (.seq (.step .load) (.seq (.step .removeDir)
        (.seq (.step .verify) (.step .attribute)))) ⟨ready c n s, none⟩
       ((step c n .release r.1).1, r.2 && (step c n .release r.1).2)) := by
    have : exec c n executePyccel ⟨{ s with locks := n :: s.locks, disk := put s.disk c.dir n fun e => { e with src := some c.code } }, none⟩ =
        (⟨{ s with path := s.cwd :: s.path, disk := (ready c n s).disk, stage := some c.reached, locks := n :: s.locks }, none⟩, true) := by
      rw [hdisk]
      simp only [exec, executePyccel, step, h2, h3, h4]
      cases hc : c.compiled <;> simp
    simp only [body, exec, step, h1] at this ⊢
    simp only [Bool.false_eq_true, if_false, if_true, this]
    rfl
  rw [e1]
  have hmod : (ready c n s).modules n = none := hn
  have hk := importAll_kept c.broken c.deps (ready c n s)
  simp only [exec, step, hmod]
  cases hl : locate (ready c n s).disk (ready c n s).path n with
  | none =>
    right; left
    refine ⟨[c.dir, s.cwd], Or.inr rfl, ?_⟩
    simp [ready]
  | some f =>
    by_cases h5 : (importAll c.broken (ready c n s) c.deps).2 = false ∨ c.fails .load = true
    · left
      refine ⟨[c.dir, s.cwd], Or.inr rfl, ?_⟩
      simp only [h5, if_true, Bool.false_eq_true, if_false]
      have hp := hk.path
      have hlk := hk.locks
      simp only [ready] at hp hlk
      simp [ready, hp, hlk] at hp hlk ⊢
    · right; right
      simp only [h5, if_false, if_true]
      have hp := hk.path
      have hlk := hk.locks
      have hp' : (importAll c.broken (ready c n s) c.deps).1.path = c.dir :: s.cwd :: s.path := hp
      have hlk' : (importAll c.broken (ready c n s) c.deps).1.locks = n :: s.locks := hlk
      simp only [hp', List.mem_cons, true_or, if_true, List.erase_cons_head, hlk']
      by_cases hc : c.compiled = true
      · cases f with
        | library x =>
          exact ⟨.library x, !c.fails .attribute, rfl, by simp [hc], fun _ _ => ⟨x, rfl⟩⟩
        | source x =>
          exact ⟨.source x, false, rfl, by simp [hc], by simp⟩
      · simp only [Bool.not_eq_true] at hc
        exact ⟨f, !c.fails .attribute, rfl, by simp [hc], by simp [hc]⟩

end Verif.Session.Model
