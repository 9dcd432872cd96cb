import Verif.Memory.Lemmas2

/-! # Array variables: executions of translated code -/

namespace Verif.Memory.Lemmas
open Spec Model

theorem visitAssign_same {inLoop : Bool} {v : VSt} {l : Last} (hl : v.last = some l) (ho : ¬ Open l) :
    visitAssign inLoop v (.same false) = (none, v) := by
  unfold visitAssign
  rw [hl]
  simp only [needs, Bool.false_and, Bool.false_eq_true, ↓reduceIte]
  split
  · rename_i h; exact absurd (elif_open h) ho
  · rfl

/-- Either there is an allocation, or the shape of `x` is known. -/
theorem visitAssign_some {inLoop : Bool} {v : VSt} {l : Last} {r : Rhs} (hl : v.last = some l)
    (hs : Safe v) :
    (∃ st, (visitAssign inLoop v r).1 = some st ∧ st ≠ .unallocated) ∨
      ((visitAssign inLoop v r).1 = none ∧ needs v.static r = false ∧ (visitAssign inLoop v r).2 = v) := by
  unfold visitAssign
  rw [hl]
  simp only
  split
  · exact .inl ⟨_, rfl, statusAfter_ne (hs l hl)⟩
  · rename_i hn
    split
    · rename_i he
      exact .inl ⟨_, rfl, hs l hl (elif_open he)⟩
    · exact .inr ⟨rfl, by simpa using hn, rfl⟩

theorem pythons_one {P P' : St} {e : Event Ann} (h : pythons P (srcPath [e]) = some P') :
    python P (srcEvent e) = some P' := by
  rw [srcPath_cons, pythons] at h
  cases hq : python P (srcEvent e) with
  | none => rw [hq] at h; cases h
  | some Q => rw [hq] at h; exact h

/-! ## After `x` has been assigned -/

structure After (r : Bool) (v' : VSt) (P P' : St) (t : List (Event Ann)) (e : Exit Bool) (sh : Shape) :
    Prop where
  ok : TraceAll StepOk' P t
  mem : ∃ sh' d', P'.mem = some (sh', d') ∧ ∀ s, v'.static = some s → sh = s → sh' = s
  ret : ∀ b, e = .ret b → b = !r

theorem After.weaken {r : Bool} {v' v'' : VSt} {P P' : St} {t : List (Event Ann)} {e : Exit Bool}
    {sh : Shape} (h : After r v' P P' t e sh)
    (hs : ∀ s, v''.static = some s → v'.static = some s) : After r v'' P P' t e sh :=
  { ok := h.ok
    mem := by
      obtain ⟨sh', d', h1, h2⟩ := h.mem
      exact ⟨sh', d', h1, fun s h3 => h2 s (hs s h3)⟩
    ret := h.ret }

theorem After.nil {r : Bool} {v : VSt} {P : St} {e : Exit Bool} {sh : Shape} {d : Data}
    (hm : P.mem = some (sh, d)) (h : ∀ b, e ≠ .ret b) : After r v P P [] e sh :=
  { ok := trivial
    mem := ⟨sh, d, hm, fun _ _ h => h⟩
    ret := fun b hb => absurd hb (h b) }

theorem after_atom {r inIf inLoop : Bool} {v : VSt} {a : Atom} {s : Shape} {n : Nat} {P P' : St}
    {sh : Shape} {d : Data} (hp : Plain inIf inLoop (.atom a)) (hl : v.last.isSome)
    (hw : Outside inIf v) (hs : Safe v) (hm : P.mem = some (sh, d))
    (hst : inLoop = false → ∀ s, v.static = some s → sh = s)
    (h : pythons P (srcPath [⟨(visitAtom inLoop v a).1, s, n⟩]) = some P') :
    After r (visitAtom inLoop v a).2 P P' [⟨(visitAtom inLoop v a).1, s, n⟩] .normal sh := by
  have hp' := pythons_one h
  have hne : P.mem ≠ none := by rw [hm]; simp
  obtain ⟨l, hl'⟩ := Option.isSome_iff_exists.1 hl
  refine ⟨⟨⟨?_, hne⟩, fun _ _ => trivial⟩, ?_, by intro b hb; cases hb⟩
  · -- the step fits
    cases a with
    | assign x =>
      simp only [visitAtom, StepOk]
      cases x with
      | same fn =>
        obtain ⟨rfl, rfl⟩ := hp
        rw [visitAssign_same hl' (hw rfl l hl')]
        exact ⟨sh, d, hm, rfl⟩
      | lit s' self =>
        obtain ⟨rfl, rfl⟩ := hp
        rcases visitAssign_some (inLoop := false) (r := .lit s' false) hl' hs with
          ⟨st, h1, h2⟩ | ⟨h1, h2, _⟩
        · rw [h1]; exact ⟨rfl, fun h => absurd h h2⟩
        · rw [h1]
          refine ⟨sh, d, hm, ?_⟩
          have h3 : v.static = some s' := by simpa [needs] using h2
          rw [hst rfl s' h3]; rfl
      | dyn self =>
        have hp : self = false := hp
        subst hp
        rcases visitAssign_some (inLoop := inLoop) (r := .dyn false) hl' hs with
          ⟨st, h1, h2⟩ | ⟨_, h2, _⟩
        · rw [h1]; exact ⟨rfl, fun h => absurd h h2⟩
        · cases h2
    | use => trivial
    | len =>
      have hp : inLoop = false := hp
      simp only [visitAtom, StepOk]
      cases hs' : v.static with
      | none => trivial
      | some s' => simp only [hm, Option.map_some, Option.some.injEq]; exact hst hp s' hs'
    | del => cases hp
  · -- the state afterwards
    simp only [srcEvent, python, hm] at hp'
    cases a with
    | assign x =>
      simp only [visitAtom, Ann.src] at hp' ⊢
      cases x with
      | same fn =>
        obtain ⟨rfl, rfl⟩ := hp
        simp only [Option.some.injEq] at hp'
        subst hp'
        exact ⟨sh, _, rfl, fun _ _ h => h⟩
      | lit s' self =>
        obtain ⟨rfl, rfl⟩ := hp
        simp only [Option.some.injEq] at hp'
        subst hp'
        refine ⟨s', _, rfl, fun s hs' hsh => ?_⟩
        unfold visitAssign at hs'
        rw [hl'] at hs'
        simp only at hs'
        split at hs'
        · cases hs'
        · rename_i hn
          have h3 : v.static = some s' := by simpa [needs] using hn
          split at hs' <;> (simp only [h3, Option.some.injEq] at hs'; exact hs')
      | dyn self =>
        have hp : self = false := hp
        subst hp
        simp only [Option.some.injEq] at hp'
        subst hp'
        refine ⟨s, _, rfl, fun s hs' hsh => ?_⟩
        unfold visitAssign at hs'
        rw [hl'] at hs'
        simp only [needs, ↓reduceIte, reduceCtorEq] at hs'
    | use =>
      simp only [visitAtom, Ann.src, Option.some.injEq] at hp'
      subst hp'
      exact ⟨sh, d, hm, fun _ _ h => h⟩
    | len =>
      simp only [visitAtom, Ann.src, Option.some.injEq] at hp'
      subst hp'
      exact ⟨sh, d, rfl, fun _ _ h => h⟩
    | del => cases hp

theorem section_static {r l : Bool} {v : VSt} {p : Stmt Atom Unit} :
    Stat true l (assigns p) v (wrapLast .section v (visit r l v p).2) :=
  (visit_stat r true l v p).section.resolve_right (by simp)

mutual
theorem after {r inIf inLoop : Bool} {v : VSt} (p : Stmt Atom Unit) {t : List (Event Ann)}
    {e : Exit Bool} {P P' : St} {sh : Shape} {d : Data} (hp : Plain inIf inLoop p)
    (hl : v.last.isSome) (hw : Outside inIf v) (hs : Safe v) (hm : P.mem = some (sh, d))
    (hst : inLoop = false → ∀ s, v.static = some s → sh = s)
    (h : Path (visit r inLoop v p).1 t e) (hr : pythons P (srcPath t) = some P') :
    After r (visit r inLoop v p).2 P P' t e sh := by
  match p with
  | .skip =>
    simp only [visit] at h ⊢
    cases h; cases hr
    exact .nil hm (by simp)
  | .atom a =>
    simp only [visit] at h ⊢
    cases h
    exact after_atom hp hl hw hs hm hst hr
  | .seq p q =>
    simp only [visit] at h ⊢
    have sp := visit_stat r inIf inLoop v p
    have sq := visit_stat r inIf inLoop (visit r inLoop v p).2 q
    rcases path_seq h with ⟨u, w, rfl, h1, h2⟩ | ⟨h1, he⟩
    · obtain ⟨Q, hq, hq'⟩ := pythons_split hr
      have i1 := after p hp.1 hl hw hs hm hst h1 hq
      obtain ⟨sh1, d1, hm1, hst1⟩ := i1.mem
      have i2 := after q hp.2 (sp.keep hl) (sp.outside hw) (sp.safe hs (.inr hl)).1 hm1
        (fun hi s h3 => hst1 s h3 (hst hi s (sp.static hl s h3))) h2 hq'
      obtain ⟨sh2, d2, hm2, hst2⟩ := i2.mem
      exact ⟨traceAll_append i1.ok hq i2.ok, ⟨sh2, d2, hm2, fun s h3 h4 =>
        hst2 s h3 (hst1 s (sq.static (sp.keep hl) s h3) h4)⟩, i2.ret⟩
    · exact (after p hp.1 hl hw hs hm hst h1 hr).weaken (sq.static (sp.keep hl))
  | .ite c =>
    simp only [visit] at h ⊢
    refine (afterC c hp hl hs hm hst (path_ite h) hr).weaken ?_
    intro s h3
    split at h3
    · cases h3
    · rw [wrapLast_static] at h3; exact h3
  | .loop b =>
    simp only [visit] at h ⊢
    have hb : ∀ {t : List (Event Ann)} {e : Exit Bool} {P P' : St} {sh : Shape} {d : Data},
        P.mem = some (sh, d) → Path (visit r true v b).1 t e → pythons P (srcPath t) = some P' →
        After r (visit r true v b).2 P P' t e sh :=
      fun hm h hr => after b hp hl hw hs hm (by intro h; cases h) h hr
    refine After.weaken (v' := (visit r true v b).2) ?_ (by simp only [wrapLast_static]; exact fun _ h => h)
    refine path_loop (b := (visit r true v b).1) (M := fun t e => ∀ (P P' : St) (sh : Shape) (d : Data),
      P.mem = some (sh, d) → pythons P (srcPath t) = some P' →
      After r (visit r true v b).2 P P' t e sh) ?_ ?_ ?_ ?_ h P P' sh d hm hr
    · intro P P' sh d hm hr
      cases hr
      exact .nil hm (by simp)
    · intro t u e f h1 he ih P P' sh d hm hr
      obtain ⟨Q, hq, hq'⟩ := pythons_split hr
      have i1 := hb hm h1 hq
      obtain ⟨sh1, d1, hm1, hst1⟩ := i1.mem
      have i2 := ih Q P' sh1 d1 hm1 hq'
      obtain ⟨sh2, d2, hm2, hst2⟩ := i2.mem
      exact ⟨traceAll_append i1.ok hq i2.ok, ⟨sh2, d2, hm2, fun s h3 h4 =>
        hst2 s h3 (hst1 s h3 h4)⟩, i2.ret⟩
    · intro t h1 P P' sh d hm hr
      have i := hb hm h1 hr
      exact ⟨i.ok, i.mem, by intro b hb; cases hb⟩
    · intro t x h1 P P' sh d hm hr
      exact hb hm h1 hr
  | .brk =>
    simp only [visit] at h ⊢
    cases h; cases hr
    exact .nil hm (by simp)
  | .cont =>
    simp only [visit] at h ⊢
    cases h; cases hr
    exact .nil hm (by simp)
  | .ret _ =>
    simp only [visit] at h ⊢
    cases h; cases hr
    exact ⟨trivial, ⟨sh, d, hm, fun _ _ h => h⟩, by
      intro b hb
      simp only [Exit.ret.injEq] at hb
      rw [← hb, hl, Bool.true_and]⟩
  termination_by structural p
theorem afterC {r inLoop : Bool} {v : VSt} (c : Chain Atom Unit) {t : List (Event Ann)}
    {e : Exit Bool} {P P' : St} {sh : Shape} {d : Data} (hp : PlainC inLoop c)
    (hl : v.last.isSome) (hs : Safe v) (hm : P.mem = some (sh, d))
    (hst : inLoop = false → ∀ s, v.static = some s → sh = s)
    (h : CPath (visitChain r inLoop v c).1 t e) (hr : pythons P (srcPath t) = some P') :
    After r (visitChain r inLoop v c).2 P P' t e sh := by
  match c with
  | .nil =>
    simp only [visitChain] at h ⊢
    cases h; cases hr
    exact .nil hm (by simp)
  | .els p =>
    simp only [visitChain] at h ⊢
    cases h with
    | els h =>
      refine (after (inIf := true) p hp hl (by intro h; cases h) hs hm hst h hr).weaken ?_
      rw [wrapLast_static]; exact fun _ h => h
  | .cons p c =>
    simp only [visitChain] at h ⊢
    have sp := @section_static r inLoop v p
    have sc := visitChain_stat r inLoop (wrapLast .section v (visit r inLoop v p).2) c
    rcases cpath_cons h with h1 | h1
    · refine (after (inIf := true) p hp.1 hl (by intro h; cases h) hs hm hst h1 hr).weaken ?_
      intro s h3
      have h4 := sc.static (sp.keep hl) s h3
      rw [wrapLast_static] at h4; exact h4
    · exact afterC c hp.2 (sp.keep hl) (sp.safe hs (.inr hl)).1 hm
        (fun hi s h3 => hst hi s (sp.static hl s h3)) h1 hr
  termination_by structural c
end

/-! ## Code without literal shapes -/

mutual
theorem dynamic_static {r inIf l seen : Bool} {v : VSt} (p : Stmt Atom Unit)
    (hp : Dynamic inIf l seen p) (hv : v.static = none) : (visit r l v p).2.static = none := by
  match p with
  | .skip => simpa only [visit] using hv
  | .atom (.assign (.lit _ _)) => cases hp
  | .atom (.assign (.dyn x)) =>
    simp only [visit, visitAtom, visitAssign]
    split
    · rfl
    · split
      · rfl
      · split <;> exact hv
  | .atom (.assign (.same x)) =>
    simp only [visit, visitAtom, visitAssign]
    split
    · rfl
    · split
      · rfl
      · split <;> exact hv
  | .atom .use => simpa only [visit, visitAtom] using hv
  | .atom .len => simpa only [visit, visitAtom] using hv
  | .atom .del => simpa only [visit, visitAtom] using hv
  | .seq p q =>
    simp only [visit]
    exact dynamic_static q hp.2 (dynamic_static p hp.1 hv)
  | .ite c =>
    simp only [visit]
    split
    · rfl
    · rw [wrapLast_static]; exact dynamicC_static c hp hv
  | .loop b =>
    simp only [visit]
    rw [wrapLast_static]; exact dynamic_static b hp.2 hv
  | .brk => simpa only [visit] using hv
  | .cont => simpa only [visit] using hv
  | .ret _ => simpa only [visit] using hv
  termination_by structural p
theorem dynamicC_static {r l seen : Bool} {v : VSt} (c : Chain Atom Unit)
    (hp : DynamicC l seen c) (hv : v.static = none) : (visitChain r l v c).2.static = none := by
  match c with
  | .nil => simpa only [visitChain] using hv
  | .els p =>
    simp only [visitChain]
    rw [wrapLast_static]; exact dynamic_static p hp hv
  | .cons p c =>
    simp only [visitChain]
    exact dynamicC_static c hp.2 (by rw [wrapLast_static]; exact dynamic_static p hp.1 hv)
  termination_by structural c
end

mutual
/-- Inside of `if`, an assignment comes with an allocation. -/
theorem dynamic_count {r l seen : Bool} {v : VSt} (p : Stmt Atom Unit)
    (hp : Dynamic true l seen p) (ha : assigns p = true) : v.count < (visit r l v p).2.count := by
  match p with
  | .skip => cases ha
  | .atom (.assign (.lit _ _)) => cases hp
  | .atom (.assign (.dyn x)) =>
    simp only [visit, visitAtom, visitAssign]
    split
    · exact Nat.lt_succ_self _
    · exact Nat.lt_succ_self _
  | .atom (.assign (.same x)) => cases hp.2.1
  | .atom .use => cases ha
  | .atom .len => cases ha
  | .atom .del => cases ha
  | .seq p q =>
    simp only [visit]
    simp only [assigns, Bool.or_eq_true] at ha
    rcases ha with ha | ha
    · exact Nat.lt_of_lt_of_le (dynamic_count p hp.1 ha) (visit_stat r true l _ q).le
    · exact Nat.lt_of_le_of_lt (visit_stat r true l v p).le (dynamic_count q hp.2 ha)
  | .ite c =>
    simp only [visit]
    have := dynamicC_count (r := r) (v := v) c hp ha
    split <;> (simp only [wrapLast_count]; exact this)
  | .loop b =>
    simp only [visit, wrapLast_count]
    exact dynamic_count b hp.2 ha
  | .brk => cases ha
  | .cont => cases ha
  | .ret _ => cases ha
  termination_by structural p
theorem dynamicC_count {r l seen : Bool} {v : VSt} (c : Chain Atom Unit)
    (hp : DynamicC l seen c) (ha : assignsC c = true) : v.count < (visitChain r l v c).2.count := by
  match c with
  | .nil => cases ha
  | .els p =>
    simp only [visitChain, wrapLast_count]
    exact dynamic_count p hp ha
  | .cons p c =>
    simp only [visitChain]
    simp only [assignsC, Bool.or_eq_true] at ha
    rcases ha with ha | ha
    · refine Nat.lt_of_lt_of_le (dynamic_count (r := r) (v := v) p hp.1 ha) ?_
      have := (visitChain_stat r l (wrapLast .section v (visit r l v p).2) c).le
      rw [wrapLast_count] at this; exact this
    · refine Nat.lt_of_le_of_lt (visit_stat r true l v p).le ?_
      have := dynamicC_count (r := r) (v := wrapLast .section v (visit r l v p).2) c hp.2 ha
      rw [wrapLast_count] at this; exact this
  termination_by structural c
end

/-- What holds of an execution of code without literal shapes. -/
structure Dyn (r asg : Bool) (P P' : St) (t : List (Event Ann)) (e : Exit Bool) : Prop where
  ok : TraceAll StepOk P t
  mem : P'.mem.isSome → P.mem.isSome ∨ asg = true
  ret : ∀ b, e = .ret b → P'.mem.isSome → b = !r

/-- When code is entered. -/
structure Enter (inLoop asg seen : Bool) (v : VSt) (P : St) : Prop where
  static : v.static = none
  seen : seen = true → v.last.isSome
  once : inLoop = false → P.mem.isSome → v.last.isSome ∧ Safe v
  loop : inLoop = true → asg = true → Safe v

theorem Dyn.nil {r : Bool} {P : St} {e : Exit Bool} (h : ∀ b, e ≠ .ret b) : Dyn r false P P [] e :=
  ⟨trivial, fun h => .inl h, fun b hb => absurd hb (h b)⟩

theorem dyn_atom {r inIf inLoop seen : Bool} {v : VSt} {a : Atom} {s : Shape} {n : Nat} {P P' : St}
    (hp : Dynamic inIf inLoop seen (.atom a)) (hw : Outside inIf v)
    (he : Enter inLoop (assigns (.atom a)) seen v P)
    (h : pythons P (srcPath [⟨(visitAtom inLoop v a).1, s, n⟩]) = some P') :
    Dyn r (assigns (.atom a)) P P' [⟨(visitAtom inLoop v a).1, s, n⟩] .normal := by
  have hp' := pythons_one h
  refine ⟨⟨?_, fun _ _ => trivial⟩, ?_, by intro b hb; cases hb⟩
  · cases a with
    | assign x =>
      simp only [visitAtom, StepOk]
      cases x with
      | lit s' self => cases hp
      | same fn =>
        obtain ⟨rfl, rfl, rfl⟩ := hp
        obtain ⟨l, hl⟩ := Option.isSome_iff_exists.1 (he.seen rfl)
        rw [visitAssign_same hl (hw rfl l hl)]
        cases hm : P.mem with
        | none => simp only [srcEvent, visitAtom, Ann.src, python, hm] at hp'; cases hp'
        | some x => exact ⟨x.1, x.2, rfl, rfl⟩
      | dyn self =>
        have hp : self = false := hp
        subst hp
        have h1 : ∃ st, (visitAssign inLoop v (.dyn false)).1 = some st ∧
            (st = .unallocated → P.mem = none) := by
          cases hm : P.mem with
          | none =>
            unfold visitAssign
            split
            · exact ⟨_, rfl, fun _ => rfl⟩
            · exact ⟨_, rfl, fun _ => rfl⟩
          | some x =>
            cases hl : v.last with
            | none =>
              cases inLoop with
              | false =>
                have := (he.once rfl (by rw [hm]; rfl)).1
                rw [hl] at this; cases this
              | true =>
                refine ⟨.unknown, ?_, by intro h; cases h⟩
                unfold visitAssign
                rw [hl]; rfl
            | some l =>
              have hs : Safe v := by
                cases inLoop with
                | false => exact (he.once rfl (by rw [hm]; rfl)).2
                | true => exact he.loop rfl rfl
              rcases visitAssign_some (inLoop := inLoop) (r := .dyn false) hl hs with
                ⟨st, h1, h2⟩ | ⟨_, h2, _⟩
              · exact ⟨st, h1, fun h => absurd h h2⟩
              · cases h2
        obtain ⟨st, h2, h3⟩ := h1
        rw [h2]
        exact ⟨rfl, h3⟩
    | use => trivial
    | len => simp only [visitAtom, StepOk, he.static]
    | del => trivial
  · intro h1
    cases a with
    | assign x => exact .inr rfl
    | _ =>
      left
      cases hm : P.mem with
      | none => simp only [srcEvent, visitAtom, Ann.src, python, hm] at hp'; cases hp'
      | some x => rfl

mutual
theorem dyn {r inIf inLoop seen : Bool} {v : VSt} (p : Stmt Atom Unit) {t : List (Event Ann)}
    {e : Exit Bool} {P P' : St} (hp : Dynamic inIf inLoop seen p) (hw : Outside inIf v)
    (he : Enter inLoop (assigns p) seen v P)
    (h : Path (visit r inLoop v p).1 t e) (hr : pythons P (srcPath t) = some P') :
    Dyn r (assigns p) P P' t e ∧
      (inLoop = false → P'.mem.isSome →
        (visit r inLoop v p).2.last.isSome ∧ Safe (visit r inLoop v p).2) := by
  match p with
  | .skip =>
    simp only [visit] at h ⊢
    cases h; cases hr
    exact ⟨.nil (by simp), he.once⟩
  | .atom a =>
    have sa := visit_stat r inIf inLoop v (.atom a)
    simp only [visit] at h sa ⊢
    cases h
    have i := dyn_atom (r := r) hp hw he hr
    refine ⟨i, fun hi hm => ?_⟩
    subst hi
    by_cases hl : v.last.isSome
    · refine ⟨sa.keep hl, ?_⟩
      rcases i.mem hm with h1 | h1
      · exact (sa.safe (he.once rfl h1).2 (.inr hl)).1
      · cases a with
        | assign x =>
          cases x with
          | lit s self => cases hp
          | dyn self =>
            intro l h2 h3
            simp only [visitAtom, visitAssign] at h2
            obtain ⟨l0, hl0⟩ := Option.isSome_iff_exists.1 hl
            rw [hl0] at h2
            simp only [needs, ↓reduceIte, Option.some.injEq] at h2
            subst h2
            exact absurd h3 not_open_nil
          | same fn =>
            obtain ⟨rfl, rfl, rfl⟩ := hp
            intro l h2 h3
            obtain ⟨l0, hl0⟩ := Option.isSome_iff_exists.1 hl
            simp only [visitAtom, visitAssign_same hl0 (hw rfl l0 hl0)] at h2
            exact absurd h3 (hw rfl l h2)
        | _ => cases h1
    · rcases i.mem hm with h1 | h1
      · exact absurd (he.once rfl h1).1 hl
      · refine ⟨sa.found h1, fun l h2 h3 => ?_⟩
        have hl' : v.last = none := by simpa using hl
        cases a with
        | assign x =>
          simp only [visitAtom, visitAssign, hl', Option.some.injEq] at h2
          subst h2
          exact absurd h3 not_open_nil
        | _ => cases h1
  | .seq p q =>
    simp only [visit] at h ⊢
    have sp := visit_stat r inIf inLoop v p
    have sq := visit_stat r inIf inLoop (visit r inLoop v p).2 q
    have ep : Enter inLoop (assigns p) seen v P :=
      ⟨he.static, he.seen, he.once, fun hi ha => he.loop hi (by simp [assigns, ha])⟩
    rcases path_seq h with ⟨u, w, rfl, h1, h2⟩ | ⟨h1, hx⟩
    · obtain ⟨Q, hq, hq'⟩ := pythons_split hr
      have i1 := dyn p hp.1 hw ep h1 hq
      have eq : Enter inLoop (assigns q) (seen || assigns p) (visit r inLoop v p).2 Q :=
        { static := dynamic_static p hp.1 he.static
          seen := by
            intro hs
            simp only [Bool.or_eq_true] at hs
            exact hs.elim (fun h => sp.keep (he.seen h)) sp.found
          once := i1.2
          loop := fun hi ha => (sp.safe (he.loop hi (by simp [assigns, ha])) (.inl hi)).1 }
      have i2 := dyn q hp.2 (sp.outside hw) eq h2 hq'
      refine ⟨⟨traceAll_append i1.1.ok hq i2.1.ok, fun hm => ?_, i2.1.ret⟩, i2.2⟩
      rcases i2.1.mem hm with h3 | h3
      · rcases i1.1.mem h3 with h4 | h4
        · exact .inl h4
        · exact .inr (by simp [assigns, h4])
      · exact .inr (by simp [assigns, h3])
    · have i1 := dyn p hp.1 hw ep h1 hr
      refine ⟨⟨i1.1.ok, fun hm => ?_, i1.1.ret⟩, fun hi hm => ?_⟩
      · exact (i1.1.mem hm).imp id (fun h => by simp [assigns, h])
      · have h3 := i1.2 hi hm
        exact ⟨sq.keep h3.1, (sq.safe h3.2 (.inr h3.1)).1⟩
  | .ite c =>
    have sc := visitChain_stat r inLoop v c
    simp only [visit] at h ⊢
    have i := dynC c hp he (path_ite h) hr
    refine ⟨i, fun hi hm => ?_⟩
    have h0 : ∀ (b : Bool) (w : VSt),
        ((if b then { w with static := none } else w : VSt)).last = w.last := by
      intro b w; cases b <;> rfl
    have h1 : (wrapLast .ifNode v (visitChain r inLoop v c).2).last.isSome ∧
        Safe (wrapLast .ifNode v (visitChain r inLoop v c).2) := by
      by_cases hc : (visitChain r inLoop v c).2.count = v.count
      · have ha : assignsC c = false := by
          cases ha : assignsC c with
          | false => rfl
          | true =>
            have := dynamicC_count (r := r) (v := v) c hp ha
            omega
        have hP : P.mem.isSome := by
          rcases i.mem hm with h | h
          · exact h
          · have h : assignsC c = true := h
            rw [ha] at h; cases h
        have h2 := he.once hi hP
        rw [wrapLast_same hc]
        exact ⟨sc.keep h2.1, (sc.safe h2.2 (.inr h2.1)).1⟩
      · refine ⟨by rw [wrapLast_isSome]; exact sc.grow hc, ?_⟩
        intro l hl ho
        rw [wrapLast_last hc] at hl
        cases hv : (visitChain r inLoop v c).2.last with
        | none => rw [hv] at hl; cases hl
        | some l' =>
          rw [hv] at hl
          simp only [Option.map_some, Option.some.injEq] at hl
          subst hl
          exact absurd ho not_open_if
    refine ⟨by rw [h0]; exact h1.1, ?_⟩
    intro l hl
    rw [h0] at hl
    exact h1.2 l hl
  | .loop b =>
    have sb := visit_stat r inIf true v b
    have sl : Stat inIf inLoop (assigns b) v (wrapLast .loop v (visit r true v b).2) := sb.loop
    simp only [visit] at h ⊢
    have hsafe : assigns b = true → Safe v := by
      intro ha
      cases hi : inLoop with
      | true => exact he.loop hi ha
      | false =>
        cases hf : inIf with
        | true => rw [hp.1 hf hi] at ha; cases ha
        | false => exact fun l hl ho => absurd ho (hw hf l hl)
    have hb : ∀ {t : List (Event Ann)} {e : Exit Bool} {P P' : St},
        Path (visit r true v b).1 t e → pythons P (srcPath t) = some P' →
        Dyn r (assigns b) P P' t e :=
      fun h hr => (dyn b hp.2 hw ⟨he.static, he.seen, by (intro h; cases h), fun _ => hsafe⟩ h hr).1
    have key : Dyn r (assigns b) P P' t e := by
      refine path_loop (b := (visit r true v b).1) (M := fun t e => ∀ (P P' : St),
        pythons P (srcPath t) = some P' → Dyn r (assigns b) P P' t e) ?_ ?_ ?_ ?_ h P P' hr
      · intro P P' hr
        cases hr
        exact ⟨trivial, fun h => .inl h, by intro b hb; cases hb⟩
      · intro t u e f h1 hx ih P P' hr
        obtain ⟨Q, hq, hq'⟩ := pythons_split hr
        have i1 := hb h1 hq
        have i2 := ih Q P' hq'
        exact ⟨traceAll_append i1.ok hq i2.ok, fun hm => (i2.mem hm).elim i1.mem .inr, i2.ret⟩
      · intro t h1 P P' hr
        have i := hb h1 hr
        exact ⟨i.ok, i.mem, by intro b hb; cases hb⟩
      · intro t x h1 P P' hr
        exact hb h1 hr
    refine ⟨key, fun hi hm => ?_⟩
    have h1 : (wrapLast .loop v (visit r true v b).2).last.isSome := by
      rcases key.mem hm with h | h
      · exact sl.keep (he.once hi h).1
      · exact sl.found h
    refine ⟨h1, ?_⟩
    by_cases ha : assigns b = true
    · have h2 : Stat inIf true (assigns b) v (wrapLast .loop v (visit r true v b).2) := sb.loop
      exact (h2.safe (hsafe ha) (.inl rfl)).1
    · have hP : P.mem.isSome := (key.mem hm).resolve_right ha
      have h2 := he.once hi hP
      exact (sl.safe h2.2 (.inr h2.1)).1
  | .brk =>
    simp only [visit] at h ⊢
    cases h; cases hr
    exact ⟨.nil (by simp), he.once⟩
  | .cont =>
    simp only [visit] at h ⊢
    cases h; cases hr
    exact ⟨.nil (by simp), he.once⟩
  | .ret _ =>
    simp only [visit] at h ⊢
    cases h; cases hr
    refine ⟨⟨trivial, fun h => .inl h, ?_⟩, he.once⟩
    intro b hb hm
    simp only [Exit.ret.injEq] at hb
    have hl : v.last.isSome = true := by
      cases hi : inLoop with
      | true => exact he.seen (hp hi)
      | false => exact (he.once hi hm).1
    rw [← hb, hl, Bool.true_and]
  termination_by structural p
theorem dynC {r inLoop seen : Bool} {v : VSt} (c : Chain Atom Unit) {t : List (Event Ann)}
    {e : Exit Bool} {P P' : St} (hp : DynamicC inLoop seen c)
    (he : Enter inLoop (assignsC c) seen v P)
    (h : CPath (visitChain r inLoop v c).1 t e) (hr : pythons P (srcPath t) = some P') :
    Dyn r (assignsC c) P P' t e := by
  match c with
  | .nil =>
    simp only [visitChain] at h
    cases h; cases hr
    exact .nil (by simp)
  | .els p =>
    simp only [visitChain] at h
    cases h with
    | els h => exact (dyn (inIf := true) p hp (by intro h; cases h) he h hr).1
  | .cons p c =>
    simp only [visitChain] at h
    have sp := @section_static r inLoop v p
    rcases cpath_cons h with h1 | h1
    · have i := (dyn (inIf := true) p hp.1 (by intro h; cases h)
        ⟨he.static, he.seen, he.once, fun hi ha => he.loop hi (by simp [assignsC, ha])⟩ h1 hr).1
      exact ⟨i.ok, fun hm => (i.mem hm).imp id (fun h => by simp [assignsC, h]), i.ret⟩
    · have i := dynC c hp.2
        { static := by rw [wrapLast_static]; exact dynamic_static p hp.1 he.static
          seen := by
            intro hs
            simp only [Bool.or_eq_true] at hs
            exact hs.elim (fun h => sp.keep (he.seen h)) sp.found
          once := fun hi hm => ⟨sp.keep (he.once hi hm).1,
            (sp.safe (he.once hi hm).2 (.inr (he.once hi hm).1)).1⟩
          loop := fun hi ha => (sp.safe (he.loop hi (by simp [assignsC, ha])) (.inl hi)).1 } h1 hr
      exact ⟨i.ok, fun hm => (i.mem hm).imp id (fun h => by simp [assignsC, h]), i.ret⟩
  termination_by structural c
end

end Verif.Memory.Lemmas
