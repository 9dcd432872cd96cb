import Verif.Memory.Model

/-! # Array variables: lemmas about paths and about the visitor -/

namespace Verif.Memory.Lemmas
open Spec Model

variable {α β : Type}

/-! ## Paths -/

theorem path_seq {p q : Stmt α β} {t : List (Event α)} {e : Exit β} (h : Path (.seq p q) t e) :
    (∃ u w, t = u ++ w ∧ Path p u .normal ∧ Path q w e) ∨ (Path p t e ∧ e ≠ .normal) := by
  cases h with
  | seq h h' => exact .inl ⟨_, _, rfl, h, h'⟩
  | seqOut h he => exact .inr ⟨h, he⟩

theorem path_ite {c : Chain α β} {t : List (Event α)} {e : Exit β} (h : Path (.ite c) t e) :
    CPath c t e := by
  cases h with
  | ite h => exact h

theorem cpath_cons {p : Stmt α β} {c : Chain α β} {t : List (Event α)} {e : Exit β}
    (h : CPath (.cons p c) t e) : Path p t e ∨ CPath c t e := by
  cases h with
  | here h => exact .inl h
  | later h => exact .inr h

theorem path_loop {b : Stmt α β} {M : List (Event α) → Exit β → Prop} (h0 : M [] .normal)
    (h1 : ∀ t u e f, Path b t e → (e = .normal ∨ e = .cont) → M u f → M (t ++ u) f)
    (h2 : ∀ t, Path b t .brk → M t .normal) (h3 : ∀ t r, Path b t (.ret r) → M t (.ret r)) :
    ∀ {t : List (Event α)} {e : Exit β}, Path (.loop b) t e → M t e := by
  intro t e h
  generalize hp : Stmt.loop b = p at h
  exact Path.rec (motive_1 := fun p t e _ => .loop b = p → M t e) (motive_2 := fun _ _ _ _ => True)
    (by intro h; cases h) (by intro _ _ _ h; cases h) (by intro _ _ _ _ _ _ _ _ _ h; cases h)
    (by intro _ _ _ _ _ _ _ h; cases h) (by intro _ _ _ _ _ h; cases h)
    (by intro _ _; exact h0)
    (by intro _ t u e f h he h' _ ih hp; cases hp; exact h1 t u e f h he (ih rfl))
    (by intro _ t h _ hp; cases hp; exact h2 t h)
    (by intro _ t r h _ hp; cases hp; exact h3 t r h)
    (by intro h; cases h) (by intro h; cases h) (by intro _ h; cases h)
    trivial (fun _ _ => trivial) (fun _ _ => trivial) (fun _ _ => trivial) h hp

/-! ## The visitor keeps the program -/

mutual
/-- Another program of the same form. -/
def smap {α' β' : Type} (f : α → α') (g : β → β') : Stmt α β → Stmt α' β'
  | .skip => .skip
  | .atom a => .atom (f a)
  | .seq p q => .seq (smap f g p) (smap f g q)
  | .ite c => .ite (cmap f g c)
  | .loop b => .loop (smap f g b)
  | .brk => .brk
  | .cont => .cont
  | .ret b => .ret (g b)
  termination_by structural p => p
def cmap {α' β' : Type} (f : α → α') (g : β → β') : Chain α β → Chain α' β'
  | .nil => .nil
  | .els p => .els (smap f g p)
  | .cons p c => .cons (smap f g p) (cmap f g c)
  termination_by structural c => c
end

def emap {β' : Type} (g : β → β') : Exit β → Exit β'
  | .normal => .normal
  | .brk => .brk
  | .cont => .cont
  | .ret b => .ret (g b)

def tmap {α' : Type} (f : α → α') (t : List (Event α)) : List (Event α') :=
  t.map (fun e => ⟨f e.act, e.shape, e.value⟩)

theorem tmap_append {α' : Type} (f : α → α') (t u : List (Event α)) :
    tmap f (t ++ u) = tmap f t ++ tmap f u := List.map_append

theorem path_map {α' β' : Type} (f : α → α') (g : β → β') {p : Stmt α β} {t : List (Event α)}
    {e : Exit β} (h : Path p t e) : Path (smap f g p) (tmap f t) (emap g e) :=
  Path.rec (motive_1 := fun p t e _ => Path (smap f g p) (tmap f t) (emap g e))
    (motive_2 := fun c t e _ => CPath (cmap f g c) (tmap f t) (emap g e))
    .skip (fun a s n => .atom _ _ _)
    (by intro p q t u e _ _ i j; rw [tmap_append]; exact .seq i j)
    (by
      intro p q t e _ he i
      exact .seqOut i (by cases e <;> simp_all [emap]))
    (fun _ i => .ite i) .done
    (by
      intro p t u e f _ he _ i j
      rw [tmap_append]
      exact .next i (by rcases he with rfl | rfl <;> simp [emap]) j)
    (fun _ i => .out i) (fun _ i => .leave i) .brk .cont (fun _ => .ret _) .nil (fun _ i => .els i)
    (fun _ i => .here i) (fun _ i => .later i) h

mutual
theorem visit_src (r l : Bool) (v : VSt) (p : Stmt Atom Unit) :
    smap Ann.src (fun _ => ()) (visit r l v p).1 = p := by
  match p with
  | .skip => simp only [visit, smap]
  | .atom a => cases a <;> simp only [visit, smap, visitAtom, Ann.src]
  | .seq p q => simp only [visit, smap, visit_src r l v p, visit_src r l _ q]
  | .ite c => simp only [visit, smap, visitChain_src r l v c]
  | .loop b => simp only [visit, smap, visit_src r true v b]
  | .brk => simp only [visit, smap]
  | .cont => simp only [visit, smap]
  | .ret _ => simp only [visit, smap]
  termination_by structural p
theorem visitChain_src (r l : Bool) (v : VSt) (c : Chain Atom Unit) :
    cmap Ann.src (fun _ => ()) (visitChain r l v c).1 = c := by
  match c with
  | .nil => simp only [visitChain, cmap]
  | .els p => simp only [visitChain, cmap, visit_src r l v p]
  | .cons p c => simp only [visitChain, cmap, visit_src r l v p, visitChain_src r l _ c]
  termination_by structural c
end

/-- Every path of the image is the image of a path. -/
theorem path_unmap {α' β' : Type} (f : α → α') (g : β → β') {p' : Stmt α' β'}
    {t' : List (Event α')} {e' : Exit β'} (h : Path p' t' e') :
    ∀ p : Stmt α β, smap f g p = p' → ∃ t e, Path p t e ∧ tmap f t = t' ∧ emap g e = e' :=
  Path.rec
    (motive_1 := fun p' t' e' _ => ∀ p : Stmt α β, smap f g p = p' →
      ∃ t e, Path p t e ∧ tmap f t = t' ∧ emap g e = e')
    (motive_2 := fun c' t' e' _ => ∀ c : Chain α β, cmap f g c = c' →
      ∃ t e, CPath c t e ∧ tmap f t = t' ∧ emap g e = e')
    (by
      intro p hp
      cases p <;> simp only [smap, reduceCtorEq] at hp
      exact ⟨[], .normal, .skip, rfl, rfl⟩)
    (by
      intro a s n p hp
      cases p <;> simp only [smap, reduceCtorEq, Stmt.atom.injEq] at hp
      exact ⟨[⟨_, s, n⟩], .normal, .atom _ s n, by simp [tmap, hp], rfl⟩)
    (by
      intro p' q' t' u' e' _ _ i j p hp
      cases p <;> simp only [smap, reduceCtorEq, Stmt.seq.injEq] at hp
      obtain ⟨t, e, h1, h2, h3⟩ := i _ hp.1
      obtain ⟨u, e2, h4, h5, h6⟩ := j _ hp.2
      cases e <;> simp only [emap, reduceCtorEq] at h3
      exact ⟨t ++ u, e2, .seq h1 h4, by rw [tmap_append, h2, h5], h6⟩)
    (by
      intro p' q' t' e' _ he i p hp
      cases p <;> simp only [smap, reduceCtorEq, Stmt.seq.injEq] at hp
      obtain ⟨t, e, h1, h2, h3⟩ := i _ hp.1
      exact ⟨t, e, .seqOut h1 (by intro h; subst h; exact he h3.symm), h2, h3⟩)
    (by
      intro c' t' e' _ i p hp
      cases p <;> simp only [smap, reduceCtorEq, Stmt.ite.injEq] at hp
      obtain ⟨t, e, h1, h2, h3⟩ := i _ hp
      exact ⟨t, e, .ite h1, h2, h3⟩)
    (by
      intro p' p hp
      cases p <;> simp only [smap, reduceCtorEq] at hp
      exact ⟨[], .normal, .done, rfl, rfl⟩)
    (by
      intro p' t' u' e' f' _ he _ i j p hp
      cases p with
      | loop b =>
        simp only [smap, Stmt.loop.injEq] at hp
        obtain ⟨t, e, h1, h2, h3⟩ := i _ hp
        obtain ⟨u, e2, h4, h5, h6⟩ := j (.loop b) (by simp only [smap, hp])
        refine ⟨t ++ u, e2, .next h1 ?_ h4, by rw [tmap_append, h2, h5], h6⟩
        subst h3
        cases e <;> simp_all [emap]
      | _ => simp only [smap, reduceCtorEq] at hp)
    (by
      intro p' t' _ i p hp
      cases p <;> simp only [smap, reduceCtorEq, Stmt.loop.injEq] at hp
      obtain ⟨t, e, h1, h2, h3⟩ := i _ hp
      cases e <;> simp only [emap, reduceCtorEq] at h3
      exact ⟨t, .normal, .out h1, h2, rfl⟩)
    (by
      intro p' t' b' _ i p hp
      cases p <;> simp only [smap, reduceCtorEq, Stmt.loop.injEq] at hp
      obtain ⟨t, e, h1, h2, h3⟩ := i _ hp
      cases e <;> simp only [emap, reduceCtorEq] at h3
      exact ⟨t, _, .leave h1, h2, h3⟩)
    (by
      intro p hp
      cases p <;> simp only [smap, reduceCtorEq] at hp
      exact ⟨[], .brk, .brk, rfl, rfl⟩)
    (by
      intro p hp
      cases p <;> simp only [smap, reduceCtorEq] at hp
      exact ⟨[], .cont, .cont, rfl, rfl⟩)
    (by
      intro b p hp
      cases p <;> simp only [smap, reduceCtorEq, Stmt.ret.injEq] at hp
      exact ⟨[], .ret _, .ret _, rfl, by simp only [emap, hp]⟩)
    (by
      intro c hc
      cases c <;> simp only [cmap, reduceCtorEq] at hc
      exact ⟨[], .normal, .nil, rfl, rfl⟩)
    (by
      intro p' t' e' _ i c hc
      cases c <;> simp only [cmap, reduceCtorEq, Chain.els.injEq] at hc
      obtain ⟨t, e, h1, h2, h3⟩ := i _ hc
      exact ⟨t, e, .els h1, h2, h3⟩)
    (by
      intro p' c' t' e' _ i c hc
      cases c <;> simp only [cmap, reduceCtorEq, Chain.cons.injEq] at hc
      obtain ⟨t, e, h1, h2, h3⟩ := i _ hc.1
      exact ⟨t, e, .here h1, h2, h3⟩)
    (by
      intro p' c' t' e' _ i c hc
      cases c <;> simp only [cmap, reduceCtorEq, Chain.cons.injEq] at hc
      obtain ⟨t, e, h1, h2, h3⟩ := i _ hc.2
      exact ⟨t, e, .later h1, h2, h3⟩)
    h

/-! ## What the visitor knows -/

/-- The last allocation is in a branch of a chain that is not complete. -/
def Open (l : Last) : Prop :=
  l.wraps.getLast? = some .section ∨ (Wrap.section ∈ l.wraps ∧ Wrap.ifNode ∉ l.wraps)

def Outside (inIf : Bool) (v : VSt) : Prop :=
  inIf = false → ∀ l, v.last = some l → ¬ Open l

/-- No status `unallocated` will be copied. -/
def Safe (v : VSt) : Prop :=
  ∀ l, v.last = some l → Open l → l.status ≠ .unallocated

theorem open_loop {s : Status} {w : List Wrap} (h : Open ⟨s, w ++ [.loop]⟩) : Open ⟨s, w⟩ := by
  rcases h with h | ⟨h, h'⟩
  · simp at h
  · right; simp_all

theorem not_open_if {s : Status} {w : List Wrap} : ¬ Open ⟨s, w ++ [.ifNode]⟩ := by
  rintro (h | ⟨h, h'⟩)
  · simp at h
  · simp at h'

theorem not_open_nil {s : Status} : ¬ Open ⟨s, []⟩ := by
  rintro (h | ⟨h, h'⟩)
  · simp at h
  · simp at h

theorem statusAfter_ne {l : Last} (h : Open l → l.status ≠ .unallocated) :
    statusAfter l ≠ .unallocated := by
  unfold statusAfter
  split
  · rename_i h'; exact h (.inl h')
  · split <;> simp

theorem elif_open {l : Last} (h : (l.wraps.contains .section && !l.wraps.contains .ifNode) = true) :
    Open l := by
  right; simpa using h

/-- What visiting code does to what the visitor knows. -/
structure Stat (inIf inLoop asg : Bool) (v v' : VSt) : Prop where
  le : v.count ≤ v'.count
  same : v'.count = v.count → v'.last = v.last
  grow : v'.count ≠ v.count → v'.last.isSome
  keep : v.last.isSome → v'.last.isSome
  found : asg = true → v'.last.isSome
  noasg : asg = false → v'.count = v.count
  outside : Outside inIf v → Outside inIf v'
  safe : Safe v → (inLoop = true ∨ v.last.isSome) →
    Safe v' ∧ (v'.count ≠ v.count → ∀ l, v'.last = some l → l.status ≠ .unallocated)
  static : v.last.isSome → ∀ s, v'.static = some s → v.static = some s

theorem Stat.refl (inIf inLoop : Bool) (v : VSt) : Stat inIf inLoop false v v where
  le := Nat.le_refl _
  same _ := rfl
  grow h := absurd rfl h
  keep h := h
  found h := by cases h
  noasg _ := rfl
  outside h := h
  safe h _ := ⟨h, fun h => absurd rfl h⟩
  static _ _ h := h

theorem Stat.trans {inIf inLoop a b : Bool} {u v w : VSt} (h : Stat inIf inLoop a u v)
    (h' : Stat inIf inLoop b v w) : Stat inIf inLoop (a || b) u w where
  le := Nat.le_trans h.le h'.le
  same e := by
    have h1 : v.count = u.count := by have := h.le; have := h'.le; omega
    rw [h'.same (by omega), h.same h1]
  grow e := by
    by_cases h1 : v.count = u.count
    · exact h'.grow (by omega)
    · exact h'.keep (h.grow h1)
  keep e := h'.keep (h.keep e)
  found e := by
    cases a with
    | true => exact h'.keep (h.found rfl)
    | false => exact h'.found (by simpa using e)
  noasg e := by
    simp only [Bool.or_eq_false_iff] at e
    rw [h'.noasg e.2, h.noasg e.1]
  outside e := h'.outside (h.outside e)
  safe e f := by
    have h1 := h.safe e f
    have h2 := h'.safe h1.1 (f.imp id h.keep)
    refine ⟨h2.1, fun e l hl => ?_⟩
    by_cases h3 : w.count = v.count
    · rw [h'.same h3] at hl
      exact h1.2 (by omega) l hl
    · exact h2.2 h3 l hl
  static e s hs := h.static e s (h'.static (h.keep e) s hs)

theorem stat_assign (inIf inLoop : Bool) (v : VSt) (r : Rhs) :
    Stat inIf inLoop true v (visitAssign inLoop v r).2 := by
  unfold visitAssign
  split
  · rename_i hv
    exact
      { le := Nat.le_succ _
        same := by intro h; simp at h
        grow := fun _ => rfl
        keep := fun _ => rfl
        found := fun _ => rfl
        noasg := by intro h; cases h
        outside := by
          intro _ _ l hl
          simp only [Option.some.injEq] at hl
          subst hl; exact not_open_nil
        safe := by
          intro _ h
          rw [hv] at h
          simp only [Option.isSome_none, Bool.false_eq_true, or_false] at h
          subst h
          constructor
          · intro l hl ho
            simp only [Option.some.injEq] at hl
            subst hl; exact absurd ho not_open_nil
          · intro _ l hl
            simp only [Option.some.injEq] at hl
            subst hl; simp
        static := by intro h; rw [hv] at h; cases h }
  · rename_i l hv
    split
    · exact
        { le := Nat.le_succ _
          same := by intro h; simp at h
          grow := fun _ => rfl
          keep := fun _ => rfl
          found := fun _ => rfl
          noasg := by intro h; cases h
          outside := by
            intro _ _ l hl
            simp only [Option.some.injEq] at hl
            subst hl; exact not_open_nil
          safe := by
            intro h _
            constructor
            · intro l hl ho
              simp only [Option.some.injEq] at hl
              subst hl; exact absurd ho not_open_nil
            · intro _ l' hl
              simp only [Option.some.injEq] at hl
              subst hl; exact statusAfter_ne (h l hv)
          static := by intro _ s h; cases h }
    · split
      · rename_i he
        exact
          { le := Nat.le_succ _
            same := by intro h; simp at h
            grow := fun _ => rfl
            keep := fun _ => rfl
            found := fun _ => rfl
            noasg := by intro h; cases h
            outside := by
              intro _ _ l hl
              simp only [Option.some.injEq] at hl
              subst hl; exact not_open_nil
            safe := by
              intro h _
              constructor
              · intro l hl ho
                simp only [Option.some.injEq] at hl
                subst hl; exact absurd ho not_open_nil
              · intro _ l' hl
                simp only [Option.some.injEq] at hl
                subst hl; exact h l hv (elif_open he)
            static := fun _ _ h => h }
      · exact { Stat.refl inIf inLoop v with
          found := fun _ => by rw [hv]; rfl
          noasg := by intro h; cases h }

theorem wrapLast_count (w : Wrap) (u v : VSt) : (wrapLast w u v).count = v.count := by
  unfold wrapLast; split <;> rfl

theorem wrapLast_static (w : Wrap) (u v : VSt) : (wrapLast w u v).static = v.static := by
  unfold wrapLast; split <;> rfl

theorem wrapLast_isSome (w : Wrap) (u v : VSt) : (wrapLast w u v).last.isSome = v.last.isSome := by
  unfold wrapLast; split <;> simp

theorem wrapLast_same {w : Wrap} {u v : VSt} (h : v.count = u.count) : wrapLast w u v = v := by
  unfold wrapLast; rw [if_pos h]

theorem wrapLast_last {w : Wrap} {u v : VSt} (h : v.count ≠ u.count) :
    (wrapLast w u v).last = v.last.map (fun l => { l with wraps := l.wraps ++ [w] }) := by
  unfold wrapLast; rw [if_neg h]

/-- Closing a branch. -/
theorem Stat.section {inIf inLoop a : Bool} {v v' : VSt} (h : Stat true inLoop a v v') :
    Stat inIf inLoop a v (wrapLast .section v v') ∨ inIf = false := by
  cases inIf with
  | false => exact .inr rfl
  | true =>
    left
    exact
      { le := by rw [wrapLast_count]; exact h.le
        same := by
          rw [wrapLast_count]; intro e
          rw [wrapLast_same e]; exact h.same e
        grow := by rw [wrapLast_count, wrapLast_isSome]; exact h.grow
        keep := by rw [wrapLast_isSome]; exact h.keep
        found := by rw [wrapLast_isSome]; exact h.found
        noasg := by rw [wrapLast_count]; exact h.noasg
        outside := by intro _ e; cases e
        safe := by
          intro e f
          have h1 := h.safe e f
          rw [wrapLast_count]
          by_cases hc : v'.count = v.count
          · rw [wrapLast_same hc]; exact h1
          · have h2 : ∀ l, (wrapLast .section v v').last = some l → l.status ≠ .unallocated := by
              intro l hl
              rw [wrapLast_last hc] at hl
              cases hv : v'.last with
              | none => rw [hv] at hl; cases hl
              | some l' =>
                rw [hv] at hl
                simp only [Option.map_some, Option.some.injEq] at hl
                subst hl
                exact h1.2 hc l' hv
            exact ⟨fun l hl _ => h2 l hl, fun _ => h2⟩
        static := by rw [wrapLast_static]; exact h.static }

/-- Closing a chain. -/
theorem Stat.ifNode {inLoop a : Bool} (inIf : Bool) {v v' : VSt} (h : Stat true inLoop a v v') :
    Stat inIf inLoop a v (wrapLast .ifNode v v') := by
  have hopen : v'.count ≠ v.count → ∀ l, (wrapLast .ifNode v v').last = some l → ¬ Open l := by
    intro hc l hl
    rw [wrapLast_last hc] at hl
    cases hv : v'.last with
    | none => rw [hv] at hl; cases hl
    | some l' =>
      rw [hv] at hl
      simp only [Option.map_some, Option.some.injEq] at hl
      subst hl
      exact not_open_if
  exact
    { le := by rw [wrapLast_count]; exact h.le
      same := by
        rw [wrapLast_count]; intro e
        rw [wrapLast_same e]; exact h.same e
      grow := by rw [wrapLast_count, wrapLast_isSome]; exact h.grow
      keep := by rw [wrapLast_isSome]; exact h.keep
      found := by rw [wrapLast_isSome]; exact h.found
      noasg := by rw [wrapLast_count]; exact h.noasg
      outside := by
        intro e f
        by_cases hc : v'.count = v.count
        · rw [wrapLast_same hc, h.same hc]; exact e f
        · exact hopen hc
      safe := by
        intro e f
        have h1 := h.safe e f
        rw [wrapLast_count]
        by_cases hc : v'.count = v.count
        · rw [wrapLast_same hc]; exact h1
        · refine ⟨fun l hl ho => absurd ho (hopen hc l hl), fun _ l hl => ?_⟩
          rw [wrapLast_last hc] at hl
          cases hv : v'.last with
          | none => rw [hv] at hl; cases hl
          | some l' =>
            rw [hv] at hl
            simp only [Option.map_some, Option.some.injEq] at hl
            subst hl
            exact h1.2 hc l' hv
      static := by rw [wrapLast_static]; exact h.static }

/-- Closing a loop. -/
theorem Stat.loop {inIf inLoop a : Bool} {v v' : VSt} (h : Stat inIf true a v v') :
    Stat inIf inLoop a v (wrapLast .loop v v') := by
  have hopen : v'.count ≠ v.count → ∀ l, (wrapLast .loop v v').last = some l →
      ∃ l', v'.last = some l' ∧ l.status = l'.status ∧ (Open l → Open l') := by
    intro hc l hl
    rw [wrapLast_last hc] at hl
    cases hv : v'.last with
    | none => rw [hv] at hl; cases hl
    | some l' =>
      rw [hv] at hl
      simp only [Option.map_some, Option.some.injEq] at hl
      subst hl
      exact ⟨l', rfl, rfl, open_loop⟩
  exact
    { le := by rw [wrapLast_count]; exact h.le
      same := by
        rw [wrapLast_count]; intro e
        rw [wrapLast_same e]; exact h.same e
      grow := by rw [wrapLast_count, wrapLast_isSome]; exact h.grow
      keep := by rw [wrapLast_isSome]; exact h.keep
      found := by rw [wrapLast_isSome]; exact h.found
      noasg := by rw [wrapLast_count]; exact h.noasg
      outside := by
        intro e f
        by_cases hc : v'.count = v.count
        · rw [wrapLast_same hc, h.same hc]; exact e f
        · intro l hl ho
          obtain ⟨l', h1, _, h3⟩ := hopen hc l hl
          exact h.outside e f l' h1 (h3 ho)
      safe := by
        intro e f
        have h1 := h.safe e (.inl rfl)
        rw [wrapLast_count]
        by_cases hc : v'.count = v.count
        · rw [wrapLast_same hc]; exact h1
        · refine ⟨fun l hl ho => ?_, fun _ l hl => ?_⟩
          · obtain ⟨l', h2, h3, h4⟩ := hopen hc l hl
            rw [h3]; exact h1.1 l' h2 (h4 ho)
          · obtain ⟨l', h2, h3, _⟩ := hopen hc l hl
            rw [h3]; exact h1.2 hc l' h2
      static := by rw [wrapLast_static]; exact h.static }

/-- The shape may be made changeable. -/
theorem Stat.forget {inIf inLoop a : Bool} {v v' : VSt} (h : Stat inIf inLoop a v v') (b : Bool) :
    Stat inIf inLoop a v (if b then { v' with static := none } else v') := by
  cases b with
  | false => exact h
  | true =>
    exact
      { le := h.le, same := h.same, grow := h.grow, keep := h.keep, found := h.found, noasg := h.noasg
        outside := h.outside, safe := h.safe
        static := by intro _ s hs; cases hs }

mutual
theorem visit_stat (r inIf l : Bool) (v : VSt) (p : Stmt Atom Unit) :
    Stat inIf l (assigns p) v (visit r l v p).2 := by
  match p with
  | .skip => simp only [visit, assigns]; exact .refl ..
  | .atom (.assign x) => simp only [visit, assigns, visitAtom]; exact stat_assign ..
  | .atom .use => simp only [visit, assigns, visitAtom]; exact .refl ..
  | .atom .len => simp only [visit, assigns, visitAtom]; exact .refl ..
  | .atom .del => simp only [visit, assigns, visitAtom]; exact .refl ..
  | .seq p q =>
    simp only [visit, assigns]
    exact (visit_stat r inIf l v p).trans (visit_stat r inIf l _ q)
  | .ite c =>
    simp only [visit, assigns]
    exact ((visitChain_stat r l v c).ifNode inIf).forget _
  | .loop b =>
    simp only [visit, assigns]
    exact (visit_stat r inIf true v b).loop
  | .brk => simp only [visit, assigns]; exact .refl ..
  | .cont => simp only [visit, assigns]; exact .refl ..
  | .ret _ => simp only [visit, assigns]; exact .refl ..
  termination_by structural p
theorem visitChain_stat (r l : Bool) (v : VSt) (c : Chain Atom Unit) :
    Stat true l (assignsC c) v (visitChain r l v c).2 := by
  match c with
  | .nil => simp only [visitChain, assignsC]; exact .refl ..
  | .els p =>
    simp only [visitChain, assignsC]
    exact (visit_stat r true l v p).section.resolve_right (by simp)
  | .cons p c =>
    simp only [visitChain, assignsC]
    exact ((visit_stat r true l v p).section.resolve_right (by simp)).trans
      (visitChain_stat r l _ c)
  termination_by structural c
end

end Verif.Memory.Lemmas
