import Verif.Memory.Lemmas3

/-! # Array variables: functions -/

namespace Verif.Memory.Lemmas
open Spec Model

theorem no_return {α β : Type} {p : Stmt α β} {t : List (Event α)} {e : Exit β} (h : Path p t e) :
    ∀ (f : α → Atom), returns (smap f (fun _ => ()) p) = false → ∀ b, e ≠ .ret b :=
  Path.rec
    (motive_1 := fun p _ e _ => ∀ (f : α → Atom), returns (smap f (fun _ => ()) p) = false →
      ∀ b, e ≠ .ret b)
    (motive_2 := fun c _ e _ => ∀ (f : α → Atom), returnsC (cmap f (fun _ => ()) c) = false →
      ∀ b, e ≠ .ret b)
    (by intro _ _ b h; cases h) (by intro _ _ _ _ _ b h; cases h)
    (by
      intro p q t u e _ _ _ j f hf
      simp only [smap, returns, Bool.or_eq_false_iff] at hf
      exact j f hf.2)
    (by
      intro p q t e _ _ i f hf
      simp only [smap, returns, Bool.or_eq_false_iff] at hf
      exact i f hf.1)
    (by
      intro c t e _ i f hf
      simp only [smap, returns] at hf
      exact i f hf)
    (by intro _ _ _ b h; cases h)
    (by
      intro p t u e g _ _ _ _ j f hf
      exact j f hf)
    (by intro p t _ _ f hf b h; cases h)
    (by
      intro p t r _ i f hf
      simp only [smap, returns] at hf
      exact i f hf)
    (by intro _ _ b h; cases h) (by intro _ _ b h; cases h)
    (by
      intro b f hf
      simp only [smap, returns] at hf
      cases hf)
    (by intro _ _ b h; cases h)
    (by
      intro p t e _ i f hf
      simp only [cmap, returnsC] at hf
      exact i f hf)
    (by
      intro p c t e _ i f hf
      simp only [cmap, returnsC, Bool.or_eq_false_iff] at hf
      exact i f hf.1)
    (by
      intro p c t e _ i f hf
      simp only [cmap, returnsC, Bool.or_eq_false_iff] at hf
      exact i f hf.2)
    h

/-- Code that does not assign `x`, while `x` is unbound. -/
theorem before {r l : Bool} {v : VSt} {p : Stmt Atom Unit} {t : List (Event Ann)} {e : Exit Bool}
    (ha : assigns p = false) (h : Path (visit r l v p).1 t e) :
    ∀ {P P' : St}, P.mem = none → pythons P (srcPath t) = some P' → t = [] ∧ P' = P := by
  have key : ∀ {p' : Stmt Ann Bool} {t : List (Event Ann)} {e : Exit Bool}, Path p' t e →
      assigns (smap Ann.src (fun _ => ()) p') = false → ∀ x ∈ t, ∀ r a, x.act ≠ .assign r a := by
    intro p' t e h
    exact Path.rec
      (motive_1 := fun p' t _ _ => assigns (smap Ann.src (fun _ => ()) p') = false →
        ∀ x ∈ t, ∀ r a, x.act ≠ .assign r a)
      (motive_2 := fun c' t _ _ => assignsC (cmap Ann.src (fun _ => ()) c') = false →
        ∀ x ∈ t, ∀ r a, x.act ≠ .assign r a)
      (by intro _ x hx; cases hx)
      (by
        intro a s n ha x hx r y
        simp only [List.mem_singleton] at hx
        subst hx
        intro h
        simp only at h
        subst h
        simp only [smap, Ann.src, assigns] at ha
        cases ha)
      (by
        intro p q t u e _ _ i j ha x hx
        simp only [smap, assigns, Bool.or_eq_false_iff] at ha
        exact (List.mem_append.1 hx).elim (i ha.1 x) (j ha.2 x))
      (by
        intro p q t e _ _ i ha
        simp only [smap, assigns, Bool.or_eq_false_iff] at ha
        exact i ha.1)
      (by
        intro c t e _ i ha
        simp only [smap, assigns] at ha
        exact i ha)
      (by intro _ _ x hx; cases hx)
      (by
        intro p t u e f _ _ _ i j ha x hx
        have ha' := ha
        simp only [smap, assigns] at ha'
        exact (List.mem_append.1 hx).elim (i ha' x) (j ha x))
      (by intro p t _ i ha; simp only [smap, assigns] at ha; exact i ha)
      (by intro p t r _ i ha; simp only [smap, assigns] at ha; exact i ha)
      (by intro _ x hx; cases hx) (by intro _ x hx; cases hx) (by intro _ _ x hx; cases hx)
      (by intro _ x hx; cases hx)
      (by intro p t e _ i ha; simp only [cmap, assignsC] at ha; exact i ha)
      (by
        intro p c t e _ i ha
        simp only [cmap, assignsC, Bool.or_eq_false_iff] at ha
        exact i ha.1)
      (by
        intro p c t e _ i ha
        simp only [cmap, assignsC, Bool.or_eq_false_iff] at ha
        exact i ha.2)
      h
  have h1 := key h (by rw [visit_src]; exact ha)
  intro P P' hm hr
  cases t with
  | nil => cases hr; exact ⟨rfl, rfl⟩
  | cons x t =>
    exfalso
    rw [srcPath_cons, pythons] at hr
    have h2 := h1 x (by simp)
    obtain ⟨a, s, n⟩ := x
    cases a with
    | assign r y => exact h2 r y rfl
    | _ => simp only [srcEvent, Ann.src, python, hm] at hr; cases hr

/-! ## The first assignment -/

/-- What follows the first assignment of a branch. -/
def Begun (v : VSt) : Prop := v.last = some ⟨.unallocated, [.section]⟩

/-- The shape in the text of a right-hand side. -/
def textShape : Rhs → Option Shape
  | .lit s _ => some s
  | _ => none

theorem python_fresh {P Q : St} {r : Rhs} {o : Option Status} {s : Shape} {n : Nat} (hr : Fresh r)
    (h : python P (srcEvent ⟨.assign r o, s, n⟩) = some Q) :
    ∃ sh d, Q.mem = some (sh, d) ∧ ∀ s', textShape r = some s' → sh = s' := by
  simp only [srcEvent, Ann.src, python] at h
  cases r with
  | lit s' self =>
    have hr : self = false := hr
    subst hr
    simp only [Option.some.injEq] at h
    subst h
    exact ⟨_, _, rfl, fun _ h => by simpa [textShape] using h⟩
  | dyn self =>
    have hr : self = false := hr
    subst hr
    simp only [Option.some.injEq] at h
    subst h
    exact ⟨_, _, rfl, fun _ h => by cases h⟩
  | same fn => cases hr

theorem visitAssign_none {v : VSt} (hv : v.last = none) (r : Rhs) :
    visitAssign false v r =
      (some .unallocated, ⟨some ⟨.unallocated, []⟩, v.count + 1, textShape r⟩) := by
  unfold visitAssign
  rw [hv]
  cases r <;> rfl

theorem visitAssign_begun {v : VSt} (hv : Begun v) (r : Rhs) :
    ∃ s, visitAssign false v r = (some .unallocated, ⟨some ⟨.unallocated, []⟩, v.count + 1, s⟩) ∧
      ∀ s', s = some s' → v.static = some s' := by
  unfold visitAssign
  rw [hv]
  simp only
  split
  · exact ⟨none, by simp [statusAfter], fun _ h => by cases h⟩
  · exact ⟨v.static, by simp, fun _ h => h⟩

theorem sets_path {b : Bool} {v : VSt} {p : Stmt Atom Unit} (hp : Sets p)
    (hv : v.last = none ∨ Begun v) :
    ∃ r s, p = .atom (.assign r) ∧ Fresh r ∧
      (visit b false v p).1 = .atom (.assign r (some .unallocated)) ∧
      (visit b false v p).2 = ⟨some ⟨.unallocated, []⟩, v.count + 1, s⟩ ∧
      (∀ s', s = some s' → (v.last = none → textShape r = some s') ∧
        (Begun v → v.static = some s')) := by
  match p, hp with
  | .atom (.assign r), hp =>
    rcases hv with hv | hv
    · refine ⟨r, textShape r, rfl, hp, ?_, ?_, fun s' h => ⟨fun _ => h, fun h' => ?_⟩⟩
      · simp only [visit, visitAtom, visitAssign_none hv]
      · simp only [visit, visitAtom, visitAssign_none hv]
      · unfold Begun at h'
        rw [hv] at h'
        cases h'
    · obtain ⟨s, h1, h2⟩ := visitAssign_begun hv r
      refine ⟨r, s, rfl, hp, ?_, ?_, fun s' h => ⟨fun h' => ?_, fun _ => h2 s' h⟩⟩
      · simp only [visit, visitAtom, h1]
      · simp only [visit, visitAtom, h1]
      · unfold Begun at hv
        rw [hv] at h'
        cases h'

theorem lastShape_assign (r : Rhs) (st : Status) :
    lastShape (.atom (.assign r (some st))) = some (textShape r) := by
  cases r <;> rfl

theorem wrap_section (v : VSt) (s : Option Shape) :
    wrapLast .section v ⟨some ⟨.unallocated, []⟩, v.count + 1, s⟩ =
      ⟨some ⟨.unallocated, [.section]⟩, v.count + 1, s⟩ := by
  simp [wrapLast]

/-- One statement of an `if` that begins with the assignment of `x`. -/
theorem chain_sets {b : Bool} : ∀ (c : Chain Atom Unit) (_ : SetsC c) {v : VSt}
    (_ : v.last = none ∨ Begun v),
    Begun (visitChain b false v c).2 ∧ v.count < (visitChain b false v c).2.count ∧
    (∀ s', (visitChain b false v c).2.static = some s' →
      (v.last = none → (branchShapes (visitChain b false v c).1).headD none = some (some s')) ∧
      (Begun v → v.static = some s')) ∧
    (∀ {t e}, CPath (visitChain b false v c).1 t e → ∃ r s n, e = .normal ∧ Fresh r ∧
      t = [⟨.assign r (some .unallocated), s, n⟩] ∧
      some (textShape r) ∈ branchShapes (visitChain b false v c).1) := by
  intro c hc v hv
  match c, hc with
  | .els p, hc =>
    have hc : Sets p := hc
    obtain ⟨r, s, hp, hr, h1, h2, h3⟩ := sets_path (b := b) hc hv
    simp only [visitChain, h1, h2, wrap_section, branchShapes, lastShape_assign]
    refine ⟨rfl, by simp, fun s' h => ?_, fun h => ?_⟩
    · have := h3 s' h
      exact ⟨fun h' => by simp [this.1 h'], this.2⟩
    · cases h with
      | els h =>
        cases h with
        | atom a s n => exact ⟨r, s, n, rfl, hr, rfl, by simp⟩
  | .cons p c, hc =>
    obtain ⟨hc, hc'⟩ : Sets p ∧ SetsC c := hc
    obtain ⟨r, s, hp, hr, h1, h2, h3⟩ := sets_path (b := b) hc hv
    have hB : Begun ⟨some ⟨.unallocated, [.section]⟩, v.count + 1, s⟩ := rfl
    obtain ⟨i1, i2, i3, i4⟩ := chain_sets (b := b) c hc' (.inr hB)
    simp only [visitChain, h1, h2, wrap_section, branchShapes, lastShape_assign]
    refine ⟨i1, Nat.lt_of_succ_lt i2, fun s' h => ?_, fun h => ?_⟩
    · have := h3 s' ((i3 s' h).2 hB)
      exact ⟨fun h' => by simp [this.1 h'], this.2⟩
    · cases h with
      | here h =>
        cases h with
        | atom a s n => exact ⟨r, s, n, rfl, hr, rfl, by simp⟩
      | later h =>
        obtain ⟨r, s, n, h5, h6, h7, h8⟩ := i4 h
        exact ⟨r, s, n, h5, h6, h7, by simp [h8]⟩

theorem not_changeable {bs : List BranchShape} (h : changeable bs = false) {x : Option Shape}
    (hx : some x ∈ bs) : bs.headD none = some x := by
  unfold changeable at h
  have h1 : bs.any Option.isSome = true := List.any_eq_true.2 ⟨_, hx, rfl⟩
  rw [h1] at h
  simp only [Bool.true_and, Bool.not_eq_false', List.all_eq_true, Bool.and_eq_true,
    beq_iff_eq] at h
  exact (h _ hx).1.symm

/-- The first assignment of `x`. -/
theorem starts {b : Bool} {v : VSt} (hv : v.last = none) {p : Stmt Atom Unit} (hp : Starts p)
    {t : List (Event Ann)} {e : Exit Bool} (h : Path (visit b false v p).1 t e) {P Q : St}
    (ht : pythons P (srcPath t) = some Q) :
    ∃ (x : Event Ann) (r : Rhs) (sh : Shape) (d : Data), t = [x] ∧ e = .normal ∧
      x.act = .assign r (some .unallocated) ∧ Fresh r ∧ python P (srcEvent x) = some Q ∧
      Q.mem = some (sh, d) ∧
      (∀ s, (visit b false v p).2.static = some s → sh = s) ∧
      (visit b false v p).2.last.isSome ∧
      ∀ l, (visit b false v p).2.last = some l → ¬ Open l := by
  have one : Sets p → ∃ (x : Event Ann) (r : Rhs) (sh : Shape) (d : Data), t = [x] ∧ e = .normal ∧
      x.act = .assign r (some .unallocated) ∧ Fresh r ∧ python P (srcEvent x) = some Q ∧
      Q.mem = some (sh, d) ∧
      (∀ s, (visit b false v p).2.static = some s → sh = s) ∧
      (visit b false v p).2.last.isSome ∧
      ∀ l, (visit b false v p).2.last = some l → ¬ Open l := by
    intro hp
    obtain ⟨r, s, hp, hr, h1, h2, h3⟩ := sets_path (b := b) hp (.inl hv)
    rw [h1] at h
    rw [h2]
    cases h with
    | atom a s n =>
      have h9 := pythons_one ht
      obtain ⟨sh, d, h10, h11⟩ := python_fresh hr h9
      refine ⟨_, r, sh, d, rfl, rfl, rfl, hr, h9, h10, fun s' h => h11 s' ((h3 s' h).1 hv), rfl,
        fun l h => ?_⟩
      simp only [Option.some.injEq] at h
      subst h
      exact not_open_nil
  match p, hp with
  | .ite c, hp =>
    obtain ⟨i1, i2, i3, i4⟩ := chain_sets (b := b) c hp (.inl hv)
    simp only [visit] at h ⊢
    cases h with
    | ite h =>
      obtain ⟨r, s, n, rfl, hr, rfl, hm⟩ := i4 h
      have h9 := pythons_one ht
      obtain ⟨sh, d, h10, h11⟩ := python_fresh hr h9
      have hw : wrapLast .ifNode v (visitChain b false v c).2 =
          { (visitChain b false v c).2 with last := some ⟨.unallocated, [.section, .ifNode]⟩ } := by
        unfold wrapLast
        rw [if_neg (by omega), i1]
        rfl
      rw [hw]
      refine ⟨_, r, sh, d, rfl, rfl, rfl, hr, h9, h10, ?_, ?_, ?_⟩
      · intro s' h
        split at h
        · cases h
        · rename_i hc
          have h5 := (i3 s' h).1 hv
          have h6 := not_changeable (by simpa using hc) hm
          rw [h5] at h6
          exact h11 s' (by simpa using h6.symm)
      · split <;> rfl
      · intro l h
        have : l = ⟨.unallocated, [.section] ++ [.ifNode]⟩ := by
          split at h <;> simpa using h.symm
        subst this
        exact not_open_if
  | .atom (.assign r), hp => exact one hp
  | .skip, hp => exact one hp
  | .atom .use, hp => exact one hp
  | .atom .len, hp => exact one hp
  | .atom .del, hp => exact one hp
  | .seq _ _, hp => exact one hp
  | .loop _, hp => exact one hp
  | .brk, hp => exact one hp
  | .cont, hp => exact one hp
  | .ret _, hp => exact one hp

/-- `x` is assigned at the top level of a function first. -/
theorem first {f : Fn} {p s q : Stmt Atom Unit}
    (hf : f.body = .seq p (.seq s q)) (hp : assigns p = false) (hr : Starts s)
    (hq : Plain false false q) {t : List (Event Ann)} {e : Exit Bool} {P' : St}
    (h : Path (translate f) t e) (ht : pythons {} (srcPath t) = some P') :
    (t = [] ∧ P' = {} ∧ e ≠ .normal ∧ ∃ e', Path (visit f.isResult false {} p).1 [] e' ∧ e = e') ∨
    (∃ (x : Event Ann) (u : List (Event Ann)) (Q : St) (st : Status) (r' : Rhs) (v : VSt),
      t = x :: u ∧ st ≠ .allocated ∧ x.act = .assign r' (some st) ∧
      Fresh r' ∧ python {} (srcEvent x) = some Q ∧ pythons Q (srcPath u) = some P' ∧
      TraceAll StepOk' Q u ∧ P'.mem ≠ none ∧ Path (visit f.isResult false v q).1 u e ∧
      ∀ b, e = .ret b → b = !f.isResult) := by
  unfold translate at h
  rw [hf] at h
  simp only [visit] at h
  have sp := visit_stat f.isResult false false {} p
  have hv0 : (visit f.isResult false {} p).2.last = none := by
    rw [sp.same (sp.noasg hp)]
  rcases path_seq h with ⟨u, w, rfl, h1, h2⟩ | ⟨h1, he⟩
  · obtain ⟨Q, h3, h4⟩ := pythons_split ht
    obtain ⟨rfl, rfl⟩ := before hp h1 rfl h3
    rw [List.nil_append]
    right
    generalize (visit f.isResult false {} p).2 = v at h2 hv0
    rcases path_seq h2 with ⟨u, w, rfl, h5, h6⟩ | ⟨h5, he⟩
    · obtain ⟨Q, h7, h8⟩ := pythons_split h4
      obtain ⟨x, r, sh, d, rfl, _, hx, hf, h9, hm, hs, hl, ho⟩ := starts hv0 hr h5 h7
      have i := after (inIf := false) (inLoop := false)
        (v := (visit f.isResult false v s).2) q hq hl (fun _ l h => ho l h)
        (fun l h ho' => absurd ho' (ho l h)) hm (fun _ => hs) h6 h8
      obtain ⟨sh', d', hm', _⟩ := i.mem
      exact ⟨_, w, Q, .unallocated, r, _, rfl, by simp, hx, hf, h9, h8, i.ok,
        by rw [hm']; simp, h6, i.ret⟩
    · exfalso
      obtain ⟨x, r, sh, d, _, rfl, _⟩ := starts hv0 hr h5 h4
      exact he rfl
  · left
    obtain ⟨rfl, rfl⟩ := before hp h1 rfl ht
    exact ⟨rfl, rfl, he, e, h1, rfl⟩

theorem traceAll_prefix {S : St → Event Ann → Prop} {P : St} {u w : List (Event Ann)}
    (h : TraceAll S P (u ++ w)) : TraceAll S P u := by
  induction u generalizing P with
  | nil => trivial
  | cons x u ih => exact ⟨h.1, fun P' hp => ih (h.2 P' hp)⟩

theorem distinct_prefix {P : St} {u w : List (Event Atom)} (h : Distinct P (u ++ w)) :
    Distinct P u := by
  induction u generalizing P with
  | nil => trivial
  | cons x u ih => exact ⟨h.1, fun P' hp => ih (h.2 P' hp)⟩

/-- All steps fit when `x` is assigned at the top level first. -/
theorem first_ok {f : Fn} {p s q : Stmt Atom Unit}
    (hf : f.body = .seq p (.seq s q)) (hp : assigns p = false) (hr : Starts s)
    (hq : Plain false false q) {t : List (Event Ann)} {e : Exit Bool} {P' : St}
    (h : Path (translate f) t e) (ht : pythons {} (srcPath t) = some P') :
    TraceAll StepOk {} t := by
  rcases first hf hp hr hq h ht with ⟨rfl, _⟩ | ⟨x, u, Q, st, r', v, rfl, h1, h2, h3, h4, h5, h6, h7⟩
  · trivial
  · refine ⟨?_, fun P hP => ?_⟩
    · simp only [StepOk, h2]
      exact ⟨h3, fun _ => trivial⟩
    · rw [h4] at hP
      cases hP
      exact h6.mono (fun _ _ h => h.1)

theorem first_fortran {f : Fn} {p s q : Stmt Atom Unit}
    (hf : f.body = .seq p (.seq s q)) (hp : assigns p = false) (hr : Starts s)
    (hq : Plain false false q) {t : List (Event Ann)} {e : Exit Bool} {P' : St}
    (h : Path (translate f) t e) (ht : pythons {} (srcPath t) = some P')
    (hd : Distinct {} (srcPath t)) {u w : List (Event Ann)} (hu : t = u ++ w) :
    ∃ Q, pythons {} (srcPath u) = some Q ∧ fSteps {} u = some Q := by
  subst hu
  obtain ⟨Q, hQ, _⟩ := pythons_split ht
  refine ⟨Q, hQ, ?_⟩
  rcases first hf hp hr hq h ht with ⟨h0, _⟩ | ⟨x, t', Q', st, r', v, h0, h1, h2, h3, h4, h5, h6, h7⟩
  · obtain ⟨rfl, rfl⟩ := List.append_eq_nil_iff.1 h0
    cases hQ; rfl
  · cases u with
    | nil => cases hQ; rfl
    | cons y u =>
      simp only [List.cons_append, List.cons.injEq] at h0
      obtain ⟨rfl, rfl⟩ := h0
      rw [srcPath_cons, pythons, h4] at hQ
      have hs : StepOk {} y := by
        simp only [StepOk, h2]
        exact ⟨h3, fun _ => trivial⟩
      have hs' : ShapesOk {} y := by
        simp only [ShapesOk, h2]
        exact ⟨fun h => absurd h h1, fun _ _ _ h => by cases h⟩
      rw [fSteps, fStep_ok hs hs' h4]
      refine fSteps_ok (traceAll_prefix h6) ?_ hQ
      rw [List.cons_append, srcPath_cons] at hd
      have := hd.2 Q' h4
      rw [srcPath_append] at this
      exact distinct_prefix this

theorem cSteps_prefix {t u w : List (Event Ann)} {P' : St} (h : TraceAll StepOk {} t)
    (ht : pythons {} (srcPath t) = some P') (hu : t = u ++ w) :
    ∃ Q, pythons {} (srcPath u) = some Q ∧ cSteps {} u = some ⟨Q.mem, 0, Q.out⟩ := by
  subst hu
  obtain ⟨Q, hQ, _⟩ := pythons_split ht
  exact ⟨Q, hQ, cSteps_ok (k := 0) (traceAll_prefix h) hQ⟩

theorem no_return' {f : Fn} {t : List (Event Ann)} {e : Exit Bool} (h : Path (translate f) t e)
    (hv : returns f.body = false) (b : Bool) : e ≠ .ret b :=
  no_return h Ann.src (by unfold translate; rw [visit_src]; exact hv) b

/-- All steps fit when no shape is literal. -/
theorem dynamic_ok {f : Fn} (hd : Dynamic false false false f.body) {t : List (Event Ann)}
    {e : Exit Bool} {P' : St} (h : Path (translate f) t e)
    (ht : pythons {} (srcPath t) = some P') :
    TraceAll StepOk {} t ∧ ∀ b, e = .ret b → P'.mem.isSome → b = !f.isResult := by
  have i := (dyn (v := {}) f.body hd (fun _ l h => by cases h)
    ⟨rfl, by (intro h; cases h), by (intro _ h; cases h), by (intro h; cases h)⟩ h ht).1
  exact ⟨i.ok, i.ret⟩

theorem cLost_zero {f : Fn} {P' : St} {e : Exit Bool}
    (hr : ∀ b, e = .ret b → P'.mem.isSome → b = !f.isResult)
    (hv : ∀ b, e = .ret b → P'.mem.isSome → f.void = false)
    (he : f.void = true ∨ ∃ b, e = .ret b) : cLost f ⟨P'.mem, 0, P'.out⟩ e = 0 := by
  cases hm : P'.mem with
  | none => cases e <;> simp [cLost]
  | some x =>
    cases e with
    | ret b =>
      have h1 := hr b rfl (by rw [hm]; rfl)
      have h2 := hv b rfl (by rw [hm]; rfl)
      subst h1
      cases hb : f.isResult <;> simp [cLost, h2, hb]
    | _ =>
      rcases he with he | ⟨b, he⟩
      · simp [cLost, he]
      · cases he

/-! ## The initialisation of a module -/

theorem deallocs_none {α : Type} (temp : α → Bool) (vs ds body : List α) (i : Nat)
    (h : ∀ v ∈ vs, temp v = false) : moduleDeallocs temp vs i ds body = some (body, ds) := by
  induction vs generalizing i with
  | nil => rfl
  | cons v vs ih =>
    rw [moduleDeallocs, h v (by simp)]
    exact ih (i + 1) (fun w hw => h w (by simp [hw]))

theorem deallocs_one {α : Type} (temp : α → Bool) (a : List α) (t : α) (b : List α) (pre : List α)
    (ha : ∀ v ∈ a, temp v = false) (ht : temp t = true) (hb : ∀ v ∈ b, temp v = false) :
    moduleDeallocs temp (a ++ t :: b) pre.length (pre ++ (a ++ t :: b)) [] =
      some ([t], pre ++ (a ++ b)) := by
  induction a generalizing pre with
  | nil =>
    simp only [List.nil_append]
    rw [moduleDeallocs, if_pos ht]
    simp only [List.length_append, List.length_cons, Nat.lt_add_right_iff_pos, Nat.zero_lt_succ,
      List.getElem?_append_right (Nat.le_refl _), Nat.sub_self, List.getElem?_cons_zero]
    rw [deallocs_none temp b _ _ _ hb]
    rw [List.eraseIdx_append_of_length_le (Nat.le_refl _)]
    simp
  | cons v a ih =>
    rw [List.cons_append, moduleDeallocs, ha v (by simp)]
    have := ih (pre ++ [v]) (fun w hw => ha w (by simp [hw]))
    simp only [List.length_append, List.length_singleton, List.append_assoc, List.singleton_append]
      at this
    simpa using this

end Verif.Memory.Lemmas
