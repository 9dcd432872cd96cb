import Verif.Lifetimes.LemmasMem

/-
Releasing references never goes wrong, and leaves alone everything which is still
referenced.
-/
namespace Verif.Lifetimes.C

structure Inv (s : State) (pend : List Nat) : Prop where
  m : MInv s.objs s.mem
  o : OInv s.objs (s.vars.map Prod.snd) pend

/-- What releasing references does not change. -/
structure Kept (s s' : State) : Prop where
  vars : s'.vars = s.vars
  leaked : s'.leaked = s.leaked
  kinds : s'.objs.map PyObj.kind = s.objs.map PyObj.kind
  dlen : s'.mem.data.length = s.mem.data.length
  ilen : s'.mem.insts.length = s.mem.insts.length
  data : ∀ (d : Nat) (v : Int), s'.mem.data[d]? = some (some v) → s.mem.data[d]? = some (some v)
  insts : ∀ (b : Nat) (i : Inst), s'.mem.insts[b]? = some (some i) → s.mem.insts[b]? = some (some i)
  refs : ∀ (o : Nat) (p' : PyObj), s'.objs[o]? = some p' →
    ∃ p : PyObj, s.objs[o]? = some p ∧ ∀ r ∈ p'.refs, r ∈ p.refs

theorem Kept.refl (s : State) : Kept s s :=
  ⟨rfl, rfl, rfl, rfl, rfl, fun _ _ h => h, fun _ _ h => h, fun _ p hp => ⟨p, hp, fun _ h => h⟩⟩

theorem Kept.trans {a b c} (h : Kept a b) (h' : Kept b c) : Kept a c :=
  ⟨h'.vars.trans h.vars, h'.leaked.trans h.leaked, h'.kinds.trans h.kinds,
    h'.dlen.trans h.dlen, h'.ilen.trans h.ilen,
    fun d v hd => h.data d v (h'.data d v hd), fun b i hi => h.insts b i (h'.insts b i hi),
    fun o p'' hp => by
      obtain ⟨p', h1, h2⟩ := h'.refs o p'' hp
      obtain ⟨p, h3, h4⟩ := h.refs o p' h1
      exact ⟨p, h3, fun r hr => h4 r (h2 r hr)⟩⟩

theorem refs_set {os : List PyObj} {o : Nat} {p q : PyObj} (h : os[o]? = some p)
    (hq : ∀ r ∈ q.refs, r ∈ p.refs) (a : Nat) (p' : PyObj) (hp : (os.set o q)[a]? = some p') :
    ∃ p : PyObj, os[a]? = some p ∧ ∀ r ∈ p'.refs, r ∈ p.refs := by
  by_cases ha : o = a
  · subst ha
    rw [List.getElem?_set_self (lt_of_get h)] at hp
    cases hp
    exact ⟨p, h, hq⟩
  · rw [List.getElem?_set_ne ha] at hp
    exact ⟨p', hp, fun _ h => h⟩

theorem map_kind_set {os : List PyObj} {o : Nat} {p q : PyObj} (h : os[o]? = some p)
    (hk : q.kind = p.kind) : (os.set o q).map PyObj.kind = os.map PyObj.kind := by
  rw [List.map_set]
  apply List.ext_getElem?
  intro i
  rw [List.getElem?_set]
  by_cases hi : o = i
  · subst hi
    rw [List.getElem?_map, h]
    simp [lt_of_get h, hk]
  · simp [hi]

/-- The same objects, with other counts but the same ones alive, and more references. -/
structure Grow (os os' : List PyObj) : Prop where
  len : os'.length = os.length
  get : ∀ (o : Nat) (p : PyObj), os[o]? = some p → ∃ p' : PyObj, os'[o]? = some p' ∧
    p'.kind = p.kind ∧ (p.rc = 0 ↔ p'.rc = 0) ∧ ∀ r ∈ p.refs, r ∈ p'.refs

theorem Grow.back {os os'} (h : Grow os os') {o : Nat} {p' : PyObj} (hp : os'[o]? = some p') :
    ∃ p : PyObj, os[o]? = some p ∧ p'.kind = p.kind ∧ (p.rc = 0 ↔ p'.rc = 0) ∧
      ∀ r ∈ p.refs, r ∈ p'.refs := by
  obtain ⟨p, hq⟩ := get_of_lt (os := os) (o := o) (by have := lt_of_get hp; have := h.len; omega)
  obtain ⟨q, h1, h2, h3, h4⟩ := h.get o p hq
  rw [hp] at h1; cases h1
  exact ⟨p, hq, h2, h3, h4⟩

theorem Grow.keeps {os os'} (h : Grow os os') {a w} (hk : Keeps os a w) : Keeps os' a w := by
  induction hk with
  | refl => exact .refl _
  | step hp hq _ ih =>
    obtain ⟨p', h1, _, _, h4⟩ := h.get _ _ hp
    exact .step h1 (h4 _ hq) ih

theorem Grow.ownB {os os'} (h : Grow os os') {w b} : OwnB os' w b ↔ OwnB os w b := by
  constructor
  · rintro ⟨p', hp, h0, hk⟩
    obtain ⟨p, h1, h2, h3, _⟩ := h.back hp
    exact ⟨p, h1, fun hc => h0 (h3.1 hc), h2 ▸ hk⟩
  · rintro ⟨p, hp, h0, hk⟩
    obtain ⟨p', h1, h2, h3, _⟩ := h.get _ _ hp
    exact ⟨p', h1, fun hc => h0 (h3.2 hc), h2.trans hk⟩

theorem Grow.ownD {os os'} (h : Grow os os') {m w d} : OwnD os' m w d ↔ OwnD os m w d := by
  constructor
  · rintro (⟨p', hp, h0, hk⟩ | ⟨b, i, hb, hi, hd⟩)
    · obtain ⟨p, h1, h2, h3, _⟩ := h.back hp
      exact .inl ⟨p, h1, fun hc => h0 (h3.1 hc), h2 ▸ hk⟩
    · exact .inr ⟨b, i, h.ownB.1 hb, hi, hd⟩
  · rintro (⟨p, hp, h0, hk⟩ | ⟨b, i, hb, hi, hd⟩)
    · obtain ⟨p', h1, h2, h3, _⟩ := h.get _ _ hp
      exact .inl ⟨p', h1, fun hc => h0 (h3.2 hc), h2.trans hk⟩
    · exact .inr ⟨b, i, h.ownB.2 hb, hi, hd⟩

theorem Grow.cov {os os'} (h : Grow os os') {m o r} (hc : Cov os m o r) : Cov os' m o r := by
  cases r with
  | none => trivial
  | num => trivial
  | arr d => obtain ⟨w, h1, h2⟩ := hc; exact ⟨w, h.keeps h1, h.ownD.2 h2⟩
  | obj d => obtain ⟨w, h1, h2⟩ := hc; exact ⟨w, h.keeps h1, h.ownB.2 h2⟩

theorem Grow.minv {os os'} (h : Grow os os') {m} (hm : MInv os m) : MInv os' m := by
  refine ⟨?_, ?_, ?_, ?_, ?_, ?_, ?_⟩
  · intro w b hb
    obtain ⟨i, hi, ho⟩ := hm.inst w b (h.ownB.1 hb)
    exact ⟨i, hi, ho.outside, ho.nodup, fun f hf =>
      ⟨(ho.fields f hf).nosub, (ho.fields f hf).data, h.cov (ho.fields f hf).cov⟩⟩
  · intro w d p' hp h0 hk
    obtain ⟨p, h1, h2, h3, _⟩ := h.back hp
    exact hm.arr w d p h1 (fun hc => h0 (h3.1 hc)) (h2 ▸ hk)
  · intro w w' d h1 h2; exact hm.uniqD w w' d (h.ownD.1 h1) (h.ownD.1 h2)
  · intro w w' d h1 h2; exact hm.uniqB w w' d (h.ownB.1 h1) (h.ownB.1 h2)
  · intro d v hd; obtain ⟨w, hw⟩ := hm.aliveD d v hd; exact ⟨w, h.ownD.2 hw⟩
  · intro d v hd; obtain ⟨w, hw⟩ := hm.aliveB d v hd; exact ⟨w, h.ownB.2 hw⟩
  · intro o p' hp h0
    obtain ⟨p, h1, h2, h3, _⟩ := h.back hp
    rw [h2]
    exact h.cov (hm.cov o p h1 fun hc => h0 (h3.1 hc))

theorem Grow.refl (os : List PyObj) : Grow os os :=
  ⟨rfl, fun _ p hp => ⟨p, hp, rfl, Iff.rfl, fun _ h => h⟩⟩

theorem Grow.trans {a b c} (h : Grow a b) (h' : Grow b c) : Grow a c := by
  refine ⟨h'.len.trans h.len, fun o p hp => ?_⟩
  obtain ⟨q, h1, h2, h3, h4⟩ := h.get o p hp
  obtain ⟨r, k1, k2, k3, k4⟩ := h'.get o q h1
  exact ⟨r, k1, k2.trans h2, h3.trans k3, fun x hx => k4 x (h4 x hx)⟩

theorem grow_set {os : List PyObj} {o : Nat} {p q : PyObj} (hp : os[o]? = some p)
    (hk : q.kind = p.kind) (hr : p.rc = 0 ↔ q.rc = 0) (hs : ∀ r ∈ p.refs, r ∈ q.refs) :
    Grow os (os.set o q) := by
  refine ⟨by simp, fun x p' hx => ?_⟩
  by_cases hxo : x = o
  · subst hxo
    rw [hp] at hx; cases hx
    exact ⟨q, List.getElem?_set_self (lt_of_get hp), hk, hr, hs⟩
  · exact ⟨p', by rw [List.getElem?_set_ne (Ne.symm hxo)]; exact hx, rfl, Iff.rfl, fun _ h => h⟩

theorem release_ok (n : Nat) (ps : List Nat) (s : State) (h : Inv s ps) (hn : total s ≤ n) :
    ∃ s', release n ps s = .ok s' ∧ Inv s' [] ∧ Kept s s' := by
  induction n generalizing ps s with
  | zero =>
    cases ps with
    | nil => exact ⟨s, rfl, h, Kept.refl s⟩
    | cons o ps =>
      obtain ⟨p, hp, h0⟩ := h.o.live_pend (List.mem_cons_self ..)
      have := rc_le_sum hp
      simp only [total] at hn
      omega
  | succ n ih =>
    cases ps with
    | nil => exact ⟨s, rfl, h, Kept.refl s⟩
    | cons o ps =>
      obtain ⟨p, hp, h0⟩ := h.o.live_pend (List.mem_cons_self ..)
      by_cases h1 : p.rc = 1
      · obtain ⟨hv, hfl, _⟩ := h.o.unref hp h1
        obtain ⟨m', d0, d1, d2, d3, d4, d5, d6⟩ := destroy_ok h.m hp h0
        have hm := kill_minv (k := p.kind) (m' := m') h.m hp h0 hfl d3 d4 d5 d6
        have ho := h.o.kill (k := p.kind) hp h1
        have hs := sum_set (q := ⟨p.kind, [], 0⟩) hp
        obtain ⟨s', r1, r2, r3⟩ := ih (p.refs ++ ps)
          { s with mem := m', objs := s.objs.set o ⟨p.kind, [], 0⟩ } ⟨hm, ho⟩
          (by simp only [total] at hn ⊢; dsimp only at hs; omega)
        refine ⟨s', ?_, r2, Kept.trans ?_ r3⟩
        · simp only [release, hp, h0, h1, if_false, if_true, d0, Res.bind]
          exact r1
        · refine ⟨rfl, rfl, map_kind_set hp rfl, d1, d2, ?_, ?_, refs_set hp (by simp)⟩
          · intro d v hd
            by_cases hc : OwnD s.objs s.mem o d
            · exact absurd hd (d5 d hc v)
            · rw [← d6 d hc]; exact hd
          · intro b i hi
            by_cases hc : OwnB s.objs o b
            · exact absurd hi (d3 b hc i)
            · rw [← d4 b hc]; exact hi
      · have h2 : 2 ≤ p.rc := by omega
        have hs := sum_set (q := { p with rc := p.rc - 1 }) hp
        obtain ⟨s', r1, r2, r3⟩ := ih ps
          { s with objs := s.objs.set o { p with rc := p.rc - 1 } }
          ⟨(grow_set (q := { p with rc := p.rc - 1 }) hp rfl
            (show p.rc = 0 ↔ p.rc - 1 = 0 by omega) (fun _ h => h)).minv h.m, h.o.decr hp h2⟩
          (by simp only [total] at hn ⊢; dsimp only at hs; omega)
        refine ⟨s', ?_, r2, Kept.trans ?_ r3⟩
        · simp only [release, hp, h0, h1, if_false]
          exact r1
        · exact ⟨rfl, rfl, map_kind_set hp rfl, rfl, rfl, fun _ _ h => h, fun _ _ h => h,
            refs_set hp (fun _ h => h)⟩

theorem drop_ok (ps : List Nat) (s : State) (h : Inv s ps) :
    ∃ s', drop ps s = .ok s' ∧ Inv s' [] ∧ Kept s s' := release_ok _ _ _ h (Nat.le_refl _)

theorem filter_count (vars : List (Nat × Nat)) (x o : Nat) :
    ((vars.filter (fun e => !(e.1 == x))).map Prod.snd).count o +
      ((vars.filter (fun e => e.1 == x)).map Prod.snd).count o = (vars.map Prod.snd).count o := by
  induction vars with
  | nil => rfl
  | cons e vars ih =>
    by_cases h : e.1 == x
    · simp [List.filter_cons, h, List.count_cons] at ih ⊢; omega
    · simp [List.filter_cons, h, List.count_cons] at ih ⊢; omega

/-- `x = …` -/
theorem assign_ok {s : State} {x o : Nat} (h : Inv s [o]) :
    ∃ s' s1, assign s x o = .ok s' ∧ Inv s' [] ∧ Kept s1 s' ∧
      s1 = { s with vars := (x, o) :: s.vars.filter (fun e => !(e.1 == x)) } := by
  have h' : Inv { (unbind s x).2 with vars := (x, o) :: (unbind s x).2.vars } (unbind s x).1 := by
    refine ⟨h.m, h.o.perm fun y => ?_⟩
    have := filter_count s.vars x y
    simp only [unbind, List.map_cons, List.count_cons, List.count_nil]
    omega
  obtain ⟨s', r1, r2, r3⟩ := drop_ok _ _ h'
  exact ⟨s', _, r1, r2, r3, rfl⟩

/-- `del x` -/
theorem unbind_ok {s : State} {x : Nat} (h : Inv s []) :
    ∃ s' s1, drop (unbind s x).1 (unbind s x).2 = .ok s' ∧ Inv s' [] ∧ Kept s1 s' ∧
      s1 = { s with vars := s.vars.filter (fun e => !(e.1 == x)) } := by
  have h' : Inv (unbind s x).2 (unbind s x).1 := by
    refine ⟨h.m, h.o.perm fun y => ?_⟩
    have := filter_count s.vars x y
    simp only [unbind, List.count_nil]
    omega
  obtain ⟨s', r1, r2, r3⟩ := drop_ok _ _ h'
  exact ⟨s', _, r1, r2, r3, rfl⟩

end Verif.Lifetimes.C
