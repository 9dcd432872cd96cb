import Verif.Lifetimes.LemmasInit

/-
The state of the compiled program and the state of the Python program.
-/
namespace Verif.Lifetimes.C

/-- Objects which reference nothing: numbers, and arrays which own their elements. -/
def Kind.isLeaf : Kind → Bool
  | .num _ => true
  | .arr _ owns => owns
  | .inst .. => false

/-- References go from newer to older objects, or to objects which reference nothing. -/
def Ranked (os : List PyObj) : Prop :=
  ∀ (o r : Nat) (p q : PyObj), os[o]? = some p → r ∈ p.refs → os[r]? = some q →
    p.kind.isLeaf = false ∧ (q.kind.isLeaf = true ∨ r < o)

/-- The kind of object a variable refers to. -/
def kindOf (vars : List (Nat × Nat)) (ks : List Kind) (x : Nat) : Option Kind :=
  (vars.find? (fun e => e.1 == x)).bind fun e => ks[e.2]?

def optVal : Option Kind → Py.Val
  | some k => k.ref.val
  | Option.none => .none

/-- The variables have the right values, and are what is known of them. -/
structure VarsR (w : Nat → Known) (vars : List (Nat × Nat)) (ks : List Kind) (env : Py.Env) :
    Prop where
  env : ∀ x, env x = optVal (kindOf vars ks x)
  own : ∀ x, w x = .own → ∃ b, kindOf vars ks x = some (.inst b false)
  leaf : ∀ x, w x = .leaf → ∃ k, kindOf vars ks x = some k ∧ k.isLeaf = true

def kinds (os : List PyObj) : List Kind := os.map PyObj.kind

structure Rel (g : Bool) (w : Nat → Known) (s : State) (ps : Py.State) : Prop where
  inv : Inv s []
  heap : HeapR s.mem ps.heap
  vars : VarsR w s.vars (kinds s.objs) ps.env
  ranked : g = true → Ranked s.objs

/-- What is known of an object. -/
def Fits (n : Known) (k : Kind) : Prop :=
  (n = .own → ∃ b, k = .inst b false) ∧ (n = .leaf → k.isLeaf = true)

theorem kindOf_cons (vars : List (Nat × Nat)) (ks : List Kind) (x o y : Nat) :
    kindOf ((x, o) :: vars.filter (fun e => !(e.1 == x))) ks y =
      if y = x then ks[o]? else kindOf vars ks y := by
  by_cases h : y = x
  · subst h; simp [kindOf]
  · simp only [kindOf, h, if_false]
    rw [List.find?_cons_of_neg (by simpa using fun hc => h hc.symm), List.find?_filter]
    congr 2
    funext e
    by_cases he : e.1 = y
    · simp [he, h]
    · simp [he]

theorem kindOf_filter (vars : List (Nat × Nat)) (ks : List Kind) (x y : Nat) :
    kindOf (vars.filter (fun e => !(e.1 == x))) ks y =
      if y = x then Option.none else kindOf vars ks y := by
  by_cases h : y = x
  · subst h
    simp only [kindOf, if_true]
    rw [List.find?_eq_none.2]
    · rfl
    · intro e he; simp at he ⊢; exact he.2
  · simp only [kindOf, h, if_false]
    rw [List.find?_filter]
    congr 2
    funext e
    by_cases he : e.1 = y
    · simp [he, h]
    · simp [he]

theorem VarsR.bind {w vars ks env x o k n} (h : VarsR w vars ks env) (hk : ks[o]? = some k)
    (hf : Fits n k) :
    VarsR (Known.set w x n) ((x, o) :: vars.filter (fun e => !(e.1 == x))) ks
      (Py.upd env x k.ref.val) := by
  refine ⟨fun y => ?_, fun y hy => ?_, fun y hy => ?_⟩
  · rw [kindOf_cons]
    by_cases hyx : y = x
    · simp [Py.upd, hyx, hk, optVal]
    · simp only [Py.upd, hyx, if_false]; exact h.env y
  · rw [kindOf_cons]
    by_cases hyx : y = x
    · simp only [Known.set, hyx, if_true] at hy
      obtain ⟨b, hb⟩ := hf.1 hy
      exact ⟨b, by simp [hyx, hk, hb]⟩
    · simp only [Known.set, hyx, if_false] at hy ⊢
      exact h.own y hy
  · rw [kindOf_cons]
    by_cases hyx : y = x
    · simp only [Known.set, hyx, if_true] at hy
      exact ⟨k, by simp [hyx, hk], hf.2 hy⟩
    · simp only [Known.set, hyx, if_false] at hy ⊢
      exact h.leaf y hy

theorem VarsR.unbind {w vars ks env x n} (h : VarsR w vars ks env) (h1 : n ≠ .own) (h2 : n ≠ .leaf) :
    VarsR (Known.set w x n) (vars.filter (fun e => !(e.1 == x))) ks (Py.upd env x .none) := by
  refine ⟨fun y => ?_, fun y hy => ?_, fun y hy => ?_⟩
  · rw [kindOf_filter]
    by_cases hyx : y = x
    · simp [Py.upd, hyx, optVal]
    · simp only [Py.upd, hyx, if_false]; exact h.env y
  · rw [kindOf_filter]
    by_cases hyx : y = x
    · simp only [Known.set, hyx, if_true] at hy; exact absurd hy h1
    · simp only [Known.set, hyx, if_false] at hy ⊢
      exact h.own y hy
  · rw [kindOf_filter]
    by_cases hyx : y = x
    · simp only [Known.set, hyx, if_true] at hy; exact absurd hy h2
    · simp only [Known.set, hyx, if_false] at hy ⊢
      exact h.leaf y hy

theorem kindOf_push {vars : List (Nat × Nat)} {ks : List Kind} (k : Kind)
    (h : ∀ o ∈ vars.map Prod.snd, o < ks.length) (x : Nat) :
    kindOf vars (ks ++ [k]) x = kindOf vars ks x := by
  simp only [kindOf]
  cases hf : vars.find? (fun e => e.1 == x) with
  | none => rfl
  | some e =>
    have := h e.2 (List.mem_map_of_mem (List.mem_of_find?_eq_some hf))
    simp [List.getElem?_append_left this]

theorem VarsR.push {w vars ks env} (k : Kind) (h : VarsR w vars ks env)
    (hb : ∀ o ∈ vars.map Prod.snd, o < ks.length) : VarsR w vars (ks ++ [k]) env :=
  ⟨fun x => by rw [kindOf_push k hb]; exact h.env x,
   fun x hx => by rw [kindOf_push k hb]; exact h.own x hx,
   fun x hx => by rw [kindOf_push k hb]; exact h.leaf x hx⟩

theorem Grow.kinds {os os'} (h : Grow os os') : kinds os' = kinds os := by
  apply List.ext_getElem?
  intro i
  simp only [C.kinds, List.getElem?_map]
  cases hi : os[i]? with
  | none =>
    have := List.getElem?_eq_none_iff.1 hi
    rw [List.getElem?_eq_none_iff.2 (by rw [h.len]; exact this)]
  | some p =>
    obtain ⟨p', h1, h2, _⟩ := h.get i p hi
    rw [h1]; simp [h2]

theorem kinds_get {os : List PyObj} {o : Nat} {k : Kind} :
    (kinds os)[o]? = some k ↔ ∃ p : PyObj, os[o]? = some p ∧ p.kind = k := by
  simp [kinds]

theorem Kept.heap {s s' h} (hk : Kept s s') (hH : HeapR s.mem h) : HeapR s'.mem h :=
  ⟨by rw [hk.dlen]; exact hH.dl, by rw [hk.ilen]; exact hH.ol,
   fun d v hd => hH.data d v (hk.data d v hd), fun b i hi => hH.insts b i (hk.insts b i hi)⟩

theorem ranked_of {os os' : List PyObj} (h : Ranked os) (hk : kinds os' = kinds os)
    (hr : ∀ (o : Nat) (p' : PyObj), os'[o]? = some p' →
      ∃ p : PyObj, os[o]? = some p ∧ ∀ r ∈ p'.refs, r ∈ p.refs) : Ranked os' := by
  intro o r p' q' hp hm hq
  obtain ⟨p, h1, h2⟩ := hr o p' hp
  obtain ⟨q, h3, h4⟩ := kinds_get.1 (show (kinds os)[r]? = some q'.kind by
    rw [← hk]; exact kinds_get.2 ⟨q', hq, rfl⟩)
  obtain ⟨p2, h5, h6⟩ := kinds_get.1 (show (kinds os)[o]? = some p'.kind by
    rw [← hk]; exact kinds_get.2 ⟨p', hp, rfl⟩)
  rw [h1] at h5; cases h5
  obtain ⟨a, b⟩ := h o r p q h1 (h2 r hm) h3
  exact ⟨h6 ▸ a, h4 ▸ b⟩

/-- `x = …` -/
theorem assign_rel {g w s h env x o p n} (hi : Inv s [o]) (hH : HeapR s.mem h)
    (hv : VarsR w s.vars (kinds s.objs) env) (hr : g = true → Ranked s.objs)
    (hp : s.objs[o]? = some p) (hf : Fits n p.kind) :
    ∃ s', assign s x o = .ok s' ∧
      Rel g (Known.set w x n) s' ⟨h, Py.upd env x p.kind.ref.val⟩ := by
  obtain ⟨s', s1, a1, a2, a3, rfl⟩ := assign_ok (x := x) hi
  refine ⟨s', a1, a2, a3.heap hH, ?_, fun hg => ranked_of (hr hg) a3.kinds a3.refs⟩
  rw [a3.vars]
  rw [show kinds s'.objs = kinds s.objs from a3.kinds]
  exact hv.bind (kinds_get.2 ⟨p, hp, rfl⟩) hf

/-- `del x` -/
theorem unbind_rel {g w s ps x n} (hR : Rel g w s ps) (h1 : n ≠ .own) (h2 : n ≠ .leaf) :
    ∃ s', drop (unbind s x).1 (unbind s x).2 = .ok s' ∧
      Rel g (Known.set w x n) s' ⟨ps.heap, Py.upd ps.env x .none⟩ := by
  obtain ⟨s', s1, a1, a2, a3, rfl⟩ := unbind_ok (x := x) hR.inv
  refine ⟨s', a1, a2, a3.heap hR.heap, ?_, fun hg => ranked_of (hR.ranked hg) a3.kinds a3.refs⟩
  rw [a3.vars]
  rw [show kinds s'.objs = kinds s.objs from a3.kinds]
  exact hR.vars.unbind h1 h2

theorem appendAll_refs (rs : List Nat) (os : List PyObj) (o : Nat) (a : Nat) (p' : PyObj)
    (h : (appendAll os o rs)[a]? = some p') : ∃ p : PyObj, os[a]? = some p ∧ p'.kind = p.kind ∧
      ∀ r ∈ p'.refs, r ∈ p.refs ∨ (a = o ∧ r ∈ rs) := by
  induction rs generalizing os with
  | nil => exact ⟨p', h, rfl, fun r hr => .inl hr⟩
  | cons x rs ih =>
    obtain ⟨p1, h1, h2, h3⟩ := ih (append os o x) h
    simp only [append, List.getElem?_modify, incref_get] at h1
    cases ha : os[a]? with
    | none => rw [ha] at h1; simp at h1
    | some p =>
      rw [ha] at h1
      refine ⟨p, rfl, ?_, fun r hr => ?_⟩
      · rw [h2]
        simp at h1
        subst h1
        by_cases e2 : a = x
        · subst e2; by_cases e1 : o = a <;> simp [e1]
        · by_cases e1 : o = a <;> simp [e1, e2]
      · rcases h3 r hr with h3 | ⟨e, h3⟩
        · simp at h1
          subst h1
          have hre : (if a = x then { p with rc := p.rc + 1 } else p).refs = p.refs := by
            split <;> rfl
          by_cases e1 : o = a
          · rw [if_pos e1] at h3
            simp only [hre] at h3
            rcases List.mem_append.1 h3 with h3 | h3
            · exact .inl h3
            · exact .inr ⟨e1.symm, by simp at h3; simp [h3]⟩
          · rw [if_neg e1, hre] at h3
            exact .inl h3
        · exact .inr ⟨e, List.mem_cons_of_mem _ h3⟩

theorem ranked_appendAll {os : List PyObj} {o : Nat} {rs : List Nat} (hr : Ranked os)
    (hk : ∀ p : PyObj, os[o]? = some p → p.kind.isLeaf = false ∨ rs = [])
    (hlt : ∀ r ∈ rs, ∀ q : PyObj, os[r]? = some q → q.kind.isLeaf = true ∨ r < o) :
    Ranked (appendAll os o rs) := by
  intro a r p' q' hp hm hq
  obtain ⟨p, h1, h2, h3⟩ := appendAll_refs rs os o a p' hp
  obtain ⟨q, k1, k2, _⟩ := appendAll_refs rs os o r q' hq
  rw [h2, k2]
  rcases h3 r hm with h | ⟨rfl, h⟩
  · exact hr a r p q h1 h k1
  · refine ⟨?_, hlt r h q k1⟩
    rcases hk p h1 with h' | h'
    · exact h'
    · subst h'; simp at h

theorem ranked_push {os : List PyObj} {k : Kind} (hr : Ranked os)
    (hb : ∀ o ∈ flat os, o < os.length) : Ranked (os ++ [⟨k, [], 1⟩]) := by
  intro a r p q hp hm hq
  have hl : a < os.length := by
    have := lt_of_get hp
    simp at this
    rcases Nat.lt_or_ge a os.length with h | h
    · exact h
    · have : a = os.length := by omega
      subst this
      simp at hp
      subst hp
      simp at hm
  rw [List.getElem?_append_left hl] at hp
  have := hb r (mem_flat.2 ⟨a, p, hp, hm⟩)
  rw [List.getElem?_append_left this] at hq
  exact hr a r p q hp hm hq

/-- What a new object references looks at is kept alive by the new object. -/
theorem cov_new {os os' k m m' q r} (hP : Plus os os' k) (hM : MInv os m) (hE : MemExt m m')
    (hq : ∃ p : PyObj, os'[os.length]? = some p ∧ q ∈ p.refs) (hc : Cov os m q r) :
    Cov os' m' os.length r := by
  obtain ⟨p, hp, hm⟩ := hq
  have := plus_cov hP hM hE hc
  cases r with
  | none => trivial
  | num => trivial
  | arr d => obtain ⟨w, h1, h2⟩ := this; exact ⟨w, .step hp hm h1, h2⟩
  | obj d => obtain ⟨w, h1, h2⟩ := this; exact ⟨w, .step hp hm h1, h2⟩

/-- `x = …` for a new object which references `rs`. -/
theorem new_rel {g w s ps x k rs m' h' n} {leaked : Nat} (hR : Rel g w s ps)
    (hl : ∀ r ∈ rs, LiveO s.objs r) (hk : k.isLeaf = true → rs = []) (hf : Fits n k)
    (hH : HeapR m' h')
    (hM : ∀ os', Plus s.objs os' k →
      (∀ r ∈ rs, ∃ p : PyObj, os'[s.objs.length]? = some p ∧ r ∈ p.refs) → MInv os' m') :
    ∃ s', assignNew { newWith { s with mem := m' } k rs with leaked := leaked } x = .ok s' ∧
      Rel g (Known.set w x n) s' ⟨h', Py.upd ps.env x k.ref.val⟩ := by
  have hpush := hR.inv.o.push (k := k)
  have hnew : LiveO (s.objs ++ [⟨k, [], 1⟩]) s.objs.length := ⟨⟨k, [], 1⟩, by simp, by simp⟩
  have hl' : ∀ r ∈ rs, LiveO (s.objs ++ [⟨k, [], 1⟩]) r := fun r hr => by
    obtain ⟨p, h1, h2⟩ := hl r hr
    exact ⟨p, by rw [List.getElem?_append_left (lt_of_get h1)]; exact h1, h2⟩
  obtain ⟨a1, a2, a3⟩ := appendAll_ok (o := s.objs.length) rs hpush hnew hl'
  have hP := plus_of_grow a2
  have hMi := hM _ hP a3
  obtain ⟨p, hp, hpk, _⟩ := hP.new
  have hlen : (appendAll (s.objs ++ [⟨k, [], 1⟩]) s.objs.length rs).length = s.objs.length + 1 := hP.len
  have := assign_rel (g := g) (w := w) (x := x) (n := n) (env := ps.env)
    (s := { newWith { s with mem := m' } k rs with leaked := leaked }) (o := s.objs.length) (p := p)
    ⟨hMi, a1⟩ hH ?_ ?_ hp (hpk ▸ hf)
  · obtain ⟨s', e1, e2⟩ := this
    refine ⟨s', ?_, hpk ▸ e2⟩
    show assign _ x _ = _
    rw [← e1]
    congr 1
    show (appendAll (s.objs ++ [⟨k, [], 1⟩]) s.objs.length rs).length - 1 = _
    omega
  · show VarsR w s.vars (kinds (appendAll (s.objs ++ [⟨k, [], 1⟩]) s.objs.length rs)) ps.env
    rw [a2.kinds]
    simp only [kinds, List.map_append, List.map_cons, List.map_nil]
    exact hR.vars.push k (fun o ho => by simpa [kinds] using hR.inv.o.bvars o ho)
  · intro hg
    show Ranked (appendAll (s.objs ++ [⟨k, [], 1⟩]) s.objs.length rs)
    refine ranked_appendAll (ranked_push (hR.ranked hg) hR.inv.o.brefs) ?_ ?_
    · intro q hq
      simp at hq; subst hq
      cases hkl : k.isLeaf
      · exact .inl rfl
      · exact .inr (hk hkl)
    · intro r hr q _
      obtain ⟨p, h1, _⟩ := hl r hr
      exact .inr (lt_of_get h1)

end Verif.Lifetimes.C
