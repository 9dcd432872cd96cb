import Verif.Lifetimes.Model

/-
Reference counts: the count of every object is the number of its references (from
variables, from other objects and from the list of objects still to be released).
-/
namespace Verif.Lifetimes.C

/-- All references held by objects. -/
def flat (os : List PyObj) : List Nat := os.flatMap PyObj.refs

theorem flat_append (a b : List PyObj) : flat (a ++ b) = flat a ++ flat b := by simp [flat]

theorem flat_set {os : List PyObj} {o : Nat} {p q : PyObj} (h : os[o]? = some p) (x : Nat) :
    (flat (os.set o q)).count x + p.refs.count x = (flat os).count x + q.refs.count x := by
  induction os generalizing o with
  | nil => simp at h
  | cons a os ih =>
    cases o with
    | zero =>
      simp at h; subst h
      simp [flat]; omega
    | succ o =>
      simp at h
      have := ih h
      simp [flat] at this ⊢
      omega

theorem mem_flat {os : List PyObj} {x : Nat} :
    x ∈ flat os ↔ ∃ (o : Nat) (p : PyObj), os[o]? = some p ∧ x ∈ p.refs := by
  simp only [flat, List.mem_flatMap]
  constructor
  · rintro ⟨p, hp, hx⟩
    obtain ⟨o, ho⟩ := List.getElem?_of_mem hp
    exact ⟨o, p, ho, hx⟩
  · rintro ⟨o, p, ho, hx⟩
    exact ⟨p, List.mem_of_getElem? ho, hx⟩

/-- The counts are right. -/
structure OInv (os : List PyObj) (vars : List Nat) (pend : List Nat) : Prop where
  bvars : ∀ o ∈ vars, o < os.length
  brefs : ∀ o ∈ flat os, o < os.length
  bpend : ∀ o ∈ pend, o < os.length
  dead : ∀ (o : Nat) (p : PyObj), os[o]? = some p → p.rc = 0 → p.refs = []
  rc : ∀ (o : Nat) (p : PyObj), os[o]? = some p → p.rc = vars.count o + (flat os).count o + pend.count o

theorem lt_of_get {os : List PyObj} {o : Nat} {p : PyObj} (h : os[o]? = some p) : o < os.length := by
  rcases List.getElem?_eq_some_iff.1 h with ⟨hl, _⟩; exact hl

theorem get_of_lt {os : List PyObj} {o : Nat} (h : o < os.length) : ∃ p : PyObj, os[o]? = some p :=
  ⟨_, List.getElem?_eq_getElem h⟩

/-- Something which is referenced is alive. -/
theorem OInv.live_var {os vars pend} (h : OInv os vars pend) {o} (ho : o ∈ vars) :
    ∃ p : PyObj, os[o]? = some p ∧ p.rc ≠ 0 := by
  obtain ⟨p, hp⟩ := get_of_lt (h.bvars o ho)
  refine ⟨p, hp, ?_⟩
  have := h.rc o p hp
  have := List.count_pos_iff.2 ho
  omega

theorem OInv.live_pend {os vars pend} (h : OInv os vars pend) {o} (ho : o ∈ pend) :
    ∃ p : PyObj, os[o]? = some p ∧ p.rc ≠ 0 := by
  obtain ⟨p, hp⟩ := get_of_lt (h.bpend o ho)
  refine ⟨p, hp, ?_⟩
  have := h.rc o p hp
  have := List.count_pos_iff.2 ho
  omega

theorem OInv.live_ref {os vars pend} (h : OInv os vars pend) {o q : Nat} {p : PyObj} (hq : os[q]? = some p)
    (ho : o ∈ p.refs) : ∃ p : PyObj, os[o]? = some p ∧ p.rc ≠ 0 := by
  have hf : o ∈ flat os := mem_flat.2 ⟨q, p, hq, ho⟩
  obtain ⟨p', hp⟩ := get_of_lt (h.brefs o hf)
  refine ⟨p', hp, ?_⟩
  have := h.rc o p' hp
  have := List.count_pos_iff.2 hf
  omega

theorem flat_set_same {os : List PyObj} {o : Nat} {p q : PyObj} (h : os[o]? = some p)
    (hr : q.refs = p.refs) : flat (os.set o q) = flat os := by
  induction os generalizing o with
  | nil => simp at h
  | cons a os ih =>
    cases o with
    | zero => simp at h; subst h; simp [flat, hr]
    | succ o => simp at h; have := ih h; simp [flat] at this ⊢; exact this

/-- One reference less. -/
theorem OInv.decr {os vars o ps} {p : PyObj} (h : OInv os vars (o :: ps)) (hp : os[o]? = some p)
    (h2 : 2 ≤ p.rc) : OInv (os.set o { p with rc := p.rc - 1 }) vars ps := by
  have hf : flat (os.set o { p with rc := p.rc - 1 }) = flat os := flat_set_same hp rfl
  refine ⟨by simpa using h.bvars, by rw [hf]; simpa using h.brefs, ?_, ?_, ?_⟩
  · intro x hx; simpa using h.bpend x (List.mem_cons_of_mem _ hx)
  · intro x q hq hq0
    by_cases hxo : x = o
    · subst hxo
      rw [List.getElem?_set_self (lt_of_get hp)] at hq
      cases hq; simp at hq0; omega
    · rw [List.getElem?_set_ne (Ne.symm hxo)] at hq
      exact h.dead x q hq hq0
  · intro x q hq
    rw [hf]
    by_cases hxo : x = o
    · subst hxo
      rw [List.getElem?_set_self (lt_of_get hp)] at hq
      cases hq
      have := h.rc x p hp
      simp at this ⊢; omega
    · rw [List.getElem?_set_ne (Ne.symm hxo)] at hq
      have := h.rc x q hq
      rw [List.count_cons_of_ne (Ne.symm hxo)] at this
      exact this

/-- The last reference is gone. -/
theorem OInv.unref {os vars o ps} {p : PyObj} (h : OInv os vars (o :: ps)) (hp : os[o]? = some p)
    (h1 : p.rc = 1) : o ∉ vars ∧ o ∉ flat os ∧ o ∉ ps := by
  have := h.rc o p hp
  simp at this
  refine ⟨?_, ?_, ?_⟩ <;> intro hc <;> have := List.count_pos_iff.2 hc <;> omega

theorem OInv.kill {os vars o ps k} {p : PyObj} (h : OInv os vars (o :: ps)) (hp : os[o]? = some p)
    (h1 : p.rc = 1) : OInv (os.set o ⟨k, [], 0⟩) vars (p.refs ++ ps) := by
  obtain ⟨hv, hfl, hps⟩ := h.unref hp h1
  have hf := fun x => flat_set (q := ⟨k, [], 0⟩) hp x
  have hsub : ∀ x ∈ flat (os.set o ⟨k, [], 0⟩), x ∈ flat os := by
    intro x hx
    have := List.count_pos_iff.2 hx
    have h2 := hf x
    simp at h2
    apply List.count_pos_iff.1; omega
  have hpr : ∀ x ∈ p.refs, x ∈ flat os := fun x hx => mem_flat.2 ⟨o, p, hp, hx⟩
  refine ⟨by simpa using h.bvars, ?_, ?_, ?_, ?_⟩
  · intro x hx; simpa using h.brefs x (hsub x hx)
  · intro x hx
    rcases List.mem_append.1 hx with hx | hx
    · simpa using h.brefs x (hpr x hx)
    · simpa using h.bpend x (List.mem_cons_of_mem _ hx)
  · intro x q hq hq0
    by_cases hxo : x = o
    · subst hxo
      rw [List.getElem?_set_self (lt_of_get hp)] at hq
      cases hq; rfl
    · rw [List.getElem?_set_ne (Ne.symm hxo)] at hq
      exact h.dead x q hq hq0
  · intro x q hq
    have hfx := hf x
    simp at hfx
    by_cases hxo : x = o
    · subst hxo
      rw [List.getElem?_set_self (lt_of_get hp)] at hq
      cases hq
      have a1 := List.count_eq_zero.2 hv
      have a2 : List.count x (flat (os.set x ⟨k, [], 0⟩)) = 0 :=
        List.count_eq_zero.2 fun hc => hfl (hsub x hc)
      have a3 : List.count x p.refs = 0 := List.count_eq_zero.2 fun hc => hfl (hpr x hc)
      have a4 := List.count_eq_zero.2 hps
      rw [List.count_append]
      show (0 : Nat) = _
      omega
    · rw [List.getElem?_set_ne (Ne.symm hxo)] at hq
      have := h.rc x q hq
      rw [List.count_cons_of_ne (Ne.symm hxo)] at this
      rw [List.count_append]
      omega

/-- Fewer references are counted. -/
theorem sum_set {os : List PyObj} {o : Nat} {p q : PyObj} (h : os[o]? = some p) :
    ((os.set o q).map PyObj.rc).sum + p.rc = (os.map PyObj.rc).sum + q.rc := by
  induction os generalizing o with
  | nil => simp at h
  | cons a os ih =>
    cases o with
    | zero => simp at h; subst h; simp; omega
    | succ o => simp at h; have := ih h; simp only [List.set_cons_succ, List.map_cons, List.sum_cons]; omega

theorem rc_le_sum {os : List PyObj} {o : Nat} {p : PyObj} (h : os[o]? = some p) :
    p.rc ≤ (os.map PyObj.rc).sum := by
  have := sum_set (q := ⟨p.kind, [], 0⟩) h
  simp at this; omega

/-! ### more references -/

theorem incref_get (os : List PyObj) (r o : Nat) :
    (incref os r)[o]? = (os[o]?).map fun p => if o = r then { p with rc := p.rc + 1 } else p := by
  simp only [incref, List.getElem?_modify]
  by_cases h : r = o
  · subst h; simp
  · have : ¬ o = r := fun h' => h h'.symm
    simp [h, this]

theorem incref_length (os : List PyObj) (r : Nat) : (incref os r).length = os.length := by
  simp [incref]

theorem flat_incref (os : List PyObj) (r : Nat) : flat (incref os r) = flat os := by
  induction os generalizing r with
  | nil => simp [incref, flat]
  | cons a os ih =>
    cases r with
    | zero => simp [incref, flat]
    | succ r => have := ih r; simp [incref, flat] at this ⊢; exact this

theorem OInv.incref {os vars pend r} (h : OInv os vars pend) (hr : r < os.length)
    (hl : ∀ p : PyObj, os[r]? = some p → p.rc ≠ 0) : OInv (incref os r) vars (r :: pend) := by
  have hlen := incref_length os r
  refine ⟨by rw [hlen]; exact h.bvars, by rw [hlen, flat_incref]; exact h.brefs, ?_, ?_, ?_⟩
  · intro x hx
    rw [hlen]
    rcases List.mem_cons.1 hx with rfl | hx
    · exact hr
    · exact h.bpend x hx
  · intro o p hp h0
    rw [incref_get] at hp
    cases hq : os[o]? with
    | none => rw [hq] at hp; simp at hp
    | some q =>
      rw [hq] at hp
      simp at hp
      by_cases ho : o = r
      · rw [if_pos ho] at hp; subst hp; simp at h0
      · rw [if_neg ho] at hp; subst hp; exact h.dead o q hq h0
  · intro o p hp
    rw [incref_get] at hp
    rw [flat_incref]
    cases hq : os[o]? with
    | none => rw [hq] at hp; simp at hp
    | some q =>
      rw [hq] at hp
      simp at hp
      have := h.rc o q hq
      by_cases ho : o = r
      · rw [if_pos ho] at hp; subst hp; subst ho; simp; omega
      · rw [if_neg ho] at hp; subst hp
        rw [List.count_cons_of_ne (Ne.symm ho)]; exact this

/-- The references collected so far are given to an object. -/
theorem OInv.give {os vars pend o r} {p : PyObj} (h : OInv os vars (r :: pend)) (hp : os[o]? = some p)
    (hl : p.rc ≠ 0) :
    OInv (os.modify o fun p => { p with refs := p.refs ++ [r] }) vars pend := by
  have hm : (os.modify o fun p => { p with refs := p.refs ++ [r] }) =
      os.set o { p with refs := p.refs ++ [r] } := by
    apply List.ext_getElem?
    intro i
    rw [List.getElem?_modify, List.getElem?_set]
    by_cases hi : o = i
    · subst hi; rw [hp, if_pos rfl]; simp [lt_of_get hp]
    · simp [hi]
  rw [hm]
  have hf := fun x => flat_set (q := { p with refs := p.refs ++ [r] }) hp x
  refine ⟨by simpa using h.bvars, ?_, ?_, ?_, ?_⟩
  · intro x hx
    have := List.count_pos_iff.2 hx
    have h2 := hf x
    simp [List.count_append] at h2
    by_cases hxr : x = r
    · subst hxr; simpa using h.bpend x (List.mem_cons_self ..)
    · have : List.count x [r] = 0 := List.count_eq_zero.2 (by simpa using hxr)
      simpa using h.brefs x (List.count_pos_iff.1 (by omega))
  · intro x hx; simpa using h.bpend x (List.mem_cons_of_mem _ hx)
  · intro x q hq hq0
    by_cases hxo : x = o
    · subst hxo
      rw [List.getElem?_set_self (lt_of_get hp)] at hq
      cases hq; exact absurd hq0 hl
    · rw [List.getElem?_set_ne (Ne.symm hxo)] at hq
      exact h.dead x q hq hq0
  · intro x q hq
    have h2 := hf x
    simp [List.count_append] at h2
    have key : ∀ q' : PyObj, os[x]? = some q' → q'.rc = vars.count x +
        (flat (os.set o { p with refs := p.refs ++ [r] })).count x + pend.count x := by
      intro q' hq'
      have := h.rc x q' hq'
      by_cases hxr : x = r
      · subst hxr; simp at this h2; omega
      · have h3 : List.count x [r] = 0 := List.count_eq_zero.2 (by simpa using hxr)
        rw [List.count_cons_of_ne (Ne.symm hxr)] at this
        omega
    by_cases hxo : x = o
    · subst hxo
      rw [List.getElem?_set_self (lt_of_get hp)] at hq
      cases hq
      exact key p hp
    · rw [List.getElem?_set_ne (Ne.symm hxo)] at hq
      exact key q hq

/-- A new object. -/
theorem OInv.push {os vars pend k} (h : OInv os vars pend) :
    OInv (os ++ [⟨k, [], 1⟩]) vars (os.length :: pend) := by
  have hf : flat (os ++ [⟨k, [], 1⟩]) = flat os := by simp [flat]
  refine ⟨?_, ?_, ?_, ?_, ?_⟩
  · intro x hx; have := h.bvars x hx; simp; omega
  · intro x hx; rw [hf] at hx; have := h.brefs x hx; simp; omega
  · intro x hx
    rcases List.mem_cons.1 hx with rfl | hx
    · simp
    · have := h.bpend x hx; simp; omega
  · intro o p hp h0
    by_cases ho : o < os.length
    · rw [List.getElem?_append_left ho] at hp; exact h.dead o p hp h0
    · rw [List.getElem?_append_right (by omega)] at hp
      have := List.mem_of_getElem? hp
      simp at this; subst this; rfl
  · intro o p hp
    rw [hf]
    by_cases ho : o < os.length
    · rw [List.getElem?_append_left ho] at hp
      rw [List.count_cons_of_ne (by omega)]
      exact h.rc o p hp
    · have ho' : o = os.length := by
        have := lt_of_get hp; simp at this; omega
      subst ho'
      simp at hp; subst hp
      have a1 : vars.count os.length = 0 :=
        List.count_eq_zero.2 fun hc => by have := h.bvars _ hc; omega
      have a2 : (flat os).count os.length = 0 :=
        List.count_eq_zero.2 fun hc => by have := h.brefs _ hc; omega
      have a3 : pend.count os.length = 0 :=
        List.count_eq_zero.2 fun hc => by have := h.bpend _ hc; omega
      simp [a1, a2, a3]

/-- A reference is handed over to a variable and others are taken from variables. -/
theorem OInv.perm {os vars pend vars' pend'} (h : OInv os vars pend)
    (hc : ∀ x, vars'.count x + pend'.count x = vars.count x + pend.count x) :
    OInv os vars' pend' := by
  have hm : ∀ x, x ∈ vars' ∨ x ∈ pend' → x < os.length := by
    intro x hx
    have : 0 < vars.count x + pend.count x := by
      rw [← hc x]
      rcases hx with hx | hx <;> have := List.count_pos_iff.2 hx <;> omega
    by_cases h1 : x ∈ vars
    · exact h.bvars x h1
    · have h0 := List.count_eq_zero.2 h1
      exact h.bpend x (List.count_pos_iff.1 (by omega))
  exact ⟨fun o ho => hm o (.inl ho), h.brefs, fun o ho => hm o (.inr ho), h.dead,
    fun o p hp => by have := h.rc o p hp; have := hc o; omega⟩

end Verif.Lifetimes.C
