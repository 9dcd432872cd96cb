import Verif.Instances.Lemmas
namespace Verif.Instances.Lemmas
open Verif.Instances.Spec Verif.Instances.Model

variable {K P B : List Name} {s : State} {m : Mem}

/-- A new structure. -/
theorem inv_init (l : Lang) (h : Inv K P B s m) (hKB : ∀ x ∈ K, x ∉ B) {x : Name} {k : Int} (hx : x ∉ K) (hxB : x ∉ B) :
    ∃ m', doInit l m x k = .ok m' ∧ Inv (x :: K) P B
      { s with heap := fun i => if i = s.next then (k, k) else s.heap i, next := s.next + 1,
               env := fun y => if y = x then some s.next else s.env y } m' := by
  have hs : m.slots x = none := by
    cases hs : m.slots x with
    | none => rfl
    | some t => exact absurd (h.slot x (by rw [hs]; simp)) hx
  refine ⟨_, by unfold doInit; rw [hs]; cases l <;> rfl, ?_⟩
  have hnew : m.blocks m.next = none ∨ True := Or.inr trivial
  constructor
  · exact h.out
  · intro y hy
    by_cases hyx : y = x
    · subst hyx
      exact ⟨s.next, m.next, by simp, by simp, by simp [Mem.setSlot], by simp [Mem.setSlot], by simp [Mem.setSlot]⟩
    · have hyK : y ∈ K := by rcases List.mem_cons.1 hy with h | h; exact absurd h hyx; exact h
      obtain ⟨i, b, h1, h2, h3, h4, h5⟩ := h.obj y hyK
      refine ⟨i, b, by simp [hyx, h1], by simp only; omega, ?_, ?_, by simp only [Mem.setSlot]; omega⟩
      · simp only [Mem.setSlot, if_neg hyx]; rw [if_neg (by omega)]; exact h3
      · simp only [Mem.setSlot]; rw [if_neg (by omega), if_neg (by omega)]; exact h4
  · intro y hy z hz he
    by_cases hyx : y = x
    · by_cases hzx : z = x
      · rw [hyx, hzx]
      · exfalso
        have hzK : z ∈ K := by rcases List.mem_cons.1 hz with h | h; exact absurd h hzx; exact h
        obtain ⟨i, b, h1, h2, _⟩ := h.obj z hzK
        simp only [hyx, if_true, if_neg hzx, h1, Option.some.injEq] at he
        omega
    · have hyK : y ∈ K := by rcases List.mem_cons.1 hy with h | h; exact absurd h hyx; exact h
      by_cases hzx : z = x
      · exfalso
        obtain ⟨i, b, h1, h2, _⟩ := h.obj y hyK
        simp only [hzx, if_true, if_neg hyx, h1, Option.some.injEq] at he
        omega
      · have hzK : z ∈ K := by rcases List.mem_cons.1 hz with h | h; exact absurd h hzx; exact h
        simp only [if_neg hyx, if_neg hzx] at he
        exact h.envInj y hyK z hzK he
  · intro y hy z hz t u b ht hu htb hub
    by_cases hyx : y = x
    · by_cases hzx : z = x
      · rw [hyx, hzx]
      · exfalso
        have hzK : z ∈ K := by rcases List.mem_cons.1 hz with h | h; exact absurd h hzx; exact h
        obtain ⟨i, b', h1, h2, h3, h4, h5⟩ := h.obj z hzK
        simp only [Mem.setSlot, hyx, if_true, Option.some.injEq] at ht
        simp only [Mem.setSlot, if_neg hzx, h3, Option.some.injEq] at hu
        subst ht hu
        simp only [Option.some.injEq] at htb hub
        omega
    · have hyK : y ∈ K := by rcases List.mem_cons.1 hy with h | h; exact absurd h hyx; exact h
      by_cases hzx : z = x
      · exfalso
        obtain ⟨i, b', h1, h2, h3, h4, h5⟩ := h.obj y hyK
        simp only [Mem.setSlot, hzx, if_true, Option.some.injEq] at hu
        simp only [Mem.setSlot, if_neg hyx, h3, Option.some.injEq] at ht
        subst ht hu
        simp only [Option.some.injEq] at htb hub
        omega
      · have hzK : z ∈ K := by rcases List.mem_cons.1 hz with h | h; exact absurd h hzx; exact h
        simp only [Mem.setSlot, if_neg hyx] at ht
        simp only [Mem.setSlot, if_neg hzx] at hu
        exact h.arrInj y hyK z hzK t u b ht hu htb hub
  · intro b hb
    by_cases hbn : b = m.next
    · subst hbn
      exact ⟨x, by simp, ⟨k, some m.next, false⟩, by simp [Mem.setSlot], rfl⟩
    · simp only [Mem.setSlot, if_neg hbn] at hb
      obtain ⟨y, hy, t, ht, htb⟩ := h.live b hb
      refine ⟨y, List.mem_cons_of_mem _ hy, t, ?_, htb⟩
      have : y ≠ x := fun e => hx (e ▸ hy)
      simp [Mem.setSlot, this, ht]
  · intro y hy
    by_cases hyx : y = x
    · simp [hyx]
    · simp only [Mem.setSlot, if_neg hyx] at hy
      exact List.mem_cons_of_mem _ (h.slot y hy)
  · intro y z hz
    obtain ⟨h1, h2, h3, h4⟩ := h.ptr y z hz
    refine ⟨h1, List.mem_cons_of_mem _ h2, h3, ?_⟩
    have hyx : y ≠ x := fun e => hxB (e ▸ h1)
    have hzx : z ≠ x := fun e => hx (e ▸ h2)
    simp [hyx, hzx, h4]
  · intro y hy hd
    simp only [List.mem_cons, not_or] at hy
    simp only [if_neg hy.1] at hd
    exact h.defd y hy.2 hd

/-- A structure is deleted and set again. -/
theorem inv_renew (l : Lang) (h : Inv K P B s m) (hKB : ∀ x ∈ K, x ∉ B) {x : Name} {e : Expr} {k : Int} (hx : x ∈ K) (hxP : x ∉ P)
    (hxe : x ∉ elems e) (he : eval s e = some k) :
    ∃ m', (doDel l m x).bind (fun m => withVal m e fun k => doInit l m x k) = .ok m' ∧ Inv K P B
      { s with heap := fun i => if i = s.next then (k, k) else s.heap i, next := s.next + 1,
               env := fun y => if y = x then some s.next else s.env y } m' := by
  obtain ⟨i, b, h1, h2, h3, h4, h5⟩ := h.obj x hx
  have hdel : doDel l m x = .ok (({ m with blocks := fun j => if j = b then none else m.blocks j } : Mem).setSlot x ⟨(s.heap i).1, none, true⟩) := by
    simp only [doDel, h3, h4]; rfl
  rw [hdel]
  have hev : evalC (({ m with blocks := fun j => if j = b then none else m.blocks j } : Mem).setSlot x ⟨(s.heap i).1, none, true⟩) e = some k := by
    refine eval_del h hKB (m1 := ({ m with blocks := fun j => if j = b then none else m.blocks j } : Mem).setSlot x ⟨(s.heap i).1, none, true⟩) hxP rfl ?_ ?_ ?_ hxe he
    · intro y t ht
      by_cases hyx : y = x
      · subst hyx
        rw [h3] at ht; cases ht
        exact ⟨⟨(s.heap i).1, none, true⟩, by simp [Mem.setSlot], rfl⟩
      · exact ⟨t, by simp [Mem.setSlot, hyx, ht], rfl⟩
    · intro y hyx; simp [Mem.setSlot, hyx]
    · intro y hy hyx t b' ht hb
      have : b' ≠ b := by
        intro hbb; subst hbb
        exact hyx (h.arrInj y hy x hx t _ b' ht h3 hb rfl)
      simp [Mem.setSlot, this]
  simp only [Res.bind, withVal, hev]
  refine ⟨_, by unfold doInit; simp [Mem.setSlot]; rfl, ?_⟩
  constructor
  · exact h.out
  · intro y hy
    by_cases hyx : y = x
    · subst hyx
      exact ⟨s.next, m.next, by simp, by simp, by simp, by simp, by simp⟩
    · obtain ⟨j, c, g1, g2, g3, g4, g5⟩ := h.obj y hy
      have hcb : c ≠ b := by
        intro hcb; subst hcb
        exact hyx (h.arrInj y hy x hx _ _ c g3 h3 rfl rfl)
      refine ⟨j, c, by simp [hyx, g1], by simp only; omega, ?_, ?_, by simp only; omega⟩
      · have : j ≠ s.next := by omega
        simp [hyx, this, g3]
      · have h6 : j ≠ s.next := by omega
        have h7 : c ≠ m.next := by omega
        simp [hcb, h6, h7, g4]
  · intro y hy z hz he
    by_cases hyx : y = x
    · by_cases hzx : z = x
      · rw [hyx, hzx]
      · exfalso
        obtain ⟨i, b, h1, h2, _⟩ := h.obj z hz
        simp only [hyx, if_true, if_neg hzx, h1, Option.some.injEq] at he
        omega
    · by_cases hzx : z = x
      · exfalso
        obtain ⟨i, b, h1, h2, _⟩ := h.obj y hy
        simp only [hzx, if_true, if_neg hyx, h1, Option.some.injEq] at he
        omega
      · simp only [if_neg hyx, if_neg hzx] at he
        exact h.envInj y hy z hz he
  · intro y hy z hz t u c ht hu htb hub
    by_cases hyx : y = x
    · by_cases hzx : z = x
      · rw [hyx, hzx]
      · exfalso
        obtain ⟨_, b', _, _, g3, _, g5⟩ := h.obj z hz
        simp only [hyx, if_true, Option.some.injEq] at ht
        simp only [if_neg hzx, g3, Option.some.injEq] at hu
        subst ht hu
        simp only [Option.some.injEq] at htb hub
        omega
    · by_cases hzx : z = x
      · exfalso
        obtain ⟨_, b', _, _, g3, _, g5⟩ := h.obj y hy
        simp only [hzx, if_true, Option.some.injEq] at hu
        simp only [if_neg hyx, g3, Option.some.injEq] at ht
        subst ht hu
        simp only [Option.some.injEq] at htb hub
        omega
      · simp only [if_neg hyx] at ht
        simp only [if_neg hzx] at hu
        exact h.arrInj y hy z hz t u c ht hu htb hub
  · intro c hc
    by_cases hcn : c = m.next
    · subst hcn
      exact ⟨x, hx, ⟨k, some m.next, false⟩, by simp, rfl⟩
    · simp only [if_neg hcn] at hc
      have hcb : c ≠ b := by intro hcb; simp [hcb] at hc
      rw [if_neg hcb] at hc
      obtain ⟨y, hy, t, ht, htb⟩ := h.live c hc
      refine ⟨y, hy, t, ?_, htb⟩
      have : y ≠ x := by
        intro e; subst e
        rw [h3] at ht; cases ht
        exact hcb (Option.some.inj htb).symm
      simp [this, ht]
  · intro y hy
    by_cases hyx : y = x
    · rw [hyx]; exact hx
    · simp only [if_neg hyx] at hy
      exact h.slot y hy
  · intro y z hz
    obtain ⟨g1, g2, g3, g4⟩ := h.ptr y z hz
    refine ⟨g1, g2, g3, ?_⟩
    have hyx : y ≠ x := fun e => hKB x hx (e ▸ g1)
    have hzx : z ≠ x := fun e => hxP (e ▸ g3)
    simp [hyx, hzx, g4]
  · intro y hy hd
    have hyx : y ≠ x := fun e => hy (e ▸ hx)
    simp only [if_neg hyx] at hd
    exact h.defd y hy hd

/-- A pointer is set. -/
theorem inv_point (h : Inv K P B s m) (hKB : ∀ x ∈ K, x ∉ B) {x y : Name} {i : Nat} (hxB : x ∈ B) (hy : s.env y = some i) :
    Inv K (P ++ [y]) B { s with env := fun z => if z = x then some i else s.env z }
      { m with ptr := fun z => if z = x then some (m.loc y) else m.ptr z } := by
  have hxK : x ∉ K := fun hk => hKB x hk hxB
  obtain ⟨l1, l2, l3⟩ := h.loc hKB hy
  constructor
  · exact h.out
  · intro z hz
    obtain ⟨j, b, g1, g2, g3, g4, g5⟩ := h.obj z hz
    have : z ≠ x := fun e => hxK (e ▸ hz)
    exact ⟨j, b, by simp [this, g1], g2, g3, g4, g5⟩
  · intro z hz w hw he
    have h1 : z ≠ x := fun e => hxK (e ▸ hz)
    have h2 : w ≠ x := fun e => hxK (e ▸ hw)
    simp only [if_neg h1, if_neg h2] at he
    exact h.envInj z hz w hw he
  · exact h.arrInj
  · exact h.live
  · exact h.slot
  · intro z w hz
    by_cases hzx : z = x
    · subst hzx
      simp only [if_true, Option.some.injEq] at hz
      subst hz
      refine ⟨hxB, l1, ?_, ?_⟩
      · rcases l3 with ⟨_, l3⟩ | l3
        · rw [l3]; simp
        · simp [l3]
      · have : m.loc y ≠ z := fun e => hxK (e ▸ l1)
        simp [this, l2]
    · simp only [if_neg hzx] at hz
      obtain ⟨g1, g2, g3, g4⟩ := h.ptr z w hz
      have : w ≠ x := fun e => hxK (e ▸ g2)
      exact ⟨g1, g2, by simp [g3], by simp [hzx, this, g4]⟩
  · intro z hz hd
    by_cases hzx : z = x
    · simp [hzx]
    · simp only [if_neg hzx] at hd ⊢
      exact h.defd z hz hd

/-- An attribute is set. -/
theorem inv_setv (h : Inv K P B s m) (hKB : ∀ x ∈ K, x ∉ B) {x : Name} {i : Nat} (k : Int) (hx : s.env x = some i) :
    ∃ t, m.slots (m.loc x) = some t ∧
      Inv K P B { s with heap := fun j => if j = i then (k, (s.heap i).2) else s.heap j } (m.setSlot (m.loc x) { t with v := k }) := by
  obtain ⟨l1, l2, _⟩ := h.loc hKB hx
  obtain ⟨i', b, g1, g2, g3, g4, g5⟩ := h.obj _ l1
  have : i = i' := by rw [l2] at g1; exact Option.some.inj g1
  subst this
  refine ⟨_, g3, ?_⟩
  generalize m.loc x = w at *
  constructor
  · exact h.out
  · intro z hz
    by_cases hzw : z = w
    · subst hzw
      exact ⟨i, b, g1, g2, by simp [Mem.setSlot], by simp [Mem.setSlot, g4], g5⟩
    · obtain ⟨j, c, f1, f2, f3, f4, f5⟩ := h.obj z hz
      have : j ≠ i := by
        intro e; subst e
        exact hzw (h.envInj z hz w l1 (by rw [f1, g1]))
      exact ⟨j, c, f1, f2, by simp [Mem.setSlot, hzw, this, f3], by simp [Mem.setSlot, this, f4], f5⟩
  · exact h.envInj
  · intro y hy z hz t u c ht hu htb hub
    have key : ∀ y t, (m.setSlot w ⟨k, some b, false⟩).slots y = some t → ∃ t', m.slots y = some t' ∧ t'.arr = t.arr := by
      intro y t ht
      by_cases hyw : y = w
      · subst hyw
        simp only [Mem.setSlot, if_true, Option.some.injEq] at ht
        subst ht
        exact ⟨_, g3, rfl⟩
      · simp only [Mem.setSlot, if_neg hyw] at ht
        exact ⟨t, ht, rfl⟩
    obtain ⟨t', k1, k2⟩ := key y t ht
    obtain ⟨u', k3, k4⟩ := key z u hu
    exact h.arrInj y hy z hz t' u' c k1 k3 (by rw [k2, htb]) (by rw [k4, hub])
  · intro c hc
    obtain ⟨y, hy, t, ht, htb⟩ := h.live c hc
    by_cases hyw : y = w
    · subst hyw
      rw [g3] at ht; cases ht
      exact ⟨y, hy, ⟨k, some b, false⟩, by simp [Mem.setSlot], htb⟩
    · exact ⟨y, hy, t, by simp [Mem.setSlot, hyw, ht], htb⟩
  · intro y hy
    by_cases hyw : y = w
    · rw [hyw]; exact l1
    · simp only [Mem.setSlot, if_neg hyw] at hy
      exact h.slot y hy
  · exact h.ptr
  · exact h.defd

/-- An array is filled. -/
theorem inv_fill (h : Inv K P B s m) (hKB : ∀ x ∈ K, x ∉ B) {x : Name} {i : Nat} (k : Int) (hx : s.env x = some i) :
    ∃ b, (m.slots (m.loc x)).bind (·.arr) = some b ∧ (m.blocks b).isSome = true ∧
      Inv K P B { s with heap := fun j => if j = i then ((s.heap i).1, k) else s.heap j }
        { m with blocks := fun j => if j = b then some k else m.blocks j } := by
  obtain ⟨l1, l2, _⟩ := h.loc hKB hx
  obtain ⟨i', b, g1, g2, g3, g4, g5⟩ := h.obj _ l1
  have : i = i' := by rw [l2] at g1; exact Option.some.inj g1
  subst this
  refine ⟨b, by simp [g3], by simp [g4], ?_⟩
  generalize m.loc x = w at *
  constructor
  · exact h.out
  · intro z hz
    by_cases hzw : z = w
    · subst hzw
      exact ⟨i, b, g1, g2, by simp [g3], by simp, g5⟩
    · obtain ⟨j, c, f1, f2, f3, f4, f5⟩ := h.obj z hz
      have hji : j ≠ i := by
        intro e; subst e
        exact hzw (h.envInj z hz w l1 (by rw [f1, g1]))
      have hcb : c ≠ b := by
        intro e; subst e
        exact hzw (h.arrInj z hz w l1 _ _ c f3 g3 rfl rfl)
      exact ⟨j, c, f1, f2, by simp [hji, f3], by simp [hji, hcb, f4], f5⟩
  · exact h.envInj
  · exact h.arrInj
  · intro c hc
    by_cases hcb : c = b
    · subst hcb; exact ⟨w, l1, _, g3, rfl⟩
    · simp only [if_neg hcb] at hc
      exact h.live c hc
  · exact h.slot
  · exact h.ptr
  · exact h.defd

theorem headed_objs {N : List Name} (hNB : ∀ x ∈ N, x ∉ B) : ∀ {st : Stmt} {σ σ' : Vars} {c : Code}, VarsOk N B σ → (∀ x ∈ news st, x ∈ N) →
    (∀ x ∈ bound st, x ∈ B) → (∀ x ∈ news st, x ∈ σ.objs) → tr σ st = some (c, σ') → σ'.objs = σ.objs := by
  intro st
  induction st with
  | skip => intro σ σ' c _ _ _ _ h; simp only [tr, Option.some.injEq, Prod.mk.injEq] at h; rw [← h.2]
  | seq a b iha ihb =>
    intro σ σ' c ok hn hb hk h
    simp only [tr, Option.bind_eq_some_iff, Option.map_eq_some_iff, Prod.exists, Prod.mk.injEq] at h
    obtain ⟨ca, σ1, h1, cb, σ2, h2, rfl, rfl⟩ := h
    have hna : ∀ x ∈ news a, x ∈ N := fun x hx => hn x (by simp [news, hx])
    have hba : ∀ x ∈ bound a, x ∈ B := fun x hx => hb x (by simp [bound, hx])
    have e1 := iha ok hna hba (fun x hx => hk x (by simp [news, hx])) h1
    rw [← e1]
    exact ihb (tr_ok hNB ok hna hba h1).1 (fun x hx => hn x (by simp [news, hx])) (fun x hx => hb x (by simp [bound, hx]))
      (fun x hx => by rw [e1]; exact hk x (by simp [news, hx])) h2
  | ite e a b iha ihb =>
    intro σ σ' c ok hn hb hk h
    simp only [tr] at h
    split at h
    · simp only [Option.bind_eq_some_iff, Option.map_eq_some_iff, Prod.exists, Prod.mk.injEq] at h
      obtain ⟨ca, σ1, h1, cb, σ2, h2, rfl, rfl⟩ := h
      have hna : ∀ x ∈ news a, x ∈ N := fun x hx => hn x (by simp [news, hx])
      have hba : ∀ x ∈ bound a, x ∈ B := fun x hx => hb x (by simp [bound, hx])
      have e1 := iha ok hna hba (fun x hx => hk x (by simp [news, hx])) h1
      rw [← e1]
      exact ihb (tr_ok hNB ok hna hba h1).1 (fun x hx => hn x (by simp [news, hx])) (fun x hx => hb x (by simp [bound, hx]))
        (fun x hx => by rw [e1]; exact hk x (by simp [news, hx])) h2
    · cases h
  | «while» e b ihb =>
    intro σ σ' c ok hn hb hk h
    simp only [tr] at h
    split at h
    · simp only [Option.map_eq_some_iff, Prod.exists, Prod.mk.injEq] at h
      obtain ⟨cb, σ2, h2, rfl, rfl⟩ := h
      exact ihb ok hn hb hk h2
    · cases h
  | new x e =>
    intro σ σ' c ok hn hb hk h
    rcases trNew_cases ok hNB (hn x (by simp [news])) h with ⟨_, _, _, rfl⟩ | ⟨h1, _, _⟩
    · rfl
    · exact absurd (hk x (by simp [news])) h1
  | bind x y =>
    intro σ σ' c ok hn hb hk h
    exact (trBind_cases ok hNB (hb x (by simp [bound])) h).2.2.2.1
  | setv x e =>
    intro σ σ' c ok hn hb hk h
    simp only [tr] at h
    split at h
    · cases h; rfl
    · cases h
  | fill x e =>
    intro σ σ' c ok hn hb hk h
    simp only [tr] at h
    split at h
    · cases h; rfl
    · cases h
  | print e =>
    intro σ σ' c ok hn hb hk h
    simp only [tr] at h
    split at h
    · cases h; rfl
    · cases h

/-- Statements that make objects only for known variables are headed. -/
theorem headed_of_known : ∀ {st : Stmt} {K : List Name}, (∀ x ∈ news st, x ∈ K) → Headed K st := by
  intro st
  induction st with
  | seq a b iha ihb =>
    intro K h
    exact ⟨iha fun x hx => h x (by simp [news, hx]), ihb fun x hx => List.mem_append_left _ (h x (by simp [news, hx]))⟩
  | ite e a b => intro K h; exact h
  | «while» e b => intro K h; exact h
  | skip => intros; trivial
  | new x e => intros; trivial
  | bind x y => intros; trivial
  | setv x e => intros; trivial
  | fill x e => intros; trivial
  | print e => intros; trivial

theorem Headed.mono {K L : List Name} {st : Stmt} (hKL : ∀ x ∈ K, x ∈ L) (h : Headed K st) : Headed L st := by
  induction st generalizing K L with
  | seq a b iha ihb =>
    refine ⟨iha hKL h.1, ihb (fun x hx => ?_) h.2⟩
    rcases List.mem_append.1 hx with hx | hx
    · exact List.mem_append_left _ (hKL x hx)
    · exact List.mem_append_right _ hx
  | ite e a b => exact fun x hx => hKL x (h x hx)
  | «while» e b => exact fun x hx => hKL x (h x hx)
  | skip => trivial
  | new x e => trivial
  | bind x y => trivial
  | setv x e => trivial
  | fill x e => trivial
  | print e => trivial

theorem tr_top {N : List Name} (hNB : ∀ x ∈ N, x ∉ B) : ∀ {st : Stmt} {σ σ' : Vars} {c : Code}, VarsOk N B σ → (∀ x ∈ news st, x ∈ N) →
    (∀ x ∈ bound st, x ∈ B) → tr σ st = some (c, σ') → (∀ x ∈ σ.objs, x ∈ σ'.objs) ∧ ∀ x ∈ top st, x ∈ σ'.objs := by
  intro st
  induction st with
  | skip => intro σ σ' c _ _ _ h; simp only [tr, Option.some.injEq, Prod.mk.injEq] at h; rw [← h.2]; exact ⟨fun _ h => h, fun _ h => by cases h⟩
  | seq a b iha ihb =>
    intro σ σ' c ok hn hb h
    simp only [tr, Option.bind_eq_some_iff, Option.map_eq_some_iff, Prod.exists, Prod.mk.injEq] at h
    obtain ⟨ca, σ1, h1, cb, σ2, h2, rfl, rfl⟩ := h
    have hna : ∀ x ∈ news a, x ∈ N := fun x hx => hn x (by simp [news, hx])
    have hba : ∀ x ∈ bound a, x ∈ B := fun x hx => hb x (by simp [bound, hx])
    obtain ⟨a1, a2⟩ := iha ok hna hba h1
    obtain ⟨b1, b2⟩ := ihb (tr_ok hNB ok hna hba h1).1 (fun x hx => hn x (by simp [news, hx])) (fun x hx => hb x (by simp [bound, hx])) h2
    refine ⟨fun x hx => b1 x (a1 x hx), fun x hx => ?_⟩
    rcases List.mem_append.1 hx with hx | hx
    · exact b1 x (a2 x hx)
    · exact b2 x hx
  | ite e a b iha ihb =>
    intro σ σ' c ok hn hb h
    simp only [tr] at h
    split at h
    · simp only [Option.bind_eq_some_iff, Option.map_eq_some_iff, Prod.exists, Prod.mk.injEq] at h
      obtain ⟨ca, σ1, h1, cb, σ2, h2, rfl, rfl⟩ := h
      have hna : ∀ x ∈ news a, x ∈ N := fun x hx => hn x (by simp [news, hx])
      have hba : ∀ x ∈ bound a, x ∈ B := fun x hx => hb x (by simp [bound, hx])
      obtain ⟨a1, a2⟩ := iha ok hna hba h1
      obtain ⟨b1, b2⟩ := ihb (tr_ok hNB ok hna hba h1).1 (fun x hx => hn x (by simp [news, hx])) (fun x hx => hb x (by simp [bound, hx])) h2
      exact ⟨fun x hx => b1 x (a1 x hx), fun x hx => by cases hx⟩
    · cases h
  | «while» e b ihb =>
    intro σ σ' c ok hn hb h
    simp only [tr] at h
    split at h
    · simp only [Option.map_eq_some_iff, Prod.exists, Prod.mk.injEq] at h
      obtain ⟨cb, σ2, h2, rfl, rfl⟩ := h
      exact ⟨(ihb ok hn hb h2).1, fun x hx => by cases hx⟩
    · cases h
  | new x e =>
    intro σ σ' c ok hn hb h
    rcases trNew_cases ok hNB (hn x (by simp [news])) h with ⟨h1, _, _, rfl⟩ | ⟨h1, _, rfl⟩
    · exact ⟨fun _ h => h, fun y hy => by simp only [top, List.mem_singleton] at hy; rw [hy]; exact h1⟩
    · exact ⟨fun y hy => List.mem_cons_of_mem _ hy, fun y hy => by simp only [top, List.mem_singleton] at hy; simp [hy]⟩
  | bind x y =>
    intro σ σ' c ok hn hb h
    have := (trBind_cases ok hNB (hb x (by simp [bound])) h).2.2.2.1
    exact ⟨fun z hz => by rw [this]; exact hz, fun z hz => by cases hz⟩
  | setv x e =>
    intro σ σ' c ok hn hb h
    simp only [tr] at h
    split at h
    · cases h; exact ⟨fun _ h => h, fun _ h => by cases h⟩
    · cases h
  | fill x e =>
    intro σ σ' c ok hn hb h
    simp only [tr] at h
    split at h
    · cases h; exact ⟨fun _ h => h, fun _ h => by cases h⟩
    · cases h
  | print e =>
    intro σ σ' c ok hn hb h
    simp only [tr] at h
    split at h
    · cases h; exact ⟨fun _ h => h, fun _ h => by cases h⟩
    · cases h

theorem sim (l : Lang) {N B : List Name} (hNB : ∀ x ∈ N, x ∉ B) : ∀ (n : Nat) (st : Stmt) {σ σ' : Vars} {c : Code} {P : List Name} {s s' : State} {m : Mem},
    VarsOk N B σ → (∀ x ∈ news st, x ∈ N) → (∀ x ∈ bound st, x ∈ B) → Headed σ.objs st → OwnArgs st → Safe P st →
    tr σ st = some (c, σ') → Inv σ.objs P B s m → exec n st s = some s' →
    ∃ m', execC l n c m = .ok m' ∧ Inv σ'.objs (P ++ sources st) B s' m' := by
  intro n
  induction n with
  | zero => intro st σ σ' c P s s' m _ _ _ _ _ _ _ _ h; cases st <;> cases h
  | succ n ih =>
    intro st σ σ' c P s s' m ok hn hb hh ha hs ht hi he
    have hKB : ∀ x ∈ σ.objs, x ∉ B := fun x hx => hNB x (ok.objs x hx)
    cases st with
    | skip =>
      simp only [tr, Option.some.injEq, Prod.mk.injEq] at ht
      obtain ⟨rfl, rfl⟩ := ht
      simp only [exec, Option.some.injEq] at he
      subst he
      exact ⟨m, rfl, hi.mono fun x hx => by simp [hx]⟩
    | seq a b =>
      simp only [tr, Option.bind_eq_some_iff, Option.map_eq_some_iff, Prod.exists, Prod.mk.injEq] at ht
      obtain ⟨ca, σ1, h1, cb, σ2, h2, rfl, rfl⟩ := ht
      simp only [exec, Option.bind_eq_some_iff] at he
      obtain ⟨s1, e1, e2⟩ := he
      have hna : ∀ x ∈ news a, x ∈ N := fun x hx => hn x (by simp [news, hx])
      have hba : ∀ x ∈ bound a, x ∈ B := fun x hx => hb x (by simp [bound, hx])
      obtain ⟨m1, x1, i1⟩ := ih a ok hna hba hh.1 ha.1 hs.1 h1 hi e1
      have hto := tr_top hNB ok hna hba h1
      obtain ⟨m2, x2, i2⟩ := ih b (tr_ok hNB ok hna hba h1).1 (fun x hx => hn x (by simp [news, hx])) (fun x hx => hb x (by simp [bound, hx]))
        (Headed.mono (K := σ.objs ++ top a) (fun x hx => by
          rcases List.mem_append.1 hx with hx | hx
          · exact hto.1 x hx
          · exact hto.2 x hx) hh.2) ha.2 hs.2 h2 i1 e2
      refine ⟨m2, by simp only [execC, x1, Res.bind, x2], i2.mono fun x hx => by simpa [sources, or_assoc] using hx⟩
    | new x e =>
      simp only [exec, Option.map_eq_some_iff] at he
      obtain ⟨k, hk, rfl⟩ := he
      rcases trNew_cases ok hNB (hn x (by simp [news])) ht with ⟨h1, _, rfl, rfl⟩ | ⟨h1, rfl, rfl⟩
      · obtain ⟨m', e1, i1⟩ := inv_renew l hi hKB h1 hs ha hk
        exact ⟨m', e1, i1.mono fun x hx => by simp [hx]⟩
      · obtain ⟨m', e1, i1⟩ := inv_init l hi hKB (k := k) h1 (hNB x (hn x (by simp [news])))
        exact ⟨m', by simp only [execC, withVal, eval_eq hi hKB hk, e1], i1.mono fun x hx => by simp [hx]⟩
    | bind x y =>
      simp only [exec, Option.map_eq_some_iff] at he
      obtain ⟨i, hy, rfl⟩ := he
      have hxB := hb x (by simp [bound])
      obtain ⟨_, hxo, rfl, ho, _⟩ := trBind_cases ok hNB hxB ht
      rw [ho]
      by_cases hxy : x = y
      · subst hxy
        refine ⟨m, by simp [execC], ?_⟩
        have : ({ s with env := fun z => if z = x then some i else s.env z } : State) = s := by
          have : (fun z => if z = x then some i else s.env z) = s.env := by
            funext z; by_cases hz : z = x
            · simp [hz, hy]
            · simp [hz]
          rw [this]
        rw [this]
        exact hi.mono fun x hx => by simp [hx]
      · exact ⟨_, by simp only [if_neg hxy, execC], inv_point hi hKB hxB hy⟩
    | setv x e =>
      simp only [tr] at ht
      split at ht
      · simp only [Option.some.injEq, Prod.mk.injEq] at ht
        obtain ⟨rfl, rfl⟩ := ht
        simp only [exec, Option.bind_eq_some_iff, Option.map_eq_some_iff] at he
        obtain ⟨i, hx, k, hk, rfl⟩ := he
        obtain ⟨t, h1, h2⟩ := inv_setv hi hKB k hx
        exact ⟨_, by simp only [execC, withVal, eval_eq hi hKB hk, h1], h2.mono fun x hx => by simp [hx]⟩
      · cases ht
    | fill x e =>
      simp only [tr] at ht
      split at ht
      · simp only [Option.some.injEq, Prod.mk.injEq] at ht
        obtain ⟨rfl, rfl⟩ := ht
        simp only [exec, Option.bind_eq_some_iff, Option.map_eq_some_iff] at he
        obtain ⟨i, hx, k, hk, rfl⟩ := he
        obtain ⟨b, h1, h2, h3⟩ := inv_fill hi hKB k hx
        exact ⟨_, by simp only [execC, withVal, eval_eq hi hKB hk, h1, h2]; rfl, h3.mono fun x hx => by simp [hx]⟩
      · cases ht
    | print e =>
      simp only [tr] at ht
      split at ht
      · simp only [Option.some.injEq, Prod.mk.injEq] at ht
        obtain ⟨rfl, rfl⟩ := ht
        simp only [exec, Option.map_eq_some_iff] at he
        obtain ⟨k, hk, rfl⟩ := he
        refine ⟨_, by simp only [execC, withVal, eval_eq hi hKB hk]; rfl, ?_⟩
        have := hi.mono (Q := P ++ sources (Stmt.print e)) fun x hx => by simp [hx]
        exact { this with out := by simp [hi.out] }
      · cases ht
    | ite e a b =>
      simp only [tr] at ht
      split at ht
      · simp only [Option.bind_eq_some_iff, Option.map_eq_some_iff, Prod.exists, Prod.mk.injEq] at ht
        obtain ⟨ca, σ1, h1, cb, σ2, h2, rfl, rfl⟩ := ht
        simp only [exec, Option.bind_eq_some_iff] at he
        obtain ⟨k, hk, he⟩ := he
        have hna : ∀ x ∈ news a, x ∈ N := fun x hx => hn x (by simp [news, hx])
        have hba : ∀ x ∈ bound a, x ∈ B := fun x hx => hb x (by simp [bound, hx])
        have hnb : ∀ x ∈ news b, x ∈ N := fun x hx => hn x (by simp [news, hx])
        have hbb : ∀ x ∈ bound b, x ∈ B := fun x hx => hb x (by simp [bound, hx])
        have hka : ∀ x ∈ news a, x ∈ σ.objs := fun x hx => hh x (by simp [hx])
        have hkb : ∀ x ∈ news b, x ∈ σ.objs := fun x hx => hh x (by simp [hx])
        have o1 := (tr_ok hNB ok hna hba h1).1
        have e1 := headed_objs hNB ok hna hba hka h1
        have e2 := headed_objs hNB o1 hnb hbb (by rw [e1]; exact hkb) h2
        split at he
        · next hk0 =>
          obtain ⟨m', x1, i1⟩ := ih a ok hna hba (headed_of_known hka) ha.1 hs.1 h1 hi he
          refine ⟨m', by simp only [execC, withVal, eval_eq hi hKB hk]; rw [if_pos hk0]; exact x1, ?_⟩
          rw [e2]
          exact i1.mono fun x hx => by
            rcases List.mem_append.1 hx with hx | hx <;> simp [sources, hx]
        · next hk0 =>
          obtain ⟨m', x1, i1⟩ := ih b o1 hnb hbb (headed_of_known (by rw [e1]; exact hkb)) ha.2 hs.2 h2
            (by rw [e1]; exact hi.mono fun x hx => by simp [hx]) he
          refine ⟨m', by simp only [execC, withVal, eval_eq hi hKB hk]; rw [if_neg hk0]; exact x1, ?_⟩
          exact i1.mono fun x hx => by
            rcases List.mem_append.1 hx with hx | hx
            · rcases List.mem_append.1 hx with hx | hx <;> simp [sources, hx]
            · simp [sources, hx]
      · cases ht
    | «while» e b =>
      have ht0 := ht
      simp only [tr] at ht
      split at ht
      · simp only [Option.map_eq_some_iff, Prod.exists, Prod.mk.injEq] at ht
        obtain ⟨cb, σ2, h2, rfl, rfl⟩ := ht
        simp only [exec, Option.bind_eq_some_iff] at he
        obtain ⟨k, hk, he⟩ := he
        have e2 := headed_objs (st := b) hNB ok hn hb hh h2
        split at he
        · next hk0 =>
          simp only [Option.bind_eq_some_iff] at he
          obtain ⟨s1, e3, e4⟩ := he
          have hsb : Safe (P ++ sources b) b := hs
          obtain ⟨m1, x1, i1⟩ := ih b ok hn hb (headed_of_known hh) ha hsb h2 (hi.mono fun x hx => by simp [hx]) e3
          rw [e2] at i1
          have i1' : Inv σ.objs (P ++ sources b) B s1 m1 := i1.mono fun x hx => by
            rcases List.mem_append.1 hx with hx | hx
            · exact hx
            · exact List.mem_append_right _ hx
          have hs' : Safe (P ++ sources b) (.while e b) := by
            show Safe (P ++ sources b ++ sources b) b
            refine Safe.mono (fun x hx => ?_) hsb
            rcases List.mem_append.1 hx with hx | hx
            · exact hx
            · exact List.mem_append_right _ hx
          obtain ⟨m2, x2, i2⟩ := ih (.while e b) ok hn hb hh ha hs' ht0 i1' e4
          refine ⟨m2, by simp only [execC, withVal, eval_eq hi hKB hk]; rw [if_pos hk0, x1]; exact x2, ?_⟩
          exact i2.mono fun x hx => by
            rcases List.mem_append.1 hx with hx | hx
            · exact hx
            · exact List.mem_append_right _ hx
        · next hk0 =>
          simp only [Option.some.injEq] at he
          subst he
          refine ⟨m, by simp only [execC, withVal, eval_eq hi hKB hk]; rw [if_neg hk0], ?_⟩
          rw [e2]
          exact hi.mono fun x hx => by simp [hx]
      · cases ht

/-! ## The end of the function -/

/-- The structures of `r` are still there, the others are deleted. -/
structure Rest (r : List Name) (m : Mem) : Prop where
  obj : ∀ x ∈ r, ∃ v b, m.slots x = some ⟨v, some b, false⟩ ∧ m.blocks b ≠ none
  arrInj : ∀ x ∈ r, ∀ y ∈ r, ∀ t u b, m.slots x = some t → m.slots y = some u → t.arr = some b → u.arr = some b → x = y
  live : ∀ b, m.blocks b ≠ none → ∃ x ∈ r, ∃ t, m.slots x = some t ∧ t.arr = some b

theorem delAll_ok (l : Lang) : ∀ (r : List Name) (m : Mem), r.Nodup → Rest r m → ∃ m', delAll l r m = .ok m' ∧ m'.out = m.out ∧ ∀ b, m'.blocks b = none
  | [], m, _, h => ⟨m, rfl, rfl, fun b => by
      cases hb : m.blocks b with
      | none => rfl
      | some c => obtain ⟨x, hx, _⟩ := h.live b (by rw [hb]; simp); cases hx⟩
  | x :: r, m, hd, h => by
    obtain ⟨v, b, h1, h2⟩ := h.obj x (by simp)
    obtain ⟨c, hc⟩ := Option.ne_none_iff_exists'.1 h2
    have hdel : doDel l m x = .ok (({ m with blocks := fun j => if j = b then none else m.blocks j } : Mem).setSlot x ⟨v, none, true⟩) := by
      simp only [doDel, h1, hc]; rfl
    have hxr : x ∉ r := (List.nodup_cons.1 hd).1
    have hrest : Rest r (({ m with blocks := fun j => if j = b then none else m.blocks j } : Mem).setSlot x ⟨v, none, true⟩) := by
      constructor
      · intro y hy
        have hyx : y ≠ x := fun e => hxr (e ▸ hy)
        obtain ⟨w, d, g1, g2⟩ := h.obj y (by simp [hy])
        have hdb : d ≠ b := by
          intro e; subst e
          exact hyx (h.arrInj y (by simp [hy]) x (by simp) _ _ d g1 h1 rfl rfl)
        exact ⟨w, d, by simp [Mem.setSlot, hyx, g1], by simp [Mem.setSlot, hdb, g2]⟩
      · intro y hy z hz t u d ht hu
        have hyx : y ≠ x := fun e => hxr (e ▸ hy)
        have hzx : z ≠ x := fun e => hxr (e ▸ hz)
        simp only [Mem.setSlot, if_neg hyx] at ht
        simp only [Mem.setSlot, if_neg hzx] at hu
        exact h.arrInj y (by simp [hy]) z (by simp [hz]) t u d ht hu
      · intro d hd'
        by_cases hdb : d = b
        · simp [Mem.setSlot, hdb] at hd'
        · simp only [Mem.setSlot, if_neg hdb] at hd'
          obtain ⟨y, hy, t, ht, htd⟩ := h.live d hd'
          have hyx : y ≠ x := by
            intro e; subst e
            rw [h1] at ht; cases ht
            exact hdb (Option.some.inj htd).symm
          rcases List.mem_cons.1 hy with hy | hy
          · exact absurd hy hyx
          · exact ⟨y, hy, t, by simp [Mem.setSlot, hyx, ht], htd⟩
    obtain ⟨m', k1, k2, k3⟩ := delAll_ok l r _ (List.nodup_cons.1 hd).2 hrest
    exact ⟨m', by simp only [delAll, hdel, Res.bind, k1], k2, k3⟩

theorem tr_nodup {N : List Name} (hNB : ∀ x ∈ N, x ∉ B) : ∀ {st : Stmt} {σ σ' : Vars} {c : Code}, VarsOk N B σ → (∀ x ∈ news st, x ∈ N) →
    (∀ x ∈ bound st, x ∈ B) → tr σ st = some (c, σ') → σ.objs.Nodup → σ'.objs.Nodup := by
  intro st
  induction st with
  | skip => intro σ σ' c _ _ _ h; simp only [tr, Option.some.injEq, Prod.mk.injEq] at h; rw [← h.2]; exact id
  | seq a b iha ihb =>
    intro σ σ' c ok hn hb h hd
    simp only [tr, Option.bind_eq_some_iff, Option.map_eq_some_iff, Prod.exists, Prod.mk.injEq] at h
    obtain ⟨ca, σ1, h1, cb, σ2, h2, rfl, rfl⟩ := h
    have hna : ∀ x ∈ news a, x ∈ N := fun x hx => hn x (by simp [news, hx])
    have hba : ∀ x ∈ bound a, x ∈ B := fun x hx => hb x (by simp [bound, hx])
    exact ihb (tr_ok hNB ok hna hba h1).1 (fun x hx => hn x (by simp [news, hx])) (fun x hx => hb x (by simp [bound, hx])) h2 (iha ok hna hba h1 hd)
  | ite e a b iha ihb =>
    intro σ σ' c ok hn hb h hd
    simp only [tr] at h
    split at h
    · simp only [Option.bind_eq_some_iff, Option.map_eq_some_iff, Prod.exists, Prod.mk.injEq] at h
      obtain ⟨ca, σ1, h1, cb, σ2, h2, rfl, rfl⟩ := h
      have hna : ∀ x ∈ news a, x ∈ N := fun x hx => hn x (by simp [news, hx])
      have hba : ∀ x ∈ bound a, x ∈ B := fun x hx => hb x (by simp [bound, hx])
      exact ihb (tr_ok hNB ok hna hba h1).1 (fun x hx => hn x (by simp [news, hx])) (fun x hx => hb x (by simp [bound, hx])) h2 (iha ok hna hba h1 hd)
    · cases h
  | «while» e b ihb =>
    intro σ σ' c ok hn hb h hd
    simp only [tr] at h
    split at h
    · simp only [Option.map_eq_some_iff, Prod.exists, Prod.mk.injEq] at h
      obtain ⟨cb, σ2, h2, rfl, rfl⟩ := h
      exact ihb ok hn hb h2 hd
    · cases h
  | new x e =>
    intro σ σ' c ok hn hb h hd
    rcases trNew_cases ok hNB (hn x (by simp [news])) h with ⟨h1, _, _, rfl⟩ | ⟨h1, _, rfl⟩
    · exact hd
    · exact List.nodup_cons.2 ⟨h1, hd⟩
  | bind x y =>
    intro σ σ' c ok hn hb h hd
    rw [(trBind_cases ok hNB (hb x (by simp [bound])) h).2.2.2.1]; exact hd
  | setv x e =>
    intro σ σ' c ok hn hb h hd
    simp only [tr] at h
    split at h
    · cases h; exact hd
    · cases h
  | fill x e =>
    intro σ σ' c ok hn hb h hd
    simp only [tr] at h
    split at h
    · cases h; exact hd
    · cases h
  | print e =>
    intro σ σ' c ok hn hb h hd
    simp only [tr] at h
    split at h
    · cases h; exact hd
    · cases h

theorem run_ok (l : Lang) (p : Stmt) (hp : Plain p) (fuel : Nat) (out : List Int) (hpy : Spec.run p fuel = some out) (r : Res (List Int × Bool))
    (hr : Model.run l p fuel = some r) : r = .ok (out, true) := by
  unfold Spec.run at hpy
  unfold Model.run at hr
  simp only [Option.map_eq_some_iff, Prod.exists] at hpy hr
  obtain ⟨s', he, rfl⟩ := hpy
  obtain ⟨c, σ, ht, rfl⟩ := hr
  have ok : VarsOk (news p) (bound p) ⟨[], [], []⟩ := ⟨by simp, by simp, by simp⟩
  have hs : Safe [] p := tr_safe hp.apart ok (fun _ h => h) (fun _ h => h) (fun _ h => h) hp.loops (by simp) ht
  have hi : Inv [] [] (bound p) ⟨fun _ => (0, 0), 0, fun _ => none, []⟩ ⟨fun _ => none, fun _ => none, fun _ => none, 0, []⟩ := by
    constructor <;> simp
  obtain ⟨m, x1, i1⟩ := sim l hp.apart fuel p ok (fun _ h => h) (fun _ h => h) hp.headed hp.args hs ht hi he
  have hrest : Rest σ.objs m := ⟨fun x hx => by
    obtain ⟨i, b, _, _, h3, h4, _⟩ := i1.obj x hx
    exact ⟨_, b, h3, by rw [h4]; simp⟩, i1.arrInj, i1.live⟩
  obtain ⟨m', k1, k2, k3⟩ := delAll_ok l σ.objs m (tr_nodup hp.apart ok (fun _ h => h) (fun _ h => h) ht (by simp)) hrest
  simp only [x1, Res.bind, k1]
  have : m'.clean = true := by simp [Mem.clean, k3]
  rw [this, k2, i1.out]

end Verif.Instances.Lemmas
