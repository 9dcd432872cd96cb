import Verif.Instances.Model
namespace Verif.Instances.Lemmas
open Verif.Instances.Spec Verif.Instances.Model

/-- No statement makes a new object for a variable that may have other names: `P` are the names that may have them. -/
def Safe : List Name → Stmt → Prop
  | P, .seq a b => Safe P a ∧ Safe (P ++ sources a) b
  | P, .ite _ a b => Safe P a ∧ Safe (P ++ sources a) b
  | P, .new x _ => x ∉ P
  | P, .while _ b => Safe (P ++ sources b) b
  | _, _ => True

theorem Safe.mono {P Q : List Name} {s : Stmt} (h : ∀ x ∈ P, x ∈ Q) (hs : Safe Q s) : Safe P s := by
  induction s generalizing P Q with
  | seq a b iha ihb =>
    exact ⟨iha h hs.1, ihb (fun x hx => by
      rcases List.mem_append.1 hx with hx | hx
      · exact List.mem_append_left _ (h x hx)
      · exact List.mem_append_right _ hx) hs.2⟩
  | ite c a b iha ihb =>
    exact ⟨iha h hs.1, ihb (fun x hx => by
      rcases List.mem_append.1 hx with hx | hx
      · exact List.mem_append_left _ (h x hx)
      · exact List.mem_append_right _ hx) hs.2⟩
  | «while» c b ihb =>
    exact ihb (fun x hx => by
      rcases List.mem_append.1 hx with hx | hx
      · exact List.mem_append_left _ (h x hx)
      · exact List.mem_append_right _ hx) hs
  | new x e => exact fun hx => hs (h x hx)
  | skip => trivial
  | bind x y => trivial
  | setv x e => trivial
  | fill x e => trivial
  | print e => trivial

theorem safe_loop {S P : List Name} {s : Stmt} (hP : ∀ x ∈ P, x ∈ S) (hs : ∀ x ∈ sources s, x ∈ S) (hn : ∀ x ∈ news s, x ∉ S) :
    Safe P s := by
  induction s generalizing P with
  | seq a b iha ihb =>
    refine ⟨iha hP (fun x hx => hs x (by simp [sources, hx])) (fun x hx => hn x (by simp [news, hx])),
      ihb (fun x hx => ?_) (fun x hx => hs x (by simp [sources, hx])) (fun x hx => hn x (by simp [news, hx]))⟩
    rcases List.mem_append.1 hx with hx | hx
    · exact hP x hx
    · exact hs x (by simp [sources, hx])
  | ite c a b iha ihb =>
    refine ⟨iha hP (fun x hx => hs x (by simp [sources, hx])) (fun x hx => hn x (by simp [news, hx])),
      ihb (fun x hx => ?_) (fun x hx => hs x (by simp [sources, hx])) (fun x hx => hn x (by simp [news, hx]))⟩
    rcases List.mem_append.1 hx with hx | hx
    · exact hP x hx
    · exact hs x (by simp [sources, hx])
  | «while» c b ihb =>
    refine ihb (fun x hx => ?_) hs hn
    rcases List.mem_append.1 hx with hx | hx
    · exact hP x hx
    · exact hs x hx
  | new x e => exact fun hx => hn x (by simp [news]) (hP x hx)
  | skip => trivial
  | bind x y => trivial
  | setv x e => trivial
  | fill x e => trivial
  | print e => trivial

/-- What pyccel knows about the variables, with respect to the whole program: `N` get new objects, `B` are bound. -/
structure VarsOk (N B : List Name) (σ : Vars) : Prop where
  objs : ∀ x ∈ σ.objs, x ∈ N
  refs : ∀ x ∈ σ.refs, x ∈ B
  targets : ∀ x ∈ σ.targets, x ∈ σ.objs

theorem knows_iff {σ : Vars} {x : Name} : σ.knows x = true ↔ x ∈ σ.objs ∨ x ∈ σ.refs := by
  simp [Vars.knows]

theorem trNew_cases {N B : List Name} {σ σ' : Vars} {x : Name} {e : Expr} {c : Code} (ok : VarsOk N B σ) (hNB : ∀ x ∈ N, x ∉ B)
    (hx : x ∈ N) (h : trNew σ x e = some (c, σ')) :
    (x ∈ σ.objs ∧ x ∉ σ.targets ∧ c = .renew x e ∧ σ' = σ) ∨ (x ∉ σ.objs ∧ c = .init x e ∧ σ' = { σ with objs := x :: σ.objs }) := by
  unfold trNew at h
  split at h
  · split at h
    · next ho =>
      split at h
      · cases h
      · next ht => cases h; exact Or.inl ⟨by simpa using ho, by simpa using ht, rfl, rfl⟩
    · next ho =>
      split at h
      · next hr => exact absurd (ok.refs x (by simpa using hr)) (hNB x hx)
      · cases h; exact Or.inr ⟨by simpa using ho, rfl, rfl⟩
  · cases h

theorem trBind_cases {N B : List Name} {σ σ' : Vars} {x y : Name} {c : Code} (ok : VarsOk N B σ) (hNB : ∀ x ∈ N, x ∉ B)
    (hx : x ∈ B) (h : trBind σ x y = some (c, σ')) :
    (y ∈ σ.objs ∨ y ∈ σ.refs) ∧ x ∉ σ.objs ∧ c = (if x = y then .skip else .point x y) ∧ σ'.objs = σ.objs ∧
      (∀ z ∈ σ'.refs, z ∈ σ.refs ∨ z = x) ∧ (∀ z ∈ σ'.targets, z ∈ σ.targets ∨ (z = y ∧ y ∈ σ.objs)) ∧
      (∀ z ∈ σ.targets, z ∈ σ'.targets) ∧ (y ∈ σ.objs → y ∈ σ'.targets) := by
  unfold trBind at h
  have hxo : x ∉ σ.objs := fun ho => hNB x (ok.objs x ho) hx
  split at h
  · next hk =>
    rw [if_neg (by simpa using hxo)] at h
    simp only [Option.some.injEq, Prod.mk.injEq] at h
    obtain ⟨rfl, rfl⟩ := h
    refine ⟨knows_iff.1 hk, hxo, rfl, rfl, ?_, ?_, ?_, ?_⟩
    · intro z hz
      simp only at hz
      split at hz
      · exact Or.inl hz
      · rcases List.mem_cons.1 hz with rfl | hz
        · exact Or.inr rfl
        · exact Or.inl hz
    · intro z hz
      simp only at hz
      split at hz
      · next hy =>
        rcases List.mem_cons.1 hz with rfl | hz
        · exact Or.inr ⟨rfl, by simpa using hy⟩
        · exact Or.inl hz
      · exact Or.inl hz
    · intro z hz
      simp only
      split
      · exact List.mem_cons_of_mem _ hz
      · exact hz
    · intro hy
      simp only
      rw [if_pos (by simpa using hy)]
      simp
  · cases h

theorem tr_ok {N B : List Name} (hNB : ∀ x ∈ N, x ∉ B) {s : Stmt} {σ σ' : Vars} {c : Code} (ok : VarsOk N B σ) (hn : ∀ x ∈ news s, x ∈ N)
    (hb : ∀ x ∈ bound s, x ∈ B) (h : tr σ s = some (c, σ')) :
    VarsOk N B σ' ∧ (∀ x ∈ σ.targets, x ∈ σ'.targets) ∧ (∀ x ∈ sources s, x ∈ σ'.targets ∨ x ∈ B) := by
  induction s generalizing σ σ' c with
  | skip =>
    simp only [tr, Option.some.injEq, Prod.mk.injEq] at h
    obtain ⟨rfl, rfl⟩ := h
    exact ⟨ok, fun _ h => h, fun _ h => by cases h⟩
  | seq a b iha ihb =>
    simp only [tr, Option.bind_eq_some_iff, Option.map_eq_some_iff, Prod.exists, Prod.mk.injEq] at h
    obtain ⟨ca, σ1, h1, cb, σ2, h2, rfl, rfl⟩ := h
    obtain ⟨o1, t1, s1⟩ := iha ok (fun x hx => hn x (by simp [news, hx])) (fun x hx => hb x (by simp [bound, hx])) h1
    obtain ⟨o2, t2, s2⟩ := ihb o1 (fun x hx => hn x (by simp [news, hx])) (fun x hx => hb x (by simp [bound, hx])) h2
    refine ⟨o2, fun x hx => t2 x (t1 x hx), fun x hx => ?_⟩
    rcases List.mem_append.1 hx with hx | hx
    · exact (s1 x hx).imp (t2 x) id
    · exact s2 x hx
  | ite e a b iha ihb =>
    simp only [tr] at h
    split at h
    · simp only [Option.bind_eq_some_iff, Option.map_eq_some_iff, Prod.exists, Prod.mk.injEq] at h
      obtain ⟨ca, σ1, h1, cb, σ2, h2, rfl, rfl⟩ := h
      obtain ⟨o1, t1, s1⟩ := iha ok (fun x hx => hn x (by simp [news, hx])) (fun x hx => hb x (by simp [bound, hx])) h1
      obtain ⟨o2, t2, s2⟩ := ihb o1 (fun x hx => hn x (by simp [news, hx])) (fun x hx => hb x (by simp [bound, hx])) h2
      refine ⟨o2, fun x hx => t2 x (t1 x hx), fun x hx => ?_⟩
      rcases List.mem_append.1 hx with hx | hx
      · exact (s1 x hx).imp (t2 x) id
      · exact s2 x hx
    · cases h
  | «while» e b ihb =>
    simp only [tr] at h
    split at h
    · simp only [Option.map_eq_some_iff, Prod.exists, Prod.mk.injEq] at h
      obtain ⟨cb, σ2, h2, rfl, rfl⟩ := h
      exact ihb ok hn hb h2
    · cases h
  | new x e =>
    rcases trNew_cases ok hNB (hn x (by simp [news])) h with ⟨_, _, _, rfl⟩ | ⟨_, _, rfl⟩
    · exact ⟨ok, fun _ h => h, fun _ h => by cases h⟩
    · refine ⟨⟨fun y hy => ?_, ok.refs, fun y hy => List.mem_cons_of_mem _ (ok.targets y hy)⟩, fun _ h => h, fun _ h => by cases h⟩
      rcases List.mem_cons.1 hy with rfl | hy
      · exact hn _ (by simp [news])
      · exact ok.objs y hy
  | bind x y =>
    obtain ⟨hy, _, _, ho, hr, ht, htm, hyt⟩ := trBind_cases ok hNB (hb x (by simp [bound])) h
    refine ⟨⟨by rw [ho]; exact ok.objs, fun z hz => ?_, fun z hz => ?_⟩, htm, fun z hz => ?_⟩
    · rcases hr z hz with hz | rfl
      · exact ok.refs z hz
      · exact hb _ (by simp [bound])
    · rw [ho]
      rcases ht z hz with hz | ⟨rfl, hz⟩
      · exact ok.targets z hz
      · exact hz
    · simp only [sources, List.mem_singleton] at hz
      subst hz
      rcases hy with hy | hy
      · exact Or.inl (hyt hy)
      · exact Or.inr (ok.refs _ hy)
  | setv x e =>
    simp only [tr] at h
    split at h
    · cases h; exact ⟨ok, fun _ h => h, fun _ h => by cases h⟩
    · cases h
  | fill x e =>
    simp only [tr] at h
    split at h
    · cases h; exact ⟨ok, fun _ h => h, fun _ h => by cases h⟩
    · cases h
  | print e =>
    simp only [tr] at h
    split at h
    · cases h; exact ⟨ok, fun _ h => h, fun _ h => by cases h⟩
    · cases h

/-- An accepted program is safe if the variables that get new objects in loops have no other names. -/
theorem tr_safe {N B S : List Name} (hNB : ∀ x ∈ N, x ∉ B) {s : Stmt} {σ σ' : Vars} {c : Code} {P : List Name} (ok : VarsOk N B σ)
    (hn : ∀ x ∈ news s, x ∈ N) (hb : ∀ x ∈ bound s, x ∈ B) (hs : ∀ x ∈ sources s, x ∈ S) (hl : ∀ x ∈ loopNews s, x ∉ S)
    (hP : ∀ x ∈ P, (x ∈ σ.targets ∨ x ∈ B) ∧ x ∈ S) (h : tr σ s = some (c, σ')) : Safe P s := by
  induction s generalizing σ σ' c P with
  | skip => trivial
  | seq a b iha ihb =>
    simp only [tr, Option.bind_eq_some_iff, Option.map_eq_some_iff, Prod.exists, Prod.mk.injEq] at h
    obtain ⟨ca, σ1, h1, cb, σ2, h2, rfl, rfl⟩ := h
    have hna : ∀ x ∈ news a, x ∈ N := fun x hx => hn x (by simp [news, hx])
    have hba : ∀ x ∈ bound a, x ∈ B := fun x hx => hb x (by simp [bound, hx])
    have hsa : ∀ x ∈ sources a, x ∈ S := fun x hx => hs x (by simp [sources, hx])
    obtain ⟨o1, t1, s1⟩ := tr_ok hNB ok hna hba h1
    refine ⟨iha ok hna hba hsa (fun x hx => hl x (by simp [loopNews, hx])) hP h1,
      ihb o1 (fun x hx => hn x (by simp [news, hx])) (fun x hx => hb x (by simp [bound, hx])) (fun x hx => hs x (by simp [sources, hx]))
        (fun x hx => hl x (by simp [loopNews, hx])) (fun x hx => ?_) h2⟩
    rcases List.mem_append.1 hx with hx | hx
    · exact ⟨(hP x hx).1.imp (t1 x) id, (hP x hx).2⟩
    · exact ⟨s1 x hx, hsa x hx⟩
  | ite e a b iha ihb =>
    simp only [tr] at h
    split at h
    · simp only [Option.bind_eq_some_iff, Option.map_eq_some_iff, Prod.exists, Prod.mk.injEq] at h
      obtain ⟨ca, σ1, h1, cb, σ2, h2, rfl, rfl⟩ := h
      have hna : ∀ x ∈ news a, x ∈ N := fun x hx => hn x (by simp [news, hx])
      have hba : ∀ x ∈ bound a, x ∈ B := fun x hx => hb x (by simp [bound, hx])
      have hsa : ∀ x ∈ sources a, x ∈ S := fun x hx => hs x (by simp [sources, hx])
      obtain ⟨o1, t1, s1⟩ := tr_ok hNB ok hna hba h1
      refine ⟨iha ok hna hba hsa (fun x hx => hl x (by simp [loopNews, hx])) hP h1,
        ihb o1 (fun x hx => hn x (by simp [news, hx])) (fun x hx => hb x (by simp [bound, hx])) (fun x hx => hs x (by simp [sources, hx]))
          (fun x hx => hl x (by simp [loopNews, hx])) (fun x hx => ?_) h2⟩
      rcases List.mem_append.1 hx with hx | hx
      · exact ⟨(hP x hx).1.imp (t1 x) id, (hP x hx).2⟩
      · exact ⟨s1 x hx, hsa x hx⟩
    · cases h
  | «while» e b ihb =>
    show Safe (P ++ sources b) b
    refine safe_loop (S := S) (fun x hx => ?_) hs hl
    rcases List.mem_append.1 hx with hx | hx
    · exact (hP x hx).2
    · exact hs x hx
  | new x e =>
    have hxN := hn x (by simp [news])
    intro hx
    rcases (hP x hx).1 with ht | hB
    · rcases trNew_cases ok hNB hxN h with ⟨_, h2, _⟩ | ⟨h1, _⟩
      · exact h2 ht
      · exact h1 (ok.targets x ht)
    · exact hNB x hxN hB
  | bind x y => trivial
  | setv x e => trivial
  | fill x e => trivial
  | print e => trivial

/-! ## The states correspond -/

/-- `K`: the structures that have been set; `P`: the variables that may have other names; `B`: the variables that are pointers. -/
structure Inv (K P B : List Name) (s : State) (m : Mem) : Prop where
  out : m.out = s.out
  obj : ∀ x ∈ K, ∃ i b, s.env x = some i ∧ i < s.next ∧ m.slots x = some ⟨(s.heap i).1, some b, false⟩ ∧
    m.blocks b = some (s.heap i).2 ∧ b < m.next
  envInj : ∀ x ∈ K, ∀ y ∈ K, s.env x = s.env y → x = y
  arrInj : ∀ x ∈ K, ∀ y ∈ K, ∀ t u b, m.slots x = some t → m.slots y = some u → t.arr = some b → u.arr = some b → x = y
  live : ∀ b, m.blocks b ≠ none → ∃ x ∈ K, ∃ t, m.slots x = some t ∧ t.arr = some b
  slot : ∀ x, m.slots x ≠ none → x ∈ K
  ptr : ∀ y z, m.ptr y = some z → y ∈ B ∧ z ∈ K ∧ z ∈ P ∧ s.env y = s.env z
  defd : ∀ y, y ∉ K → s.env y ≠ none → m.ptr y ≠ none

theorem Inv.mono {K P Q B : List Name} {s : State} {m : Mem} (h : Inv K P B s m) (hPQ : ∀ x ∈ P, x ∈ Q) : Inv K Q B s m :=
  { h with ptr := fun y z hz => ⟨(h.ptr y z hz).1, (h.ptr y z hz).2.1, hPQ z (h.ptr y z hz).2.2.1, (h.ptr y z hz).2.2.2⟩ }

theorem Inv.kptr {K P B : List Name} {s : State} {m : Mem} (h : Inv K P B s m) (hKB : ∀ x ∈ K, x ∉ B) {x : Name} (hx : x ∈ K) :
    m.ptr x = none := by
  cases hp : m.ptr x with
  | none => rfl
  | some z => exact absurd (h.ptr x z hp).1 (hKB x hx)

theorem Inv.loc {K P B : List Name} {s : State} {m : Mem} (h : Inv K P B s m) (hKB : ∀ x ∈ K, x ∉ B) {x : Name} {i : Nat}
    (hx : s.env x = some i) : m.loc x ∈ K ∧ s.env (m.loc x) = some i ∧ ((x ∈ K ∧ m.loc x = x) ∨ m.loc x ∈ P) := by
  unfold Mem.loc
  by_cases hk : x ∈ K
  · rw [h.kptr hKB hk]; exact ⟨hk, hx, Or.inl ⟨hk, rfl⟩⟩
  · cases hp : m.ptr x with
    | none => exact absurd hp (h.defd x hk (by rw [hx]; simp))
    | some z =>
      obtain ⟨_, h2, h3, h4⟩ := h.ptr x z hp
      exact ⟨h2, by simp only [Option.getD_some]; rw [← h4]; exact hx, Or.inr h3⟩

theorem eval_eq {K P B : List Name} {s : State} {m : Mem} (h : Inv K P B s m) (hKB : ∀ x ∈ K, x ∉ B) :
    ∀ {e : Expr} {k : Int}, eval s e = some k → evalC m e = some k
  | .num _, _, he => he
  | .attr x, k, he => by
    simp only [eval, Option.map_eq_some_iff] at he
    obtain ⟨i, hi, rfl⟩ := he
    obtain ⟨h1, h2, _⟩ := h.loc hKB hi
    obtain ⟨j, b, h3, _, h4, _⟩ := h.obj _ h1
    have : i = j := by rw [h2] at h3; exact Option.some.inj h3
    subst this
    simp [evalC, h4]
  | .elem x, k, he => by
    simp only [eval, Option.map_eq_some_iff] at he
    obtain ⟨i, hi, rfl⟩ := he
    obtain ⟨h1, h2, _⟩ := h.loc hKB hi
    obtain ⟨j, b, h3, _, h4, h5, _⟩ := h.obj _ h1
    have : i = j := by rw [h2] at h3; exact Option.some.inj h3
    subst this
    simp [evalC, h4, h5]
  | .add a b, k, he => by
    simp only [eval, Option.bind_eq_some_iff, Option.map_eq_some_iff] at he
    obtain ⟨u, hu, w, hw, rfl⟩ := he
    simp [evalC, eval_eq h hKB hu, eval_eq h hKB hw]

/-- After the structure `x` was deleted its array cannot be read, everything else can. -/
theorem eval_del {K P B : List Name} {s : State} {m m1 : Mem} (h : Inv K P B s m) (hKB : ∀ x ∈ K, x ∉ B) {x : Name} (hxP : x ∉ P)
    (hptr : m1.ptr = m.ptr) (hv : ∀ y t, m.slots y = some t → ∃ t', m1.slots y = some t' ∧ t'.v = t.v)
    (ho : ∀ y, y ≠ x → m1.slots y = m.slots y) (hbl : ∀ y ∈ K, y ≠ x → ∀ t b, m.slots y = some t → t.arr = some b → m1.blocks b = m.blocks b) :
    ∀ {e : Expr} {k : Int}, x ∉ elems e → eval s e = some k → evalC m1 e = some k
  | .num _, _, _, he => he
  | .attr y, k, _, he => by
    have hl : m1.loc y = m.loc y := by simp [Mem.loc, hptr]
    have := eval_eq h hKB he
    simp only [evalC, Option.map_eq_some_iff] at this ⊢
    obtain ⟨t, ht, rfl⟩ := this
    obtain ⟨t', h1, h2⟩ := hv _ t ht
    exact ⟨t', by rw [hl]; exact h1, h2⟩
  | .elem y, k, hx, he => by
    have hl : m1.loc y = m.loc y := by simp [Mem.loc, hptr]
    have hc := eval_eq h hKB he
    simp only [eval, Option.map_eq_some_iff] at he
    obtain ⟨i, hi, rfl⟩ := he
    obtain ⟨h1, _, h3⟩ := h.loc hKB hi
    have hne : m.loc y ≠ x := by
      rcases h3 with ⟨_, h3⟩ | h3
      · rw [h3]; intro hyx; exact hx (by simp [elems, hyx])
      · intro hyx; rw [hyx] at h3; exact hxP h3
    simp only [evalC, Option.bind_eq_some_iff] at hc ⊢
    obtain ⟨t, ht, b, hb, hbl'⟩ := hc
    exact ⟨t, by rw [hl, ho _ hne]; exact ht, b, hb, by rw [hbl _ h1 hne t b ht hb]; exact hbl'⟩
  | .add a b, k, hx, he => by
    simp only [eval, Option.bind_eq_some_iff, Option.map_eq_some_iff] at he
    obtain ⟨u, hu, w, hw, rfl⟩ := he
    simp only [elems, List.mem_append, not_or] at hx
    simp [evalC, eval_del h hKB hxP hptr hv ho hbl hx.1 hu, eval_del h hKB hxP hptr hv ho hbl hx.2 hw]

end Verif.Instances.Lemmas
