import Verif.Cache.Lemmas
/-!
# Lemmas on the caches
-/

namespace Verif.Cache

open Verif.Cache.Spec Verif.Cache.Obj

/-- What a call should return. -/
def Call.denote : Call → Ty
  | .final t => .final t.shape
  | .tuple t => .tuple t.shape
  | .list t => .list t.shape
  | .set t => .set t.shape
  | .inhom ts => .inhom (Obj.shapes ts)
  | .dict k v => .dict k.shape v.shape
  | .array n 0 _ => .basic n
  | .array n (r + 1) o => .array n (r + 1) o

/-- The hash values of the key of a call. -/
def Call.hkey (c : Call) : List Hash × Option (Nat × Option Order) :=
  (c.args.map Obj.hash, c.params)

/-- The arguments of a call are registered and nothing in them is `Final`. -/
def ArgsGood (reg : Nat → Ty) (n : Nat) (c : Call) : Prop :=
  ∀ x ∈ c.args, Good reg n x ∧ x.shape.plain = true

theorem keyEq_iff {c c' : Call} (h : ∀ x ∈ c.args, x.shape.plain = true)
    (h' : ∀ x ∈ c'.args, x.shape.plain = true) : c.keyEq c' = true ↔ c.hkey = c'.hkey := by
  have key : ∀ l l' : List Obj, (∀ x ∈ l, x.shape.plain = true) → (∀ x ∈ l', x.shape.plain = true) →
      l.map Obj.hash = l'.map Obj.hash →
      ((l.zip l').all fun p => Obj.same p.1 p.2 || Obj.pyEq p.1 p.2) = true := by
    intro l
    induction l with
    | nil => intro l' _ _ _; rfl
    | cons x l ih =>
      intro l' h1 h2 h3
      cases l' with
      | nil => rfl
      | cons y l' =>
        simp only [List.map_cons, List.cons.injEq] at h3
        simp only [List.zip_cons_cons, List.all_cons, Bool.and_eq_true]
        refine ⟨?_, ih l' (fun z hz => h1 z (by simp [hz])) (fun z hz => h2 z (by simp [hz])) h3.2⟩
        rw [pyEq_of_meth (meth_of_hash x y (h1 x (by simp)) (h2 y (by simp)) h3.1), Bool.or_true]
  unfold Call.keyEq Call.hkey
  simp only [Bool.and_eq_true, decide_eq_true_eq, Prod.mk.injEq]
  constructor
  · exact fun hh => hh.1
  · exact fun hh => ⟨hh, key _ _ h h' hh.1⟩

theorem shapes_of_hash {reg : Nat → Ty} {n : Nat} : ∀ l l' : List Obj,
    (∀ x ∈ l, Good reg n x ∧ x.shape.plain = true) →
    (∀ x ∈ l', Good reg n x ∧ x.shape.plain = true) → l.map Obj.hash = l'.map Obj.hash →
    Obj.shapes l = Obj.shapes l' := by
  intro l
  induction l with
  | nil => intro l' _ _ h; cases l' <;> simp_all
  | cons x l ih =>
    intro l' h1 h2 h3
    cases l' with
    | nil => simp at h3
    | cons y l' =>
      simp only [List.map_cons, List.cons.injEq] at h3
      simp only [Obj.shapes]
      rw [ih l' (fun z hz => h1 z (by simp [hz])) (fun z hz => h2 z (by simp [hz])) h3.2,
        shape_of_hash x y (h1 x (by simp)).2 (h2 y (by simp)).2 (h1 x (by simp)).1
          (h2 y (by simp)).1 h3.1]

theorem denote_of_hkey {reg : Nat → Ty} {n : Nat} {c c' : Call} (hf : c.fam = c'.fam)
    (h : ArgsGood reg n c) (h' : ArgsGood reg n c') (hk : c.hkey = c'.hkey) :
    c.denote = c'.denote := by
  simp only [Call.hkey, Prod.mk.injEq] at hk
  have hs := shapes_of_hash c.args c'.args h h' hk.1
  cases c <;> cases c' <;> simp [Call.fam] at hf <;>
    simp_all [Call.denote, Call.args, Obj.shapes, Call.params] 

/-- What holds of the caches at each time. -/
structure Inv (s : State) (reg : Nat → Ty) : Prop where
  fam : ∀ f, ∀ e ∈ s.cache f, e.1.fam = f
  args : ∀ f, ∀ e ∈ s.cache f, ArgsGood reg s.next e.1
  good : ∀ f, ∀ e ∈ s.cache f, Good reg s.next e.2
  shape : ∀ f, ∀ e ∈ s.cache f, e.2.shape = e.1.denote
  keys : ∀ f, (s.cache f).Pairwise fun e e' => e.1.hkey ≠ e'.1.hkey

theorem inv_init (reg : Nat → Ty) : Inv State.init reg := by
  constructor <;> intro f <;> simp [State.init]

/-- The first registry is a part of the second. -/
def Ext (n : Nat) (reg reg' : Nat → Ty) : Prop := ∀ i < n, reg' i = reg i

theorem ArgsGood.mono {reg reg' : Nat → Ty} {n n' : Nat} {c : Call} (h : ArgsGood reg n c)
    (hn : n ≤ n') (hr : Ext n reg reg') : ArgsGood reg' n' c :=
  fun x hx => ⟨(h x hx).1.mono hn hr, (h x hx).2⟩

theorem build_shape {c : Call} {i : Nat} (h : ∀ x ∈ c.args, x.shape.plain = true) :
    (c.build i).shape = c.denote := by
  cases c with
  | final t =>
    have := h t (by simp [Call.args])
    cases t <;> first | rfl | simp at this
  | array n r o => cases r <;> rfl
  | _ => rfl

theorem build_good {c : Call} {reg : Nat → Ty} {n : Nat} (h : ArgsGood reg n c) :
    Good (fun i => if i = n then c.denote else reg i) (n + 1) (c.build n) := by
  have hs := build_shape (i := n) fun x hx => (h x hx).2
  have hsub : ∀ x ∈ c.args, Good (fun i => if i = n then c.denote else reg i) (n + 1) x := by
    intro x hx
    refine (h x hx).1.mono (Nat.le_succ n) ?_
    intro i hi
    simp only [if_neg (Nat.ne_of_lt hi)]
  have key : ∀ x : Obj, x.ident = .made n → x.shape = c.denote →
      (∀ y ∈ x.nodes, y = x ∨ ∃ z ∈ c.args, y ∈ z.nodes) →
      Good (fun i => if i = n then c.denote else reg i) (n + 1) x := by
    intro x hx hs hn y hy i hi
    rcases hn y hy with rfl | ⟨z, hz, hy⟩
    · rw [hx] at hi; cases hi
      simp [hs]
    · exact hsub z hz y hy i hi
  cases c with
  | final t =>
    have hp := (h t (by simp [Call.args])).2
    have : Call.build n (.final t) = .final n t := by cases t <;> first | rfl | simp at hp
    rw [this] at hs ⊢
    exact key _ rfl hs (by simp [Obj.nodes, Call.args])
  | array a r o =>
    cases r with
    | zero => intro y hy i hi; simp [Call.build, Obj.nodes] at hy; subst hy; cases hi
    | succ r => exact key _ rfl hs (by simp [Call.build, Obj.nodes, Call.args])
  | tuple t => exact key _ rfl hs (by simp [Call.build, Obj.nodes, Call.args])
  | list t => exact key _ rfl hs (by simp [Call.build, Obj.nodes, Call.args])
  | set t => exact key _ rfl hs (by simp [Call.build, Obj.nodes, Call.args])
  | inhom ts =>
    refine key _ rfl hs ?_
    intro y hy
    simp only [Call.build, Obj.nodes, nodess_eq, List.mem_cons, List.mem_flatMap] at hy
    exact hy
  | dict k v =>
    refine key _ rfl hs ?_
    intro y hy
    simpa [Call.build, Obj.nodes, Call.args] using hy

/-- What a call does. -/
structure Called (s : State) (reg : Nat → Ty) (r : Obj × State) (reg' : Nat → Ty) (t : Ty) : Prop where
  inv : Inv r.2 reg'
  next : s.next ≤ r.2.next
  ext : Ext s.next reg reg'
  good : Good reg' r.2.next r.1
  shape : r.1.shape = t

theorem pairwise_eraseP {α : Type} {R : α → α → Prop} {p : α → Bool} {l : List α}
    (h : l.Pairwise R) : (l.eraseP p).Pairwise R := h.sublist List.eraseP_sublist

theorem not_mem_eraseP {α : Type} {p : α → Bool} {R : α → α → Prop} {l : List α} {e : α}
    (h : l.Pairwise R) (hf : l.find? p = some e) : ∀ x ∈ l.eraseP p, R e x ∨ R x e := by
  induction l with
  | nil => simp at hf
  | cons a l ih =>
    rw [List.pairwise_cons] at h
    intro x hx
    by_cases ha : p a
    · simp [List.find?_cons, ha] at hf
      subst hf
      simp [List.eraseP_cons, ha] at hx
      exact .inl (h.1 x hx)
    · simp [List.find?_cons, ha] at hf
      simp [List.eraseP_cons, ha] at hx
      rcases hx with rfl | hx
      · exact .inr (h.1 e (List.mem_of_find?_eq_some hf))
      · exact ih h.2 hf x hx

theorem getNew_called {s : State} {reg : Nat → Ty} (hi : Inv s reg) {c : Call}
    (hc : ArgsGood reg s.next c) : ∃ reg', Called s reg (getNew c s) reg' c.denote := by
  unfold getNew
  cases hf : (s.cache c.fam).find? fun e => e.1.keyEq c with
  | some e =>
    have he := List.mem_of_find?_eq_some hf
    have hk := (keyEq_iff (fun x hx => (hi.args _ e he x hx).2) fun x hx => (hc x hx).2).1
      (by have := List.find?_some hf; exact this)
    have hmem : ∀ f, ∀ x ∈ (if f = c.fam then
        e :: (s.cache c.fam).eraseP (fun e => e.1.keyEq c) else s.cache f), x ∈ s.cache f := by
      intro f x hx
      split at hx
      · next h =>
        subst h
        rcases List.mem_cons.1 hx with rfl | hx
        · exact he
        · exact List.mem_of_mem_eraseP hx
      · exact hx
    refine ⟨reg, ⟨?_, ?_, ?_, ?_, ?_⟩, Nat.le_refl _, fun _ _ => rfl, hi.good _ e he, ?_⟩
    · exact fun f x hx => hi.fam f x (hmem f x hx)
    · exact fun f x hx => hi.args f x (hmem f x hx)
    · exact fun f x hx => hi.good f x (hmem f x hx)
    · exact fun f x hx => hi.shape f x (hmem f x hx)
    · intro f
      show (if f = c.fam then _ else s.cache f).Pairwise _
      split
      · next h =>
        subst h
        rw [List.pairwise_cons]
        refine ⟨?_, pairwise_eraseP (hi.keys _)⟩
        intro x hx
        rcases not_mem_eraseP (hi.keys _) hf x hx with h | h
        · exact h
        · exact h.symm
      · exact hi.keys f
    · rw [show ((e.2, _) : Obj × State).1 = e.2 from rfl, hi.shape _ e he]
      exact denote_of_hkey (hi.fam _ e he) (hi.args _ e he) hc hk
  | none =>
    have hext : Ext s.next reg fun i => if i = s.next then c.denote else reg i := by
      intro i hi
      simp only [if_neg (Nat.ne_of_lt hi)]
    have hnew : ∀ x ∈ s.cache c.fam, x.1.hkey ≠ c.hkey := by
      intro x hx hk
      have := List.find?_eq_none.1 hf x hx
      exact this ((keyEq_iff (fun y hy => (hi.args _ x hx y hy).2) fun y hy => (hc y hy).2).2 hk)
    have hmem : ∀ f, ∀ x ∈ (if f = c.fam then
        ((c, c.build s.next) :: s.cache c.fam).take maxsize else s.cache f),
        x ∈ s.cache f ∨ (f = c.fam ∧ x = (c, c.build s.next)) := by
      intro f x hx
      split at hx
      · next h =>
        subst h
        rcases List.mem_cons.1 (List.mem_of_mem_take hx) with rfl | hx
        · exact .inr ⟨rfl, rfl⟩
        · exact .inl hx
      · exact .inl hx
    refine ⟨_, ⟨?_, ?_, ?_, ?_, ?_⟩, Nat.le_succ _, hext, build_good hc,
      build_shape fun x hx => (hc x hx).2⟩
    · intro f x hx
      rcases hmem f x hx with h | ⟨rfl, rfl⟩
      · exact hi.fam f x h
      · rfl
    · intro f x hx
      rcases hmem f x hx with h | ⟨rfl, rfl⟩
      · exact (hi.args f x h).mono (Nat.le_succ _) hext
      · exact hc.mono (Nat.le_succ _) hext
    · intro f x hx
      rcases hmem f x hx with h | ⟨rfl, rfl⟩
      · exact (hi.good f x h).mono (Nat.le_succ _) hext
      · exact build_good hc
    · intro f x hx
      rcases hmem f x hx with h | ⟨rfl, rfl⟩
      · exact hi.shape f x h
      · exact build_shape fun x hx => (hc x hx).2
    · intro f
      show (if f = c.fam then _ else s.cache f).Pairwise _
      split
      · next h =>
        subst h
        refine List.Pairwise.sublist (List.take_sublist _ _) ?_
        rw [List.pairwise_cons]
        exact ⟨fun x hx => (hnew x hx).symm, hi.keys _⟩
      · exact hi.keys f

theorem Called.next_call {s : State} {reg reg1 : Nat → Ty} {r : Obj × State} {t : Ty}
    (h : Called s reg r reg1 t) {c : Call} (hc : ArgsGood reg1 r.2.next c) :
    ∃ reg', Called s reg (getNew c r.2) reg' c.denote := by
  obtain ⟨reg2, h2⟩ := getNew_called h.inv hc
  refine ⟨reg2, h2.inv, Nat.le_trans h.next h2.next, ?_, h2.good, h2.shape⟩
  intro i hi
  rw [h2.ext i (Nat.lt_of_lt_of_le hi h.next), h.ext i hi]

theorem good_leaf {reg : Nat → Ty} {n : Nat} {x : Obj} (h : ∀ y ∈ x.nodes, ∀ i, y.ident ≠ .made i) :
    Good reg n x := fun y hy i hi => absurd hi (h y hy i)

/-- The object for an annotation describes what the annotation means. -/
theorem get_called : ∀ (t : Ty) {s : State} {reg : Nat → Ty}, Inv s reg → t.plain = true →
    ∃ reg', Called s reg (get t s) reg' t.meaning := by
  intro t
  induction t using ty_ind with
  | basic n => 
    intro s reg hi _
    exact ⟨reg, hi, Nat.le_refl _, fun _ _ => rfl, good_leaf (by simp [get, Obj.nodes, ident]), rfl⟩
  | generic =>
    intro s reg hi _
    exact ⟨reg, hi, Nat.le_refl _, fun _ _ => rfl, good_leaf (by simp [get, Obj.nodes, ident]), rfl⟩
  | string =>
    intro s reg hi _
    exact ⟨reg, hi, Nat.le_refl _, fun _ _ => rfl, good_leaf (by simp [get, Obj.nodes, ident]), rfl⟩
  | final t ih => intro s reg _ h; simp at h
  | tuple t ih =>
    intro s reg hi hp
    have hp : t.plain = true := by simpa using hp
    obtain ⟨reg1, h1⟩ := ih hi hp
    have hg : (get t s).1.shape.plain = true := by rw [h1.shape]; exact meaning_plain hp
    obtain ⟨reg2, h2⟩ := h1.next_call (c := .tuple (get t s).1) (fun x hx => by
      simp only [Call.args, List.mem_singleton] at hx; subst hx; exact ⟨h1.good, hg⟩)
    exact ⟨reg2, by simpa [get, Call.denote, h1.shape, Ty.meaning] using h2⟩
  | list t ih =>
    intro s reg hi hp
    have hp : t.plain = true := by simpa using hp
    obtain ⟨reg1, h1⟩ := ih hi hp
    have hg : (get t s).1.shape.plain = true := by rw [h1.shape]; exact meaning_plain hp
    obtain ⟨reg2, h2⟩ := h1.next_call (c := .list (get t s).1) (fun x hx => by
      simp only [Call.args, List.mem_singleton] at hx; subst hx; exact ⟨h1.good, hg⟩)
    exact ⟨reg2, by simpa [get, Call.denote, h1.shape, Ty.meaning] using h2⟩
  | set t ih =>
    intro s reg hi hp
    have hp : t.plain = true := by simpa using hp
    obtain ⟨reg1, h1⟩ := ih hi hp
    have hg : (get t s).1.shape.plain = true := by rw [h1.shape]; exact meaning_plain hp
    obtain ⟨reg2, h2⟩ := h1.next_call (c := .set (get t s).1) (fun x hx => by
      simp only [Call.args, List.mem_singleton] at hx; subst hx; exact ⟨h1.good, hg⟩)
    exact ⟨reg2, by simpa [get, Call.denote, h1.shape, Ty.meaning] using h2⟩
  | inhom ts ih =>
    intro s reg hi hp
    rw [plain_inhom] at hp
    have key : ∀ ts : List Ty, (∀ t ∈ ts, ∀ {s : State} {reg : Nat → Ty}, Inv s reg →
        t.plain = true → ∃ reg', Called s reg (get t s) reg' t.meaning) →
        (∀ t ∈ ts, t.plain = true) → ∀ {s : State} {reg : Nat → Ty}, Inv s reg → ∃ reg',
        Inv (gets ts s).2 reg' ∧ s.next ≤ (gets ts s).2.next ∧ Ext s.next reg reg' ∧
        (∀ x ∈ (gets ts s).1, Good reg' (gets ts s).2.next x ∧ x.shape.plain = true) ∧
        Obj.shapes (gets ts s).1 = Ty.meanings ts := by
      intro ts
      induction ts with
      | nil =>
        intro _ _ s reg hi
        exact ⟨reg, hi, Nat.le_refl _, fun _ _ => rfl, by simp [gets], rfl⟩
      | cons t ts iht =>
        intro ih hp s reg hi
        obtain ⟨reg1, h1⟩ := ih t (by simp) hi (hp t (by simp))
        obtain ⟨reg2, h2, h3, h4, h5, h6⟩ :=
          iht (fun x hx => ih x (by simp [hx])) (fun x hx => hp x (by simp [hx])) h1.inv
        refine ⟨reg2, h2, Nat.le_trans h1.next h3, ?_, ?_, ?_⟩
        · intro i hi
          rw [h4 i (Nat.lt_of_lt_of_le hi h1.next), h1.ext i hi]
        · intro x hx
          rcases List.mem_cons.1 hx with rfl | hx
          · exact ⟨h1.good.mono h3 h4, by rw [h1.shape]; exact meaning_plain (hp t (by simp))⟩
          · exact h5 x hx
        · simp only [gets, Obj.shapes, Ty.meanings, h6, h1.shape]
    obtain ⟨reg1, h1, h2, h3, h4, h5⟩ := key ts (fun t ht {s reg} => ih t ht) hp hi
    obtain ⟨reg2, h6⟩ := getNew_called h1 (c := .inhom (gets ts s).1) h4
    refine ⟨reg2, h6.inv, Nat.le_trans h2 h6.next, ?_, h6.good, ?_⟩
    · intro i hi
      rw [h6.ext i (Nat.lt_of_lt_of_le hi h2), h3 i hi]
    · simpa [get, Call.denote, h5, Ty.meaning] using h6.shape
  | dict k v ihk ihv =>
    intro s reg hi hp
    simp only [plain_dict, Bool.and_eq_true] at hp
    obtain ⟨reg1, h1⟩ := ihk hi hp.1
    obtain ⟨reg2, h2⟩ := ihv h1.inv hp.2
    obtain ⟨reg3, h3⟩ := h2.next_call (c := .dict (get k s).1 (get v (get k s).2).1) (by
      intro x hx
      simp only [Call.args, List.mem_cons, List.not_mem_nil, or_false] at hx
      rcases hx with rfl | rfl
      · exact ⟨h1.good.mono h2.next h2.ext, by rw [h1.shape]; exact meaning_plain hp.1⟩
      · exact ⟨h2.good, by rw [h2.shape]; exact meaning_plain hp.2⟩)
    refine ⟨reg3, h3.inv, Nat.le_trans h1.next h3.next, ?_, h3.good, ?_⟩
    · intro i hi
      rw [h3.ext i (Nat.lt_of_lt_of_le hi h1.next), h1.ext i hi]
    · simpa [get, Call.denote, h1.shape, h2.shape, Ty.meaning] using h3.shape
  | array n r o =>
    intro s reg hi _
    obtain ⟨reg1, h1⟩ := getNew_called hi (c := .array n r o) (by
      intro x hx
      simp only [Call.args, List.mem_singleton] at hx
      subst hx
      exact ⟨good_leaf (by simp [Obj.nodes, ident]), rfl⟩)
    refine ⟨reg1, ?_⟩
    cases r <;> exact h1

theorem get_called_outer (t : Ty) {s : State} {reg : Nat → Ty} (hi : Inv s reg)
    (h : t.outer = true) : ∃ reg', Called s reg (get t s) reg' t.meaning := by
  cases t with
  | final t =>
    have hp : t.plain = true := h
    obtain ⟨reg1, h1⟩ := get_called t hi hp
    have hg : (get t s).1.shape.plain = true := by rw [h1.shape]; exact meaning_plain hp
    obtain ⟨reg2, h2⟩ := h1.next_call (c := .final (get t s).1) (fun x hx => by
      simp only [Call.args, List.mem_singleton] at hx; subst hx; exact ⟨h1.good, hg⟩)
    exact ⟨reg2, by simpa [get, Call.denote, h1.shape, Ty.meaning, base_plain (meaning_plain hp)] using h2⟩
  | _ => exact get_called _ hi h

theorem after_inv : ∀ (hist : List Ty) {s : State} {reg : Nat → Ty}, Inv s reg →
    (∀ t ∈ hist, t.outer = true) →
    ∃ reg', Inv (after hist s) reg' ∧ s.next ≤ (after hist s).next ∧ Ext s.next reg reg' := by
  intro hist
  induction hist with
  | nil => intro s reg hi _; exact ⟨reg, hi, Nat.le_refl _, fun _ _ => rfl⟩
  | cons t hist ih =>
    intro s reg hi h
    obtain ⟨reg1, h1⟩ := get_called_outer t hi (h t (by simp))
    obtain ⟨reg2, h2, h3, h4⟩ := ih h1.inv (fun x hx => h x (by simp [hx]))
    refine ⟨reg2, h2, Nat.le_trans h1.next h3, ?_⟩
    intro i hi
    rw [h4 i (Nat.lt_of_lt_of_le hi h1.next), h1.ext i hi]

end Verif.Cache
