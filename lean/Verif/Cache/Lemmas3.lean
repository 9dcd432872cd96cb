import Verif.Cache.Lemmas2
/-!
# How long a result is kept
-/

namespace Verif.Cache

open Verif.Cache.Spec Verif.Cache.Obj

/-- The result of a call is one of the `n` that were used last. -/
def Stored (s : State) (n : Nat) (c : Call) (o : Obj) : Prop :=
  (∀ x ∈ c.args, x.shape.plain = true) ∧
    ∃ e ∈ (s.cache c.fam).take n, e.1.hkey = c.hkey ∧ e.2 = o

/-- The result of a call is in its cache. -/
def Kept (s : State) (c : Call) (o : Obj) : Prop :=
  (∀ x ∈ c.args, x.shape.plain = true) ∧ ∃ e ∈ s.cache c.fam, e.1.hkey = c.hkey ∧ e.2 = o

theorem Stored.kept {s : State} {n : Nat} {c : Call} {o : Obj} (h : Stored s n c o) : Kept s c o := by
  obtain ⟨hp, e, he, h⟩ := h
  exact ⟨hp, e, List.mem_of_mem_take he, h⟩

theorem hit_unique {s : State} {reg : Nat → Ty} (hi : Inv s reg) {c : Call}
    (hp : ∀ x ∈ c.args, x.shape.plain = true) {e e' : Call × Obj} (he : e ∈ s.cache c.fam)
    (hk : e.1.hkey = c.hkey) (he' : e' ∈ s.cache c.fam) (hk' : e'.1.keyEq c = true) : e' = e := by
  have hk' := (keyEq_iff (fun x hx => (hi.args _ e' he' x hx).2) hp).1 hk'
  have hk : e'.1.hkey = e.1.hkey := hk'.trans hk.symm
  have := hi.keys c.fam
  revert he he' this
  generalize s.cache c.fam = l
  intro he he' this
  induction l with
  | nil => cases he
  | cons a l ih =>
    rw [List.pairwise_cons] at this
    rcases List.mem_cons.1 he with h1 | h1 <;> rcases List.mem_cons.1 he' with h2 | h2
    · rw [h1, h2]
    · exact absurd hk.symm (h1 ▸ this.1 e' h2)
    · exact absurd hk (h2 ▸ this.1 e h1)
    · exact ih h1 h2 this.2

theorem mem_eraseP_or {α : Type} {p : α → Bool} {l : List α} {x e : α} {n : Nat}
    (hx : x ∈ l.take n) (hf : l.find? p = some e) : x = e ∨ x ∈ (l.eraseP p).take n := by
  induction l generalizing n with
  | nil => simp at hx
  | cons a l ih =>
    cases n with
    | zero => simp at hx
    | succ n =>
      simp only [List.take_succ_cons, List.mem_cons] at hx
      by_cases ha : p a
      · simp only [List.find?_cons, ha] at hf
        cases hf
        rcases hx with rfl | hx
        · exact .inl rfl
        · right
          rw [List.eraseP_cons_of_pos ha]
          exact (List.take_subset_take_left l (Nat.le_succ n)) hx
      · simp only [List.find?_cons, ha] at hf
        rw [List.eraseP_cons_of_neg ha]
        rcases hx with rfl | hx
        · right; simp
        · rcases ih hx hf with h | h
          · exact .inl h
          · right; simp [h]

/-- A call whose result is in the cache returns it, and no result is lost. -/
theorem getNew_hit {s : State} {reg : Nat → Ty} (hi : Inv s reg) {c : Call} {o : Obj}
    (h : Kept s c o) : (getNew c s).1 = o ∧ ∀ c' o', Kept s c' o' → Kept (getNew c s).2 c' o' := by
  obtain ⟨hp, e, he, hk, rfl⟩ := h
  unfold getNew
  cases hf : (s.cache c.fam).find? fun e => e.1.keyEq c with
  | none =>
    have := List.find?_eq_none.1 hf e he
    exact absurd ((keyEq_iff (fun x hx => (hi.args _ e he x hx).2) hp).2 hk) this
  | some e' =>
    have hk' : e'.1.keyEq c = true := by have := List.find?_some hf; exact this
    have := hit_unique hi hp he hk (List.mem_of_find?_eq_some hf) hk'
    subst this
    refine ⟨rfl, ?_⟩
    rintro c' o' ⟨hp', x, hx, h⟩
    refine ⟨hp', x, ?_, h⟩
    show x ∈ (if c'.fam = c.fam then _ else s.cache c'.fam)
    split
    · next hf' =>
      rw [hf'] at hx
      rw [List.mem_cons]
      have hx' : x ∈ (s.cache c.fam).take (s.cache c.fam).length := by simpa using hx
      rcases mem_eraseP_or hx' hf with h | h
      · exact .inl h
      · exact .inr (List.mem_of_mem_take h)
    · exact hx

theorem getNew_stored {s : State} {n : Nat} {c : Call} {o : Obj} (c' : Call)
    (h : Stored s n c o) (hn : n + 1 ≤ maxsize) : Stored (getNew c' s).2 (n + 1) c o := by
  obtain ⟨hp, x, hx, h⟩ := h
  refine ⟨hp, x, ?_, h⟩
  unfold getNew
  cases hf : (s.cache c'.fam).find? fun e => e.1.keyEq c' with
  | none =>
    show x ∈ (if c.fam = c'.fam then _ else s.cache c.fam).take (n + 1)
    split
    · next hc =>
      rw [hc] at hx
      rw [List.take_take, Nat.min_eq_left hn]
      simp [hx]
    · exact (List.take_subset_take_left _ (Nat.le_succ n)) hx
  | some e =>
    show x ∈ (if c.fam = c'.fam then _ else s.cache c.fam).take (n + 1)
    split
    · next hc =>
      rw [hc] at hx
      rw [List.take_succ_cons, List.mem_cons]
      exact mem_eraseP_or hx hf
    · exact (List.take_subset_take_left _ (Nat.le_succ n)) hx

theorem getNew_first {s : State} {reg : Nat → Ty} (hi : Inv s reg) {c : Call}
    (hp : ∀ x ∈ c.args, x.shape.plain = true) : Stored (getNew c s).2 1 c (getNew c s).1 := by
  refine ⟨hp, ?_⟩
  unfold getNew
  cases hf : (s.cache c.fam).find? fun e => e.1.keyEq c with
  | none =>
    refine ⟨(c, c.build s.next), ?_, rfl, rfl⟩
    simp [maxsize]
  | some e =>
    have hk : e.1.keyEq c = true := by have := List.find?_some hf; exact this
    refine ⟨e, by simp, ?_, rfl⟩
    exact (keyEq_iff (fun x hx => (hi.args _ e (List.mem_of_find?_eq_some hf) x hx).2) hp).1 hk

theorem stored_mono {s : State} {n m : Nat} {c : Call} {o : Obj} (h : Stored s n c o) (hn : n ≤ m) :
    Stored s m c o := by
  obtain ⟨hp, x, hx, h⟩ := h
  exact ⟨hp, x, (List.take_subset_take_left _ hn) hx, h⟩

/-- Each annotation makes at most as many calls as it has parametrised types. -/
theorem get_stored : ∀ (t : Ty) {s : State} {n : Nat} {c : Call} {o : Obj}, Stored s n c o →
    n + t.size ≤ maxsize → Stored (get t s).2 (n + t.size) c o := by
  intro t
  induction t using ty_ind with
  | basic | generic | string => intro s n c o h _; exact h
  | final t ih | tuple t ih | list t ih | set t ih =>
    intro s n c o h hn
    simp only [Ty.size] at hn ⊢
    exact getNew_stored _ (ih h (by omega)) (by omega)
  | inhom ts ih =>
    intro s n c o h hn
    simp only [Ty.size] at hn ⊢
    have key : ∀ ts : List Ty, (∀ t ∈ ts, ∀ {s : State} {n : Nat} {c : Call} {o : Obj},
        Stored s n c o → n + t.size ≤ maxsize → Stored (get t s).2 (n + t.size) c o) →
        ∀ {s : State} {n : Nat}, Stored s n c o → n + Ty.sizes ts ≤ maxsize →
        Stored (gets ts s).2 (n + Ty.sizes ts) c o := by
      intro ts
      induction ts with
      | nil => intro _ s n h _; exact h
      | cons t ts iht =>
        intro ih s n h hn
        simp only [Ty.sizes] at hn ⊢
        have h1 := ih t (by simp) h (by omega)
        have h2 := iht (fun x hx => ih x (by simp [hx])) h1 (by omega)
        rw [← Nat.add_assoc]
        exact h2
    exact getNew_stored _ (key ts (fun t ht {s n c o} => ih t ht) h (by omega)) (by omega)
  | dict k v h1 h2 =>
    intro s n c o h hn
    simp only [Ty.size] at hn ⊢
    have := getNew_stored (.dict (get k s).1 (get v (get k s).2).1)
      (h2 (h1 h (by omega)) (by omega)) (by omega)
    rw [show n + (k.size + v.size + 1) = n + k.size + v.size + 1 by omega]
    exact this
  | array n r o =>
    intro s n c o h hn
    exact getNew_stored _ h hn

theorem after_stored : ∀ (hist : List Ty) {s : State} {n : Nat} {c : Call} {o : Obj},
    Stored s n c o → n + Ty.sizes hist ≤ maxsize → Stored (after hist s) (n + Ty.sizes hist) c o := by
  intro hist
  induction hist with
  | nil => intro s n c o h _; exact h
  | cons t ts iht =>
    intro s n c o h hn
    simp only [Ty.sizes] at hn ⊢
    have h1 := get_stored t h (by omega)
    have h2 := iht h1 (by omega)
    rw [← Nat.add_assoc]
    exact h2

mutual
/-- The object is the result of the calls for the annotation, all of which satisfy `S`. -/
def Warm (S : Call → Obj → Prop) : Ty → Obj → Prop
  | .basic a, o => o = .basic a
  | .generic, o => o = .generic
  | .string, o => o = .string
  | .final t, o => ∃ x, Warm S t x ∧ S (.final x) o
  | .tuple t, o => ∃ x, Warm S t x ∧ S (.tuple x) o
  | .list t, o => ∃ x, Warm S t x ∧ S (.list x) o
  | .set t, o => ∃ x, Warm S t x ∧ S (.set x) o
  | .inhom ts, o => ∃ xs, Warms S ts xs ∧ S (.inhom xs) o
  | .dict k v, o => ∃ x y, Warm S k x ∧ Warm S v y ∧ S (.dict x y) o
  | .array n r d, o => S (.array n r d) o
termination_by structural t => t
/-- `Warm` for each annotation of a list. -/
def Warms (S : Call → Obj → Prop) : List Ty → List Obj → Prop
  | [], xs => xs = []
  | t :: ts, xs => ∃ y ys, xs = y :: ys ∧ Warm S t y ∧ Warms S ts ys
termination_by structural ts => ts
end

theorem warms_mono {S S' : Call → Obj → Prop} (ts : List Ty)
    (ih : ∀ t ∈ ts, ∀ o, Warm S t o → Warm S' t o) : ∀ xs, Warms S ts xs → Warms S' ts xs := by
  induction ts with
  | nil => intro xs h; exact h
  | cons t ts iht =>
    rintro xs ⟨y, ys, rfl, h1, h2⟩
    exact ⟨y, ys, rfl, ih t (by simp) y h1, iht (fun x hx => ih x (by simp [hx])) ys h2⟩

theorem warm_mono {S S' : Call → Obj → Prop} (h : ∀ c o, S c o → S' c o) :
    ∀ (t : Ty) (o : Obj), Warm S t o → Warm S' t o := by
  intro t
  induction t using ty_ind with
  | basic | generic | string => intro o h; exact h
  | final t ih | tuple t ih | list t ih | set t ih =>
    rintro o ⟨x, h1, h2⟩
    exact ⟨x, ih x h1, h _ _ h2⟩
  | inhom ts ih =>
    rintro o ⟨xs, h1, h2⟩
    exact ⟨xs, warms_mono ts ih xs h1, h _ _ h2⟩
  | dict k v ih1 ih2 =>
    rintro o ⟨x, y, h1, h2, h3⟩
    exact ⟨x, y, ih1 x h1, ih2 y h2, h _ _ h3⟩
  | array n r d => intro o h1; exact h _ _ h1

/-- Right after an annotation, all its results are among those that were used last. -/
theorem get_warm : ∀ (t : Ty) {s : State} {reg : Nat → Ty}, Inv s reg → t.plain = true →
    t.size ≤ maxsize → Warm (Stored (get t s).2 t.size) t (get t s).1 := by
  intro t
  induction t using ty_ind with
  | basic | generic | string => intro s reg _ _ _; rfl
  | final t ih => intro s reg _ h; simp at h
  | tuple t ih | list t ih | set t ih =>
    intro s reg hi hp hn
    have hp : t.plain = true := by simpa using hp
    simp only [Ty.size] at hn ⊢
    obtain ⟨reg1, h1⟩ := get_called t hi hp
    have hg : (get t s).1.shape.plain = true := by rw [h1.shape]; exact meaning_plain hp
    refine ⟨(get t s).1, warm_mono (fun c o h => getNew_stored _ h hn) t _ (ih hi hp (by omega)), ?_⟩
    refine stored_mono (getNew_first h1.inv ?_) (by omega)
    simpa [Call.args] using hg
  | inhom ts ih =>
    intro s reg hi hp hn
    rw [plain_inhom] at hp
    simp only [Ty.size] at hn ⊢
    have key : ∀ ts : List Ty, (∀ t ∈ ts, ∀ {s : State} {reg : Nat → Ty}, Inv s reg →
        t.plain = true → t.size ≤ maxsize → Warm (Stored (get t s).2 t.size) t (get t s).1) →
        (∀ t ∈ ts, t.plain = true) → ∀ {s : State} {reg : Nat → Ty}, Inv s reg →
        Ty.sizes ts ≤ maxsize → Warms (Stored (gets ts s).2 (Ty.sizes ts)) ts (gets ts s).1 ∧
        (∀ x ∈ (gets ts s).1, x.shape.plain = true) ∧ ∃ reg', Inv (gets ts s).2 reg' := by
      intro ts
      induction ts with
      | nil =>
        intro _ _ s reg hi _
        exact ⟨rfl, by simp [gets], reg, hi⟩
      | cons t ts iht =>
        intro ih hp s reg hi hn
        simp only [Ty.sizes] at hn ⊢
        obtain ⟨reg1, h1⟩ := get_called t hi (hp t (by simp))
        obtain ⟨h2, h3, h4⟩ := iht (fun x hx => ih x (by simp [hx])) (fun x hx => hp x (by simp [hx]))
          h1.inv (by omega)
        refine ⟨⟨(get t s).1, (gets ts (get t s).2).1, rfl, ?_, ?_⟩, ?_, h4⟩
        · refine warm_mono ?_ t _ (ih t (by simp) hi (hp t (by simp)) (by omega))
          intro c o h
          have : ∀ (ts : List Ty) {s : State} {n : Nat}, Stored s n c o →
              n + Ty.sizes ts ≤ maxsize → Stored (gets ts s).2 (n + Ty.sizes ts) c o := by
            intro ts
            induction ts with
            | nil => intro s n h _; exact h
            | cons t ts iht =>
              intro s n h hn
              simp only [Ty.sizes] at hn ⊢
              have h1 := get_stored t h (by omega)
              have h2 := iht h1 (by omega)
              rw [← Nat.add_assoc]
              exact h2
          exact this ts h hn
        · exact warms_mono ts (fun x _ o h => warm_mono (fun c o h => stored_mono h (by omega)) x o h)
            _ h2
        · intro x hx
          rcases List.mem_cons.1 hx with rfl | hx
          · rw [h1.shape]; exact meaning_plain (hp t (by simp))
          · exact h3 x hx
    obtain ⟨h1, h2, reg', h3⟩ := key ts (fun t ht {s reg} => ih t ht) hp hi (by omega)
    refine ⟨(gets ts s).1, warms_mono ts (fun x _ o h =>
      warm_mono (fun c o h => getNew_stored _ h hn) x o h) _ h1, ?_⟩
    exact stored_mono (getNew_first h3 h2) (by omega)
  | dict k v ih1 ih2 =>
    intro s reg hi hp hn
    simp only [plain_dict, Bool.and_eq_true] at hp
    simp only [Ty.size] at hn ⊢
    obtain ⟨reg1, h1⟩ := get_called k hi hp.1
    obtain ⟨reg2, h2⟩ := get_called v h1.inv hp.2
    refine ⟨(get k s).1, (get v (get k s).2).1, ?_, ?_, ?_⟩
    · refine warm_mono ?_ k _ (ih1 hi hp.1 (by omega))
      exact fun c o h => getNew_stored _ (get_stored v h (by omega)) hn
    · refine warm_mono ?_ v _ (ih2 h1.inv hp.2 (by omega))
      exact fun c o h => stored_mono (getNew_stored _ h (by omega)) (by omega)
    · refine stored_mono (getNew_first h2.inv ?_) (by omega)
      intro x hx
      simp only [Call.args, List.mem_cons, List.not_mem_nil, or_false] at hx
      rcases hx with rfl | rfl
      · rw [h1.shape]; exact meaning_plain hp.1
      · rw [h2.shape]; exact meaning_plain hp.2
  | array n r d =>
    intro s reg hi _ _
    refine getNew_first hi ?_
    simp [Call.args]

theorem get_warm_outer (t : Ty) {s : State} {reg : Nat → Ty} (hi : Inv s reg) (hp : t.outer = true)
    (hn : t.size ≤ maxsize) : Warm (Stored (get t s).2 t.size) t (get t s).1 := by
  cases t with
  | final t =>
    have hp : t.plain = true := hp
    simp only [Ty.size] at hn ⊢
    obtain ⟨reg1, h1⟩ := get_called t hi hp
    have hg : (get t s).1.shape.plain = true := by rw [h1.shape]; exact meaning_plain hp
    refine ⟨(get t s).1, warm_mono (fun c o h => getNew_stored _ h hn) t _
      (get_warm t hi hp (by omega)), ?_⟩
    refine stored_mono (getNew_first h1.inv ?_) (by omega)
    simpa [Call.args] using hg
  | _ => exact get_warm _ hi hp hn

/-- If the results for an annotation are all in their caches then it gets them again. -/
theorem get_again : ∀ (t : Ty) {s : State} {reg : Nat → Ty} {o : Obj}, Inv s reg → t.plain = true →
    Warm (Kept s) t o → (get t s).1 = o ∧ ∀ c o, Kept s c o → Kept (get t s).2 c o := by
  intro t
  induction t using ty_ind with
  | basic | generic | string => intro s reg o _ _ h; exact ⟨h.symm, fun _ _ h => h⟩
  | final t ih => intro s reg o _ h; simp at h
  | tuple t ih | list t ih | set t ih =>
    rintro s reg o hi hp ⟨x, h1, h2⟩
    have hp : t.plain = true := by simpa using hp
    obtain ⟨e, h3⟩ := ih hi hp h1
    obtain ⟨reg1, h4⟩ := get_called t hi hp
    simp only [get]
    rw [e]
    obtain ⟨h5, h6⟩ := getNew_hit h4.inv (h3 _ _ h2)
    exact ⟨h5, fun c o h => h6 c o (h3 c o h)⟩
  | inhom ts ih =>
    rintro s reg o hi hp ⟨xs, h1, h2⟩
    rw [plain_inhom] at hp
    have key : ∀ ts : List Ty, (∀ t ∈ ts, ∀ {s : State} {reg : Nat → Ty} {o : Obj}, Inv s reg →
        t.plain = true → Warm (Kept s) t o →
        (get t s).1 = o ∧ ∀ c o, Kept s c o → Kept (get t s).2 c o) →
        (∀ t ∈ ts, t.plain = true) → ∀ {s : State} {reg : Nat → Ty} {xs : List Obj}, Inv s reg →
        Warms (Kept s) ts xs → (gets ts s).1 = xs ∧ (∀ c o, Kept s c o → Kept (gets ts s).2 c o) ∧
        ∃ reg', Inv (gets ts s).2 reg' := by
      intro ts
      induction ts with
      | nil =>
        intro _ _ s reg xs hi h
        exact ⟨h.symm, fun _ _ h => h, reg, hi⟩
      | cons t ts iht =>
        rintro ih hp s reg xs hi ⟨y, ys, rfl, h1, h2⟩
        obtain ⟨e1, h3⟩ := ih t (by simp) hi (hp t (by simp)) h1
        obtain ⟨reg1, h4⟩ := get_called t hi (hp t (by simp))
        obtain ⟨e2, h5, h6⟩ := iht (fun x hx => ih x (by simp [hx])) (fun x hx => hp x (by simp [hx]))
          h4.inv (warms_mono ts (fun x _ o h => warm_mono h3 x o h) _ h2)
        exact ⟨by simp only [gets, e1, e2], fun c o h => h5 c o (h3 c o h), h6⟩
    obtain ⟨e, h3, reg1, h4⟩ := key ts (fun t ht {s reg o} => ih t ht) hp hi h1
    simp only [get]
    rw [e]
    obtain ⟨h5, h6⟩ := getNew_hit h4 (h3 _ _ h2)
    exact ⟨h5, fun c o h => h6 c o (h3 c o h)⟩
  | dict k v ih1 ih2 =>
    rintro s reg o hi hp ⟨x, y, h1, h2, h3⟩
    simp only [plain_dict, Bool.and_eq_true] at hp
    obtain ⟨e1, h4⟩ := ih1 hi hp.1 h1
    obtain ⟨reg1, h5⟩ := get_called k hi hp.1
    obtain ⟨e2, h6⟩ := ih2 h5.inv hp.2 (warm_mono h4 v _ h2)
    obtain ⟨reg2, h7⟩ := get_called v h5.inv hp.2
    simp only [get]
    rw [e1, e2]
    obtain ⟨h8, h9⟩ := getNew_hit h7.inv (h6 _ _ (h4 _ _ h3))
    exact ⟨h8, fun c o h => h9 c o (h6 c o (h4 c o h))⟩
  | array n r d => intro s reg o hi _ h; exact getNew_hit hi h

theorem get_again_outer (t : Ty) {s : State} {reg : Nat → Ty} {o : Obj} (hi : Inv s reg)
    (hp : t.outer = true) (h : Warm (Kept s) t o) : (get t s).1 = o := by
  cases t with
  | final t =>
    have hp : t.plain = true := hp
    obtain ⟨x, h1, h2⟩ := h
    obtain ⟨e, h3⟩ := get_again t hi hp h1
    obtain ⟨reg1, h4⟩ := get_called t hi hp
    simp only [get]
    rw [e]
    exact (getNew_hit h4.inv (h3 _ _ h2)).1
  | _ => exact (get_again _ hi hp h).1

end Verif.Cache
