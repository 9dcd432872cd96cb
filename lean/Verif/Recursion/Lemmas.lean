import Verif.Recursion.Model

/-! What a visit does, if it ends. -/

namespace Verif.Recursion

theorem andThen_ok {r : Option Res} {k : St → Option Res} {st : St} :
    andThen r k = some (.ok st) ↔ ∃ st₁, r = some (.ok st₁) ∧ k st₁ = some (.ok st) := by
  unfold andThen
  split
  · simp
  · simp
  · simp

/-- The calls among the items. -/
def calls : List Item → List Nat
  | [] => []
  | .call g :: l => g :: calls l
  | .define _ :: l => calls l

theorem calls_append : ∀ l m : List Item, calls (l ++ m) = calls l ++ calls m
  | [], _ => rfl
  | .call g :: l, m => by simp [calls, calls_append l m]
  | .define g :: l, m => by simp [calls, calls_append l m]

theorem calls_map : ∀ l : List Nat, calls (l.map .call) = l
  | [] => rfl
  | g :: l => by simp [calls, calls_map l]

theorem calls_define : ∀ l : List Nat, calls (l.map .define) = []
  | [] => rfl
  | g :: l => by simp [calls, calls_define l]

theorem calls_items (P : Prog) (g : Nat) : calls (P.items g) = P.body g := by
  simp [Prog.items, calls_append, calls_map, calls_define]

/-- The functions mentioned by the items. -/
def ments : List Item → List Nat
  | [] => []
  | .call g :: l => g :: ments l
  | .define g :: l => g :: ments l

theorem ments_append : ∀ l m : List Item, ments (l ++ m) = ments l ++ ments m
  | [], _ => rfl
  | .call g :: l, m => by simp [ments, ments_append l m]
  | .define g :: l, m => by simp [ments, ments_append l m]

theorem ments_call : ∀ l : List Nat, ments (l.map .call) = l
  | [] => rfl
  | g :: l => by simp [ments, ments_call l]

theorem ments_define : ∀ l : List Nat, ments (l.map .define) = l
  | [] => rfl
  | g :: l => by simp [ments, ments_define l]

theorem ments_items (P : Prog) (g : Nat) : ments (P.items g) = P.body g ++ P.sub g := by
  simp [Prog.items, ments_append, ments_call, ments_define]

theorem into_cons {P : Prog} {g x : Nat} {l : List Nat} :
    Into P (g :: l) x ↔ (P.inl g = false ∧ x = g) ∨ (P.inl g = true ∧ Into P (P.body g) x) ∨
      Into P l x := by
  constructor
  · intro h
    cases h with
    | here h1 h2 =>
      rcases List.mem_cons.1 h1 with rfl | h1
      · exact Or.inl ⟨h2, rfl⟩
      · exact Or.inr (Or.inr (.here h1 h2))
    | through h1 h2 h3 =>
      rcases List.mem_cons.1 h1 with rfl | h1
      · exact Or.inr (Or.inl ⟨h2, h3⟩)
      · exact Or.inr (Or.inr (.through h1 h2 h3))
  · rintro (⟨h1, rfl⟩ | ⟨h1, h2⟩ | h)
    · exact .here List.mem_cons_self h1
    · exact .through List.mem_cons_self h1 h2
    · cases h with
      | here h1 h2 => exact .here (List.mem_cons_of_mem _ h1) h2
      | through h1 h2 h3 => exact .through (List.mem_cons_of_mem _ h1) h2 h3

theorem not_into_nil {P : Prog} {x : Nat} : ¬ Into P [] x := by
  intro h
  cases h with
  | here h1 => cases h1
  | through h1 => cases h1

theorem into_inl {P : Prog} {l : List Nat} {x : Nat} (h : Into P l x) : P.inl x = false := by
  induction h with
  | here _ h => exact h
  | through _ _ _ ih => exact ih

/-- No `@inline` function that is being visited is mentioned. -/
def Clear (P : Prog) (st : St) (l : List Nat) : Prop :=
  ∀ h, P.inl h = true → st.status h = .active → h ∉ l ∧ ∀ g ∈ l, ¬ Mentions P g h

/-- What a visit changes. -/
structure Post (P : Prog) (cur : Option Nat) (l : List Item) (st st' : St) : Prop where
  keep : ∀ x, st.status x ≠ .syn → st'.status x = st.status x
  sem : ∀ x, st.status x = .syn → st'.status x = .syn ∨ st'.status x = .sem
  mark : ∀ x, P.inl x = false → (st'.marked x = true ↔ st.marked x = true ∨
    (cur = some x ∧ st.status x = .active ∧ Into P (calls l) x) ∨
    (st.status x = .syn ∧ st'.status x = .sem ∧ Into P (P.body x) x))
  seen : ∀ g, Into P (calls l) g → st'.status g ≠ .syn
  closed : ∀ x, P.inl x = false → st.status x = .syn → st'.status x = .sem →
    ∀ g, Into P (P.body x) g → st'.status g ≠ .syn

theorem Clear.sub {P : Prog} {st : St} {l m : List Nat} (h : Clear P st l)
    (hm : ∀ x ∈ m, x ∈ l ∨ ∃ g ∈ l, Mentions P g x) : Clear P st m := by
  intro i hi ha
  obtain ⟨h1, h2⟩ := h i hi ha
  refine ⟨fun hmem => ?_, fun g hg hmn => ?_⟩
  · rcases hm i hmem with h | ⟨g, hg, hgm⟩
    · exact h1 h
    · exact h2 g hg hgm
  · rcases hm g hg with h | ⟨g', hg', hgm⟩
    · exact h2 g h hmn
    · refine h2 g' hg' ?_
      have : ∀ {a b c}, Mentions P a b → Mentions P b c → Mentions P a c := by
        intro a b c hab
        induction hab with
        | one h => exact fun hbc => .more h hbc
        | more h _ ih => exact fun hbc => .more h (ih hbc)
      exact this hgm hmn

theorem Clear.status {P : Prog} {st st' : St} {l : List Nat} (h : Clear P st l)
    (hs : ∀ x, st'.status x = .active → st.status x = .active) : Clear P st' l :=
  fun i hi ha => h i hi (hs i ha)

theorem Post.active {P : Prog} {cur : Option Nat} {l : List Item} {st st' : St}
    (h : Post P cur l st st') {x : Nat} (hx : st'.status x = .active) :
    st.status x = .active := by
  by_cases e : st.status x = .syn
  · rcases h.sem x e with h | h <;> rw [h] at hx <;> cases hx
  · rw [← h.keep x e]; exact hx

/-- The visit of one function. -/
theorem post_visit {P : Prog} {g : Nat} {st st₁ st₂ : St} (hs : st.status g = .syn)
    (h : Post P (some g) (P.items g) (st.set g .active) st₁)
    (hf : finish P g st₁ = some (.ok st₂)) :
    (∀ x, st.status x ≠ .syn → st₂.status x = st.status x) ∧
    (∀ x, st.status x = .syn → st₂.status x = .syn ∨ st₂.status x = .sem) ∧
    st₂.status g = .sem ∧
    (∀ x, P.inl x = false → (st₂.marked x = true ↔ st.marked x = true ∨
      (st.status x = .syn ∧ st₂.status x = .sem ∧ Into P (P.body x) x))) ∧
    (∀ x, P.inl x = false → st.status x = .syn → st₂.status x = .sem →
      ∀ y, Into P (P.body x) y → st₂.status y ≠ .syn) := by
  unfold finish at hf
  split at hf
  · cases hf
  · cases hf
    have hk : ∀ x, x ≠ g → (st.set g .active).status x = st.status x := by
      intro x hx; simp [St.set, hx]
    have hg : (st.set g .active).status g = .active := by simp [St.set]
    have hg1 : st₁.status g = .active := by
      rw [h.keep g (by rw [hg]; simp), hg]
    refine ⟨?_, ?_, ?_, ?_, ?_⟩
    · intro x hx
      have hxg : x ≠ g := fun e => hx (e ▸ hs)
      simp only [St.set, hxg, if_false]
      rw [h.keep x (by rw [hk x hxg]; exact hx), hk x hxg]
    · intro x hx
      by_cases hxg : x = g
      · simp [St.set, hxg]
      · simp only [St.set, hxg, if_false]
        exact h.sem x (by rw [hk x hxg]; exact hx)
    · simp [St.set]
    · intro x hi
      have hm := h.mark x hi
      rw [calls_items] at hm
      by_cases hxg : x = g
      · subst hxg
        simp only [St.set, if_true, hs, true_and] at hm ⊢
        rw [hm]
        simp [St.set]
      · simp only [St.set, hxg, if_false] at hm ⊢
        rw [hm]
        constructor
        · rintro (h | ⟨h, _⟩ | h)
          · exact Or.inl h
          · cases h; exact absurd rfl hxg
          · exact Or.inr h
        · rintro (h | h)
          · exact Or.inl h
          · exact Or.inr (Or.inr h)
    · intro x hi hx hx2 y hy
      by_cases hyg : y = g
      · simp [St.set, hyg]
      · simp only [St.set, hyg, if_false]
        by_cases hxg : x = g
        · subst hxg
          refine h.seen y ?_
          rw [calls_items]
          exact hy
        · simp only [St.set, hxg, if_false] at hx2
          exact h.closed x hi (by rw [hk x hxg]; exact hx) hx2 y hy

theorem Post.nil {P : Prog} {cur : Option Nat} {st : St} : Post P cur [] st st := by
  refine ⟨fun _ _ => rfl, fun _ h => Or.inl h, ?_, ?_, ?_⟩
  · intro x _
    simp only [calls]
    constructor
    · exact Or.inl
    · rintro (h | ⟨_, _, h⟩ | ⟨h, h', _⟩)
      · exact h
      · exact absurd h not_into_nil
      · rw [h] at h'; cases h'
  · intro g h
    exact absurd h not_into_nil
  · intro x _ h h'
    rw [h] at h'; cases h'

/-- The visit of a function, then the rest. -/
theorem Post.visit {P : Prog} {cur : Option Nat} {i : Item} {l : List Item} {g : Nat}
    {st st₂ st' : St} (hs : st.status g = .syn)
    (hi : calls (i :: l) = calls l ∨ (P.inl g = false ∧ calls (i :: l) = g :: calls l))
    (hv : (∀ x, st.status x ≠ .syn → st₂.status x = st.status x) ∧
      (∀ x, st.status x = .syn → st₂.status x = .syn ∨ st₂.status x = .sem) ∧
      st₂.status g = .sem ∧
      (∀ x, P.inl x = false → (st₂.marked x = true ↔ st.marked x = true ∨
        (st.status x = .syn ∧ st₂.status x = .sem ∧ Into P (P.body x) x))) ∧
      (∀ x, P.inl x = false → st.status x = .syn → st₂.status x = .sem →
        ∀ y, Into P (P.body x) y → st₂.status y ≠ .syn))
    (h : Post P cur l st₂ st') : Post P cur (i :: l) st st' := by
  obtain ⟨v1, v2, v3, v4, v5⟩ := hv
  have nosyn : ∀ x, st₂.status x ≠ .syn → st'.status x ≠ .syn := by
    intro x hx; rw [h.keep x hx]; exact hx
  refine ⟨?_, ?_, ?_, ?_, ?_⟩
  · intro x hx
    rw [h.keep x (by rw [v1 x hx]; exact hx), v1 x hx]
  · intro x hx
    rcases v2 x hx with e | e
    · exact h.sem x e
    · exact Or.inr (by rw [h.keep x (by rw [e]; simp)]; exact e)
  · intro x hx
    have key : (cur = some x ∧ st₂.status x = .active ∧ Into P (calls l) x) ↔
        (cur = some x ∧ st.status x = .active ∧ Into P (calls (i :: l)) x) := by
      have hact : st₂.status x = .active ↔ st.status x = .active := by
        constructor
        · intro e
          by_cases hsyn : st.status x = .syn
          · rcases v2 x hsyn with h | h <;> rw [h] at e <;> cases e
          · rw [← v1 x hsyn]; exact e
        · intro e
          rw [v1 x (by rw [e]; simp)]; exact e
      rw [hact]
      rcases hi with hi | ⟨hg, hi⟩
      · rw [hi]
      · rw [hi]
        constructor
        · rintro ⟨a, b, c⟩
          exact ⟨a, b, into_cons.2 (Or.inr (Or.inr c))⟩
        · rintro ⟨a, b, c⟩
          refine ⟨a, b, ?_⟩
          rcases into_cons.1 c with ⟨_, rfl⟩ | ⟨e, _⟩ | c
          · rw [hs] at b; cases b
          · rw [hg] at e; cases e
          · exact c
    rw [h.mark x hx, v4 x hx, key]
    constructor
    · rintro ((a | ⟨a, b, c⟩) | a | ⟨a, b, c⟩)
      · exact Or.inl a
      · exact Or.inr (Or.inr ⟨a, by rw [h.keep x (by rw [b]; simp)]; exact b, c⟩)
      · exact Or.inr (Or.inl a)
      · refine Or.inr (Or.inr ⟨?_, b, c⟩)
        by_cases hsyn : st.status x = .syn
        · exact hsyn
        · rw [v1 x hsyn] at a; exact absurd a hsyn
    · rintro (a | a | ⟨a, b, c⟩)
      · exact Or.inl (Or.inl a)
      · exact Or.inr (Or.inl a)
      · rcases v2 x a with e | e
        · exact Or.inr (Or.inr ⟨e, b, c⟩)
        · exact Or.inl (Or.inr ⟨a, e, c⟩)
  · intro y hy
    rcases hi with hi | ⟨hg, hi⟩
    · rw [hi] at hy; exact h.seen y hy
    · rw [hi] at hy
      rcases into_cons.1 hy with ⟨_, rfl⟩ | ⟨e, _⟩ | c
      · exact nosyn y (by rw [v3]; simp)
      · rw [hg] at e; cases e
      · exact h.seen y c
  · intro x hx a b y hy
    rcases v2 x a with e | e
    · exact h.closed x hx e b y hy
    · exact nosyn y (v5 x hx a e y hy)

/-- An expanded call, then the rest. -/
theorem Post.inline {P : Prog} {cur : Option Nat} {l : List Item} {g : Nat}
    {st st₁ st' : St} (hg : P.inl g = true)
    (h1 : Post P cur ((P.body g).map .call) st st₁) (h : Post P cur l st₁ st') :
    Post P cur (.call g :: l) st st' := by
  have nosyn : ∀ x, st₁.status x ≠ .syn → st'.status x ≠ .syn := by
    intro x hx; rw [h.keep x hx]; exact hx
  have hc : ∀ x, Into P (calls (.call g :: l)) x ↔
      Into P (P.body g) x ∨ Into P (calls l) x := by
    intro x
    simp only [calls]
    rw [into_cons]
    simp [hg]
  have h1m := h1.mark
  have h1s := h1.seen
  simp only [calls_map] at h1m h1s
  refine ⟨?_, ?_, ?_, ?_, ?_⟩
  · intro x hx
    rw [h.keep x (by rw [h1.keep x hx]; exact hx), h1.keep x hx]
  · intro x hx
    rcases h1.sem x hx with e | e
    · exact h.sem x e
    · exact Or.inr (by rw [h.keep x (by rw [e]; simp)]; exact e)
  · intro x hx
    have hact : st₁.status x = .active ↔ st.status x = .active :=
      ⟨h1.active, fun e => by rw [h1.keep x (by rw [e]; simp)]; exact e⟩
    rw [h.mark x hx, h1m x hx, hact, hc x]
    constructor
    · rintro ((a | ⟨a, b, c⟩ | ⟨a, b, c⟩) | ⟨a, b, c⟩ | ⟨a, b, c⟩)
      · exact Or.inl a
      · exact Or.inr (Or.inl ⟨a, b, Or.inl c⟩)
      · exact Or.inr (Or.inr ⟨a, by rw [h.keep x (by rw [b]; simp)]; exact b, c⟩)
      · exact Or.inr (Or.inl ⟨a, b, Or.inr c⟩)
      · refine Or.inr (Or.inr ⟨?_, b, c⟩)
        by_cases hsyn : st.status x = .syn
        · exact hsyn
        · rw [h1.keep x hsyn] at a; exact absurd a hsyn
    · rintro (a | ⟨a, b, c | c⟩ | ⟨a, b, c⟩)
      · exact Or.inl (Or.inl a)
      · exact Or.inl (Or.inr (Or.inl ⟨a, b, c⟩))
      · exact Or.inr (Or.inl ⟨a, b, c⟩)
      · rcases h1.sem x a with e | e
        · exact Or.inr (Or.inr ⟨e, b, c⟩)
        · exact Or.inl (Or.inr (Or.inr ⟨a, e, c⟩))
  · intro y hy
    rcases (hc y).1 hy with c | c
    · exact nosyn y (h1s y c)
    · exact h.seen y c
  · intro x hx a b y hy
    rcases h1.sem x a with e | e
    · exact h.closed x hx e b y hy
    · exact nosyn y (h1.closed x hx a e y hy)

/-- A call of a function that has been or is being visited. -/
theorem Post.known {P : Prog} {cur : Option Nat} {l : List Item} {g : Nat}
    {st st₁ st' : St} (hg : P.inl g = false) (hs : st.status g ≠ .syn)
    (h1 : st₁.status = st.status)
    (hm : ∀ x, st₁.marked x = true ↔ st.marked x = true ∨
      (cur = some x ∧ st.status x = .active ∧ x = g))
    (h : Post P cur l st₁ st') : Post P cur (.call g :: l) st st' := by
  refine ⟨?_, ?_, ?_, ?_, ?_⟩
  · intro x hx
    rw [h.keep x (by rw [h1]; exact hx), h1]
  · intro x hx
    exact h.sem x (by rw [h1]; exact hx)
  · intro x hx
    rw [h.mark x hx, hm x, h1]
    simp only [calls]
    rw [into_cons]
    simp only [hg, true_and, Bool.false_eq_true, false_and, false_or]
    constructor
    · rintro ((a | ⟨a, b, c⟩) | ⟨a, b, c⟩ | a)
      · exact Or.inl a
      · exact Or.inr (Or.inl ⟨a, b, Or.inl c⟩)
      · exact Or.inr (Or.inl ⟨a, b, Or.inr c⟩)
      · exact Or.inr (Or.inr a)
    · rintro (a | ⟨a, b, c | c⟩ | a)
      · exact Or.inl (Or.inl a)
      · exact Or.inl (Or.inr ⟨a, b, c⟩)
      · exact Or.inr (Or.inl ⟨a, b, c⟩)
      · exact Or.inr (Or.inr a)
  · intro y hy
    simp only [calls] at hy
    rcases into_cons.1 hy with ⟨_, rfl⟩ | ⟨e, _⟩ | c
    · rw [h.keep y (by rw [h1]; exact hs), h1]; exact hs
    · rw [hg] at e; cases e
    · exact h.seen y c
  · intro x hx a b
    exact h.closed x hx (by rw [h1]; exact a) b

theorem Post.skip {P : Prog} {cur : Option Nat} {l : List Item} {g : Nat} {st st' : St}
    (h : Post P cur l st st') : Post P cur (.define g :: l) st st' :=
  ⟨h.keep, h.sem, h.mark, h.seen, h.closed⟩

/-- What a visit does, if it ends and no `@inline` function mentions itself. -/
theorem walk_post {P : Prog} (hP : ∀ h, P.inl h = true → ¬ Mentions P h h) :
    ∀ {n : Nat} {cur : Option Nat} {l : List Item} {st st' : St},
    Clear P st (ments l) → walk P n cur l st = some (.ok st') → Post P cur l st st'
  | _, _, [], _, _, _, h => by
    simp only [walk, Option.some.injEq, Res.ok.injEq] at h
    subst h
    exact .nil
  | 0, _, _ :: _, _, _, _, h => by simp [walk] at h
  | n + 1, cur, .call g :: l, st, st', hc, h => by
    simp only [walk] at h
    have hcl : Clear P st (ments l) := hc.sub fun x hx => Or.inl (List.mem_cons_of_mem _ hx)
    have hcb : Clear P st (P.body g) := hc.sub fun x hx =>
      Or.inr ⟨g, List.mem_cons_self, .one (List.mem_append_left _ hx)⟩
    have rest : ∀ {st₁ : St}, (∀ x, st₁.status x = .active → st.status x = .active) →
        walk P n cur l st₁ = some (.ok st') → Post P cur l st₁ st' := fun hs h =>
      walk_post hP (hcl.status hs) h
    have inl : P.inl g = true →
        andThen (walk P n cur ((P.body g).map .call) st) (walk P n cur l) = some (.ok st') →
        Post P cur (.call g :: l) st st' := by
      intro hg h
      obtain ⟨st₁, h1, h2⟩ := andThen_ok.1 h
      have p1 := walk_post hP (by rw [ments_call]; exact hcb) h1
      exact .inline hg p1 (rest (fun x => p1.active) h2)
    split at h <;> rename_i hs
    · have hg : P.inl g = false := by
        cases hg : P.inl g with
        | false => rfl
        | true => exact absurd List.mem_cons_self (hc g hg hs).1
      refine Post.known hg (by rw [hs]; simp) ?_ ?_ (rest ?_ h)
      · split <;> rfl
      · intro x
        split
        · rename_i e
          by_cases hx : x = g
          · subst hx
            simp [St.mark, e, hs]
          · simp [St.mark, hx]
        · rename_i e
          constructor
          · exact Or.inl
          · rintro (a | ⟨a, _, rfl⟩)
            · exact a
            · exact absurd a e
      · intro x
        split <;> exact id
    · split at h
      · rename_i hg
        exact inl hg h
      · rename_i hg
        have hg : P.inl g = false := by simpa using hg
        obtain ⟨st₂, h1, h2⟩ := andThen_ok.1 h
        obtain ⟨st₁, h3, h4⟩ := andThen_ok.1 h1
        have p1 := walk_post hP (by
          rw [ments_items]
          have : Clear P st (P.body g ++ P.sub g) := hc.sub fun x hx =>
            Or.inr ⟨g, List.mem_cons_self, .one hx⟩
          intro i hi ha
          refine this i hi ?_
          by_cases e : i = g
          · rw [e, hg] at hi; cases hi
          · simpa [St.set, e] using ha) h3
        have hv := post_visit hs p1 h4
        refine .visit hs (Or.inr ⟨hg, rfl⟩) hv (rest ?_ h2)
        intro x hx
        by_cases e : st.status x = .syn
        · rcases hv.2.1 x e with h | h <;> rw [h] at hx <;> cases hx
        · rw [← hv.1 x e]; exact hx
    · split at h
      · rename_i hg
        exact inl hg h
      · rename_i hg
        have hg : P.inl g = false := by simpa using hg
        refine Post.known hg (by rw [hs]; simp) rfl ?_ (rest (fun _ => id) h)
        intro x
        constructor
        · exact Or.inl
        · rintro (a | ⟨_, a, rfl⟩)
          · exact a
          · rw [hs] at a; cases a
  | n + 1, cur, .define g :: l, st, st', hc, h => by
    simp only [walk] at h
    have hcl : Clear P st (ments l) := hc.sub fun x hx => Or.inl (List.mem_cons_of_mem _ hx)
    split at h
    · rename_i hs
      have hs := hs.1
      obtain ⟨st₂, h1, h2⟩ := andThen_ok.1 h
      obtain ⟨st₁, h3, h4⟩ := andThen_ok.1 h1
      have p1 := walk_post hP (by
        rw [ments_items]
        have : Clear P st (P.body g ++ P.sub g) := hc.sub fun x hx =>
          Or.inr ⟨g, List.mem_cons_self, .one hx⟩
        intro i hi ha
        by_cases e : i = g
        · subst e
          refine ⟨fun hm => hP i hi (.one hm), fun x hx hm => hP i hi (.more hx hm)⟩
        · exact this i hi (by simpa [St.set, e] using ha)) h3
      have hv := post_visit hs p1 h4
      refine .visit hs (Or.inl rfl) hv (walk_post hP (hcl.status ?_) h2)
      intro x hx
      by_cases e : st.status x = .syn
      · rcases hv.2.1 x e with h | h <;> rw [h] at hx <;> cases hx
      · rw [← hv.1 x e]; exact hx
    · exact .skip (walk_post hP hcl h)

end Verif.Recursion
