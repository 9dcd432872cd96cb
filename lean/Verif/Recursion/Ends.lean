import Verif.Recursion.Lemmas

/-! The visit of a module ends. -/

namespace Verif.Recursion

theorem countP_lt {α : Type} {p q : α → Bool} : ∀ {l : List α},
    (∀ x ∈ l, p x = true → q x = true) → (∃ x ∈ l, q x = true ∧ p x = false) →
    l.countP p < l.countP q
  | [], _, ⟨x, h, _⟩ => by cases h
  | a :: l, hs, ⟨x, hx, h1, h2⟩ => by
    have hle : l.countP p ≤ l.countP q :=
      List.countP_mono_left fun x hx => hs x (List.mem_cons_of_mem _ hx)
    rw [List.countP_cons, List.countP_cons]
    rcases List.mem_cons.1 hx with rfl | hx
    · simp only [h1, h2]
      simp
      omega
    · have := countP_lt (fun x hx => hs x (List.mem_cons_of_mem _ hx)) ⟨x, hx, h1, h2⟩
      by_cases ha : p a = true
      · rw [ha, hs a List.mem_cons_self ha]; omega
      · simp only [Bool.not_eq_true] at ha
        rw [ha]
        simp only [Bool.false_eq_true, if_false]
        omega

open Classical in
/-- The number of `@inline` functions that a function leads to. -/
noncomputable def rank (P : Prog) (h : Nat) : Nat :=
  (List.range P.size).countP fun x => decide (InlineLeads P h x)

theorem rank_le (P : Prog) (h : Nat) : rank P h ≤ P.size := by
  unfold rank
  have := List.countP_le_length (l := List.range P.size)
    (p := fun x => @decide (InlineLeads P h x) (Classical.propDecidable _))
  simpa using this

theorem rank_lt {P : Prog} {h g : Nat} (hg : g ∈ P.body h) (hi : P.inl g = true)
    (hs : g < P.size) (hn : ¬ InlineLeads P g g) : rank P g < rank P h := by
  unfold rank
  apply countP_lt
  · intro x _ hx
    simp only [decide_eq_true_eq] at hx ⊢
    exact .more hg hi hx
  · refine ⟨g, List.mem_range.2 hs, ?_, ?_⟩
    · simp only [decide_eq_true_eq]
      exact .one hg hi
    · simpa using hn

/-- The number of functions that have not been visited. -/
def synCount (P : Prog) (st : St) : Nat :=
  (List.range P.size).countP fun x => decide (st.status x = .syn)

theorem synCount_le {P : Prog} {st st' : St}
    (h : ∀ x, st.status x ≠ .syn → st'.status x = st.status x) :
    synCount P st' ≤ synCount P st := by
  unfold synCount
  apply List.countP_mono_left
  intro x _ hx
  simp only [decide_eq_true_eq] at hx ⊢
  by_cases e : st.status x = .syn
  · exact e
  · rw [h x e] at hx; exact absurd hx e

theorem synCount_set {P : Prog} {st : St} {g : Nat} (hg : g < P.size)
    (hs : st.status g = .syn) : synCount P (st.set g .active) < synCount P st := by
  unfold synCount
  apply countP_lt
  · intro x _ hx
    simp only [decide_eq_true_eq] at hx ⊢
    by_cases e : x = g
    · simp [St.set, e] at hx
    · simpa [St.set, e] using hx
  · exact ⟨g, List.mem_range.2 hg, by simp [hs], by simp [St.set]⟩

/-- How a visit ends. -/
structure Ends (P : Prog) (l : List Item) (st st' : St) : Prop where
  keep : ∀ x, st.status x ≠ .syn → st'.status x = st.status x
  sem : ∀ x, st.status x = .syn → st'.status x = .syn ∨ st'.status x = .sem
  unmarked : ∀ x, P.inl x = true → st'.marked x = false
  done : ∃ d : List Nat, st'.done = st.done ++ d ∧ d.Nodup ∧
    ∀ x, x ∈ d ↔ st.status x = .syn ∧ st'.status x = .sem
  defined : ∀ g, .define g ∈ l → ¬ (P.inl g = true ∧ P.priv g = true) →
    st'.status g ≠ .syn

theorem Ends.trans {P : Prog} {l m : List Item} {i : Item} {st st₁ st' : St}
    (h1 : Ends P m st st₁) (h2 : Ends P l st₁ st')
    (hd : ∀ g, i = .define g → ¬ (P.inl g = true ∧ P.priv g = true) →
      st₁.status g ≠ .syn) :
    Ends P (i :: l) st st' := by
  refine ⟨?_, ?_, h2.unmarked, ?_, ?_⟩
  · intro x hx
    rw [h2.keep x (by rw [h1.keep x hx]; exact hx), h1.keep x hx]
  · intro x hx
    rcases h1.sem x hx with e | e
    · exact h2.sem x e
    · exact Or.inr (by rw [h2.keep x (by rw [e]; simp)]; exact e)
  · obtain ⟨d1, a1, a2, a3⟩ := h1.done
    obtain ⟨d2, b1, b2, b3⟩ := h2.done
    refine ⟨d1 ++ d2, by rw [b1, a1, List.append_assoc], ?_, ?_⟩
    · rw [List.nodup_append]
      refine ⟨a2, b2, ?_⟩
      intro x hx y hy e
      subst e
      have := ((a3 x).1 hx).2
      rw [((b3 x).1 hy).1] at this
      cases this
    · intro x
      rw [List.mem_append, a3 x, b3 x]
      constructor
      · rintro (⟨a, b⟩ | ⟨a, b⟩)
        · exact ⟨a, by rw [h2.keep x (by rw [b]; simp)]; exact b⟩
        · refine ⟨?_, b⟩
          by_cases e : st.status x = .syn
          · exact e
          · rw [h1.keep x e] at a; exact absurd a e
      · rintro ⟨a, b⟩
        rcases h1.sem x a with e | e
        · exact Or.inr ⟨e, b⟩
        · exact Or.inl ⟨a, e⟩
  · intro g hg hp
    rcases List.mem_cons.1 hg with e | hg
    · have := hd g e.symm hp
      rw [h2.keep g this]
      exact this
    · exact h2.defined g hg hp

theorem Ends.rfl {P : Prog} {st : St} (h : ∀ x, P.inl x = true → st.marked x = false) :
    Ends P [] st st := by
  refine ⟨fun _ _ => by rfl, fun _ h => Or.inl h, h, ⟨[], by simp, by simp, ?_⟩, ?_⟩
  · intro x
    constructor
    · intro h; cases h
    · rintro ⟨a, b⟩; rw [a] at b; cases b
  · intro g hg; cases hg

/-- The visit of one function. -/
theorem ends_visit {P : Prog} {g : Nat} {st st₁ : St} (hs : st.status g = .syn)
    (h : Ends P (P.items g) (st.set g .active) st₁) :
    ∃ st₂, finish P g st₁ = some (.ok st₂) ∧ Ends P [] st st₂ ∧ st₂.status g = .sem := by
  have hk : ∀ x, x ≠ g → (st.set g .active).status x = st.status x := by
    intro x hx; simp [St.set, hx]
  have hg : (st.set g .active).status g = .active := by simp [St.set]
  have hf : (st₁.marked g && P.inl g) = false := by
    cases hi : P.inl g with
    | false => simp
    | true => simp [h.unmarked g hi]
  refine ⟨_, by unfold finish; rw [hf]; rfl, ?_, by simp [St.set]⟩
  obtain ⟨d, a1, a2, a3⟩ := h.done
  refine ⟨?_, ?_, h.unmarked, ⟨d ++ [g], ?_, ?_, ?_⟩, ?_⟩
  · intro x hx
    have hxg : x ≠ g := fun e => hx (e ▸ hs)
    simp only [St.set, hxg, if_false]
    rw [h.keep x (by rw [hk x hxg]; exact hx), hk x hxg]
  · intro x hx
    by_cases hxg : x = g
    · simp [St.set, hxg]
    · simp only [St.set, hxg, if_false]
      exact h.sem x (by rw [hk x hxg]; exact hx)
  · simp [a1, St.set]
  · rw [List.nodup_append]
    refine ⟨a2, by simp, ?_⟩
    intro x hx y hy e
    rw [List.mem_singleton] at hy
    subst hy
    subst e
    rw [a3, hg] at hx
    cases hx.1
  · intro x
    rw [List.mem_append, List.mem_singleton, a3]
    by_cases hxg : x = g
    · subst hxg
      simp [St.set, hs]
    · simp [St.set, hxg]
  · intro x hx; cases hx

theorem andThen_some {r : Option Res} {st : St} (k : St → Option Res)
    (h : r = some (.ok st)) : andThen r k = k st := by rw [h]; rfl

theorem inlineLeads_trans {P : Prog} {a b c : Nat} (h : InlineLeads P a b)
    (h' : InlineLeads P b c) : InlineLeads P a c := by
  induction h with
  | one h1 h2 => exact .more h1 h2 h'
  | more h1 h2 _ ih => exact .more h1 h2 (ih h')

theorem calls_ments : ∀ {l : List Item} {g : Nat}, g ∈ calls l → g ∈ ments l
  | .call h :: l, g, hg => by
    rcases List.mem_cons.1 hg with rfl | hg
    · exact List.mem_cons_self
    · exact List.mem_cons_of_mem _ (calls_ments hg)
  | .define h :: l, g, hg => List.mem_cons_of_mem _ (calls_ments (l := l) hg)

/-- The visit ends if no `@inline` function leads to itself through `@inline`
functions alone. -/
theorem walk_ends {P : Prog} (hP : P.Closed)
    (hA : ∀ h, P.inl h = true → ¬ InlineLeads P h h) :
    ∀ (s ρ : Nat) (l : List Item) (cur : Option Nat) (st : St),
    synCount P st ≤ s → (∀ g ∈ calls l, P.inl g = true → rank P g < ρ) →
    (∀ g ∈ ments l, g < P.size) →
    (∀ c, cur = some c → P.inl c = true → ∀ g ∈ calls l, P.inl g = true →
      g ≠ c ∧ ¬ InlineLeads P g c) →
    (∀ x, P.inl x = true → st.marked x = false) →
    ∃ N st', (∀ n, N ≤ n → walk P n cur l st = some (.ok st')) ∧ Ends P l st st'
  | _, _, [], _, st, _, _, _, _, hm =>
    ⟨0, st, fun n _ => by cases n <;> rfl, .rfl hm⟩
  | s, ρ, .call g :: l, cur, st, hs, hr, hl, hc, hm => by
    have hgs : g < P.size := hl g List.mem_cons_self
    have rest : ∀ st₁, synCount P st₁ ≤ s → (∀ x, P.inl x = true → st₁.marked x = false) →
        ∃ N st', (∀ n, N ≤ n → walk P n cur l st₁ = some (.ok st')) ∧ Ends P l st₁ st' :=
      fun st₁ h1 h2 => walk_ends hP hA s ρ l cur st₁ h1
        (fun x hx => hr x (List.mem_cons_of_mem _ hx))
        (fun x hx => hl x (List.mem_cons_of_mem _ hx))
        (fun c e hi x hx => hc c e hi x (List.mem_cons_of_mem _ hx)) h2
    have noDef : ∀ (st₁ : St) (x : Nat), Item.call g = .define x →
        ¬ (P.inl x = true ∧ P.priv x = true) → st₁.status x ≠ .syn :=
      fun _ x h => by cases h
    have inl : P.inl g = true → st.status g ≠ .active →
        ∃ N st', (∀ n, N ≤ n → walk P n cur (.call g :: l) st = some (.ok st')) ∧
          Ends P (.call g :: l) st st' := by
      intro hg hna
      have hrg := hr g List.mem_cons_self hg
      obtain ⟨N1, st₁, w1, e1⟩ := walk_ends hP hA s (rank P g) ((P.body g).map .call) cur st hs
        (fun x hx hxi => by
          rw [calls_map] at hx
          exact rank_lt hx hxi (hP.body g hgs x hx) (hA x hxi))
        (fun x hx => by rw [ments_call] at hx; exact hP.body g hgs x hx)
        (fun c e hi x hx hxi => by
          rw [calls_map] at hx
          obtain ⟨_, h2⟩ := hc c e hi g List.mem_cons_self hg
          refine ⟨fun e' => h2 (.one (e' ▸ hx) hi), fun h => h2 (.more hx hxi h)⟩) hm
      obtain ⟨N2, st₂, w2, e2⟩ := rest st₁ (Nat.le_trans (synCount_le e1.keep) hs) e1.unmarked
      refine ⟨max N1 N2 + 1, st₂, ?_, e1.trans e2 (noDef st₁)⟩
      intro n hn
      obtain ⟨n, rfl⟩ : ∃ k, n = k + 1 := ⟨n - 1, by omega⟩
      simp only [walk]
      have a1 := andThen_some (walk P n cur l) (w1 n (by omega))
      have a2 := w2 n (by omega)
      cases hst : st.status g with
      | active => exact absurd hst hna
      | syn => simp only [hg, if_true]; rw [a1]; exact a2
      | sem => simp only [hg, if_true]; rw [a1]; exact a2
    cases hst : st.status g with
    | active =>
      have hm' : ∀ x, P.inl x = true →
          (if cur = some g then st.mark g else st).marked x = false := by
        intro x hx
        split
        · rename_i e
          by_cases hxg : x = g
          · subst hxg
            exact absurd rfl (hc x e hx x List.mem_cons_self hx).1
          · simp [St.mark, hxg, hm x hx]
        · exact hm x hx
      have hst' : (if cur = some g then st.mark g else st).status = st.status := by
        split <;> rfl
      obtain ⟨N, st', w, e⟩ := rest (if cur = some g then st.mark g else st)
        (by unfold synCount at hs ⊢; rw [hst']; exact hs) hm'
      refine ⟨N + 1, st', ?_, ?_⟩
      · intro n hn
        obtain ⟨n, rfl⟩ : ∃ k, n = k + 1 := ⟨n - 1, by omega⟩
        simp only [walk, hst]
        exact w n (by omega)
      · have e0 : Ends P [] st (if cur = some g then st.mark g else st) := by
          have hdone : (if cur = some g then st.mark g else st).done = st.done := by
            split <;> rfl
          refine ⟨fun x _ => by rw [hst'], fun x h => Or.inl (by rw [hst']; exact h), hm',
            ⟨[], by rw [hdone]; simp, by simp, ?_⟩, fun g hg => by cases hg⟩
          intro x
          rw [hst']
          constructor
          · intro h; cases h
          · rintro ⟨a, b⟩; rw [a] at b; cases b
        exact e0.trans e (noDef _)
    | syn =>
      cases hg : P.inl g with
      | true => exact inl hg (by rw [hst]; simp)
      | false =>
        have hlt := synCount_set hgs hst
        obtain ⟨N1, st₁, w1, e1⟩ := walk_ends hP hA (s - 1) (P.size + 1) (P.items g) (some g)
          (st.set g .active) (by omega)
          (fun x _ _ => by have := rank_le P x; omega)
          (fun x hx => by
            rw [ments_items] at hx
            rcases List.mem_append.1 hx with h | h
            · exact hP.body g hgs x h
            · exact hP.sub g hgs x h)
          (fun c e hi => by cases e; rw [hg] at hi; cases hi)
          (fun x hx => hm x hx)
        obtain ⟨st₂, f1, f2, _⟩ := ends_visit hst e1
        obtain ⟨N2, st', w2, e2⟩ := rest st₂ (Nat.le_trans (synCount_le f2.keep) hs) f2.unmarked
        refine ⟨max N1 N2 + 1, st', ?_, f2.trans e2 (noDef _)⟩
        intro n hn
        obtain ⟨n, rfl⟩ : ∃ k, n = k + 1 := ⟨n - 1, by omega⟩
        simp only [walk, hst, hg, Bool.false_eq_true, if_false]
        rw [andThen_some (st := st₂) _ (by rw [andThen_some _ (w1 n (by omega)), f1])]
        exact w2 n (by omega)
    | sem =>
      cases hg : P.inl g with
      | true => exact inl hg (by rw [hst]; simp)
      | false =>
        obtain ⟨N, st', w, e⟩ := rest st hs hm
        refine ⟨N + 1, st', ?_, (Ends.rfl hm).trans e (noDef _)⟩
        intro n hn
        obtain ⟨n, rfl⟩ : ∃ k, n = k + 1 := ⟨n - 1, by omega⟩
        simp only [walk, hst, hg, Bool.false_eq_true, if_false]
        exact w n (by omega)
  | s, ρ, .define g :: l, cur, st, hs, hr, hl, hc, hm => by
    have hgs : g < P.size := hl g List.mem_cons_self
    have rest : ∀ st₁, synCount P st₁ ≤ s → (∀ x, P.inl x = true → st₁.marked x = false) →
        ∃ N st', (∀ n, N ≤ n → walk P n cur l st₁ = some (.ok st')) ∧ Ends P l st₁ st' :=
      fun st₁ h1 h2 => walk_ends hP hA s ρ l cur st₁ h1 hr
        (fun x hx => hl x (List.mem_cons_of_mem _ hx)) hc h2
    by_cases hv : st.status g = .syn ∧ ¬ (P.inl g = true ∧ P.priv g = true)
    · have hst := hv.1
      have hlt := synCount_set hgs hst
      obtain ⟨N1, st₁, w1, e1⟩ := walk_ends hP hA (s - 1) (P.size + 1) (P.items g) (some g)
        (st.set g .active) (by omega)
        (fun x _ _ => by have := rank_le P x; omega)
        (fun x hx => by
          rw [ments_items] at hx
          rcases List.mem_append.1 hx with h | h
          · exact hP.body g hgs x h
          · exact hP.sub g hgs x h)
        (fun c e hi x hx hxi => by
          cases e
          rw [calls_items] at hx
          refine ⟨fun e => hA g hi (.one (e ▸ hx) hi), fun h => hA g hi (.more hx hxi h)⟩)
        (fun x hx => hm x hx)
      obtain ⟨st₂, f1, f2, f3⟩ := ends_visit hst e1
      obtain ⟨N2, st', w2, e2⟩ := rest st₂ (Nat.le_trans (synCount_le f2.keep) hs) f2.unmarked
      refine ⟨max N1 N2 + 1, st', ?_, f2.trans e2 ?_⟩
      · intro n hn
        obtain ⟨n, rfl⟩ : ∃ k, n = k + 1 := ⟨n - 1, by omega⟩
        simp only [walk]
        rw [if_pos hv]
        rw [andThen_some (st := st₂) _ (by rw [andThen_some _ (w1 n (by omega)), f1])]
        exact w2 n (by omega)
      · intro x hx _
        cases hx
        rw [f3]; simp
    · obtain ⟨N, st', w, e⟩ := rest st hs hm
      refine ⟨N + 1, st', ?_, (Ends.rfl hm).trans e ?_⟩
      · intro n hn
        obtain ⟨n, rfl⟩ : ∃ k, n = k + 1 := ⟨n - 1, by omega⟩
        simp only [walk]
        rw [if_neg hv]
        exact w n (by omega)
      · intro x hx hp
        cases hx
        intro e
        exact hv ⟨e, hp⟩
termination_by s ρ l => (s, ρ, l.length)
decreasing_by
  all_goals first
    | (apply Prod.Lex.right; apply Prod.Lex.right; simp; done)
    | (apply Prod.Lex.right; apply Prod.Lex.left; assumption)
    | (apply Prod.Lex.left; omega)

end Verif.Recursion
