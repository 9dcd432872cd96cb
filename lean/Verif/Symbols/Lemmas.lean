import Verif.Symbols.Model

namespace Verif.Symbols.Lemmas
open Verif.Symbols.Spec Verif.Symbols.Model

/-- The name of a variable or an attribute. -/
def nameOf : Node → Option String
  | .var x => some x
  | .dot _ x => some x
  | .shape _ _ => none

/-- The nodes in `A` with names have different ones, and these are used. -/
structure Good (A : Node → Prop) (used : List String) : Prop where
  inj : ∀ m n x, A m → A n → nameOf m = some x → nameOf n = some x → m = n
  used : ∀ n x, A n → nameOf n = some x → x ∈ used

/-- Every entry of the map is one that `symbol` makes. -/
structure Inv (A : Node → Prop) (base : List String) (st : State) : Prop where
  sub : ∀ x ∈ base, x ∈ st.used
  node : ∀ p ∈ st.map, A p.2
  named : ∀ p ∈ st.map, ∀ x, nameOf p.2 = some x → p.1 = x
  made : ∀ p ∈ st.map, nameOf p.2 = none → p.1 ∈ st.used ∧ p.1 ∉ base
  key : ∀ p ∈ st.map, ∀ q ∈ st.map, p.1 = q.1 → p = q

theorem setKey_new {m : List (String × Node)} {s : String} {n : Node} (h : ∀ p ∈ m, p.1 ≠ s) :
    setKey m s n = m ++ [(s, n)] := by
  unfold setKey
  rw [List.filter_eq_self.2]
  intro p hp; simpa using h p hp

theorem keys_append {m : List (String × Node)} {s : String} {n : Node} (h : ∀ p ∈ m, p.1 ≠ s)
    (hk : ∀ p ∈ m, ∀ q ∈ m, p.1 = q.1 → p = q) :
    ∀ p ∈ m ++ [(s, n)], ∀ q ∈ m ++ [(s, n)], p.1 = q.1 → p = q := by
  intro p hp q hq e
  simp only [List.mem_append, List.mem_singleton] at hp hq
  rcases hp with hp | rfl <;> rcases hq with hq | rfl
  · exact hk p hp q hq e
  · exact absurd e (h p hp)
  · exact absurd e.symm (h q hq)
  · rfl

/-- What a step keeps and adds. -/
theorem symbol_ok {fresh : List String → String} (hf : ∀ l, fresh l ∉ l) {A : Node → Prop} {base : List String}
    (hg : Good A base) {st : State} (hi : Inv A base st) {n : Node} (hn : A n) :
    Inv A base (symbol fresh st n).2 ∧ (∀ p ∈ st.map, p ∈ (symbol fresh st n).2.map) ∧
      ((symbol fresh st n).1, n) ∈ (symbol fresh st n).2.map := by
  unfold symbol
  split
  · rename_i p hp
    have hm := List.mem_of_find?_eq_some hp
    have he : p.2 = n := by simpa using List.find?_some hp
    exact ⟨hi, fun q hq => hq, by rw [← he]; exact hm⟩
  · rename_i hnone
    have hno : ∀ p ∈ st.map, p.2 ≠ n := by
      intro p hp e
      have := List.find?_eq_none.1 hnone p hp
      simp [e] at this
    have named (x : String) (hx : nameOf n = some x) : Inv A base ⟨st.map ++ [(x, n)], st.used⟩ ∧
        ∀ p ∈ st.map, p.1 ≠ x := by
      have hne : ∀ p ∈ st.map, p.1 ≠ x := by
        intro p hp e
        cases hq : nameOf p.2 with
        | none => exact (hi.made p hp hq).2 (e ▸ hg.used n x hn hx)
        | some y =>
          have := hi.named p hp y hq
          subst this
          exact hno p hp (hg.inj p.2 n x (hi.node p hp) hn (e ▸ hq) hx)
      refine ⟨⟨hi.sub, ?_, ?_, ?_, keys_append hne hi.key⟩, hne⟩
      · intro p hp
        simp only [List.mem_append, List.mem_singleton] at hp
        rcases hp with hp | rfl
        · exact hi.node p hp
        · exact hn
      · intro p hp y hy
        simp only [List.mem_append, List.mem_singleton] at hp
        rcases hp with hp | rfl
        · exact hi.named p hp y hy
        · simp only [hx, Option.some.injEq] at hy; exact hy
      · intro p hp hy
        simp only [List.mem_append, List.mem_singleton] at hp
        rcases hp with hp | rfl
        · exact hi.made p hp hy
        · simp [hx] at hy
    split
    · rename_i x
      obtain ⟨h1, h2⟩ := named x rfl
      simp only [setKey_new h2]
      exact ⟨h1, fun p hp => by simp [hp], by simp⟩
    · rename_i l x
      obtain ⟨h1, h2⟩ := named x rfl
      simp only [setKey_new h2]
      exact ⟨h1, fun p hp => by simp [hp], by simp⟩
    · rename_i arr axis
      have hne : ∀ p ∈ st.map, p.1 ≠ fresh st.used := by
        intro p hp e
        apply hf st.used
        rw [← e]
        cases hq : nameOf p.2 with
        | none => exact (hi.made p hp hq).1
        | some y =>
          rw [hi.named p hp y hq]
          exact hi.sub y (hg.used p.2 y (hi.node p hp) hq)
      simp only [setKey_new hne]
      refine ⟨⟨?_, ?_, ?_, ?_, keys_append hne hi.key⟩, fun p hp => by simp [hp], by simp⟩
      · intro x hx; exact List.mem_cons_of_mem _ (hi.sub x hx)
      · intro p hp
        simp only [List.mem_append, List.mem_singleton] at hp
        rcases hp with hp | rfl
        · exact hi.node p hp
        · exact hn
      · intro p hp y hy
        simp only [List.mem_append, List.mem_singleton] at hp
        rcases hp with hp | rfl
        · exact hi.named p hp y hy
        · simp [nameOf] at hy
      · intro p hp hy
        simp only [List.mem_append, List.mem_singleton] at hp
        rcases hp with hp | rfl
        · exact ⟨List.mem_cons_of_mem _ (hi.made p hp hy).1, (hi.made p hp hy).2⟩
        · exact ⟨List.mem_cons_self, fun h => hf st.used (hi.sub _ h)⟩

/-- A conversion keeps the invariant and the entries, and its result has the value of the expression for all values of
the symbols that agree with the map. -/
def Conv (f : ℚ → Option ℚ) (A : Node → Prop) (base : List String) (st st' : State) (e : Arith Node)
    (s : Arith String) : Prop :=
  Inv A base st' ∧ (∀ p ∈ st.map, p ∈ st'.map) ∧
    ∀ (env : Node → ℚ) (σ : String → ℚ), (∀ p ∈ st'.map, σ p.1 = env p.2) → s.eval f σ = e.eval f env

section
variable {fresh : List String → String} (hf : ∀ l, fresh l ∉ l) {f : ℚ → Option ℚ} {A : Node → Prop} {base : List String}
  (hg : Good A base)
include hf hg

theorem two {st st' : State} {a b : Arith Node} {s : Arith String}
    {mk : Arith String → Arith String → Arith String} {mk' : Arith Node → Arith Node → Arith Node}
    (hmk : ∀ (env : Node → ℚ) (σ : String → ℚ) a b s t, s.eval f σ = a.eval f env → t.eval f σ = b.eval f env →
      (mk s t).eval f σ = (mk' a b).eval f env)
    (iha : ∀ {st st' s}, Inv A base st → toSympy fresh st a = some (s, st') → Conv f A base st st' a s)
    (ihb : ∀ {st st' s}, Inv A base st → toSympy fresh st b = some (s, st') → Conv f A base st st' b s)
    (hi : Inv A base st)
    (h : ((toSympy fresh st a).bind fun r => (toSympy fresh r.2 b).map fun t => (mk r.1 t.1, t.2)) = some (s, st')) :
    Conv f A base st st' (mk' a b) s := by
  simp only [Option.bind_eq_some_iff, Option.map_eq_some_iff, Prod.mk.injEq] at h
  obtain ⟨⟨s1, st1⟩, h1, ⟨s2, st2⟩, h2, rfl, rfl⟩ := h
  obtain ⟨i1, m1, v1⟩ := iha hi h1
  obtain ⟨i2, m2, v2⟩ := ihb i1 h2
  exact ⟨i2, fun p hp => m2 p (m1 p hp), fun env σ hσ =>
    hmk env σ a b s1 s2 (v1 env σ fun p hp => hσ p (m2 p hp)) (v2 env σ hσ)⟩

theorem toSympy_ok : ∀ {e : Arith Node} {st st' : State} {s : Arith String}, (∀ n ∈ e.atoms, A n) → Inv A base st →
    toSympy fresh st e = some (s, st') → Conv f A base st st' e s := by
  intro e
  induction e with
  | lit z =>
    intro st st' s _ hi h
    simp only [toSympy, Option.some.injEq, Prod.mk.injEq] at h
    obtain ⟨rfl, rfl⟩ := h
    exact ⟨hi, fun p hp => hp, fun env σ _ => rfl⟩
  | atom n =>
    intro st st' s hA hi h
    simp only [toSympy, Option.some.injEq, Prod.mk.injEq] at h
    obtain ⟨rfl, rfl⟩ := h
    obtain ⟨h1, h2, h3⟩ := symbol_ok hf hg hi (hA n (by simp [Arith.atoms]))
    exact ⟨h1, h2, fun env σ hσ => by simp only [Arith.eval]; rw [hσ _ h3]⟩
  | neg a ih =>
    intro st st' s hA hi h
    simp only [toSympy, Option.map_eq_some_iff, Prod.mk.injEq] at h
    obtain ⟨⟨s1, st1⟩, h1, rfl, rfl⟩ := h
    obtain ⟨i1, m1, v1⟩ := ih hA hi h1
    exact ⟨i1, m1, fun env σ hσ => by simp only [Arith.eval, v1 env σ hσ]⟩
  | call a => intro st st' s _ _ h; simp [toSympy] at h
  | add a b iha ihb =>
    intro st st' s hA hi h
    simp only [Arith.atoms, List.mem_append] at hA
    exact two hf hg (mk := .add) (mk' := .add) (fun env σ a b s t h1 h2 => by simp only [Arith.eval, h1, h2])
      (iha fun n hn => hA n (.inl hn)) (ihb fun n hn => hA n (.inr hn)) hi h
  | sub a b iha ihb =>
    intro st st' s hA hi h
    simp only [Arith.atoms, List.mem_append] at hA
    exact two hf hg (mk := .sub) (mk' := .sub) (fun env σ a b s t h1 h2 => by simp only [Arith.eval, h1, h2])
      (iha fun n hn => hA n (.inl hn)) (ihb fun n hn => hA n (.inr hn)) hi h
  | mul a b iha ihb =>
    intro st st' s hA hi h
    simp only [Arith.atoms, List.mem_append] at hA
    exact two hf hg (mk := .mul) (mk' := .mul) (fun env σ a b s t h1 h2 => by simp only [Arith.eval, h1, h2])
      (iha fun n hn => hA n (.inl hn)) (ihb fun n hn => hA n (.inr hn)) hi h
  | div a b iha ihb =>
    intro st st' s hA hi h
    simp only [Arith.atoms, List.mem_append] at hA
    exact two hf hg (mk := .div) (mk' := .div) (fun env σ a b s t h1 h2 => by simp only [Arith.eval, h1, h2])
      (iha fun n hn => hA n (.inl hn)) (ihb fun n hn => hA n (.inr hn)) hi h
  | floorDiv a b iha ihb =>
    intro st st' s hA hi h
    simp only [Arith.atoms, List.mem_append] at hA
    exact two hf hg (mk := .floorDiv) (mk' := .floorDiv) (fun env σ a b s t h1 h2 => by simp only [Arith.eval, h1, h2])
      (iha fun n hn => hA n (.inl hn)) (ihb fun n hn => hA n (.inr hn)) hi h

theorem cond_ok : ∀ {e : Cond Node} {st st' : State} {s : Cond String}, (∀ n ∈ e.atoms, A n) → Inv A base st →
    condToSympy fresh st e = some (s, st') →
    Inv A base st' ∧ (∀ p ∈ st.map, p ∈ st'.map) ∧
    ∀ (env : Node → ℚ) (σ : String → ℚ), (∀ p ∈ st'.map, σ p.1 = env p.2) → s.eval f σ = e.eval f env := by
  intro e
  induction e with
  | lit b =>
    intro st st' s _ hi h
    simp only [condToSympy, Option.some.injEq, Prod.mk.injEq] at h
    obtain ⟨rfl, rfl⟩ := h
    exact ⟨hi, fun p hp => hp, fun env σ _ => rfl⟩
  | atom n =>
    intro st st' s hA hi h
    simp only [condToSympy, Option.some.injEq, Prod.mk.injEq] at h
    obtain ⟨rfl, rfl⟩ := h
    obtain ⟨h1, h2, h3⟩ := symbol_ok hf hg hi (hA n (by simp [Cond.atoms]))
    exact ⟨h1, h2, fun env σ hσ => by simp only [Cond.eval]; rw [hσ _ h3]⟩
  | rel o a b =>
    intro st st' s hA hi h
    simp only [Cond.atoms, List.mem_append] at hA
    simp only [condToSympy, Option.bind_eq_some_iff, Option.map_eq_some_iff, Prod.mk.injEq] at h
    obtain ⟨⟨s1, st1⟩, h1, ⟨s2, st2⟩, h2, rfl, rfl⟩ := h
    obtain ⟨i1, m1, v1⟩ := toSympy_ok (f := f) hf hg (fun n hn => hA n (.inl hn)) hi h1
    obtain ⟨i2, m2, v2⟩ := toSympy_ok (f := f) hf hg (fun n hn => hA n (.inr hn)) i1 h2
    exact ⟨i2, fun p hp => m2 p (m1 p hp), fun env σ hσ => by
      simp only [Cond.eval, v1 env σ (fun p hp => hσ p (m2 p hp)), v2 env σ hσ]⟩
  | not c ih =>
    intro st st' s hA hi h
    simp only [condToSympy, Option.map_eq_some_iff, Prod.mk.injEq] at h
    obtain ⟨⟨s1, st1⟩, h1, rfl, rfl⟩ := h
    obtain ⟨i1, m1, v1⟩ := ih hA hi h1
    exact ⟨i1, m1, fun env σ hσ => by simp only [Cond.eval, v1 env σ hσ]⟩
  | and c d ihc ihd =>
    intro st st' s hA hi h
    simp only [Cond.atoms, List.mem_append] at hA
    simp only [condToSympy, Option.bind_eq_some_iff, Option.map_eq_some_iff, Prod.mk.injEq] at h
    obtain ⟨⟨s1, st1⟩, h1, ⟨s2, st2⟩, h2, rfl, rfl⟩ := h
    obtain ⟨i1, m1, v1⟩ := ihc (fun n hn => hA n (.inl hn)) hi h1
    obtain ⟨i2, m2, v2⟩ := ihd (fun n hn => hA n (.inr hn)) i1 h2
    exact ⟨i2, fun p hp => m2 p (m1 p hp), fun env σ hσ => by
      simp only [Cond.eval, v1 env σ (fun p hp => hσ p (m2 p hp)), v2 env σ hσ]⟩
  | or c d ihc ihd =>
    intro st st' s hA hi h
    simp only [Cond.atoms, List.mem_append] at hA
    simp only [condToSympy, Option.bind_eq_some_iff, Option.map_eq_some_iff, Prod.mk.injEq] at h
    obtain ⟨⟨s1, st1⟩, h1, ⟨s2, st2⟩, h2, rfl, rfl⟩ := h
    obtain ⟨i1, m1, v1⟩ := ihc (fun n hn => hA n (.inl hn)) hi h1
    obtain ⟨i2, m2, v2⟩ := ihd (fun n hn => hA n (.inr hn)) i1 h2
    exact ⟨i2, fun p hp => m2 p (m1 p hp), fun env σ hσ => by
      simp only [Cond.eval, v1 env σ (fun p hp => hσ p (m2 p hp)), v2 env σ hσ]⟩
end

theorem inv_nil (A : Node → Prop) (base : List String) : Inv A base ⟨[], base⟩ :=
  ⟨fun _ h => h, by simp, by simp, by simp, by simp⟩

/-- Values of the symbols that agree with the map. -/
theorem exists_values {A : Node → Prop} {base : List String} {st : State} (hi : Inv A base st) (env : Node → ℚ) :
    ∃ σ : String → ℚ, ∀ p ∈ st.map, σ p.1 = env p.2 := by
  refine ⟨fun x => match st.map.find? (fun p => p.1 = x) with | some p => env p.2 | none => 0, ?_⟩
  intro p hp
  cases h : st.map.find? (fun q => q.1 = p.1) with
  | none =>
    have := List.find?_eq_none.1 h p hp
    simp at this
  | some q =>
    have hm := List.mem_of_find?_eq_some h
    have he : q.1 = p.1 := by simpa using List.find?_some h
    have := hi.key q hm p hp he
    subst this
    simp [h]

theorem back_mem {A : Node → Prop} {base : List String} {st : State} (hi : Inv A base st) {p : String × Node}
    (hp : p ∈ st.map) : back st.map p.1 = some p.2 := by
  unfold back
  cases h : st.map.find? (fun q => q.1 = p.1) with
  | none =>
    have := List.find?_eq_none.1 h p hp
    simp at this
  | some q =>
    have hm := List.mem_of_find?_eq_some h
    have he : q.1 = p.1 := by simpa using List.find?_some h
    rw [hi.key q hm p hp he]; rfl

end Verif.Symbols.Lemmas
