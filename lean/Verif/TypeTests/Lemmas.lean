import Verif.TypeTests.Model
namespace Verif.TypeTests.Lemmas
open Verif.TypeTests.Spec Verif.TypeTests.Model

variable {bases : Nat → List Nat}

theorem strip_not_final : ∀ (t u : Ty), t.strip ≠ .final u
  | .final t, u => strip_not_final t u
  | .bool, _ | .int, _ | .float, _ | .complex, _ | .str, _ | .void, _ | .list _, _ | .set _, _ | .dict _ _, _ | .htuple _, _ | .ituple, _
  | .ndarray _ _, _ | .npInt _, _ | .npFloat _, _ | .npComplex _, _ | .custom _, _ => by simp [Ty.strip]

theorem clsBase_strip : ∀ t : Ty, clsBase t = clsBase t.strip
  | .final t => clsBase_strip t
  | .bool | .int | .float | .complex | .str | .void | .list _ | .set _ | .dict _ _ | .htuple _ | .ituple
  | .ndarray _ _ | .npInt _ | .npFloat _ | .npComplex _ | .custom _ => rfl

/-! ## The loop -/

inductive Reach (bases : Nat → List Nat) : Def → Def → Prop where
  | refl (d : Def) : Reach bases d d
  | step {a b c : Def} (h : b ∈ supers bases a) (t : Reach bases b c) : Reach bases a c

theorem collect_mem : ∀ (n : Nat) (stack : List Def) (acc r : List Ty), collect bases n stack acc = some r →
    ∀ t, t ∈ r ↔ t ∈ acc ∨ ∃ d ∈ stack, ∃ e, Reach bases d e ∧ e.type = some t
  | 0, [], acc, r, h, t => by simp only [collect, Option.some.injEq] at h; subst h; simp
  | n + 1, [], acc, r, h, t => by simp only [collect, Option.some.injEq] at h; subst h; simp
  | 0, _ :: _, _, _, h, _ => by simp [collect] at h
  | n + 1, d :: stack, acc, r, h, t => by
    simp only [collect] at h
    rw [collect_mem n _ _ r h t]
    simp only [List.mem_append, Option.mem_toList, List.mem_reverse]
    constructor
    · rintro ((h | h) | ⟨e, h | h, f, hf, ht⟩)
      · exact Or.inr ⟨d, by simp, d, .refl d, h⟩
      · exact Or.inl h
      · exact Or.inr ⟨d, by simp, f, .step h hf, ht⟩
      · exact Or.inr ⟨e, by simp [h], f, hf, ht⟩
    · rintro (h | ⟨e, he, f, hf, ht⟩)
      · exact Or.inl (Or.inr h)
      · rcases List.mem_cons.1 he with rfl | he
        · cases hf with
          | refl => exact Or.inl (Or.inl ht)
          | step h1 h2 => exact Or.inr ⟨_, Or.inl h1, f, h2, ht⟩
        · exact Or.inr ⟨e, Or.inr he, f, hf, ht⟩

def Ends (bases : Nat → List Nat) (stack : List Def) : Prop := ∀ acc, ∃ n r, collect bases n stack acc = some r

theorem ends_nil : Ends bases [] := fun acc => ⟨0, acc, by simp [collect]⟩

theorem ends_step {d : Def} {stack : List Def} (h : Ends bases ((supers bases d).reverse ++ stack)) : Ends bases (d :: stack) := fun acc => by
  obtain ⟨n, r, hr⟩ := h (d.type.toList ++ acc)
  exact ⟨n + 1, r, by simpa only [collect] using hr⟩

theorem ends_user (hb : ∀ c, ∀ d ∈ bases c, d < c) (c : Nat) : ∀ stack, Ends bases stack → Ends bases (.user c :: stack) := by
  induction c using Nat.strongRecOn with
  | _ c ih =>
    intro stack hs
    refine ends_step ?_
    have : ∀ l : List Nat, (∀ d ∈ l, d < c) → Ends bases (l.map Def.user ++ stack) := by
      intro l hl
      induction l with
      | nil => exact hs
      | cons d l ih2 => exact ih d (hl d (by simp)) _ (ih2 fun e he => hl e (by simp [he]))
    have := this (bases c).reverse (fun d hd => hb c d (by simpa using hd))
    simpa [supers, List.map_reverse] using this

theorem ends_one (hb : ∀ c, ∀ d ∈ bases c, d < c) (d : Def) : Ends bases [d] := by
  cases d with
  | user c => exact ends_user hb c [] ends_nil
  | bool => exact ends_step (ends_step ends_nil)
  | int => exact ends_step ends_nil
  | float => exact ends_step ends_nil
  | complex => exact ends_step ends_nil
  | str => exact ends_step ends_nil
  | other => exact ends_step ends_nil

theorem collect_mono : ∀ (n : Nat) (stack : List Def) (acc r : List Ty), collect bases n stack acc = some r →
    ∀ k, n ≤ k → collect bases k stack acc = some r
  | 0, [], acc, r, h, k, _ => by cases k <;> simpa [collect] using h
  | n + 1, [], acc, r, h, k, _ => by cases k <;> simpa [collect] using h
  | 0, _ :: _, _, _, h, _, _ => by simp [collect] at h
  | n + 1, d :: stack, acc, r, h, k, hk => by
    obtain ⟨k, rfl⟩ := Nat.exists_eq_add_of_le hk
    rw [Nat.add_right_comm]
    simp only [collect] at h ⊢
    exact collect_mono n _ _ r h _ (Nat.le_add_right _ _)

theorem single_ends (hb : ∀ c, ∀ d ∈ bases c, d < c) (t : Ty) (c : Cls) : ∃ n, ∀ k, n ≤ k → (single bases k t c).isSome := by
  unfold single
  cases expected c with
  | none => exact ⟨0, fun _ _ => rfl⟩
  | some e =>
    cases e with
    | family f => exact ⟨0, fun _ _ => rfl⟩
    | type e =>
      cases clsBase t with
      | none => exact ⟨0, fun _ _ => rfl⟩
      | some d =>
        obtain ⟨n, r, hr⟩ := ends_one hb d [t.strip]
        exact ⟨n, fun k hk => by simp [collect_mono n _ _ r hr k hk]⟩

theorem build_ends (hb : ∀ c, ∀ d ∈ bases c, d < c) (t : Ty) : ∀ test : Test, ∃ n, ∀ k, n ≤ k → (build bases k t test).isSome
  | .cls c => single_ends hb t c
  | .nil => ⟨0, fun _ _ => rfl⟩
  | .cons a b => by
    obtain ⟨n, hn⟩ := build_ends hb t a
    obtain ⟨m, hm⟩ := build_ends hb t b
    refine ⟨n + m, fun k hk => ?_⟩
    obtain ⟨x, hx⟩ := Option.isSome_iff_exists.1 (hn k (by omega))
    obtain ⟨y, hy⟩ := Option.isSome_iff_exists.1 (hm k (by omega))
    simp [build, hx, hy]

/-! ## Classes -/

theorem sub_user {a : Nat} {c : Cls} (h : Sub bases (.user a) c) : ∃ b, c = .user b ∧ Reach bases (.user a) (.user b) := by
  generalize ha : Cls.user a = x at h
  induction h generalizing a with
  | refl c => exact ⟨a, ha.symm, .refl _⟩
  | step hb _ ih =>
    subst ha
    cases hb with
    | user hd =>
      obtain ⟨b, h1, h2⟩ := ih rfl
      exact ⟨b, h1, .step (by simpa [supers] using hd) h2⟩

theorem reach_user {a : Nat} {e : Def} (h : Reach bases (.user a) e) : ∃ b, e = .user b ∧ Sub bases (.user a) (.user b) := by
  generalize ha : Def.user a = x at h
  induction h generalizing a with
  | refl c => exact ⟨a, ha.symm, .refl _⟩
  | step hs _ ih =>
    subst ha
    simp only [supers, List.mem_map] at hs
    obtain ⟨d, hd, rfl⟩ := hs
    obtain ⟨b, h1, h2⟩ := ih rfl
    exact ⟨b, h1, .step (.user hd) h2⟩

theorem reach_leaf {d e : Def} (hd : supers bases d = []) (h : Reach bases d e) : e = d := by
  cases h with
  | refl => rfl
  | step h _ => rw [hd] at h; cases h

theorem reach_bool {e : Def} (h : Reach bases .bool e) : e = .bool ∨ e = .int := by
  cases h with
  | refl => exact Or.inl rfl
  | step h t =>
    simp only [supers, List.mem_singleton] at h
    subst h
    exact Or.inr (reach_leaf rfl t)

/-- The classes above a class that is not a user's. -/
def ups : Cls → List Cls
  | .bool => [.bool, .int]
  | .npFloat 64 => [.npFloat 64, .float]
  | .npComplex 128 => [.npComplex 128, .complex]
  | c => [c]

theorem sub_ups {a c : Cls} (ha : ∀ k, a ≠ .user k) : Sub bases a c ↔ c ∈ ups a := by
  have leaf : ∀ {a c : Cls}, (∀ b, ¬Base bases a b) → Sub bases a c → c = a := by
    intro a c hn h
    cases h with
    | refl => rfl
    | step h _ => exact absurd h (hn _)
  constructor
  · intro h
    cases h with
    | refl => unfold ups; split <;> simp
    | step h t =>
      cases h with
      | bool => rw [leaf (by intro b h; cases h) t]; simp [ups]
      | float64 => rw [leaf (by intro b h; cases h) t]; simp [ups]
      | complex128 => rw [leaf (by intro b h; cases h) t]; simp [ups]
      | user => exact absurd rfl (ha _)
  · intro h
    unfold ups at h
    split at h
    · simp only [List.mem_cons, List.not_mem_nil, or_false] at h
      rcases h with rfl | rfl
      · exact .refl _
      · exact .step .bool (.refl _)
    · simp only [List.mem_cons, List.not_mem_nil, or_false] at h
      rcases h with rfl | rfl
      · exact .refl _
      · exact .step .float64 (.refl _)
    · simp only [List.mem_cons, List.not_mem_nil, or_false] at h
      rcases h with rfl | rfl
      · exact .refl _
      · exact .step .complex128 (.refl _)
    · simp only [List.mem_singleton] at h
      subst h; exact .refl _

theorem single_type {fuel : Nat} {t : Ty} {c : Cls} {e : Ty} {d : Def} {b : Bool} (he : expected c = some (.type e)) (hd : clsBase t = some d)
    (h : single bases fuel t c = some (some b)) : b = true ↔ e = t.strip ∨ ∃ f, Reach bases d f ∧ f.type = some e := by
  unfold single at h
  rw [he] at h
  simp only [hd, Option.map_eq_some_iff, Option.some.injEq] at h
  obtain ⟨l, hl, rfl⟩ := h
  rw [List.contains_iff_mem, collect_mem fuel _ _ l hl e]
  simp

end Verif.TypeTests.Lemmas
