import Verif.Ast.SubstLemmas
/-!
# Searching the graph of nodes
-/

namespace Verif.Ast
open Spec Relation

/-- Like `Found`, the nodes passed through not being in `T`. -/
inductive Avoid (next : Nat → List Nat) (isT excluded : Nat → Bool) (T : List Nat) : Nat → Nat → Prop
  | here {n v : Nat} : n ∉ T → v ∈ next n → excluded v = false → isT v = true →
      Avoid next isT excluded T n v
  | there {n v x : Nat} : n ∉ T → v ∈ next n → excluded v = false → isT v = false →
      Avoid next isT excluded T v x → Avoid next isT excluded T n x

theorem found_avoid {next : Nat → List Nat} {isT excluded : Nat → Bool} {n x : Nat} :
    Found next isT excluded n x ↔ Avoid next isT excluded [] n x := by
  constructor
  · intro h
    induction h with
    | here h1 h2 h3 => exact .here (by simp) h1 h2 h3
    | there h1 h2 h3 _ ih => exact .there (by simp) h1 h2 h3 ih
  · intro h
    induction h with
    | here _ h1 h2 h3 => exact .here h1 h2 h3
    | there _ h1 h2 h3 _ ih => exact .there h1 h2 h3 ih

/-- A path which leaves `n` never to come back. -/
def Leaves (next : Nat → List Nat) (isT excluded : Nat → Bool) (T : List Nat) (n x : Nat) : Prop :=
  ∃ v ∈ next n, excluded v = false ∧
    (isT v = true ∧ x = v ∨ isT v = false ∧ Avoid next isT excluded (n :: T) v x)

theorem avoid_cut {next : Nat → List Nat} {isT excluded : Nat → Bool} {T : List Nat} {m x : Nat}
    (n : Nat) (h : Avoid next isT excluded T m x) :
    Avoid next isT excluded (n :: T) m x ∨ Leaves next isT excluded T n x := by
  induction h with
  | @here m v h1 h2 h3 h4 =>
    by_cases hmn : m = n
    · subst hmn; exact Or.inr ⟨v, h2, h3, Or.inl ⟨h4, rfl⟩⟩
    · exact Or.inl (.here (by simp [hmn, h1]) h2 h3 h4)
  | @there m v x h1 h2 h3 h4 _ ih =>
    rcases ih with ih | ih
    · by_cases hmn : m = n
      · subst hmn; exact Or.inr ⟨v, h2, h3, Or.inr ⟨h4, ih⟩⟩
      · exact Or.inl (.there (by simp [hmn, h1]) h2 h3 h4 ih)
    · exact Or.inr ih

theorem avoid_leaves {next : Nat → List Nat} {isT excluded : Nat → Bool} {T : List Nat} {n x : Nat}
    (h : Avoid next isT excluded T n x) : Leaves next isT excluded T n x := by
  rcases avoid_cut n h with h1 | h1
  · cases h1 with
    | here h2 => exact absurd (List.mem_cons_self) h2
    | there h2 => exact absurd (List.mem_cons_self) h2
  · exact h1

theorem avoid_weaken {next : Nat → List Nat} {isT excluded : Nat → Bool} {T : List Nat}
    {n v x : Nat} (h : Avoid next isT excluded (n :: T) v x) : Avoid next isT excluded T v x := by
  induction h with
  | here h1 h2 h3 h4 => exact .here (fun h => h1 (by simp [h])) h2 h3 h4
  | there h1 h2 h3 h4 _ ih => exact .there (fun h => h1 (by simp [h])) h2 h3 h4 ih

theorem leaves_found {next : Nat → List Nat} {isT excluded : Nat → Bool} {T : List Nat}
    {n x : Nat} (h : n ∉ T) (hl : Leaves next isT excluded T n x) :
    Avoid next isT excluded T n x := by
  obtain ⟨v, h1, h2, ⟨h3, rfl⟩ | ⟨h3, h4⟩⟩ := hl
  · exact .here h h1 h2 h3
  · exact .there h h1 h2 h3 (avoid_weaken h4)

/-- A depth-first search whose results are, at each node, the matching successors
and the results of the others, is exact. -/
theorem search_exact (next : Nat → List Nat) (isT excluded : Nat → Bool) (size : Nat)
    (g : Nat → List Nat → Nat → List Nat)
    (hrange : ∀ n, ∀ v ∈ next n, v < size)
    (hg : ∀ f stack n x, x ∈ g (f + 1) stack n ↔ n ∉ stack ∧ ∃ v ∈ next n, excluded v = false ∧
      (isT v = true ∧ x = v ∨ isT v = false ∧ x ∈ g f (n :: stack) v)) :
    ∀ (f : Nat) (stack : List Nat) (n x : Nat), n < size → stack.Nodup →
      (∀ y ∈ stack, y < size) → size < f + stack.length →
      (x ∈ g f stack n ↔ Avoid next isT excluded stack n x) := by
  intro f
  induction f with
  | zero =>
    intro stack n x hn hnd hr hf
    have : stack.length ≤ size := by
      have h2 : stack ⊆ List.range size := fun y hy => List.mem_range.2 (hr y hy)
      simpa using (List.subperm_of_subset hnd h2).length_le
    omega
  | succ f ih =>
    intro stack n x hn hnd hr hf
    rw [hg]
    have hrec : n ∉ stack → ∀ v ∈ next n,
        (x ∈ g f (n :: stack) v ↔ Avoid next isT excluded (n :: stack) v x) := by
      intro hns v hv
      refine ih (n :: stack) v x (hrange n v hv) (List.nodup_cons.2 ⟨hns, hnd⟩) ?_
        (by simp only [List.length_cons]; omega)
      intro y hy
      rcases List.mem_cons.1 hy with rfl | hy
      · exact hn
      · exact hr y hy
    constructor
    · rintro ⟨hns, v, hv, he, h1⟩
      refine leaves_found hns ⟨v, hv, he, ?_⟩
      rcases h1 with h1 | ⟨h1, h2⟩
      · exact Or.inl h1
      · exact Or.inr ⟨h1, (hrec hns v hv).1 h2⟩
    · intro h
      have hns : n ∉ stack := by
        cases h with
        | here h1 => exact h1
        | there h1 => exact h1
      obtain ⟨v, hv, he, h1⟩ := avoid_leaves h
      refine ⟨hns, v, hv, he, ?_⟩
      rcases h1 with h1 | ⟨h1, h2⟩
      · exact Or.inl h1
      · exact Or.inr ⟨h1, (hrec hns v hv).2 h2⟩

theorem getAttributeNodes_step (h : Heap) (isT excluded : Nat → Bool) (f : Nat)
    (stack : List Nat) (n x : Nat) :
    x ∈ getAttributeNodes h isT excluded (f + 1) stack n ↔
      n ∉ stack ∧ ∃ v ∈ h.kids n, excluded v = false ∧
      (isT v = true ∧ x = v ∨ isT v = false ∧
        x ∈ getAttributeNodes h isT excluded f (n :: stack) v) := by
  rw [getAttributeNodes]
  by_cases hns : n ∈ stack
  · simp [hns]
  · rw [if_neg hns]
    simp only [hns, not_false_eq_true, true_and, List.mem_flatMap]
    constructor
    · rintro ⟨v, hv, hx⟩
      refine ⟨v, hv, ?_⟩
      by_cases he : excluded v = true
      · simp [he] at hx
      · by_cases ht : isT v = true
        · simp [he, ht] at hx
          exact ⟨by simpa using he, Or.inl ⟨ht, hx⟩⟩
        · simp [he, ht] at hx
          exact ⟨by simpa using he, Or.inr ⟨by simpa using ht, hx⟩⟩
    · rintro ⟨v, hv, he, ⟨ht, rfl⟩ | ⟨ht, hx⟩⟩
      · exact ⟨x, hv, by simp [he, ht]⟩
      · exact ⟨v, hv, by simpa [he, ht] using hx⟩

theorem getUserNodes_step (h : Heap) (isT excluded : Nat → Bool) (f : Nat)
    (stack : List Nat) (n x : Nat) :
    x ∈ getUserNodes h isT excluded (f + 1) stack n ↔
      n ∉ stack ∧ ∃ v ∈ h.users n, excluded v = false ∧
      (isT v = true ∧ x = v ∨ isT v = false ∧
        x ∈ getUserNodes h isT excluded f (n :: stack) v) := by
  rw [getUserNodes]
  by_cases hns : n ∈ stack
  · simp [hns]
  · by_cases hu : h.users n = []
    · simp [hu]
    · rw [if_neg (by simp [hns, hu])]
      simp only [hns, not_false_eq_true, true_and, List.mem_append, List.mem_filter,
        List.mem_flatMap, Bool.and_eq_true, Bool.not_eq_true', Bool.or_eq_false_iff]
      constructor
      · rintro (⟨h1, h2, h3⟩ | ⟨v, ⟨h1, h2, h3⟩, h4⟩)
        · exact ⟨x, h1, h3, Or.inl ⟨h2, rfl⟩⟩
        · exact ⟨v, h1, h3, Or.inr ⟨h2, h4⟩⟩
      · rintro ⟨v, h1, h2, ⟨h3, rfl⟩ | ⟨h3, h4⟩⟩
        · exact Or.inl ⟨h1, h3, h2⟩
        · exact Or.inr ⟨v, ⟨h1, h3, h2⟩, h4⟩

/-! ## `is_user_of` -/

/-- `isUserOf` as a search: nodes equal to `p` match, even if excluded. -/
theorem isUserOf_step (h : Heap) (p : Nat) (excluded : Nat → Bool) (f : Nat)
    (stack : List Nat) (c : Nat) :
    isUserOf h p excluded (f + 1) stack c = true ↔
      c ∉ stack ∧ ∃ v ∈ h.users c, (v == p || !excluded v) = true ∧
      (v = p ∨ v ≠ p ∧ isUserOf h p excluded f (c :: stack) v = true) := by
  rw [isUserOf]
  by_cases hns : c ∈ stack
  · simp [hns]
  · rw [if_neg hns]
    simp only [hns, not_false_eq_true, true_and, List.any_eq_true, Bool.or_eq_true, beq_iff_eq,
      Bool.and_eq_true, Bool.not_eq_true']
    constructor
    · rintro ⟨v, hv, rfl | ⟨h1, h2⟩⟩
      · exact ⟨v, hv, Or.inl rfl, Or.inl rfl⟩
      · refine ⟨v, hv, Or.inr h1, ?_⟩
        by_cases hvp : v = p
        · exact Or.inl hvp
        · exact Or.inr ⟨hvp, h2⟩
    · rintro ⟨v, hv, h1, rfl | ⟨h2, h3⟩⟩
      · exact ⟨v, hv, Or.inl rfl⟩
      · refine ⟨v, hv, Or.inr ⟨?_, h3⟩⟩
        rcases h1 with h1 | h1
        · exact absurd h1 h2
        · exact h1

theorem above_found (users : Nat → List Nat) (excluded : Nat → Bool) (p c : Nat) :
    Above users excluded p c ↔
      Found users (fun v => v == p) (fun v => !(v == p || !excluded v)) c p := by
  constructor
  · intro h
    induction h with
    | here h1 => exact .here h1 (by simp) (by simp)
    | @there c v h1 h2 _ ih =>
      by_cases hvp : v = p
      · subst hvp; exact .here h1 (by simp) (by simp)
      · exact .there h1 (by simp [h2]) (by simp [hvp]) ih
  · intro h
    have : ∀ a x, Found users (fun v => v == p) (fun v => !(v == p || !excluded v)) a x → x = p →
        Above users excluded p a := by
      intro a x h
      induction h with
      | here h1 _ _ => rintro rfl; exact .here h1
      | @there n v x h1 h2 h3 _ ih =>
        intro hxp
        simp only [beq_eq_false_iff_ne, ne_eq] at h3
        simp only [Bool.not_eq_false', Bool.or_eq_true, beq_iff_eq, Bool.not_eq_true'] at h2
        rcases h2 with h2 | h2
        · exact absurd h2 h3
        · exact .there h1 h2 (ih hxp)
    exact this c p h rfl

end Verif.Ast
