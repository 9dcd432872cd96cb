import Verif.Imports.Model

/-! # Programs of several files: which files are parsed -/

namespace Verif.Imports.Model
open Spec

variable {W : Type}

theorem link_mono {find : Name → Option File} {sub sub' : File → Option Dict}
    (h : ∀ g e, sub g = some e → sub' g = some e) :
    ∀ {is : List (Name × Name)} {d r : Dict}, link find sub is d = some r → link find sub' is d = some r
  | [], d, r, H => H
  | (x, a) :: is, d, r, H => by
    unfold link at H ⊢
    cases hx : find x with
    | none => rw [hx] at H; cases H
    | some g =>
      rw [hx] at H
      cases hg : sub g with
      | none => simp only [hg] at H; cases H
      | some e =>
        simp only [hg] at H
        simp only [h g e hg]
        exact link_mono h H

theorem parse_mono {P : Project W} : ∀ {n : Nat} {f : File} {d : Dict}, parse P n f = some d →
    parse P (n + 1) f = some d
  | 0, _, _, H => by cases H
  | n + 1, _, _, H => link_mono (fun _ _ hg => parse_mono hg) H

theorem parse_le {P : Project W} {n m : Nat} {f : File} {d : Dict} (H : parse P n f = some d) (h : n ≤ m) :
    parse P m f = some d := by
  induction h with
  | refl => exact H
  | step _ ih => exact parse_mono ih

theorem parse_det {P : Project W} {n m : Nat} {f : File} {d e : Dict} (H : parse P n f = some d)
    (H' : parse P m f = some e) : d = e := by
  have h1 := parse_le H (Nat.le_max_left n m)
  have h2 := parse_le H' (Nat.le_max_right n m)
  rw [h1] at h2
  exact Option.some.inj h2

theorem link_sub {find : Name → Option File} {sub : File → Option Dict} :
    ∀ {is : List (Name × Name)} {d r : Dict}, link find sub is d = some r →
      ∀ x a, (x, a) ∈ is → ∃ g e, find x = some g ∧ sub g = some e
  | [], _, _, _, _, _, h => by cases h
  | (y, b) :: is, d, r, H, x, a, h => by
    unfold link at H
    cases hx : find y with
    | none => rw [hx] at H; cases H
    | some g =>
      rw [hx] at H
      cases hg : sub g with
      | none => simp only [hg] at H; cases H
      | some e =>
        simp only [hg] at H
        cases h with
        | head => exact ⟨g, e, hx, hg⟩
        | tail _ h => exact link_sub H x a h

theorem link_keep {find : Name → Option File} {sub : File → Option Dict} :
    ∀ {is : List (Name × Name)} {d r : Dict}, link find sub is d = some r → ∀ q ∈ d, q ∈ r
  | [], _, _, H, q, h => by cases H; exact h
  | (y, b) :: is, d, r, H, q, h => by
    unfold link at H
    cases hx : find y with
    | none => rw [hx] at H; cases H
    | some g =>
      rw [hx] at H
      cases hg : sub g with
      | none => simp only [hg] at H; cases H
      | some e =>
        simp only [hg] at H
        exact link_keep H q (List.mem_append_right _ (List.mem_cons_of_mem _ h))

theorem link_mem {find : Name → Option File} {sub : File → Option Dict} :
    ∀ {is : List (Name × Name)} {d r : Dict}, link find sub is d = some r →
      ∀ x a g, (x, a) ∈ is → find x = some g → (x, g) ∈ r
  | [], _, _, _, _, _, _, h, _ => by cases h
  | (y, b) :: is, d, r, H, x, a, g', h, hf => by
    unfold link at H
    cases hx : find y with
    | none => rw [hx] at H; cases H
    | some g =>
      rw [hx] at H
      cases hg : sub g with
      | none => simp only [hg] at H; cases H
      | some e =>
        simp only [hg] at H
        cases h with
        | head =>
          rw [hx] at hf; cases hf
          exact link_keep H _ (List.mem_append_right _ List.mem_cons_self)
        | tail _ h => exact link_mem H x a g' h hf

theorem link_sound {find : Name → Option File} {sub : File → Option Dict} :
    ∀ {is : List (Name × Name)} {d r : Dict}, link find sub is d = some r → ∀ x g, (x, g) ∈ r →
      (x, g) ∈ d ∨ (find x = some g ∧ ∃ a, (x, a) ∈ is) ∨
        ∃ y a h e, (y, a) ∈ is ∧ find y = some h ∧ sub h = some e ∧ (x, g) ∈ e
  | [], _, _, H, _, _, h => by cases H; exact Or.inl h
  | (y, b) :: is, d, r, H, x, g', h => by
    unfold link at H
    cases hx : find y with
    | none => rw [hx] at H; cases H
    | some g =>
      rw [hx] at H
      cases hg : sub g with
      | none => simp only [hg] at H; cases H
      | some e =>
        simp only [hg] at H
        rcases link_sound H x g' h with h1 | ⟨h1, a, h2⟩ | ⟨z, a, k, e', h1, h2, h3, h4⟩
        · rcases List.mem_append.mp h1 with h1 | h1
          · exact Or.inr (Or.inr ⟨y, b, g, e, List.mem_cons_self, hx, hg, h1⟩)
          · cases h1 with
            | head => exact Or.inr (Or.inl ⟨hx, b, List.mem_cons_self⟩)
            | tail _ h1 => exact Or.inl h1
        · exact Or.inr (Or.inl ⟨h1, a, List.mem_cons_of_mem _ h2⟩)
        · exact Or.inr (Or.inr ⟨z, a, k, e', List.mem_cons_of_mem _ h1, h2, h3, h4⟩)

/-- All names that are known come from an import in a file that can be reached. -/
theorem parse_sound {P : Project W} : ∀ {n : Nat} {f : File} {d : Dict}, parse P n f = some d →
    ∀ x g, (x, g) ∈ d → ∃ f' a, Reaches P f f' ∧ (x, a) ∈ (P.src f').imports ∧ P.find f' x = some g
  | 0, _, _, H, _, _, _ => by cases H
  | n + 1, f, d, H, x, g, h => by
    rcases link_sound H x g h with h1 | ⟨h1, a, h2⟩ | ⟨z, a, k, e', h1, h2, h3, h4⟩
    · cases h1
    · exact ⟨f, a, .refl f, h2, h1⟩
    · obtain ⟨f', a', h5, h6, h7⟩ := parse_sound h3 x g h4
      exact ⟨f', a', .step ⟨z, a, h1, h2⟩ h5, h6, h7⟩

theorem parse_import {P : Project W} {n : Nat} {f g : File} {d : Dict} (H : parse P (n + 1) f = some d)
    (h : Imports P f g) : ∃ e, parse P n g = some e := by
  obtain ⟨x, a, h1, h2⟩ := h
  obtain ⟨g', e, h3, h4⟩ := link_sub H x a h1
  rw [h2] at h3; cases h3
  exact ⟨e, h4⟩

theorem parse_reaches {P : Project W} {f g : File} (h : Reaches P f g) :
    ∀ {n : Nat} {d : Dict}, parse P n f = some d → ∃ e, parse P n g = some e := by
  induction h with
  | refl => exact fun H => ⟨_, H⟩
  | step hi _ ih =>
    intro n d H
    cases n with
    | zero => cases H
    | succ n =>
      obtain ⟨e, he⟩ := parse_import H hi
      obtain ⟨e', he'⟩ := ih he
      exact ⟨e', parse_mono he'⟩

theorem parse_circle {P : Project W} {g h : File} (h1 : Imports P g h) (h2 : Reaches P h g) :
    ∀ n, parse P n g = none
  | 0 => rfl
  | n + 1 => by
    cases H : parse P (n + 1) g with
    | none => rfl
    | some d =>
      obtain ⟨e, he⟩ := parse_import H h1
      obtain ⟨e', he'⟩ := parse_reaches h2 he
      rw [parse_circle h1 h2 n] at he'
      cases he'

theorem link_some {find : Name → Option File} {sub : File → Option Dict} :
    ∀ {is : List (Name × Name)} {d : Dict}, (∀ x a, (x, a) ∈ is → ∃ g e, find x = some g ∧ sub g = some e) →
      ∃ r, link find sub is d = some r
  | [], d, _ => ⟨d, rfl⟩
  | (y, b) :: is, d, h => by
    obtain ⟨g, e, h1, h2⟩ := h y b List.mem_cons_self
    obtain ⟨r, hr⟩ := link_some (is := is) (d := e ++ (y, g) :: d) fun x a hx => h x a (List.mem_cons_of_mem _ hx)
    refine ⟨r, ?_⟩
    unfold link
    rw [h1]
    simp only [h2]
    exact hr

theorem parse_rank {P : Project W} {r : File → Nat} : ∀ (n : Nat) (f : File), r f < n →
    (∀ g, Reaches P f g → (∀ x a, (x, a) ∈ (P.src g).imports → ∃ h, P.find g x = some h) ∧
      ∀ h, Imports P g h → r h < r g) →
    ∃ d, parse P n f = some d
  | 0, _, h, _ => absurd h (Nat.not_lt_zero _)
  | n + 1, f, h, H => by
    unfold parse
    refine link_some fun x a hx => ?_
    obtain ⟨h1, h2⟩ := H f (.refl f)
    obtain ⟨g, hg⟩ := h1 x a hx
    have hi : Imports P f g := ⟨x, a, hx, hg⟩
    have := h2 g hi
    obtain ⟨d, hd⟩ := parse_rank (r := r) n g (by omega) fun k hk => H k (.step hi hk)
    exact ⟨g, d, hg, hd⟩

/-! ## The depth at which a file can be parsed -/

/-- The smallest depth, if it is at most `D`. -/
def rk (P : Project W) : Nat → File → Nat
  | 0, _ => 0
  | D + 1, g => if (parse P D g).isSome then rk P D g else D + 1

theorem rk_spec {P : Project W} : ∀ {D : Nat} {g : File} {d : Dict}, parse P D g = some d →
    parse P (rk P D g) g = some d ∧ ∀ m, m < rk P D g → parse P m g = none
  | 0, _, _, H => by cases H
  | D + 1, g, d, H => by
    unfold rk
    cases h : parse P D g with
    | none =>
      simp only [Option.isSome_none, Bool.false_eq_true, if_false]
      refine ⟨H, fun m hm => ?_⟩
      cases hm' : parse P m g with
      | none => rfl
      | some e => rw [parse_le hm' (by omega : m ≤ D)] at h; cases h
    | some e =>
      simp only [Option.isSome_some, if_true]
      cases parse_det H h
      exact rk_spec h

theorem rk_lt {P : Project W} {D : Nat} {f g : File} {d : Dict} (H : parse P D f = some d) (h : Imports P f g) :
    rk P D g < rk P D f := by
  obtain ⟨h1, _⟩ := rk_spec H
  obtain ⟨m, hm⟩ : ∃ m, rk P D f = m + 1 := by
    cases h' : rk P D f with
    | zero => rw [h'] at h1; cases h1
    | succ m => exact ⟨m, rfl⟩
  rw [hm] at h1
  obtain ⟨e, he⟩ := parse_import h1 h
  cases D with
  | zero => cases H
  | succ D =>
    obtain ⟨e', he'⟩ := parse_import H h
    obtain ⟨_, h3⟩ := rk_spec (parse_mono he')
    rw [hm]
    apply Nat.lt_of_not_le
    intro hle
    have := h3 m (by omega)
    rw [he] at this
    cases this

/-! ## Names -/

theorem lookup_mem {d : Dict} {x : Name} {g : File} (h : d.lookup x = some g) : (x, g) ∈ d := by
  induction d with
  | nil => cases h
  | cons q d ih =>
    obtain ⟨y, k⟩ := q
    rw [List.lookup_cons] at h
    by_cases hxy : x = y
    · subst hxy
      simp at h
      subst h
      exact List.mem_cons_self
    · have : (x == y) = false := by simp [hxy]
      rw [this] at h
      exact List.mem_cons_of_mem _ (ih h)

theorem lookup_isSome {d : Dict} {x : Name} {g : File} (h : (x, g) ∈ d) : ∃ g', d.lookup x = some g' := by
  induction d with
  | nil => cases h
  | cons q d ih =>
    obtain ⟨y, k⟩ := q
    rw [List.lookup_cons]
    by_cases hxy : x = y
    · subst hxy
      exact ⟨k, by simp⟩
    · have : (x == y) = false := by simp [hxy]
      rw [this]
      cases h with
      | head => exact absurd rfl hxy
      | tail _ h => exact ih h

theorem parse_lookup {P : Project W} (hc : Consistent P) {n : Nat} {f : File} {d : Dict} (H : parse P n f = some d)
    {x : Name} {a : Name} (h : (x, a) ∈ (P.src f).imports) : d.lookup x = P.find f x := by
  cases n with
  | zero => cases H
  | succ n =>
    obtain ⟨g, e, h1, _⟩ := link_sub H x a h
    obtain ⟨g', h3⟩ := lookup_isSome (link_mem H x a g h h1)
    obtain ⟨f', a', _, _, h4⟩ := parse_sound H x g' (lookup_mem h3)
    rw [h3, h1, hc f f' x g g' h1 h4]

end Verif.Imports.Model
