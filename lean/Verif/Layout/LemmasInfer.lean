import Verif.Layout.ModelInfer
import Verif.Layout.LemmasSim

namespace Verif.Layout.Model
open Spec

theorem kput_same {α : Type} (f : Nat → α) (x : Nat) (v : α) : put f x v x = v := by simp [put]

theorem kput_other {α : Type} (f : Nat → α) (x y : Nat) (v : α) (h : y ≠ x) : put f x v y = f y := by
  simp [put, h]

theorem point_cases {g g' : Known} {y : Var} {t : Option Ty} (h : point g y t = some g') :
    ∃ t', t = some t' ∧ ((g y = none ∧ g' = put g y (some (t', true))) ∨
      (∃ p, g y = some p ∧ p.2 = true ∧ g' = g)) := by
  cases t with
  | none => simp [point] at h
  | some t =>
    refine ⟨t, rfl, ?_⟩
    simp only [point] at h
    cases hy : g y with
    | none => rw [hy] at h; simp only [Option.some.injEq] at h; exact Or.inl ⟨rfl, h.symm⟩
    | some p =>
      rw [hy] at h
      simp only at h
      split at h
      · rename_i hp
        simp only [Option.some.injEq] at h
        exact Or.inr ⟨p, rfl, hp, h.symm⟩
      · simp at h

/-- A statement keeps what is known, or adds a name with the type of its value. -/
theorem inferStep_cases {g g' : Known} {op : Op} (h : inferStep g op = some g') :
    (g' = g ∧ (∀ x, defines op = some x → ∃ t p, valueTy g op = some t ∧ g x = some p)) ∨
      ∃ x t b, defines op = some x ∧ valueTy g op = some t ∧ g x = none ∧
        g' = put g x (some (t, b)) := by
  have pt : ∀ y t, point g y t = some g' → defines op = some y → valueTy g op = t →
      (g' = g ∧ (∀ x, defines op = some x → ∃ t p, valueTy g op = some t ∧ g x = some p)) ∨
      ∃ x t b, defines op = some x ∧ valueTy g op = some t ∧ g x = none ∧
        g' = put g x (some (t, b)) := by
    intro y t hp hd hv
    obtain ⟨t', h1, h2 | ⟨p, h2, _, h3⟩⟩ := point_cases hp
    · exact Or.inr ⟨y, t', true, hd, by rw [hv, h1], h2.1, h2.2⟩
    · refine Or.inl ⟨h3, fun x hx => ?_⟩
      rw [hd] at hx
      have hx : y = x := by simpa using hx
      subst hx
      exact ⟨t', p, by rw [hv, h1], h2⟩
  cases op with
  | full x sh o v =>
    simp only [inferStep, valueTy] at h
    cases hx : g x with
    | none =>
      rw [hx] at h
      simp only [Option.some.injEq] at h
      exact Or.inr ⟨x, _, false, rfl, rfl, hx, h.symm⟩
    | some p => rw [hx] at h; simp at h
  | alias y x => exact pt y _ h rfl rfl
  | trans y x => exact pt y _ h rfl rfl
  | sub y x ss => exact pt y _ h rfl rfl
  | set x i v =>
    simp only [inferStep] at h
    cases hx : g x with
    | none => rw [hx] at h; simp at h
    | some p =>
      rw [hx] at h; simp only at h
      split at h
      · exact Or.inl ⟨by simpa using h.symm, by intro x hx; simp [defines] at hx⟩
      · simp at h
  | get x i =>
    simp only [inferStep] at h
    cases hx : g x with
    | none => rw [hx] at h; simp at h
    | some p =>
      rw [hx] at h; simp only at h
      split at h
      · exact Or.inl ⟨by simpa using h.symm, by intro x hx; simp [defines] at hx⟩
      · simp at h
  | shape x k =>
    simp only [inferStep] at h
    cases hx : g x with
    | none => rw [hx] at h; simp at h
    | some p =>
      rw [hx] at h; simp only at h
      split at h
      · exact Or.inl ⟨by simpa using h.symm, by intro x hx; simp [defines] at hx⟩
      · simp at h

theorem inferStep_mono {g g' : Known} {op : Op} (h : inferStep g op = some g') {x : Var}
    {p : Ty × Bool} (hx : g x = some p) : g' x = some p := by
  rcases inferStep_cases h with ⟨h1, _⟩ | ⟨y, t, b, _, _, hy, h1⟩
  · rw [h1]; exact hx
  · rw [h1]
    by_cases hxy : x = y
    · rw [hxy, hy] at hx; simp at hx
    · rw [kput_other _ _ _ _ hxy]; exact hx

theorem inferAll_mono : ∀ (ops : List Op) (g g' : Known), inferAll g ops = some g' →
    ∀ x p, g x = some p → g' x = some p
  | [], g, g', h, x, p, hx => by simp [inferAll] at h; rw [← h]; exact hx
  | op :: ops, g, g', h, x, p, hx => by
      simp only [inferAll] at h
      cases h1 : inferStep g op with
      | none => rw [h1] at h; simp at h
      | some g1 =>
        rw [h1] at h
        exact inferAll_mono ops g1 g' h x p (inferStep_mono h1 hx)

/-- All known types are proper. -/
def ProperK (g : Known) : Prop := ∀ x p, g x = some p → (p.1.order = none ↔ p.1.rank < 2)

theorem mkTy_proper (r : Nat) (o : Option Order) (h : r < 2 ∨ o ≠ none) :
    (mkTy r o).order = none ↔ (mkTy r o).rank < 2 := by
  unfold mkTy
  by_cases hr : r < 2
  · simp [hr]
  · simp only [hr, if_false]
    rcases h with h | h
    · exact absurd h hr
    · simp [h]

theorem subRank_le (r : Nat) (ss : List Sub) : subRank r ss ≤ r := by unfold subRank; omega

theorem valueTy_proper {g : Known} (hg : ProperK g) {op : Op} {t : Ty} (h : valueTy g op = some t) :
    t.order = none ↔ t.rank < 2 := by
  cases op with
  | full x sh o v =>
    simp only [valueTy, Option.some.injEq] at h
    rw [← h]; exact mkTy_proper _ _ (Or.inr (by simp))
  | alias y x =>
    simp only [valueTy] at h
    cases hx : g x with
    | none => rw [hx] at h; simp at h
    | some p =>
      rw [hx] at h; simp only [Option.map_some, Option.some.injEq] at h
      rw [← h]; exact hg x p hx
  | trans y x =>
    simp only [valueTy] at h
    cases hx : g x with
    | none => rw [hx] at h; simp at h
    | some p =>
      rw [hx] at h; simp only [Option.map_some, Option.some.injEq] at h
      rw [← h]
      split
      · exact hg x p hx
      · exact mkTy_proper _ _ (Or.inr (by unfold flip; split <;> simp))
  | sub y x ss =>
    simp only [valueTy] at h
    cases hx : g x with
    | none => rw [hx] at h; simp at h
    | some p =>
      rw [hx] at h; simp only at h
      split at h
      · simp only [Option.some.injEq] at h
        rw [← h]
        by_cases hr : subRank p.1.rank ss < 2
        · exact mkTy_proper _ _ (Or.inl hr)
        · refine mkTy_proper _ _ (Or.inr fun hn => ?_)
          have := (hg x p hx).mp hn
          have := subRank_le p.1.rank ss
          omega
      · simp at h
  | set x i v => simp [valueTy] at h
  | get x i => simp [valueTy] at h
  | shape x k => simp [valueTy] at h

theorem inferStep_proper {g g' : Known} {op : Op} (hg : ProperK g) (h : inferStep g op = some g') :
    ProperK g' := by
  rcases inferStep_cases h with ⟨h1, _⟩ | ⟨y, t, b, _, ht, hy, h1⟩
  · rw [h1]; exact hg
  · intro x p hx
    rw [h1] at hx
    by_cases hxy : x = y
    · rw [hxy, kput_same] at hx
      simp only [Option.some.injEq] at hx
      rw [← hx]; exact valueTy_proper hg ht
    · rw [kput_other _ _ _ _ hxy] at hx; exact hg x p hx

theorem inferAll_proper : ∀ (ops : List Op) (g g' : Known), ProperK g → inferAll g ops = some g' →
    ProperK g'
  | [], g, g', hg, h => by simp [inferAll] at h; rw [← h]; exact hg
  | op :: ops, g, g', hg, h => by
      simp only [inferAll] at h
      cases h1 : inferStep g op with
      | none => rw [h1] at h; simp at h
      | some g1 =>
        rw [h1] at h
        exact inferAll_proper ops g1 g' (inferStep_proper hg h1) h

theorem types_proper {g : Known} (hg : ProperK g) : Proper (types g) := by
  intro x
  unfold types
  cases hx : g x with
  | none => simp
  | some p => simpa using hg x p hx

theorem types_some {g : Known} {x : Var} {p : Ty × Bool} (h : g x = some p) : types g x = p.1 := by
  simp [types, h]

/-- An accepted statement is typed if its name has, in the end, the type of the value. -/
theorem typed_of {g gf : Known} {op : Op} {g' : Known} (h : inferStep g op = some g')
    (hf : ∀ x p, g x = some p → gf x = some p)
    (hy : ∀ x t, defines op = some x → valueTy g op = some t → types gf x = t) :
    typed (types gf) op = true := by
  cases op with
  | full x sh o v => simp [typed, hy x _ rfl rfl]
  | alias y x =>
    obtain ⟨t, ht⟩ : ∃ t, valueTy g (.alias y x) = some t := by
      rcases inferStep_cases h with ⟨_, h1⟩ | ⟨_, t, _, _, ht, _⟩
      · obtain ⟨t, _, h2, _⟩ := h1 y rfl; exact ⟨t, h2⟩
      · exact ⟨t, ht⟩
    have := hy y t rfl ht
    simp only [valueTy] at ht
    cases hx : g x with
    | none => rw [hx] at ht; simp at ht
    | some p =>
      rw [hx] at ht
      simp only [Option.map_some, Option.some.injEq] at ht
      simp [typed, this, types_some (hf x p hx), ht]
  | trans y x =>
    obtain ⟨t, ht⟩ : ∃ t, valueTy g (.trans y x) = some t := by
      rcases inferStep_cases h with ⟨_, h1⟩ | ⟨_, t, _, _, ht, _⟩
      · obtain ⟨t, _, h2, _⟩ := h1 y rfl; exact ⟨t, h2⟩
      · exact ⟨t, ht⟩
    have := hy y t rfl ht
    simp only [valueTy] at ht
    cases hx : g x with
    | none => rw [hx] at ht; simp at ht
    | some p =>
      rw [hx] at ht
      simp only [Option.map_some, Option.some.injEq] at ht
      simp [typed, this, types_some (hf x p hx), ← ht]
  | sub y x ss =>
    obtain ⟨t, ht⟩ : ∃ t, valueTy g (.sub y x ss) = some t := by
      rcases inferStep_cases h with ⟨_, h1⟩ | ⟨_, t, _, _, ht, _⟩
      · obtain ⟨t, _, h2, _⟩ := h1 y rfl; exact ⟨t, h2⟩
      · exact ⟨t, ht⟩
    have := hy y t rfl ht
    simp only [valueTy] at ht
    cases hx : g x with
    | none => rw [hx] at ht; simp at ht
    | some p =>
      rw [hx] at ht
      simp only at ht
      split at ht
      · rename_i hc
        simp only [Option.some.injEq] at ht
        simp [typed, this, types_some (hf x p hx), ← ht, hc.1, hc.2]
      · simp at ht
  | set x i v =>
    simp only [inferStep] at h
    cases hx : g x with
    | none => rw [hx] at h; simp at h
    | some p =>
      rw [hx] at h; simp only at h
      split at h
      · rename_i hl; simp [typed, types_some (hf x p hx), hl]
      · simp at h
  | get x i =>
    simp only [inferStep] at h
    cases hx : g x with
    | none => rw [hx] at h; simp at h
    | some p =>
      rw [hx] at h; simp only at h
      split at h
      · rename_i hl; simp [typed, types_some (hf x p hx), hl]
      · simp at h
  | shape x k =>
    simp only [inferStep] at h
    cases hx : g x with
    | none => rw [hx] at h; simp at h
    | some p =>
      rw [hx] at h; simp only at h
      split at h
      · rename_i hl; simp [typed, types_some (hf x p hx), hl]
      · simp at h

/-- Names that are given arrays later are not known yet, and no name twice. -/
theorem typed_once : ∀ (ops : List Op) (g gf : Known), inferAll g ops = some gf →
    (ops.filterMap defines).Nodup → (∀ x ∈ ops.filterMap defines, g x = none) →
    ∀ op ∈ ops, typed (types gf) op = true
  | [], _, _, _, _, _, op, hm => by simp at hm
  | op :: ops, g, gf, h, hnd, hnew, op', hm => by
      simp only [inferAll] at h
      cases h1 : inferStep g op with
      | none => rw [h1] at h; simp at h
      | some g1 =>
        rw [h1] at h
        have hmono := inferAll_mono ops g1 gf h
        rcases List.mem_cons.mp hm with h2 | h2
        · subst h2
          refine typed_of h1 (fun x p hx => hmono x p (inferStep_mono h1 hx)) ?_
          intro x t hd ht
          have hx : g x = none := hnew x (by simp [List.filterMap_cons, hd])
          rcases inferStep_cases h1 with ⟨_, h3⟩ | ⟨y, t', b, hd', ht', _, hp⟩
          · obtain ⟨_, p, _, h5⟩ := h3 x hd
            rw [hx] at h5; simp at h5
          · rw [hd] at hd'
            have hxy : x = y := by simpa using hd'
            subst hxy
            rw [ht] at ht'
            have htt : t = t' := by simpa using ht'
            subst htt
            have : g1 x = some (t, b) := by rw [hp, kput_same]
            exact types_some (hmono x _ this)
        · refine typed_once ops g1 gf h ?_ ?_ op' h2
          · cases hd : defines op with
            | none => simpa [List.filterMap_cons, hd] using hnd
            | some x =>
              rw [List.filterMap_cons, hd] at hnd
              exact (List.nodup_cons.mp hnd).2
          · intro x hx
            have hx0 : g x = none := by
              apply hnew
              cases hd : defines op with
              | none => simpa [List.filterMap_cons, hd] using hx
              | some y => simp only [List.filterMap_cons, hd]; exact List.mem_cons_of_mem _ hx
            rcases inferStep_cases h1 with ⟨h3, _⟩ | ⟨y, t', b, hd', ht', _, hp⟩
            · rw [h3]; exact hx0
            · rw [hp]
              by_cases hxy : x = y
              · exfalso
                rw [List.filterMap_cons, hd'] at hnd
                rw [hxy] at hx
                exact (List.nodup_cons.mp hnd).1 hx
              · rw [kput_other _ _ _ _ hxy]; exact hx0

/-- All known arrays have one dimension. -/
def Flat (g : Known) : Prop := ∀ x p, g x = some p → p.1 = ⟨1, none⟩

theorem valueTy_flat {g : Known} (hg : Flat g) {op : Op} {t : Ty}
    (hop : ∀ x sh o v, op = .full x sh o v → sh.length = 1) (h : valueTy g op = some t) :
    t = ⟨1, none⟩ := by
  cases op with
  | full x sh o v =>
    simp only [valueTy, Option.some.injEq] at h
    rw [← h, hop x sh o v rfl]; rfl
  | alias y x =>
    simp only [valueTy] at h
    cases hx : g x with
    | none => rw [hx] at h; simp at h
    | some p =>
      rw [hx] at h; simp only [Option.map_some, Option.some.injEq] at h
      rw [← h]; exact hg x p hx
  | trans y x =>
    simp only [valueTy] at h
    cases hx : g x with
    | none => rw [hx] at h; simp at h
    | some p =>
      rw [hx] at h; simp only [Option.map_some, Option.some.injEq] at h
      rw [← h, hg x p hx]; rfl
  | sub y x ss =>
    simp only [valueTy] at h
    cases hx : g x with
    | none => rw [hx] at h; simp at h
    | some p =>
      rw [hx] at h; simp only at h
      split at h
      · rename_i hc
        simp only [Option.some.injEq] at h
        rw [hg x p hx] at h hc
        have := subRank_le 1 ss
        have h1 : subRank 1 ss = 1 := by have := hc.2; simp only at this; omega
        rw [← h]
        simp only
        rw [h1]; rfl
      · simp at h
  | set x i v => simp [valueTy] at h
  | get x i => simp [valueTy] at h
  | shape x k => simp [valueTy] at h

theorem inferStep_flat {g g' : Known} {op : Op} (hg : Flat g)
    (hop : ∀ x sh o v, op = .full x sh o v → sh.length = 1) (h : inferStep g op = some g') :
    Flat g' := by
  rcases inferStep_cases h with ⟨h1, _⟩ | ⟨y, t, b, _, ht, hy, h1⟩
  · rw [h1]; exact hg
  · intro x p hx
    rw [h1] at hx
    by_cases hxy : x = y
    · rw [hxy, kput_same] at hx
      simp only [Option.some.injEq] at hx
      rw [← hx]; exact valueTy_flat hg hop ht
    · rw [kput_other _ _ _ _ hxy] at hx; exact hg x p hx

theorem typed_flat : ∀ (ops : List Op) (g gf : Known), inferAll g ops = some gf → Flat g →
    (∀ x sh o v, Op.full x sh o v ∈ ops → sh.length = 1) →
    Flat gf ∧ ∀ op ∈ ops, typed (types gf) op = true
  | [], g, gf, h, hg, _ => by
      simp only [inferAll, Option.some.injEq] at h
      rw [← h]; exact ⟨hg, by simp⟩
  | op :: ops, g, gf, h, hg, hop => by
      simp only [inferAll] at h
      cases h1 : inferStep g op with
      | none => rw [h1] at h; simp at h
      | some g1 =>
        rw [h1] at h
        have hop1 : ∀ x sh o v, op = .full x sh o v → sh.length = 1 := by
          intro x sh o v he
          exact hop x sh o v (by rw [he]; exact List.mem_cons_self ..)
        obtain ⟨hf, ht⟩ := typed_flat ops g1 gf h (inferStep_flat hg hop1 h1)
          (fun x sh o v hm => hop x sh o v (List.mem_cons_of_mem _ hm))
        refine ⟨hf, fun op' hm => ?_⟩
        rcases List.mem_cons.mp hm with h2 | h2
        · subst h2
          have hmono := inferAll_mono ops g1 gf h
          refine typed_of h1 (fun x p hx => hmono x p (inferStep_mono h1 hx)) ?_
          intro x t hd hv
          rw [valueTy_flat hg hop1 hv]
          have : ∃ p, g1 x = some p := by
            rcases inferStep_cases h1 with ⟨h3, h4⟩ | ⟨y, t', b, hd', _, _, hp⟩
            · obtain ⟨_, p, _, h5⟩ := h4 x hd
              exact ⟨p, by rw [h3]; exact h5⟩
            · rw [hd] at hd'
              have hxy : x = y := by simpa using hd'
              subst hxy
              exact ⟨(t', b), by rw [hp, kput_same]⟩
          obtain ⟨p, hp⟩ := this
          have hpf := hmono x p hp
          rw [types_some hpf, hf x p hpf]
        · exact ht op' h2

end Verif.Layout.Model
