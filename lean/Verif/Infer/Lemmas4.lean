import Verif.Infer.Lemmas3

namespace Verif.Infer
open Verif.Types (addT)
open Verif.Types.Spec (Num)

/-- All numbers written in the expression, and all casts, have types in `S`; there is no `a if c else b`. -/
def ExprIn (S : Num → Bool) : Expr → Prop
  | .lit t _ => S t = true
  | .var _ => True
  | .elem _ _ => False
  | .bin _ a b => ExprIn S a ∧ ExprIn S b
  | .cast t a => S t = true ∧ ExprIn S a
  | .cond _ _ _ => False

/-- A program on numbers whose types are in `S`. -/
def Numeric (S : Num → Bool) : Stmt → Prop
  | .skip => True
  | .assign _ (.one e) | .ret (.one e) => ExprIn S e
  | .assign _ _ | .ret _ | .setElem _ _ _ => False
  | .aug _ _ e => ExprIn S e
  | .seq a b => Numeric S a ∧ Numeric S b
  | .ite c a b => ExprIn S c ∧ Numeric S a ∧ Numeric S b
  | .loop c a => ExprIn S c ∧ Numeric S a

/-- Equal types in `S`. -/
def EqIn (S : Num → Bool) (a b : Num) : Prop := S a = true ∧ S b = true ∧ eqT a b = true

instance (S : Num → Bool) (a b : Num) : Decidable (EqIn S a b) := by unfold EqIn; infer_instance

/-- A set of types in which equality of types, in the sense of pyccel, is a congruence. -/
structure Closed (S : Num → Bool) : Prop where
  cong : Cong (EqIn S)
  dyn : ∀ {a b}, S a = true → S b = true → S (dynT a b) = true
  aug : ∀ {t u}, S t = true → S u = true → eqT t (dynT t (dynT t u)) = true → eqT (dynT t u) t = true

theorem eqT_refl (a : Num) : eqT a a = true := by simp [eqT]

/-- All variables are numbers of types in `S`. -/
def AllIn (S : Num → Bool) (Γ : Nat → Option STy) : Prop := ∀ x T, Γ x = some T → ∃ t, T = .num t ∧ S t = true

theorem typ_in {S : Num → Bool} (hS : Closed S) {Γ : Nat → Option STy} (hΓ : AllIn S Γ) {e : Expr} {t : Num} (he : ExprIn S e)
    (h : typ Γ e = some t) : S t = true := by
  induction e generalizing t with
  | lit u q => cases h; exact he
  | var x =>
    simp only [typ] at h
    split at h
    · next e1 =>
      cases h
      obtain ⟨u, h1, h2⟩ := hΓ _ _ e1
      cases h1
      exact h2
    · simp at h
  | elem => exact he.elim
  | bin o a b iha ihb =>
    simp only [typ] at h
    split at h
    · next e1 e2 =>
      rw [dynT_addT] at h
      cases h
      exact hS.dyn (iha he.1 e1) (ihb he.2 e2)
    · simp at h
  | cast u a iha =>
    simp only [typ, Option.map_eq_some_iff] at h
    obtain ⟨-, -, rfl⟩ := h
    exact he.1
  | cond => exact he.elim

theorem strictE_in {S : Num → Bool} {Γ : Nat → Option STy} {e : Expr} (he : ExprIn S e) : StrictE (EqIn S) Γ e := by
  induction e with
  | lit u q => exact ⟨he, he, eqT_refl u⟩
  | var x => trivial
  | elem => exact he.elim
  | bin o a b iha ihb => exact ⟨iha he.1, ihb he.2⟩
  | cast u a iha => exact ⟨⟨he.1, he.1, eqT_refl u⟩, iha he.2⟩
  | cond => exact he.elim

theorem assign_in {S : Num → Bool} (hS : Closed S) {Γ Γ' : Nat → Option STy} (hΓ : AllIn S Γ) {x : Nat} {e : Expr} (he : ExprIn S e)
    (h : assignT Γ x (.one e) = some Γ') : AllIn S Γ' ∧ ∀ T, Γ' x = some T → StrictA (EqIn S) Γ x (.one e) T := by
  unfold assignT at h
  split at h
  · next U hx hu =>
    cases h
    simp only [rhsT, Option.map_eq_some_iff] at hu
    obtain ⟨u, hu, rfl⟩ := hu
    have hin := typ_in hS hΓ he hu
    refine ⟨?_, ?_⟩
    · intro y T hy
      unfold upd at hy
      split at hy
      · cases hy; exact ⟨u, rfl, hin⟩
      · exact hΓ _ _ hy
    · intro T hT
      simp only [upd, if_true] at hT
      cases hT
      refine ⟨strictE_in he, fun v hv => ?_⟩
      rw [hu] at hv
      cases hv
      exact ⟨hin, hin, eqT_refl u⟩
  · next T U hx hu =>
    split at h
    · next hok =>
      cases h
      refine ⟨hΓ, fun T' hT => ?_⟩
      rw [hx] at hT
      cases hT
      obtain ⟨t, rfl, ht⟩ := hΓ _ _ hx
      simp only [rhsT, Option.map_eq_some_iff] at hu
      obtain ⟨u, hu, rfl⟩ := hu
      refine ⟨strictE_in he, fun v hv => ?_⟩
      rw [hu] at hv
      cases hv
      exact ⟨typ_in hS hΓ he hu, ht, hok⟩
    · simp at h
  · simp at h

/-- The check of pyccel is enough for programs on numbers of types in `S`. -/
theorem numeric_strict {S : Num → Bool} (hS : Closed S) {s : Stmt} {Γ Γ' : Nat → Option STy} (hΓ : AllIn S Γ) (hn : Numeric S s)
    (h : infer Γ s = some Γ') : AllIn S Γ' ∧ Strict (EqIn S) Γ s := by
  induction s generalizing Γ Γ' with
  | skip => cases h; exact ⟨hΓ, trivial⟩
  | assign x r =>
    cases r with
    | one e =>
      refine ⟨(assign_in hS hΓ hn h).1, ?_⟩
      intro Γ1 T h1 hT
      exact (assign_in hS hΓ hn h1).2 T hT
    | tup => exact hn.elim
    | list => exact hn.elim
    | copy => exact hn.elim
  | ret r =>
    cases r with
    | one e =>
      refine ⟨(assign_in hS hΓ hn h).1, ?_⟩
      intro Γ1 T h1 hT
      exact (assign_in hS hΓ hn h1).2 T hT
    | tup => exact hn.elim
    | list => exact hn.elim
    | copy => exact hn.elim
  | setElem => exact hn.elim
  | aug x o e =>
    simp only [infer] at h
    split at h
    · next t u e1 e2 =>
      split at h
      · next w e3 =>
        split at h
        · next hc =>
          cases h
          refine ⟨hΓ, strictE_in hn, ?_⟩
          intro t' u' v' h1 h2 h3
          rw [e1] at h1; rw [e2] at h2
          cases h1; cases h2
          rw [e3] at h3
          cases h3
          obtain ⟨t'', h4, ht⟩ := hΓ _ _ e1
          cases h4
          have hu := typ_in hS hΓ hn e2
          rw [dynT_addT] at e3
          cases e3
          refine ⟨hS.dyn ht hu, ht, ?_⟩
          simp only [Bool.or_eq_true, decide_eq_true_eq, dynT_addT, Option.any_some] at hc
          rcases hc with hc | hc
          · exact hc
          · exact hS.aug ht hu hc
        · simp at h
      · simp at h
    · simp at h
  | seq a b iha ihb =>
    simp only [infer, Option.bind_eq_some_iff] at h
    obtain ⟨Γ1, h1, h2⟩ := h
    have ka := iha hΓ hn.1 h1
    have kb := ihb ka.1 hn.2 h2
    refine ⟨kb.1, ka.2, fun Γ2 h3 => ?_⟩
    rw [h1] at h3
    cases h3
    exact kb.2
  | ite c a b iha ihb =>
    simp only [infer] at h
    split at h
    · simp only [Option.bind_eq_some_iff] at h
      obtain ⟨Γ1, h1, h2⟩ := h
      have ka := iha hΓ hn.2.1 h1
      have kb := ihb ka.1 hn.2.2 h2
      refine ⟨kb.1, strictE_in hn.1, ka.2, fun Γ2 h3 => ?_⟩
      rw [h1] at h3
      cases h3
      exact kb.2
    · simp at h
  | loop c a iha =>
    simp only [infer] at h
    split at h
    · have ka := iha hΓ hn.2 h
      exact ⟨ka.1, strictE_in hn.1, ka.2⟩
    · simp at h

/-- The NumPy types, without those of Python. -/
def sized (t : Num) : Bool := !t.python

theorem closed_wide : Closed wide where
  cong := cong_wide
  dyn := fun {a b} => by revert a b; decide +kernel
  aug := fun {a b} => by revert a b; decide +kernel

theorem eqIn_sized {a b : Num} : EqIn sized a b → a = b := by revert a b; decide +kernel

theorem closed_sized : Closed sized where
  cong := {
    trans := fun {a b c} h h' => by have := eqIn_sized h; subst this; exact h'
    size := fun h => by have := eqIn_sized h; subst this; exact ⟨rfl, rfl⟩
    op := fun {a a' b b'} h h' => by
      have e1 := eqIn_sized h
      have e2 := eqIn_sized h'
      subst e1; subst e2
      have : ∀ a b, sized a = true → sized b = true → EqIn sized (dynT a b) (dynT a b) := by decide +kernel
      exact this a b h.1 h'.1 }
  dyn := fun {a b} => by revert a b; decide +kernel
  aug := fun {a b} => by revert a b; decide +kernel

end Verif.Infer
