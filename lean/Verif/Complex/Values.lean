import Verif.Complex.Lemmas

/-! # complex(a, b): values of the generated code -/

namespace Verif.Complex
open Spec Verif.Floats

/-! ## What the numbers are, by cases -/

theorem at_dbl (v : Val) : v.at_ .dbl = v.re := by cases v <;> rfl

/-- `x * (0 + 1i)` for a number with the precision of the operation. -/
theorem mulIV_real {u : Val} {q : Prec} (hu : u.isC = false) (hw : u.WF) (hf : u.Finite) :
    ∃ s, mulIV q u = some (.cplx (prec u (.cplx q pz one)) (.zero s) (u.at_ (prec u (.cplx q pz one)))) := by
  cases u with
  | int n =>
    obtain ⟨s, hs⟩ := mul_zero q (finite_ofQ (rnd q n))
    refine ⟨s, ?_⟩
    simp only [mulIV, prec, Val.at_, hs, mul_one q (isFloat_ofQ q n)]
  | flt p x =>
    obtain ⟨s, hs⟩ := mul_zero (if p = .dbl then .dbl else q) hf
    refine ⟨s, ?_⟩
    simp only [mulIV, prec, Val.at_, hs]
    rw [mul_one]
    exact IsFloat.mono _ hw (fun h => by simp [h])
  | cplx => simp [Val.isC] at hu

/-- `z * (0 + 1i)` for a complex number with the precision of the operation. -/
theorem mulIV_cplx {p q : Prec} {x y : Fl} (hx : x.IsFloat p) (hy : y.IsFloat p) (fx : x.finite = true) (fy : y.finite = true) :
    ∃ r i, mulIV q (.cplx p x y) = some (.cplx (if p = .dbl then .dbl else q) r i) ∧ r.Same y.neg ∧ i.Same x := by
  have hm : p = .dbl → (if p = .dbl then Prec.dbl else q) = .dbl := fun h => by simp [h]
  obtain ⟨s, hs⟩ := mul_zero (if p = .dbl then .dbl else q) fx
  obtain ⟨t, ht⟩ := mul_zero (if p = .dbl then .dbl else q) fy
  simp only [mulIV, prec, hs, ht, mul_one _ (IsFloat.mono _ hx hm), mul_one _ (IsFloat.mono _ hy hm)]
  have h1 := zero_add_same (if p = .dbl then .dbl else q) y.neg s
  have h2 := add_zero_same (if p = .dbl then .dbl else q) x t
  refine ⟨_, _, ?_, h1, h2⟩
  rw [if_neg]
  · rfl
  · rintro ⟨hr, _⟩
    have := finite_add (if p = .dbl then .dbl else q) (.zero s) y.neg rfl (by rw [finite_neg]; exact fy)
    simp only [Fl.sub] at hr
    rw [hr] at this; simp [Fl.finite] at this

/-- The result has these parts. -/
def Has (r : Option (Fl × Fl)) (w : Fl × Fl) : Prop := ∃ z, r = some z ∧ SameC z w

theorem has_iff {z w : Fl × Fl} : Has (some z) w ↔ SameC z w :=
  ⟨fun ⟨_, h, h'⟩ => by cases h; exact h', fun h => ⟨_, rfl, h⟩⟩

theorem has_none {w : Fl × Fl} : ¬ Has none w := fun ⟨_, h, _⟩ => by simp at h

theorem has_congr {r : Option (Fl × Fl)} {w w' : Fl × Fl} (h : SameC w w') : Has r w ↔ Has r w' := by
  cases r with
  | none => exact ⟨fun h => absurd h has_none, fun h => absurd h has_none⟩
  | some z =>
    rw [has_iff, has_iff]
    exact ⟨fun h' => ⟨same_trans h'.1 h.1, same_trans h'.2 h.2⟩,
      fun h' => ⟨same_trans h'.1 (same_symm h.1), same_trans h'.2 (same_symm h.2)⟩⟩

/-! ## Literals -/

theorem isZero_lit {v : Val} (h : v.Lit) (hz : isZero v = true) : v.re = .zero false ∧ v.im = .zero false := by
  cases v with
  | int n => simp [isZero] at hz; subst hz; exact ⟨by simp [Val.re, fl_zero, Fl.ofQ], rfl⟩
  | flt p x =>
    cases x <;> simp [isZero] at hz
    obtain ⟨_, h, _⟩ := h
    simp [Fl.nonneg] at h
    subst h; exact ⟨rfl, rfl⟩
  | cplx p x y =>
    cases x <;> cases y <;> simp [isZero] at hz
    obtain ⟨_, h1, h2, _⟩ := h
    simp [Fl.nonneg] at h2
    simp at h1
    subst h1; subst h2; exact ⟨rfl, rfl⟩

theorem finite_re {v : Val} (h : v.Finite) : v.re.finite = true := by
  cases v
  · exact finite_ofQ _
  · exact h
  · exact h.1

theorem finite_im {v : Val} (h : v.Finite) : v.im.finite = true := by
  cases v
  · rfl
  · rfl
  · exact h.2

theorem isFloat_re {v : Val} (h : v.WF) : v.re.IsFloat .dbl := by
  cases v with
  | int n => exact isFloat_ofQ .dbl n
  | flt p x => exact IsFloat.mono _ h (fun _ => rfl)
  | cplx p x y => exact IsFloat.mono _ h.1 (fun _ => rfl)

theorem isFloat_im {v : Val} (h : v.WF) : v.im.IsFloat .dbl := by
  cases v with
  | int n => trivial
  | flt p x => trivial
  | cplx p x y => exact IsFloat.mono _ h.2 (fun _ => rfl)

theorem fold_eq (a b : Val) : fold a b = pyComplex a (some b) := by
  unfold fold pyComplex
  rw [add_comm .dbl a.im b.re]

/-- A complex literal in C. -/
theorem litc_c {v0 v1 : Val} {re im : Fl} (h : im.IsFloat .dbl) (f : im.finite = true) :
    Has (parts (evalC v0 v1 (.litc re im))) (re, im) := by
  obtain ⟨s, hs⟩ := mul_zero .dbl f
  have hm : mulIV .sgl (.flt .dbl im) = some (.cplx .dbl (.zero s) im) := by
    simp only [mulIV, prec, Val.at_, if_true, hs, mul_one .dbl h]
  simp only [evalC]
  split
  · rename_i hz
    rw [hm]
    refine ⟨_, rfl, ?_, same_refl _⟩
    cases re <;> simp [isZero] at hz
    exact same_zero _ _
  · rw [hm]
    simp only [addV, prec, Val.at_, if_true]
    exact ⟨_, rfl, add_zero_same _ _ _, same_refl _⟩

end Verif.Complex
