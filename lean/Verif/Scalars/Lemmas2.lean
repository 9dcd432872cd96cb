import Verif.Scalars.Lemmas

/-
The C code computes the value of the expression.
-/
namespace Verif.Scalars
open Verif.Types (addT andT)
open Verif.Types.Spec (Num)
open Verif.IntMath
open Verif.IntMath.Spec (InRange IsDivMod)

/-- pyccel gives the expression the type that it has in Python and NumPy, an integer type or `bool`. -/
def SameTy (Γ : Nat → Num) (e : Expr) : Prop := ∃ t, Num.integral t = true ∧ tyOf Γ e = some t ∧ npTy Γ e = some t

/-- `SameTy` for the expression and all its parts. -/
def Agree (Γ : Nat → Num) : Expr → Prop
  | .lit n => SameTy Γ (.lit n)
  | .bool b => SameTy Γ (.bool b)
  | .var x => SameTy Γ (.var x)
  | .bin o a b => SameTy Γ (.bin o a b) ∧ Agree Γ a ∧ Agree Γ b
  | .neg a => SameTy Γ (.neg a) ∧ Agree Γ a
  | .inv a => SameTy Γ (.inv a) ∧ Agree Γ a
  | .abs a => SameTy Γ (.abs a) ∧ Agree Γ a
  | .cmp o a b => SameTy Γ (.cmp o a b) ∧ Agree Γ a ∧ Agree Γ b
  | .land a b => SameTy Γ (.land a b) ∧ Agree Γ a ∧ Agree Γ b
  | .lor a b => SameTy Γ (.lor a b) ∧ Agree Γ a ∧ Agree Γ b
  | .lnot a => SameTy Γ (.lnot a) ∧ Agree Γ a
  | .cast t a => SameTy Γ (.cast t a) ∧ Agree Γ a

/-- No sum, difference or product of two truth values. -/
def NoBoolArith (Γ : Nat → Num) : Expr → Prop
  | .lit _ | .bool _ | .var _ => True
  | .bin o a b => NoBoolArith Γ a ∧ NoBoolArith Γ b ∧
    (o = .add ∨ o = .sub ∨ o = .mul → ¬ (npTy Γ a = some .pbool ∧ npTy Γ b = some .pbool))
  | .cmp _ a b | .land a b | .lor a b => NoBoolArith Γ a ∧ NoBoolArith Γ b
  | .neg a | .inv a | .abs a | .lnot a | .cast _ a => NoBoolArith Γ a

theorem Agree.same {Γ : Nat → Num} {e : Expr} (h : Agree Γ e) : SameTy Γ e := by
  cases e <;> first | exact h | exact h.1

theorem np_ty {Γ : Nat → Num} {env : Nat → Int} {e : Expr} : ∀ {t : Num} {x : Int} {t' : Num}, np Γ env e = some (t, x) → npTy Γ e = some t' → t = t' := by
  induction e with
  | lit n => intro t x t' h h'; simp only [np, npTy, Option.some.injEq, Prod.mk.injEq] at h h'; rw [← h.1, h']
  | bool b => intro t x t' h h'; simp only [np, npTy, Option.some.injEq, Prod.mk.injEq] at h h'; rw [← h.1, h']
  | var y => intro t x t' h h'; simp only [np, npTy, Option.some.injEq, Prod.mk.injEq] at h h'; rw [← h.1, h']
  | bin o a b iha ihb =>
    intro t x t' h h'
    simp only [np] at h
    simp only [npTy] at h'
    split at h
    · next ta xa tb xb ha hb =>
      split at h'
      · next ta' tb' ha' hb' =>
        have ea := iha ha ha'
        have eb := ihb hb hb'
        subst ea eb
        split at h
        · cases hi : intOp o xa xb with
          | none => rw [hi] at h; cases h
          | some r => rw [hi] at h; simp only [Option.map_some, Option.some.injEq, Prod.mk.injEq] at h h'; rw [← h.1, h']
        · cases h
      · cases h'
    · cases h
  | neg a ih =>
    intro t x t' h h'
    simp only [np] at h
    simp only [npTy] at h'
    obtain ⟨p, hp, e⟩ := Option.map_eq_some_iff.1 h
    obtain ⟨u, hu, e'⟩ := Option.map_eq_some_iff.1 h'
    have := ih hp hu
    simp only [Prod.mk.injEq] at e
    rw [← e.1, ← e', this]
  | inv a ih =>
    intro t x t' h h'
    simp only [np] at h
    simp only [npTy] at h'
    obtain ⟨p, hp, e⟩ := Option.map_eq_some_iff.1 h
    obtain ⟨u, hu, e'⟩ := Option.map_eq_some_iff.1 h'
    have := ih hp hu
    simp only [Prod.mk.injEq] at e
    rw [← e.1, ← e', this]
  | abs a ih =>
    intro t x t' h h'
    simp only [np] at h
    simp only [npTy] at h'
    obtain ⟨p, hp, e⟩ := Option.map_eq_some_iff.1 h
    obtain ⟨u, hu, e'⟩ := Option.map_eq_some_iff.1 h'
    have := ih hp hu
    simp only [Prod.mk.injEq] at e
    rw [← e.1, ← e', this]
  | cmp o a b _ _ =>
    intro t x t' h h'
    simp only [np] at h
    simp only [npTy] at h'
    split at h
    · split at h'
      · simp only [Option.some.injEq, Prod.mk.injEq] at h h'; rw [← h.1, h']
      · cases h'
    · cases h
  | land a b _ _ =>
    intro t x t' h h'
    simp only [np] at h
    simp only [npTy] at h'
    split at h'
    · split at h
      · split at h
        · simp only [Option.some.injEq, Prod.mk.injEq] at h h'; rw [← h.1, h']
        · split at h
          · simp only [Option.some.injEq, Prod.mk.injEq] at h h'; rw [← h.1, h']
          · cases h
      · cases h
    · cases h'
  | lor a b _ _ =>
    intro t x t' h h'
    simp only [np] at h
    simp only [npTy] at h'
    split at h'
    · split at h
      · split at h
        · split at h
          · simp only [Option.some.injEq, Prod.mk.injEq] at h h'; rw [← h.1, h']
          · cases h
        · simp only [Option.some.injEq, Prod.mk.injEq] at h h'; rw [← h.1, h']
      · cases h
    · cases h'
  | lnot a _ =>
    intro t x t' h h'
    simp only [np] at h
    simp only [npTy] at h'
    split at h'
    · split at h
      · simp only [Option.some.injEq, Prod.mk.injEq] at h h'; rw [← h.1, h']
      · cases h
    · cases h'
  | cast s a _ =>
    intro t x t' h h'
    simp only [np] at h
    simp only [npTy] at h'
    obtain ⟨u, hu, e'⟩ := Option.map_eq_some_iff.1 h'
    split at h
    · split at h
      · next hs => simp only [Option.some.injEq, Prod.mk.injEq] at h; rw [← h.1, ← e', hs]
      · split at h
        · cases h
        · simp only [Option.some.injEq, Prod.mk.injEq] at h; rw [← h.1, ← e']
    · cases h

/-! ### Types -/

theorem width_cases {t : Num} (h : Num.integral t = true) (hb : t ≠ .pbool) : 8 ≤ t.width ∧ t.width ≤ 64 ∧ (t.width ≠ 64 → t.width ≤ 32) := by
  revert t; decide

theorem resT_width {o : Bin} {t u : Num} (ht : Num.integral t = true) (hu : Num.integral u = true)
    (h : ¬ (t = .pbool ∧ u = .pbool)) : (resT o t u).width ≤ max t.width u.width ∧ resT o t u ≠ .pbool ∧ Num.integral (resT o t u) = true := by
  revert t u; cases o <;> decide

theorem resT_bool {o : Bin} {t u : Num} (ht : Num.integral t = true) (hu : Num.integral u = true) (h : resT o t u = .pbool) :
    t = .pbool ∧ u = .pbool ∧ (o = .band ∨ o = .bor ∨ o = .bxor) := by
  revert t u; cases o <;> decide

theorem fits_of {t : Num} (h : Num.integral t = true) (hb : t ≠ .pbool) {x : Int} : Fits t x ↔ InRange t.width x := by
  cases t <;> first | exact absurd rfl hb | rfl

theorem inT_of {t : Num} (hb : t ≠ .pbool) (hp : t ≠ .pint) {x : Int} : InT t x ↔ InRange t.width x := by
  cases t <;> first | exact absurd rfl hb | exact absurd rfl hp | rfl

theorem fits_64 {t : Num} (h : Num.integral t = true) {x : Int} (hx : Fits t x) : InRange 64 x := by
  by_cases hb : t = .pbool
  · subst hb
    rcases hx with rfl | rfl <;> decide
  · exact inRange_mono (width_cases h hb).2.1 ((fits_of h hb).1 hx)

theorem fits_inT {t u : Num} (hu : Num.integral u = true) (hb : u ≠ .pbool) {x : Int} (ht : Num.integral t = true) (hx : Fits t x)
    (h : InT u x) : Fits u x := by
  by_cases hp : u = .pint
  · subst hp
    exact fits_64 ht hx
  · exact (fits_of hu hb).2 ((inT_of hb hp).1 h)

theorem reduce_fits {t : Num} (h : Num.integral t = true) {x : Int} (hx : Fits t x) : reduce t x = x := by
  by_cases hb : t = .pbool
  · subst hb; rfl
  · by_cases hp : t = .pint
    · subst hp; rfl
    · have h1 := (fits_of h hb).1 hx
      have h2 : reduce t x = wrap t.width x := by
        cases t <;> first | exact absurd rfl hb | exact absurd rfl hp | rfl
      rw [h2]
      exact wrap_of_inRange (by have := width_cases h hb; omega) h1

theorem ofBool_cases (b : Bool) : ofBool b = 0 ∨ ofBool b = 1 := by cases b <;> simp [ofBool]

theorem inRange_bool {w : Nat} (hw : 8 ≤ w) {x : Int} (h : x = 0 ∨ x = 1) : InRange w x :=
  inRange_mono hw (by rcases h with rfl | rfl <;> decide)

/-- The result of a C expression: the value, in a type large enough. -/
def COk (t : Num) (r : Option (Nat × Int)) (x : Int) : Prop :=
  ∃ w, r = some (w, x) ∧ 8 ≤ w ∧ w ≤ 64 ∧ InRange w x ∧ (t ≠ .pbool → t.width ≤ w)

theorem arithWidth_le {w : Nat} (h : w ≤ 64) : arithWidth w ≤ 64 := by unfold arithWidth; omega
theorem le_arithWidth (w : Nat) : w ≤ arithWidth w := by unfold arithWidth; omega

theorem castC_ok {Γ : Nat → Num} {env : Nat → Int} {t u : Num} {a : Expr} {c : C} {x : Int} (ht : Num.integral t = true) (hb : t ≠ .pbool)
    (hc : toC Γ a = some c) (h : COk u (evalC Γ env c) x) (hx : Fits t x) : COk t (evalC Γ env (castC t a c)) x := by
  have hr := (fits_of ht hb).1 hx
  have hw := width_cases ht hb
  obtain ⟨w, h1, h2, h3, h4, _⟩ := h
  have gen : COk t (evalC Γ env (.cast (cWidth t) c)) x := by
    refine ⟨t.width, ?_, hw.1, hw.2.1, hr, fun _ => le_refl _⟩
    simp only [evalC, h1, cWidth, if_neg hb]
    rw [wrap_of_inRange (by omega) hr]
  unfold castC
  rw [if_neg hb]
  split
  · next n =>
    simp only [toC, Option.some.injEq] at hc
    subst hc
    simp only [evalC, Option.some.injEq, Prod.mk.injEq] at h1
    obtain ⟨_, rfl⟩ := h1
    split
    · exact ⟨64, rfl, by decide, by decide, inRange_mono hw.2.1 hr, fun _ => hw.2.1⟩
    · next hn =>
      have h32 : InRange 32 (n : Int) := inRange_mono (hw.2.2 hn) hr
      unfold plainLit
      rw [if_pos h32]
      exact ⟨32, rfl, by decide, by decide, h32, fun _ => hw.2.2 hn⟩
  · exact gen

theorem coerceC_ok {Γ : Nat → Num} {env : Nat → Int} {t u : Num} {a : Expr} {c : C} {x : Int} (ht : Num.integral t = true) (hb : t ≠ .pbool)
    (hc : toC Γ a = some c) (h : COk u (evalC Γ env c) x) (hx : Fits t x) : COk t (evalC Γ env (coerceC t u a c)) x := by
  unfold coerceC
  split
  · next e => subst e; exact h
  · exact castC_ok ht hb hc h hx

theorem arith_ok {t u v : Num} {p q : Option (Nat × Int)} {x y z : Int} {f : Nat → Int → Int → Int} (hp : COk t p x) (hq : COk u q y)
    (hv : Num.integral v = true) (hb : v ≠ .pbool)
    (hw : v.width ≤ max t.width u.width) (hp' : t = .pbool → t.width = 0) (hq' : u = .pbool → u.width = 0)
    (hf : ∀ w, 32 ≤ w → InRange w x → InRange w y → f w x y = z) (hz : Fits v z) : COk v (evalC.arith p q f) z := by
  obtain ⟨w, rfl, h2, h3, h4, h5⟩ := hp
  obtain ⟨w', rfl, h2', h3', h4', h5'⟩ := hq
  have ha := le_arithWidth w
  have hb' := le_arithWidth w'
  have hM : v.width ≤ max (arithWidth w) (arithWidth w') := by
    have e1 : t.width ≤ w := by by_cases h : t = .pbool; (rw [hp' h]; omega); exact h5 h
    have e2 : u.width ≤ w' := by by_cases h : u = .pbool; (rw [hq' h]; omega); exact h5' h
    omega
  have hz' : InRange (max (arithWidth w) (arithWidth w')) z := inRange_mono hM ((fits_of hv hb).1 hz)
  refine ⟨max (arithWidth w) (arithWidth w'), ?_, by omega, ?_, hz', fun _ => hM⟩
  · unfold evalC.arith
    simp only
    rw [hf _ (by unfold arithWidth; omega) (inRange_mono (by omega) h4) (inRange_mono (by omega) h4'), chk_some hz']
    rfl
  · have := arithWidth_le h3
    have := arithWidth_le h3'
    omega

theorem shift_ok {t u : Num} {p q : Option (Nat × Int)} {x y z : Int} {f : Int → Nat → Int} (hp : COk t p x) (hq : COk u q y)
    (ht : Num.integral t = true) (hb : t ≠ .pbool) (h0 : 0 ≤ y) (hy : y < t.width) (hf : f x y.toNat = z) (hz : Fits t z) :
    COk t (evalC.shift p q f) z := by
  obtain ⟨w, rfl, h2, h3, h4, h5⟩ := hp
  obtain ⟨w', rfl, -⟩ := hq
  have h5 := h5 hb
  have ha := le_arithWidth w
  have hz' : InRange (arithWidth w) z := inRange_mono (by omega) ((fits_of ht hb).1 hz)
  refine ⟨arithWidth w, ?_, by omega, arithWidth_le h3, hz', fun _ => by omega⟩
  unfold evalC.shift
  simp only
  rw [if_pos ⟨h0, by omega⟩, hf, chk_some hz']
  rfl

theorem bool_intOp {o : Bin} {x y r : Int} (hx : x = 0 ∨ x = 1) (hy : y = 0 ∨ y = 1) (ho : o = .band ∨ o = .bor ∨ o = .bxor)
    (h : intOp o x y = some r) : r = 0 ∨ r = 1 := by
  rcases hx with rfl | rfl <;> rcases hy with rfl | rfl <;> rcases ho with rfl | rfl | rfl <;>
    (simp only [intOp, Option.some.injEq] at h; subst h; decide)

/-- One binary operation in C. -/
theorem bin_ok {Γ : Nat → Num} {env : Nat → Int} {o : Bin} {a b : Expr} {ca cb : C} {ta tb : Num} {x y r : Int}
    (hta : Num.integral ta = true) (htb : Num.integral tb = true) (hca : toC Γ a = some ca) (hcb : toC Γ b = some cb)
    (ha : COk ta (evalC Γ env ca) x) (hb : COk tb (evalC Γ env cb) y) (fa : Fits ta x) (fb : Fits tb y)
    (sta : tyOf Γ a = some ta) (stb : tyOf Γ b = some tb) (hT : binT o ta tb = some (resT o ta tb))
    (hin : InT (resT o ta tb) x ∧ InT (resT o ta tb) y ∨ resT o ta tb = .pbool) (hr : intOp o x y = some r)
    (hfit : Fits (resT o ta tb) r) (hsh : o = .shl ∨ o = .shr → y < (resT o ta tb).width) (hmod : o = .mod → InRange 64 (x.fdiv y))
    (hnb : o = .add ∨ o = .sub ∨ o = .mul → ¬ (ta = .pbool ∧ tb = .pbool)) :
    ∃ c, toC Γ (.bin o a b) = some c ∧ COk (resT o ta tb) (evalC Γ env c) r := by
  have hw0 : ∀ {s : Num}, s = .pbool → s.width = 0 := by rintro _ rfl; rfl
  by_cases hbool : resT o ta tb = .pbool
  · obtain ⟨e1, e2, ho⟩ := resT_bool hta htb hbool
    subst e1 e2
    obtain ⟨w, h1, -, -, -, -⟩ := ha
    obtain ⟨w', h1', -, -, -, -⟩ := hb
    have hrb := bool_intOp fa fb ho hr
    rcases ho with rfl | rfl | rfl
    · refine ⟨.land ca cb, by simp only [toC, hca, hcb, sta, stb, hT, hbool, if_true, coerceC], 32, ?_, by decide, by decide, inRange_bool (by decide) hrb, fun h => absurd hbool h⟩
      simp only [evalC, h1, h1']
      simp only [intOp, Option.some.injEq] at hr
      subst hr
      rcases fa with rfl | rfl <;> rcases fb with rfl | rfl <;> rfl
    · refine ⟨.lor ca cb, by simp only [toC, hca, hcb, sta, stb, hT, hbool, if_true, coerceC], 32, ?_, by decide, by decide, inRange_bool (by decide) hrb, fun h => absurd hbool h⟩
      simp only [evalC, h1, h1']
      simp only [intOp, Option.some.injEq] at hr
      subst hr
      rcases fa with rfl | rfl <;> rcases fb with rfl | rfl <;> rfl
    · refine ⟨.cmp .ne ca cb, by simp only [toC, hca, hcb, sta, stb, hT, hbool, if_true, coerceC], 32, ?_, by decide, by decide, inRange_bool (by decide) hrb, fun h => absurd hbool h⟩
      simp only [evalC, h1, h1']
      simp only [intOp, Option.some.injEq] at hr
      subst hr
      rcases fa with rfl | rfl <;> rcases fb with rfl | rfl <;> rfl
  · have hin := hin.resolve_right hbool
    have hint : Num.integral (resT o ta tb) = true := by
      revert hta htb; clear * -; revert ta tb; cases o <;> decide
    have fx : Fits (resT o ta tb) x := fits_inT hint hbool hta fa hin.1
    have fy : Fits (resT o ta tb) y := fits_inT hint hbool htb fb hin.2
    have hw := width_cases hint hbool
    have hcoa := coerceC_ok hint hbool hca ha fx
    have hcob := coerceC_ok hint hbool hcb hb fy
    generalize ht : resT o ta tb = t at *
    have ring_ok : ∀ (f : Nat → Int → Int → Int), (∀ w, f w x y = r) → ¬ (ta = .pbool ∧ tb = .pbool) →
        COk t (evalC.arith (evalC Γ env ca) (evalC Γ env cb) f) r := by
      intro f hf hn
      have := resT_width (o := o) hta htb hn
      rw [ht] at this
      exact arith_ok ha hb hint hbool this.1 hw0 hw0 (fun w _ _ _ => hf w) hfit
    have bit_ok : ∀ (f : Nat → Int → Int → Int), (∀ w, 32 ≤ w → InRange w x → InRange w y → f w x y = r) →
        COk t (evalC.arith (evalC Γ env (coerceC t ta a ca)) (evalC Γ env (coerceC t tb b cb)) f) r := by
      intro f hf
      exact arith_ok hcoa hcob hint hbool (by omega) hw0 hw0 hf hfit
    cases o with
    | add =>
      refine ⟨.add ca cb, by simp only [toC, hca, hcb, sta, stb, hT], ?_⟩
      simp only [intOp, Option.some.injEq] at hr
      exact ring_ok _ (fun _ => hr) (hnb (by simp))
    | sub =>
      refine ⟨.sub ca cb, by simp only [toC, hca, hcb, sta, stb, hT], ?_⟩
      simp only [intOp, Option.some.injEq] at hr
      exact ring_ok _ (fun _ => hr) (hnb (by simp))
    | mul =>
      refine ⟨.mul ca cb, by simp only [toC, hca, hcb, sta, stb, hT], ?_⟩
      simp only [intOp, Option.some.injEq] at hr
      exact ring_ok _ (fun _ => hr) (hnb (by simp))
    | fdiv =>
      refine ⟨.floorDiv t.width ca cb, by simp only [toC, hca, hcb, sta, stb, hT], ?_⟩
      obtain ⟨w, h1, -⟩ := ha
      obtain ⟨w', h1', -⟩ := hb
      simp only [intOp] at hr
      split at hr
      · cases hr
      · next hy0 =>
        simp only [Option.some.injEq] at hr
        have rx := (fits_of hint hbool).1 fx
        have ry := (fits_of hint hbool).1 fy
        have rr := (fits_of hint hbool).1 hfit
        have hd := fdiv_isDivMod (x := x) hy0
        have hov : ¬ (x = -(2 : Int) ^ (t.width - 1) ∧ y = -1) := by
          rintro ⟨rfl, rfl⟩
          exact C01_overflow_pair _ _ _ hd (hr ▸ rr)
        obtain ⟨q, s, e1, e2⟩ := C01_floor_div_c t.width (by omega) x y rx ry hy0 hov
        obtain ⟨e3, -⟩ := isDivMod_unique hd e2
        refine ⟨t.width, ?_, hw.1, hw.2.1, rr, fun _ => le_refl _⟩
        simp only [evalC, h1, h1']
        rw [wrap_of_inRange (by omega) rx, wrap_of_inRange (by omega) ry, e1, ← e3, hr]
        rfl
    | mod =>
      refine ⟨.modulo ca cb, by simp only [toC, hca, hcb, sta, stb, hT], ?_⟩
      obtain ⟨w, h1, -⟩ := ha
      obtain ⟨w', h1', -⟩ := hb
      simp only [intOp] at hr
      split at hr
      · cases hr
      · next hy0 =>
        simp only [Option.some.injEq] at hr
        have rx := fits_64 hta fa
        have ry := fits_64 htb fb
        have hd := fdiv_isDivMod (x := x) hy0
        have hov : ¬ (x = -(2 : Int) ^ 63 ∧ y = -1) := by
          rintro ⟨rfl, rfl⟩
          exact C01_overflow_pair 64 _ _ hd (hmod rfl)
        obtain ⟨q, s, e1, e2⟩ := C02_modulo_c x y rx ry hy0 hov
        obtain ⟨-, e3⟩ := isDivMod_unique hd e2
        refine ⟨64, ?_, by decide, by decide, fits_64 hint hfit, fun _ => hw.2.1⟩
        simp only [evalC, h1, h1']
        rw [wrap_of_inRange (by omega) rx, wrap_of_inRange (by omega) ry, e1, ← e3, hr]
        rfl
    | shl =>
      refine ⟨.shl (coerceC t ta a ca) (coerceC t tb b cb), by simp only [toC, hca, hcb, sta, stb, hT], ?_⟩
      simp only [intOp] at hr
      split at hr
      · cases hr
      · next hy0 =>
        simp only [Option.some.injEq] at hr
        exact shift_ok hcoa hcob hint hbool (by omega) (hsh (by simp)) hr hfit
    | shr =>
      refine ⟨.shr (coerceC t ta a ca) (coerceC t tb b cb), by simp only [toC, hca, hcb, sta, stb, hT], ?_⟩
      simp only [intOp] at hr
      split at hr
      · cases hr
      · next hy0 =>
        simp only [Option.some.injEq] at hr
        exact shift_ok hcoa hcob hint hbool (by omega) (hsh (by simp)) ((shiftRight_fdiv x _).trans hr) hfit
    | band =>
      refine ⟨.and (coerceC t ta a ca) (coerceC t tb b cb), by simp only [toC, hca, hcb, sta, stb, hT, if_neg hbool], ?_⟩
      simp only [intOp, Option.some.injEq] at hr
      exact bit_ok _ (fun w hw' h1 h2 => ((bits_and (by omega) h1 h2).1).trans hr)
    | bor =>
      refine ⟨.or (coerceC t ta a ca) (coerceC t tb b cb), by simp only [toC, hca, hcb, sta, stb, hT, if_neg hbool], ?_⟩
      simp only [intOp, Option.some.injEq] at hr
      exact bit_ok _ (fun w hw' h1 h2 => ((bits_or (by omega) h1 h2).1).trans hr)
    | bxor =>
      refine ⟨.xor (coerceC t ta a ca) (coerceC t tb b cb), by simp only [toC, hca, hcb, sta, stb, hT, if_neg hbool], ?_⟩
      simp only [intOp, Option.some.injEq] at hr
      exact bit_ok _ (fun w hw' h1 h2 => ((bits_xor (by omega) h1 h2).1).trans hr)

end Verif.Scalars
