import Verif.Scalars.Lemmas2

namespace Verif.Scalars
open Verif.Types.Spec (Num)
open Verif.IntMath
open Verif.IntMath.Spec (InRange IsDivMod)

theorem intOp_np {Γ : Nat → Num} {env : Nat → Int} {o : Bin} {a b : Expr} {t : Num} {x : Int} (h : np Γ env (.bin o a b) = some (t, x)) :
    ∃ ta xa tb xb r, np Γ env a = some (ta, xa) ∧ np Γ env b = some (tb, xb) ∧
      (InT (resT o ta tb) xa ∧ InT (resT o ta tb) xb ∨ resT o ta tb = .pbool) ∧ intOp o xa xb = some r ∧
      t = resT o ta tb ∧ x = reduce (resT o ta tb) r := by
  simp only [np] at h
  split at h
  · next ta xa tb xb ha hb =>
    split at h
    · next hin =>
      cases hi : intOp o xa xb with
      | none => rw [hi] at h; cases h
      | some r =>
        rw [hi] at h
        simp only [Option.map_some, Option.some.injEq, Prod.mk.injEq] at h
        exact ⟨ta, xa, tb, xb, r, ha, hb, hin, hi, h.1.symm, h.2.symm⟩
    · cases h
  · cases h

theorem binT_same {Γ : Nat → Num} {o : Bin} {a b : Expr} {ta tb : Num} (h : SameTy Γ (.bin o a b)) (ha : tyOf Γ a = some ta)
    (hb : tyOf Γ b = some tb) (ha' : npTy Γ a = some ta) (hb' : npTy Γ b = some tb) : binT o ta tb = some (resT o ta tb) := by
  obtain ⟨t, _, h1, h2⟩ := h
  simp only [tyOf, ha, hb] at h1
  simp only [npTy, ha', hb', Option.some.injEq] at h2
  rw [h1, h2]

theorem neg_not_bool {Γ : Nat → Num} {a : Expr} {ta : Num} (h : SameTy Γ (.neg a)) (ha : tyOf Γ a = some ta)
    (ha' : npTy Γ a = some ta) : ta ≠ .pbool ∧ unT ta = ta := by
  obtain ⟨t, _, h1, h2⟩ := h
  simp only [tyOf, ha, Option.some.injEq] at h1
  simp only [npTy, ha', Option.map_some, Option.some.injEq] at h2
  subst h1
  refine ⟨?_, h2⟩
  rintro rfl
  simp [unT] at h2

theorem inv_int {Γ : Nat → Num} {a : Expr} {ta : Num} (h : SameTy Γ (.inv a)) (ha : tyOf Γ a = some ta)
    (ha' : npTy Γ a = some ta) : unT ta = .pint := by
  obtain ⟨t, _, h1, h2⟩ := h
  simp only [tyOf, ha, Option.map_some, Option.some.injEq] at h1
  simp only [npTy, ha', Option.map_some, Option.some.injEq] at h2
  rw [h2, h1]

theorem abs_int {Γ : Nat → Num} {a : Expr} {ta : Num} (h : SameTy Γ (.abs a)) (ha : tyOf Γ a = some ta) : ta = .pint := by
  obtain ⟨t, hi, h1, h2⟩ := h
  simp only [tyOf, ha, Option.map_some, Option.some.injEq] at h1
  split at h1
  · assumption
  · subst h1; simp [Num.integral] at hi

theorem land_bool {Γ : Nat → Num} {a b : Expr} (h : SameTy Γ (.land a b)) : npTy Γ a = some .pbool ∧ npTy Γ b = some .pbool := by
  obtain ⟨t, _, _, h2⟩ := h
  simp only [npTy] at h2
  split at h2
  · next e1 e2 => exact ⟨e1, e2⟩
  · cases h2

theorem lor_bool {Γ : Nat → Num} {a b : Expr} (h : SameTy Γ (.lor a b)) : npTy Γ a = some .pbool ∧ npTy Γ b = some .pbool := by
  obtain ⟨t, _, _, h2⟩ := h
  simp only [npTy] at h2
  split at h2
  · next e1 e2 => exact ⟨e1, e2⟩
  · cases h2

theorem lnot_bool {Γ : Nat → Num} {a : Expr} (h : SameTy Γ (.lnot a)) : npTy Γ a = some .pbool := by
  obtain ⟨t, _, _, h2⟩ := h
  simp only [npTy] at h2
  split at h2
  · next e => exact e
  · cases h2

theorem toC_some {Γ : Nat → Num} {e : Expr} (h : Agree Γ e) : ∃ c, toC Γ e = some c := by
  induction e with
  | lit n => exact ⟨_, rfl⟩
  | bool b => exact ⟨_, rfl⟩
  | var x => exact ⟨_, rfl⟩
  | bin o a b iha ihb =>
    obtain ⟨hs, ha, hb⟩ := h
    obtain ⟨ca, hca⟩ := iha ha
    obtain ⟨cb, hcb⟩ := ihb hb
    obtain ⟨ta, _, h1, h1'⟩ := ha.same
    obtain ⟨tb, _, h2, h2'⟩ := hb.same
    have := binT_same hs h1 h2 h1' h2'
    exact ⟨_, by simp only [toC, hca, hcb, h1, h2, this]; rfl⟩
  | neg a ih => obtain ⟨c, hc⟩ := ih h.2; exact ⟨_, by simp only [toC, hc]; rfl⟩
  | inv a ih =>
    obtain ⟨c, hc⟩ := ih h.2
    obtain ⟨ta, _, h1, _⟩ := h.2.same
    exact ⟨_, by simp only [toC, hc, h1]; rfl⟩
  | abs a ih => obtain ⟨c, hc⟩ := ih h.2; exact ⟨_, by simp only [toC, hc]; rfl⟩
  | cmp o a b iha ihb =>
    obtain ⟨ca, hca⟩ := iha h.2.1
    obtain ⟨cb, hcb⟩ := ihb h.2.2
    exact ⟨_, by simp only [toC, hca, hcb]; rfl⟩
  | land a b iha ihb =>
    obtain ⟨ca, hca⟩ := iha h.2.1
    obtain ⟨cb, hcb⟩ := ihb h.2.2
    exact ⟨_, by simp only [toC, hca, hcb]; rfl⟩
  | lor a b iha ihb =>
    obtain ⟨ca, hca⟩ := iha h.2.1
    obtain ⟨cb, hcb⟩ := ihb h.2.2
    exact ⟨_, by simp only [toC, hca, hcb]; rfl⟩
  | lnot a ih => obtain ⟨c, hc⟩ := ih h.2; exact ⟨_, by simp only [toC, hc]; rfl⟩
  | cast t a ih => obtain ⟨c, hc⟩ := ih h.2; exact ⟨_, by simp only [toC, hc]; rfl⟩

/-- The C code has the value of the expression, and the value fits its type. -/
theorem c_ok {Γ : Nat → Num} {env : Nat → Int} {e : Expr} : ∀ {t : Num} {x : Int}, Agree Γ e → NoBoolArith Γ e → Plain false Γ env e →
    np Γ env e = some (t, x) → Fits t x ∧ ∃ c, toC Γ e = some c ∧ COk t (evalC Γ env c) x := by
  induction e with
  | lit n =>
    intro t x _ _ hp h
    simp only [np, Option.some.injEq, Prod.mk.injEq] at h
    obtain ⟨rfl, rfl⟩ := h
    exact ⟨hp, _, rfl, 64, rfl, by decide, by decide, hp, fun _ => by decide⟩
  | bool b =>
    intro t x _ _ hp h
    simp only [np, Option.some.injEq, Prod.mk.injEq] at h
    obtain ⟨rfl, rfl⟩ := h
    exact ⟨ofBool_cases b, _, rfl, 32, rfl, by decide, by decide, inRange_bool (by decide) (ofBool_cases b), fun h => absurd rfl h⟩
  | var y =>
    intro t x ha _ hp h
    simp only [np, Option.some.injEq, Prod.mk.injEq] at h
    obtain ⟨rfl, rfl⟩ := h
    obtain ⟨t, hi, h1, _⟩ := ha
    simp only [tyOf, Option.some.injEq] at h1
    subst h1
    refine ⟨hp, _, rfl, cWidth (Γ y), rfl, ?_⟩
    unfold cWidth
    split
    · next hb =>
      have hp' : Fits (Γ y) (env y) := hp
      rw [hb] at hp'
      exact ⟨by decide, by decide, inRange_bool (by decide) hp', fun h => absurd hb h⟩
    · next hb =>
      have := width_cases hi hb
      exact ⟨this.1, this.2.1, (fits_of hi hb).1 hp, fun _ => le_refl _⟩
  | bin o a b iha ihb =>
    intro t x hag hnb hp h
    obtain ⟨ta, xa, tb, xb, r, ea, eb, hin, hr, rfl, rfl⟩ := intOp_np h
    obtain ⟨hs, haa, hab⟩ := hag
    obtain ⟨hp1, hp2, hp3⟩ := hp
    obtain ⟨hn1, hn2, hn3⟩ := hnb
    obtain ⟨fa, ca, hca, ka⟩ := iha haa hn1 hp1 ea
    obtain ⟨fb, cb, hcb, kb⟩ := ihb hab hn2 hp2 eb
    obtain ⟨ta', hta, sa, sa'⟩ := haa.same
    obtain ⟨tb', htb, sb, sb'⟩ := hab.same
    have e1 := np_ty ea sa'
    have e2 := np_ty eb sb'
    subst e1 e2
    obtain ⟨hf, hsh, hm⟩ := hp3 _ _ _ _ _ ea eb hr
    have hint : Num.integral (resT o ta tb) = true := by
      revert hta htb; clear * -; revert ta tb; cases o <;> decide
    rw [reduce_fits hint hf]
    exact ⟨hf, bin_ok hta htb hca hcb ka kb fa fb sa sb (binT_same hs sa sb sa' sb') hin hr hf hsh hm
      (fun ho hh => hn3 ho ⟨hh.1 ▸ sa', hh.2 ▸ sb'⟩)⟩
  | neg a ih =>
    intro t x hag hnb hp h
    simp only [np] at h
    obtain ⟨⟨ta, xa⟩, ea, e⟩ := Option.map_eq_some_iff.1 h
    simp only [Prod.mk.injEq] at e
    obtain ⟨fa, ca, hca, w, h1, h2, h3, h4, h5⟩ := ih hag.2 hnb hp.1 ea
    obtain ⟨ta', hta, sa, sa'⟩ := hag.2.same
    have e1 := np_ty ea sa'
    subst e1
    obtain ⟨hb, hu⟩ := neg_not_bool hag.1 sa sa'
    have hf := hp.2 _ _ ea
    rw [hu] at e hf
    obtain ⟨rfl, rfl⟩ := e
    rw [reduce_fits hta hf]
    have hw := h5 hb
    have hr : InRange (arithWidth w) (-xa) := inRange_mono (le_trans hw (le_arithWidth w)) ((fits_of hta hb).1 hf)
    refine ⟨hf, .neg ca, by simp only [toC, hca]; rfl, arithWidth w, ?_, le_trans h2 (le_arithWidth w), arithWidth_le h3, hr, fun _ => le_trans hw (le_arithWidth w)⟩
    simp only [evalC, h1, chk_some hr]
    rfl
  | inv a ih =>
    intro t x hag hnb hp h
    simp only [np] at h
    obtain ⟨⟨ta, xa⟩, ea, e⟩ := Option.map_eq_some_iff.1 h
    simp only [Prod.mk.injEq] at e
    obtain ⟨fa, ca, hca, ka⟩ := ih hag.2 hnb hp ea
    obtain ⟨ta', hta, sa, sa'⟩ := hag.2.same
    have e1 := np_ty ea sa'
    subst e1
    have hu := inv_int hag.1 sa sa'
    rw [hu] at e
    obtain ⟨rfl, rfl⟩ := e
    have f64 : Fits .pint xa := fits_64 hta fa
    obtain ⟨w, h1, h2, h3, h4, h5⟩ := coerceC_ok (t := .pint) (by decide) (by decide) hca ka f64
    have hw := h5 (by decide)
    have h6 := bits_not (w := 64) (by decide) f64
    refine ⟨h6.2, .not (coerceC .pint ta a ca), by simp only [toC, hca, sa], arithWidth w, ?_, le_trans h2 (le_arithWidth w), arithWidth_le h3, ?_, fun _ => le_trans hw (le_arithWidth w)⟩
    · simp only [evalC, h1]
      rw [(bits_not (w := arithWidth w) (by have := le_arithWidth w; omega) (inRange_mono (le_arithWidth w) h4)).1]
    · exact inRange_mono (le_trans hw (le_arithWidth w)) h6.2
  | abs a ih =>
    intro t x hag hnb hp h
    simp only [np] at h
    obtain ⟨⟨ta, xa⟩, ea, e⟩ := Option.map_eq_some_iff.1 h
    simp only [Prod.mk.injEq] at e
    obtain ⟨fa, ca, hca, w, h1, h2, h3, h4, h5⟩ := ih hag.2 hnb hp.1 ea
    obtain ⟨ta', hta, sa, sa'⟩ := hag.2.same
    have e1 := np_ty ea sa'
    subst e1
    have hi := abs_int hag.1 sa
    subst hi
    have hf : Fits .pint (xa.natAbs : Int) := hp.2 _ _ ea
    obtain ⟨rfl, e⟩ := e
    have e : (xa.natAbs : Int) = x := e
    subst e
    refine ⟨hf, .labs ca, by simp only [toC, hca]; rfl, 64, ?_, by decide, by decide, hf, fun _ => by decide⟩
    simp only [evalC, h1]
    rw [wrap_of_inRange (by decide) (show InRange 64 xa from fa), chk_some (show InRange 64 _ from hf)]
    rfl
  | cmp o a b iha ihb =>
    intro t x hag hnb hp h
    simp only [np] at h
    split at h
    · next ta xa tb xb ea eb =>
      simp only [Option.some.injEq, Prod.mk.injEq] at h
      obtain ⟨rfl, rfl⟩ := h
      obtain ⟨fa, ca, hca, w, h1, -⟩ := iha hag.2.1 hnb.1 hp.1 ea
      obtain ⟨fb, cb, hcb, w', h1', -⟩ := ihb hag.2.2 hnb.2 hp.2 eb
      refine ⟨ofBool_cases _, .cmp o ca cb, by simp only [toC, hca, hcb], 32, ?_, by decide, by decide, inRange_bool (by decide) (ofBool_cases _), fun h => absurd rfl h⟩
      simp only [evalC, h1, h1']
    · cases h
  | land a b iha ihb =>
    intro t x hag hnb hp h
    simp only [np] at h
    split at h
    · next xa ea =>
      obtain ⟨fa, ca, hca, w, h1, -⟩ := iha hag.2.1 hnb.1 hp.1 ea
      obtain ⟨cb', hcb'⟩ := toC_some hag.2.2
      split at h
      · next hx =>
        simp only [Option.some.injEq, Prod.mk.injEq] at h
        obtain ⟨rfl, rfl⟩ := h
        refine ⟨Or.inl rfl, .land ca cb', by simp only [toC, hca, hcb'], 32, ?_, by decide, by decide, by decide, fun h => absurd rfl h⟩
        simp only [evalC, h1, hx, if_true]
      · next hx =>
        split at h
        · next xb eb =>
          simp only [Option.some.injEq, Prod.mk.injEq] at h
          obtain ⟨rfl, rfl⟩ := h
          obtain ⟨fb, cb, hcb, w', h1', -⟩ := ihb hag.2.2 hnb.2 (hp.2.1 _ _ ea hx) eb
          refine ⟨fb, .land ca cb, by simp only [toC, hca, hcb], 32, ?_, by decide, by decide, inRange_bool (by decide) fb, fun h => absurd rfl h⟩
          simp only [evalC, h1, h1', hx, if_false]
          rcases fb with rfl | rfl <;> rfl
        · cases h
    · cases h
  | lor a b iha ihb =>
    intro t x hag hnb hp h
    simp only [np] at h
    split at h
    · next xa ea =>
      obtain ⟨fa, ca, hca, w, h1, -⟩ := iha hag.2.1 hnb.1 hp.1 ea
      obtain ⟨cb', hcb'⟩ := toC_some hag.2.2
      split at h
      · next hx =>
        split at h
        · next xb eb =>
          simp only [Option.some.injEq, Prod.mk.injEq] at h
          obtain ⟨rfl, rfl⟩ := h
          obtain ⟨fb, cb, hcb, w', h1', -⟩ := ihb hag.2.2 hnb.2 (hp.2.1 _ _ ea hx) eb
          refine ⟨fb, .lor ca cb, by simp only [toC, hca, hcb], 32, ?_, by decide, by decide, inRange_bool (by decide) fb, fun h => absurd rfl h⟩
          simp only [evalC, h1, h1', hx, ne_eq, not_true, if_false]
          rcases fb with rfl | rfl <;> rfl
        · cases h
      · next hx =>
        simp only [Option.some.injEq, Prod.mk.injEq] at h
        obtain ⟨rfl, rfl⟩ := h
        refine ⟨Or.inr rfl, .lor ca cb', by simp only [toC, hca, hcb'], 32, ?_, by decide, by decide, by decide, fun h => absurd rfl h⟩
        simp only [evalC, h1, ne_eq, hx, not_false_eq_true, if_true]
    · cases h
  | lnot a ih =>
    intro t x hag hnb hp h
    simp only [np] at h
    split at h
    · next xa ea =>
      simp only [Option.some.injEq, Prod.mk.injEq] at h
      obtain ⟨rfl, rfl⟩ := h
      obtain ⟨fa, ca, hca, w, h1, -⟩ := ih hag.2 hnb hp ea
      refine ⟨ofBool_cases _, .lnot ca, by simp only [toC, hca]; rfl, 32, ?_, by decide, by decide, inRange_bool (by decide) (ofBool_cases _), fun h => absurd rfl h⟩
      simp only [evalC, h1]
    · cases h
  | cast s a ih =>
    intro t x hag hnb hp h
    simp only [np] at h
    obtain ⟨t', hti, st, -⟩ := hag.1
    obtain ⟨u', -, est⟩ := Option.map_eq_some_iff.1 (show (tyOf Γ a).map (fun _ => s) = some t' from st)
    have hs : Num.integral s = true := by rw [est]; exact hti
    split at h
    · next u xa ea =>
      obtain ⟨fa, ca, hca, ka⟩ := ih hag.2 hnb hp.1 ea
      split at h
      · next hb =>
        simp only [Option.some.injEq, Prod.mk.injEq] at h
        obtain ⟨rfl, rfl⟩ := h
        obtain ⟨w, h1, -⟩ := ka
        refine ⟨ofBool_cases _, castC s a ca, by simp only [toC, hca]; rfl, 32, ?_, by decide, by decide, inRange_bool (by decide) (ofBool_cases _), fun h => absurd rfl h⟩
        simp only [castC, hb, if_true, evalC, h1, intCmp]
      · next hb =>
        split at h
        · cases h
        · have hf := hp.2 _ _ ea hb
          simp only [Option.some.injEq, Prod.mk.injEq] at h
          obtain ⟨rfl, rfl⟩ := h
          rw [reduce_fits hs hf]
          exact ⟨hf, _, by simp only [toC, hca]; rfl, castC_ok hs hb hca ka hf⟩
    · cases h

end Verif.Scalars
