import Verif.Scalars.Lemmas4

namespace Verif.Scalars
open Verif.Types.Spec (Num)
open Verif.IntMath
open Verif.IntMath.Spec (InRange IsDivMod)

theorem bool_np {Γ : Nat → Num} {env : Nat → Int} {e : Expr} (h : npTy Γ e = some .pbool) (hn : np Γ env e ≠ none) :
    ∃ x, np Γ env e = some (.pbool, x) := by
  cases h' : np Γ env e with
  | none => exact absurd h' hn
  | some p =>
    obtain ⟨t, x⟩ := p
    have := np_ty h' h
    subst this
    exact ⟨x, rfl⟩

/-- The Fortran code has the value of the expression. -/
theorem f_ok {Γ : Nat → Num} {env : Nat → Int} {e : Expr} : ∀ {t : Num} {x : Int} {c : F}, Agree Γ e → Plain true Γ env e →
    np Γ env e = some (t, x) → toF Γ e = some c → fTy Γ c ≠ none → Fits t x ∧ FOk Γ env t c x := by
  induction e with
  | lit n =>
    intro t x c _ hp h hc _
    simp only [np, Option.some.injEq, Prod.mk.injEq] at h
    obtain ⟨rfl, rfl⟩ := h
    simp only [toF, Option.some.injEq] at hc
    subst hc
    have hp' : InRange 64 (n : Int) := hp
    exact ⟨hp, fOk_int (by decide) ⟨64, by simp only [evalF, chk_some hp']; rfl, rfl, by decide, by decide, by decide, hp'⟩⟩
  | bool b =>
    intro t x c _ hp h hc _
    simp only [np, Option.some.injEq, Prod.mk.injEq] at h
    obtain ⟨rfl, rfl⟩ := h
    simp only [toF, Option.some.injEq] at hc
    subst hc
    exact ⟨ofBool_cases b, fOk_log rfl rfl⟩
  | var y =>
    intro t x c ha hp h hc _
    simp only [np, Option.some.injEq, Prod.mk.injEq] at h
    obtain ⟨rfl, rfl⟩ := h
    simp only [toF, Option.some.injEq] at hc
    subst hc
    obtain ⟨t, hi, h1, _⟩ := ha
    simp only [tyOf, Option.some.injEq] at h1
    subst h1
    refine ⟨hp, ?_⟩
    unfold FOk
    split
    · next hb => exact ⟨by simp only [evalF, hb, if_true], by simp only [fTy, fVarTy, hb, if_true]⟩
    · next hb =>
      have := width_cases hi hb
      exact ⟨(Γ y).width, by simp only [evalF, hb, if_false], by simp only [fTy, fVarTy, hb, if_false], le_refl _, this.1, this.2.1, (fits_of hi hb).1 hp⟩
  | bin o a b iha ihb =>
    intro t x c hag hp h hc hk
    obtain ⟨ta, xa, tb, xb, r, ea, eb, hin, hr, rfl, rfl⟩ := intOp_np h
    obtain ⟨hs, haa, hab⟩ := hag
    obtain ⟨hp1, hp2, hp3⟩ := hp
    obtain ⟨ta', hta, sa, sa'⟩ := haa.same
    obtain ⟨tb', htb, sb, sb'⟩ := hab.same
    have e1 := np_ty ea sa'
    have e2 := np_ty eb sb'
    subst e1 e2
    obtain ⟨ca, hca⟩ := toF_some haa
    obtain ⟨cb, hcb⟩ := toF_some hab
    have hT := binT_same hs sa sb sa' sb'
    obtain ⟨ka, kb⟩ := toF_bin hca hcb sa sb hT hc hk
    obtain ⟨fa, oa⟩ := iha haa hp1 ea hca ka
    obtain ⟨fb, ob⟩ := ihb hab hp2 eb hcb kb
    obtain ⟨hf, hsh, -⟩ := hp3 _ _ _ _ _ ea eb hr
    rw [reduce_fits (resT_integral hta htb) hf]
    exact ⟨hf, fBin_ok hta htb hca hcb oa ob fa fb sa sb hT hin hr hf hsh hc hk⟩
  | neg a ih =>
    intro t x c hag hp h hc hk
    simp only [np] at h
    obtain ⟨⟨ta, xa⟩, ea, e⟩ := Option.map_eq_some_iff.1 h
    simp only [Prod.mk.injEq] at e
    obtain ⟨ca, hca⟩ := toF_some hag.2
    simp only [toF, hca, Option.map_some, Option.some.injEq] at hc
    subst hc
    obtain ⟨fa, oa⟩ := ih hag.2 hp.1 ea hca (fun hn => hk (by simp only [fTy, hn]))
    obtain ⟨ta', hta, sa, sa'⟩ := hag.2.same
    have e1 := np_ty ea sa'
    subst e1
    obtain ⟨hb, hu⟩ := neg_not_bool hag.1 sa sa'
    have hf := hp.2 _ _ ea
    rw [hu] at e hf
    obtain ⟨rfl, rfl⟩ := e
    rw [reduce_fits hta hf]
    obtain ⟨k, h1, h2, h3, h4, h5, h6⟩ := oa.int hb
    have hr : InRange k (-xa) := inRange_mono h3 ((fits_of hta hb).1 hf)
    exact ⟨hf, fOk_int hb ⟨k, by simp only [evalF, h1, chk_some hr]; rfl, by simp only [fTy, h2], h3, h4, h5, hr⟩⟩
  | inv a ih =>
    intro t x c hag hp h hc hk
    simp only [np] at h
    obtain ⟨⟨ta, xa⟩, ea, e⟩ := Option.map_eq_some_iff.1 h
    simp only [Prod.mk.injEq] at e
    obtain ⟨ca, hca⟩ := toF_some hag.2
    obtain ⟨ta', hta, sa, sa'⟩ := hag.2.same
    have e1 := np_ty ea sa'
    subst e1
    simp only [toF, hca, sa, Option.some.injEq] at hc
    subst hc
    obtain ⟨fa, oa⟩ := ih hag.2 hp ea hca (coerceF_compiles (t := .pint) (u := ta) hca (fun hn => hk (by simp only [fTy, hn])))
    have hu := inv_int hag.1 sa sa'
    rw [hu] at e
    obtain ⟨rfl, rfl⟩ := e
    have f64 : Fits .pint xa := fits_64 hta fa
    obtain ⟨k, h1, h2, h3, h4, h5, h6⟩ := coerceF_ok (t := .pint) (by decide) (by decide) hca oa fa f64
    have h7 := bits_not (w := 64) (by decide) f64
    refine ⟨h7.2, fOk_int (by decide) ⟨k, ?_, by simp only [fTy, h2], h3, h4, h5, inRange_mono h3 h7.2⟩⟩
    simp only [evalF, h1]
    rw [(bits_not (by omega) h6).1]
  | abs a ih =>
    intro t x c hag hp h hc hk
    simp only [np] at h
    obtain ⟨⟨ta, xa⟩, ea, e⟩ := Option.map_eq_some_iff.1 h
    simp only [Prod.mk.injEq] at e
    obtain ⟨ca, hca⟩ := toF_some hag.2
    simp only [toF, hca, Option.map_some, Option.some.injEq] at hc
    subst hc
    obtain ⟨fa, oa⟩ := ih hag.2 hp.1 ea hca (fun hn => hk (by simp only [fTy, hn]))
    obtain ⟨ta', hta, sa, sa'⟩ := hag.2.same
    have e1 := np_ty ea sa'
    subst e1
    have hi := abs_int hag.1 sa
    subst hi
    have hf : Fits .pint (xa.natAbs : Int) := hp.2 _ _ ea
    obtain ⟨rfl, e⟩ := e
    have e : (xa.natAbs : Int) = x := e
    subst e
    obtain ⟨k, h1, h2, h3, h4, h5, h6⟩ := oa.int (by decide)
    have hr : InRange k (xa.natAbs : Int) := inRange_mono h3 hf
    exact ⟨hf, fOk_int (by decide) ⟨k, by simp only [evalF, h1, chk_some hr]; rfl, by simp only [fTy, h2], h3, h4, h5, hr⟩⟩
  | cmp o a b iha ihb =>
    intro t x c hag hp h hc hk
    simp only [np] at h
    split at h
    · next ta xa tb xb ea eb =>
      simp only [Option.some.injEq, Prod.mk.injEq] at h
      obtain ⟨rfl, rfl⟩ := h
      obtain ⟨ca, hca⟩ := toF_some hag.2.1
      obtain ⟨cb, hcb⟩ := toF_some hag.2.2
      obtain ⟨ta', hta, sa, sa'⟩ := hag.2.1.same
      obtain ⟨tb', htb, sb, sb'⟩ := hag.2.2.same
      have e1 := np_ty ea sa'
      have e2 := np_ty eb sb'
      subst e1 e2
      simp only [toF, hca, hcb, sa, sb, Option.some.injEq] at hc
      subst hc
      obtain ⟨ka, kb⟩ := cmpF_compiles hk
      obtain ⟨fa, oa⟩ := iha hag.2.1 hp.1 ea hca ka
      obtain ⟨fb, ob⟩ := ihb hag.2.2 hp.2 eb hcb kb
      exact ⟨ofBool_cases _, cmpF_ok oa ob fa fb hk⟩
    · cases h
  | land a b iha ihb =>
    intro t x c hag hp h hc hk
    obtain ⟨ba, bb⟩ := land_bool hag.1
    obtain ⟨hpa, -, hpe⟩ := hp
    obtain ⟨hpb, hnb⟩ := hpe rfl
    obtain ⟨xb, eb⟩ := bool_np bb hnb
    obtain ⟨ca, hca⟩ := toF_some hag.2.1
    obtain ⟨cb, hcb⟩ := toF_some hag.2.2
    simp only [toF, hca, hcb, Option.some.injEq] at hc
    subst hc
    obtain ⟨ka, kb⟩ := two_compiles .and hk
    simp only [np] at h
    split at h
    · next xa ea =>
      obtain ⟨fa, oa⟩ := iha hag.2.1 hpa ea hca ka
      obtain ⟨fb, ob⟩ := ihb hag.2.2 hpb eb hcb kb
      rw [eb] at h
      have e : t = .pbool ∧ x = ofBool (decide (xa ≠ 0 ∧ xb ≠ 0)) := by
        split at h
        · next hx =>
          simp only [Option.some.injEq, Prod.mk.injEq] at h
          exact ⟨h.1.symm, by rw [← h.2]; simp [hx, ofBool]⟩
        · next hx =>
          simp only [Option.some.injEq, Prod.mk.injEq] at h
          refine ⟨h.1.symm, ?_⟩
          rw [← h.2]
          rcases fb with rfl | rfl <;> simp [hx, ofBool]
      obtain ⟨rfl, rfl⟩ := e
      exact ⟨ofBool_cases _, fOk_log (by simp only [evalF, oa.log.1, ob.log.1, evalF.both]) (by simp only [fTy, oa.log.2, ob.log.2])⟩
    · cases h
  | lor a b iha ihb =>
    intro t x c hag hp h hc hk
    obtain ⟨ba, bb⟩ := lor_bool hag.1
    obtain ⟨hpa, -, hpe⟩ := hp
    obtain ⟨hpb, hnb⟩ := hpe rfl
    obtain ⟨xb, eb⟩ := bool_np bb hnb
    obtain ⟨ca, hca⟩ := toF_some hag.2.1
    obtain ⟨cb, hcb⟩ := toF_some hag.2.2
    simp only [toF, hca, hcb, Option.some.injEq] at hc
    subst hc
    obtain ⟨ka, kb⟩ := two_compiles .or hk
    simp only [np] at h
    split at h
    · next xa ea =>
      obtain ⟨fa, oa⟩ := iha hag.2.1 hpa ea hca ka
      obtain ⟨fb, ob⟩ := ihb hag.2.2 hpb eb hcb kb
      rw [eb] at h
      have e : t = .pbool ∧ x = ofBool (decide (xa ≠ 0 ∨ xb ≠ 0)) := by
        split at h
        · next hx =>
          simp only [Option.some.injEq, Prod.mk.injEq] at h
          refine ⟨h.1.symm, ?_⟩
          rw [← h.2]
          rcases fb with rfl | rfl <;> simp [hx, ofBool]
        · next hx =>
          simp only [Option.some.injEq, Prod.mk.injEq] at h
          exact ⟨h.1.symm, by rw [← h.2]; simp [hx, ofBool]⟩
      obtain ⟨rfl, rfl⟩ := e
      exact ⟨ofBool_cases _, fOk_log (by simp only [evalF, oa.log.1, ob.log.1, evalF.both]) (by simp only [fTy, oa.log.2, ob.log.2])⟩
    · cases h
  | lnot a ih =>
    intro t x c hag hp h hc hk
    obtain ⟨ca, hca⟩ := toF_some hag.2
    simp only [toF, hca, Option.map_some, Option.some.injEq] at hc
    subst hc
    simp only [np] at h
    split at h
    · next xa ea =>
      simp only [Option.some.injEq, Prod.mk.injEq] at h
      obtain ⟨rfl, rfl⟩ := h
      obtain ⟨fa, oa⟩ := ih hag.2 hp ea hca (fun hn => hk (by simp only [fTy, hn]))
      exact ⟨ofBool_cases _, fOk_log (by simp only [evalF, oa.log.1]) (by simp only [fTy, oa.log.2])⟩
    · cases h
  | cast s a ih =>
    intro t x c hag hp h hc hk
    obtain ⟨t', hti, st, -⟩ := hag.1
    obtain ⟨u', -, est⟩ := Option.map_eq_some_iff.1 (show (tyOf Γ a).map (fun _ => s) = some t' from st)
    have hs : Num.integral s = true := by rw [est]; exact hti
    obtain ⟨ca, hca⟩ := toF_some hag.2
    obtain ⟨ta, hta, sa, sa'⟩ := hag.2.same
    simp only [toF, hca, sa, Option.some.injEq] at hc
    subst hc
    simp only [np] at h
    split at h
    · next u xa ea =>
      have e1 := np_ty ea sa'
      subst e1
      obtain ⟨fa, oa⟩ := ih hag.2 hp.1 ea hca (castF_compiles hca hk)
      split at h
      · next hb =>
        simp only [Option.some.injEq, Prod.mk.injEq] at h
        obtain ⟨rfl, rfl⟩ := h
        subst hb
        refine ⟨ofBool_cases _, ?_⟩
        unfold castF
        rw [if_pos rfl]
        split
        · next hu =>
          subst hu
          obtain ⟨h1, h2⟩ := oa.log
          refine fOk_log ?_ h2
          rw [h1]
          rcases fa with rfl | rfl <;> rfl
        · next hu =>
          obtain ⟨k, h1, h2, -⟩ := oa.int hu
          exact fOk_log (by simp only [evalF, h1, chk_some (show InRange 32 0 by decide), Option.map_some, evalF.both, intCmp]) (by simp only [fTy, h2])
      · next hb =>
        split at h
        · cases h
        · have hf := hp.2 _ _ ea hb
          simp only [Option.some.injEq, Prod.mk.injEq] at h
          obtain ⟨rfl, rfl⟩ := h
          rw [reduce_fits hs hf]
          exact ⟨hf, fOk_int hb (castF_ok hs hb hca oa fa hf)⟩
    · cases h

end Verif.Scalars
