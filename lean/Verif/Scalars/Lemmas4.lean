import Verif.Scalars.Lemmas3

/-
The Fortran code computes the value of the expression, if it compiles.
-/
namespace Verif.Scalars
open Verif.Types.Spec (Num)
open Verif.IntMath
open Verif.IntMath.Spec (InRange IsDivMod)

/-- An integer expression of at least `lo` bits that has the value `x`. -/
def FInt (Γ : Nat → Num) (env : Nat → Int) (lo : Nat) (c : F) (x : Int) : Prop :=
  ∃ k, evalF Γ env c = some (k, x) ∧ fTy Γ c = some (.int k) ∧ lo ≤ k ∧ 8 ≤ k ∧ k ≤ 64 ∧ InRange k x

/-- A logical expression that has the value `x`. -/
def FLog (Γ : Nat → Num) (env : Nat → Int) (c : F) (x : Int) : Prop := evalF Γ env c = some (0, x) ∧ fTy Γ c = some .logical

/-- An expression of type `t` that has the value `x`. -/
def FOk (Γ : Nat → Num) (env : Nat → Int) (t : Num) (c : F) (x : Int) : Prop :=
  if t = .pbool then FLog Γ env c x else FInt Γ env t.width c x

theorem FOk.log {Γ : Nat → Num} {env : Nat → Int} {c : F} {x : Int} (h : FOk Γ env .pbool c x) : FLog Γ env c x := by
  simpa [FOk] using h
theorem FOk.int {Γ : Nat → Num} {env : Nat → Int} {t : Num} {c : F} {x : Int} (h : FOk Γ env t c x) (hb : t ≠ .pbool) :
    FInt Γ env t.width c x := by
  simpa [FOk, hb] using h
theorem fOk_int {Γ : Nat → Num} {env : Nat → Int} {t : Num} {c : F} {x : Int} (hb : t ≠ .pbool) (h : FInt Γ env t.width c x) :
    FOk Γ env t c x := by
  simpa [FOk, hb] using h

/-- Bits of an operand of arithmetic. -/
def opW (t : Num) : Nat := if t = .pbool then 64 else t.width

theorem asInt_ok {Γ : Nat → Num} {env : Nat → Int} {t : Num} {c : F} {x : Int} (h : FOk Γ env t c x) (hf : Fits t x) :
    FInt Γ env (opW t) (asInt t c) x := by
  unfold asInt opW
  split
  · next hb =>
    subst hb
    obtain ⟨h1, h2⟩ := h.log
    refine ⟨64, ?_, by simp only [fTy, h2], le_refl _, by decide, by decide, inRange_bool (by decide) hf⟩
    simp only [evalF, h1]
    rcases hf with rfl | rfl <;> rfl
  · next hb => exact h.int hb

theorem castF_ok {Γ : Nat → Num} {env : Nat → Int} {t u : Num} {a : Expr} {c : F} {x : Int} (ht : Num.integral t = true) (hb : t ≠ .pbool)
    (hc : toF Γ a = some c) (h : FOk Γ env u c x) (hu : Fits u x) (hx : Fits t x) : FInt Γ env t.width (castF t u a c) x := by
  have hr := (fits_of ht hb).1 hx
  have hw := width_cases ht hb
  have gen : FInt Γ env t.width (if u = .pbool then .merge t.width c else .int t.width c) x := by
    split
    · next hu' =>
      subst hu'
      obtain ⟨h1, h2⟩ := h.log
      refine ⟨t.width, ?_, by simp only [fTy, h2], le_refl _, hw.1, hw.2.1, hr⟩
      simp only [evalF, h1]
      rcases hu with rfl | rfl <;> rfl
    · next hu' =>
      obtain ⟨k, h1, h2, -⟩ := h.int hu'
      refine ⟨t.width, ?_, by simp only [fTy, h2], le_refl _, hw.1, hw.2.1, hr⟩
      simp only [evalF, h1, chk_some hr]
      rfl
  unfold castF
  rw [if_neg hb]
  split
  · next n =>
    simp only [toF, Option.some.injEq] at hc
    subst hc
    have e : x = n := by
      by_cases hu' : u = .pbool
      · subst hu'
        have := h.log.2
        simp [fTy] at this
      · obtain ⟨k, h1, h2, -⟩ := h.int hu'
        simp only [evalF] at h1
        obtain ⟨z, hz, e⟩ := Option.map_eq_some_iff.1 h1
        have := (chk_eq_some.1 hz).2
        simp only [Prod.mk.injEq] at e
        rw [← e.2, this]
    subst e
    exact ⟨t.width, by simp only [evalF, chk_some hr]; rfl, rfl, le_refl _, hw.1, hw.2.1, hr⟩
  · exact gen

theorem coerceF_ok {Γ : Nat → Num} {env : Nat → Int} {t u : Num} {a : Expr} {c : F} {x : Int} (ht : Num.integral t = true) (hb : t ≠ .pbool)
    (hc : toF Γ a = some c) (h : FOk Γ env u c x) (hu : Fits u x) (hx : Fits t x) : FInt Γ env t.width (coerceF t u a c) x := by
  unfold coerceF
  split
  · next e => subst e; exact h.int hb
  · exact castF_ok ht hb hc h hu hx

theorem fArith_ok {Γ : Nat → Num} {env : Nat → Int} {v : Num} {l l' : Nat} {a b c : F} {x y z : Int} {f : Nat → Int → Int → Int} (ha : FInt Γ env l a x)
    (hb : FInt Γ env l' b y) (hv : Num.integral v = true) (hvb : v ≠ .pbool) (hw : v.width ≤ max l l')
    (hf : ∀ w, 8 ≤ w → InRange w x → InRange w y → f w x y = z) (hz : Fits v z)
    (hc : evalF Γ env c = evalF.arith (evalF Γ env a) (evalF Γ env b) f)
    (hc' : fTy Γ c = fTy Γ (.add a b)) : FOk Γ env v c z := by
  obtain ⟨k, h1, h2, h3, h4, h5, h6⟩ := ha
  obtain ⟨k', h1', h2', h3', h4', h5', h6'⟩ := hb
  have hz' : InRange (max k k') z := inRange_mono (by omega) ((fits_of hv hvb).1 hz)
  refine fOk_int hvb ⟨max k k', ?_, ?_, by omega, by omega, by omega, hz'⟩
  · rw [hc, h1, h1']
    unfold evalF.arith
    simp only
    rw [hf _ (by omega) (inRange_mono (by omega) h6) (inRange_mono (by omega) h6'), chk_some hz']
    rfl
  · rw [hc']
    simp only [fTy, h2, h2']

theorem fShift_ok {Γ : Nat → Num} {env : Nat → Int} {v : Num} {l' : Nat} {a b c : F} {x y z : Int} {f : Int → Nat → Int} (ha : FInt Γ env v.width a x)
    (hb : FInt Γ env l' b y) (hv : Num.integral v = true) (hvb : v ≠ .pbool) (h0 : 0 ≤ y) (hy : y < v.width)
    (hf : f x y.toNat = z) (hz : Fits v z) (hc : evalF Γ env c = evalF.shift (evalF Γ env a) (evalF Γ env b) f)
    (hc' : fTy Γ c = fTy Γ (.lshift a b)) : FOk Γ env v c z := by
  obtain ⟨k, h1, h2, h3, h4, h5, h6⟩ := ha
  obtain ⟨k', h1', h2', h3', h4', h5', h6'⟩ := hb
  have hz' : InRange k z := inRange_mono (by omega) ((fits_of hv hvb).1 hz)
  refine fOk_int hvb ⟨k, ?_, ?_, by omega, by omega, by omega, hz'⟩
  · rw [hc, h1, h1']
    unfold evalF.shift
    simp only
    rw [if_pos ⟨h0, by omega⟩, hf, chk_some hz']
    rfl
  · rw [hc']
    simp only [fTy, h2, h2']

theorem resT_opW {o : Bin} {t u : Num} (ht : Num.integral t = true) (hu : Num.integral u = true) :
    (resT o t u).width ≤ max (opW t) (opW u) := by
  revert t u; cases o <;> decide

theorem resT_integral {o : Bin} {t u : Num} (ht : Num.integral t = true) (hu : Num.integral u = true) : Num.integral (resT o t u) = true := by
  revert t u; cases o <;> decide

/-! ### Parts of expressions that compile -/

theorem asInt_compiles {Γ : Nat → Num} {t : Num} {c : F} (h : fTy Γ (asInt t c) ≠ none) : fTy Γ c ≠ none := by
  intro hc
  apply h
  unfold asInt
  split
  · simp only [fTy, hc]
  · exact hc

theorem castF_compiles {Γ : Nat → Num} {t u : Num} {a : Expr} {c : F} (hc : toF Γ a = some c) (h : fTy Γ (castF t u a c) ≠ none) : fTy Γ c ≠ none := by
  intro hn
  apply h
  unfold castF
  split
  · split
    · exact hn
    · simp only [fTy, hn]
  · split
    · simp only [toF, Option.some.injEq] at hc
      subst hc
      simp [fTy] at hn
    · split <;> simp only [fTy, hn]

theorem coerceF_compiles {Γ : Nat → Num} {t u : Num} {a : Expr} {c : F} (hc : toF Γ a = some c) (h : fTy Γ (coerceF t u a c) ≠ none) :
    fTy Γ c ≠ none := by
  unfold coerceF at h
  split at h
  · exact h
  · exact castF_compiles hc h

/-- A Fortran operation with two operands. -/
inductive Two (Γ : Nat → Num) (a b : F) : F → Prop
  | add : Two Γ a b (.add a b)
  | sub : Two Γ a b (.sub a b)
  | mul : Two Γ a b (.mul a b)
  | iand : Two Γ a b (.iand a b)
  | ior : Two Γ a b (.ior a b)
  | ieor : Two Γ a b (.ieor a b)
  | lshift : Two Γ a b (.lshift a b)
  | rshift : Two Γ a b (.rshift a b)
  | modulo : Two Γ a b (.modulo a b)
  | floorDiv : Two Γ a b (.floorDiv a b)
  | cmp {o : Cmp} : Two Γ a b (.cmp o a b)
  | eqv : Two Γ a b (.eqv a b)
  | neqv : Two Γ a b (.neqv a b)
  | and : Two Γ a b (.and a b)
  | or : Two Γ a b (.or a b)

theorem two_compiles {Γ : Nat → Num} {a b c : F} (h : Two Γ a b c) (hc : fTy Γ c ≠ none) : fTy Γ a ≠ none ∧ fTy Γ b ≠ none := by
  constructor
  · intro hn
    apply hc
    cases h <;> simp only [fTy, hn]
  · intro hn
    apply hc
    cases h <;> (simp only [fTy, hn]; cases fTy Γ a with
      | none => rfl
      | some v => cases v <;> rfl)

/-- What is printed for a binary operation. -/
theorem toF_bin {Γ : Nat → Num} {o : Bin} {a b : Expr} {c : F} {ca cb : F} {ta tb t : Num} (ha : toF Γ a = some ca) (hb : toF Γ b = some cb)
    (sa : tyOf Γ a = some ta) (sb : tyOf Γ b = some tb) (ht : binT o ta tb = some t) (hc : toF Γ (.bin o a b) = some c) (hk : fTy Γ c ≠ none) :
    fTy Γ ca ≠ none ∧ fTy Γ cb ≠ none := by
  simp only [toF, ha, hb, sa, sb, ht, Option.some.injEq] at hc
  subst hc
  cases o with
  | add => have := two_compiles .add hk; exact ⟨asInt_compiles this.1, asInt_compiles this.2⟩
  | sub => have := two_compiles .sub hk; exact ⟨asInt_compiles this.1, asInt_compiles this.2⟩
  | mul => have := two_compiles .mul hk; exact ⟨asInt_compiles this.1, asInt_compiles this.2⟩
  | fdiv => have := two_compiles .floorDiv hk; exact ⟨coerceF_compiles ha this.1, coerceF_compiles hb this.2⟩
  | mod => exact two_compiles .modulo hk
  | shl => have := two_compiles .lshift hk; exact ⟨coerceF_compiles ha this.1, coerceF_compiles hb this.2⟩
  | shr => have := two_compiles .rshift hk; exact ⟨coerceF_compiles ha this.1, coerceF_compiles hb this.2⟩
  | band =>
    simp only at hk
    split at hk
    · have := two_compiles .and hk; exact ⟨coerceF_compiles ha this.1, coerceF_compiles hb this.2⟩
    · have := two_compiles .iand hk; exact ⟨coerceF_compiles ha this.1, coerceF_compiles hb this.2⟩
  | bor =>
    simp only at hk
    split at hk
    · have := two_compiles .or hk; exact ⟨coerceF_compiles ha this.1, coerceF_compiles hb this.2⟩
    · have := two_compiles .ior hk; exact ⟨coerceF_compiles ha this.1, coerceF_compiles hb this.2⟩
  | bxor =>
    simp only at hk
    split at hk
    · have := two_compiles .neqv hk; exact ⟨coerceF_compiles ha this.1, coerceF_compiles hb this.2⟩
    · have := two_compiles .ieor hk; exact ⟨coerceF_compiles ha this.1, coerceF_compiles hb this.2⟩

/-- One binary operation in Fortran. -/
theorem fBin_ok {Γ : Nat → Num} {env : Nat → Int} {o : Bin} {a b : Expr} {ca cb c : F} {ta tb : Num} {x y r : Int}
    (hta : Num.integral ta = true) (htb : Num.integral tb = true) (hca : toF Γ a = some ca) (hcb : toF Γ b = some cb)
    (ha : FOk Γ env ta ca x) (hb : FOk Γ env tb cb y) (fa : Fits ta x) (fb : Fits tb y)
    (sta : tyOf Γ a = some ta) (stb : tyOf Γ b = some tb) (hT : binT o ta tb = some (resT o ta tb))
    (hin : InT (resT o ta tb) x ∧ InT (resT o ta tb) y ∨ resT o ta tb = .pbool) (hr : intOp o x y = some r)
    (hfit : Fits (resT o ta tb) r) (hsh : o = .shl ∨ o = .shr → y < (resT o ta tb).width)
    (hc : toF Γ (.bin o a b) = some c) (hk : fTy Γ c ≠ none) : FOk Γ env (resT o ta tb) c r := by
  simp only [toF, hca, hcb, sta, stb, hT, Option.some.injEq] at hc
  subst hc
  by_cases hbool : resT o ta tb = .pbool
  · obtain ⟨e1, e2, ho⟩ := resT_bool hta htb hbool
    subst e1 e2
    obtain ⟨h1, h2⟩ := ha.log
    obtain ⟨h1', h2'⟩ := hb.log
    rw [hbool]
    simp only [FOk, if_true]
    rcases ho with rfl | rfl | rfl
    · simp only [hbool, if_true, coerceF]
      refine ⟨?_, by simp only [fTy, h2, h2']⟩
      simp only [evalF, h1, h1', evalF.both]
      simp only [intOp, Option.some.injEq] at hr
      subst hr
      rcases fa with rfl | rfl <;> rcases fb with rfl | rfl <;> rfl
    · simp only [hbool, if_true, coerceF]
      refine ⟨?_, by simp only [fTy, h2, h2']⟩
      simp only [evalF, h1, h1', evalF.both]
      simp only [intOp, Option.some.injEq] at hr
      subst hr
      rcases fa with rfl | rfl <;> rcases fb with rfl | rfl <;> rfl
    · simp only [hbool, if_true, coerceF]
      refine ⟨?_, by simp only [fTy, h2, h2']⟩
      simp only [evalF, h1, h1', evalF.both]
      simp only [intOp, Option.some.injEq] at hr
      subst hr
      rcases fa with rfl | rfl <;> rcases fb with rfl | rfl <;> rfl
  · have hin := hin.resolve_right hbool
    have hint := resT_integral (o := o) hta htb
    have fx : Fits (resT o ta tb) x := fits_inT hint hbool hta fa hin.1
    have fy : Fits (resT o ta tb) y := fits_inT hint hbool htb fb hin.2
    have hw := width_cases hint hbool
    have hoW := resT_opW (o := o) hta htb
    have hcoa := coerceF_ok hint hbool hca ha fa fx
    have hcob := coerceF_ok hint hbool hcb hb fb fy
    have hia := asInt_ok ha fa
    have hib := asInt_ok hb fb
    generalize ht : resT o ta tb = t at *
    cases o with
    | add =>
      simp only [intOp, Option.some.injEq] at hr
      exact fArith_ok hia hib hint hbool hoW (fun _ _ _ _ => hr) hfit rfl rfl
    | sub =>
      simp only [intOp, Option.some.injEq] at hr
      exact fArith_ok hia hib hint hbool hoW (fun _ _ _ _ => hr) hfit rfl rfl
    | mul =>
      simp only [intOp, Option.some.injEq] at hr
      exact fArith_ok hia hib hint hbool hoW (fun _ _ _ _ => hr) hfit rfl rfl
    | fdiv =>
      obtain ⟨k, h1, h2, h3, h4, h5, h6⟩ := hcoa
      obtain ⟨k', h1', h2', h3', h4', h5', h6'⟩ := hcob
      have hkk : k = k' := by
        by_contra hne
        apply hk
        simp only [fTy, h2, h2', if_neg hne]
      subst hkk
      simp only [intOp] at hr
      split at hr
      · cases hr
      · next hy0 =>
        simp only [Option.some.injEq] at hr
        have rr : InRange k r := inRange_mono h3 ((fits_of hint hbool).1 hfit)
        have hd := fdiv_isDivMod (x := x) hy0
        have hov : ¬ (x = -(2 : Int) ^ (k - 1) ∧ y = -1) := by
          rintro ⟨rfl, rfl⟩
          exact C01_overflow_pair _ _ _ hd (hr ▸ rr)
        obtain ⟨q, s, e1, e2⟩ := C01_floor_div_fortran k x y h6 h6' hy0 hov
        obtain ⟨e3, -⟩ := isDivMod_unique hd e2
        refine fOk_int hbool ⟨k, ?_, by simp only [fTy, h2, h2', if_true], h3, h4, h5, rr⟩
        simp only [evalF, h1, h1']
        rw [e1, ← e3, hr]
        rfl
    | mod =>
      have hk2 := two_compiles .modulo hk
      have hba : ta ≠ .pbool := by
        rintro rfl
        apply hk
        simp only [fTy, ha.log.2]
      have hbb : tb ≠ .pbool := by
        rintro rfl
        apply hk
        obtain ⟨k, -, h2, -⟩ := ha.int hba
        simp only [fTy, hb.log.2, h2]
      obtain ⟨k, h1, h2, h3, h4, h5, h6⟩ := ha.int hba
      obtain ⟨k', h1', h2', h3', h4', h5', h6'⟩ := hb.int hbb
      simp only [opW, if_neg hba, if_neg hbb] at hoW
      simp only [intOp] at hr
      split at hr
      · cases hr
      · next hy0 =>
        simp only [Option.some.injEq] at hr
        have hd := fdiv_isDivMod (x := x) hy0
        obtain ⟨q, s, e1, e2⟩ := C02_modulo_fortran x y hy0
        obtain ⟨-, e3⟩ := isDivMod_unique hd e2
        refine fOk_int hbool ⟨max k k', ?_, by simp only [fTy, h2, h2'], by omega, by omega, by omega, inRange_mono (by omega) ((fits_of hint hbool).1 hfit)⟩
        simp only [evalF, h1, h1']
        rw [e1, ← e3, hr]
        rfl
    | shl =>
      simp only [intOp] at hr
      split at hr
      · cases hr
      · next hy0 =>
        simp only [Option.some.injEq] at hr
        exact fShift_ok hcoa hcob hint hbool (by omega) (hsh (by simp)) hr hfit rfl rfl
    | shr =>
      simp only [intOp] at hr
      split at hr
      · cases hr
      · next hy0 =>
        simp only [Option.some.injEq] at hr
        exact fShift_ok hcoa hcob hint hbool (by omega) (hsh (by simp)) ((shiftRight_fdiv x _).trans hr) hfit rfl rfl
    | band =>
      simp only [if_neg hbool]
      simp only [intOp, Option.some.injEq] at hr
      exact fArith_ok hcoa hcob hint hbool (by omega) (fun w hw' h1 h2 => ((bits_and (by omega) h1 h2).1).trans hr) hfit rfl rfl
    | bor =>
      simp only [if_neg hbool]
      simp only [intOp, Option.some.injEq] at hr
      exact fArith_ok hcoa hcob hint hbool (by omega) (fun w hw' h1 h2 => ((bits_or (by omega) h1 h2).1).trans hr) hfit rfl rfl
    | bxor =>
      simp only [if_neg hbool]
      simp only [intOp, Option.some.injEq] at hr
      exact fArith_ok hcoa hcob hint hbool (by omega) (fun w hw' h1 h2 => ((bits_xor (by omega) h1 h2).1).trans hr) hfit rfl rfl

theorem toF_some {Γ : Nat → Num} {e : Expr} (h : Agree Γ e) : ∃ c, toF Γ e = some c := by
  induction e with
  | lit n => exact ⟨_, rfl⟩
  | bool b => exact ⟨_, rfl⟩
  | var x => exact ⟨_, rfl⟩
  | bin o a b iha ihb =>
    obtain ⟨hs, ha, hb⟩ := h
    obtain ⟨ca, hca⟩ := iha ha
    obtain ⟨cb, hcb⟩ := ihb hb
    obtain ⟨ta, _, h1, h1'⟩ := ha.same
    obtain ⟨tb, _, h2, h2'⟩ := hb.same
    have := binT_same hs h1 h2 h1' h2'
    exact ⟨_, by simp only [toF, hca, hcb, h1, h2, this]; rfl⟩
  | neg a ih => obtain ⟨c, hc⟩ := ih h.2; exact ⟨_, by simp only [toF, hc]; rfl⟩
  | inv a ih =>
    obtain ⟨c, hc⟩ := ih h.2
    obtain ⟨ta, _, h1, _⟩ := h.2.same
    exact ⟨_, by simp only [toF, hc, h1]; rfl⟩
  | abs a ih => obtain ⟨c, hc⟩ := ih h.2; exact ⟨_, by simp only [toF, hc]; rfl⟩
  | cmp o a b iha ihb =>
    obtain ⟨ca, hca⟩ := iha h.2.1
    obtain ⟨cb, hcb⟩ := ihb h.2.2
    obtain ⟨ta, _, h1, _⟩ := h.2.1.same
    obtain ⟨tb, _, h2, _⟩ := h.2.2.same
    exact ⟨_, by simp only [toF, hca, hcb, h1, h2]; rfl⟩
  | land a b iha ihb =>
    obtain ⟨ca, hca⟩ := iha h.2.1
    obtain ⟨cb, hcb⟩ := ihb h.2.2
    exact ⟨_, by simp only [toF, hca, hcb]; rfl⟩
  | lor a b iha ihb =>
    obtain ⟨ca, hca⟩ := iha h.2.1
    obtain ⟨cb, hcb⟩ := ihb h.2.2
    exact ⟨_, by simp only [toF, hca, hcb]; rfl⟩
  | lnot a ih => obtain ⟨c, hc⟩ := ih h.2; exact ⟨_, by simp only [toF, hc]; rfl⟩
  | cast t a ih =>
    obtain ⟨c, hc⟩ := ih h.2
    obtain ⟨ta, _, h1, _⟩ := h.2.same
    exact ⟨_, by simp only [toF, hc, h1]; rfl⟩

theorem fOk_log {Γ : Nat → Num} {env : Nat → Int} {c : F} {x : Int} (h1 : evalF Γ env c = some (0, x)) (h2 : fTy Γ c = some .logical) :
    FOk Γ env .pbool c x := by
  simp only [FOk, if_true]; exact ⟨h1, h2⟩

theorem cmpF_compiles {Γ : Nat → Num} {o : Cmp} {ta tb : Num} {c d : F} (hk : fTy Γ (cmpF o ta tb c d) ≠ none) :
    fTy Γ c ≠ none ∧ fTy Γ d ≠ none := by
  cases o <;> simp only [cmpF] at hk
  case eq =>
    split at hk
    · exact two_compiles .eqv hk
    · exact two_compiles .cmp hk
  case ne =>
    split at hk
    · exact two_compiles .neqv hk
    · exact two_compiles .cmp hk
  all_goals
    have := two_compiles .cmp hk
    exact ⟨asInt_compiles this.1, asInt_compiles this.2⟩

theorem cmpF_ok {Γ : Nat → Num} {env : Nat → Int} {o : Cmp} {ta tb : Num} {c d : F} {x y : Int} (ha : FOk Γ env ta c x) (hb : FOk Γ env tb d y)
    (fa : Fits ta x) (fb : Fits tb y) (hk : fTy Γ (cmpF o ta tb c d) ≠ none) :
    FOk Γ env .pbool (cmpF o ta tb c d) (ofBool (intCmp o x y)) := by
  have hia := asInt_ok ha fa
  have hib := asInt_ok hb fb
  have ord : ∀ o : Cmp, FOk Γ env .pbool (.cmp o (asInt ta c) (asInt tb d)) (ofBool (intCmp o x y)) := by
    intro o
    obtain ⟨k, h1, h2, -⟩ := hia
    obtain ⟨k', h1', h2', -⟩ := hib
    exact fOk_log (by simp only [evalF, h1, h1', evalF.both]) (by simp only [fTy, h2, h2'])
  have same : ∀ o : Cmp, fTy Γ (.cmp o c d) ≠ none → FOk Γ env .pbool (.cmp o c d) (ofBool (intCmp o x y)) := by
    intro o hk'
    have hba : ta ≠ .pbool := by
      rintro rfl
      apply hk'
      simp only [fTy, ha.log.2]
    have hbb : tb ≠ .pbool := by
      rintro rfl
      apply hk'
      obtain ⟨k, -, h2, -⟩ := ha.int hba
      simp only [fTy, hb.log.2, h2]
    obtain ⟨k, h1, h2, -⟩ := ha.int hba
    obtain ⟨k', h1', h2', -⟩ := hb.int hbb
    exact fOk_log (by simp only [evalF, h1, h1', evalF.both]) (by simp only [fTy, h2, h2'])
  cases o <;> simp only [cmpF] at hk ⊢
  case eq =>
    split
    · next h =>
      obtain ⟨rfl, rfl⟩ := h
      exact fOk_log (by simp only [evalF, ha.log.1, hb.log.1, evalF.both, intCmp]) (by simp only [fTy, ha.log.2, hb.log.2])
    · next h => rw [if_neg h] at hk; exact same _ hk
  case ne =>
    split
    · next h =>
      obtain ⟨rfl, rfl⟩ := h
      exact fOk_log (by simp only [evalF, ha.log.1, hb.log.1, evalF.both, intCmp]) (by simp only [fTy, ha.log.2, hb.log.2])
    · next h => rw [if_neg h] at hk; exact same _ hk
  all_goals exact ord _

end Verif.Scalars
