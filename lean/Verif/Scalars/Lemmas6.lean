import Verif.Scalars.Lemmas5

/-
Expressions of Python types, and arithmetic that wraps around.
-/
namespace Verif.Scalars
open Verif.Types.Spec (Num)
open Verif.IntMath
open Verif.IntMath.Spec (InRange IsDivMod)

/-- `bool` and `int` only. -/
def PyTy (t : Num) : Prop := t = .pbool ∨ t = .pint

instance (t : Num) : Decidable (PyTy t) := by unfold PyTy; infer_instance

/-- No NumPy types: variables and casts have the types `bool` and `int`. -/
def PyOnly (Γ : Nat → Num) : Expr → Prop
  | .lit _ | .bool _ => True
  | .var x => PyTy (Γ x)
  | .bin _ a b | .cmp _ a b | .land a b | .lor a b => PyOnly Γ a ∧ PyOnly Γ b
  | .neg a | .inv a | .abs a | .lnot a => PyOnly Γ a
  | .cast t a => PyTy t ∧ PyOnly Γ a

/-- The expression has a type, and `-` and `abs` are not applied to truth values. -/
def NoNegBool (Γ : Nat → Num) : Expr → Prop
  | .lit _ | .bool _ | .var _ => True
  | .bin _ a b | .cmp _ a b => NoNegBool Γ a ∧ NoNegBool Γ b
  | .land a b | .lor a b => NoNegBool Γ a ∧ NoNegBool Γ b ∧ npTy Γ a = some .pbool ∧ npTy Γ b = some .pbool
  | .inv a | .cast _ a => NoNegBool Γ a
  | .lnot a => NoNegBool Γ a ∧ npTy Γ a = some .pbool
  | .neg a | .abs a => NoNegBool Γ a ∧ npTy Γ a = some .pint

theorem py_bin {o : Bin} {t u : Num} (ht : PyTy t) (hu : PyTy u) : PyTy (resT o t u) ∧ binT o t u = some (resT o t u) := by
  rcases ht with rfl | rfl <;> rcases hu with rfl | rfl <;> cases o <;> decide

theorem PyTy.integral {t : Num} (h : PyTy t) : Num.integral t = true := by rcases h with rfl | rfl <;> rfl

theorem py_agree {Γ : Nat → Num} {e : Expr} : PyOnly Γ e → NoNegBool Γ e → Agree Γ e ∧ ∃ t, PyTy t ∧ tyOf Γ e = some t ∧ npTy Γ e = some t := by
  have fin : ∀ {e : Expr} {t : Num}, PyTy t → tyOf Γ e = some t → npTy Γ e = some t →
      SameTy Γ e ∧ ∃ t, PyTy t ∧ tyOf Γ e = some t ∧ npTy Γ e = some t :=
    fun h h1 h2 => ⟨⟨_, h.integral, h1, h2⟩, _, h, h1, h2⟩
  induction e with
  | lit n => intro _ _; exact fin (Or.inr rfl) rfl rfl
  | bool b => intro _ _; exact fin (Or.inl rfl) rfl rfl
  | var x => intro h _; exact fin h rfl rfl
  | bin o a b iha ihb =>
    intro h hn
    obtain ⟨ha, ta, h1, h2, h3⟩ := iha h.1 hn.1
    obtain ⟨hb, tb, h1', h2', h3'⟩ := ihb h.2 hn.2
    obtain ⟨p1, p2⟩ := py_bin (o := o) h1 h1'
    have := fin (e := .bin o a b) p1 (by simp only [tyOf, h2, h2', p2]) (by simp only [npTy, h3, h3'])
    exact ⟨⟨this.1, ha, hb⟩, this.2⟩
  | neg a ih =>
    intro h hn
    obtain ⟨ha, ta, h1, h2, h3⟩ := ih h hn.1
    have e : ta = .pint := by have := hn.2; rw [h3] at this; exact Option.some.inj this
    subst e
    have := fin (e := .neg a) (Or.inr rfl) (by simp only [tyOf, h2]) (by simp only [npTy, h3]; rfl)
    exact ⟨⟨this.1, ha⟩, this.2⟩
  | inv a ih =>
    intro h hn
    obtain ⟨ha, ta, h1, h2, h3⟩ := ih h hn
    have := fin (e := .inv a) (t := .pint) (Or.inr rfl) (by simp only [tyOf, h2]; rfl) (by simp only [npTy, h3]; rcases h1 with rfl | rfl <;> rfl)
    exact ⟨⟨this.1, ha⟩, this.2⟩
  | abs a ih =>
    intro h hn
    obtain ⟨ha, ta, h1, h2, h3⟩ := ih h hn.1
    have e : ta = .pint := by have := hn.2; rw [h3] at this; exact Option.some.inj this
    subst e
    have := fin (e := .abs a) (t := .pint) (Or.inr rfl) (by simp only [tyOf, h2]; rfl) (by simp only [npTy, h3]; rfl)
    exact ⟨⟨this.1, ha⟩, this.2⟩
  | cmp o a b iha ihb =>
    intro h hn
    obtain ⟨ha, ta, h1, h2, h3⟩ := iha h.1 hn.1
    obtain ⟨hb, tb, h1', h2', h3'⟩ := ihb h.2 hn.2
    have := fin (e := .cmp o a b) (t := .pbool) (Or.inl rfl) (by simp only [tyOf, h2, h2']) (by simp only [npTy, h3, h3'])
    exact ⟨⟨this.1, ha, hb⟩, this.2⟩
  | land a b iha ihb =>
    intro h hn
    obtain ⟨n1, n2, n3, n4⟩ := hn
    obtain ⟨ha, ta, h1, h2, h3⟩ := iha h.1 n1
    obtain ⟨hb, tb, h1', h2', h3'⟩ := ihb h.2 n2
    rw [n3] at h3; rw [n4] at h3'
    cases h3; cases h3'
    have := fin (e := .land a b) (t := .pbool) (Or.inl rfl) (by simp only [tyOf, h2, h2']) (by simp only [npTy, n3, n4])
    exact ⟨⟨this.1, ha, hb⟩, this.2⟩
  | lor a b iha ihb =>
    intro h hn
    obtain ⟨n1, n2, n3, n4⟩ := hn
    obtain ⟨ha, ta, h1, h2, h3⟩ := iha h.1 n1
    obtain ⟨hb, tb, h1', h2', h3'⟩ := ihb h.2 n2
    rw [n3] at h3; rw [n4] at h3'
    cases h3; cases h3'
    have := fin (e := .lor a b) (t := .pbool) (Or.inl rfl) (by simp only [tyOf, h2, h2']) (by simp only [npTy, n3, n4])
    exact ⟨⟨this.1, ha, hb⟩, this.2⟩
  | lnot a ih =>
    intro h hn
    obtain ⟨n1, n2⟩ := hn
    obtain ⟨ha, ta, h1, h2, h3⟩ := ih h n1
    rw [n2] at h3
    cases h3
    have := fin (e := .lnot a) (t := .pbool) (Or.inl rfl) (by simp only [tyOf, h2]) (by simp only [npTy, n2])
    exact ⟨⟨this.1, ha⟩, this.2⟩
  | cast t a ih =>
    intro h hn
    obtain ⟨ha, ta, h1, h2, h3⟩ := ih h.2 hn
    have := fin (e := .cast t a) h.1 (by simp only [tyOf, h2]; rfl) (by simp only [npTy, h3]; rfl)
    exact ⟨⟨this.1, ha⟩, this.2⟩

/-- No `==` or `!=` between a truth value and a number, and no `%` with a truth value. -/
def FGood (Γ : Nat → Num) : Expr → Prop
  | .lit _ | .bool _ | .var _ => True
  | .bin o a b => FGood Γ a ∧ FGood Γ b ∧ (o = .mod → npTy Γ a ≠ some .pbool ∧ npTy Γ b ≠ some .pbool)
  | .cmp o a b => FGood Γ a ∧ FGood Γ b ∧ (o = .eq ∨ o = .ne → npTy Γ a = npTy Γ b)
  | .land a b | .lor a b => FGood Γ a ∧ FGood Γ b
  | .neg a | .inv a | .abs a | .lnot a | .cast _ a => FGood Γ a

/-- The Fortran type of an expression of a Python type. -/
def pyF (t : Num) : FTy := if t = .pbool then .logical else .int 64

theorem pyF_var {t : Num} (h : PyTy t) : fVarTy t = pyF t := by rcases h with rfl | rfl <;> rfl

theorem py_asInt {Γ : Nat → Num} {t : Num} {c : F} (h : PyTy t) (hc : fTy Γ c = some (pyF t)) : fTy Γ (asInt t c) = some (.int 64) := by
  rcases h with rfl | rfl
  · simp only [asInt, if_true, fTy, hc, pyF]
  · simpa [asInt, pyF] using hc

theorem py_castF {Γ : Nat → Num} {s t : Num} {a : Expr} {c : F} (hs : PyTy s) (h : PyTy t) (ha : toF Γ a = some c) (hc : fTy Γ c = some (pyF t)) :
    fTy Γ (castF s t a c) = some (pyF s) := by
  unfold castF
  rcases hs with rfl | rfl
  · rw [if_pos rfl]
    rcases h with rfl | rfl
    · simpa using hc
    · rw [if_neg (by decide)]
      have hc : fTy Γ c = some (.int 64) := hc
      simp only [fTy, hc]
      rfl
  · rw [if_neg (by decide)]
    split
    · rfl
    · rcases h with rfl | rfl
      · have hc : fTy Γ c = some .logical := hc
        simp only [if_true, fTy, hc]; rfl
      · have hc : fTy Γ c = some (.int 64) := hc
        rw [if_neg (by decide)]; simp only [fTy, hc]; rfl

theorem py_coerceF {Γ : Nat → Num} {s t : Num} {a : Expr} {c : F} (hs : PyTy s) (h : PyTy t) (ha : toF Γ a = some c) (hc : fTy Γ c = some (pyF t)) :
    fTy Γ (coerceF s t a c) = some (pyF s) := by
  unfold coerceF
  split
  · next e => subst e; exact hc
  · exact py_castF hs h ha hc

/-- Expressions of Python types compile in Fortran if and only if they satisfy `FGood`. -/
theorem py_fTy {Γ : Nat → Num} {e : Expr} : ∀ {c : F}, PyOnly Γ e → NoNegBool Γ e → toF Γ e = some c →
    (FGood Γ e → ∃ t, PyTy t ∧ tyOf Γ e = some t ∧ fTy Γ c = some (pyF t)) ∧ (fTy Γ c ≠ none → FGood Γ e) := by
  induction e with
  | lit n =>
    intro c _ _ hc
    simp only [toF, Option.some.injEq] at hc
    subst hc
    exact ⟨fun _ => ⟨.pint, Or.inr rfl, rfl, rfl⟩, fun _ => trivial⟩
  | bool b =>
    intro c _ _ hc
    simp only [toF, Option.some.injEq] at hc
    subst hc
    exact ⟨fun _ => ⟨.pbool, Or.inl rfl, rfl, rfl⟩, fun _ => trivial⟩
  | var x =>
    intro c h _ hc
    simp only [toF, Option.some.injEq] at hc
    subst hc
    exact ⟨fun _ => ⟨Γ x, h, rfl, by simp only [fTy, pyF_var h]⟩, fun _ => trivial⟩
  | bin o a b iha ihb =>
    intro c h hn hc
    obtain ⟨ha, ta, pa, h2, h3⟩ := py_agree h.1 hn.1
    obtain ⟨hb, tb, pb, h2', h3'⟩ := py_agree h.2 hn.2
    obtain ⟨ca, hca⟩ := toF_some ha
    obtain ⟨cb, hcb⟩ := toF_some hb
    obtain ⟨p1, p2⟩ := py_bin (o := o) pa pb
    constructor
    · intro hg
      obtain ⟨ga, gb, gm⟩ := hg
      obtain ⟨ta', _, s1, k1⟩ := (iha h.1 hn.1 hca).1 ga
      obtain ⟨tb', _, s2, k2⟩ := (ihb h.2 hn.2 hcb).1 gb
      rw [h2] at s1; rw [h2'] at s2
      cases s1; cases s2
      refine ⟨resT o ta tb, p1, by simp only [tyOf, h2, h2', p2], ?_⟩
      simp only [toF, hca, hcb, h2, h2', p2, Option.some.injEq] at hc
      subst hc
      have ia := py_asInt pa k1
      have ib := py_asInt pb k2
      have oa := py_coerceF p1 pa hca k1
      have ob := py_coerceF p1 pb hcb k2
      generalize ht : resT o ta tb = t at *
      have hpint : (o ≠ .band ∧ o ≠ .bor ∧ o ≠ .bxor) → t = .pint := by
        intro ho
        subst ht
        clear * - pa pb ho
        rcases pa with rfl | rfl <;> rcases pb with rfl | rfl <;> cases o <;> first | rfl | simp at ho
      cases o with
      | add => rw [hpint (by decide)]; simp only [fTy, ia, ib]; rfl
      | sub => rw [hpint (by decide)]; simp only [fTy, ia, ib]; rfl
      | mul => rw [hpint (by decide)]; simp only [fTy, ia, ib]; rfl
      | fdiv => rw [hpint (by decide)] at oa ob ⊢; have oa : _ = some (FTy.int 64) := oa; have ob : _ = some (FTy.int 64) := ob; simp only [fTy, oa, ob]; rfl
      | mod =>
        obtain ⟨m1, m2⟩ := gm rfl
        have e1 : ta = .pint := by rcases pa with rfl | rfl; exact absurd h3 m1; rfl
        have e2 : tb = .pint := by rcases pb with rfl | rfl; exact absurd h3' m2; rfl
        subst e1 e2
        have k1 : fTy Γ ca = some (.int 64) := k1
        have k2 : fTy Γ cb = some (.int 64) := k2
        rw [hpint (by decide)]; simp only [fTy, k1, k2]; rfl
      | shl => rw [hpint (by decide)] at oa ob ⊢; have oa : _ = some (FTy.int 64) := oa; have ob : _ = some (FTy.int 64) := ob; simp only [fTy, oa, ob]; rfl
      | shr => rw [hpint (by decide)] at oa ob ⊢; have oa : _ = some (FTy.int 64) := oa; have ob : _ = some (FTy.int 64) := ob; simp only [fTy, oa, ob]; rfl
      | band =>
        rcases p1 with rfl | rfl
        · have oa : _ = some FTy.logical := oa; have ob : _ = some FTy.logical := ob; simp only [if_true, fTy, oa, ob]; rfl
        · have oa : _ = some (FTy.int 64) := oa; have ob : _ = some (FTy.int 64) := ob; simp only [if_neg (show ¬ Num.pint = Num.pbool by decide), fTy, oa, ob]; rfl
      | bor =>
        rcases p1 with rfl | rfl
        · have oa : _ = some FTy.logical := oa; have ob : _ = some FTy.logical := ob; simp only [if_true, fTy, oa, ob]; rfl
        · have oa : _ = some (FTy.int 64) := oa; have ob : _ = some (FTy.int 64) := ob; simp only [if_neg (show ¬ Num.pint = Num.pbool by decide), fTy, oa, ob]; rfl
      | bxor =>
        rcases p1 with rfl | rfl
        · have oa : _ = some FTy.logical := oa; have ob : _ = some FTy.logical := ob; simp only [if_true, fTy, oa, ob]; rfl
        · have oa : _ = some (FTy.int 64) := oa; have ob : _ = some (FTy.int 64) := ob; simp only [if_neg (show ¬ Num.pint = Num.pbool by decide), fTy, oa, ob]; rfl
    · intro hk
      obtain ⟨ka, kb⟩ := toF_bin hca hcb h2 h2' p2 hc hk
      have ga := (iha h.1 hn.1 hca).2 ka
      have gb := (ihb h.2 hn.2 hcb).2 kb
      refine ⟨ga, gb, ?_⟩
      rintro rfl
      obtain ⟨ta', _, s1, k1⟩ := (iha h.1 hn.1 hca).1 ga
      obtain ⟨tb', _, s2, k2⟩ := (ihb h.2 hn.2 hcb).1 gb
      rw [h2] at s1; rw [h2'] at s2
      cases s1; cases s2
      simp only [toF, hca, hcb, h2, h2', p2, Option.some.injEq] at hc
      subst hc
      constructor
      · intro hh
        rw [h3] at hh
        cases hh
        have k1 : fTy Γ ca = some .logical := k1
        exact hk (by simp only [fTy, k1])
      · intro hh
        rw [h3'] at hh
        cases hh
        have k2 : fTy Γ cb = some .logical := k2
        apply hk
        simp only [fTy, k1, k2]
        rcases pa with rfl | rfl <;> rfl
  | neg a ih =>
    intro c h hn hc
    obtain ⟨ha, ta, pa, h2, h3⟩ := py_agree (e := a) h hn.1
    obtain ⟨ca, hca⟩ := toF_some ha
    simp only [toF, hca, Option.map_some, Option.some.injEq] at hc
    subst hc
    have e : ta = .pint := by have := hn.2; rw [h3] at this; exact Option.some.inj this
    subst e
    refine ⟨fun hg => ?_, fun hk => (ih h hn.1 hca).2 (fun hh => hk (by simp only [fTy, hh]))⟩
    obtain ⟨t', _, s1, k1⟩ := (ih h hn.1 hca).1 hg
    rw [h2] at s1
    cases s1
    have k1 : fTy Γ ca = some (.int 64) := k1
    exact ⟨.pint, Or.inr rfl, by simp only [tyOf, h2], by simp only [fTy, k1]; rfl⟩
  | inv a ih =>
    intro c h hn hc
    obtain ⟨ha, ta, pa, h2, h3⟩ := py_agree (e := a) h hn
    obtain ⟨ca, hca⟩ := toF_some ha
    simp only [toF, hca, h2, Option.some.injEq] at hc
    subst hc
    refine ⟨fun hg => ?_, fun hk => (ih h hn hca).2 (coerceF_compiles (t := .pint) (u := ta) hca (fun hh => hk (by simp only [fTy, hh])))⟩
    obtain ⟨t', _, s1, k1⟩ := (ih h hn hca).1 hg
    rw [h2] at s1
    cases s1
    have k2 : _ = some (FTy.int 64) := py_coerceF (s := .pint) (Or.inr rfl) pa hca k1
    exact ⟨.pint, Or.inr rfl, by simp only [tyOf, h2]; rfl, by simp only [fTy, k2]; rfl⟩
  | abs a ih =>
    intro c h hn hc
    obtain ⟨ha, ta, pa, h2, h3⟩ := py_agree (e := a) h hn.1
    obtain ⟨ca, hca⟩ := toF_some ha
    simp only [toF, hca, Option.map_some, Option.some.injEq] at hc
    subst hc
    have e : ta = .pint := by have := hn.2; rw [h3] at this; exact Option.some.inj this
    subst e
    refine ⟨fun hg => ?_, fun hk => (ih h hn.1 hca).2 (fun hh => hk (by simp only [fTy, hh]))⟩
    obtain ⟨t', _, s1, k1⟩ := (ih h hn.1 hca).1 hg
    rw [h2] at s1
    cases s1
    have k1 : fTy Γ ca = some (.int 64) := k1
    exact ⟨.pint, Or.inr rfl, by simp only [tyOf, h2]; rfl, by simp only [fTy, k1]; rfl⟩
  | cmp o a b iha ihb =>
    intro c h hn hc
    obtain ⟨ha, ta, pa, h2, h3⟩ := py_agree h.1 hn.1
    obtain ⟨hb, tb, pb, h2', h3'⟩ := py_agree h.2 hn.2
    obtain ⟨ca, hca⟩ := toF_some ha
    obtain ⟨cb, hcb⟩ := toF_some hb
    simp only [toF, hca, hcb, h2, h2', Option.some.injEq] at hc
    subst hc
    constructor
    · intro hg
      obtain ⟨ga, gb, gm⟩ := hg
      obtain ⟨ta', _, s1, k1⟩ := (iha h.1 hn.1 hca).1 ga
      obtain ⟨tb', _, s2, k2⟩ := (ihb h.2 hn.2 hcb).1 gb
      rw [h2] at s1; rw [h2'] at s2
      cases s1; cases s2
      refine ⟨.pbool, Or.inl rfl, by simp only [tyOf, h2, h2'], ?_⟩
      have ia := py_asInt pa k1
      have ib := py_asInt pb k2
      have eqs : ta = tb → ∀ o : Cmp, ¬ (ta = .pbool ∧ tb = .pbool) → fTy Γ (.cmp o ca cb) = some .logical := by
        rintro rfl o hh
        have e : ta = .pint := by rcases pa with rfl | rfl; exact absurd ⟨rfl, rfl⟩ hh; rfl
        subst e
        have k1 : fTy Γ ca = some (.int 64) := k1
        have k2 : fTy Γ cb = some (.int 64) := k2
        simp only [fTy, k1, k2]
      cases o <;> simp only [cmpF]
      case eq =>
        have e : ta = tb := by have := gm (Or.inl rfl); rw [h3, h3'] at this; exact Option.some.inj this
        split
        · next hh =>
          obtain ⟨rfl, rfl⟩ := hh
          have k1 : fTy Γ ca = some .logical := k1
          have k2 : fTy Γ cb = some .logical := k2
          simp only [fTy, k1, k2]; rfl
        · next hh => exact eqs e _ hh
      case ne =>
        have e : ta = tb := by have := gm (Or.inr rfl); rw [h3, h3'] at this; exact Option.some.inj this
        split
        · next hh =>
          obtain ⟨rfl, rfl⟩ := hh
          have k1 : fTy Γ ca = some .logical := k1
          have k2 : fTy Γ cb = some .logical := k2
          simp only [fTy, k1, k2]; rfl
        · next hh => exact eqs e _ hh
      all_goals simp only [fTy, ia, ib]; rfl
    · intro hk
      obtain ⟨ka, kb⟩ := cmpF_compiles hk
      have ga := (iha h.1 hn.1 hca).2 ka
      have gb := (ihb h.2 hn.2 hcb).2 kb
      refine ⟨ga, gb, ?_⟩
      obtain ⟨ta', _, s1, k1⟩ := (iha h.1 hn.1 hca).1 ga
      obtain ⟨tb', _, s2, k2⟩ := (ihb h.2 hn.2 hcb).1 gb
      rw [h2] at s1; rw [h2'] at s2
      cases s1; cases s2
      intro ho
      rw [h3, h3']
      rcases pa with rfl | rfl <;> rcases pb with rfl | rfl
      · rfl
      · have k1 : fTy Γ ca = some .logical := k1
        exfalso; apply hk
        rcases ho with rfl | rfl <;> simp [cmpF, fTy, k1]
      · have k1 : fTy Γ ca = some (.int 64) := k1
        have k2 : fTy Γ cb = some .logical := k2
        exfalso; apply hk
        rcases ho with rfl | rfl <;> simp [cmpF, fTy, k1, k2]
      · rfl
  | land a b iha ihb =>
    intro c h hn hc
    obtain ⟨n1, n2, n3, n4⟩ := hn
    obtain ⟨ha, ta, pa, h2, h3⟩ := py_agree h.1 n1
    obtain ⟨hb, tb, pb, h2', h3'⟩ := py_agree h.2 n2
    obtain ⟨ca, hca⟩ := toF_some ha
    obtain ⟨cb, hcb⟩ := toF_some hb
    simp only [toF, hca, hcb, Option.some.injEq] at hc
    subst hc
    rw [n3] at h3; rw [n4] at h3'
    cases h3; cases h3'
    constructor
    · intro hg
      obtain ⟨ta', _, s1, k1⟩ := (iha h.1 n1 hca).1 hg.1
      obtain ⟨tb', _, s2, k2⟩ := (ihb h.2 n2 hcb).1 hg.2
      rw [h2] at s1; rw [h2'] at s2
      cases s1; cases s2
      have k1 : fTy Γ ca = some .logical := k1
      have k2 : fTy Γ cb = some .logical := k2
      exact ⟨.pbool, Or.inl rfl, by simp only [tyOf, h2, h2'], by simp only [fTy, k1, k2]; rfl⟩
    · intro hk
      obtain ⟨ka, kb⟩ := two_compiles .and hk
      exact ⟨(iha h.1 n1 hca).2 ka, (ihb h.2 n2 hcb).2 kb⟩
  | lor a b iha ihb =>
    intro c h hn hc
    obtain ⟨n1, n2, n3, n4⟩ := hn
    obtain ⟨ha, ta, pa, h2, h3⟩ := py_agree h.1 n1
    obtain ⟨hb, tb, pb, h2', h3'⟩ := py_agree h.2 n2
    obtain ⟨ca, hca⟩ := toF_some ha
    obtain ⟨cb, hcb⟩ := toF_some hb
    simp only [toF, hca, hcb, Option.some.injEq] at hc
    subst hc
    rw [n3] at h3; rw [n4] at h3'
    cases h3; cases h3'
    constructor
    · intro hg
      obtain ⟨ta', _, s1, k1⟩ := (iha h.1 n1 hca).1 hg.1
      obtain ⟨tb', _, s2, k2⟩ := (ihb h.2 n2 hcb).1 hg.2
      rw [h2] at s1; rw [h2'] at s2
      cases s1; cases s2
      have k1 : fTy Γ ca = some .logical := k1
      have k2 : fTy Γ cb = some .logical := k2
      exact ⟨.pbool, Or.inl rfl, by simp only [tyOf, h2, h2'], by simp only [fTy, k1, k2]; rfl⟩
    · intro hk
      obtain ⟨ka, kb⟩ := two_compiles .or hk
      exact ⟨(iha h.1 n1 hca).2 ka, (ihb h.2 n2 hcb).2 kb⟩
  | lnot a ih =>
    intro c h hn hc
    obtain ⟨n1, n2⟩ := hn
    obtain ⟨ha, ta, pa, h2, h3⟩ := py_agree (e := a) h n1
    obtain ⟨ca, hca⟩ := toF_some ha
    simp only [toF, hca, Option.map_some, Option.some.injEq] at hc
    subst hc
    rw [n2] at h3
    cases h3
    refine ⟨fun hg => ?_, fun hk => (ih h n1 hca).2 (fun hh => hk (by simp only [fTy, hh]))⟩
    obtain ⟨t', _, s1, k1⟩ := (ih h n1 hca).1 hg
    rw [h2] at s1
    cases s1
    have k1 : fTy Γ ca = some .logical := k1
    exact ⟨.pbool, Or.inl rfl, by simp only [tyOf, h2], by simp only [fTy, k1]; rfl⟩
  | cast s a ih =>
    intro c h hn hc
    obtain ⟨ha, ta, pa, h2, h3⟩ := py_agree h.2 hn
    obtain ⟨ca, hca⟩ := toF_some ha
    simp only [toF, hca, h2, Option.some.injEq] at hc
    subst hc
    refine ⟨fun hg => ?_, fun hk => (ih h.2 hn hca).2 (castF_compiles hca hk)⟩
    obtain ⟨t', _, s1, k1⟩ := (ih h.2 hn hca).1 hg
    rw [h2] at s1
    cases s1
    exact ⟨s, h.1, by simp only [tyOf, h2]; rfl, py_castF h.1 pa hca k1⟩

/-! ### Wrap-around -/

/-- Sums, differences, products and negations of variables of the type `t` and literals. -/
def Ring (Γ : Nat → Num) (t : Num) : Expr → Prop
  | .lit _ => True
  | .var x => Γ x = t
  | .bin o a b => (o = .add ∨ o = .sub ∨ o = .mul) ∧ Ring Γ t a ∧ Ring Γ t b
  | .neg a => Ring Γ t a
  | _ => False

theorem bmod_sub_dvd (n : Int) (m : Nat) : (m : Int) ∣ n - Int.bmod n m := by
  apply Int.dvd_of_emod_eq_zero
  rw [Int.sub_emod, Int.bmod_emod, sub_self, Int.zero_emod]

/-- NumPy's integer types. -/
def NpInt (t : Num) : Prop := t = .i8 ∨ t = .i16 ∨ t = .i32 ∨ t = .i64

theorem reduce_dvd {t u : Num} (n : Int) (hp : NpInt t) (hu : u = t ∨ u = .pint) : (2 ^ t.width : Int) ∣ n - reduce u n := by
  rcases hu with rfl | rfl
  · rcases hp with rfl | rfl | rfl | rfl
    all_goals exact bmod_sub_dvd n _
  · simp [reduce]

theorem ring_resT {o : Bin} {t u v : Num} (ht : NpInt t) (ho : o = .add ∨ o = .sub ∨ o = .mul) (hu : u = t ∨ u = .pint) (hv : v = t ∨ v = .pint) :
    resT o u v = t ∨ resT o u v = .pint := by
  rcases hu with rfl | rfl <;> rcases hv with rfl | rfl <;> rcases ho with rfl | rfl | rfl <;>
    rcases ht with rfl | rfl | rfl | rfl <;> decide

theorem ring_cong {Γ : Nat → Num} {env : Nat → Int} {t : Num} (ht : NpInt t) {e : Expr} :
    ∀ {u : Num} {x : Int} {c : C} {w : Nat} {v : Int}, Ring Γ t e → np Γ env e = some (u, x) → toC Γ e = some c → evalC Γ env c = some (w, v) →
      (u = t ∨ u = .pint) ∧ (2 ^ t.width : Int) ∣ v - x := by
  induction e with
  | lit n =>
    intro u x c w v _ h hc hv
    simp only [np, Option.some.injEq, Prod.mk.injEq] at h
    simp only [toC, Option.some.injEq] at hc
    subst hc
    simp only [evalC, Option.some.injEq, Prod.mk.injEq] at hv
    exact ⟨Or.inr h.1.symm, by rw [← hv.2, ← h.2, sub_self]; exact dvd_zero _⟩
  | var y =>
    intro u x c w v hr h hc hv
    simp only [np, Option.some.injEq, Prod.mk.injEq] at h
    simp only [toC, Option.some.injEq] at hc
    subst hc
    simp only [evalC, Option.some.injEq, Prod.mk.injEq] at hv
    exact ⟨Or.inl (h.1.symm.trans hr), by rw [← hv.2, ← h.2, sub_self]; exact dvd_zero _⟩
  | bin o a b iha ihb =>
    intro u x c w v hr h hc hv
    obtain ⟨ho, ra, rb⟩ := hr
    obtain ⟨ta, xa, tb, xb, r, ea, eb, hin, hi, rfl, rfl⟩ := intOp_np h
    simp only [toC] at hc
    split at hc
    · next ca cb ta' tb' hca hcb sa sb =>
      split at hc
      · cases hc
      · have key : ∃ wa va wb vb, evalC Γ env ca = some (wa, va) ∧ evalC Γ env cb = some (wb, vb) ∧ intOp o va vb = some v := by
          simp only [Option.some.injEq] at hc
          subst hc
          rcases ho with rfl | rfl | rfl
          all_goals
            simp only [evalC, evalC.arith] at hv
            split at hv
            · next wa va wb vb e1 e2 =>
              obtain ⟨z, hz, e⟩ := Option.map_eq_some_iff.1 hv
              simp only [Prod.mk.injEq] at e
              refine ⟨wa, va, wb, vb, e1, e2, ?_⟩
              rw [← e.2, (chk_eq_some.1 hz).2]
              rfl
            · cases hv
        obtain ⟨wa, va, wb, vb, e1, e2, e3⟩ := key
        obtain ⟨ua, da⟩ := iha ra ea hca e1
        obtain ⟨ub, db⟩ := ihb rb eb hcb e2
        refine ⟨ring_resT ht ho ua ub, ?_⟩
        have hd := reduce_dvd r ht (ring_resT ht ho ua ub)
        have : (2 ^ t.width : Int) ∣ v - r := by
          rcases ho with rfl | rfl | rfl
          all_goals simp only [intOp, Option.some.injEq] at hi e3; subst hi e3
          · have := Int.dvd_add da db
            rwa [show va - xa + (vb - xb) = va + vb - (xa + xb) by ring] at this
          · have := Int.dvd_sub da db
            rwa [show va - xa - (vb - xb) = va - vb - (xa - xb) by ring] at this
          · have := Int.dvd_add (da.mul_right vb) (db.mul_left xa)
            rwa [show (va - xa) * vb + xa * (vb - xb) = va * vb - xa * xb by ring] at this
        have := Int.dvd_add this hd
        rwa [sub_add_sub_cancel] at this
    · cases hc
  | neg a ih =>
    intro u x c w v hr h hc hv
    simp only [np] at h
    obtain ⟨⟨ta, xa⟩, ea, e⟩ := Option.map_eq_some_iff.1 h
    simp only [Prod.mk.injEq] at e
    simp only [toC] at hc
    obtain ⟨ca, hca, rfl⟩ := Option.map_eq_some_iff.1 hc
    simp only [evalC] at hv
    split at hv
    · next wa va e1 =>
      obtain ⟨z, hz, e'⟩ := Option.map_eq_some_iff.1 hv
      simp only [Prod.mk.injEq] at e'
      have hv' : v = -va := by rw [← e'.2, (chk_eq_some.1 hz).2]
      obtain ⟨ua, da⟩ := ih hr ea hca e1
      have hun : unT ta = ta := by
        unfold unT
        rw [if_neg]
        rcases ua with rfl | rfl
        · rcases ht with rfl | rfl | rfl | rfl <;> decide
        · decide
      rw [hun] at e
      obtain ⟨rfl, rfl⟩ := e
      refine ⟨ua, ?_⟩
      have := Int.dvd_add (Int.dvd_neg.2 da) (reduce_dvd (-xa) ht ua)
      rw [hv']
      rwa [show -(va - xa) + (-xa - reduce ta (-xa)) = -va - reduce ta (-xa) by ring] at this
    · cases hv
  | bool b => intro u x c w v hr; exact hr.elim
  | inv a _ => intro u x c w v hr; exact hr.elim
  | abs a _ => intro u x c w v hr; exact hr.elim
  | cmp o a b _ _ => intro u x c w v hr; exact hr.elim
  | land a b _ _ => intro u x c w v hr; exact hr.elim
  | lor a b _ _ => intro u x c w v hr; exact hr.elim
  | lnot a _ => intro u x c w v hr; exact hr.elim
  | cast s a _ => intro u x c w v hr; exact hr.elim

theorem reduce_inRange {t : Num} (ht : NpInt t) (n : Int) : InRange t.width (reduce t n) := by
  have h : reduce t n = (BitVec.ofInt t.width n).toInt := by
    rw [BitVec.toInt_ofInt]
    rcases ht with rfl | rfl | rfl | rfl <;> rfl
  rw [h]
  exact toInt_inRange (by rcases ht with rfl | rfl | rfl | rfl <;> decide) _

theorem ring_inRange {Γ : Nat → Num} {env : Nat → Int} {t : Num} (ht : NpInt t) (henv : ∀ y, Fits (Γ y) (env y)) {e : Expr} {x : Int} (hr : Ring Γ t e)
    (h : np Γ env e = some (t, x)) : InRange t.width x := by
  have hb : t ≠ .pbool := by rcases ht with rfl | rfl | rfl | rfl <;> decide
  have hp : t ≠ .pint := by rcases ht with rfl | rfl | rfl | rfl <;> decide
  have hi : Num.integral t = true := by rcases ht with rfl | rfl | rfl | rfl <;> rfl
  cases e with
  | lit n => simp only [np, Option.some.injEq, Prod.mk.injEq] at h; exact absurd h.1.symm hp
  | var y =>
    simp only [np, Option.some.injEq, Prod.mk.injEq] at h
    have := henv y
    rw [h.1, h.2] at this
    exact (fits_of hi hb).1 this
  | bin o a b =>
    obtain ⟨ta, xa, tb, xb, r, ea, eb, hin, hi, e1, rfl⟩ := intOp_np h
    rw [← e1]
    exact reduce_inRange ht _
  | neg a =>
    simp only [np] at h
    obtain ⟨⟨ta, xa⟩, ea, e⟩ := Option.map_eq_some_iff.1 h
    simp only [Prod.mk.injEq] at e
    rw [← e.2, e.1]
    exact reduce_inRange ht _
  | _ => exact hr.elim

theorem ring_store {Γ : Nat → Num} {env : Nat → Int} {t : Num} (ht : NpInt t) (henv : ∀ y, Fits (Γ y) (env y)) {e : Expr} {x : Int} {c : C} {w : Nat} {v : Int}
    (hr : Ring Γ t e) (h : np Γ env e = some (t, x)) (hc : toC Γ e = some c) (hv : evalC Γ env c = some (w, v)) : storeC t v = x := by
  have hb : t ≠ .pbool := by rcases ht with rfl | rfl | rfl | rfl <;> decide
  have hx := ring_inRange ht henv hr h
  have hd := (ring_cong ht hr h hc hv).2
  unfold storeC
  rw [if_neg hb, ← wrap_of_inRange (by rcases ht with rfl | rfl | rfl | rfl <;> decide) hx]
  unfold wrap
  have : v % ((2 ^ t.width : Nat) : Int) = x % ((2 ^ t.width : Nat) : Int) := by
    rw [Int.emod_eq_emod_iff_emod_sub_eq_zero]
    apply Int.emod_eq_zero_of_dvd
    have e : ((2 ^ t.width : Nat) : Int) = (2 : Int) ^ t.width := by push_cast; rfl
    rw [e]
    exact hd
  rw [Int.bmod_def, Int.bmod_def, this]

end Verif.Scalars
