import Verif.Complex.Values

/-!
# complex(a, b): properties C130 and C131
-/

namespace Verif.Complex
open Spec Verif.Floats

theorem isZero_iff {v : Val} (h : v.Lit) : isZero v = true ↔ v.Null := by
  cases v with
  | int n => simp [isZero, Val.Null]
  | flt p x =>
    obtain ⟨_, h, _⟩ := h
    cases x <;> simp_all [isZero, Val.Null, Fl.nonneg]
  | cplx p x y =>
    obtain ⟨_, h1, h2, _⟩ := h
    subst h1
    cases y <;> simp_all [isZero, Val.Null, Fl.nonneg]

theorem parts_cast (v : Val) : parts (some (toCplx v)) = some (v.re, v.im) := by cases v <;> rfl

theorem parts_cast_cplx (p : Prec) (x y : Fl) : parts (some (toCplx (.cplx p x y))) = some (x, y) := rfl

/-- A real number and the product with the imaginary unit. -/
theorem addV_real {u : Val} (hu : u.isC = false) (p : Prec) (x y : Fl) :
    addV u (.cplx p x y) = .cplx (prec u (.cplx p x y)) (Fl.add (prec u (.cplx p x y)) (u.at_ (prec u (.cplx p x y))) x) y := by
  cases u with
  | int n => rfl
  | flt q z => rfl
  | cplx => simp [Val.isC] at hu

theorem finite_zero : (Val.flt .dbl (.zero false)).Finite := rfl

/-- The case of two real arguments in C. -/
theorem mk_reals_c {u w : Val} (hu : u.isC = false) (hw : w.isC = false) (wu : u.WF) (ww : w.WF) (fw : w.Finite) :
    Has (parts (evalC u w (.mk .a0 .a1))) (u.re, w.re) ↔ (w.narrow = true → u.ShortInt ∧ w.ShortInt) := by
  obtain ⟨s, hs⟩ := mulIV_real (q := .sgl) hw ww fw
  simp only [evalC, hs, addV_real hu, parts_cast_cplx, has_iff, SameC]
  have h1 : ∀ p, (Fl.add p (u.at_ p) (.zero s)).Same u.re ↔ (u.at_ p).Same u.re := fun p =>
    same_congr (add_zero_same _ _ _) (same_refl _)
  rw [h1]
  cases w with
  | cplx => simp [Val.isC] at hw
  | int n =>
    cases u with
    | cplx => simp [Val.isC] at hu
    | int m => simp [prec, Val.at_, Val.re, Val.narrow, Val.ShortInt, same_ofQ, rnd]
    | flt p x => simp [prec, Val.at_, Val.re, Val.narrow, Val.ShortInt, same_ofQ, rnd, same_refl]
  | flt q y =>
    cases q <;> cases u with
    | cplx => simp [Val.isC] at hu
    | int m => simp [prec, Val.at_, Val.re, Val.narrow, Val.ShortInt, same_ofQ, rnd, same_refl]
    | flt p x => simp [prec, Val.at_, Val.re, Val.narrow, Val.ShortInt, same_ofQ, rnd, same_refl]

theorem both_c {p q : Prec} {x y x' y' : Fl} (ww : (Val.cplx q x' y').WF) (fw : (Val.cplx q x' y').Finite) :
    Has (parts (evalC (.cplx p x y) (.cplx q x' y') (.add .a0 (.mulI .a1)))) (Fl.sub .dbl x y', Fl.add .dbl x' y) ↔
      CPrecise (.cplx p x y) (.cplx q x' y') := by
  obtain ⟨r, i, hm, hr, hi⟩ := mulIV_cplx (q := .sgl) ww.1 ww.2 fw.1 fw.2
  simp only [evalC, hm, addV, prec, parts, has_iff, SameC, Fl.sub]
  rw [same_congr (add_same _ x hr) (same_refl _), same_congr (add_same _ y hi) (same_refl _), add_comm .dbl x' y]
  cases p <;> cases q <;> simp [CPrecise, ShortSum, Val.at_, same_refl]

/-- C130 (C): for numbers that are not infinite and not NaN, the C code of `complex(a)` and `complex(a, b)` gives the number that Python
gives, except perhaps for the signs of zeros, if and only if both arguments are literals, or `b` is the literal 0, or the precision in which
C computes is sufficient (`CPrecise`).  Missing: the others, and infinite numbers (below). -/
theorem C130_c_iff_partial (a : Arg) (b : Option Arg) (ha : a.WF) (fa : a.v.Finite) (hb : ∀ b' ∈ b, b'.WF ∧ b'.v.Finite) :
    (∃ z, runC a b = some z ∧ SameC z (pyComplex a.v (b.map (·.v)))) ↔
      ∀ b' ∈ b, (a.lit = true ∧ b'.lit = true) ∨ (b'.lit = true ∧ b'.v.Null) ∨ CPrecise a.v b'.v := by
  change Has _ _ ↔ _
  obtain ⟨u, la⟩ := a
  cases b with
  | none =>
    simp only [Option.not_mem_none, false_implies, implies_true, iff_true, Option.map_none]
    cases la with
    | true =>
      have h := litc_c (v0 := u) (v1 := .flt .dbl (.zero false)) (re := u.re) (im := if u.isC then Fl.add .dbl u.im (.zero false) else .zero false)
        (by split
            · exact isFloat_add _ _ (isFloat_im ha.1) trivial
            · trivial)
        (by split
            · exact finite_add _ _ _ (finite_im fa) rfl
            · rfl)
      refine (has_congr ?_).1 h
      refine ⟨same_refl _, ?_⟩
      show Fl.Same (if u.isC then Fl.add .dbl u.im (.zero false) else .zero false) u.im
      cases u with
      | cplx p x y => exact add_zero_same _ _ _
      | _ => exact same_refl _
    | false =>
      refine ⟨_, ?_, same_refl _, same_refl _⟩
      show parts (evalC u _ (build ⟨u, false⟩ none)) = _
      have : build ⟨u, false⟩ none = .cast .a0 := by simp [build, Val.isC, isZero]
      rw [this]; exact parts_cast u
  | some b =>
    obtain ⟨w, lb⟩ := b
    obtain ⟨hb, fb⟩ := hb _ rfl
    simp only [Option.mem_def, Option.some.injEq, forall_eq', Option.map_some]
    show Has (parts (evalC u w (build ⟨u, la⟩ (some ⟨w, lb⟩)))) _ ↔ _
    by_cases hl : la = true ∧ lb = true
    · obtain ⟨rfl, rfl⟩ := hl
      simp only [and_self, true_or, iff_true]
      show Has (parts (evalC u w (.litc (fold u w).1 (fold u w).2))) _
      rw [fold_eq]
      refine litc_c ?_ ?_
      · show Fl.IsFloat _ (if u.isC then Fl.add .dbl w.re u.im else w.re)
        split
        · exact isFloat_add _ _ (isFloat_re hb.1) (isFloat_im ha.1)
        · exact isFloat_re hb.1
      · show Fl.finite (if u.isC then Fl.add .dbl w.re u.im else w.re) = true
        split
        · exact finite_add _ _ _ (finite_re fb) (finite_im fa)
        · exact finite_re fb
    · have hl' : (la && lb) = false := by cases la <;> cases lb <;> simp_all
      simp only [hl, false_or]
      by_cases hc : (u.isC && w.isC) = true
      · have hbuild : build ⟨u, la⟩ (some ⟨w, lb⟩) = .add .a0 (.mulI .a1) := by
          simp only [build, Option.getD_some, hl', hc, if_true]; rfl
        rw [hbuild]
        obtain ⟨p, x, y, rfl⟩ : ∃ p x y, u = .cplx p x y := by cases u <;> simp_all [Val.isC]
        obtain ⟨q, x', y', rfl⟩ : ∃ p x y, w = .cplx p x y := by cases w <;> simp_all [Val.isC]
        refine (both_c hb.1 fb).trans ⟨.inr, ?_⟩
        rintro (⟨h, _⟩ | h)
        · have := (hb.2 h).1
          subst this
          cases p <;> simp [CPrecise]
        · exact h
      · have hc' : (u.isC && w.isC) = false := by simpa using hc
        by_cases hz : (lb && isZero w) = true
        · have hbuild : build ⟨u, la⟩ (some ⟨w, lb⟩) = .cast .a0 := by
            simp only [build, Option.getD_some, hl', hc', hz]; rfl
          rw [hbuild]
          simp only [Bool.and_eq_true] at hz
          have hn := (isZero_iff (hb.2 hz.1)).1 hz.2
          obtain ⟨hre, him⟩ := isZero_lit (v := w) (hb.2 hz.1) hz.2
          refine ⟨fun _ => .inl ⟨hz.1, hn⟩, fun _ => ?_⟩
          show Has (parts (some (toCplx u))) _
          rw [parts_cast, has_iff]
          show SameC _ (if w.isC then Fl.sub .dbl u.re w.im else u.re, if u.isC then Fl.add .dbl w.re u.im else w.re)
          rw [hre, him]
          constructor
          · show Fl.Same _ (if _ then _ else _)
            split
            · exact same_symm (add_zero_same _ _ _)
            · exact same_refl _
          · show Fl.Same _ (if _ then _ else _)
            split
            · exact same_symm (zero_add_same _ _ _)
            · cases u <;> first | exact same_refl _ | simp_all [Val.isC]
        · have hz' : (lb && isZero w) = false := by simpa using hz
          have hn : ¬ (lb = true ∧ w.Null) := by
            rintro ⟨h1, h2⟩
            rw [(isZero_iff (hb.2 h1)).2 h2, h1] at hz; exact hz rfl
          simp only [hn, false_or]
          by_cases hu : u.isC = true
          · have hw : w.isC = false := by simpa [hu] using hc'
            have hbuild : build ⟨u, la⟩ (some ⟨w, lb⟩) = .mk (.real .a0) (.add (.imag .a0) .a1) := by
              simp only [build, Option.getD_some, hl', hz', hu, hw]; rfl
            rw [hbuild]
            obtain ⟨p, x, y, rfl⟩ : ∃ p x y, u = .cplx p x y := by cases u <;> simp_all [Val.isC]
            have hP : CPrecise (.cplx p x y) w := by cases w <;> cases p <;> simp_all [CPrecise, Val.isC]
            simp only [hP, iff_true]
            have key : ∀ t : Fl, t.IsFloat .dbl → t.finite = true → ∃ s, mulIV .sgl (.flt .dbl t) = some (.cplx .dbl (.zero s) t) := by
              intro t h1 h2
              exact mulIV_real (u := .flt .dbl t) (q := .sgl) rfl h1 h2
            have hy : y.IsFloat .dbl := IsFloat.mono _ ha.1.2 (fun _ => rfl)
            have hadd : addV (.flt .dbl y) w = .flt .dbl (Fl.add .dbl y w.re) := by
              cases w <;> first | rfl | simp [Val.isC] at hw
            obtain ⟨s, hs⟩ := key (Fl.add .dbl y w.re) (isFloat_add _ _ hy (isFloat_re hb.1)) (finite_add _ _ _ fa.2 (finite_re fb))
            simp only [evalC, hadd, hs]
            simp only [addV, prec, Val.at_, if_true, parts_cast_cplx, has_iff]
            refine ⟨?_, ?_⟩
            · show Fl.Same _ (if w.isC then _ else x)
              rw [hw]; exact add_zero_same _ _ _
            · show Fl.Same _ (Fl.add .dbl w.re y)
              rw [add_comm .dbl w.re y]; exact same_refl _
          · have hu' : u.isC = false := by simpa using hu
            by_cases hw : w.isC = true
            · obtain ⟨q, x', y', rfl⟩ : ∃ p x y, w = .cplx p x y := by cases w <;> simp_all [Val.isC]
              have hP : CPrecise u (.cplx q x' y') := by cases u <;> simp_all [CPrecise, Val.isC]
              simp only [hP, iff_true]
              have hx : x'.IsFloat .dbl := IsFloat.mono _ hb.1.1 (fun _ => rfl)
              obtain ⟨s, hs⟩ := mulIV_real (u := .flt .dbl x') (q := .sgl) rfl hx fb.1
              by_cases hz0 : (la && isZero u) = true
              · have hbuild : build ⟨u, la⟩ (some ⟨.cplx q x' y', lb⟩) = .mk (.neg (.imag .a1)) (.real .a1) := by
                  simp only [build, Option.getD_some, hl', hc', hz', hu', hw, hz0]; rfl
                rw [hbuild]
                simp only [Bool.and_eq_true] at hz0
                obtain ⟨hre, _⟩ := isZero_lit (ha.2 hz0.1) hz0.2
                simp only [evalC, negV, hs]
                simp only [addV, prec, Val.at_, if_true, parts_cast_cplx, has_iff]
                refine ⟨?_, ?_⟩
                · show Fl.Same _ (Fl.sub .dbl u.re y')
                  rw [hre]
                  exact same_trans (add_zero_same _ _ _) (same_symm (zero_add_same _ _ _))
                · show Fl.Same _ (if u.isC then _ else x')
                  rw [hu']; exact same_refl _
              · have hz0' : (la && isZero u) = false := by simpa using hz0
                have hbuild : build ⟨u, la⟩ (some ⟨.cplx q x' y', lb⟩) = .mk (.sub .a0 (.imag .a1)) (.real .a1) := by
                  simp only [build, Option.getD_some, hl', hc', hz', hu', hw, hz0']; rfl
                rw [hbuild]
                have hsub : subV u (.flt .dbl y') = some (.flt .dbl (Fl.sub .dbl u.re y')) := by
                  cases u with
                  | int n => rfl
                  | flt p x => cases p <;> rfl
                  | cplx => simp [Val.isC] at hu'
                simp only [evalC, hsub, hs]
                simp only [addV, prec, Val.at_, if_true, parts_cast_cplx, has_iff]
                refine ⟨add_zero_same _ _ _, ?_⟩
                show Fl.Same _ (if u.isC then _ else x')
                rw [hu']; exact same_refl _
            · have hw' : w.isC = false := by simpa using hw
              have hbuild : build ⟨u, la⟩ (some ⟨w, lb⟩) = .mk .a0 .a1 := by
                simp only [build, Option.getD_some, hl', hc', hz', hu', hw']; rfl
              rw [hbuild]
              have hpy : pyComplex u (some w) = (u.re, w.re) := by simp [pyComplex, hu', hw']
              rw [hpy, mk_reals_c hu' hw' ha.1 hb.1 fb]
              cases u <;> cases w <;> simp_all [CPrecise, Val.isC]

/-- The precision of the sum is double unless both are narrow. -/
theorem addV_f' {p : Prec} {y : Fl} {w : Val} (hw : w.isC = false) :
    addV (.flt p y) w = .flt (if p = .sgl ∧ w.narrow = true then .sgl else .dbl)
      (Fl.add (if p = .sgl ∧ w.narrow = true then .sgl else .dbl) y (w.at_ (if p = .sgl ∧ w.narrow = true then .sgl else .dbl))) := by
  cases w with
  | cplx => simp [Val.isC] at hw
  | int n => cases p <;> rfl
  | flt q x => cases p <;> cases q <;> rfl

theorem subV_f' {p : Prec} {y : Fl} {u : Val} (hu : u.isC = false) :
    subV u (.flt p y) = some (.flt (if p = .sgl ∧ u.narrow = true then .sgl else .dbl)
      (Fl.sub (if p = .sgl ∧ u.narrow = true then .sgl else .dbl) (u.at_ (if p = .sgl ∧ u.narrow = true then .sgl else .dbl)) y)) := by
  cases u with
  | cplx => simp [Val.isC] at hu
  | int n => cases p <;> rfl
  | flt q x => cases p <;> cases q <;> rfl

theorem both_f {p q : Prec} {x y x' y' : Fl} (ww : (Val.cplx q x' y').WF) (fw : (Val.cplx q x' y').Finite) :
    Has (parts (evalF (.cplx p x y) (.cplx q x' y') (.add .a0 (.mulI .a1)))) (Fl.sub .dbl x y', Fl.add .dbl x' y) := by
  obtain ⟨r, i, hm, hr, hi⟩ := mulIV_cplx (q := .dbl) ww.1 ww.2 fw.1 fw.2
  simp only [evalF, hm, addV, prec, parts, has_iff, SameC, Fl.sub]
  rw [same_congr (add_same _ x hr) (same_refl _), same_congr (add_same _ y hi) (same_refl _), add_comm .dbl x' y]
  cases p <;> cases q <;> simp [same_refl]

/-- C130 (Fortran): for numbers that are not infinite and not NaN, the Fortran code of `complex(a)` and `complex(a, b)` gives the number that
Python gives, except perhaps for the signs of zeros, if and only if both arguments are literals, or `b` is the literal 0, or `a` is the
literal 0, or the precision in which Fortran computes is sufficient (`FPrecise`).  Missing: the others, and infinite numbers. -/
theorem C130_fortran_iff_partial (a : Arg) (b : Option Arg) (ha : a.WF) (hb : ∀ b' ∈ b, b'.WF ∧ b'.v.Finite) :
    (∃ z, runF a b = some z ∧ SameC z (pyComplex a.v (b.map (·.v)))) ↔
      ∀ b' ∈ b, (a.lit = true ∧ b'.lit = true) ∨ (b'.lit = true ∧ b'.v.Null) ∨ (a.lit = true ∧ a.v.Null) ∨ FPrecise a.v b'.v := by
  change Has _ _ ↔ _
  obtain ⟨u, la⟩ := a
  cases b with
  | none =>
    simp only [Option.not_mem_none, false_implies, implies_true, iff_true, Option.map_none]
    cases la with
    | true =>
      refine ⟨_, rfl, same_refl _, ?_⟩
      show Fl.Same (if u.isC then Fl.add .dbl u.im (.zero false) else .zero false) u.im
      cases u with
      | cplx p x y => exact add_zero_same _ _ _
      | _ => exact same_refl _
    | false =>
      refine ⟨_, ?_, same_refl _, same_refl _⟩
      show parts (evalF u _ (build ⟨u, false⟩ none)) = _
      have : build ⟨u, false⟩ none = .cast .a0 := by simp [build, Val.isC, isZero]
      rw [this]; exact parts_cast u
  | some b =>
    obtain ⟨w, lb⟩ := b
    obtain ⟨hb, fb⟩ := hb _ rfl
    simp only [Option.mem_def, Option.some.injEq, forall_eq', Option.map_some]
    show Has (parts (evalF u w (build ⟨u, la⟩ (some ⟨w, lb⟩)))) _ ↔ _
    by_cases hl : la = true ∧ lb = true
    · obtain ⟨rfl, rfl⟩ := hl
      simp only [and_self, true_or, iff_true]
      show Has (parts (evalF u w (.litc (fold u w).1 (fold u w).2))) _
      rw [fold_eq]
      exact ⟨_, rfl, same_refl _, same_refl _⟩
    · have hl' : (la && lb) = false := by cases la <;> cases lb <;> simp_all
      simp only [hl, false_or]
      by_cases hc : (u.isC && w.isC) = true
      · have hbuild : build ⟨u, la⟩ (some ⟨w, lb⟩) = .add .a0 (.mulI .a1) := by
          simp only [build, Option.getD_some, hl', hc, if_true]; rfl
        rw [hbuild]
        obtain ⟨p, x, y, rfl⟩ : ∃ p x y, u = .cplx p x y := by cases u <;> simp_all [Val.isC]
        obtain ⟨q, x', y', rfl⟩ : ∃ p x y, w = .cplx p x y := by cases w <;> simp_all [Val.isC]
        exact ⟨fun _ => .inr (.inr (by cases p <;> trivial)), fun _ => both_f hb.1 fb⟩
      · have hc' : (u.isC && w.isC) = false := by simpa using hc
        by_cases hz : (lb && isZero w) = true
        · have hbuild : build ⟨u, la⟩ (some ⟨w, lb⟩) = .cast .a0 := by
            simp only [build, Option.getD_some, hl', hc', hz]; rfl
          rw [hbuild]
          simp only [Bool.and_eq_true] at hz
          have hn := (isZero_iff (hb.2 hz.1)).1 hz.2
          obtain ⟨hre, him⟩ := isZero_lit (v := w) (hb.2 hz.1) hz.2
          refine ⟨fun _ => .inl ⟨hz.1, hn⟩, fun _ => ?_⟩
          show Has (parts (some (toCplx u))) _
          rw [parts_cast, has_iff]
          show SameC _ (if w.isC then Fl.sub .dbl u.re w.im else u.re, if u.isC then Fl.add .dbl w.re u.im else w.re)
          rw [hre, him]
          constructor
          · show Fl.Same _ (if _ then _ else _)
            split
            · exact same_symm (add_zero_same _ _ _)
            · exact same_refl _
          · show Fl.Same _ (if _ then _ else _)
            split
            · exact same_symm (zero_add_same _ _ _)
            · cases u <;> first | exact same_refl _ | simp_all [Val.isC]
        · have hz' : (lb && isZero w) = false := by simpa using hz
          have hn : ¬ (lb = true ∧ w.Null) := by
            rintro ⟨h1, h2⟩
            rw [(isZero_iff (hb.2 h1)).2 h2, h1] at hz; exact hz rfl
          simp only [hn, false_or]
          by_cases hu : u.isC = true
          · have hw : w.isC = false := by simpa [hu] using hc'
            have hbuild : build ⟨u, la⟩ (some ⟨w, lb⟩) = .mk (.real .a0) (.add (.imag .a0) .a1) := by
              simp only [build, Option.getD_some, hl', hz', hu, hw]; rfl
            rw [hbuild]
            obtain ⟨p, x, y, rfl⟩ : ∃ p x y, u = .cplx p x y := by cases u <;> simp_all [Val.isC]
            simp only [evalF, addV_f' hw, parts, Val.at_, has_iff]
            have hpy : pyComplex (.cplx p x y) (some w) = (x, Fl.add .dbl w.re y) := by
              show (if w.isC then _ else _, _) = _
              rw [hw]; rfl
            rw [hpy, add_comm .dbl w.re y, ← at_dbl]
            have hP : FPrecise (.cplx p x y) w ↔
                (Fl.add (if p = .sgl ∧ w.narrow = true then .sgl else .dbl) y
                  (w.at_ (if p = .sgl ∧ w.narrow = true then .sgl else .dbl))).Same (Fl.add .dbl y (w.at_ .dbl)) := by
              cases w with
              | cplx => simp [Val.isC] at hw
              | int n => cases p <;> simp [FPrecise, ShortSum, Val.narrow, Val.at_, same_refl]
              | flt q t => cases p <;> cases q <;> simp [FPrecise, ShortSum, Val.narrow, Val.at_, same_refl]
            rw [hP]
            refine ⟨fun h => .inr h.2, ?_⟩
            rintro (⟨h1, h2⟩ | h)
            · have hp := (ha.2 h1).1
              subst hp
              exact ⟨same_refl _, same_refl _⟩
            · exact ⟨same_refl _, h⟩
          · have hu' : u.isC = false := by simpa using hu
            by_cases hw : w.isC = true
            · obtain ⟨q, x', y', rfl⟩ : ∃ p x y, w = .cplx p x y := by cases w <;> simp_all [Val.isC]
              by_cases hz0 : (la && isZero u) = true
              · have hbuild : build ⟨u, la⟩ (some ⟨.cplx q x' y', lb⟩) = .mk (.neg (.imag .a1)) (.real .a1) := by
                  simp only [build, Option.getD_some, hl', hc', hz', hu', hw, hz0]; rfl
                rw [hbuild]
                simp only [Bool.and_eq_true] at hz0
                obtain ⟨hre, _⟩ := isZero_lit (v := u) (ha.2 hz0.1) hz0.2
                refine ⟨fun _ => .inl ⟨hz0.1, (isZero_iff (ha.2 hz0.1)).1 hz0.2⟩, fun _ => ?_⟩
                simp only [evalF, negV, parts, Val.at_, has_iff]
                refine ⟨?_, ?_⟩
                · show Fl.Same _ (Fl.sub .dbl u.re y')
                  rw [hre]
                  exact same_symm (zero_add_same _ _ _)
                · show Fl.Same _ (if u.isC then _ else x')
                  rw [hu']; exact same_refl _
              · have hz0' : (la && isZero u) = false := by simpa using hz0
                have hn0 : ¬ (la = true ∧ u.Null) := by
                  rintro ⟨h1, h2⟩
                  rw [(isZero_iff (ha.2 h1)).2 h2, h1] at hz0; exact hz0 rfl
                have hbuild : build ⟨u, la⟩ (some ⟨.cplx q x' y', lb⟩) = .mk (.sub .a0 (.imag .a1)) (.real .a1) := by
                  simp only [build, Option.getD_some, hl', hc', hz', hu', hw, hz0']; rfl
                rw [hbuild]
                simp only [evalF, subV_f' hu', parts, Val.at_, has_iff, hn0, false_or]
                have hpy : pyComplex u (some (.cplx q x' y')) = (Fl.sub .dbl (u.at_ .dbl) y', x') := by
                  rw [at_dbl]
                  show (_, if u.isC then _ else _) = _
                  rw [hu']; rfl
                rw [hpy]
                have hP : FPrecise u (.cplx q x' y') ↔
                    (Fl.sub (if q = .sgl ∧ u.narrow = true then .sgl else .dbl)
                      (u.at_ (if q = .sgl ∧ u.narrow = true then .sgl else .dbl)) y').Same (Fl.sub .dbl (u.at_ .dbl) y') := by
                  cases u with
                  | cplx => simp [Val.isC] at hu'
                  | int n => cases q <;> simp [FPrecise, ShortSum, Val.narrow, Val.at_, same_refl, Fl.sub]
                  | flt p t => cases p <;> cases q <;> simp [FPrecise, ShortSum, Val.narrow, Val.at_, same_refl, Fl.sub]
                rw [hP]
                exact ⟨fun h => h.1, fun h => ⟨h, same_refl _⟩⟩
            · have hw' : w.isC = false := by simpa using hw
              have hbuild : build ⟨u, la⟩ (some ⟨w, lb⟩) = .mk .a0 .a1 := by
                simp only [build, Option.getD_some, hl', hc', hz', hu', hw']; rfl
              rw [hbuild]
              have hpy : pyComplex u (some w) = (u.re, w.re) := by simp [pyComplex, hu', hw']
              have hev : evalF u w (.mk .a0 .a1) = some (.cplx .dbl (u.at_ .dbl) (w.at_ .dbl)) := by
                cases u <;> cases w <;> first | rfl | simp_all [Val.isC]
              rw [hpy, hev, at_dbl, at_dbl]
              refine ⟨fun _ => .inr ?_, fun _ => ⟨_, rfl, same_refl _, same_refl _⟩⟩
              cases u <;> cases w <;> simp_all [FPrecise, Val.isC]

/-! ### Cases that meet the conditions, and those that do not -/

/-- A variable. -/
def var (v : Val) : Arg := ⟨v, false⟩

theorem rep24_int {n : ℤ} (h : |n| < 2 ^ 24) : Rep24 n := ⟨n, 0, h, by simp⟩

/-- `complex(x, y)` of variables of type `float`, `complex(n, m)` of short integers, and `complex(z, x)` meet them. -/
example : CPrecise (.flt .dbl (.num (1/2))) (.flt .dbl (.num 3)) ∧ CPrecise (.int 7) (.int (-5)) ∧
    FPrecise (.cplx .dbl (.num 1) (.num 2)) (.int 16777217) ∧ FPrecise (.int 16777217) (.flt .sgl (.num 3)) ∧
    (var (.flt .dbl (.num 3))).WF ∧ (var (.flt .dbl (.num 3))).v.Finite := by
  refine ⟨by simp [CPrecise, Val.narrow], fun _ => ⟨?_, ?_⟩, trivial, trivial, ⟨?_, by simp [var]⟩, rfl⟩
  · show fs (7 : ℤ) = fl (7 : ℤ)
    rw [fs_exact (rep24_int (by norm_num)), fl_exact (rep_of_24 (rep24_int (by norm_num)))]
  · show fs (-5 : ℤ) = fl (-5 : ℤ)
    rw [fs_exact (rep24_int (by norm_num)), fl_exact (rep_of_24 (rep24_int (by norm_num)))]
  · show Floats.Spec.Rep 3
    exact ⟨3, 0, by norm_num, by norm_num⟩

/-- C130 (C), `complex(x, y)` of variables of type `float`, infinite or not: the result is exactly the number of Python, with the signs of
zeros, if and only if `x` is NaN, or `y` is finite and it is not the case that `x` is the negative zero and the sign of `y` is positive.
Missing: the other numbers. -/
theorem C130_c_floats_iff_partial (x y : Fl) (hy : y.IsFloat .dbl) :
    runC (var (.flt .dbl x)) (some (var (.flt .dbl y))) = some (pyComplex (.flt .dbl x) (some (.flt .dbl y))) ↔
      x = .nan ∨ (y.finite = true ∧ (x = .zero true → y = .zero true ∨ ∃ q, y = .num q ∧ q < 0)) := by
  have h : runC (var (.flt .dbl x)) (some (var (.flt .dbl y))) = some (Fl.add .dbl x (Fl.mul .dbl y pz), y) := by
    show some (Fl.add .dbl x (Fl.mul .dbl y pz), Fl.mul .dbl y one) = _
    rw [mul_one _ hy]
  have h' : pyComplex (.flt .dbl x) (some (.flt .dbl y)) = (x, y) := rfl
  rw [h, h']
  simp only [Option.some.injEq, Prod.mk.injEq, and_true]
  cases x with
  | nan => simp [Fl.add]
  | inf s => cases y <;> simp [Fl.add, Fl.mul, pz, Fl.finite]
  | zero s => cases s <;> cases y <;> simp [Fl.add, Fl.mul, pz, Fl.finite]
  | num q => cases y <;> simp [Fl.add, Fl.mul, pz, Fl.finite]

/-- C130 (Fortran), `complex(x, y)` of real variables of any type, infinite or not: the result is exactly the number of Python, with the signs
of zeros.  Missing: complex arguments. -/
theorem C130_fortran_reals_partial (u w : Val) (hu : u.isC = false) (hw : w.isC = false) :
    runF (var u) (some (var w)) = some (pyComplex u (some w)) := by
  have hbuild : build (var u) (some (var w)) = .mk .a0 .a1 := by simp [build, var, hu, hw]
  show parts (evalF u w (build (var u) (some (var w)))) = _
  rw [hbuild]
  have hpy : pyComplex u (some w) = (u.re, w.re) := by simp [pyComplex, hu, hw]
  have hev : evalF u w (.mk .a0 .a1) = some (.cplx .dbl (u.at_ .dbl) (w.at_ .dbl)) := by
    cases u <;> cases w <;> first | rfl | simp_all [Val.isC]
  rw [hpy, hev, at_dbl, at_dbl]; rfl

example : (Val.flt .dbl (.inf true)).isC = false ∧ (Val.int 5).isC = false := ⟨rfl, rfl⟩

theorem fs_long : fs (16777217 : ℤ) = 16777216 := by decide +kernel

theorem fl_long : fl (16777217 : ℤ) = 16777217 := by decide +kernel

/-- C130 fails: in C, `complex(n, m)` with `m = 16777217` of type `int` has the imaginary part 16777216.0: `_Complex_I` is a `float complex`. -/
theorem C130_violated_int (n : ℤ) :
    ¬ ∃ z, runC (var (.int n)) (some (var (.int 16777217))) = some z ∧ SameC z (pyComplex (.int n) (some (.int 16777217))) := by
  intro h
  have := (mk_reals_c (u := .int n) (w := .int 16777217) rfl rfl trivial trivial trivial).1 h rfl
  have h2 : fs (16777217 : ℤ) = fl (16777217 : ℤ) := this.2
  rw [fs_long, fl_long] at h2
  norm_num at h2

/-- C130 fails: in C, `complex(x, y)` with an infinite `y` has no real part (it is NaN). -/
theorem C130_violated_inf (q : ℚ) :
    runC (var (.flt .dbl (.num q))) (some (var (.flt .dbl (.inf false)))) = some (.nan, .inf false) ∧
      pyComplex (.flt .dbl (.num q)) (some (.flt .dbl (.inf false))) = (.num q, .inf false) :=
  ⟨by simp [runC, var, build, Val.isC, parts, evalC, mulIV, prec, addV, Val.at_, Fl.mul, pz, one, Fl.add, toCplx], rfl⟩

/-- C130 fails: in Fortran, `complex(z, n)` with `z = np.complex64(1)` and `n = 16777217` has the imaginary part 16777216.0: the sum is in
single precision. -/
theorem C130_violated_single :
    runF (var (.cplx .sgl (.num 1) (.zero false))) (some (var (.int 16777217))) = some (.num 1, .num 16777216) ∧
      pyComplex (.cplx .sgl (.num 1) (.zero false)) (some (.int 16777217)) = (.num 1, .num 16777217) :=
  ⟨by decide +kernel, by decide +kernel⟩

/-- C130 fails: `complex(0, z)` with `z = 0j` is `-0.0+0j` (Python: `0j`). -/
theorem C130_violated_sign :
    runF ⟨.int 0, true⟩ (some (var (.cplx .dbl (.zero false) (.zero false)))) = some (.zero true, .zero false) ∧
      pyComplex (.int 0) (some (.cplx .dbl (.zero false) (.zero false))) = (.zero false, .zero false) :=
  ⟨by decide +kernel, by decide +kernel⟩

/-! ## C131 -/

/-- C131: the arguments of `complex(a, b)` that are no literals are evaluated once each, if and only if both are real, or both are complex, or
one of them is a literal that makes the other one be converted only (`b` is zero).  Missing: the others, where the complex argument is
evaluated twice. -/
theorem C131_iff_partial (a b : Arg) (ha : a.WF) (hb : b.WF) :
    ((a.lit = false → (build a (some b)).count false = 1) ∧ (b.lit = false → (build a (some b)).count true = 1)) ↔
      a.v.isC = b.v.isC ∨ (b.lit = true ∧ b.v.Null) ∨ (a.lit = true ∧ a.v.isC = true) ∨ (b.lit = true ∧ b.v.isC = true) := by
  have hz : b.lit = true → (isZero b.v = true ↔ b.v.Null) := fun h => isZero_iff (hb.2 h)
  obtain ⟨u, la⟩ := a
  obtain ⟨w, lb⟩ := b
  simp only at hz
  simp only [build, Option.getD_some]
  cases la <;> cases lb <;> cases hu : u.isC <;> cases hw : w.isC <;> cases h : isZero w <;> simp_all [Node.count]
  all_goals first | done | (split <;> simp [Node.count])

/-- C131 fails: `complex(f(x), y)` with a function that returns a complex number calls `f` twice. -/
theorem C131_violated (x y t : Fl) :
    (build (var (.cplx .dbl x y)) (some (var (.flt .dbl t)))).count false = 2 := rfl

example : (var (.cplx .dbl (.num 1) (.num 2))).v.isC = (var (.cplx .sgl (.num 1) (.num 2))).v.isC ∧
    (Arg.mk (.int 0) true).lit = true ∧ (Arg.mk (.int 0) true).v.Null := ⟨rfl, rfl, rfl⟩

/-! ## C132 -/

/-- C132 (C): for a variable `x` of type `int` or `float` that is not infinite, `x * kj` and `x + kj` with a literal `kj` give the number of
Python, except perhaps for the signs of zeros, if and only if `k` is not 1 or `x` is the same number in single precision.  Missing: long
integers with `1j`. -/
theorem C132_c_iff_partial (o : Op) (x : Val) (k : ℚ) (hx : (∃ n, x = .int n) ∨ ∃ q, x = .flt .dbl q ∧ q.IsFloat .dbl ∧ q.finite = true)
    (hk : Floats.Spec.Rep k) :
    (∃ z, unitC o x k = some z ∧ SameC z (pyUnit o x.re k)) ↔ k ≠ 1 ∨ x.ShortInt := by
  change Has _ _ ↔ _
  have hw : x.WF := by
    rcases hx with ⟨n, rfl⟩ | ⟨q, rfl, h, _⟩
    · trivial
    · exact h
  have hf : x.re.finite = true := by
    rcases hx with ⟨n, rfl⟩ | ⟨q, rfl, _, h⟩
    · exact finite_ofQ _
    · exact h
  have hC : x.isC = false := by rcases hx with ⟨n, rfl⟩ | ⟨q, rfl, _, _⟩ <;> rfl
  have hl : ∃ s, litV k = some (.cplx (if k = 1 then .sgl else .dbl) (.zero s) (.num k)) := by
    unfold litV
    split
    · rename_i h; exact ⟨false, by simp [pz, one, h]⟩
    · obtain ⟨s, hs⟩ := mulIV_real (u := .flt .dbl (.num k)) (q := .sgl) rfl hk rfl
      exact ⟨s, by rw [hs]; rfl⟩
  obtain ⟨s, hs⟩ := hl
  have hx' : ∀ p, ((x.at_ p).Same x.re ↔ p = .dbl ∨ x.ShortInt) := by
    intro p
    rcases hx with ⟨n, rfl⟩ | ⟨q, rfl, _, _⟩
    · cases p <;> simp [Val.at_, Val.re, rnd, same_ofQ, Val.ShortInt]
    · simp [Val.at_, Val.re, Val.ShortInt, same_refl]
  have hp : x.ShortInt ∨ ∃ n, x = .int n := by
    rcases hx with ⟨n, rfl⟩ | ⟨q, rfl, _, _⟩
    · exact .inr ⟨n, rfl⟩
    · exact .inl trivial
  cases o with
  | add =>
    simp only [unitC, hs, addV_real hC, parts, has_iff, SameC, pyUnit]
    rw [same_congr (add_zero_same _ _ _) (add_zero_same _ _ _), same_congr (same_refl _) (zero_add_same _ _ _), hx']
    simp only [same_refl, and_true]
    rcases hp with hp | ⟨n, rfl⟩
    · simp [hp]
    · by_cases h : k = 1 <;> simp [prec, h]
  | mul =>
    have e1 : unitC .mul x k = some (Fl.mul (prec x (.cplx (if k = 1 then .sgl else .dbl) (.zero s) (.num k))) (x.at_ (prec x (.cplx (if k = 1 then .sgl else .dbl) (.zero s) (.num k)))) (.zero s),
        Fl.mul (prec x (.cplx (if k = 1 then .sgl else .dbl) (.zero s) (.num k))) (x.at_ (prec x (.cplx (if k = 1 then .sgl else .dbl) (.zero s) (.num k)))) (.num k)) := by
      simp only [unitC, hs]
      cases x <;> first | rfl | simp [Val.isC] at hC
    rw [e1, has_iff]
    simp only [SameC, pyUnit]
    have hz : ∀ (p : Prec) (t : Bool) (y : Fl), y.finite = true → ∃ b, Fl.mul p y (.zero t) = .zero b := by
      intro p t y hy
      cases y <;> simp_all [Fl.mul, Fl.finite]
    have hfp : ∀ p, (x.at_ p).finite = true := by
      intro p
      rcases hx with ⟨n, rfl⟩ | ⟨q, rfl, _, h⟩
      · exact finite_ofQ _
      · exact h
    obtain ⟨b1, h1⟩ := hz (prec x (.cplx (if k = 1 then .sgl else .dbl) (.zero s) (.num k))) s _ (hfp (prec x (.cplx (if k = 1 then .sgl else .dbl) (.zero s) (.num k))))
    obtain ⟨b2, h2⟩ := hz .dbl false x.re hf
    rw [h1, h2]
    have h3 : Fl.sub .dbl (.zero b2) (Fl.mul .dbl (.zero false) (.num k)) = .zero (b2 && !(false != decide (k < 0))) := by
      cases b2 <;> simp [Fl.sub, Fl.neg, Fl.mul, Fl.add]
    have h4 : Fl.mul .dbl (.zero false) (.zero false) = .zero false := rfl
    rw [h3, h4, same_congr (same_refl _) (add_zero_same _ _ _)]
    simp only [same_zero, true_and]
    by_cases h : k = 1
    · subst h
      simp only [if_true, ne_eq, not_true_eq_false, false_or]
      have hone : ∀ p : Prec, (x.at_ (prec x (.cplx p (.zero s) (.num 1)))).IsFloat (prec x (.cplx p (.zero s) (.num 1))) := by
        intro p
        rcases hx with ⟨n, rfl⟩ | ⟨q, rfl, h, _⟩
        · exact isFloat_ofQ _ _
        · exact IsFloat.mono _ h (fun _ => by simp [prec])
      have m1 := mul_one _ (hone .sgl)
      have m2 := mul_one .dbl (isFloat_re hw)
      unfold one at m1 m2
      rw [m1, m2, hx']
      rcases hp with hp | ⟨n, rfl⟩
      · simp [hp]
      · simp [prec]
    · simp only [h, if_false, ne_eq, not_false_eq_true, true_or, iff_true]
      have : prec x (.cplx .dbl (.zero s) (.num k)) = .dbl := by
        rcases hx with ⟨n, rfl⟩ | ⟨q, rfl, _, _⟩ <;> rfl
      rw [this, at_dbl]
      exact same_refl _

example : Floats.Spec.Rep (5/2) ∧ ((5/2 : ℚ) ≠ 1 ∨ (Val.int 16777217).ShortInt) ∧ (Val.flt .dbl (.num 3)).ShortInt :=
  ⟨⟨5, -1, by norm_num, by norm_num⟩, .inl (by norm_num), trivial⟩

/-- C132 fails: in C, `n * 1j` with `n = 16777217` is `16777216j`. -/
theorem C132_violated :
    unitC .mul (.int 16777217) 1 = some (.zero false, .num 16777216) ∧
      pyUnit .mul (Val.int 16777217).re 1 = (.zero false, .num 16777217) := ⟨by decide +kernel, by decide +kernel⟩

end Verif.Complex
