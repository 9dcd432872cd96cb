import Verif.Exprs.LemmasF
import Verif.Exprs.SameText
/-
Helper lemmas for C21: the Fortran text of the other nestings does not keep its structure.
-/
namespace Verif.Exprs

theorem okF_of_wrap {P i : Nat} {e : Expr} (h : OkF (wrap P i e)) : OkF e := by
  revert h; unfold wrap; split <;> exact id

theorem okF_of_wrapPow {i : Nat} {e : Expr} (h : OkF (wrapPow i e)) : OkF e := by
  revert h; unfold wrapPow; split <;> exact id

theorem okF_of_wrapSign {e : Expr} (h : OkF (wrapSign e)) : OkF e := by
  revert h; unfold wrapSign; split <;> exact id

theorem okF_of_castInt {e : Expr} (h : OkF (castTo .int e)) : OkF e := by
  revert h; unfold castTo; split <;> exact id

theorem okF_of_castT {u t : Ty} {n : Nat} {x : FTree}
    (h : Deriv fLang n (fCastT u t x)) : Deriv fLang 0 x := by
  revert h; unfold fCastT
  cases u
  · simp only
    split
    · exact id
    · rintro ⟨p, hp, _, h1, _⟩
      cases hp
      exact derivF_0 (by decide) h1
  · exact id
  · exact id

theorem okF_of_castBool {e : Expr} (h : OkF (castTo .bool e)) : OkF e := by
  revert h; unfold castTo; split
  · exact id
  · exact okF_of_castT

theorem okF_of_numT {t : Ty} {n : Nat} {x : FTree} (hn : n ≤ TOP) (h : Deriv fLang n (fNumT t x)) :
    Deriv fLang 0 x := by
  revert h; unfold fNumT; split
  · exact id
  · exact derivF_0 hn

theorem okF_of_apply {u t : Ty} {n : Nat} {x : FTree} (hn : n ≤ TOP)
    (h : Deriv fLang n (fApplyT u t x)) : Deriv fLang 0 x := by
  revert h; unfold fApplyT; split
  · exact derivF_0 hn
  · exact okF_of_castT

theorem binF {s : FSym} {p : BinRule} {x y : FTree} (e : fLang.bin s = some p)
    (h : Deriv fLang 0 (.bin s x y)) : Deriv fLang p.left x ∧ Deriv fLang p.right y := by
  obtain ⟨q, h1, _, h3, h4⟩ := h
  rw [e] at h1; cases h1
  exact ⟨h3, h4⟩

theorem flev_of_wrap {s : Src} {P i n : Nat} (hn : n ≤ TOP)
    (h : Deriv fLang n (cstF (wrap P i (build s)))) :
    (s.prec < P ∨ (s.prec = P ∧ i ≠ 0)) ∨ n ≤ s.flev := by
  have := ((deriv_iff hn).1 h).2
  rw [lvlF_wrap, prec_build, flev_build] at this
  split at this
  · left; assumption
  · right; assumption

/-- Levels of boolean operations. -/
theorem bxor_flev {s : Src} (h : s.isBxor = true) (ht : s.ty = .bool) : s.prec = 9 ∧ s.flev = 1 := by
  cases s with
  | bin o a b =>
    cases o <;> simp [Src.isBxor] at h
    by_cases hh : a.ty = .bool ∧ b.ty = .bool
    · simp [Src.prec, BOp.prec, Src.flev, hh]
    · simp [Src.ty, hh] at ht
  | _ => simp [Src.isBxor] at h

theorem bor_flev {s : Src} (h : s.isBor = true) (ht : s.ty = .bool) : s.prec = 8 ∧ s.flev = 2 := by
  cases s with
  | bin o a b =>
    cases o <;> simp [Src.isBor] at h
    by_cases hh : a.ty = .bool ∧ b.ty = .bool
    · simp [Src.prec, BOp.prec, Src.flev, hh]
    · simp [Src.ty, hh] at ht
  | _ => simp [Src.isBor] at h

theorem band_flev {s : Src} (h : s.isBand = true) (ht : s.ty = .bool) :
    s.prec = 10 ∧ s.flev = 3 := by
  cases s with
  | bin o a b =>
    cases o <;> simp [Src.isBand] at h
    by_cases hh : a.ty = .bool ∧ b.ty = .bool
    · simp [Src.prec, BOp.prec, Src.flev, hh]
    · simp [Src.ty, hh] at ht
  | _ => simp [Src.isBand] at h

theorem eqv_flev {s : Src} (h : s.isEqv = true) : s.prec = 7 ∧ s.flev = 1 ∧ s.ty = .bool := by
  cases s with
  | bin o a b =>
    cases o <;> simp [Src.isEqv] at h
    simp [Src.prec, BOp.prec, Src.flev, h, Src.ty]
  | _ => simp [Src.isEqv] at h

theorem notB_flev {s : Src} (h : s.isNotB = true) : s.prec = 6 ∧ s.flev = 4 := by
  cases s with
  | un o a =>
    cases o <;> simp [Src.isNotB] at h
    simp [Src.prec, Src.flev, h]
  | _ => simp [Src.isNotB] at h

theorem bit_flev {s : Src} (h : s.isBit = true) (ht : s.ty = .bool) : 8 ≤ s.prec ∧ s.flev ≤ 3 := by
  cases s with
  | bin o a b =>
    cases o <;> simp [Src.isBit] at h
    · have := band_flev (s := .bin .band a b) rfl ht; omega
    · have := bxor_flev (s := .bin .bxor a b) rfl ht; omega
    · have := bor_flev (s := .bin .bor a b) rfl ht; omega
  | _ => simp [Src.isBit] at h

theorem equiv_flev {s : Src} (h : s.isEquiv = true) :
    7 ≤ s.prec ∧ s.flev = 1 ∧ s.ty = .bool ∧ s.isAnd = false ∧ s.isOr = false := by
  simp only [Src.isEquiv, Bool.or_eq_true, Bool.and_eq_true, decide_eq_true_eq] at h
  rcases h with h | ⟨h, ht⟩
  · have := eqv_flev h
    refine ⟨by omega, this.2.1, this.2.2, ?_, ?_⟩ <;>
    · cases s with
      | bin o a b => cases o <;> simp_all [Src.isEqv, Src.isAnd, Src.isOr]
      | _ => rfl
  · have := bxor_flev h ht
    refine ⟨by omega, this.2, ht, ?_, ?_⟩ <;>
    · cases s with
      | bin o a b => cases o <;> simp_all [Src.isBxor, Src.isAnd, Src.isOr]
      | _ => rfl

theorem okF_of_andElem {s : Src} {n : Nat} (hn : n ≤ TOP)
    (h : Deriv fLang n (cstF (andElem (build s)))) :
    OkF (build s) ∧ (s.ty = .bool → 5 ≤ s.prec → n ≤ s.flev) := by
  obtain ⟨h1, h2⟩ := (deriv_iff hn).1 h
  refine ⟨okF_of_wrap (okF_of_castBool h1), fun ht hp => ?_⟩
  unfold andElem at h2
  rw [lvlF_castBool, ty_wrap, ty_build, if_pos ht, lvlF_wrap, prec_build, flev_build,
    if_neg (by omega)] at h2
  exact h2

theorem okF_of_orElem {s : Src} {n : Nat} (hn : n ≤ TOP)
    (h : Deriv fLang n (cstF (orElem (build s)))) :
    OkF (build s) ∧ (s.ty = .bool → s.isAnd = false → 4 ≤ s.prec → n ≤ s.flev) := by
  cases hx : (build s).isAnd with
  | true =>
    refine ⟨?_, fun _ ha _ => by rw [isAnd_build] at hx; simp [hx] at ha⟩
    have h := derivF_0 hn h
    generalize build s = e at h hx
    cases e with
    | bin o x y =>
      cases o <;> simp [Expr.isAnd] at hx
      exact okF_of_castBool (e := .paren _) h
    | _ => simp [Expr.isAnd] at hx
  | false =>
    rw [orElem_eq _ hx] at h
    obtain ⟨h1, h2⟩ := (deriv_iff hn).1 h
    refine ⟨okF_of_wrap (okF_of_castBool h1), fun ht _ hp => ?_⟩
    rw [lvlF_castBool, ty_wrap, ty_build, if_pos ht, lvlF_wrap, prec_build, flev_build,
      if_neg (by omega)] at h2
    exact h2

theorem okF_of_andHead {s : Src} {n : Nat} (hn : n ≤ TOP)
    (h : Deriv fLang n (cstF (andHead (build s)))) :
    OkF (build s) ∧ (s.ty = .bool → 5 ≤ s.prec → n ≤ s.flev) := by
  cases hx : (build s).isAnd with
  | true =>
    rw [andHead_of_and _ hx] at h
    obtain ⟨h1, h2⟩ := (deriv_iff hn).1 h
    rw [flev_build] at h2
    exact ⟨h1, fun _ _ => h2⟩
  | false =>
    rw [andHead_of_not _ hx] at h
    exact okF_of_andElem hn h

theorem okF_of_orHead {s : Src} {n : Nat} (hn : n ≤ TOP)
    (h : Deriv fLang n (cstF (orHead (build s)))) :
    OkF (build s) ∧ (s.ty = .bool → s.isAnd = false → 4 ≤ s.prec → n ≤ s.flev) := by
  cases hx : (build s).isOr with
  | true =>
    rw [orHead_of_or _ hx] at h
    obtain ⟨h1, h2⟩ := (deriv_iff hn).1 h
    rw [flev_build] at h2
    exact ⟨h1, fun _ _ _ => h2⟩
  | false =>
    rw [orHead_of_not _ hx] at h
    exact okF_of_orElem hn h

theorem false_of {b : Bool} (h : b = true → False) : b = false := by
  cases b with
  | false => rfl
  | true => exact (h rfl).elim

theorem isAnd_of_isBor {s : Src} (h : s.isBor = true) : s.isAnd = false := by
  cases s with
  | bin o a b => cases o <;> simp_all [Src.isBor, Src.isAnd]
  | _ => rfl

theorem fsafe_of_ok (s : Src) (hn : s.Normal) (hm : s.Alike) (h : OkF (build s)) : s.FSafe := by
  induction s with
  | atom => trivial
  | un o a ih =>
    cases o
    case not =>
      change Deriv fLang 0 (if (wrap 6 0 (build a)).ty = .bool then _ else _) at h
      rw [ty_wrap, ty_build] at h
      split at h
      · rename_i ht
        obtain ⟨p, hp, _, h⟩ := h
        cases hp
        have hl := flev_of_wrap (n := 5) (by decide) h
        refine ⟨ih hn hm (okF_of_wrap (derivF_0 (by decide) h)), fun _ => ⟨?_, ?_, ?_⟩⟩
        · exact false_of (fun hb => by have := notB_flev hb; omega)
        · exact false_of (fun hb => by have := bit_flev hb ht; omega)
        · exact false_of (fun hb => by have := eqv_flev hb; omega)
      · rename_i ht
        exact ⟨ih hn hm (okF_of_wrap (derivF_0 (by decide) (binF (s := .eq) rfl h).1)),
          fun h' => absurd h' ht⟩
    case inv => exact ⟨ih hn hm (okF_of_wrap (okF_of_castInt h)), trivial⟩
    all_goals
      obtain ⟨p, hp, _, h⟩ := h
      cases hp
      exact ⟨ih hn hm (okF_of_wrap (okF_of_wrapSign (derivF_0 (by decide) h))), trivial⟩
  | bin o a b iha ihb =>
    obtain ⟨n1, n2, n3⟩ := hn
    obtain ⟨m1, m2, m3⟩ := hm
    have ra : ∀ {P i}, Deriv fLang 0 (cstF (wrap P i (build a))) → a.FSafe :=
      fun h => iha n1 m1 (okF_of_wrap h)
    have rb : ∀ {P i}, Deriv fLang 0 (cstF (wrap P i (build b))) → b.FSafe :=
      fun h => ihb n2 m2 (okF_of_wrap h)
    have sa : ∀ {P i}, Deriv fLang 0 (cstF (wrapSign (wrap P i (build a)))) → a.FSafe :=
      fun h => ra (okF_of_wrapSign h)
    have sb : ∀ {P i}, Deriv fLang 0 (cstF (wrapSign (wrap P i (build b)))) → b.FSafe :=
      fun h => rb (okF_of_wrapSign h)
    cases o
    case add | sub | mul =>
      have := binF rfl h
      exact ⟨sa (okF_of_numT (by decide) this.1), sb (okF_of_numT (by decide) this.2), trivial⟩
    case div =>
      change Deriv fLang 0 (cstF (.bin _ _ _)) at h
      simp only [cstF] at h
      split at h
      · have := binF (p := ⟨8, 8, 9⟩) rfl h
        exact ⟨sa this.1, sb this.2, trivial⟩
      · have := binF rfl h
        exact ⟨sa (derivF_0 (by decide) this.1), sb (derivF_0 (by decide) this.2), trivial⟩
    case mod =>
      change Deriv fLang 0 (cstF (.bin _ _ _)) at h
      simp only [cstF] at h
      have k : ∀ {c : Prop} [Decidable c] {x : FTree} {n : Nat}, n ≤ TOP →
          Deriv fLang n (if c then .call .castFloat x else x) → Deriv fLang 0 x := by
        intro c _ x n hn h
        split at h
        · exact h
        · exact derivF_0 hn h
      split at h
      · have := binF (s := .comma) (p := ⟨0, 0, 1⟩) rfl h
        exact ⟨sa (k (by decide) this.1), sb (k (by decide) this.2), trivial⟩
      · have := binF (s := .comma) (p := ⟨0, 0, 1⟩) rfl h
        exact ⟨sa this.1, sb (derivF_0 (by decide) this.2), trivial⟩
    case fdiv =>
      change Deriv fLang 0 (cstF (.bin _ _ _)) at h
      simp only [cstF] at h
      split at h
      · have := binF (s := .comma) (p := ⟨0, 0, 1⟩) rfl h
        exact ⟨sa (okF_of_apply (by decide) this.1), sb (okF_of_apply (by decide) this.2), trivial⟩
      · have := binF (s := .div) (p := ⟨8, 8, 9⟩) rfl h
        exact ⟨sa (okF_of_apply (by decide) this.1), sb (okF_of_apply (by decide) this.2), trivial⟩
    case pow =>
      have := binF (p := ⟨9, 10, 9⟩) rfl h
      exact ⟨iha n1 m1 (okF_of_wrapPow (derivF_0 (by decide) this.1)),
        ihb n2 m2 (okF_of_wrapPow (derivF_0 (by decide) this.2)), trivial⟩
    case shl | shr =>
      have := binF (s := .comma) (p := ⟨0, 0, 1⟩) rfl h
      exact ⟨ra (okF_of_castInt this.1), rb (okF_of_castInt (derivF_0 (by decide) this.2)), trivial⟩
    case band =>
      change Deriv fLang 0 (cstF (.bin _ _ _)) at h
      simp only [cstF, ty_castTo, ty_build] at h
      by_cases hh : a.ty = .bool ∧ b.ty = .bool
      · simp only [hh, and_self, if_true] at h
        rw [castTo_of_ty (by simpa using hh.1), castTo_of_ty (by simpa using hh.2)] at h
        have := binF rfl h
        exact ⟨ra (derivF_0 (by decide) this.1), rb (derivF_0 (by decide) this.2), trivial⟩
      · simp only [hh, if_false] at h
        have := binF (s := .comma) (p := ⟨0, 0, 1⟩) rfl h
        exact ⟨ra (okF_of_castInt this.1), rb (okF_of_castInt (derivF_0 (by decide) this.2)),
          trivial⟩
    case bor =>
      change Deriv fLang 0 (cstF (.bin _ _ _)) at h
      simp only [cstF, ty_castTo, ty_build] at h
      by_cases hh : a.ty = .bool ∧ b.ty = .bool
      · simp only [hh, and_self, if_true] at h
        rw [castTo_of_ty (by simpa using hh.1), castTo_of_ty (by simpa using hh.2)] at h
        have := binF (p := ⟨2, 2, 3⟩) rfl h
        have l1 := flev_of_wrap (n := 2) (by decide) this.1
        have l2 := flev_of_wrap (n := 3) (by decide) this.2
        refine ⟨ra (derivF_0 (by decide) this.1), rb (derivF_0 (by decide) this.2),
          fun _ => ⟨?_, ?_⟩⟩
        · exact false_of (fun hb => by have := bxor_flev hb hh.1; omega)
        · exact false_of (fun hb => by have := bxor_flev hb hh.2; omega)
      · simp only [hh, if_false] at h
        have := binF (s := .comma) (p := ⟨0, 0, 1⟩) rfl h
        exact ⟨ra (okF_of_castInt this.1), rb (okF_of_castInt (derivF_0 (by decide) this.2)),
          fun h' => absurd h' hh⟩
    case bxor =>
      change Deriv fLang 0 (cstF (.bin _ _ _)) at h
      simp only [cstF, ty_castTo, ty_build] at h
      by_cases hh : a.ty = .bool ∧ b.ty = .bool
      · simp only [hh, and_self, if_true] at h
        rw [castTo_of_ty (by simpa using hh.1), castTo_of_ty (by simpa using hh.2)] at h
        have := binF rfl h
        exact ⟨ra (derivF_0 (by decide) this.1), rb (derivF_0 (by decide) this.2), trivial⟩
      · simp only [hh, if_false] at h
        have := binF (s := .comma) (p := ⟨0, 0, 1⟩) rfl h
        exact ⟨ra (okF_of_castInt this.1), rb (okF_of_castInt (derivF_0 (by decide) this.2)),
          trivial⟩
    case cmp c =>
      change Deriv fLang 0 (cstF (.bin _ _ _)) at h
      simp only [cstF, ty_wrap, ty_build] at h
      split at h
      · rename_i hc
        split at h
        · rename_i hh
          have e : fLang.bin (if c = .eq then .eqv else .neqv) = some ⟨1, 1, 2⟩ := by
            cases c <;> rfl
          have := binF e h
          have l2 := flev_of_wrap (n := 2) (by decide) this.2
          refine ⟨ra (derivF_0 (by decide) this.1), rb (derivF_0 (by decide) this.2),
            fun _ => ⟨m3 hc, fun _ => ?_⟩⟩
          exact false_of (fun hb => by have := bxor_flev hb hh.2; omega)
        · rename_i hh
          have e : fLang.bin c.f = some ⟨5, 6, 6⟩ := by cases c <;> rfl
          have := binF e h
          exact ⟨ra (derivF_0 (by decide) this.1), rb (derivF_0 (by decide) this.2),
            fun _ => ⟨m3 hc, fun ht => absurd ⟨ht, (m3 hc).1 ht⟩ hh⟩⟩
      · rename_i hc
        have e : fLang.bin c.f = some ⟨5, 6, 6⟩ := by cases c <;> rfl
        have := binF e h
        exact ⟨ra (okF_of_numT (by decide) this.1), rb (okF_of_numT (by decide) this.2),
          fun h' => absurd h' hc⟩
    case and =>
      change Deriv fLang 0 (cstF (mkAnd _ _)) at h
      rw [mkAnd_of_not _ _ (by rw [isAnd_build]; exact n3)] at h
      simp only [cstF, ty_andHead, ty_andElem] at h
      have := binF (p := ⟨3, 3, 4⟩) rfl h
      obtain ⟨k1, k2⟩ := okF_of_andHead (n := 3) (by decide) this.1
      obtain ⟨l1, l2⟩ := okF_of_andElem (n := 4) (by decide) this.2
      refine ⟨iha n1 m1 k1, ihb n2 m2 l1, ⟨?_, ?_⟩, fun ht => ?_, fun ht => ⟨?_, ?_⟩⟩
      · exact false_of (fun hb => by
          have hq := equiv_flev hb; have := k2 hq.2.2.1 (by omega); omega)
      · exact false_of (fun hb => by
          have hq := equiv_flev hb; have := l2 hq.2.2.1 (by omega); omega)
      · exact false_of (fun hb => by have hq := bor_flev hb ht; have := k2 ht (by omega); omega)
      · exact false_of (fun hb => by have hq := bor_flev hb ht; have := l2 ht (by omega); omega)
      · exact false_of (fun hb => by have hq := band_flev hb ht; have := l2 ht (by omega); omega)
    case or =>
      change Deriv fLang 0 (cstF (mkOr _ _)) at h
      rw [mkOr_of_not _ _ (by rw [isOr_build]; exact n3)] at h
      simp only [cstF, ty_orHead, ty_orElem] at h
      have := binF (p := ⟨2, 2, 3⟩) rfl h
      obtain ⟨k1, k2⟩ := okF_of_orHead (n := 2) (by decide) this.1
      obtain ⟨l1, l2⟩ := okF_of_orElem (n := 3) (by decide) this.2
      refine ⟨iha n1 m1 k1, ihb n2 m2 l1, ⟨?_, ?_⟩, fun ht => ?_⟩
      · exact false_of (fun hb => by
          have hq := equiv_flev hb; have := k2 hq.2.2.1 hq.2.2.2.1 (by omega); omega)
      · exact false_of (fun hb => by
          have hq := equiv_flev hb; have := l2 hq.2.2.1 hq.2.2.2.1 (by omega); omega)
      · exact false_of (fun hb => by
          have hq := bor_flev hb ht; have := l2 ht (isAnd_of_isBor hb) (by omega); omega)
  | ite c t f h1 h2 h3 =>
    obtain ⟨n1, n2, n3⟩ := hn
    obtain ⟨m1, m2, m3⟩ := hm
    have k := binF (s := .comma) (p := ⟨0, 0, 1⟩) rfl h
    have k' := binF (s := .comma) (p := ⟨0, 0, 1⟩) rfl k.1
    exact ⟨h1 n1 m1 (okF_of_wrap (okF_of_apply (by decide) k.2)),
      h2 n2 m2 (okF_of_wrap (okF_of_apply (by decide) k'.1)),
      h3 n3 m3 (okF_of_wrap (okF_of_apply (by decide) k'.2))⟩

theorem snoc_alike (o : BOp) (ho : o = .and ∨ o = .or) (a b : Src) (ha : a.Alike)
    (hb : b.Alike) : (Src.snoc o a b).Alike := by
  induction b with
  | bin o' x y ihx _ =>
    simp only [Src.snoc]
    split
    · rename_i h; subst h
      obtain ⟨h1, h2, h3⟩ := hb
      rcases ho with rfl | rfl <;> exact ⟨ihx h1, h2, trivial⟩
    · rcases ho with rfl | rfl <;> exact ⟨ha, hb, trivial⟩
  | _ => rcases ho with rfl | rfl <;> exact ⟨ha, hb, trivial⟩

theorem norm_alike (s : Src) (h : s.Alike) : s.norm.Alike := by
  induction s with
  | atom => trivial
  | un o a ih => exact ih h
  | bin o a b iha ihb =>
    obtain ⟨h1, h2, h3⟩ := h
    cases o
    case and => exact snoc_alike _ (.inl rfl) _ _ (iha h1) (ihb h2)
    case or => exact snoc_alike _ (.inr rfl) _ _ (iha h1) (ihb h2)
    case cmp c => exact ⟨iha h1, ihb h2, by rw [ty_norm, ty_norm]; exact h3⟩
    all_goals exact ⟨iha h1, ihb h2, trivial⟩
  | ite c t f h1 h2 h3 => exact ⟨h1 h.1, h2 h.2.1, h3 h.2.2⟩

/-- The Fortran text is read as intended exactly for the nestings of `FSafe`. -/
theorem readF_iff (s : Src) (hm : s.Alike) :
    (∃ t, Parses fLang (printF (build s)) t ∧ t.strip = s.norm.toF) ↔ s.norm.FSafe := by
  have hr := read_iff fLang (cstF (build s))
  rw [flatten_cstF, ← build_norm, strip_cstF_build _ (norm_normal s), build_norm] at hr
  rw [hr, ← build_norm]
  exact ⟨fsafe_of_ok _ (norm_normal s) (norm_alike s hm), okF_build _ (norm_normal s)⟩

end Verif.Exprs
