import Verif.Exprs.LemmasC
import Verif.Exprs.SameText
/-
Helper lemmas for C20: the C text of the other nestings does not keep its structure.
-/
namespace Verif.Exprs

theorem ok_of_derivC {n : Nat} {t : CTree} (hn : n ≤ TOP) (h : Deriv cLang n t) :
    Deriv cLang 0 t := ((deriv_iff hn).1 h).1

theorem okC_of_wrap {P i : Nat} {e : Expr} (h : OkC (wrap P i e)) : OkC e := by
  revert h; unfold wrap; split <;> exact id

theorem okC_of_wrapPow {i : Nat} {e : Expr} (h : OkC (wrapPow i e)) : OkC e := by
  revert h; unfold wrapPow; split <;> exact id

theorem okC_of_wrapSign {e : Expr} (h : OkC (wrapSign e)) : OkC e := by
  revert h; unfold wrapSign; split <;> exact id

theorem okC_of_castInt {e : Expr} (h : OkC (castTo .int e)) : OkC e := by
  revert h; unfold castTo; split <;> exact id

theorem okC_of_castBool {e : Expr} (h : OkC (castTo .bool e)) :
    OkC e ∧ (e.ty ≠ .bool → 9 ≤ lvl cLang (cstC e)) := by
  revert h; unfold castTo; split
  · rename_i ht; exact fun h => ⟨h, fun h' => absurd ht h'⟩
  · rintro ⟨p, hp, _, h1, _⟩
    cases hp
    have := (deriv_iff (by decide)).1 h1
    exact ⟨this.1, fun _ => this.2⟩

theorem okC_of_cArgT {e : Expr} {n : Nat} (hn : n ≤ TOP) (h : Deriv cLang n (cArgT e (cstC e))) :
    OkC e := by
  revert h; unfold cArgT; split
  · exact id
  · exact ok_of_derivC hn

theorem okC_of_cCastIfT {e : Expr} {c : Bool} {n : Nat} (hn : n ≤ TOP)
    (h : Deriv cLang n (cCastIfT c (cstC e))) : OkC e := by
  revert h; unfold cCastIfT; split
  · exact id
  · exact ok_of_derivC hn

theorem binC {s : CSym} {p : BinRule} {x y : CTree} (e : cLang.bin s = some p)
    (h : Deriv cLang 0 (.bin s x y)) : Deriv cLang p.left x ∧ Deriv cLang p.right y := by
  obtain ⟨q, h1, _, h3, h4⟩ := h
  rw [e] at h1; cases h1
  exact ⟨h3, h4⟩

theorem clev_of_wrap {s : Src} {P i n : Nat} (hn : n ≤ TOP)
    (h : Deriv cLang n (cstC (wrap P i (build s)))) :
    (s.prec < P ∨ (s.prec = P ∧ i ≠ 0)) ∨ n ≤ s.clev := by
  have := ((deriv_iff hn).1 h).2
  rw [lvl_wrap, prec_build, clev_build] at this
  split at this
  · left; assumption
  · right; assumption

/-- Levels of bitwise operations. -/
theorem bit_level {s : Src} (h : s.isBit = true) :
    8 ≤ s.prec ∧ s.clev ≤ 9 ∧ (s.ty ≠ .bool → s.clev ≤ 8) ∧ (9 ≤ s.clev → s.isBxor = true ∧ s.ty = .bool) ∧
      (s.isBand = true → s.prec = 10 ∧ s.clev ≤ 8) := by
  cases s with
  | bin o a b =>
    cases o <;> simp [Src.isBit] at h <;> by_cases hh : a.ty = .bool ∧ b.ty = .bool <;>
      simp [Src.prec, BOp.prec, Src.clev, Src.ty, Src.isBxor, Src.isBand, hh]
  | _ => simp [Src.isBit] at h

theorem isBit_of_isBand {s : Src} (h : s.isBand = true) : s.isBit = true := by
  cases s with
  | bin o a b => cases o <;> simp_all [Src.isBit, Src.isBand]
  | _ => simp [Src.isBand] at h

theorem eq_level {s : Src} (h : s.isEq = true) : s.prec = 7 ∧ s.clev = 9 := by
  cases s with
  | bin o a b =>
    cases o <;> simp [Src.isEq] at h
    simp [Src.prec, BOp.prec, Src.clev, h]
  | _ => simp [Src.isEq] at h

theorem truth_of_elem {s : Src} (P : Nat) (hP : P ≤ 5) (h : OkC (castTo .bool (wrap P 0 (build s)))) :
    OkC (build s) ∧ (s.ty = .bool ∨ s.isBit = false) := by
  obtain ⟨h1, h2⟩ := okC_of_castBool h
  refine ⟨okC_of_wrap h1, ?_⟩
  by_cases ht : s.ty = .bool
  · exact .inl ht
  · right
    cases hb : s.isBit with
    | false => rfl
    | true =>
      have hl := bit_level hb
      have := h2 (by simpa using ht)
      rw [lvl_wrap, prec_build, clev_build, if_neg (by omega)] at this
      have := hl.2.2.1 ht
      omega

theorem ty_of_src_isAnd {s : Src} (h : s.isAnd = true) : s.ty = .bool := by
  have := ty_of_isAnd (e := build s) (by rw [isAnd_build]; exact h)
  simpa using this

theorem ty_of_src_isOr {s : Src} (h : s.isOr = true) : s.ty = .bool := by
  have := ty_of_isOr (e := build s) (by rw [isOr_build]; exact h)
  simpa using this

theorem truth_of_orElem {s : Src} (h : OkC (orElem (build s))) :
    OkC (build s) ∧ (s.ty = .bool ∨ s.isBit = false) := by
  cases hx : (build s).isAnd with
  | true =>
    refine ⟨?_, .inl (by have := ty_of_isAnd hx; simpa using this)⟩
    generalize build s = e at h hx
    cases e with
    | bin o x y =>
      cases o <;> simp [Expr.isAnd] at hx
      exact (okC_of_castBool (e := .paren _) h).1
    | _ => simp [Expr.isAnd] at hx
  | false =>
    rw [orElem_eq _ hx] at h
    exact truth_of_elem 4 (by omega) h

theorem truth_of_andHead {s : Src} (h : OkC (andHead (build s))) :
    OkC (build s) ∧ (s.ty = .bool ∨ s.isBit = false) := by
  cases hx : (build s).isAnd with
  | true =>
    rw [andHead_of_and _ hx] at h
    exact ⟨h, .inl (by have := ty_of_isAnd hx; simpa using this)⟩
  | false =>
    rw [andHead_of_not _ hx] at h
    exact truth_of_elem 5 (by omega) h

theorem truth_of_orHead {s : Src} (h : OkC (orHead (build s))) :
    OkC (build s) ∧ (s.ty = .bool ∨ s.isBit = false) := by
  cases hx : (build s).isOr with
  | true =>
    rw [orHead_of_or _ hx] at h
    exact ⟨h, .inl (by have := ty_of_isOr hx; simpa using this)⟩
  | false =>
    rw [orHead_of_not _ hx] at h
    exact truth_of_orElem h

theorem csafe_of_ok (s : Src) (hn : s.Normal) (h : OkC (build s)) : s.CSafe := by
  induction s with
  | atom => trivial
  | un o a ih =>
    refine ih hn ?_
    cases o
    case not =>
      obtain ⟨p, hp, _, h⟩ := h; cases hp
      exact okC_of_wrap (okC_of_cArgT (by decide) h)
    case inv =>
      obtain ⟨p, hp, _, h⟩ := h; cases hp
      exact okC_of_wrap (okC_of_castInt (ok_of_derivC (by decide) h))
    all_goals
      obtain ⟨p, hp, _, h⟩ := h; cases hp
      exact okC_of_wrap (okC_of_wrapSign (ok_of_derivC (by decide) h))
  | bin o a b iha ihb =>
    obtain ⟨n1, n2, n3⟩ := hn
    have sub : ∀ {P i Q j m n : Nat}, m ≤ TOP → n ≤ TOP →
        Deriv cLang m (cstC (wrapSign (wrap P i (build a)))) ∧
        Deriv cLang n (cstC (wrapSign (wrap Q j (build b)))) → a.CSafe ∧ b.CSafe :=
      fun hm hn h => ⟨iha n1 (okC_of_wrap (okC_of_wrapSign (ok_of_derivC hm h.1))),
        ihb n2 (okC_of_wrap (okC_of_wrapSign (ok_of_derivC hn h.2)))⟩
    have subc : ∀ {P i Q j m n : Nat} {c d : Bool}, m ≤ TOP → n ≤ TOP →
        Deriv cLang m (cCastIfT c (cstC (wrapSign (wrap P i (build a))))) ∧
        Deriv cLang n (cCastIfT d (cstC (wrapSign (wrap Q j (build b))))) → a.CSafe ∧ b.CSafe :=
      fun hm hn h => ⟨iha n1 (okC_of_wrap (okC_of_wrapSign (okC_of_cCastIfT hm h.1))),
        ihb n2 (okC_of_wrap (okC_of_wrapSign (okC_of_cCastIfT hn h.2)))⟩
    cases o
    case add | sub | mul =>
      have := sub (by decide) (by decide) (binC rfl h)
      exact ⟨this.1, this.2, trivial⟩
    case div =>
      have := subc (by decide) (by decide) (binC rfl h)
      exact ⟨this.1, this.2, trivial⟩
    case mod =>
      change Deriv cLang 0 (cstC (.bin .mod _ _)) at h
      simp only [cstC] at h
      split at h
      · have := sub (by decide) (by decide) (binC (s := .comma) (p := ⟨0, 0, 1⟩) rfl h)
        exact ⟨this.1, this.2, trivial⟩
      · have := subc (by decide) (by decide) (binC (s := .comma) (p := ⟨0, 0, 1⟩) rfl h)
        exact ⟨this.1, this.2, trivial⟩
    case fdiv =>
      change Deriv cLang 0 (cstC (.bin .fdiv _ _)) at h
      simp only [cstC] at h
      split at h
      · have := sub (by decide) (by decide) (binC (s := .comma) (p := ⟨0, 0, 1⟩) rfl h)
        exact ⟨this.1, this.2, trivial⟩
      · have := subc (by decide) (by decide) (binC (s := .div) (p := ⟨13, 13, 14⟩) rfl h)
        exact ⟨this.1, this.2, trivial⟩
    case pow =>
      have := binC (s := .comma) (p := ⟨0, 0, 1⟩) rfl h
      exact ⟨iha n1 (okC_of_wrapPow (okC_of_cCastIfT (by decide) this.1)),
        ihb n2 (okC_of_wrapPow (okC_of_cCastIfT (by decide) this.2)), trivial⟩
    case shl | shr =>
      have := binC (p := ⟨11, 11, 12⟩) rfl h
      exact ⟨iha n1 (okC_of_wrap (okC_of_castInt (ok_of_derivC (by decide) this.1))),
        ihb n2 (okC_of_wrap (okC_of_castInt (ok_of_derivC (by decide) this.2))), trivial⟩
    case band | bor =>
      change Deriv cLang 0 (cstC (.bin _ _ _)) at h
      simp only [cstC, ty_castTo, ty_build] at h
      by_cases hh : a.ty = .bool ∧ b.ty = .bool
      · simp only [hh, and_self, if_true] at h
        rw [castTo_of_ty (by simpa using hh.1), castTo_of_ty (by simpa using hh.2)] at h
        have := binC rfl h
        exact ⟨iha n1 (okC_of_wrap (okC_of_cArgT (by decide) this.1)),
          ihb n2 (okC_of_wrap (okC_of_cArgT (by decide) this.2)), trivial⟩
      · simp only [hh, if_false] at h
        have := binC rfl h
        exact ⟨iha n1 (okC_of_wrap (okC_of_castInt (okC_of_cArgT (by decide) this.1))),
          ihb n2 (okC_of_wrap (okC_of_castInt (okC_of_cArgT (by decide) this.2))), trivial⟩
    case bxor =>
      change Deriv cLang 0 (cstC (.bin _ _ _)) at h
      simp only [cstC, ty_castTo, ty_build] at h
      by_cases hh : a.ty = .bool ∧ b.ty = .bool
      · simp only [hh, and_self, if_true] at h
        rw [castTo_of_ty (by simpa using hh.1), castTo_of_ty (by simpa using hh.2)] at h
        have := binC (p := ⟨9, 9, 10⟩) rfl h
        refine ⟨iha n1 (okC_of_wrap (ok_of_derivC (by decide) this.1)),
          ihb n2 (okC_of_wrap (ok_of_derivC (by decide) this.2)), fun _ => ⟨?_, ?_⟩⟩
        · cases hb : a.isBand with
          | false => rfl
          | true =>
            have hl := (bit_level (isBit_of_isBand hb)).2.2.2.2 hb
            have := clev_of_wrap (n := 9) (by decide) this.1
            omega
        · cases hb : b.isBand with
          | false => rfl
          | true =>
            have hl := (bit_level (isBit_of_isBand hb)).2.2.2.2 hb
            have := clev_of_wrap (n := 10) (by decide) this.2
            omega
      · simp only [hh, if_false] at h
        have := binC (p := ⟨7, 7, 8⟩) rfl h
        exact ⟨iha n1 (okC_of_wrap (okC_of_castInt (ok_of_derivC (by decide) this.1))),
          ihb n2 (okC_of_wrap (okC_of_castInt (ok_of_derivC (by decide) this.2))),
          fun h' => absurd h' hh⟩
    case cmp c =>
      cases hc : c.isEq with
      | true =>
        have := binC (p := ⟨9, 9, 10⟩) (by rw [cLang_c, hc]; rfl) h
        refine ⟨iha n1 (okC_of_wrap (ok_of_derivC (by decide) this.1)),
          ihb n2 (okC_of_wrap (ok_of_derivC (by decide) this.2)), ?_, ?_, .inl hc⟩
        · cases hb : a.isBit with
          | false => exact .inl rfl
          | true =>
            have hl := bit_level hb
            have := clev_of_wrap (n := 9) (by decide) this.1
            exact .inr ⟨hc, hl.2.2.2.1 (by omega)⟩
        · cases hb : b.isBit with
          | false => rfl
          | true =>
            have hl := bit_level hb
            have := clev_of_wrap (n := 10) (by decide) this.2
            omega
      | false =>
        have := binC (p := ⟨10, 10, 11⟩) (by rw [cLang_c, hc]; rfl) h
        refine ⟨iha n1 (okC_of_wrap (ok_of_derivC (by decide) this.1)),
          ihb n2 (okC_of_wrap (ok_of_derivC (by decide) this.2)), .inl ?_, ?_, .inr ?_⟩
        · cases hb : a.isBit with
          | false => rfl
          | true =>
            have hl := bit_level hb
            have := clev_of_wrap (n := 10) (by decide) this.1
            omega
        · cases hb : b.isBit with
          | false => rfl
          | true =>
            have hl := bit_level hb
            have := clev_of_wrap (n := 11) (by decide) this.2
            omega
        · cases hb : a.isEq with
          | false => rfl
          | true =>
            have hl := eq_level hb
            have := clev_of_wrap (n := 10) (by decide) this.1
            omega
    case and =>
      change Deriv cLang 0 (cstC (mkAnd _ _)) at h
      rw [mkAnd_of_not _ _ (by rw [isAnd_build]; exact n3)] at h
      have := binC (p := ⟨5, 5, 6⟩) rfl h
      have h1 : OkC (andHead (build a)) := by
        have := this.1
        split at this
        · exact ok_of_derivC (by decide) this
        · exact okC_of_cArgT (by decide) this
      have h1 := truth_of_andHead h1
      have h2 := truth_of_elem 5 (by omega) (okC_of_cArgT (by decide) this.2)
      exact ⟨iha n1 h1.1, ihb n2 h2.1, h1.2, h2.2⟩
    case or =>
      change Deriv cLang 0 (cstC (mkOr _ _)) at h
      rw [mkOr_of_not _ _ (by rw [isOr_build]; exact n3)] at h
      have := binC (p := ⟨4, 4, 5⟩) rfl h
      have h1 : OkC (orHead (build a)) := by
        have := this.1
        split at this
        · exact ok_of_derivC (by decide) this
        · exact okC_of_cArgT (by decide) this
      have h1 := truth_of_orHead h1
      have h2 := truth_of_orElem (okC_of_cArgT (by decide) this.2)
      exact ⟨iha n1 h1.1, ihb n2 h2.1, h1.2, h2.2⟩
  | ite c t f h1 h2 h3 =>
    obtain ⟨n1, n2, n3⟩ := hn
    obtain ⟨_, _, k1, k2, k3⟩ := h
    exact ⟨h1 n1 (okC_of_wrap (ok_of_derivC (by decide) k1)),
      h2 n2 (okC_of_wrap (ok_of_derivC (by decide) k2)),
      h3 n3 (okC_of_wrap (ok_of_derivC (by decide) k3))⟩

/-- The C text is read as intended exactly for the nestings of `CSafe`. -/
theorem readC_iff (s : Src) :
    (∃ t, Parses cLang (printC (build s)) t ∧ t.strip = s.norm.toC) ↔ s.norm.CSafe := by
  have hr := read_iff cLang (cstC (build s))
  rw [flatten_cstC, ← build_norm, strip_cstC_build _ (norm_normal s), build_norm] at hr
  rw [hr, ← build_norm]
  exact ⟨csafe_of_ok _ (norm_normal s), okC_build _ (norm_normal s)⟩

end Verif.Exprs
