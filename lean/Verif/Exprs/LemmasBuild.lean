import Verif.Exprs.LemmasF
/-
Helper lemmas for C22.
-/
namespace Verif.Exprs

theorem erase_wrap (P i : Nat) (e : Expr) : (wrap P i e).erase = e.erase := by
  unfold wrap; split <;> rfl
theorem erase_wrapPow (i : Nat) (e : Expr) : (wrapPow i e).erase = e.erase := by
  unfold wrapPow; split <;> rfl
theorem erase_wrapSign (e : Expr) : (wrapSign e).erase = e.erase := by
  unfold wrapSign; split <;> rfl
theorem erase_castTo (t : Ty) (e : Expr) : (castTo t e).erase = e.erase := by
  unfold castTo; split <;> rfl
theorem erase_andElem (e : Expr) : (andElem e).erase = e.erase := by
  unfold andElem; rw [erase_castTo, erase_wrap]
theorem erase_orElem (e : Expr) : (orElem e).erase = e.erase := by
  unfold orElem; rw [erase_castTo]; split
  · rfl
  · exact erase_wrap _ _ _
theorem erase_andHead (e : Expr) : (andHead e).erase = e.erase := by
  cases h : e.isAnd with
  | true => rw [andHead_of_and _ h]
  | false => rw [andHead_of_not _ h, erase_andElem]
theorem erase_orHead (e : Expr) : (orHead e).erase = e.erase := by
  cases h : e.isOr with
  | true => rw [orHead_of_or _ h]
  | false => rw [orHead_of_not _ h, erase_orElem]

theorem erase_build (s : Src) (hn : s.Normal) : (build s).erase = s := by
  induction s with
  | atom => rfl
  | un o a ih =>
    cases o <;> simp [build, mkUn, Expr.erase, erase_wrap, erase_wrapSign, erase_castTo, ih hn]
  | bin o a b iha ihb =>
    obtain ⟨n1, n2, n3⟩ := hn
    have iha := iha n1
    have ihb := ihb n2
    cases o <;> simp only [build, mkBin]
    case and =>
      rw [mkAnd_of_not _ _ (by rw [isAnd_build]; exact n3)]
      simp [Expr.erase, erase_andHead, erase_andElem, iha, ihb]
    case or =>
      rw [mkOr_of_not _ _ (by rw [isOr_build]; exact n3)]
      simp [Expr.erase, erase_orHead, erase_orElem, iha, ihb]
    all_goals
      simp [Expr.erase, erase_wrap, erase_wrapSign, erase_wrapPow, erase_castTo, iha, ihb]
  | ite c t f h1 h2 h3 =>
    simp [build, Expr.erase, erase_wrap, h1 hn.1, h2 hn.2.1, h3 hn.2.2]

/-! ### Rebuilding -/

theorem rebuild_wrap {e : Expr} (P i : Nat) (h : rebuild e = e) :
    rebuild (wrap P i e) = wrap P i e := by
  unfold wrap; split <;> simp [rebuild, h]

theorem rebuild_wrapPow {e : Expr} (i : Nat) (h : rebuild e = e) :
    rebuild (wrapPow i e) = wrapPow i e := by
  unfold wrapPow; split <;> simp [rebuild, h]

theorem rebuild_wrapSign {e : Expr} (h : rebuild e = e) :
    rebuild (wrapSign e) = wrapSign e := by
  cases hs : isSign e with
  | true => rw [wrapSign_of_sign hs]; simp [rebuild, h]
  | false => rw [wrapSign_of_not hs]; exact h

theorem rebuild_castTo {e : Expr} (t : Ty) (h : rebuild e = e) :
    rebuild (castTo t e) = castTo t e := by
  unfold castTo; split <;> simp [rebuild, h]

theorem rebuild_andElem {e : Expr} (h : rebuild e = e) : rebuild (andElem e) = andElem e :=
  rebuild_castTo _ (rebuild_wrap _ _ h)

theorem rebuild_orElem {e : Expr} (h : rebuild e = e) : rebuild (orElem e) = orElem e := by
  unfold orElem
  split
  · exact rebuild_castTo _ (by simpa [rebuild] using h)
  · exact rebuild_castTo _ (rebuild_wrap _ _ h)

theorem rebuild_andHead {e : Expr} (h : rebuild e = e) : rebuild (andHead e) = andHead e := by
  cases hx : e.isAnd with
  | true => rw [andHead_of_and _ hx]; exact h
  | false => rw [andHead_of_not _ hx]; exact rebuild_andElem h

theorem rebuild_orHead {e : Expr} (h : rebuild e = e) : rebuild (orHead e) = orHead e := by
  cases hx : e.isOr with
  | true => rw [orHead_of_or _ hx]; exact h
  | false => rw [orHead_of_not _ hx]; exact rebuild_orElem h

theorem wrap_idem (P i : Nat) (e : Expr) (hP : P < 18) : wrap P i (wrap P i e) = wrap P i e := by
  have := prec_wrap P i e hP
  show (if _ then _ else _) = _
  rw [if_neg]
  rintro (h | ⟨h1, h2⟩)
  · omega
  · have := this.2 h2; omega

theorem wrapPow_idem (i : Nat) (e : Expr) : wrapPow i (wrapPow i e) = wrapPow i e := by
  have := prec_wrapPow i e
  show (if _ then _ else _) = _
  rw [if_neg]
  rintro (h | ⟨h1, h2⟩)
  · omega
  · have := this.2 h2; omega

theorem wrapSign_idem (P i : Nat) (e : Expr) (hP : P < 18) :
    wrapSign (wrap P i (wrapSign (wrap P i e))) = wrapSign (wrap P i e) := by
  have h1 := prec_wrap P i e hP
  have h2 := prec_wrapSign (wrap P i e)
  have : wrap P i (wrapSign (wrap P i e)) = wrapSign (wrap P i e) := by
    show (if _ then _ else _) = _
    rw [if_neg]
    rintro (h | ⟨h3, h4⟩)
    · omega
    · have := h1.2 h4; omega
  rw [this, wrapSign_of_not (isSign_wrapSign _)]

theorem castWrap_idem (t : Ty) (P i : Nat) (e : Expr) (hP : P < 17) :
    castTo t (wrap P i (castTo t (wrap P i e))) = castTo t (wrap P i e) := by
  have h1 := prec_wrap P i e (by omega)
  have h2 := prec_castTo t (wrap P i e)
  have : wrap P i (castTo t (wrap P i e)) = castTo t (wrap P i e) := by
    show (if _ then _ else _) = _
    rw [if_neg]
    rintro (h | ⟨h3, h4⟩)
    · omega
    · have := h1.2 h4; omega
  rw [this, castTo_idem]

theorem andHead_idem (e : Expr) : andHead (andHead e) = andHead e := by
  cases hx : e.isAnd with
  | true => rw [andHead_of_and _ hx, andHead_of_and _ hx]
  | false => rw [andHead_of_not _ hx, andHead_of_not _ (isAnd_andElem _ hx), andElem_idem]

theorem orHead_idem (e : Expr) : orHead (orHead e) = orHead e := by
  cases hx : e.isOr with
  | true => rw [orHead_of_or _ hx, orHead_of_or _ hx]
  | false => rw [orHead_of_not _ hx, orHead_of_not _ (orElem_not_or _ hx), orElem_idem]

theorem rebuild_build (s : Src) (hn : s.Normal) : rebuild (build s) = build s := by
  induction s with
  | atom => rfl
  | un o a ih =>
    have ih := ih hn
    cases o <;> simp only [build, mkUn, rebuild]
    case inv =>
      rw [rebuild_castTo _ (rebuild_wrap _ _ ih), castWrap_idem _ _ _ _ (by decide)]
    case not => rw [rebuild_wrap _ _ ih, wrap_idem _ _ _ (by decide)]
    all_goals
      rw [rebuild_wrapSign (rebuild_wrap _ _ ih), wrapSign_idem _ _ _ (by decide)]
  | bin o a b iha ihb =>
    obtain ⟨n1, n2, n3⟩ := hn
    have iha := iha n1
    have ihb := ihb n2
    cases o <;> simp only [build, mkBin]
    case and =>
      have nb : (build b).isAnd = false := by rw [isAnd_build]; exact n3
      rw [mkAnd_of_not _ _ nb]
      simp only [rebuild, mkBin]
      rw [rebuild_andHead iha, rebuild_andElem ihb, mkAnd_of_not _ _ (isAnd_andElem _ nb),
        andHead_idem, andElem_idem]
    case or =>
      have nb : (build b).isOr = false := by rw [isOr_build]; exact n3
      rw [mkOr_of_not _ _ nb]
      simp only [rebuild, mkBin]
      rw [rebuild_orHead iha, rebuild_orElem ihb, mkOr_of_not _ _ (orElem_not_or _ nb),
        orHead_idem, orElem_idem]
    case pow =>
      simp only [rebuild, mkBin]
      rw [rebuild_wrapPow _ iha, rebuild_wrapPow _ ihb, wrapPow_idem, wrapPow_idem]
    case shl | shr =>
      simp only [rebuild, mkBin]
      rw [rebuild_castTo _ (rebuild_wrap _ _ iha), rebuild_castTo _ (rebuild_wrap _ _ ihb),
        castWrap_idem _ _ _ _ (by decide), castWrap_idem _ _ _ _ (by decide)]
    case band | bor | bxor =>
      simp only [rebuild, mkBin]
      rw [rebuild_castTo _ (rebuild_wrap _ _ iha), rebuild_castTo _ (rebuild_wrap _ _ ihb)]
      simp only [ty_castTo, and_self]
      by_cases h : (build a).ty = .bool ∧ (build b).ty = .bool
      · simp only [h, and_self, if_true]
        rw [castWrap_idem _ _ _ _ (by decide), castWrap_idem _ _ _ _ (by decide)]
      · simp only [h, if_false]
        rw [if_neg (by decide), castWrap_idem _ _ _ _ (by decide), castWrap_idem _ _ _ _ (by decide)]
    case cmp c =>
      simp only [rebuild, mkBin]
      rw [rebuild_wrap _ _ iha, rebuild_wrap _ _ ihb, wrap_idem _ _ _ (by decide),
        wrap_idem _ _ _ (by decide)]
    all_goals
      simp only [rebuild, mkBin]
      rw [rebuild_wrapSign (rebuild_wrap _ _ iha), rebuild_wrapSign (rebuild_wrap _ _ ihb),
        wrapSign_idem _ _ _ (by decide), wrapSign_idem _ _ _ (by decide)]
  | ite c t f h1 h2 h3 =>
    simp only [build, rebuild]
    rw [rebuild_wrap _ _ (h1 hn.1), rebuild_wrap _ _ (h2 hn.2.1), rebuild_wrap _ _ (h3 hn.2.2),
      wrap_idem _ _ _ (by decide), wrap_idem _ _ _ (by decide), wrap_idem _ _ _ (by decide)]

end Verif.Exprs
