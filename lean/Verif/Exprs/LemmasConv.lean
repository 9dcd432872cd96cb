import Verif.Exprs.LemmasPy
/-
Helper lemmas for C19: the value with conversions.
-/
namespace Verif.Exprs

variable {V : Type}

theorem pyEval_castTo (I : PyInterp V) (u : Ty) (e : Expr) :
    pyEval I (cstPy (castTo u e)) = I.as e.ty u (pyEval I (cstPy e)) := by
  unfold castTo PyInterp.as
  split
  · rfl
  · cases u <;> rfl

theorem as_same (I : PyInterp V) (t : Ty) (v : V) : I.as t t v = v := by simp [PyInterp.as]

theorem convEval_and (I : PyInterp V) (o : BOp) (ho : o = .and ∨ o = .or) (a b : Src) :
    convEval I (.bin o a b) =
      I.binOp o.py (I.as a.ty .bool (convEval I a)) (I.as b.ty .bool (convEval I b)) := by
  rcases ho with h | h <;> subst h <;> rfl

theorem ty_and (o : BOp) (ho : o = .and ∨ o = .or) (a b : Src) : (Src.bin o a b).ty = .bool := by
  rcases ho with h | h <;> subst h <;> rfl

theorem ty_snoc_bool (o : BOp) (ho : o = .and ∨ o = .or) (a b : Src) :
    (Src.snoc o a b).ty = .bool := by
  cases b with
  | bin o' x y => simp only [Src.snoc]; split <;> exact ty_and _ ho _ _
  | _ => exact ty_and _ ho _ _

theorem convEval_snoc (I : PyInterp V) (o : BOp) (ho : o = .and ∨ o = .or) (a b : Src) :
    convEval I (Src.snoc o a b) =
      I.binOp o.py (I.as a.ty .bool (convEval I a)) (I.as b.ty .bool (convEval I b)) := by
  induction b with
  | bin o' x y ihx _ =>
    simp only [Src.snoc]
    split
    · rename_i h; subst h
      rw [convEval_and I _ ho, ty_snoc_bool _ ho, as_same, ihx, ty_and _ ho, as_same,
        convEval_and I _ ho]
      exact binOp_assoc I _ (by rcases ho with h | h <;> subst h <;> simp [BOp.py]) _ _ _
    · exact convEval_and I _ ho _ _
  | _ => exact convEval_and I _ ho _ _

/-- Grouping to the left does not change the value. -/
theorem convEval_norm (I : PyInterp V) (s : Src) : convEval I s.norm = convEval I s := by
  induction s with
  | atom => rfl
  | un o a ih => cases o <;> simp [Src.norm, convEval, ih, ty_norm]
  | bin o a b iha ihb =>
    cases o <;> simp only [Src.norm]
    case and => rw [convEval_snoc I _ (.inl rfl), iha, ihb, ty_norm, ty_norm]; rfl
    case or => rw [convEval_snoc I _ (.inr rfl), iha, ihb, ty_norm, ty_norm]; rfl
    all_goals simp [convEval, iha, ihb, ty_norm]
  | ite c t f h1 h2 h3 => simp [Src.norm, convEval, h1, h2, h3]

theorem pyEval_andElem' (I : PyInterp V) (e : Expr) :
    pyEval I (cstPy (andElem e)) = I.as e.ty .bool (pyEval I (cstPy e)) := by
  unfold andElem
  rw [pyEval_castTo, pyEval_wrap, ty_wrap]

theorem pyEval_orElem' (I : PyInterp V) (e : Expr) :
    pyEval I (cstPy (orElem e)) = I.as e.ty .bool (pyEval I (cstPy e)) := by
  unfold orElem
  split
  · rw [pyEval_castTo]
    simp only [cstPy, pyEval, Expr.ty]
  · rw [pyEval_castTo, pyEval_wrap, ty_wrap]

theorem ty_of_isAnd {e : Expr} (h : e.isAnd = true) : e.ty = .bool := by
  cases e with
  | bin o a b => cases o <;> simp_all [Expr.isAnd, Expr.ty]
  | _ => simp_all [Expr.isAnd]

theorem ty_of_isOr {e : Expr} (h : e.isOr = true) : e.ty = .bool := by
  cases e with
  | bin o a b => cases o <;> simp_all [Expr.isOr, Expr.ty]
  | _ => simp_all [Expr.isOr]

/-- The printed tree has the value of the user's expression with conversions. -/
theorem pyEval_build_conv (I : PyInterp V) (s : Src) (hn : s.Normal) (hs : s.PySafe) :
    pyEval I (cstPy (build s)) = convEval I s := by
  induction s with
  | atom => rfl
  | un o a ih =>
    have ih := ih hn hs
    cases o
    case inv =>
      simp only [build, mkUn, convEval, cstPy, pyEval, pyEval_castTo, pyEval_wrap, ty_wrap, ty_build, ih]
      rfl
    all_goals
      simp only [build, mkUn, convEval, cstPy, pyEval, pyEval_wrap, pyEval_wrapSign, ih]
  | bin o a b iha ihb =>
    obtain ⟨n1, n2, n3⟩ := hn
    obtain ⟨s1, s2, s3⟩ := hs
    have iha := iha n1 s1
    have ihb := ihb n2 s2
    cases o
    case and =>
      simp only [build, mkBin]
      rw [mkAnd_of_not _ _ (by rw [isAnd_build]; exact n3), pyEval_bin _ _ _ _ (by simp [BOp.py, PySym.isCmp]),
        pyEval_andElem', convEval_and I _ (.inl rfl), ty_build, ihb]
      cases hx : (build a).isAnd with
      | true =>
        have := ty_of_isAnd hx
        rw [ty_build] at this
        rw [andHead_of_and _ hx, iha, this, as_same]
      | false => rw [andHead_of_not _ hx, pyEval_andElem', iha, ty_build]
    case or =>
      simp only [build, mkBin]
      rw [mkOr_of_not _ _ (by rw [isOr_build]; exact n3), pyEval_bin _ _ _ _ (by simp [BOp.py, PySym.isCmp]),
        pyEval_orElem', convEval_and I _ (.inr rfl), ty_build, ihb]
      cases hx : (build a).isOr with
      | true =>
        have := ty_of_isOr hx
        rw [ty_build] at this
        rw [orHead_of_or _ hx, iha, this, as_same]
      | false => rw [orHead_of_not _ hx, pyEval_orElem', iha, ty_build]
    case cmp c =>
      simp only [build, mkBin]
      rw [pyEval_bin _ _ _ _ (fun _ => isCmp_wrap _ _ _ (by rw [isCmp_build]; exact s3)),
        pyEval_wrap, pyEval_wrap, iha, ihb]
      cases c <;> rfl
    case shl | shr =>
      simp only [build, mkBin]
      rw [pyEval_bin _ _ _ _ (by simp [BOp.py, PySym.isCmp]), pyEval_castTo, pyEval_castTo,
        pyEval_wrap, pyEval_wrap, iha, ihb, ty_wrap, ty_wrap, ty_build, ty_build]
      rfl
    case band | bor | bxor =>
      simp only [build, mkBin, convEval]
      rw [pyEval_bin _ _ _ _ (by simp [BOp.py, PySym.isCmp]), pyEval_castTo, pyEval_castTo,
        pyEval_wrap, pyEval_wrap, iha, ihb, ty_wrap, ty_wrap, ty_build, ty_build]
      by_cases h : a.ty = .bool ∧ b.ty = .bool
      · rw [if_pos h, if_pos h, h.1, h.2, as_same, as_same]; rfl
      · rw [if_neg h, if_neg h]; rfl
    all_goals
      simp only [build, mkBin]
      rw [pyEval_bin _ _ _ _ (by simp [BOp.py, PySym.isCmp])]
      simp only [pyEval_wrap, pyEval_wrapPow, pyEval_wrapSign, iha, ihb]
      rfl
  | ite c t f h1 h2 h3 =>
    obtain ⟨n1, n2, n3⟩ := hn
    obtain ⟨s1, s2, s3, s4⟩ := hs
    simp only [build, convEval, cstPy, pyEval, pyEval_wrap, h1 n1 s1, h2 n2 s2, h3 n3 s3]

end Verif.Exprs
