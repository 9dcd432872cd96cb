import Verif.Exprs.Lemmas
/-
Helper lemmas for C19 and C22.
-/
namespace Verif.Exprs

/-- The syntax tree intended by the Python printer. -/
def cstPy : Expr → CST PySym PyFn
  | .atom n _ => .atom (.var n)
  | .paren a => .paren (cstPy a)
  | .cast t a => .call t.pyFn (cstPy a)
  | .un o a => .un o.py (cstPy a)
  | .bin o a b => .bin o.py (cstPy a) (cstPy b)
  | .ite c t f => .tern (cstPy t) (cstPy c) (cstPy f)

theorem flatten_cstPy (e : Expr) : (cstPy e).flatten = printPy e := by
  induction e <;> simp_all [cstPy, printPy, CST.flatten]

theorem pyLang_bin_py (o : BOp) : ∃ p, pyLang.bin o.py = some p ∧ p.lev = o.prec ∧
    (o ≠ .pow → p.left = o.prec ∧ p.right = o.prec + 1) ∧
    (o = .pow → p.left = 16 ∧ p.right = 14) := by
  cases o with
  | cmp c => cases c <;> exact ⟨_, rfl, rfl, by simp [BOp.prec], by simp⟩
  | _ => exact ⟨_, rfl, rfl, by simp [BOp.prec], by simp⟩

theorem pyLang_pre_py (o : UOp) : ∃ p, pyLang.pre o.py = some p ∧
    p.lev = (if o = .not then 6 else 14) ∧ p.arg = (if o = .not then 6 else 14) := by
  cases o <;> exact ⟨_, rfl, rfl, rfl⟩

theorem lvl_cstPy (e : Expr) : e.prec ≤ lvl pyLang (cstPy e) := by
  cases e with
  | un o a => cases o <;> simp [cstPy, lvl, Expr.prec, UOp.py, pyLang]
  | bin o a b =>
    obtain ⟨p, h1, h2, _⟩ := pyLang_bin_py o
    simp [cstPy, lvl, Expr.prec, h1, h2]
  | _ => simp [cstPy, lvl, Expr.prec, TOP]

/-- Derivable at the level of its precedence. -/
def OkPy (e : Expr) : Prop := Deriv pyLang 0 (cstPy e)

theorem OkPy.at {e : Expr} (h : OkPy e) {n : Nat} (hn : n ≤ e.prec) (hn' : n ≤ TOP) :
    Deriv pyLang n (cstPy e) :=
  (deriv_iff hn').2 ⟨h, Nat.le_trans hn (lvl_cstPy e)⟩

theorem okPy_wrap {e : Expr} (P i : Nat) (h : OkPy e) : OkPy (wrap P i e) := by
  unfold wrap; split <;> simpa [OkPy, cstPy, Deriv] using h

theorem okPy_wrapPow {e : Expr} (i : Nat) (h : OkPy e) : OkPy (wrapPow i e) := by
  unfold wrapPow; split <;> simpa [OkPy, cstPy, Deriv] using h

theorem okPy_wrapSign {e : Expr} (h : OkPy e) : OkPy (wrapSign e) := by
  unfold wrapSign; split <;> simpa [OkPy, cstPy, Deriv] using h

theorem okPy_castTo {e : Expr} (t : Ty) (h : OkPy e) : OkPy (castTo t e) := by
  unfold castTo; split <;> simpa [OkPy, cstPy, Deriv] using h

theorem okPy_bin {o : BOp} {a b : Expr} (ho : o ≠ .pow) (ha : OkPy a) (hb : OkPy b)
    (h1 : o.prec ≤ a.prec) (h2 : o.prec < b.prec) : OkPy (.bin o a b) := by
  obtain ⟨p, e1, e2, e3, _⟩ := pyLang_bin_py o
  obtain ⟨e4, e5⟩ := e3 ho
  have : o.prec ≤ 15 := by cases o <;> simp [BOp.prec]
  refine ⟨p, e1, Nat.zero_le _, ?_, ?_⟩
  · rw [e4]; exact ha.at h1 (by simp [TOP]; omega)
  · rw [e5]; exact hb.at h2 (by simp [TOP]; omega)

theorem okPy_un {o : UOp} {a : Expr} (ha : OkPy a) (h : (Expr.un o a).prec ≤ a.prec) :
    OkPy (.un o a) := by
  obtain ⟨p, e1, e2, e3⟩ := pyLang_pre_py o
  refine ⟨p, e1, Nat.zero_le _, ?_⟩
  rw [e3]
  refine ha.at ?_ (by split <;> simp [TOP])
  cases o <;> simpa [Expr.prec] using h

theorem okPy_andElem {e : Expr} (h : OkPy e) : OkPy (andElem e) :=
  okPy_castTo _ (okPy_wrap _ _ h)

theorem okPy_orElem {e : Expr} (h : OkPy e) : OkPy (orElem e) := by
  unfold orElem
  split
  · exact okPy_castTo _ h
  · exact okPy_castTo _ (okPy_wrap _ _ h)

theorem andElem_prec (e : Expr) : 5 ≤ (andElem e).prec := by
  have h1 := prec_wrap 5 0 e (by decide)
  have h2 := prec_castTo .bool (wrap 5 0 e)
  unfold andElem; omega

theorem andElem_prec_lt (e : Expr) (h : e.isAnd = false) : 5 < (andElem e).prec := by
  have h0 := andElem_prec e
  have h1 : (andElem e).isAnd = false := isAnd_andElem e h
  generalize andElem e = x at h0 h1
  cases x with
  | bin o a b => cases o <;> simp_all [Expr.prec, BOp.prec, Expr.isAnd]
  | un o a => cases o <;> simp_all [Expr.prec]
  | _ => simp_all [Expr.prec]

theorem orElem_prec_lt (e : Expr) (h : e.isOr = false) : 4 < (orElem e).prec := by
  have h0 := orElem_prec e
  have h1 : (orElem e).isOr = false := orElem_not_or e h
  generalize orElem e = x at h0 h1
  cases x with
  | bin o a b => cases o <;> simp_all [Expr.prec, BOp.prec, Expr.isOr]
  | un o a => cases o <;> simp_all [Expr.prec]
  | _ => simp_all [Expr.prec]

theorem prec_of_isAnd {e : Expr} (h : e.isAnd = true) : e.prec = 5 := by
  cases e with
  | bin o a b => cases o <;> simp_all [Expr.prec, BOp.prec, Expr.isAnd]
  | _ => simp_all [Expr.isAnd]

theorem prec_of_isOr {e : Expr} (h : e.isOr = true) : e.prec = 4 := by
  cases e with
  | bin o a b => cases o <;> simp_all [Expr.prec, BOp.prec, Expr.isOr]
  | _ => simp_all [Expr.isOr]

theorem okPy_mkAnd {a b : Expr} (ha : OkPy a) (hb : OkPy b) (h : b.isAnd = false) :
    OkPy (mkAnd a b) := by
  rw [mkAnd_of_not _ _ h]
  refine okPy_bin (by simp) ?_ (okPy_andElem hb) ?_ (andElem_prec_lt _ h)
  · cases hx : a.isAnd with
    | true => rw [andHead_of_and _ hx]; exact ha
    | false => rw [andHead_of_not _ hx]; exact okPy_andElem ha
  · cases hx : a.isAnd with
    | true => rw [andHead_of_and _ hx, prec_of_isAnd hx]; simp [BOp.prec]
    | false => rw [andHead_of_not _ hx]; exact andElem_prec a

theorem okPy_mkOr {a b : Expr} (ha : OkPy a) (hb : OkPy b) (h : b.isOr = false) :
    OkPy (mkOr a b) := by
  rw [mkOr_of_not _ _ h]
  refine okPy_bin (by simp) ?_ (okPy_orElem hb) ?_ (orElem_prec_lt _ h)
  · cases hx : a.isOr with
    | true => rw [orHead_of_or _ hx]; exact ha
    | false => rw [orHead_of_not _ hx]; exact okPy_orElem ha
  · cases hx : a.isOr with
    | true => rw [orHead_of_or _ hx, prec_of_isOr hx]; simp [BOp.prec]
    | false => rw [orHead_of_not _ hx]; exact orElem_prec a

theorem wrap_prec0 (P : Nat) (e : Expr) (hP : P < 18) : P ≤ (wrap P 0 e).prec :=
  (prec_wrap P 0 e hP).1

theorem wrap_prec1 (P i : Nat) (e : Expr) (hP : P < 18) (hi : i ≠ 0) : P < (wrap P i e).prec :=
  (prec_wrap P i e hP).2 hi

theorem castTo_prec (t : Ty) (e : Expr) (n : Nat) (h : n ≤ e.prec) (hn : n ≤ 17) :
    n ≤ (castTo t e).prec := by
  have := prec_castTo t e; omega

/-- Everything built from a normal form is derivable, if no condition of a conditional expression
is a conditional expression. -/
theorem okPy_build (s : Src) (hn : s.Normal) (hs : s.PySafe) : OkPy (build s) := by
  induction s with
  | atom => trivial
  | un o a ih =>
    have ih := ih hn hs
    cases o
    case inv =>
      refine okPy_un (okPy_castTo _ (okPy_wrap _ _ ih)) ?_
      exact castTo_prec _ _ _ (wrap_prec0 14 _ (by decide)) (by simp [Expr.prec])
    case not => exact okPy_un (okPy_wrap _ _ ih) (wrap_prec0 6 _ (by decide))
    all_goals
      exact okPy_un (okPy_wrapSign (okPy_wrap _ _ ih))
        (Nat.le_trans (wrap_prec0 14 _ (by decide)) (prec_wrapSign _))
  | bin o a b iha ihb =>
    obtain ⟨n1, n2, n3⟩ := hn
    obtain ⟨s1, s2, s3⟩ := hs
    have iha := iha n1 s1
    have ihb := ihb n2 s2
    cases o
    case pow =>
      obtain ⟨p, e1, e2, _, e4⟩ := pyLang_bin_py .pow
      obtain ⟨e5, e6⟩ := e4 rfl
      refine ⟨p, e1, Nat.zero_le _, ?_, ?_⟩
      · rw [e5]; exact (okPy_wrapPow 0 iha).at ((prec_wrapPow 0 _).2 (by decide)) (by decide)
      · rw [e6]
        exact (okPy_wrapPow 1 ihb).at (by have := (prec_wrapPow 1 (build b)).1; omega) (by decide)
    case and => exact okPy_mkAnd iha ihb (by rw [isAnd_build]; exact n3)
    case or => exact okPy_mkOr iha ihb (by rw [isOr_build]; exact n3)
    case cmp c =>
      exact okPy_bin (by simp) (okPy_wrap _ _ iha) (okPy_wrap _ _ ihb)
        (wrap_prec0 7 _ (by decide)) (wrap_prec1 7 1 _ (by decide) (by decide))
    case shl | shr =>
      exact okPy_bin (by simp) (okPy_castTo _ (okPy_wrap _ _ iha)) (okPy_castTo _ (okPy_wrap _ _ ihb))
        (castTo_prec _ _ _ (wrap_prec0 11 _ (by decide)) (by decide))
        (castTo_prec _ _ _ (wrap_prec1 11 1 _ (by decide) (by decide)) (by decide))
    case band =>
      exact okPy_bin (by simp) (okPy_castTo _ (okPy_wrap _ _ iha)) (okPy_castTo _ (okPy_wrap _ _ ihb))
        (castTo_prec _ _ _ (wrap_prec0 10 _ (by decide)) (by decide))
        (castTo_prec _ _ _ (wrap_prec1 10 1 _ (by decide) (by decide)) (by decide))
    case bxor =>
      exact okPy_bin (by simp) (okPy_castTo _ (okPy_wrap _ _ iha)) (okPy_castTo _ (okPy_wrap _ _ ihb))
        (castTo_prec _ _ _ (wrap_prec0 9 _ (by decide)) (by decide))
        (castTo_prec _ _ _ (wrap_prec1 9 1 _ (by decide) (by decide)) (by decide))
    case bor =>
      exact okPy_bin (by simp) (okPy_castTo _ (okPy_wrap _ _ iha)) (okPy_castTo _ (okPy_wrap _ _ ihb))
        (castTo_prec _ _ _ (wrap_prec0 8 _ (by decide)) (by decide))
        (castTo_prec _ _ _ (wrap_prec1 8 1 _ (by decide) (by decide)) (by decide))
    case add | sub =>
      exact okPy_bin (by simp) (okPy_wrapSign (okPy_wrap _ _ iha)) (okPy_wrapSign (okPy_wrap _ _ ihb))
        (Nat.le_trans (wrap_prec0 12 _ (by decide)) (prec_wrapSign _))
        (Nat.lt_of_lt_of_le (wrap_prec1 12 1 _ (by decide) (by decide)) (prec_wrapSign _))
    all_goals
      exact okPy_bin (by simp) (okPy_wrapSign (okPy_wrap _ _ iha)) (okPy_wrapSign (okPy_wrap _ _ ihb))
        (Nat.le_trans (wrap_prec0 13 _ (by decide)) (prec_wrapSign _))
        (Nat.lt_of_lt_of_le (wrap_prec1 13 1 _ (by decide) (by decide)) (prec_wrapSign _))
  | ite c t f h1 h2 h3 =>
    obtain ⟨n1, n2, n3⟩ := hn
    obtain ⟨s1, s2, s3, s4⟩ := hs
    refine ⟨rfl, by omega, ?_, ?_, ?_⟩
    · exact (okPy_wrap 3 1 (h2 n2 s2)).at (wrap_prec1 3 1 _ (by decide) (by decide)) (by decide)
    · refine (okPy_wrap 3 0 (h1 n1 s1)).at ?_ (by decide)
      have : 4 ≤ (build c).prec := by
        cases c with
        | atom => simp [build, Expr.prec]
        | un o a => cases o <;> simp [build, mkUn, Expr.prec]
        | bin o a b =>
          cases o <;> simp [build, mkBin, Expr.prec, BOp.prec]
          · obtain ⟨x, y, h⟩ := mkAnd_form (build a) (build b); rw [h]; simp [Expr.prec, BOp.prec]
          · obtain ⟨x, y, h⟩ := mkOr_form (build a) (build b); rw [h]; simp [Expr.prec, BOp.prec]
        | ite => simp [Src.isIte] at s4
      rw [wrap_of_prec (by omega)]; exact this
    · exact (okPy_wrap 3 2 (h3 n3 s3)).at
        (Nat.le_of_lt (wrap_prec1 3 2 _ (by decide) (by decide))) (by decide)

/-! ### Values -/

theorem snoc_isCmp (o : BOp) (ho : o = .and ∨ o = .or) (a b : Src) :
    (Src.snoc o a b).isCmp = false := by
  cases b with
  | bin o' x y => simp only [Src.snoc]; split <;> rcases ho with rfl | rfl <;> rfl
  | _ => rcases ho with rfl | rfl <;> rfl

theorem snoc_isIte (o : BOp) (a b : Src) : (Src.snoc o a b).isIte = false := by
  cases b with
  | bin o' x y => simp only [Src.snoc]; split <;> rfl
  | _ => rfl

theorem norm_isCmp (s : Src) : s.norm.isCmp = s.isCmp := by
  cases s with
  | bin o a b =>
    cases o <;> first
      | rfl
      | exact snoc_isCmp _ (.inl rfl) _ _
      | exact snoc_isCmp _ (.inr rfl) _ _
  | _ => rfl

theorem norm_isIte (s : Src) : s.norm.isIte = s.isIte := by
  cases s with
  | bin o a b => cases o <;> first | rfl | exact snoc_isIte _ _ _
  | _ => rfl

theorem snoc_pySafe (o : BOp) (ho : o = .and ∨ o = .or) (a b : Src) (ha : a.PySafe)
    (hb : b.PySafe) : (Src.snoc o a b).PySafe := by
  induction b with
  | bin o' x y ihx _ =>
    simp only [Src.snoc]
    split
    · obtain ⟨h1, h2, _⟩ := hb
      refine ⟨ihx h1, h2, ?_⟩
      rcases ho with rfl | rfl <;> trivial
    · refine ⟨ha, hb, ?_⟩
      rcases ho with rfl | rfl <;> trivial
  | _ => refine ⟨ha, hb, ?_⟩; rcases ho with rfl | rfl <;> trivial

theorem norm_pySafe (s : Src) (h : s.PySafe) : s.norm.PySafe := by
  induction s with
  | atom => trivial
  | un o a ih => exact ih h
  | bin o a b iha ihb =>
    obtain ⟨h1, h2, h3⟩ := h
    cases o <;> first
      | exact snoc_pySafe _ (.inl rfl) _ _ (iha h1) (ihb h2)
      | exact snoc_pySafe _ (.inr rfl) _ _ (iha h1) (ihb h2)
      | exact ⟨iha h1, ihb h2, trivial⟩
      | exact ⟨iha h1, ihb h2, by simpa [norm_isCmp] using h3⟩
  | ite c t f i1 i2 i3 =>
    obtain ⟨h1, h2, h3, h4⟩ := h
    exact ⟨i1 h1, i2 h2, i3 h3, by rw [norm_isIte]; exact h4⟩

theorem snoc_uniform (o : BOp) (ho : o = .and ∨ o = .or) (a b : Src) (ha : a.Uniform)
    (hb : b.Uniform) (ta : a.ty = .bool) (tb : b.ty = .bool) :
    (Src.snoc o a b).Uniform ∧ (Src.snoc o a b).ty = .bool := by
  induction b with
  | bin o' x y ihx _ =>
    simp only [Src.snoc]
    split
    · rename_i h; subst h
      obtain ⟨h1, h2, h3⟩ := hb
      rcases ho with rfl | rfl
      · obtain ⟨i1, i2⟩ := ihx h1 h3.1; exact ⟨⟨i1, h2, i2, h3.2⟩, rfl⟩
      · obtain ⟨i1, i2⟩ := ihx h1 h3.1; exact ⟨⟨i1, h2, i2, h3.2⟩, rfl⟩
    · rcases ho with rfl | rfl <;> exact ⟨⟨ha, hb, ta, tb⟩, rfl⟩
  | _ => rcases ho with rfl | rfl <;> exact ⟨⟨ha, hb, ta, tb⟩, rfl⟩

theorem norm_uniform (s : Src) (h : s.Uniform) : s.norm.Uniform := by
  induction s with
  | atom => trivial
  | un o a ih =>
    cases o
    case inv => exact ⟨by rw [ty_norm]; exact h.1, ih h.2⟩
    all_goals exact ih h
  | bin o a b iha ihb =>
    obtain ⟨h1, h2, h3⟩ := h
    have ta := ty_norm a
    have tb := ty_norm b
    cases o <;> first
      | exact (snoc_uniform _ (.inl rfl) _ _ (iha h1) (ihb h2) (by rw [ta]; exact h3.1)
          (by rw [tb]; exact h3.2)).1
      | exact (snoc_uniform _ (.inr rfl) _ _ (iha h1) (ihb h2) (by rw [ta]; exact h3.1)
          (by rw [tb]; exact h3.2)).1
      | exact ⟨iha h1, ihb h2, trivial⟩
      | exact ⟨iha h1, ihb h2, by simpa [ta, tb] using h3⟩
  | ite c t f i1 i2 i3 => exact ⟨i1 h.1, i2 h.2.1, i3 h.2.2⟩

variable {V : Type}

theorem binOp_assoc (I : PyInterp V) (s : PySym) (h : s = .and ∨ s = .or) (a b c : V) :
    I.binOp s (I.binOp s a b) c = I.binOp s a (I.binOp s b c) := by
  rcases h with rfl | rfl
  · simp only [PyInterp.binOp]
    by_cases h1 : I.truthy a = true <;> by_cases h2 : I.truthy b = true <;> simp [h1, h2]
  · simp only [PyInterp.binOp]
    by_cases h1 : I.truthy a = true <;> by_cases h2 : I.truthy b = true <;> simp [h1, h2]

theorem srcEval_snoc (I : PyInterp V) (o : BOp) (ho : o = .and ∨ o = .or) (a b : Src) :
    srcEval I (Src.snoc o a b) = I.binOp o.py (srcEval I a) (srcEval I b) := by
  induction b with
  | bin o' x y ihx _ =>
    simp only [Src.snoc]
    split
    · rename_i h; subst h
      simp only [srcEval, ihx]
      exact binOp_assoc I _ (by rcases ho with rfl | rfl <;> simp [BOp.py]) _ _ _
    · rfl
  | _ => rfl

/-- Grouping to the left does not change the value. -/
theorem srcEval_norm (I : PyInterp V) (s : Src) : srcEval I s.norm = srcEval I s := by
  induction s with
  | atom => rfl
  | un o a ih => simp [Src.norm, srcEval, ih]
  | bin o a b iha ihb =>
    cases o <;> simp only [Src.norm]
    case and => rw [srcEval_snoc I _ (.inl rfl), iha, ihb]; rfl
    case or => rw [srcEval_snoc I _ (.inr rfl), iha, ihb]; rfl
    all_goals simp [srcEval, iha, ihb]
  | ite c t f h1 h2 h3 => simp [Src.norm, srcEval, h1, h2, h3]

theorem castTo_of_ty {t : Ty} {e : Expr} (h : e.ty = t) : castTo t e = e := by
  unfold castTo; rw [if_pos h]

theorem pyEval_wrap (I : PyInterp V) (P i : Nat) (e : Expr) :
    pyEval I (cstPy (wrap P i e)) = pyEval I (cstPy e) := by
  unfold wrap; split <;> simp [cstPy, pyEval]

theorem pyEval_wrapPow (I : PyInterp V) (i : Nat) (e : Expr) :
    pyEval I (cstPy (wrapPow i e)) = pyEval I (cstPy e) := by
  unfold wrapPow; split <;> simp [cstPy, pyEval]

theorem pyEval_wrapSign (I : PyInterp V) (e : Expr) :
    pyEval I (cstPy (wrapSign e)) = pyEval I (cstPy e) := by
  unfold wrapSign; split <;> simp [cstPy, pyEval]

def Expr.isCmp : Expr → Bool
  | .bin (.cmp _) _ _ => true
  | _ => false

theorem py_isCmp (o : BOp) : o.py.isCmp = (match o with | .cmp _ => true | _ => false) := by
  cases o with
  | cmp c => cases c <;> rfl
  | _ => rfl

/-- Away from chains, a binary operator has the value of the operator. -/
theorem pyEval_bin (I : PyInterp V) (o : BOp) (a b : Expr)
    (h : o.py.isCmp = true → a.isCmp = false) :
    pyEval I (cstPy (.bin o a b)) = I.binOp o.py (pyEval I (cstPy a)) (pyEval I (cstPy b)) := by
  cases a with
  | bin o' x y =>
    simp only [cstPy]
    rw [pyEval]
    rw [if_neg]
    rintro ⟨h1, h2⟩
    have := h h1
    rw [py_isCmp] at h2
    cases o' <;> simp_all [Expr.isCmp]
  | _ => simp [cstPy, pyEval]

theorem isCmp_build (s : Src) : (build s).isCmp = s.isCmp := by
  cases s with
  | atom => rfl
  | un o a => cases o <;> rfl
  | bin o a b =>
    cases o <;> simp only [build, mkBin] <;> try rfl
    · obtain ⟨x, y, h⟩ := mkAnd_form (build a) (build b); rw [h]; rfl
    · obtain ⟨x, y, h⟩ := mkOr_form (build a) (build b); rw [h]; rfl
  | ite => rfl

theorem isCmp_wrap (P i : Nat) (e : Expr) (h : e.isCmp = false) : (wrap P i e).isCmp = false := by
  unfold wrap; split
  · rfl
  · exact h

theorem pyEval_andElem (I : PyInterp V) (e : Expr) (h : e.ty = .bool) :
    pyEval I (cstPy (andElem e)) = pyEval I (cstPy e) := by
  unfold andElem
  rw [castTo_of_ty (by simpa using h), pyEval_wrap]

theorem pyEval_orElem (I : PyInterp V) (e : Expr) (h : e.ty = .bool) :
    pyEval I (cstPy (orElem e)) = pyEval I (cstPy e) := by
  unfold orElem
  split
  · rw [castTo_of_ty (by simp [Expr.ty])]; simp [cstPy, pyEval]
  · rw [castTo_of_ty (by simpa using h), pyEval_wrap]

theorem isCmp_castTo (t : Ty) (e : Expr) (h : e.isCmp = false) : (castTo t e).isCmp = false := by
  unfold castTo; split
  · exact h
  · rfl

/-- The printed tree has the value of the user's expression. -/
theorem pyEval_build (I : PyInterp V) (s : Src) (hn : s.Normal) (hu : s.Uniform) (hs : s.PySafe) :
    pyEval I (cstPy (build s)) = srcEval I s := by
  induction s with
  | atom => rfl
  | un o a ih =>
    cases o
    case inv =>
      simp only [build, mkUn, srcEval]
      rw [castTo_of_ty (by simpa using hu.1)]
      simp only [cstPy, pyEval, pyEval_wrap, ih hn hu.2 hs]
    all_goals
      have ih := ih hn hu hs
      simp only [build, mkUn, srcEval, cstPy, pyEval, pyEval_wrap, pyEval_wrapSign, ih]
  | bin o a b iha ihb =>
    obtain ⟨n1, n2, n3⟩ := hn
    obtain ⟨u1, u2, u3⟩ := hu
    obtain ⟨s1, s2, s3⟩ := hs
    have iha := iha n1 u1 s1
    have ihb := ihb n2 u2 s2
    cases o
    case and =>
      simp only [build, mkBin]
      rw [mkAnd_of_not _ _ (by rw [isAnd_build]; exact n3), pyEval_bin _ _ _ _ (by simp [BOp.py, PySym.isCmp]),
        pyEval_andElem _ _ (by simpa using u3.2)]
      cases hx : (build a).isAnd with
      | true => rw [andHead_of_and _ hx, iha, ihb]; rfl
      | false => rw [andHead_of_not _ hx, pyEval_andElem _ _ (by simpa using u3.1), iha, ihb]; rfl
    case or =>
      simp only [build, mkBin]
      rw [mkOr_of_not _ _ (by rw [isOr_build]; exact n3), pyEval_bin _ _ _ _ (by simp [BOp.py, PySym.isCmp]),
        pyEval_orElem _ _ (by simpa using u3.2)]
      cases hx : (build a).isOr with
      | true => rw [orHead_of_or _ hx, iha, ihb]; rfl
      | false => rw [orHead_of_not _ hx, pyEval_orElem _ _ (by simpa using u3.1), iha, ihb]; rfl
    case cmp c =>
      simp only [build, mkBin]
      rw [pyEval_bin _ _ _ _ (fun _ => isCmp_wrap _ _ _ (by rw [isCmp_build]; exact s3)),
        pyEval_wrap, pyEval_wrap, iha, ihb]
      rfl
    case shl | shr =>
      simp only [build, mkBin]
      rw [pyEval_bin _ _ _ _ (by simp [BOp.py, PySym.isCmp]), castTo_of_ty (by simpa using u3.1),
        castTo_of_ty (by simpa using u3.2), pyEval_wrap, pyEval_wrap, iha, ihb]
      rfl
    case band | bxor | bor =>
      simp only [build, mkBin]
      rw [pyEval_bin _ _ _ _ (by simp [BOp.py, PySym.isCmp])]
      have e : ∀ P i (x : Src), x = a ∨ x = b →
          castTo (if (build a).ty = .bool ∧ (build b).ty = .bool then .bool else .int)
            (wrap P i (build x)) = wrap P i (build x) := by
        intro P i x hx
        refine castTo_of_ty ?_
        simp only [ty_wrap, ty_build]
        rcases u3 with ⟨h1, h2⟩ | ⟨h1, h2⟩ <;> rcases hx with rfl | rfl <;> simp [h1, h2]
      rw [e _ _ a (.inl rfl), e _ _ b (.inr rfl), pyEval_wrap, pyEval_wrap, iha, ihb]
      rfl
    all_goals
      simp only [build, mkBin]
      rw [pyEval_bin _ _ _ _ (by simp [BOp.py, PySym.isCmp])]
      simp only [pyEval_wrap, pyEval_wrapSign, pyEval_wrapPow, iha, ihb]
      rfl
  | ite c t f h1 h2 h3 =>
    obtain ⟨n1, n2, n3⟩ := hn
    obtain ⟨u1, u2, u3⟩ := hu
    obtain ⟨s1, s2, s3, _⟩ := hs
    simp only [build, cstPy, pyEval, pyEval_wrap, srcEval, h1 n1 u1 s1, h2 n2 u2 s2, h3 n3 u3 s3]

end Verif.Exprs
