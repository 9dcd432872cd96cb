import Verif.Exprs.LemmasC
/-
Helper lemmas for C21.
-/
namespace Verif.Exprs

def fNumT (t : Ty) (x : FTree) : FTree := if t = .bool then .call .castInt x else x

def fCastT (u t : Ty) (x : FTree) : FTree :=
  match u with
  | .bool => if t = .bool then .call .castBool x else .paren (.bin .ne x (.atom .zero))
  | .int => .call .castInt x
  | .float => .call .castFloat x

def fApplyT (u t : Ty) (x : FTree) : FTree := if t = u then x else fCastT u t x

/-- The syntax tree intended by the Fortran printer. -/
def cstF : Expr → FTree
  | .atom n _ => .atom (.var n)
  | .paren a => .paren (cstF a)
  | .cast u a => fCastT u a.ty (cstF a)
  | .un .pos a => .un .add (cstF a)
  | .un .neg a => .un .sub (cstF a)
  | .un .inv a => .call .bitNot (cstF a)
  | .un .not a => if a.ty = .bool then .un .not (cstF a) else .bin .eq (cstF a) (.atom .zero)
  | .bin .pow a b => .bin .pow (cstF a) (cstF b)
  | .bin .add a b => .bin .add (fNumT a.ty (cstF a)) (fNumT b.ty (cstF b))
  | .bin .sub a b => .bin .sub (fNumT a.ty (cstF a)) (fNumT b.ty (cstF b))
  | .bin .mul a b => .bin .mul (fNumT a.ty (cstF a)) (fNumT b.ty (cstF b))
  | .bin .div a b =>
    if a.ty ≠ .float ∧ b.ty ≠ .float then
      .bin .div (.call .castFloat (cstF a)) (.call .castFloat (cstF b))
    else .bin .div (cstF a) (cstF b)
  | .bin .mod a b =>
    if a.ty.join b.ty = .float then
      .call .modulo (.bin .comma (if a.ty = .int then .call .castFloat (cstF a) else cstF a)
        (if b.ty = .int then .call .castFloat (cstF b) else cstF b))
    else .call .modulo (.bin .comma (cstF a) (cstF b))
  | .bin .fdiv a b =>
    if a.ty ≠ .float ∧ b.ty ≠ .float then
      .call .floorDiv (.bin .comma (fApplyT (a.ty.join b.ty) a.ty (cstF a))
        (fApplyT (a.ty.join b.ty) b.ty (cstF b)))
    else .call .floor (.bin .div (fApplyT (a.ty.join b.ty) a.ty (cstF a))
      (fApplyT (a.ty.join b.ty) b.ty (cstF b)))
  | .bin .shl a b => .call .lshift (.bin .comma (cstF a) (cstF b))
  | .bin .shr a b => .call .rshift (.bin .comma (cstF a) (cstF b))
  | .bin .band a b =>
    if a.ty = .bool ∧ b.ty = .bool then .bin .and (cstF a) (cstF b)
    else .call .iand (.bin .comma (cstF a) (cstF b))
  | .bin .bor a b =>
    if a.ty = .bool ∧ b.ty = .bool then .bin .or (cstF a) (cstF b)
    else .call .ior (.bin .comma (cstF a) (cstF b))
  | .bin .bxor a b =>
    if a.ty = .bool ∧ b.ty = .bool then .bin .neqv (cstF a) (cstF b)
    else .call .ieor (.bin .comma (cstF a) (cstF b))
  | .bin (.cmp c) a b =>
    if c.isEq then
      if a.ty = .bool ∧ b.ty = .bool then
        .bin (if c = .eq then .eqv else .neqv) (cstF a) (cstF b)
      else .bin c.f (cstF a) (cstF b)
    else .bin c.f (fNumT a.ty (cstF a)) (fNumT b.ty (cstF b))
  | .bin .and a b => .bin .and (fApplyT .bool a.ty (cstF a)) (fApplyT .bool b.ty (cstF b))
  | .bin .or a b => .bin .or (fApplyT .bool a.ty (cstF a)) (fApplyT .bool b.ty (cstF b))
  | .ite c t f =>
    .call .merge (.bin .comma
      (.bin .comma (fApplyT (if t.ty = f.ty then t.ty else t.ty.join f.ty) t.ty (cstF t))
        (fApplyT (if t.ty = f.ty then t.ty else t.ty.join f.ty) f.ty (cstF f)))
      (fApplyT .bool c.ty (cstF c)))

theorem flatten_fNumT (t : Ty) (x : FTree) : (fNumT t x).flatten = fNumToks t x.flatten := by
  unfold fNumT fNumToks; split <;> rfl

theorem flatten_fCastT (u t : Ty) (x : FTree) :
    (fCastT u t x).flatten = fCastToks u t x.flatten := by
  unfold fCastT fCastToks
  cases u
  · simp only; split <;> rfl
  · rfl
  · rfl

theorem flatten_fApplyT (u t : Ty) (x : FTree) :
    (fApplyT u t x).flatten = fApply u t x.flatten := by
  unfold fApplyT fApply; split
  · rfl
  · exact flatten_fCastT _ _ _

theorem flatten_cstF (e : Expr) : (cstF e).flatten = printF e := by
  induction e with
  | atom => rfl
  | paren a ih => simp [cstF, printF, CST.flatten, ih]
  | cast t a ih => simp [cstF, printF, flatten_fCastT, ih]
  | un o a ih =>
    cases o <;> simp only [cstF, printF]
    case not => split <;> simp [CST.flatten, ih]
    all_goals simp [CST.flatten, fCall, ih]
  | bin o a b iha ihb =>
    cases o <;> simp only [cstF, printF]
    case mod =>
      split
      · simp only [CST.flatten, fCall]
        congr 1; congr 1; congr 1
        congr 1
        · split <;> simp [CST.flatten, iha]
        · congr 1; split <;> simp [CST.flatten, ihb]
      · simp [CST.flatten, fCall, iha, ihb]
    case div | fdiv | band | bor | bxor =>
      split <;> simp [CST.flatten, fCall, flatten_fApplyT, iha, ihb]
    case cmp c =>
      split
      · split <;> simp [CST.flatten, iha, ihb]
      · simp [CST.flatten, flatten_fNumT, iha, ihb]
    all_goals simp [CST.flatten, fCall, flatten_fNumT, flatten_fApplyT, iha, ihb]
  | ite c t f h1 h2 h3 => simp [cstF, printF, CST.flatten, fCall, flatten_fApplyT, h1, h2, h3]

/-! ### Structure -/

theorem strip_fNumT (t : Ty) (x : FTree) : (fNumT t x).strip = fNum t x.strip := by
  unfold fNumT fNum; split <;> rfl

theorem strip_fApplyT (u t : Ty) (x : FTree) : (fApplyT u t x).strip = fTo u t x.strip := by
  cases u <;> cases t <;> rfl

theorem stripF_wrap (P i : Nat) (e : Expr) : (cstF (wrap P i e)).strip = (cstF e).strip := by
  unfold wrap; split <;> rfl

theorem stripF_wrapPow (i : Nat) (e : Expr) : (cstF (wrapPow i e)).strip = (cstF e).strip := by
  unfold wrapPow; split <;> rfl

theorem stripF_wrapSign (e : Expr) : (cstF (wrapSign e)).strip = (cstF e).strip := by
  unfold wrapSign; split <;> rfl

theorem stripF_castTo (t : Ty) (e : Expr) :
    (cstF (castTo t e)).strip = fTo t e.ty (cstF e).strip := by
  unfold castTo; split
  · rename_i h; rw [h]; cases t <;> rfl
  · rename_i h
    simp only [cstF]
    cases t <;> cases ht : e.ty <;> first | rfl | exact absurd ht h

theorem stripF_andElem (e : Expr) : (cstF (andElem e)).strip = fBool e.ty (cstF e).strip := by
  unfold andElem; rw [stripF_castTo, stripF_wrap, ty_wrap]; rfl

theorem stripF_orElem (e : Expr) : (cstF (orElem e)).strip = fBool e.ty (cstF e).strip := by
  unfold orElem; rw [stripF_castTo]
  split
  · rfl
  · rw [stripF_wrap, ty_wrap]; rfl

theorem stripF_andHead (e : Expr) : (cstF (andHead e)).strip = fBool e.ty (cstF e).strip := by
  cases h : e.isAnd with
  | true => rw [andHead_of_and _ h, ty_of_isAnd h]; rfl
  | false => rw [andHead_of_not _ h, stripF_andElem]

theorem stripF_orHead (e : Expr) : (cstF (orHead e)).strip = fBool e.ty (cstF e).strip := by
  cases h : e.isOr with
  | true => rw [orHead_of_or _ h, ty_of_isOr h]; rfl
  | false => rw [orHead_of_not _ h, stripF_orElem]

theorem ty_andElem (e : Expr) : (andElem e).ty = .bool := ty_castTo _ _
theorem ty_orElem (e : Expr) : (orElem e).ty = .bool := ty_castTo _ _
theorem ty_andHead (e : Expr) : (andHead e).ty = .bool := by
  cases h : e.isAnd with
  | true => rw [andHead_of_and _ h, ty_of_isAnd h]
  | false => rw [andHead_of_not _ h, ty_andElem]
theorem ty_orHead (e : Expr) : (orHead e).ty = .bool := by
  cases h : e.isOr with
  | true => rw [orHead_of_or _ h, ty_of_isOr h]
  | false => rw [orHead_of_not _ h, ty_orElem]

theorem fTo_bool (x : FTree) : fTo .bool .bool x = x := rfl

theorem strip_cstF_build (s : Src) (hn : s.Normal) : (cstF (build s)).strip = s.toF := by
  induction s with
  | atom => rfl
  | un o a ih =>
    have ih := ih hn
    cases o
    case not =>
      simp only [build, mkUn, cstF, Src.toF, ty_wrap, ty_build]
      split <;> simp [CST.strip, stripF_wrap, ih]
    case inv =>
      simp [build, mkUn, cstF, Src.toF, CST.strip, stripF_castTo, stripF_wrap, ih, fTo]
    all_goals
      simp [build, mkUn, cstF, CST.strip, Src.toF, stripF_wrap, stripF_wrapSign, ih]
  | bin o a b iha ihb =>
    obtain ⟨n1, n2, n3⟩ := hn
    have iha := iha n1
    have ihb := ihb n2
    cases o
    case and =>
      simp only [build, mkBin, Src.toF]
      rw [mkAnd_of_not _ _ (by rw [isAnd_build]; exact n3)]
      simp only [cstF, CST.strip, strip_fApplyT, stripF_andHead, stripF_andElem, ty_andElem,
        ty_andHead, fTo_bool, ty_build, iha, ihb]
    case or =>
      simp only [build, mkBin, Src.toF]
      rw [mkOr_of_not _ _ (by rw [isOr_build]; exact n3)]
      simp only [cstF, CST.strip, strip_fApplyT, stripF_orHead, stripF_orElem, ty_orElem,
        ty_orHead, fTo_bool, ty_build, iha, ihb]
    case mod =>
      simp only [build, mkBin, Src.toF, cstF, ty_wrapSign, ty_wrap, ty_build]
      cases a.ty <;> cases b.ty <;>
        simp [Ty.join, CST.strip, FTree.call2, stripF_wrap, stripF_wrapSign, iha, ihb]
    case fdiv =>
      simp only [build, mkBin, Src.toF, cstF, ty_wrapSign, ty_wrap, ty_build]
      cases a.ty <;> cases b.ty <;>
        simp [Ty.join, CST.strip, FTree.call2, strip_fApplyT, stripF_wrap, stripF_wrapSign, iha,
          ihb, fTo]
    case div =>
      simp only [build, mkBin, Src.toF, cstF, ty_wrapSign, ty_wrap, ty_build]
      split <;> simp [CST.strip, stripF_wrap, stripF_wrapSign, iha, ihb]
    case band | bor | bxor =>
      simp only [build, mkBin, Src.toF, cstF, ty_castTo, ty_build]
      by_cases h : a.ty = .bool ∧ b.ty = .bool
      · simp [h, CST.strip, stripF_castTo, stripF_wrap, fTo_bool, iha, ihb]
      · simp [h, CST.strip, FTree.call2, stripF_castTo, stripF_wrap, iha, ihb, fTo]
    case cmp c =>
      simp only [build, mkBin, Src.toF, cstF, ty_wrap, ty_build]
      split
      · split <;> simp [CST.strip, stripF_wrap, iha, ihb]
      · simp [CST.strip, strip_fNumT, stripF_wrap, iha, ihb]
    all_goals
      simp [build, mkBin, Src.toF, cstF, CST.strip, FTree.call2, stripF_castTo, strip_fNumT,
        stripF_wrap, stripF_wrapSign, stripF_wrapPow, iha, ihb, fTo]
  | ite c t f h1 h2 h3 =>
    obtain ⟨n1, n2, n3⟩ := hn
    simp only [build, cstF, CST.strip, Src.toF, FTree.call3, strip_fApplyT, stripF_wrap, ty_wrap,
      ty_build, h1 n1, h2 n2, h3 n3, Src.ty]
    rfl

/-! ### Levels -/

/-- Level of the printed text. -/
def Src.flev : Src → Nat
  | .atom _ _ => 20
  | .un .not a => if a.ty = .bool then 4 else 5
  | .un .inv _ => 20
  | .un _ _ => 7
  | .bin o a b =>
    match o with
    | .mod | .fdiv | .shl | .shr => 20
    | .pow => 9
    | .add | .sub => 7
    | .mul | .div => 8
    | .band => if a.ty = .bool ∧ b.ty = .bool then 3 else 20
    | .bor => if a.ty = .bool ∧ b.ty = .bool then 2 else 20
    | .bxor => if a.ty = .bool ∧ b.ty = .bool then 1 else 20
    | .cmp c => if c.isEq ∧ a.ty = .bool ∧ b.ty = .bool then 1 else 5
    | .and => 3
    | .or => 2
  | .ite _ _ _ => 20

theorem flev_build (s : Src) : lvl fLang (cstF (build s)) = s.flev := by
  cases s with
  | atom => rfl
  | un o a =>
    cases o <;> try rfl
    simp only [build, mkUn, cstF, Src.flev, ty_wrap, ty_build]
    split <;> rfl
  | bin o a b =>
    cases o <;> simp only [build, mkBin] <;> try rfl
    case mod | fdiv | div => simp only [cstF]; split <;> rfl
    case band | bor | bxor =>
      simp only [cstF, ty_castTo, ty_build, Src.flev]
      by_cases h : a.ty = .bool ∧ b.ty = .bool <;> simp [h, lvl, fLang, leftAssoc, TOP]
    case cmp c =>
      simp only [cstF, ty_wrap, ty_build, Src.flev]
      by_cases h : a.ty = .bool ∧ b.ty = .bool <;> cases c <;>
        simp [h, Cmp.isEq, Cmp.f, lvl, fLang, leftAssoc]
    case and => obtain ⟨x, y, h⟩ := mkAnd_form (build a) (build b); rw [h]; rfl
    case or => obtain ⟨x, y, h⟩ := mkOr_form (build a) (build b); rw [h]; rfl
  | ite => rfl

def OkF (e : Expr) : Prop := Deriv fLang 0 (cstF e)

theorem okF_wrap {e : Expr} (P i : Nat) (h : OkF e) : OkF (wrap P i e) := by
  unfold wrap; split <;> simpa [OkF, cstF, Deriv] using h

theorem okF_wrapPow {e : Expr} (i : Nat) (h : OkF e) : OkF (wrapPow i e) := by
  unfold wrapPow; split <;> simpa [OkF, cstF, Deriv] using h

theorem okF_wrapSign {e : Expr} (h : OkF e) : OkF (wrapSign e) := by
  unfold wrapSign; split <;> simpa [OkF, cstF, Deriv] using h

theorem okF_castInt {e : Expr} (h : OkF e) : OkF (castTo .int e) := by
  unfold castTo; split <;> simpa [OkF, cstF, fCastT, Deriv] using h

theorem derivF_ne {x : FTree} (h : Deriv fLang 6 x) : Deriv fLang 0 (.bin .ne x (.atom .zero)) :=
  ⟨_, rfl, Nat.zero_le _, h, trivial⟩

theorem okF_castBool {e : Expr} (h : OkF e) (hl : e.ty ≠ .bool → 6 ≤ lvl fLang (cstF e)) :
    OkF (castTo .bool e) := by
  unfold castTo; split
  · exact h
  · rename_i ht
    show Deriv fLang 0 (if e.ty = .bool then _ else _)
    rw [if_neg ht]
    exact derivF_ne ((deriv_iff (by decide)).2 ⟨h, hl ht⟩)

theorem lvlF_wrap (P i : Nat) (e : Expr) :
    lvl fLang (cstF (wrap P i e)) =
      if e.prec < P ∨ (e.prec = P ∧ i ≠ 0) then 20 else lvl fLang (cstF e) := by
  unfold wrap; split <;> rfl

theorem derivF_wrap {s : Src} (h : OkF (build s)) (P i n : Nat) (hn : n ≤ TOP)
    (hl : ¬ (s.prec < P ∨ (s.prec = P ∧ i ≠ 0)) → n ≤ s.flev) :
    Deriv fLang n (cstF (wrap P i (build s))) := by
  refine (deriv_iff hn).2 ⟨okF_wrap _ _ h, ?_⟩
  rw [lvlF_wrap, prec_build, flev_build]
  split
  · exact hn
  · rename_i h'; exact hl h'

theorem derivF_castInt {e : Expr} {n : Nat} (hn : n ≤ TOP) (h0 : OkF e)
    (h : e.ty = .int → Deriv fLang n (cstF e)) : Deriv fLang n (cstF (castTo .int e)) := by
  unfold castTo; split
  · rename_i ht; exact h ht
  · exact h0

theorem flev_pos (s : Src) : 1 ≤ s.flev := by
  cases s with
  | un o a => cases o <;> simp only [Src.flev] <;> first | omega | (split <;> omega)
  | bin o a b => cases o <;> simp only [Src.flev] <;> first | omega | (split <;> omega)
  | _ => simp [Src.flev]

/-- Numbers. -/
theorem flev_num (s : Src) (h : s.ty ≠ .bool) : 7 ≤ s.flev := by
  cases s with
  | un o a => cases o <;> simp_all [Src.flev, Src.ty]
  | bin o a b =>
    cases o <;> simp_all [Src.flev, Src.ty]
    all_goals
      rw [if_neg (by rintro ⟨h1, h2⟩; exact h h1 h2)]; omega
  | _ => simp [Src.flev]

/-- A sign applied to an operand. -/
def Src.isSign : Src → Bool
  | .un .pos _ | .un .neg _ => true
  | _ => false

theorem flev_arith (s : Src) (h : s.isSign = false) :
    (12 ≤ s.prec → 7 ≤ s.flev) ∧ (13 ≤ s.prec → 8 ≤ s.flev) ∧ (14 ≤ s.prec → 9 ≤ s.flev) ∧
    (16 ≤ s.prec → 10 ≤ s.flev) := by
  cases s with
  | un o a => cases o <;> simp_all [Src.prec, Src.flev, Src.isSign]
  | bin o a b => cases o <;> simp_all [Src.prec, Src.flev, BOp.prec]
  | _ => simp_all [Src.prec, Src.flev]

theorem isSign_build (s : Src) : isSign (build s) = s.isSign := by
  cases s with
  | atom => rfl
  | un o a => cases o <;> rfl
  | bin o a b =>
    cases o <;> simp only [build, mkBin] <;> try rfl
    · obtain ⟨x, y, h⟩ := mkAnd_form (build a) (build b); rw [h]; rfl
    · obtain ⟨x, y, h⟩ := mkOr_form (build a) (build b); rw [h]; rfl
  | ite => rfl

theorem wrapSign_of_not {e : Expr} (h : isSign e = false) : wrapSign e = e := by
  unfold wrapSign; split <;> simp_all [isSign]

theorem wrapSign_of_sign {e : Expr} (h : isSign e = true) : wrapSign e = .paren e := by
  unfold wrapSign; split <;> simp_all [isSign]

theorem isSign_wrap (P i : Nat) (e : Expr) : isSign (wrap P i e) = true → isSign e = true := by
  unfold wrap; split
  · intro h; simp [isSign] at h
  · exact id

/-- An operand of an arithmetic operator. -/
theorem derivF_signWrap {s : Src} (h : OkF (build s)) (P i n : Nat) (hn : n ≤ TOP)
    (hl : s.isSign = false → ¬ (s.prec < P ∨ (s.prec = P ∧ i ≠ 0)) → n ≤ s.flev) :
    Deriv fLang n (cstF (wrapSign (wrap P i (build s)))) := by
  cases hs : isSign (wrap P i (build s)) with
  | true =>
    rw [wrapSign_of_sign hs]
    exact okF_wrap _ _ h
  | false =>
    rw [wrapSign_of_not hs]
    by_cases hw : (build s).prec < P ∨ ((build s).prec = P ∧ i ≠ 0)
    · unfold wrap; rw [if_pos hw]; exact h
    · refine derivF_wrap h P i n hn (fun h' => hl ?_ h')
      have : wrap P i (build s) = build s := by unfold wrap; rw [if_neg hw]
      rw [this, isSign_build] at hs
      exact hs

theorem derivF_numT {t : Ty} {n : Nat} {x : FTree} (hn : n ≤ TOP) (h0 : Deriv fLang 0 x)
    (h : t ≠ .bool → Deriv fLang n x) : Deriv fLang n (fNumT t x) := by
  unfold fNumT; split
  · exact h0
  · rename_i ht; exact h ht

theorem derivF_0 {n : Nat} {x : FTree} (hn : n ≤ TOP) (h : Deriv fLang n x) : Deriv fLang 0 x :=
  ((deriv_iff hn).1 h).1

theorem derivF_apply {u t : Ty} {n : Nat} {x : FTree} (hn : n ≤ TOP)
    (h : Deriv fLang n x) (hb : u = .bool → t ≠ .bool → Deriv fLang 6 x) :
    Deriv fLang n (fApplyT u t x) := by
  unfold fApplyT; split
  · exact h
  · rename_i ht
    have h0 := derivF_0 hn h
    unfold fCastT
    cases u
    · simp only; rw [if_neg ht]; exact derivF_ne (hb rfl ht)
    · exact h0
    · exact h0

theorem okF_bin {s : FSym} {p : BinRule} {x y : FTree} (e : fLang.bin s = some p)
    (h1 : Deriv fLang p.left x) (h2 : Deriv fLang p.right y) : Deriv fLang 0 (.bin s x y) :=
  ⟨p, e, Nat.zero_le _, h1, h2⟩

theorem okF_elem {s : Src} (h : OkF (build s)) : OkF (andElem (build s)) ∧ OkF (orElem (build s)) := by
  constructor
  · unfold andElem
    refine okF_castBool (okF_wrap _ _ h) (fun ht => ?_)
    simp only [ty_wrap, ty_build] at ht
    have := flev_num s ht
    rw [lvlF_wrap, flev_build]
    split <;> omega
  · cases hx : (build s).isAnd with
    | true =>
      generalize build s = e at h hx
      cases e with
      | bin o x y =>
        cases o <;> simp [Expr.isAnd] at hx
        exact okF_castBool (e := .paren _) h (fun ht => absurd rfl ht)
      | _ => simp [Expr.isAnd] at hx
    | false =>
      rw [orElem_eq _ hx]
      refine okF_castBool (okF_wrap _ _ h) (fun ht => ?_)
      simp only [ty_wrap, ty_build] at ht
      have := flev_num s ht
      rw [lvlF_wrap, flev_build]
      split <;> omega

theorem lvlF_castBool (e : Expr) :
    lvl fLang (cstF (castTo .bool e)) = if e.ty = .bool then lvl fLang (cstF e) else 20 := by
  unfold castTo; split
  · rfl
  · rename_i h
    simp only [cstF, fCastT]
    rw [if_neg h]; rfl

theorem lvlF_andElem (s : Src) (n : Nat) (hn : n ≤ 20)
    (h : s.ty = .bool → 5 ≤ s.prec → n ≤ s.flev) : n ≤ lvl fLang (cstF (andElem (build s))) := by
  unfold andElem
  rw [lvlF_castBool, ty_wrap, ty_build]
  split
  · rename_i ht
    rw [lvlF_wrap, prec_build, flev_build]
    split
    · exact hn
    · exact h ht (by omega)
  · exact hn

theorem lvlF_orElem (s : Src) (n : Nat) (hn : n ≤ 20)
    (h : s.ty = .bool → s.isAnd = false → 4 ≤ s.prec → n ≤ s.flev) :
    n ≤ lvl fLang (cstF (orElem (build s))) := by
  cases hx : (build s).isAnd with
  | true =>
    generalize build s = e at hx
    cases e with
    | bin o x y =>
      cases o <;> simp [Expr.isAnd] at hx
      exact hn
    | _ => simp [Expr.isAnd] at hx
  | false =>
    rw [orElem_eq _ hx, lvlF_castBool, ty_wrap, ty_build]
    split
    · rename_i ht
      rw [lvlF_wrap, prec_build, flev_build]
      split
      · exact hn
      · exact h ht (by rw [← isAnd_build]; exact hx) (by omega)
    · exact hn

/-- Boolean operands of `and`, `or`, `not`. -/
theorem flev_bool (s : Src) (hp : 4 ≤ s.prec) (ht : s.ty = .bool) :
    (s.isEquiv = false → 2 ≤ s.flev ∧
      (s.isBor = false → s.isOr = false → 3 ≤ s.flev ∧
        (s.isBand = false → s.isAnd = false → 4 ≤ s.flev ∧ (s.isNotB = false → 5 ≤ s.flev)))) := by
  cases s with
  | un o a =>
    cases o <;> simp_all [Src.flev, Src.ty, Src.isNotB]
    split <;> simp_all
  | bin o a b =>
    cases o <;> simp_all [Src.flev, Src.ty, Src.isBor, Src.isOr, Src.isAnd, Src.isEquiv, Src.isEqv,
      Src.isBxor, Src.isBand]
    case cmp c =>
      intro h
      by_cases hh : c.isEq = true <;> simp [hh] at h ⊢
      rw [if_neg (by intro h'; exact absurd h'.2 (h h'.1))]; omega
  | ite => simp [Src.prec] at hp
  | _ => simp [Src.flev]

theorem okF_build (s : Src) (hn : s.Normal) (hs : s.FSafe) : OkF (build s) := by
  induction s with
  | atom => trivial
  | un o a ih =>
    obtain ⟨s1, s2⟩ := hs
    have ih := ih hn s1
    cases o
    case not =>
      show Deriv fLang 0 (if (wrap 6 0 (build a)).ty = .bool then _ else _)
      rw [ty_wrap, ty_build]
      split
      · rename_i ht
        obtain ⟨h1, h2, h3⟩ := s2 ht
        refine ⟨⟨4, 5⟩, rfl, Nat.zero_le _, derivF_wrap ih 6 0 5 (by decide) (fun hp => ?_)⟩
        have hb : a.isBor = false ∧ a.isBand = false ∧ a.isBxor = false := by
          cases a with
          | bin o x y => cases o <;> simp_all [Src.isBit, Src.isBor, Src.isBand, Src.isBxor]
          | _ => simp [Src.isBor, Src.isBand, Src.isBxor]
        have ho : a.isOr = false ∧ a.isAnd = false := by
          cases a with
          | bin o x y => cases o <;> simp_all [Src.isAnd, Src.isOr, Src.prec, BOp.prec]
          | _ => simp [Src.isAnd, Src.isOr]
        exact ((((flev_bool a (by omega) ht) (by simp [Src.isEquiv, h3, hb])).2 hb.1 ho.1).2
          hb.2.1 ho.2).2 h1
      · rename_i ht
        refine okF_bin (p := ⟨5, 6, 6⟩) rfl (derivF_wrap ih 6 0 6 (by decide) (fun _ => ?_)) trivial
        have := flev_num a ht; omega
    case inv => exact okF_castInt (okF_wrap _ _ ih)
    all_goals
      refine ⟨⟨7, 8⟩, rfl, Nat.zero_le _, derivF_signWrap ih 14 0 8 (by decide) (fun h1 h2 => ?_)⟩
      have := (flev_arith a h1).2.1; omega
  | bin o a b iha ihb =>
    obtain ⟨n1, n2, n3⟩ := hn
    obtain ⟨s1, s2, s3⟩ := hs
    have iha := iha n1 s1
    have ihb := ihb n2 s2
    have pa := flev_pos a
    have pb := flev_pos b
    cases o
    case add | sub =>
      have h1 : Deriv fLang 7 (cstF (wrapSign (wrap 12 0 (build a)))) :=
        derivF_signWrap iha 12 0 7 (by decide) (fun h1 h2 => by
          have := (flev_arith a h1).1; omega)
      have h2 : Deriv fLang 8 (cstF (wrapSign (wrap 12 1 (build b)))) :=
        derivF_signWrap ihb 12 1 8 (by decide) (fun h1 h2 => by
          have := (flev_arith b h1).2.1; omega)
      exact okF_bin (p := ⟨7, 7, 8⟩) rfl
        (derivF_numT (by decide) (derivF_0 (by decide) h1) (fun _ => h1))
        (derivF_numT (by decide) (derivF_0 (by decide) h2) (fun _ => h2))
    case pow =>
      have l : ∀ (s : Src) i n, OkF (build s) → n ≤ 20 →
          (¬ (s.prec < 15 ∨ (s.prec = 15 ∧ i ≠ 1)) → n ≤ s.flev) →
          Deriv fLang n (cstF (wrapPow i (build s))) := by
        intro s i n hs hn hl
        refine (deriv_iff (by simpa [TOP] using hn)).2 ⟨okF_wrapPow _ hs, ?_⟩
        unfold wrapPow
        rw [prec_build]
        split
        · exact hn
        · rename_i h'; rw [flev_build]; exact hl h'
      have ns : ∀ s : Src, 15 ≤ s.prec → s.isSign = false := by
        intro s h
        cases s with
        | un o x => cases o <;> simp_all [Src.prec]
        | _ => rfl
      refine okF_bin (p := ⟨9, 10, 9⟩) rfl (l a 0 10 iha (by omega) (fun h' => ?_))
        (l b 1 9 ihb (by omega) (fun h' => ?_))
      · exact (flev_arith a (ns a (by omega))).2.2.2 (by omega)
      · exact (flev_arith b (ns b (by omega))).2.2.1 (by omega)
    case shl | shr =>
      exact okF_bin (s := .comma) (p := ⟨0, 0, 1⟩) rfl
        (okF_castInt (okF_wrap _ _ iha))
        (derivF_castInt (by decide) (okF_wrap _ _ ihb)
          (fun _ => derivF_wrap ihb _ _ _ (by decide) (fun _ => pb)))
    case band =>
      show Deriv fLang 0 (cstF (.bin _ _ _))
      simp only [cstF, ty_castTo, ty_build]
      by_cases h : a.ty = .bool ∧ b.ty = .bool
      · simp only [h, and_self, if_true]
        rw [castTo_of_ty (by simpa using h.1), castTo_of_ty (by simpa using h.2)]
        refine okF_bin (p := ⟨3, 3, 4⟩) rfl (derivF_wrap iha _ _ _ (by decide) (fun hp => ?_))
          (derivF_wrap ihb _ _ _ (by decide) (fun hp => ?_))
        · cases a with
          | un o x => cases o <;> simp_all [Src.prec, Src.flev]
          | bin o x y => cases o <;> simp_all [Src.prec, Src.flev, BOp.prec, Src.ty]
          | ite => simp_all [Src.prec]
          | _ => simp [Src.flev]
        · cases b with
          | un o x => cases o <;> simp_all [Src.prec, Src.flev]
          | bin o x y => cases o <;> simp_all [Src.prec, Src.flev, BOp.prec, Src.ty]
          | ite => simp_all [Src.prec]
          | _ => simp [Src.flev]
      · simp only [h, if_false]
        exact okF_bin (s := .comma) (p := ⟨0, 0, 1⟩) rfl (okF_castInt (okF_wrap _ _ iha))
          (derivF_castInt (by decide) (okF_wrap _ _ ihb)
            (fun _ => derivF_wrap ihb _ _ _ (by decide) (fun _ => pb)))
    case bor =>
      show Deriv fLang 0 (cstF (.bin _ _ _))
      simp only [cstF, ty_castTo, ty_build]
      by_cases h : a.ty = .bool ∧ b.ty = .bool
      · obtain ⟨x1, x2⟩ := s3 h
        simp only [h, and_self, if_true]
        rw [castTo_of_ty (by simpa using h.1), castTo_of_ty (by simpa using h.2)]
        refine okF_bin (p := ⟨2, 2, 3⟩) rfl (derivF_wrap iha _ _ _ (by decide) (fun hp => ?_))
          (derivF_wrap ihb _ _ _ (by decide) (fun hp => ?_))
        · cases a with
          | un o x => cases o <;> simp_all [Src.prec, Src.flev]
          | bin o x y => cases o <;> simp_all [Src.prec, Src.flev, BOp.prec, Src.ty, Src.isBxor]
          | ite => simp_all [Src.prec]
          | _ => simp [Src.flev]
        · cases b with
          | un o x => cases o <;> simp_all [Src.prec, Src.flev]
          | bin o x y => cases o <;> simp_all [Src.prec, Src.flev, BOp.prec, Src.ty, Src.isBxor]
          | ite => simp_all [Src.prec]
          | _ => simp [Src.flev]
      · simp only [h, if_false]
        exact okF_bin (s := .comma) (p := ⟨0, 0, 1⟩) rfl (okF_castInt (okF_wrap _ _ iha))
          (derivF_castInt (by decide) (okF_wrap _ _ ihb)
            (fun _ => derivF_wrap ihb _ _ _ (by decide) (fun _ => pb)))
    case bxor =>
      show Deriv fLang 0 (cstF (.bin _ _ _))
      simp only [cstF, ty_castTo, ty_build]
      by_cases h : a.ty = .bool ∧ b.ty = .bool
      · simp only [h, and_self, if_true]
        rw [castTo_of_ty (by simpa using h.1), castTo_of_ty (by simpa using h.2)]
        refine okF_bin (p := ⟨1, 1, 2⟩) rfl (derivF_wrap iha _ _ _ (by decide) (fun _ => pa))
          (derivF_wrap ihb _ _ _ (by decide) (fun hp => ?_))
        cases b with
        | un o x => cases o <;> simp_all [Src.prec, Src.flev]
        | bin o x y => cases o <;> simp_all [Src.prec, Src.flev, BOp.prec, Src.ty]
        | ite => simp_all [Src.prec]
        | _ => simp [Src.flev]
      · simp only [h, if_false]
        exact okF_bin (s := .comma) (p := ⟨0, 0, 1⟩) rfl (okF_castInt (okF_wrap _ _ iha))
          (derivF_castInt (by decide) (okF_wrap _ _ ihb)
            (fun _ => derivF_wrap ihb _ _ _ (by decide) (fun _ => pb)))
    case cmp c =>
      show Deriv fLang 0 (cstF (.bin _ _ _))
      simp only [cstF, ty_wrap, ty_build]
      split
      · rename_i hc
        obtain ⟨t1, t2⟩ := s3 hc
        split
        · rename_i h
          have e : fLang.bin (if c = .eq then .eqv else .neqv) = some ⟨1, 1, 2⟩ := by
            cases c <;> rfl
          refine okF_bin e (derivF_wrap iha _ _ _ (by decide) (fun _ => pa))
            (derivF_wrap ihb _ _ _ (by decide) (fun hp => ?_))
          have x2 := t2 h.1
          cases b with
          | un o x => cases o <;> simp_all [Src.prec, Src.flev]
          | bin o x y => cases o <;> simp_all [Src.prec, Src.flev, BOp.prec, Src.ty, Src.isBxor]
          | ite => simp_all [Src.prec]
          | _ => simp [Src.flev]
        · rename_i h
          have ha : a.ty ≠ .bool := fun ha => h ⟨ha, t1.1 ha⟩
          have hb : b.ty ≠ .bool := fun hb => h ⟨t1.2 hb, hb⟩
          have := flev_num a ha
          have := flev_num b hb
          have e : fLang.bin c.f = some ⟨5, 6, 6⟩ := by cases c <;> rfl
          exact okF_bin e (derivF_wrap iha _ _ _ (by decide) (fun _ => by show 6 ≤ _; omega))
            (derivF_wrap ihb _ _ _ (by decide) (fun _ => by show 6 ≤ _; omega))
      · have e : fLang.bin c.f = some ⟨5, 6, 6⟩ := by cases c <;> rfl
        refine okF_bin e
          (derivF_numT (by decide) (okF_wrap _ _ iha) (fun ht => ?_))
          (derivF_numT (by decide) (okF_wrap _ _ ihb) (fun ht => ?_))
        · have := flev_num a ht
          exact derivF_wrap iha _ _ _ (by decide) (fun _ => by show 6 ≤ _; omega)
        · have := flev_num b ht
          exact derivF_wrap ihb _ _ _ (by decide) (fun _ => by show 6 ≤ _; omega)
    case and =>
      obtain ⟨⟨q1, q2⟩, q3, q4⟩ := s3
      show Deriv fLang 0 (cstF (mkAnd _ _))
      rw [mkAnd_of_not _ _ (by rw [isAnd_build]; exact n3)]
      simp only [cstF, ty_andHead, ty_andElem]
      refine okF_bin (p := ⟨3, 3, 4⟩) rfl ((deriv_iff (by decide)).2 ⟨?_, ?_⟩)
        ((deriv_iff (by decide)).2 ⟨(okF_elem ihb).1, lvlF_andElem b 4 (by omega) ?_⟩)
      · show OkF _
        cases hx : (build a).isAnd with
        | true => rw [andHead_of_and _ hx]; exact iha
        | false => rw [andHead_of_not _ hx]; exact (okF_elem iha).1
      · show 3 ≤ lvl fLang (cstF _)
        cases hx : (build a).isAnd with
        | true =>
          rw [andHead_of_and _ hx, flev_build]
          rw [isAnd_build] at hx
          cases a with
          | bin o x y => cases o <;> simp_all [Src.isAnd, Src.flev]
          | _ => simp [Src.isAnd] at hx
        | false =>
          rw [andHead_of_not _ hx]
          refine lvlF_andElem a 3 (by omega) (fun ht hp => ?_)
          refine ((flev_bool a (by omega) ht q1).2 (q3 ht) ?_).1
          cases a with
          | bin o x y => cases o <;> simp_all [Src.isOr, Src.prec, BOp.prec]
          | _ => rfl
      · intro ht hp
        refine (((flev_bool b (by omega) ht q2).2 (q4 ht).1 ?_).2 (q4 ht).2 n3).1
        cases b with
        | bin o x y => cases o <;> simp_all [Src.isOr, Src.prec, BOp.prec]
        | _ => rfl
    case or =>
      obtain ⟨⟨q1, q2⟩, q3⟩ := s3
      show Deriv fLang 0 (cstF (mkOr _ _))
      rw [mkOr_of_not _ _ (by rw [isOr_build]; exact n3)]
      simp only [cstF, ty_orHead, ty_orElem]
      refine okF_bin (p := ⟨2, 2, 3⟩) rfl ((deriv_iff (by decide)).2 ⟨?_, ?_⟩)
        ((deriv_iff (by decide)).2 ⟨(okF_elem ihb).2, lvlF_orElem b 3 (by omega) ?_⟩)
      · show OkF _
        cases hx : (build a).isOr with
        | true => rw [orHead_of_or _ hx]; exact iha
        | false => rw [orHead_of_not _ hx]; exact (okF_elem iha).2
      · show 2 ≤ lvl fLang (cstF _)
        cases hx : (build a).isOr with
        | true =>
          rw [orHead_of_or _ hx, flev_build]
          rw [isOr_build] at hx
          cases a with
          | bin o x y => cases o <;> simp_all [Src.isOr, Src.flev]
          | _ => simp [Src.isOr] at hx
        | false =>
          rw [orHead_of_not _ hx]
          refine lvlF_orElem a 2 (by omega) (fun ht ha hp => ?_)
          exact (flev_bool a (by omega) ht q1).1
      · intro ht ha hp
        exact ((flev_bool b (by omega) ht q2).2 (q3 ht) n3).1
    all_goals
      have h1 : Deriv fLang 8 (cstF (wrapSign (wrap 13 0 (build a)))) :=
        derivF_signWrap iha 13 0 8 (by decide) (fun h1 h2 => by
          have := (flev_arith a h1).2.1; omega)
      have h2 : Deriv fLang 9 (cstF (wrapSign (wrap 13 1 (build b)))) :=
        derivF_signWrap ihb 13 1 9 (by decide) (fun h1 h2 => by
          have := (flev_arith b h1).2.2.1; omega)
      have h1' := derivF_0 (by decide) h1
      have h2' := derivF_0 (by decide) h2
      have h3 : Deriv fLang 1 (cstF (wrapSign (wrap 13 1 (build b)))) :=
        (deriv_iff (by decide)).2 ⟨h2', by
          have := ((deriv_iff (by decide)).1 h2).2; omega⟩
      show Deriv fLang 0 (cstF (.bin _ _ _))
      simp only [cstF]
    case mul =>
      exact okF_bin (p := ⟨8, 8, 9⟩) rfl (derivF_numT (by decide) h1' (fun _ => h1))
        (derivF_numT (by decide) h2' (fun _ => h2))
    case div =>
      split
      · exact okF_bin (p := ⟨8, 8, 9⟩) rfl h1' h2'
      · exact okF_bin (p := ⟨8, 8, 9⟩) rfl h1 h2
    case mod =>
      split
      · refine okF_bin (p := ⟨0, 0, 1⟩) rfl ?_ ?_
        · show Deriv fLang 0 (if _ then _ else _); split <;> exact h1'
        · show Deriv fLang 1 (if _ then _ else _); split
          · exact h2'
          · exact h3
      · exact okF_bin (p := ⟨0, 0, 1⟩) rfl h1' h3
    case fdiv =>
      have nb : ∀ t u : Ty, t.join u ≠ .bool := by intro t u; cases t <;> cases u <;> decide
      split
      · exact okF_bin (p := ⟨0, 0, 1⟩) rfl
          (derivF_apply (by decide) h1' (fun h => absurd h (nb _ _)))
          (derivF_apply (by decide) h3 (fun h => absurd h (nb _ _)))
      · exact okF_bin (p := ⟨8, 8, 9⟩) rfl
          (derivF_apply (by decide) h1 (fun h => absurd h (nb _ _)))
          (derivF_apply (by decide) h2 (fun h => absurd h (nb _ _)))
  | ite c t f h1 h2 h3 =>
    obtain ⟨n1, n2, n3⟩ := hn
    obtain ⟨s1, s2, s3⟩ := hs
    have h1 := h1 n1 s1
    have h2 := h2 n2 s2
    have h3 := h3 n3 s3
    have l := fun s => flev_pos s
    show Deriv fLang 0 (cstF (.ite _ _ _))
    simp only [cstF, ty_wrap, ty_build]
    have nb : ∀ a b x : Ty, x = a ∨ x = b → (if a = b then a else a.join b) = .bool → x ≠ .bool → False := by
      intro a b x; cases a <;> cases b <;> cases x <;> decide
    refine okF_bin (s := .comma) (p := ⟨0, 0, 1⟩) rfl (okF_bin (p := ⟨0, 0, 1⟩) rfl
      (derivF_apply (by decide) (okF_wrap _ _ h2) (fun h h' => (nb _ _ _ (.inl rfl) h h').elim))
      (derivF_apply (by decide) (derivF_wrap h3 _ _ _ (by decide) (fun _ => l f))
        (fun h h' => (nb _ _ _ (.inr rfl) h h').elim)))
      (derivF_apply (by decide) (derivF_wrap h1 _ _ _ (by decide) (fun _ => l c)) (fun _ h => ?_))
    have := flev_num c h
    exact derivF_wrap h1 _ _ _ (by decide) (fun _ => by omega)

end Verif.Exprs
