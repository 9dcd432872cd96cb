import Verif.Exprs.Model
import Verif.Exprs.Parser
/-
Helper lemmas for C19–C22.
-/
namespace Verif.Exprs

/-! ### Derivations -/

theorem deriv_iff {S F : Type} {L : Lang S} {n : Nat} {t : CST S F} (hn : n ≤ TOP) :
    Deriv L n t ↔ Deriv L 0 t ∧ n ≤ lvl L t := by
  cases t with
  | un s t =>
    simp only [Deriv, lvl]
    constructor
    · rintro ⟨p, h1, h2, h3⟩; exact ⟨⟨p, h1, by omega, h3⟩, by simpa [h1] using h2⟩
    · rintro ⟨⟨p, h1, _, h3⟩, h4⟩; exact ⟨p, h1, by simpa [h1] using h4, h3⟩
  | bin s a b =>
    simp only [Deriv, lvl]
    constructor
    · rintro ⟨p, h1, h2, h3⟩; exact ⟨⟨p, h1, by omega, h3⟩, by simpa [h1] using h2⟩
    · rintro ⟨⟨p, h1, _, h3⟩, h4⟩; exact ⟨p, h1, by simpa [h1] using h4, h3⟩
  | tern a b c =>
    simp only [Deriv, lvl]
    exact ⟨fun ⟨h1, h2, h3⟩ => ⟨⟨h1, by omega, h3⟩, h2⟩, fun ⟨⟨h1, _, h3⟩, h2⟩ => ⟨h1, h2, h3⟩⟩
  | _ => simp [Deriv, lvl, hn]

/-! ### Types and precedence of the built nodes -/

@[simp] theorem ty_wrap (P i : Nat) (e : Expr) : (wrap P i e).ty = e.ty := by
  unfold wrap; split <;> simp [Expr.ty]

@[simp] theorem ty_wrapPow (i : Nat) (e : Expr) : (wrapPow i e).ty = e.ty := by
  unfold wrapPow; split <;> simp [Expr.ty]

@[simp] theorem ty_wrapSign (e : Expr) : (wrapSign e).ty = e.ty := by
  unfold wrapSign; split <;> simp [Expr.ty]

@[simp] theorem ty_castTo (t : Ty) (e : Expr) : (castTo t e).ty = t := by
  unfold castTo; split <;> simp_all [Expr.ty]

theorem mkAnd_form (a b : Expr) : ∃ x y, mkAnd a b = .bin .and x y := by
  unfold mkAnd; split <;> exact ⟨_, _, rfl⟩

theorem mkOr_form (a b : Expr) : ∃ x y, mkOr a b = .bin .or x y := by
  unfold mkOr; split <;> exact ⟨_, _, rfl⟩

theorem ty_mkAnd (a b : Expr) : (mkAnd a b).ty = .bool := by
  unfold mkAnd; split <;> simp [Expr.ty]

theorem ty_mkOr (a b : Expr) : (mkOr a b).ty = .bool := by
  unfold mkOr; split <;> simp [Expr.ty]

@[simp] theorem ty_build (s : Src) : (build s).ty = s.ty := by
  induction s with
  | atom n t => rfl
  | un o a ih => cases o <;> simp [build, mkUn, Expr.ty, Src.ty, ih]
  | bin o a b iha ihb =>
    cases o <;> simp [build, mkBin, Expr.ty, Src.ty, iha, ihb, ty_mkAnd, ty_mkOr] <;>
    (intro h1 h2; exact ⟨h1, h2⟩)
  | ite c t f _ iht ihf => simp [build, Expr.ty, Src.ty, iht, ihf]

theorem prec_wrap (P i : Nat) (e : Expr) (hP : P < 18) :
    P ≤ (wrap P i e).prec ∧ (i ≠ 0 → P < (wrap P i e).prec) := by
  unfold wrap; split
  · simp [Expr.prec]; omega
  · omega

theorem prec_wrapPow (i : Nat) (e : Expr) :
    15 ≤ (wrapPow i e).prec ∧ (i ≠ 1 → 15 < (wrapPow i e).prec) := by
  unfold wrapPow; split
  · simp [Expr.prec]
  · omega

theorem prec_wrapSign (e : Expr) : e.prec ≤ (wrapSign e).prec := by
  unfold wrapSign; split <;> simp [Expr.prec]

theorem prec_castTo (t : Ty) (e : Expr) : (castTo t e).prec = e.prec ∨ (castTo t e).prec = 17 := by
  unfold castTo; split <;> simp [Expr.prec]

def isSign : Expr → Bool
  | .un .pos _ | .un .neg _ => true
  | _ => false

theorem isSign_wrapSign (e : Expr) : isSign (wrapSign e) = false := by
  unfold wrapSign; split <;> simp_all [isSign]

/-! ### Normal forms -/

def Src.isAnd : Src → Bool
  | .bin .and _ _ => true
  | _ => false

def Src.isOr : Src → Bool
  | .bin .or _ _ => true
  | _ => false

/-- `and`s and `or`s are grouped to the left. -/
def Src.Normal : Src → Prop
  | .atom _ _ => True
  | .un _ a => a.Normal
  | .bin o a b => a.Normal ∧ b.Normal ∧
    match o with
    | .and => b.isAnd = false
    | .or => b.isOr = false
    | _ => True
  | .ite c t f => c.Normal ∧ t.Normal ∧ f.Normal

theorem snoc_and_normal (a b : Src) (ha : a.Normal) (hb : b.Normal) :
    (Src.snoc .and a b).Normal := by
  induction b with
  | bin o x y ihx _ =>
    simp only [Src.snoc]
    split
    · rename_i h; subst h
      obtain ⟨h1, h2, h3⟩ := hb
      exact ⟨ihx h1, h2, h3⟩
    · rename_i h
      exact ⟨ha, hb, by cases o <;> simp_all [Src.isAnd]⟩
  | _ => exact ⟨ha, hb, rfl⟩

theorem snoc_or_normal (a b : Src) (ha : a.Normal) (hb : b.Normal) :
    (Src.snoc .or a b).Normal := by
  induction b with
  | bin o x y ihx _ =>
    simp only [Src.snoc]
    split
    · rename_i h; subst h
      obtain ⟨h1, h2, h3⟩ := hb
      exact ⟨ihx h1, h2, h3⟩
    · rename_i h
      exact ⟨ha, hb, by cases o <;> simp_all [Src.isOr]⟩
  | _ => exact ⟨ha, hb, rfl⟩

theorem norm_normal (s : Src) : s.norm.Normal := by
  induction s with
  | atom => trivial
  | un o a ih => exact ih
  | bin o a b iha ihb =>
    cases o <;> first
      | exact snoc_and_normal _ _ iha ihb
      | exact snoc_or_normal _ _ iha ihb
      | exact ⟨iha, ihb, trivial⟩
  | ite c t f h1 h2 h3 => exact ⟨h1, h2, h3⟩

theorem isAnd_build (s : Src) : (build s).isAnd = s.isAnd := by
  cases s with
  | atom => rfl
  | un o a => cases o <;> rfl
  | bin o a b =>
    cases o <;> simp only [build, mkBin] <;> try rfl
    · obtain ⟨x, y, h⟩ := mkAnd_form (build a) (build b); rw [h]; rfl
    · obtain ⟨x, y, h⟩ := mkOr_form (build a) (build b); rw [h]; rfl
  | ite => rfl

theorem isOr_build (s : Src) : (build s).isOr = s.isOr := by
  cases s with
  | atom => rfl
  | un o a => cases o <;> rfl
  | bin o a b =>
    cases o <;> simp only [build, mkBin] <;> try rfl
    · obtain ⟨x, y, h⟩ := mkAnd_form (build a) (build b); rw [h]; rfl
    · obtain ⟨x, y, h⟩ := mkOr_form (build a) (build b); rw [h]; rfl
  | ite => rfl

theorem mkAnd_of_not (a b : Expr) (h : b.isAnd = false) :
    mkAnd a b = .bin .and (andHead a) (andElem b) := by
  unfold mkAnd; split
  · simp [Expr.isAnd] at h
  · rfl

theorem mkOr_of_not (a b : Expr) (h : b.isOr = false) :
    mkOr a b = .bin .or (orHead a) (orElem b) := by
  unfold mkOr; split
  · simp [Expr.isOr] at h
  · rfl

theorem andHead_of_not (a : Expr) (h : a.isAnd = false) : andHead a = andElem a := by
  unfold andHead; split
  · simp [Expr.isAnd] at h
  · rfl

theorem orHead_of_not (a : Expr) (h : a.isOr = false) : orHead a = orElem a := by
  unfold orHead; split
  · simp [Expr.isOr] at h
  · rfl

theorem andHead_of_and (a : Expr) (h : a.isAnd = true) : andHead a = a := by
  unfold andHead; split
  · rfl
  · rename_i h' ; cases a with
    | bin o x y => cases o <;> simp [Expr.isAnd] at h <;> exact absurd rfl (h' x y)
    | _ => simp [Expr.isAnd] at h

theorem orHead_of_or (a : Expr) (h : a.isOr = true) : orHead a = a := by
  unfold orHead; split
  · rfl
  · rename_i h' ; cases a with
    | bin o x y => cases o <;> simp [Expr.isOr] at h <;> exact absurd rfl (h' x y)
    | _ => simp [Expr.isOr] at h

theorem castTo_idem (t : Ty) (e : Expr) : castTo t (castTo t e) = castTo t e := by
  show (if (castTo t e).ty = t then castTo t e else _) = _
  rw [if_pos (ty_castTo t e)]

theorem wrap_of_prec {P i : Nat} {e : Expr} (h : P < e.prec) : wrap P i e = e := by
  unfold wrap; rw [if_neg (by omega)]

theorem wrap0_of_prec {P : Nat} {e : Expr} (h : P ≤ e.prec) : wrap P 0 e = e := by
  unfold wrap; rw [if_neg (by omega)]

theorem andElem_idem (e : Expr) : andElem (andElem e) = andElem e := by
  have h1 := prec_wrap 5 0 e (by decide)
  have h2 := prec_castTo .bool (wrap 5 0 e)
  have : wrap 5 0 (andElem e) = andElem e := wrap0_of_prec (by unfold andElem; omega)
  show castTo .bool (wrap 5 0 (andElem e)) = _
  rw [this]
  exact castTo_idem _ _

theorem isAnd_andElem (e : Expr) (h : e.isAnd = false) : (andElem e).isAnd = false := by
  unfold andElem castTo wrap
  split <;> split <;> simp_all [Expr.isAnd]

theorem orElem_prec (e : Expr) : 4 ≤ (orElem e).prec := by
  unfold orElem
  split
  · simp [castTo, Expr.ty, Expr.prec]
  · have h1 := prec_wrap 4 0 e (by decide)
    have h2 := prec_castTo .bool (wrap 4 0 e)
    omega

theorem orElem_not_and (e : Expr) : (orElem e).isAnd = false := by
  unfold orElem
  split
  · simp [castTo, Expr.ty, Expr.isAnd]
  · rename_i h
    have : (wrap 4 0 e).isAnd = false := by
      unfold wrap
      split
      · rfl
      · cases e with
        | bin o x y => cases o <;> first | rfl | exact absurd rfl (h x y)
        | _ => rfl
    unfold castTo; split
    · exact this
    · rfl

theorem orElem_not_or (e : Expr) (h : e.isOr = false) : (orElem e).isOr = false := by
  unfold orElem castTo wrap
  split <;> split <;> first | rfl | (split <;> simp_all [Expr.isOr])

theorem orElem_eq (e : Expr) (h : e.isAnd = false) : orElem e = castTo .bool (wrap 4 0 e) := by
  unfold orElem
  split
  · simp [Expr.isAnd] at h
  · rfl

theorem orElem_idem (e : Expr) : orElem (orElem e) = orElem e := by
  rw [orElem_eq _ (orElem_not_and e), wrap0_of_prec (orElem_prec e)]
  unfold orElem
  split <;> exact castTo_idem _ _

/-- Grouping to the left does not change what is built. -/
theorem build_snoc_and (a b : Src) (hb : b.Normal) :
    build (Src.snoc .and a b) = mkAnd (build a) (build b) := by
  induction b with
  | bin o x y ihx _ =>
    simp only [Src.snoc]
    split
    · rename_i h; subst h
      obtain ⟨h1, h2, h3⟩ := hb
      have hy : (build y).isAnd = false := by rw [isAnd_build]; exact h3
      simp only [build, mkBin]
      rw [ihx h1, mkAnd_of_not _ _ hy, mkAnd_of_not _ _ hy]
      have : (mkAnd (build a) (build x)).isAnd = true := by
        obtain ⟨_, _, h⟩ := mkAnd_form (build a) (build x); rw [h]; rfl
      rw [andHead_of_and _ this]
      show _ = Expr.bin .and (mkAnd (build a) (andHead (build x))) _
      congr 1
      cases hx : (build x).isAnd with
      | true => rw [andHead_of_and _ hx]
      | false =>
        rw [andHead_of_not _ hx, mkAnd_of_not _ _ hx, mkAnd_of_not _ _ (isAnd_andElem _ hx),
          andElem_idem]
    · rfl
  | _ => rfl

theorem build_snoc_or (a b : Src) (hb : b.Normal) :
    build (Src.snoc .or a b) = mkOr (build a) (build b) := by
  induction b with
  | bin o x y ihx _ =>
    simp only [Src.snoc]
    split
    · rename_i h; subst h
      obtain ⟨h1, h2, h3⟩ := hb
      have hy : (build y).isOr = false := by rw [isOr_build]; exact h3
      simp only [build, mkBin]
      rw [ihx h1, mkOr_of_not _ _ hy, mkOr_of_not _ _ hy]
      have : (mkOr (build a) (build x)).isOr = true := by
        obtain ⟨_, _, h⟩ := mkOr_form (build a) (build x); rw [h]; rfl
      rw [orHead_of_or _ this]
      show _ = Expr.bin .or (mkOr (build a) (orHead (build x))) _
      congr 1
      cases hx : (build x).isOr with
      | true => rw [orHead_of_or _ hx]
      | false =>
        rw [orHead_of_not _ hx, mkOr_of_not _ _ hx, mkOr_of_not _ _ (orElem_not_or _ hx),
          orElem_idem]
    · rfl
  | _ => rfl

theorem build_norm (s : Src) : build s.norm = build s := by
  induction s with
  | atom => rfl
  | un o a ih => simp [Src.norm, build, ih]
  | bin o a b iha ihb =>
    cases o <;> simp only [Src.norm]
    case and => rw [build_snoc_and _ _ (norm_normal b), iha, ihb]; rfl
    case or => rw [build_snoc_or _ _ (norm_normal b), iha, ihb]; rfl
    all_goals simp [build, iha, ihb]
  | ite c t f h1 h2 h3 => simp [Src.norm, build, h1, h2, h3]

theorem ty_norm (s : Src) : s.norm.ty = s.ty := by
  rw [← ty_build, build_norm, ty_build]

end Verif.Exprs
