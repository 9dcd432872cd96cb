import Verif.Captured.Model
import Verif.Exprs.Props

/-!
# Lemmas
-/

namespace Verif.Captured
open Verif.Exprs Spec Model

theorem withInts_eq (neg : Nat → Bool) (s : Src) : withInts neg s = withValues neg s := by
  induction s with
  | atom n t => rfl
  | un o a ih => simp [withInts, withValues, ih]
  | bin o a b ha hb => simp [withInts, withValues, ha, hb]
  | ite c t f h1 h2 h3 => simp [withInts, withValues, h1, h2, h3]

theorem withValues_twice {f g : Nat → Bool} (h : ∀ n, f n = true → g n = false) (s : Src) :
    withValues g (withValues f s) = withValues (fun n => f n || g n) s := by
  induction s with
  | atom n t =>
    by_cases hf : f n = true
    · simp [withValues, h n hf, hf]
    · simp [withValues, hf]
  | un o a ih => simp [withValues, ih]
  | bin o a b ha hb => simp [withValues, ha, hb]
  | ite c t f' h1 h2 h3 => simp [withValues, h1, h2, h3]

variable (neg : Nat → Bool)

@[simp] theorem ty_withValues (s : Src) : (withValues neg s).ty = s.ty := by
  induction s with
  | atom n t => simp only [withValues]; split <;> rfl
  | un o a ih => cases o <;> simp [withValues, Src.ty, ih]
  | bin o a b ha hb => cases o <;> simp [withValues, Src.ty, ha, hb]
  | ite c t f h1 h2 h3 => simp [withValues, Src.ty, h2, h3]

@[simp] theorem isBit_withValues (s : Src) : (withValues neg s).isBit = s.isBit := by
  cases s with
  | atom n t => simp only [withValues]; split <;> rfl
  | un => rfl
  | bin o => cases o <;> rfl
  | ite => rfl

@[simp] theorem isBand_withValues (s : Src) : (withValues neg s).isBand = s.isBand := by
  cases s with
  | atom n t => simp only [withValues]; split <;> rfl
  | un => rfl
  | bin o => cases o <;> rfl
  | ite => rfl

@[simp] theorem isBor_withValues (s : Src) : (withValues neg s).isBor = s.isBor := by
  cases s with
  | atom n t => simp only [withValues]; split <;> rfl
  | un => rfl
  | bin o => cases o <;> rfl
  | ite => rfl

@[simp] theorem isBxor_withValues (s : Src) : (withValues neg s).isBxor = s.isBxor := by
  cases s with
  | atom n t => simp only [withValues]; split <;> rfl
  | un => rfl
  | bin o => cases o <;> rfl
  | ite => rfl

@[simp] theorem isEq_withValues (s : Src) : (withValues neg s).isEq = s.isEq := by
  cases s with
  | atom n t => simp only [withValues]; split <;> rfl
  | un => rfl
  | bin o => cases o <;> rfl
  | ite => rfl

@[simp] theorem isEqv_withValues (s : Src) : (withValues neg s).isEqv = s.isEqv := by
  cases s with
  | atom n t => simp only [withValues]; split <;> rfl
  | un => rfl
  | bin o => cases o <;> simp [withValues, Src.isEqv]
  | ite => rfl

@[simp] theorem isNotB_withValues (s : Src) : (withValues neg s).isNotB = s.isNotB := by
  cases s with
  | atom n t => simp only [withValues]; split <;> rfl
  | un o => cases o <;> simp [withValues, Src.isNotB]
  | bin o => cases o <;> rfl
  | ite => rfl

@[simp] theorem isEquiv_withValues (s : Src) : (withValues neg s).isEquiv = s.isEquiv := by
  simp [Src.isEquiv]

theorem csafe_withValues (s : Src) (h : s.CSafe) : (withValues neg s).CSafe := by
  induction s with
  | atom n t => simp only [withValues]; split <;> trivial
  | un o a ih => exact ih h
  | bin o a b ha hb =>
    obtain ⟨h1, h2, h3⟩ := h
    refine ⟨ha h1, hb h2, ?_⟩
    cases o <;> simpa using h3
  | ite c t f h1 h2 h3 => exact ⟨h1 h.1, h2 h.2.1, h3 h.2.2⟩

theorem fsafe_withValues (s : Src) (h : s.FSafe) : (withValues neg s).FSafe := by
  induction s with
  | atom n t => simp only [withValues]; split <;> simp [Src.FSafe]
  | un o a ih =>
    refine ⟨ih h.1, ?_⟩
    have h2 := h.2
    cases o <;> simpa using h2
  | bin o a b ha hb =>
    obtain ⟨h1, h2, h3⟩ := h
    refine ⟨ha h1, hb h2, ?_⟩
    cases o <;> simpa using h3
  | ite c t f h1 h2 h3 => exact ⟨h1 h.1, h2 h.2.1, h3 h.2.2⟩

theorem snoc_withValues (o : BOp) (a b : Src) :
    withValues neg (Src.snoc o a b) = Src.snoc o (withValues neg a) (withValues neg b) := by
  induction b with
  | atom n t => simp only [withValues, Src.snoc]; split <;> rfl
  | un o' b _ => rfl
  | bin o' x y hx _ =>
    simp only [withValues, Src.snoc]
    split <;> simp [withValues, hx]
  | ite c t f _ _ _ => rfl

theorem norm_withValues (s : Src) : (withValues neg s).norm = withValues neg s.norm := by
  induction s with
  | atom n t => simp only [withValues, Src.norm]; split <;> rfl
  | un o a ih => simp [withValues, Src.norm, ih]
  | bin o a b ha hb => cases o <;> simp [withValues, Src.norm, ha, hb, snoc_withValues]
  | ite c t f h1 h2 h3 => simp [withValues, Src.norm, h1, h2, h3]

/-! ### Trees -/

/-- The same replacement in a tree. -/
def inTree {S F : Type} (minus : S) (neg : Nat → Bool) : CST S F → CST S F
  | .atom (.var n) => if neg n then .un minus (.atom (.var n)) else .atom (.var n)
  | .atom .zero => .atom .zero
  | .paren t => .paren (inTree minus neg t)
  | .call f t => .call f (inTree minus neg t)
  | .un s t => .un s (inTree minus neg t)
  | .bin s a b => .bin s (inTree minus neg a) (inTree minus neg b)
  | .tern a b c => .tern (inTree minus neg a) (inTree minus neg b) (inTree minus neg c)

theorem flatten_inTree {S F : Type} (minus : S) (t : CST S F) :
    (inTree minus neg t).flatten = withFloats minus neg t.flatten := by
  induction t with
  | atom a =>
    cases a with
    | var n => simp only [inTree, CST.flatten, withFloats]; split <;> simp_all [CST.flatten]
    | zero => rfl
  | paren t ih => simp [inTree, CST.flatten, ih, withFloats]
  | call f t ih => simp [inTree, CST.flatten, ih, withFloats]
  | un s t ih => simp [inTree, CST.flatten, ih, withFloats]
  | bin s a b ha hb => simp [inTree, CST.flatten, ha, hb, withFloats]
  | tern a b c ha hb hc => simp [inTree, CST.flatten, ha, hb, hc, withFloats]

theorem strip_inTree {S F : Type} (minus : S) (t : CST S F) :
    (inTree minus neg t).strip = inTree minus neg t.strip := by
  induction t with
  | atom a =>
    cases a with
    | var n => simp only [inTree, CST.strip]; split <;> rfl
    | zero => rfl
  | paren t ih => simpa [inTree, CST.strip] using ih
  | call f t ih => simp [inTree, CST.strip, ih]
  | un s t ih => simp [inTree, CST.strip, ih]
  | bin s a b ha hb => simp [inTree, CST.strip, ha, hb]
  | tern a b c ha hb hc => simp [inTree, CST.strip, ha, hb, hc]

theorem deriv_inTree (t : CTree) : ∀ n ≤ 14, Deriv cLang n t → Deriv cLang n (inTree .sub neg t) := by
  induction t with
  | atom a =>
    intro n hn _
    cases a with
    | var k =>
      simp only [inTree]
      split
      · exact ⟨_, rfl, hn, trivial⟩
      · trivial
    | zero => trivial
  | paren t ih => exact fun n _ h => ih 0 (by omega) h
  | call f t ih => exact fun n _ h => ih 0 (by omega) h
  | un s t ih =>
    rintro n hn ⟨p, hp, h1, h2⟩
    refine ⟨p, hp, h1, ih _ ?_ h2⟩
    cases s <;> simp only [cLang, Option.some.injEq, reduceCtorEq] at hp <;> subst hp <;> decide
  | bin s a b ha hb =>
    rintro n hn ⟨p, hp, h1, h2, h3⟩
    have : p.left ≤ 14 ∧ p.right ≤ 14 := by
      cases s <;> simp only [cLang, leftAssoc, Option.some.injEq, reduceCtorEq] at hp <;> subst hp <;> decide
    exact ⟨p, hp, h1, ha _ this.1 h2, hb _ this.2 h3⟩
  | tern a b c ha hb hc =>
    rintro n hn ⟨h0, h1, h2, h3, h4⟩
    exact ⟨h0, h1, ha 4 (by decide) h2, hb _ (by decide) h3, hc 3 (by decide) h4⟩

theorem cFloat_inTree (t : Ty) (x : CTree) : inTree .sub neg (cFloat t x) = cFloat t (inTree .sub neg x) := by
  unfold cFloat; split <;> rfl
theorem cInt_inTree (t : Ty) (x : CTree) : inTree .sub neg (cInt t x) = cInt t (inTree .sub neg x) := by
  unfold cInt; split <;> rfl
theorem cBool_inTree (t : Ty) (x : CTree) : inTree .sub neg (cBool t x) = cBool t (inTree .sub neg x) := by
  unfold cBool; split <;> rfl

theorem toC_withValues (s : Src) : (withValues neg s).toC = inTree .sub neg s.toC := by
  induction s with
  | atom n t => simp only [withValues, Src.toC, inTree]; split <;> rfl
  | un o a ih => cases o <;> simp [withValues, Src.toC, inTree, ih, cInt_inTree]
  | bin o a b ha hb =>
    cases o <;> simp only [withValues, Src.toC, ty_withValues, ha, hb]
    case mod =>
      split
      · rfl
      · simp only [CTree.call2, inTree]
        congr 2 <;> split <;> rfl
    case fdiv => split <;> simp [CTree.call2, inTree, cFloat_inTree]
    case div | band | bor | bxor => split <;> simp [inTree, cInt_inTree]
    all_goals simp [CTree.call2, inTree, cFloat_inTree, cInt_inTree, cBool_inTree]
  | ite c t f h1 h2 h3 => simp [withValues, Src.toC, inTree, h1, h2, h3]

/-! ### Signs -/

/-- In a node: no minus sign in front of a minus sign or of a negative number. -/
def Plain : Expr → Prop
  | .atom _ _ => True
  | .un o a => Plain a ∧ (o = .neg → (∀ n t, a = .atom n t → neg n = false) ∧ ∀ b, a ≠ .un .neg b)
  | .bin _ a b => Plain a ∧ Plain b
  | .ite c t f => Plain c ∧ Plain t ∧ Plain f
  | .paren a => Plain a
  | .cast _ a => Plain a

variable {neg}

theorem plain_wrap {P i : Nat} {e : Expr} (h : Plain neg e) : Plain neg (wrap P i e) := by
  unfold wrap; split <;> exact h
theorem plain_wrapPow {i : Nat} {e : Expr} (h : Plain neg e) : Plain neg (wrapPow i e) := by
  unfold wrapPow; split <;> exact h
theorem plain_wrapSign {e : Expr} (h : Plain neg e) : Plain neg (wrapSign e) := by
  unfold wrapSign; split <;> exact h
theorem plain_castTo {t : Ty} {e : Expr} (h : Plain neg e) : Plain neg (castTo t e) := by
  unfold castTo; split <;> exact h
theorem plain_andElem {e : Expr} (h : Plain neg e) : Plain neg (andElem e) := plain_castTo (plain_wrap h)
theorem plain_orElem {e : Expr} (h : Plain neg e) : Plain neg (orElem e) := by
  unfold orElem
  refine plain_castTo ?_
  split
  · exact h
  · exact plain_wrap h
theorem plain_andHead {e : Expr} (h : Plain neg e) : Plain neg (andHead e) := by
  unfold andHead; split
  · exact h
  · exact plain_andElem h
theorem plain_orHead {e : Expr} (h : Plain neg e) : Plain neg (orHead e) := by
  unfold orHead; split
  · exact h
  · exact plain_orElem h

theorem plain_mkAnd {a b : Expr} (ha : Plain neg a) (hb : Plain neg b) : Plain neg (mkAnd a b) := by
  induction b with
  | bin o x y hx _ =>
    unfold mkAnd
    split
    · next e => injection e with _ e1 e2; subst e1; subst e2; exact ⟨hx hb.1, hb.2⟩
    · exact ⟨plain_andHead ha, plain_andElem hb⟩
  | _ => exact ⟨plain_andHead ha, plain_andElem hb⟩

theorem plain_mkOr {a b : Expr} (ha : Plain neg a) (hb : Plain neg b) : Plain neg (mkOr a b) := by
  induction b with
  | bin o x y hx _ =>
    unfold mkOr
    split
    · next e => injection e with _ e1 e2; subst e1; subst e2; exact ⟨hx hb.1, hb.2⟩
    · exact ⟨plain_orHead ha, plain_orElem hb⟩
  | _ => exact ⟨plain_orHead ha, plain_orElem hb⟩

theorem build_atom {s : Src} {n : Nat} {t : Ty} (h : wrapSign (wrap 14 0 (build s)) = .atom n t) : s = .atom n t := by
  have h1 : wrap 14 0 (build s) = .atom n t := by
    unfold wrapSign at h
    split at h
    · cases h
    · cases h
    · exact h
  have h2 : build s = .atom n t := by
    unfold wrap at h1
    split at h1
    · cases h1
    · exact h1
  cases s with
  | atom n' t' => simpa [build] using h2
  | un o a => cases o <;> cases h2
  | bin o a b =>
    cases o <;> try cases h2
    · simp only [build, mkBin] at h2
      cases hb : build b <;> rw [hb] at h2 <;> unfold mkAnd at h2 <;> (try cases h2)
      split at h2 <;> cases h2
    · simp only [build, mkBin] at h2
      cases hb : build b <;> rw [hb] at h2 <;> unfold mkOr at h2 <;> (try cases h2)
      split at h2 <;> cases h2
  | ite => cases h2

theorem wrapSign_ne (e b : Expr) : wrapSign e ≠ .un .neg b := by
  unfold wrapSign
  split
  · simp
  · simp
  · next h => rintro rfl; simp_all

theorem plain_build {s : Src} (h : NoSign neg s) : Plain neg (build s) := by
  induction s with
  | atom => trivial
  | un o a ih =>
    have hp := ih h.1
    cases o with
    | pos => exact ⟨plain_wrapSign (plain_wrap hp), fun e => by cases e⟩
    | neg =>
      refine ⟨plain_wrapSign (plain_wrap hp), fun _ => ⟨fun n t e => h.2 n t rfl (build_atom e), ?_⟩⟩
      exact fun b => wrapSign_ne _ b
    | inv => exact ⟨plain_castTo (plain_wrap hp), fun e => by cases e⟩
    | not => exact ⟨plain_wrap hp, fun e => by cases e⟩
  | bin o a b ha hb =>
    have pa := ha h.1
    have pb := hb h.2
    cases o with
    | pow => exact ⟨plain_wrapPow pa, plain_wrapPow pb⟩
    | add | sub | mul | div | mod | fdiv => exact ⟨plain_wrapSign (plain_wrap pa), plain_wrapSign (plain_wrap pb)⟩
    | shl | shr | band | bxor | bor => exact ⟨plain_castTo (plain_wrap pa), plain_castTo (plain_wrap pb)⟩
    | cmp c => exact ⟨plain_wrap pa, plain_wrap pb⟩
    | and => exact plain_mkAnd pa pb
    | or => exact plain_mkOr pa pb
  | ite c t f h1 h2 h3 => exact ⟨plain_wrap (h1 h.1), plain_wrap (h2 h.2.1), plain_wrap (h3 h.2.2)⟩

theorem apart_cArgT {e : Expr} {t : CTree} (h : Apart (inTree .sub neg t)) : Apart (inTree .sub neg (cArgT e t)) := by
  unfold cArgT; split <;> exact h
theorem apart_cCastIfT {c : Bool} {t : CTree} (h : Apart (inTree .sub neg t)) :
    Apart (inTree .sub neg (cCastIfT c t)) := by
  unfold cCastIfT; split <;> exact h

theorem cstC_sign {e : Expr} {u : CTree} (h : inTree .sub neg (cstC e) = .un .sub u) :
    (∃ n t, e = .atom n t ∧ neg n = true) ∨ ∃ b, e = .un .neg b := by
  cases e with
  | atom n t =>
    simp only [cstC, inTree] at h
    split at h
    · next hn => exact .inl ⟨n, t, rfl, hn⟩
    · cases h
  | paren => cases h
  | cast t => cases t <;> cases h
  | un o a =>
    cases o with
    | neg => exact .inr ⟨a, rfl⟩
    | pos => injection h with h _; cases h
    | inv => injection h with h _; cases h
    | not => injection h with h _; cases h
  | bin o a b =>
    cases o <;> simp only [cstC] at h <;> (try cases h)
    all_goals split at h <;> cases h
  | ite => cases h

theorem apart_cstC {e : Expr} (h : Plain neg e) : Apart (inTree .sub neg (cstC e)) := by
  induction e with
  | atom n t => simp only [cstC, inTree]; split <;> simp [Apart]
  | paren a ih => exact ih h
  | cast t a ih =>
    cases t with
    | bool => exact ⟨ih h, trivial⟩
    | int => exact ih h
    | float => exact ih h
  | un o a ih =>
    cases o with
    | pos => exact ⟨ih h.1, fun hc => by cases hc.1⟩
    | inv => exact ⟨ih h.1, fun hc => by cases hc.1⟩
    | not => exact ⟨apart_cArgT (ih h.1), fun hc => by cases hc.1⟩
    | neg =>
      refine ⟨ih h.1, ?_⟩
      rintro ⟨_, u, hu⟩
      obtain ⟨h1, h2⟩ := h.2 rfl
      rcases cstC_sign hu with ⟨n, t, e, hn⟩ | ⟨b, e⟩
      · rw [h1 n t e] at hn; cases hn
      · exact h2 b e
  | bin o a b iha ihb =>
    have pa := iha h.1
    have pb := ihb h.2
    cases o <;> simp only [cstC]
    case mod | fdiv =>
      split
      · exact ⟨pa, pb⟩
      · exact ⟨apart_cCastIfT pa, apart_cCastIfT pb⟩
    case and | or =>
      refine ⟨?_, apart_cArgT pb⟩
      split
      · exact pa
      · exact apart_cArgT pa
    case pow | div => exact ⟨apart_cCastIfT pa, apart_cCastIfT pb⟩
    case band | bor => exact ⟨apart_cArgT pa, apart_cArgT pb⟩
    all_goals exact ⟨pa, pb⟩
  | ite c t f h1 h2 h3 => exact ⟨h1 h.1, h2 h.2.1, h3 h.2.2⟩

end Verif.Captured
