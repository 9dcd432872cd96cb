import Verif.Exprs.SameText
import Verif.Operands.Model
/-
The tree after which the Fortran text of an expression is written.
-/
namespace Verif.Operands
open Verif.Exprs

/-- The abstract syntax tree an expression should be read as. -/
def FS.tree : FS → FTree
  | .var n => .atom (.var n)
  | .neg a => .un .sub a.tree
  | .bin .pow a b => .bin .pow a.tree b.tree
  | .bin .add a b => .bin .add a.tree b.tree
  | .bin .sub a b => .bin .sub a.tree b.tree
  | .bin .mul a b => .bin .mul a.tree b.tree
  | .bin .div a b => .bin .div a.tree b.tree
  | .bin .lt a b => .bin .lt a.tree b.tree
  | .call f a => .call (.fn f) a.tree
  | .whr c a b => .call .merge (.bin .comma (.bin .comma a.tree b.tree) c.tree)
  | .mpow a b => .bin .pow a.tree b.tree
  | .sumI i x => .bin .add i.tree (.call .sum x.tree)
  | .dot a b => .call .sum (.bin .mul a.tree b.tree)
  | .normInv one x => .bin .div (.atom (.var one))
      (.call .sum (.bin .div (.atom (.var one)) (.call .abs x.tree)))
  | .normPow p q x => .bin .pow (.call .sum (.bin .pow (.call .abs x.tree) (.atom (.var p))))
      (.atom (.var q))
  | .normNeg one o x =>
    .bin .pow (.call .sum (.bin .pow (.call .abs x.tree) (.call .real (.un .sub (.atom (.var o))))))
      (.bin .div (.call .real (.atom (.var one))) (.call .real (.un .sub (.atom (.var o)))))
  | .arange a s i => .call .seq (.bin .add a.tree (.bin .mul s.tree (.atom (.var i))))

def FN.cst : FN → FTree
  | .var n => .atom (.var n)
  | .neg a => .un .sub a.cst
  | .bin .pow a b => .bin .pow a.cst b.cst
  | .bin .add a b => .bin .add a.cst b.cst
  | .bin .sub a b => .bin .sub a.cst b.cst
  | .bin .mul a b => .bin .mul a.cst b.cst
  | .bin .div a b => .bin .div a.cst b.cst
  | .bin .lt a b => .bin .lt a.cst b.cst
  | .call f a => .call (.fn f) a.cst
  | .whr c a b => .call .merge (.bin .comma (.bin .comma a.cst b.cst) c.cst)
  | .mpow a b => .bin .pow a.cst b.cst
  | .sumI i x => .bin .add i.cst (.call .sum x.cst)
  | .dot a b => .call .sum (.bin .mul a.cst b.cst)
  | .normInv one x => .bin .div (.atom (.var one))
      (.call .sum (.bin .div (.atom (.var one)) (.call .abs x.cst)))
  | .normPow p q x => .bin .pow (.call .sum (.bin .pow (.call .abs x.cst) (.atom (.var p))))
      (.atom (.var q))
  | .normNeg one o x =>
    .bin .pow (.call .sum (.bin .pow (.call .abs x.cst) (.call .real (.un .sub (.atom (.var o))))))
      (.bin .div (.call .real (.atom (.var one)))
        (.call .real (.paren (.un .sub (.atom (.var o))))))
  | .arange a s i => .call .seq (.bin .add a.cst (.bin .mul s.cst (.atom (.var i))))
  | .paren a => .paren a.cst

theorem cst_flattenF : ∀ e : FN, e.cst.flatten = e.print
  | .var n => rfl
  | .neg a => by simp [FN.cst, FN.print, CST.flatten, cst_flattenF a]
  | .bin o a b => by
    cases o <;> simp [FN.cst, FN.print, CST.flatten, cst_flattenF a, cst_flattenF b]
  | .call f a => by simp [FN.cst, FN.print, fCall, CST.flatten, cst_flattenF a]
  | .whr c a b => by
    simp [FN.cst, FN.print, fCall, CST.flatten, cst_flattenF a, cst_flattenF b, cst_flattenF c]
  | .mpow a b => by simp [FN.cst, FN.print, CST.flatten, cst_flattenF a, cst_flattenF b]
  | .sumI a b => by simp [FN.cst, FN.print, fCall, CST.flatten, cst_flattenF a, cst_flattenF b]
  | .dot a b => by simp [FN.cst, FN.print, fCall, CST.flatten, cst_flattenF a, cst_flattenF b]
  | .normInv one a => by simp [FN.cst, FN.print, fCall, CST.flatten, cst_flattenF a]
  | .normPow p q a => by simp [FN.cst, FN.print, fCall, CST.flatten, cst_flattenF a]
  | .normNeg one o a => by simp [FN.cst, FN.print, fCall, CST.flatten, cst_flattenF a]
  | .arange a b i => by simp [FN.cst, FN.print, fCall, CST.flatten, cst_flattenF a, cst_flattenF b]
  | .paren a => by simp [FN.cst, FN.print, CST.flatten, cst_flattenF a]

theorem strip_wrapF (P i : Nat) (e : FN) : (e.wrap P i).cst.strip = e.cst.strip := by
  unfold FN.wrap; split <;> rfl

theorem strip_wrapSignF (e : FN) : e.wrapSign.cst.strip = e.cst.strip := by
  cases e <;> rfl

theorem strip_wrapPowF (i : Nat) (e : FN) : (e.wrapPow i).cst.strip = e.cst.strip := by
  unfold FN.wrapPow; split <;> rfl

theorem node_stripF : ∀ s : FS, s.node.cst.strip = s.tree
  | .var n => rfl
  | .neg a => by
    simp [FS.node, FN.cst, CST.strip, strip_wrapF, strip_wrapSignF, node_stripF a, FS.tree]
  | .bin o a b => by
    cases o <;> simp [FS.node, FN.mkBin, FN.cst, CST.strip, strip_wrapF, strip_wrapSignF,
      strip_wrapPowF, node_stripF a, node_stripF b, FS.tree]
  | .call f a => by simp [FS.node, FN.cst, CST.strip, node_stripF a, FS.tree]
  | .whr c a b => by
    simp [FS.node, FN.cst, CST.strip, node_stripF a, node_stripF b, node_stripF c, FS.tree]
  | .mpow a b => by simp [FS.node, FN.cst, CST.strip, node_stripF a, node_stripF b, FS.tree]
  | .sumI a b => by simp [FS.node, FN.cst, CST.strip, node_stripF a, node_stripF b, FS.tree]
  | .dot a b => by simp [FS.node, FN.cst, CST.strip, node_stripF a, node_stripF b, FS.tree]
  | .normInv one a => by simp [FS.node, FN.cst, CST.strip, node_stripF a, FS.tree]
  | .normPow p q a => by simp [FS.node, FN.cst, CST.strip, node_stripF a, FS.tree]
  | .normNeg one o a => by simp [FS.node, FN.cst, CST.strip, node_stripF a, FS.tree]
  | .arange a b i => by simp [FS.node, FN.cst, CST.strip, node_stripF a, node_stripF b, FS.tree]

def FS.prec : FS → Nat
  | .neg _ => 14
  | .bin o _ _ => o.prec
  | _ => 17

theorem node_precF (s : FS) : s.node.prec = s.prec := by
  cases s with
  | bin o a b => cases o <;> rfl
  | _ => rfl

def FS.isNeg : FS → Bool
  | .neg _ => true
  | _ => false

theorem node_wrapSignF (s : FS) :
    s.node.wrapSign = if s.isNeg then .paren s.node else s.node := by
  cases s with
  | bin o a b => cases o <;> rfl
  | _ => rfl

theorem wrappedF (s : FS) (P i : Nat) :
    (s.node.wrap P i).wrapSign =
      if s.prec < P ∨ (s.prec = P ∧ i ≠ 0) ∨ s.isNeg = true then .paren s.node else s.node := by
  unfold FN.wrap
  rw [node_precF]
  by_cases h : s.prec < P ∨ (s.prec = P ∧ i ≠ 0)
  · rw [if_pos h, if_pos (by rcases h with h | h <;> simp [h])]
    rfl
  · rw [if_neg h, node_wrapSignF]
    by_cases hn : s.isNeg = true
    · rw [if_pos hn, if_pos (.inr (.inr hn))]
    · rw [if_neg hn, if_neg (by
        rintro (h' | h' | h')
        · exact h (.inl h')
        · exact h (.inr h')
        · exact hn h')]

/-- Precedences and levels of the operators, and of the calls printed as one. -/
theorem kinds (s : FS) :
    (s.isNeg = true ∧ s.prec = 14 ∧ s.level = 7 ∧ ¬ s.Loose) ∨
    (s.isNeg = false ∧ s.prec = 13 ∧ s.level = 8 ∧ ¬ s.Loose) ∨
    (s.isNeg = false ∧ s.prec = 12 ∧ s.level = 7 ∧ ¬ s.Loose) ∨
    (s.isNeg = false ∧ s.prec = 15 ∧ s.level = 9 ∧ ¬ s.Loose) ∨
    (s.isNeg = false ∧ s.prec = 7 ∧ s.level = 5 ∧ ¬ s.Loose ∧ ∃ x y, s = .bin .lt x y) ∨
    (s.isNeg = false ∧ s.prec = 17 ∧ s.level = 20 ∧ ¬ s.Loose) ∨
    (s.isNeg = false ∧ s.prec = 17 ∧ 7 ≤ s.level ∧ s.Loose) := by
  cases s with
  | bin o a b => cases o <;> simp [FS.level, FS.prec, Op.prec, FS.isNeg, FS.Loose]
  | _ => simp [FS.level, FS.prec, FS.isNeg, FS.Loose]

theorem level_pos (s : FS) : 5 ≤ s.level := by
  have := kinds s
  omega

/-- What holds of the tree of an expression. -/
def GoodF (s : FS) : Prop := ∀ n, n ≤ 20 → (Deriv fLang n s.node.cst ↔ s.Whole ∧ n ≤ s.level)

/-- An operand which is printed with parentheses `c` where level `n` is needed. -/
theorem operandF {s : FS} (hg : GoodF s) (n : Nat) (hn : n ≤ 20) (c : Prop)
    [Decidable c] (h1 : s.Loose → ¬ c) (h2 : ¬ s.Loose → ¬ c → n ≤ s.level) :
    Deriv fLang n (if c then FN.paren s.node else s.node).cst ↔
      s.Whole ∧ (s.Loose → n ≤ s.level) := by
  by_cases hc : c
  · rw [if_pos hc]
    show Deriv fLang 0 s.node.cst ↔ _
    rw [hg 0 (by omega)]
    exact ⟨fun h => ⟨h.1, fun h' => absurd hc (h1 h')⟩, fun h => ⟨h.1, by omega⟩⟩
  · rw [if_neg hc, hg n hn]
    constructor
    · exact fun h => ⟨h.1, fun _ => h.2⟩
    · rintro ⟨hw, hl⟩
      by_cases h : s.Loose
      · exact ⟨hw, hl h⟩
      · exact ⟨hw, h2 h hc⟩

theorem operandF_arith {s : FS} (hg : GoodF s) (n P i : Nat)
    (hP : (P = 12 ∧ n = 7 + i) ∨ (P = 13 ∧ n = 8 + i) ∨ (P = 14 ∧ i = 0 ∧ n = 8)) (hi : i ≤ 1) :
    Deriv fLang n ((s.node.wrap P i).wrapSign).cst ↔ s.Whole ∧ (s.Loose → n ≤ s.level) := by
  rw [wrappedF s P i]
  have hk := kinds s
  apply operandF hg n (by omega)
  · intro h
    rcases hk with hk | hk | hk | hk | hk | hk | hk
    all_goals first
      | exact absurd h hk.2.2.2.1
      | exact absurd h hk.2.2.2
      | (rw [hk.1]; simp only [Bool.false_eq_true, or_false]; omega)
  · intro h hc
    simp only [not_or, Bool.not_eq_true] at hc
    rcases hk with hk | hk | hk | hk | hk | hk | hk
    · rw [hk.1] at hc
      simp at hc
    all_goals first
      | omega
      | exact absurd hk.2.2.2 h

theorem operandF_pow {s : FS} (hg : GoodF s) (n i : Nat)
    (hP : (i = 0 ∧ n = 10) ∨ (i = 1 ∧ n = 9)) :
    Deriv fLang n ((s.node.wrapPow i)).cst ↔ s.Whole ∧ (s.Loose → n ≤ s.level) := by
  unfold FN.wrapPow
  rw [node_precF]
  have hk := kinds s
  apply operandF hg n (by omega)
  · intro h
    rcases hk with hk | hk | hk | hk | hk | hk | hk
    all_goals first
      | exact absurd h hk.2.2.2.1
      | exact absurd h hk.2.2.2
      | omega
  · intro h hc
    rcases hk with hk | hk | hk | hk | hk | hk | hk <;> first
      | omega
      | exact absurd hk.2.2.2 h

theorem operandF_lt0 {s : FS} (hg : GoodF s) :
    Deriv fLang 6 ((s.node.wrap 7 0)).cst ↔ s.Whole ∧ ∀ x y, s ≠ .bin .lt x y := by
  unfold FN.wrap
  rw [node_precF]
  have hk := kinds s
  rw [if_neg (by omega), hg 6 (by omega)]
  constructor
  · rintro ⟨h1, h2⟩
    refine ⟨h1, ?_⟩
    rintro x y rfl
    simp [FS.level] at h2
  · rintro ⟨h1, h2⟩
    refine ⟨h1, ?_⟩
    rcases hk with hk | hk | hk | hk | hk | hk | hk
    case inr.inr.inr.inr.inl =>
      obtain ⟨x, y, e⟩ := hk.2.2.2.2
      exact absurd e (h2 x y)
    all_goals omega

theorem operandF_lt1 {s : FS} (hg : GoodF s) :
    Deriv fLang 6 ((s.node.wrap 7 1)).cst ↔ s.Whole := by
  unfold FN.wrap
  rw [node_precF]
  have hk := kinds s
  split
  next h =>
    show Deriv fLang 0 s.node.cst ↔ _
    rw [hg 0 (by omega)]
    exact ⟨fun h => h.1, fun h => ⟨h, by omega⟩⟩
  next h =>
    rw [hg 6 (by omega)]
    exact ⟨fun h => h.1, fun h => ⟨h, by omega⟩⟩

theorem deriv_bin {n : Nat} {s : FSym} {a b : FTree} {p : BinRule} (hp : fLang.bin s = some p) :
    Deriv fLang n (.bin s a b) ↔ n ≤ p.lev ∧ Deriv fLang p.left a ∧ Deriv fLang p.right b := by
  simp only [Deriv, hp, Option.some.injEq]
  exact ⟨fun ⟨q, hq, h⟩ => hq ▸ h, fun h => ⟨p, rfl, h⟩⟩

theorem arg_low {s : FS} (hg : GoodF s) (n : Nat) (hn : n ≤ 5) :
    Deriv fLang n s.node.cst ↔ s.Whole := by
  rw [hg n (by omega)]
  have := level_pos s
  exact ⟨fun h => h.1, fun h => ⟨h, by omega⟩⟩

theorem goodF : ∀ s : FS, GoodF s
  | .var n => fun m hm => by simp [FS.node, FN.cst, Deriv, FS.Whole, FS.level, hm]
  | .neg a => fun m hm => by
    have ha := operandF_arith (goodF a) 8 14 0 (by omega) (by omega)
    simp only [FS.node, FN.cst, Deriv, FS.Whole, FS.level]
    constructor
    · rintro ⟨p, hp, h1, h2⟩
      cases hp
      exact ⟨ha.1 h2, h1⟩
    · rintro ⟨h, h1⟩
      exact ⟨_, rfl, h1, ha.2 h⟩
  | .bin .pow a b => fun m hm => by
    have ha := operandF_pow (goodF a) 10 0 (by omega)
    have hb := operandF_pow (goodF b) 9 1 (by omega)
    simp only [FS.node, FN.mkBin, FN.cst, FS.Whole]
    rw [show FS.level (.bin .pow a b) = 9 from rfl]
    rw [deriv_bin rfl]
    show _ ∧ Deriv fLang 10 _ ∧ Deriv fLang 9 _ ↔ _
    rw [ha, hb]
    clear ha hb
    constructor <;> (intro h; simp_all)
  | .bin .lt a b => fun m hm => by
    have ha := operandF_lt0 (goodF a)
    have hb := operandF_lt1 (goodF b)
    simp only [FS.node, FN.mkBin, FN.cst, FS.Whole]
    rw [show FS.level (.bin .lt a b) = 5 from rfl]
    rw [deriv_bin rfl]
    show _ ∧ Deriv fLang 6 _ ∧ Deriv fLang 6 _ ↔ _
    rw [ha, hb]
    clear ha hb
    constructor <;> (intro h; simp_all)
  | .bin .add a b => fun m hm => by
    have ha := operandF_arith (goodF a) 7 12 0 (by omega) (by omega)
    have hb := operandF_arith (goodF b) 8 12 1 (by omega) (by omega)
    simp only [FS.node, FN.mkBin, FN.cst, FS.Whole]
    rw [show FS.level (.bin .add a b) = 7 from rfl]
    rw [deriv_bin rfl]
    show _ ∧ Deriv fLang 7 _ ∧ Deriv fLang 8 _ ↔ _
    rw [show Op.add.prec = 12 from rfl, ha, hb]
    clear ha hb
    constructor <;> (intro h; simp_all)
  | .bin .sub a b => fun m hm => by
    have ha := operandF_arith (goodF a) 7 12 0 (by omega) (by omega)
    have hb := operandF_arith (goodF b) 8 12 1 (by omega) (by omega)
    simp only [FS.node, FN.mkBin, FN.cst, FS.Whole]
    rw [show FS.level (.bin .sub a b) = 7 from rfl]
    rw [deriv_bin rfl]
    show _ ∧ Deriv fLang 7 _ ∧ Deriv fLang 8 _ ↔ _
    rw [show Op.sub.prec = 12 from rfl, ha, hb]
    clear ha hb
    constructor <;> (intro h; simp_all)
  | .bin .mul a b => fun m hm => by
    have ha := operandF_arith (goodF a) 8 13 0 (by omega) (by omega)
    have hb := operandF_arith (goodF b) 9 13 1 (by omega) (by omega)
    simp only [FS.node, FN.mkBin, FN.cst, FS.Whole]
    rw [show FS.level (.bin .mul a b) = 8 from rfl]
    rw [deriv_bin rfl]
    show _ ∧ Deriv fLang 8 _ ∧ Deriv fLang 9 _ ↔ _
    rw [show Op.mul.prec = 13 from rfl, ha, hb]
    clear ha hb
    constructor <;> (intro h; simp_all)
  | .bin .div a b => fun m hm => by
    have ha := operandF_arith (goodF a) 8 13 0 (by omega) (by omega)
    have hb := operandF_arith (goodF b) 9 13 1 (by omega) (by omega)
    simp only [FS.node, FN.mkBin, FN.cst, FS.Whole]
    rw [show FS.level (.bin .div a b) = 8 from rfl]
    rw [deriv_bin rfl]
    show _ ∧ Deriv fLang 8 _ ∧ Deriv fLang 9 _ ↔ _
    rw [show Op.div.prec = 13 from rfl, ha, hb]
    clear ha hb
    constructor <;> (intro h; simp_all)
  | .call f a => fun m hm => by
    have ha := arg_low (goodF a) 0 (by omega)
    simp only [FS.node, FN.cst, Deriv, FS.Whole, FS.level]
    rw [ha]
    simp [hm]
  | .whr c a b => fun m hm => by
    have ha := arg_low (goodF a) 0 (by omega)
    have hb := arg_low (goodF b) 1 (by omega)
    have hc := arg_low (goodF c) 1 (by omega)
    simp only [FS.node, FN.cst, FS.Whole]
    rw [show FS.level (.whr c a b) = 20 from rfl]
    show Deriv fLang 0 _ ↔ _
    rw [deriv_bin (s := .comma) rfl]
    show _ ∧ Deriv fLang 0 _ ∧ Deriv fLang 1 _ ↔ _
    rw [deriv_bin (s := .comma) rfl]
    show _ ∧ (_ ∧ Deriv fLang 0 _ ∧ Deriv fLang 1 _) ∧ _ ↔ _
    rw [ha, hb, hc]
    clear ha hb hc
    constructor <;> (intro h; simp_all)
  | .mpow a b => fun m hm => by
    have ha := goodF a 10 (by omega)
    have hb := goodF b 9 (by omega)
    simp only [FS.node, FN.cst, FS.Whole]
    rw [show FS.level (.mpow a b) = 9 from rfl]
    rw [deriv_bin rfl]
    show _ ∧ Deriv fLang 10 _ ∧ Deriv fLang 9 _ ↔ _
    rw [ha, hb]
    clear ha hb
    constructor <;> (intro h; simp_all)
  | .sumI i x => fun m hm => by
    have ha := goodF i 7 (by omega)
    have hb := arg_low (goodF x) 0 (by omega)
    simp only [FS.node, FN.cst, FS.Whole]
    rw [show FS.level (.sumI i x) = 7 from rfl]
    rw [deriv_bin rfl]
    show _ ∧ Deriv fLang 7 _ ∧ Deriv fLang 0 _ ↔ _
    rw [ha, hb]
    clear ha hb
    constructor <;> (intro h; simp_all)
  | .dot a b => fun m hm => by
    have ha := goodF a 8 (by omega)
    have hb := goodF b 9 (by omega)
    simp only [FS.node, FN.cst, FS.Whole]
    rw [show FS.level (.dot a b) = 20 from rfl]
    show Deriv fLang 0 _ ↔ _
    rw [deriv_bin rfl]
    show _ ∧ Deriv fLang 8 _ ∧ Deriv fLang 9 _ ↔ _
    rw [ha, hb]
    clear ha hb
    constructor <;> (intro h; simp_all)
  | .normInv one x => fun m hm => by
    have hb := arg_low (goodF x) 0 (by omega)
    simp only [FS.node, FN.cst, FS.Whole]
    rw [show FS.level (.normInv one x) = 8 from rfl]
    rw [deriv_bin rfl]
    show _ ∧ True ∧ Deriv fLang 0 _ ↔ _
    rw [deriv_bin rfl]
    show _ ∧ True ∧ _ ∧ True ∧ Deriv fLang 0 _ ↔ _
    rw [hb]
    clear hb
    constructor <;> (intro h; simp_all)
  | .normPow p q x => fun m hm => by
    have hb := arg_low (goodF x) 0 (by omega)
    simp only [FS.node, FN.cst, FS.Whole]
    rw [show FS.level (.normPow p q x) = 9 from rfl]
    rw [deriv_bin rfl]
    show _ ∧ Deriv fLang 0 _ ∧ True ↔ _
    rw [deriv_bin rfl]
    show _ ∧ (_ ∧ Deriv fLang 0 _ ∧ True) ∧ True ↔ _
    rw [hb]
    clear hb
    constructor <;> (intro h; simp_all)
  | .normNeg one o x => fun m hm => by
    simp only [FS.node, FN.cst, FS.Whole]
    rw [show FS.level (.normNeg one o x) = 8 from rfl]
    rw [deriv_bin rfl]
    show _ ∧ _ ∧ Deriv fLang 9 _ ↔ _
    rw [deriv_bin (s := .div) rfl]
    constructor
    · rintro ⟨_, _, h, _⟩
      simp at h
    · rintro ⟨h, _⟩
      exact h.elim
  | .arange a s i => fun m hm => by
    have ha := goodF a 7 (by omega)
    have hb := goodF s 8 (by omega)
    simp only [FS.node, FN.cst, FS.Whole]
    rw [show FS.level (.arange a s i) = 20 from rfl]
    show Deriv fLang 0 _ ↔ _
    rw [deriv_bin rfl]
    show _ ∧ Deriv fLang 7 _ ∧ Deriv fLang 8 _ ↔ _
    rw [deriv_bin (s := .mul) rfl]
    show _ ∧ _ ∧ _ ∧ Deriv fLang 8 _ ∧ True ↔ _
    rw [ha, hb]
    clear ha hb
    constructor <;> (intro h; simp_all)

/-! ### Values -/

theorem wrap_valueF {V : Type} (I : Ops V) (env : Nat → V) (P i : Nat) (e : FN) :
    fValue I env (e.wrap P i).cst = fValue I env e.cst := by
  unfold FN.wrap; split <;> simp [FN.cst, fValue]

theorem wrapSign_valueF {V : Type} (I : Ops V) (env : Nat → V) (e : FN) :
    fValue I env e.wrapSign.cst = fValue I env e.cst := by
  cases e <;> simp [FN.wrapSign, FN.cst, fValue]

theorem wrapPow_valueF {V : Type} (I : Ops V) (env : Nat → V) (i : Nat) (e : FN) :
    fValue I env (e.wrapPow i).cst = fValue I env e.cst := by
  unfold FN.wrapPow; split <;> simp [FN.cst, fValue]

theorem cst_valueF {V : Type} (I : Ops V) (env : Nat → V) :
    ∀ s : FS, fValue I env s.node.cst = some (s.value I env)
  | .var n => by simp [FS.node, FN.cst, fValue, FS.value]
  | .neg a => by
    simp [FS.node, FN.cst, fValue, wrap_valueF, wrapSign_valueF, cst_valueF I env a, FS.value]
  | .bin o a b => by
    cases o <;> simp [FS.node, FN.mkBin, FN.cst, fValue, wrap_valueF, wrapSign_valueF,
      wrapPow_valueF, cst_valueF I env a, cst_valueF I env b, FS.value, fSym]
  | .call f a => by simp [FS.node, FN.cst, fValue, cst_valueF I env a, FS.value]
  | .whr c a b => by
    simp [FS.node, FN.cst, fValue, cst_valueF I env a, cst_valueF I env b, cst_valueF I env c,
      FS.value]
  | .mpow a b => by
    simp [FS.node, FN.cst, fValue, cst_valueF I env a, cst_valueF I env b, FS.value, fSym]
  | .sumI a b => by
    simp [FS.node, FN.cst, fValue, cst_valueF I env a, cst_valueF I env b, FS.value, fSym]
  | .dot a b => by
    simp [FS.node, FN.cst, fValue, cst_valueF I env a, cst_valueF I env b, FS.value, fSym]
  | .normInv one a => by simp [FS.node, FN.cst, fValue, cst_valueF I env a, FS.value, fSym]
  | .normPow p q a => by simp [FS.node, FN.cst, fValue, cst_valueF I env a, FS.value, fSym]
  | .normNeg one o a => by simp [FS.node, FN.cst, fValue, cst_valueF I env a, FS.value, fSym]
  | .arange a b i => by
    simp [FS.node, FN.cst, fValue, cst_valueF I env a, cst_valueF I env b, FS.value, fSym]

/-- The operations which build trees. -/
def treeOpsF : Ops FTree where
  bin
    | .add => .bin .add
    | .sub => .bin .sub
    | .mul => .bin .mul
    | .div => .bin .div
    | .lt => .bin .lt
    | .pow => .bin .pow
  neg := .un .sub
  ne := .bin .ne
  zero := .atom .zero
  cond c a b := .call .merge (.bin .comma (.bin .comma a b) c)
  fn f := .call (.fn f)
  sum := .call .sum
  abs := .call .abs
  real := .call .real
  seq := .call .seq

theorem treeOpsF_value : ∀ s : FS, s.value treeOpsF (fun n => .atom (.var n)) = s.tree
  | .var n => rfl
  | .neg a => by rw [FS.value, treeOpsF_value a]; rfl
  | .bin o a b => by rw [FS.value, treeOpsF_value a, treeOpsF_value b]; cases o <;> rfl
  | .call f a => by rw [FS.value, treeOpsF_value a]; rfl
  | .whr c a b => by rw [FS.value, treeOpsF_value a, treeOpsF_value b, treeOpsF_value c]; rfl
  | .mpow a b => by rw [FS.value, treeOpsF_value a, treeOpsF_value b]; rfl
  | .sumI a b => by rw [FS.value, treeOpsF_value a, treeOpsF_value b]; rfl
  | .dot a b => by rw [FS.value, treeOpsF_value a, treeOpsF_value b]; rfl
  | .normInv one a => by rw [FS.value, treeOpsF_value a]; rfl
  | .normPow p q a => by rw [FS.value, treeOpsF_value a]; rfl
  | .normNeg one o a => by rw [FS.value, treeOpsF_value a]; rfl
  | .arange a b i => by rw [FS.value, treeOpsF_value a, treeOpsF_value b]; rfl

theorem treeOpsF_strip : ∀ (t v : FTree),
    fValue treeOpsF (fun n => .atom (.var n)) t = some v → v = t.strip
  | .atom (.var n), v, h => by cases h; rfl
  | .atom .zero, v, h => by cases h; rfl
  | .paren t, v, h => treeOpsF_strip t v (by rw [fValue] at h; exact h)
  | .call (.fn f) t, v, h => by
    rw [fValue, Option.map_eq_some_iff] at h
    obtain ⟨x, hx, rfl⟩ := h
    rw [treeOpsF_strip t x hx]
    rfl
  | .call .sum t, v, h => by
    rw [fValue, Option.map_eq_some_iff] at h
    obtain ⟨x, hx, rfl⟩ := h
    rw [treeOpsF_strip t x hx]
    rfl
  | .call .abs t, v, h => by
    rw [fValue, Option.map_eq_some_iff] at h
    obtain ⟨x, hx, rfl⟩ := h
    rw [treeOpsF_strip t x hx]
    rfl
  | .call .real t, v, h => by
    rw [fValue, Option.map_eq_some_iff] at h
    obtain ⟨x, hx, rfl⟩ := h
    rw [treeOpsF_strip t x hx]
    rfl
  | .call .seq t, v, h => by
    rw [fValue, Option.map_eq_some_iff] at h
    obtain ⟨x, hx, rfl⟩ := h
    rw [treeOpsF_strip t x hx]
    rfl
  | .call .merge (.bin s (.bin s' a b) c), v, h => by
    cases s <;> cases s' <;> simp only [fValue] at h <;> try (simp at h; done)
    simp only [Option.bind_eq_bind, Option.pure_def, Option.bind_eq_some_iff,
      Option.some.injEq] at h
    obtain ⟨x, hx, y, hy, z, hz, rfl⟩ := h
    rw [treeOpsF_strip c x hx, treeOpsF_strip a y hy, treeOpsF_strip b z hz]
    rfl
  | .call .merge (.bin s (.atom _) c), v, h | .call .merge (.bin s (.paren _) c), v, h
  | .call .merge (.bin s (.call _ _) c), v, h | .call .merge (.bin s (.un _ _) c), v, h
  | .call .merge (.bin s (.tern _ _ _) c), v, h => by cases s <;> simp [fValue] at h
  | .call .merge (.atom _), v, h | .call .merge (.paren _), v, h
  | .call .merge (.call _ _), v, h | .call .merge (.un _ _), v, h
  | .call .merge (.tern _ _ _), v, h => by simp [fValue] at h
  | .un s t, v, h => by
    cases s <;> simp only [fValue, Option.map_eq_some_iff] at h <;> try (simp at h; done)
    obtain ⟨x, hx, rfl⟩ := h
    rw [treeOpsF_strip t x hx]
    rfl
  | .bin s a b, v, h => by
    simp only [fValue, Option.bind_eq_bind, Option.bind_eq_some_iff] at h
    obtain ⟨x, hx, y, hy, h⟩ := h
    rw [CST.strip, ← treeOpsF_strip a x hx, ← treeOpsF_strip b y hy]
    cases s <;> simp [fSym] at h <;> subst h <;> rfl
  | .tern a b c, v, h => by simp [fValue] at h

theorem readsF_iff (s : FS) :
    (∃ t, Parses fLang (textF s) t ∧
      ∀ (V : Type) (I : Ops V) (env : Nat → V), fValue I env t = some (s.value I env)) ↔
    s.Whole := by
  have h1 := read_iff fLang s.node.cst
  rw [cst_flattenF, goodF s 0 (by omega)] at h1
  constructor
  · rintro ⟨t, ht, hv⟩
    refine (h1.1 ⟨t, ht, ?_⟩).1
    have := treeOpsF_strip t _ (hv FTree treeOpsF (fun n => .atom (.var n)))
    rw [treeOpsF_value] at this
    rw [node_stripF, this]
  · intro h
    refine ⟨s.node.cst, ⟨cst_flattenF _, (goodF s 0 (by omega)).2 ⟨h, by omega⟩⟩, ?_⟩
    intro V I env
    exact cst_valueF I env s

end Verif.Operands
