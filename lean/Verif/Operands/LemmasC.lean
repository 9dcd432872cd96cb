import Verif.Exprs.SameText
import Verif.Operands.Model
/-
The tree after which the C text of an expression is written.
-/
namespace Verif.Operands
open Verif.Exprs

/-- The abstract syntax tree an expression should be read as. -/
def CS.tree : CS → CTree
  | .var n => .atom (.var n)
  | .neg a => .un .sub a.tree
  | .bin .pow a b => .call .pow (.bin .comma a.tree b.tree)
  | .bin .add a b => .bin .add a.tree b.tree
  | .bin .sub a b => .bin .sub a.tree b.tree
  | .bin .mul a b => .bin .mul a.tree b.tree
  | .bin .div a b => .bin .div a.tree b.tree
  | .bin .lt a b => .bin .lt a.tree b.tree
  | .truth a => .bin .ne a.tree (.atom .zero)
  | .call f a => .call (.fn f) a.tree
  | .whr c a b => .tern c.tree a.tree b.tree

def CN.cst : CN → CTree
  | .var n => .atom (.var n)
  | .neg a => .un .sub a.cst
  | .bin .pow a b => .call .pow (.bin .comma a.cst b.cst)
  | .bin .add a b => .bin .add a.cst b.cst
  | .bin .sub a b => .bin .sub a.cst b.cst
  | .bin .mul a b => .bin .mul a.cst b.cst
  | .bin .div a b => .bin .div a.cst b.cst
  | .bin .lt a b => .bin .lt a.cst b.cst
  | .truth a => .paren (.bin .ne a.cst (.atom .zero))
  | .call f a => .call (.fn f) a.cst
  | .whr c a b => .tern c.cst a.cst b.cst
  | .paren a => .paren a.cst

theorem cst_flatten : ∀ e : CN, e.cst.flatten = e.print
  | .var n => rfl
  | .neg a => by simp [CN.cst, CN.print, CST.flatten, cst_flatten a]
  | .bin o a b => by
    cases o <;> simp [CN.cst, CN.print, CST.flatten, cst_flatten a, cst_flatten b]
  | .truth a => by simp [CN.cst, CN.print, CST.flatten, cst_flatten a]
  | .call f a => by simp [CN.cst, CN.print, CST.flatten, cst_flatten a]
  | .whr c a b => by
    simp [CN.cst, CN.print, CST.flatten, cst_flatten a, cst_flatten b, cst_flatten c]
  | .paren a => by simp [CN.cst, CN.print, CST.flatten, cst_flatten a]

theorem strip_wrap (P i : Nat) (e : CN) : (e.wrap P i).cst.strip = e.cst.strip := by
  unfold CN.wrap; split <;> rfl

theorem strip_wrapSign (e : CN) : e.wrapSign.cst.strip = e.cst.strip := by
  cases e <;> rfl

theorem strip_wrapPow (i : Nat) (e : CN) : (e.wrapPow i).cst.strip = e.cst.strip := by
  unfold CN.wrapPow; split <;> rfl

theorem node_strip : ∀ s : CS, s.node.cst.strip = s.tree
  | .var n => rfl
  | .neg a => by
    simp [CS.node, CN.cst, CST.strip, strip_wrap, strip_wrapSign, node_strip a, CS.tree]
  | .bin o a b => by
    cases o <;> simp [CS.node, CN.mkBin, CN.cst, CST.strip, strip_wrap, strip_wrapSign,
      strip_wrapPow, node_strip a, node_strip b, CS.tree]
  | .truth a => by simp [CS.node, CN.cst, CST.strip, node_strip a, CS.tree]
  | .call f a => by simp [CS.node, CN.cst, CST.strip, node_strip a, CS.tree]
  | .whr c a b => by
    simp [CS.node, CN.cst, CST.strip, node_strip a, node_strip b, node_strip c, CS.tree]

/-- Level of the text. -/
def CS.lev : CS → Nat
  | .neg _ => 14
  | .bin .add _ _ | .bin .sub _ _ => 12
  | .bin .mul _ _ | .bin .div _ _ => 13
  | .bin .lt _ _ => 10
  | .whr _ _ _ => 3
  | _ => 20

def CS.prec : CS → Nat
  | .neg _ => 14
  | .bin o _ _ => o.prec
  | _ => 17

theorem node_prec (s : CS) : s.node.prec = s.prec := by
  cases s with
  | bin o a b => cases o <;> rfl
  | _ => rfl

def CS.isNeg : CS → Bool
  | .neg _ => true
  | _ => false

theorem node_wrapSign (s : CS) : s.node.wrapSign = if s.isNeg then .paren s.node else s.node := by
  cases s with
  | bin o a b => cases o <;> rfl
  | _ => rfl

/-- An operand of an arithmetic operator is in parentheses or not. -/
theorem wrapped (s : CS) (P i : Nat) (hP : P ≤ 14) :
    (s.node.wrap P i).wrapSign =
      if s.prec < P ∨ (s.prec = P ∧ i ≠ 0) ∨ s.isNeg = true then .paren s.node else s.node := by
  unfold CN.wrap
  rw [node_prec]
  by_cases h : s.prec < P ∨ (s.prec = P ∧ i ≠ 0)
  · rw [if_pos h, if_pos (by rcases h with h | h <;> simp [h])]
    rfl
  · rw [if_neg h, node_wrapSign]
    by_cases hn : s.isNeg = true
    · rw [if_pos hn, if_pos (.inr (.inr hn))]
    · rw [if_neg hn, if_neg (by
        rintro (h' | h' | h')
        · exact h (.inl h')
        · exact h (.inr h')
        · exact hn h')]

def CS.IsWhr (s : CS) : Prop := ∃ c x y, s = .whr c x y

theorem not_isWhr (s : CS) : ¬ s.IsWhr ↔ ∀ c x y, s ≠ .whr c x y := by
  simp [CS.IsWhr]

theorem lev_of_unit {s : CS} (h : ¬ s.IsWhr) : 10 ≤ s.lev := by
  cases s with
  | whr c a b => exact absurd ⟨c, a, b, rfl⟩ h
  | bin o a b => cases o <;> simp [CS.lev]
  | _ => simp [CS.lev]

theorem lev_whr {s : CS} (h : s.IsWhr) : s.lev = 3 := by
  obtain ⟨c, a, b, rfl⟩ := h
  rfl

theorem prec_whr {s : CS} (h : s.IsWhr) : s.prec = 17 ∧ s.isNeg = false := by
  obtain ⟨c, a, b, rfl⟩ := h
  exact ⟨rfl, rfl⟩

theorem lev_pos (s : CS) : 3 ≤ s.lev := by
  cases s with
  | bin o a b => cases o <;> simp [CS.lev]
  | _ => simp [CS.lev]

/-- The operators keep the order of the levels. -/
theorem lev_of_prec {s : CS} (h : ¬ s.IsWhr) :
    (s.isNeg = true ∧ s.prec = 14 ∧ s.lev = 14) ∨ (s.prec = 13 ∧ s.lev = 13) ∨
      (s.prec = 12 ∧ s.lev = 12) ∨ (s.prec = 7 ∧ s.lev = 10) ∨ (15 ≤ s.prec ∧ s.lev = 20) := by
  cases s with
  | whr c a b => exact absurd ⟨c, a, b, rfl⟩ h
  | bin o a b => cases o <;> simp [CS.lev, CS.prec, Op.prec]
  | _ => simp [CS.lev, CS.prec, CS.isNeg]

/-- What holds of the tree of an expression. -/
def Good (s : CS) : Prop := ∀ n, n ≤ 20 → (Deriv cLang n s.node.cst ↔ s.Whole ∧ n ≤ s.lev)

/-- An operand which is printed with parentheses `c` where level `n` is needed. -/
theorem operand {s : CS} (hg : Good s) (n : Nat) (hn : n ≤ 20) (hn3 : 3 < n) (c : Prop)
    [Decidable c] (h1 : s.IsWhr → ¬ c) (h2 : ¬ s.IsWhr → ¬ c → n ≤ s.lev) :
    Deriv cLang n (if c then CN.paren s.node else s.node).cst ↔
      s.Whole ∧ ∀ d x y, s ≠ .whr d x y := by
  rw [← not_isWhr]
  by_cases hc : c
  · rw [if_pos hc]
    show Deriv cLang 0 s.node.cst ↔ _
    rw [hg 0 (by omega)]
    constructor
    · rintro ⟨hw, _⟩
      exact ⟨hw, fun h => h1 h hc⟩
    · rintro ⟨hw, _⟩
      exact ⟨hw, by omega⟩
  · rw [if_neg hc, hg n hn]
    constructor
    · rintro ⟨hw, hl⟩
      refine ⟨hw, fun h => ?_⟩
      rw [lev_whr h] at hl
      omega
    · rintro ⟨hw, hu⟩
      exact ⟨hw, h2 hu hc⟩

theorem operand_arith {s : CS} (hg : Good s) (n P i : Nat) (hP : P = 12 ∨ P = 13)
    (hn : n = P + i) (hi : i ≤ 1) :
    Deriv cLang n ((s.node.wrap P i).wrapSign).cst ↔ s.Whole ∧ ∀ d x y, s ≠ .whr d x y := by
  rw [wrapped s P i (by omega)]
  apply operand hg n (by omega) (by omega)
  · intro h
    have := prec_whr h
    rw [this.1, this.2]
    simp only [Bool.false_eq_true, or_false]
    omega
  · intro h hc
    have h3 := lev_of_prec h
    simp only [not_or, Bool.not_eq_true] at hc
    rcases h3 with h3 | h3 | h3 | h3 | h3
    · rw [h3.1] at hc
      simp at hc
    all_goals omega

theorem operand_neg {s : CS} (hg : Good s) :
    Deriv cLang 14 ((s.node.wrap 14 0).wrapSign).cst ↔ s.Whole ∧ ∀ d x y, s ≠ .whr d x y := by
  rw [wrapped s 14 0 (by omega)]
  apply operand hg 14 (by omega) (by omega)
  · intro h
    have := prec_whr h
    rw [this.1, this.2]
    simp
  · intro h hc
    have h3 := lev_of_prec h
    simp only [not_or, Bool.not_eq_true] at hc
    rcases h3 with h3 | h3 | h3 | h3 | h3
    · rw [h3.1] at hc
      simp at hc
    all_goals omega

theorem operand_lt {s : CS} (hg : Good s) (i : Nat) (hi : i ≤ 1) :
    Deriv cLang (10 + i) ((s.node.wrap 7 i)).cst ↔ s.Whole ∧ ∀ d x y, s ≠ .whr d x y := by
  unfold CN.wrap
  rw [node_prec]
  apply operand hg (10 + i) (by omega) (by omega)
  · intro h
    have := prec_whr h
    omega
  · intro h hc
    have h3 := lev_of_prec h
    omega

theorem arg_pow {s : CS} (hg : Good s) (i n : Nat) (hn : n ≤ 1) :
    Deriv cLang n ((s.node.wrapPow i)).cst ↔ s.Whole := by
  have h3 := lev_pos s
  have key : ∀ m, m ≤ 1 → (Deriv cLang m s.node.cst ↔ s.Whole) := by
    intro m hm
    rw [hg m (by omega)]
    exact ⟨fun h => h.1, fun h => ⟨h, by omega⟩⟩
  unfold CN.wrapPow
  split
  · exact key 0 (by omega)
  · exact key n hn

theorem good : ∀ s : CS, Good s
  | .var n => fun m hm => by simp [CS.node, CN.cst, Deriv, CS.Whole, CS.lev, hm]
  | .neg a => fun m hm => by
    have ha := operand_neg (good a)
    simp only [CS.node, CN.cst, Deriv, CS.Whole, CS.lev]
    constructor
    · rintro ⟨p, hp, h1, h2⟩
      cases hp
      exact ⟨ha.1 h2, h1⟩
    · rintro ⟨h, h1⟩
      exact ⟨_, rfl, h1, ha.2 h⟩
  | .bin .pow a b => fun m hm => by
    have ha := arg_pow (good a) 0 0 (by omega)
    have hb := arg_pow (good b) 1 1 (by omega)
    simp only [CS.node, CN.mkBin, CN.cst, Deriv, CS.Whole, CS.lev]
    constructor
    · rintro ⟨p, hp, h1, h2, h3⟩
      cases hp
      exact ⟨⟨ha.1 h2, hb.1 h3⟩, hm⟩
    · rintro ⟨⟨h, h'⟩, h1⟩
      exact ⟨_, rfl, by simp, ha.2 h, hb.2 h'⟩
  | .bin .lt a b => fun m hm => by
    have ha := operand_lt (good a) 0 (by omega)
    have hb := operand_lt (good b) 1 (by omega)
    simp only [CS.node, CN.mkBin, CN.cst, Deriv, CS.Whole, CS.lev]
    constructor
    · rintro ⟨p, hp, h1, h2, h3⟩
      cases hp
      exact ⟨⟨ha.1 h2, hb.1 h3⟩, h1⟩
    · rintro ⟨⟨h, h'⟩, h1⟩
      exact ⟨_, rfl, h1, ha.2 h, hb.2 h'⟩
  | .bin .add a b => fun m hm => by
    have ha := operand_arith (good a) 12 12 0 (by omega) (by omega) (by omega)
    have hb := operand_arith (good b) 13 12 1 (by omega) (by omega) (by omega)
    simp only [CS.node, CN.mkBin, CN.cst, Deriv, CS.Whole, CS.lev]
    constructor
    · rintro ⟨p, hp, h1, h2, h3⟩
      cases hp
      exact ⟨⟨ha.1 h2, hb.1 h3⟩, h1⟩
    · rintro ⟨⟨h, h'⟩, h1⟩
      exact ⟨_, rfl, h1, ha.2 h, hb.2 h'⟩
  | .bin .sub a b => fun m hm => by
    have ha := operand_arith (good a) 12 12 0 (by omega) (by omega) (by omega)
    have hb := operand_arith (good b) 13 12 1 (by omega) (by omega) (by omega)
    simp only [CS.node, CN.mkBin, CN.cst, Deriv, CS.Whole, CS.lev]
    constructor
    · rintro ⟨p, hp, h1, h2, h3⟩
      cases hp
      exact ⟨⟨ha.1 h2, hb.1 h3⟩, h1⟩
    · rintro ⟨⟨h, h'⟩, h1⟩
      exact ⟨_, rfl, h1, ha.2 h, hb.2 h'⟩
  | .bin .mul a b => fun m hm => by
    have ha := operand_arith (good a) 13 13 0 (by omega) (by omega) (by omega)
    have hb := operand_arith (good b) 14 13 1 (by omega) (by omega) (by omega)
    simp only [CS.node, CN.mkBin, CN.cst, Deriv, CS.Whole, CS.lev]
    constructor
    · rintro ⟨p, hp, h1, h2, h3⟩
      cases hp
      exact ⟨⟨ha.1 h2, hb.1 h3⟩, h1⟩
    · rintro ⟨⟨h, h'⟩, h1⟩
      exact ⟨_, rfl, h1, ha.2 h, hb.2 h'⟩
  | .bin .div a b => fun m hm => by
    have ha := operand_arith (good a) 13 13 0 (by omega) (by omega) (by omega)
    have hb := operand_arith (good b) 14 13 1 (by omega) (by omega) (by omega)
    simp only [CS.node, CN.mkBin, CN.cst, Deriv, CS.Whole, CS.lev]
    constructor
    · rintro ⟨p, hp, h1, h2, h3⟩
      cases hp
      exact ⟨⟨ha.1 h2, hb.1 h3⟩, h1⟩
    · rintro ⟨⟨h, h'⟩, h1⟩
      exact ⟨_, rfl, h1, ha.2 h, hb.2 h'⟩
  | .truth a => fun m hm => by
    have ha := good a 9 (by omega)
    simp only [CS.node, CN.cst, Deriv, CS.Whole, CS.lev]
    rw [← not_isWhr]
    constructor
    · rintro ⟨p, hp, h1, h2, h3⟩
      cases hp
      have h4 := ha.1 h2
      refine ⟨⟨h4.1, fun h => ?_⟩, hm⟩
      rw [lev_whr h] at h4
      omega
    · rintro ⟨⟨h, h'⟩, h1⟩
      have := lev_of_unit h'
      exact ⟨_, rfl, by simp, ha.2 ⟨h, by omega⟩, trivial⟩
  | .call f a => fun m hm => by
    have ha := good a 0 (by omega)
    simp only [CS.node, CN.cst, Deriv, CS.Whole, CS.lev]
    rw [ha]
    simp [hm]
  | .whr c a b => fun m hm => by
    have hc := good c 4 (by omega)
    have ha := good a 0 (by omega)
    have hb := good b 3 (by omega)
    have hb3 := lev_pos b
    simp only [CS.node, CN.cst, Deriv, CS.Whole, CS.lev]
    rw [← not_isWhr]
    constructor
    · rintro ⟨_, h1, h2, h3, h4⟩
      have h5 := hc.1 h2
      refine ⟨⟨⟨h5.1, fun h => ?_⟩, (ha.1 h3).1, (hb.1 h4).1⟩, h1⟩
      rw [lev_whr h] at h5
      omega
    · rintro ⟨⟨⟨h1, h2⟩, h3, h4⟩, h5⟩
      have := lev_of_unit h2
      exact ⟨rfl, h5, hc.2 ⟨h1, by omega⟩, ha.2 ⟨h3, by omega⟩, hb.2 ⟨h4, hb3⟩⟩

/-! ### Values -/

theorem wrap_value {V : Type} (I : Ops V) (env : Nat → V) (P i : Nat) (e : CN) :
    cValue I env (e.wrap P i).cst = cValue I env e.cst := by
  unfold CN.wrap; split <;> simp [CN.cst, cValue]

theorem wrapSign_value {V : Type} (I : Ops V) (env : Nat → V) (e : CN) :
    cValue I env e.wrapSign.cst = cValue I env e.cst := by
  cases e <;> simp [CN.wrapSign, CN.cst, cValue]

theorem wrapPow_value {V : Type} (I : Ops V) (env : Nat → V) (i : Nat) (e : CN) :
    cValue I env (e.wrapPow i).cst = cValue I env e.cst := by
  unfold CN.wrapPow; split <;> simp [CN.cst, cValue]

theorem cst_value {V : Type} (I : Ops V) (env : Nat → V) :
    ∀ s : CS, cValue I env s.node.cst = some (s.value I env)
  | .var n => by simp [CS.node, CN.cst, cValue, CS.value]
  | .neg a => by
    simp [CS.node, CN.cst, cValue, wrap_value, wrapSign_value, cst_value I env a, CS.value]
  | .bin o a b => by
    cases o <;> simp [CS.node, CN.mkBin, CN.cst, cValue, wrap_value, wrapSign_value,
      wrapPow_value, cst_value I env a, cst_value I env b, CS.value, cSym]
  | .truth a => by simp [CS.node, CN.cst, cValue, cst_value I env a, CS.value]
  | .call f a => by simp [CS.node, CN.cst, cValue, cst_value I env a, CS.value]
  | .whr c a b => by
    simp [CS.node, CN.cst, cValue, cst_value I env a, cst_value I env b, cst_value I env c,
      CS.value]

/-- The operations which build trees. -/
def treeOps : Ops CTree where
  bin
    | .add => .bin .add
    | .sub => .bin .sub
    | .mul => .bin .mul
    | .div => .bin .div
    | .lt => .bin .lt
    | .pow => fun a b => .call .pow (.bin .comma a b)
  neg := .un .sub
  ne := .bin .ne
  zero := .atom .zero
  cond := .tern
  fn f := .call (.fn f)
  sum t := t
  abs t := t
  real t := t
  seq t := t

theorem treeOps_value : ∀ s : CS, s.value treeOps (fun n => .atom (.var n)) = s.tree
  | .var n => rfl
  | .neg a => by rw [CS.value, treeOps_value a]; rfl
  | .bin o a b => by rw [CS.value, treeOps_value a, treeOps_value b]; cases o <;> rfl
  | .truth a => by rw [CS.value, treeOps_value a]; rfl
  | .call f a => by rw [CS.value, treeOps_value a]; rfl
  | .whr c a b => by rw [CS.value, treeOps_value a, treeOps_value b, treeOps_value c]; rfl

theorem treeOps_strip : ∀ (t v : CTree),
    cValue treeOps (fun n => .atom (.var n)) t = some v → v = t.strip
  | .atom (.var n), v, h => by cases h; rfl
  | .atom .zero, v, h => by cases h; rfl
  | .paren t, v, h => treeOps_strip t v (by rw [cValue] at h; exact h)
  | .call (.fn f) t, v, h => by
    rw [cValue, Option.map_eq_some_iff] at h
    obtain ⟨x, hx, rfl⟩ := h
    rw [treeOps_strip t x hx]
    rfl
  | .call .pow (.bin s a b), v, h => by
    cases s <;> simp only [cValue] at h <;> try (simp at h; done)
    simp only [Option.bind_eq_bind, Option.pure_def, Option.bind_eq_some_iff,
      Option.some.injEq] at h
    obtain ⟨x, hx, y, hy, rfl⟩ := h
    rw [treeOps_strip a x hx, treeOps_strip b y hy]
    rfl
  | .call .pow (.atom _), v, h | .call .pow (.paren _), v, h | .call .pow (.call _ _), v, h
  | .call .pow (.un _ _), v, h | .call .pow (.tern _ _ _), v, h => by simp [cValue] at h
  | .un s t, v, h => by
    cases s <;> simp only [cValue, Option.map_eq_some_iff] at h <;> try (simp at h; done)
    obtain ⟨x, hx, rfl⟩ := h
    rw [treeOps_strip t x hx]
    rfl
  | .bin s a b, v, h => by
    simp only [cValue, Option.bind_eq_bind, Option.bind_eq_some_iff] at h
    obtain ⟨x, hx, y, hy, h⟩ := h
    rw [CST.strip, ← treeOps_strip a x hx, ← treeOps_strip b y hy]
    cases s <;> simp [cSym] at h <;> subst h <;> rfl
  | .tern a b c, v, h => by
    simp only [cValue, Option.bind_eq_bind, Option.bind_eq_some_iff, Option.pure_def,
      Option.some.injEq] at h
    obtain ⟨x, hx, y, hy, z, hz, rfl⟩ := h
    rw [CST.strip, ← treeOps_strip a x hx, ← treeOps_strip b y hy, ← treeOps_strip c z hz]
    rfl

theorem readsC_iff (s : CS) :
    (∃ t, Parses cLang (textC s) t ∧
      ∀ (V : Type) (I : Ops V) (env : Nat → V), cValue I env t = some (s.value I env)) ↔
    s.Whole := by
  have h1 := read_iff cLang s.node.cst
  rw [cst_flatten, good s 0 (by omega)] at h1
  constructor
  · rintro ⟨t, ht, hv⟩
    refine (h1.1 ⟨t, ht, ?_⟩).1
    have := treeOps_strip t _ (hv CTree treeOps (fun n => .atom (.var n)))
    rw [treeOps_value] at this
    rw [node_strip, this]
  · intro h
    refine ⟨s.node.cst, ⟨cst_flatten _, (good s 0 (by omega)).2 ⟨h, by omega⟩⟩, ?_⟩
    intro V I env
    exact cst_value I env s

end Verif.Operands
