import Verif.Simplify.Model
import Verif.Types.Props
import Mathlib.Tactic.Ring
import Mathlib.Tactic.Linarith
/-
Lemmas about the simplifying constructors.
-/
namespace Verif.Simplify
open Verif.Simplify.Spec
open Verif.Types (addT divT precision)
open Verif.Types.Spec (Num Kind)

/-- Literals carry a type of their own kind: `LiteralInteger` an integer type, `LiteralFloat` a
real type (literals.py:150-168, 186-211). -/
def Lit.Ok : Lit → Prop
  | .bool _ => True
  | .int _ t => t.kind = .int
  | .real _ t => t.kind = .real

/-- All the literals of an expression are of that form. -/
def Ex.Ok : Ex → Prop
  | .lit l => Lit.Ok l
  | .var _ _ => True
  | .neg a => Ex.Ok a
  | .add a b | .minus a b | .mul a b | .div a b => Ex.Ok a ∧ Ex.Ok b

/-- A rational which is an integer. -/
def IsInt (q : Rat) : Prop := ∃ n : Int, q = n

theorem sumTy_kind_ne_bool (a b : Num) : (sumTy a b).kind ≠ .bool ∨ (a = .pbool ∧ b = .pbool) := by
  revert a b; decide

theorem sumTy_kind (a b : Num) : (sumTy a b).kind ≠ .bool := by
  revert a b; decide

theorem sumTy_int (a b : Num) (h : (sumTy a b).kind = .int) :
    (a.kind = .int ∨ a.kind = .bool) ∧ (b.kind = .int ∨ b.kind = .bool) := by
  revert a b; decide

theorem divTy_kind (a b : Num) : ((divT a b).getD .pbool).kind = .real ∨
    ((divT a b).getD .pbool).kind = .complex := by
  revert a b; decide

theorem lit_isInt {l : Lit} (h : Lit.Ok l) (hk : (Lit.ty l).kind = .int ∨ (Lit.ty l).kind = .bool) :
    IsInt l.value := by
  cases l with
  | bool b => exact ⟨if b then 1 else 0, by cases b <;> simp [Lit.value]⟩
  | int n t => exact ⟨n, by simp [Lit.value]⟩
  | real q t =>
    simp only [Lit.Ok] at h
    simp [Lit.ty, h] at hk

theorem IsInt.add {p q : Rat} (hp : IsInt p) (hq : IsInt q) : IsInt (p + q) := by
  obtain ⟨a, rfl⟩ := hp; obtain ⟨b, rfl⟩ := hq; exact ⟨a + b, by push_cast; ring⟩
theorem IsInt.sub {p q : Rat} (hp : IsInt p) (hq : IsInt q) : IsInt (p - q) := by
  obtain ⟨a, rfl⟩ := hp; obtain ⟨b, rfl⟩ := hq; exact ⟨a - b, by push_cast; ring⟩
theorem IsInt.mul {p q : Rat} (hp : IsInt p) (hq : IsInt q) : IsInt (p * q) := by
  obtain ⟨a, rfl⟩ := hp; obtain ⟨b, rfl⟩ := hq; exact ⟨a * b, by push_cast; ring⟩

/-- `convert_to_literal` denotes the value it is given. -/
theorem eval_toLit (ρ : Nat → Rat) (v : Rat) (t : Num) (hk : t.kind ≠ .bool)
    (hi : t.kind = .int → IsInt v) : eval ρ (toLit v t) = some v := by
  unfold toLit
  cases h : t.kind with
  | bool => exact absurd h hk
  | int =>
    obtain ⟨n, rfl⟩ := hi h
    simp only
    split
    · rename_i h0
      have : 0 ≤ n := by exact_mod_cast h0
      simp only [eval, Lit.value, Rat.num_intCast]
      have e : ((n.toNat : Int)) = n := Int.toNat_of_nonneg this
      have : ((n.toNat : Nat) : Rat) = ((n.toNat : Int) : Rat) := by norm_cast
      rw [this, e]
    · rename_i h0
      have h1 : n < 0 := by
        have : ((n : Rat)) < 0 := not_le.1 h0
        exact_mod_cast this
      have e0 : (-(n : Rat)) = ((-n : Int) : Rat) := by push_cast; rfl
      have e : (((-n).toNat : Int)) = -n := Int.toNat_of_nonneg (by omega)
      have e2 : (((-n).toNat : Nat) : Rat) = (((-n).toNat : Int) : Rat) := by norm_cast
      simp only [e0, eval, Lit.value, Rat.num_intCast, Option.pure_def, Option.bind_eq_bind,
        Option.bind_some]
      rw [e2, e]; push_cast; ring_nf
  | real => rfl
  | complex => rfl

theorem eval_eqInt {ρ : Nat → Rat} : ∀ {a : Ex} {n : Int}, eqInt a n = true → eval ρ a = some (n : Rat)
  | .lit l, n, h => by simp [eqInt] at h; simp [eval, h]
  | .neg a, n, h => by
    have := eval_eqInt (ρ := ρ) (a := a) (n := -n) h
    simp [eval, this]
  | .var .., _, h => by cases h
  | .add .., _, h => by cases h
  | .minus .., _, h => by cases h
  | .mul .., _, h => by cases h
  | .div .., _, h => by cases h

theorem eval_eqNode {same : Ex → Ex → Bool} (hs : ∀ a b, same a b = true → a = b) {ρ : Nat → Rat}
    {a b : Ex} (h : eqNode same a b = true) : eval ρ a = eval ρ b := by
  cases a with
  | lit l =>
    cases b with
    | lit m => cases l <;> cases m <;> simp_all [eqNode, eval, Lit.value]
    | _ => cases l <;> simp [eqNode] at h
  | var x t =>
    cases b with
    | var y u => simp [eqNode] at h; simp [eval, h]
    | _ => simp [eqNode] at h
  | _ => exact congrArg (eval ρ) (hs _ _ (by simpa [eqNode] using h))

theorem eval_asLit {a : Ex} {l : Lit} (h : asLit a = some l) :
    a = .lit l := by
  cases a <;> simp [asLit] at h
  rw [h]

theorem eval_litSum (ρ : Nat → Rat) {x y : Lit} (hx : Lit.Ok x) (hy : Lit.Ok y) :
    eval ρ (toLit (x.value + y.value) (sumTy (Lit.ty x) (Lit.ty y))) = some (x.value + y.value) := by
  refine eval_toLit ρ _ _ (sumTy_kind _ _) (fun h => ?_)
  obtain ⟨h1, h2⟩ := sumTy_int _ _ h
  exact (lit_isInt hx h1).add (lit_isInt hy h2)

theorem eval_litDiff (ρ : Nat → Rat) {x y : Lit} (hx : Lit.Ok x) (hy : Lit.Ok y) :
    eval ρ (toLit (x.value - y.value) (sumTy (Lit.ty x) (Lit.ty y))) = some (x.value - y.value) := by
  refine eval_toLit ρ _ _ (sumTy_kind _ _) (fun h => ?_)
  obtain ⟨h1, h2⟩ := sumTy_int _ _ h
  exact (lit_isInt hx h1).sub (lit_isInt hy h2)

theorem eval_litProd (ρ : Nat → Rat) {x y : Lit} (hx : Lit.Ok x) (hy : Lit.Ok y) :
    eval ρ (toLit (x.value * y.value) (sumTy (Lit.ty x) (Lit.ty y))) = some (x.value * y.value) := by
  refine eval_toLit ρ _ _ (sumTy_kind _ _) (fun h => ?_)
  obtain ⟨h1, h2⟩ := sumTy_int _ _ h
  exact (lit_isInt hx h1).mul (lit_isInt hy h2)

theorem eval_add {ρ : Nat → Rat} {a b : Ex} {v : Rat} :
    eval ρ (.add a b) = some v ↔ ∃ x y, eval ρ a = some x ∧ eval ρ b = some y ∧ v = x + y := by
  simp only [eval]
  cases eval ρ a <;> cases eval ρ b <;> simp [eq_comm]

theorem eval_minus {ρ : Nat → Rat} {a b : Ex} {v : Rat} :
    eval ρ (.minus a b) = some v ↔ ∃ x y, eval ρ a = some x ∧ eval ρ b = some y ∧ v = x - y := by
  simp only [eval]
  cases eval ρ a <;> cases eval ρ b <;> simp [eq_comm]

theorem eval_mul {ρ : Nat → Rat} {a b : Ex} {v : Rat} :
    eval ρ (.mul a b) = some v ↔ ∃ x y, eval ρ a = some x ∧ eval ρ b = some y ∧ v = x * y := by
  simp only [eval]
  cases eval ρ a <;> cases eval ρ b <;> simp [eq_comm]

theorem eval_neg {ρ : Nat → Rat} {a : Ex} {v : Rat} :
    eval ρ (.neg a) = some v ↔ ∃ x, eval ρ a = some x ∧ v = -x := by
  simp only [eval]
  cases eval ρ a <;> simp [eq_comm]

theorem addTail_value {same : Ex → Ex → Bool} (hs : ∀ a b, same a b = true → a = b) (ρ : Nat → Rat)
    (a b : Ex) (ha : Ex.Ok a) (hb : Ex.Ok b) (v : Rat) (h : eval ρ (.add a b) = some v) :
    eval ρ (addTail same a b) = some v := by
  obtain ⟨x, y, hx, hy, rfl⟩ := eval_add.1 h
  unfold addTail
  simp only
  split
  · rename_i l m hl hm
    have e1 := eval_asLit hl
    have e2 := eval_asLit hm
    subst e1; subst e2
    simp only [eval, Option.some.injEq] at hx hy
    rw [← hx, ← hy]
    exact eval_litSum ρ ha hb
  split
  · rename_i h0
    simp only [Bool.and_eq_true] at h0
    have := eval_eqInt (ρ := ρ) h0.2
    rw [hx] at this
    have hx0 : x = 0 := by simpa using this
    rw [hy, hx0, zero_add]
  split
  · rename_i h0
    simp only [Bool.and_eq_true] at h0
    have := eval_eqInt (ρ := ρ) h0.2
    rw [hy] at this
    have hy0 : y = 0 := by simpa using this
    rw [hx, hy0, add_zero]
  split
  · rename_i p q _ _ _ _
    split
    · rename_i h0
      simp only [Bool.and_eq_true] at h0
      have e := eval_eqNode hs (ρ := ρ) h0.1
      obtain ⟨x1, x2, h1, h2, rfl⟩ := eval_minus.1 hx
      rw [h2, hy] at e
      cases e
      rw [h1]; congr 1; ring
    · exact h
  · rename_i p l _ _ _ _
    split
    · rename_i m hm
      have e2 := eval_asLit hm
      subst e2
      obtain ⟨x1, x2, h1, h2, rfl⟩ := eval_add.1 hx
      simp only [eval, Option.some.injEq] at h2 hy
      refine eval_add.2 ⟨x1, _, h1, eval_litSum ρ ha.2 hb, ?_⟩
      rw [h2, hy]; ring
    · exact h
  · exact h

theorem minusTail_value {same : Ex → Ex → Bool} (hs : ∀ a b, same a b = true → a = b) (ρ : Nat → Rat)
    (a b : Ex) (ha : Ex.Ok a) (hb : Ex.Ok b) (v : Rat) (h : eval ρ (.minus a b) = some v) :
    eval ρ (minusTail same a b) = some v := by
  obtain ⟨x, y, hx, hy, rfl⟩ := eval_minus.1 h
  unfold minusTail
  simp only
  split
  · rename_i l m hl hm
    have e1 := eval_asLit hl
    have e2 := eval_asLit hm
    subst e1; subst e2
    simp only [eval, Option.some.injEq] at hx hy
    rw [← hx, ← hy]
    exact eval_litDiff ρ ha hb
  split
  · rename_i h0
    simp only [Bool.and_eq_true] at h0
    have := eval_eqInt (ρ := ρ) h0.2
    rw [hx] at this
    have hx0 : x = 0 := by simpa using this
    exact eval_neg.2 ⟨y, hy, by rw [hx0]; ring⟩
  split
  · rename_i h0
    simp only [Bool.and_eq_true] at h0
    have := eval_eqInt (ρ := ρ) h0.2
    rw [hy] at this
    have hy0 : y = 0 := by simpa using this
    rw [hx, hy0, sub_zero]
  split
  · rename_i p q _ _ _ _
    split
    · rename_i h0
      simp only [Bool.and_eq_true] at h0
      have e := eval_eqNode hs (ρ := ρ) h0.1
      obtain ⟨x1, x2, h1, h2, rfl⟩ := eval_add.1 hx
      rw [h2, hy] at e
      cases e
      rw [h1]; congr 1; ring
    · split
      · rename_i l m hl hm
        have e1 := eval_asLit hl
        have e2 := eval_asLit hm
        subst e1; subst e2
        obtain ⟨x1, x2, h1, h2, rfl⟩ := eval_add.1 hx
        simp only [eval, Option.some.injEq] at h2 hy
        refine eval_add.2 ⟨x1, _, h1, eval_litDiff ρ ha.2 hb, ?_⟩
        rw [h2, hy]; ring
      · exact h
  · rename_i p q _ _ _ _
    split
    · rename_i l m hl hm
      have e1 := eval_asLit hl
      have e2 := eval_asLit hm
      subst e1; subst e2
      obtain ⟨x1, x2, h1, h2, rfl⟩ := eval_minus.1 hx
      simp only [eval, Option.some.injEq] at h2 hy
      refine eval_minus.2 ⟨x1, _, h1, eval_litSum ρ ha.2 hb, ?_⟩
      rw [h2, hy]; ring
    · exact h
  · exact h

theorem addMinus_value {same : Ex → Ex → Bool} (hs : ∀ a b, same a b = true → a = b)
    (ρ : Nat → Rat) (a : Ex) (ha : Ex.Ok a) (v : Rat) : ∀ (b : Ex) (plus : Bool), Ex.Ok b →
    eval ρ (if plus then .add a b else .minus a b) = some v →
    eval ρ (addMinus same plus a b) = some v := by
  intro b
  induction b with
  | neg b ih =>
    intro plus hb h
    unfold addMinus
    refine ih (!plus) hb ?_
    cases plus with
    | true =>
      obtain ⟨x, y, hx, hy, rfl⟩ := eval_add.1 h
      obtain ⟨z, hz, rfl⟩ := eval_neg.1 hy
      exact eval_minus.2 ⟨x, z, hx, hz, by ring⟩
    | false =>
      obtain ⟨x, y, hx, hy, rfl⟩ := eval_minus.1 h
      obtain ⟨z, hz, rfl⟩ := eval_neg.1 hy
      exact eval_add.2 ⟨x, z, hx, hz, by ring⟩
  | _ =>
    intro plus hb h
    unfold addMinus
    cases plus with
    | true => exact addTail_value hs ρ a _ ha hb v h
    | false => exact minusTail_value hs ρ a _ ha hb v h

/-! ### Types -/

theorem ty_toLit (v : Rat) (t : Num) (h : t.kind ≠ .bool) : ty (toLit v t) = t := by
  unfold toLit
  cases hk : t.kind with
  | bool => exact absurd hk h
  | int => simp only; split <;> rfl
  | real => rfl
  | complex => rfl

theorem tyEq_refl (t : Num) : tyEq t t = true := by simp [tyEq]
theorem tyEq_symm {s t : Num} (h : tyEq s t = true) : tyEq t s = true := by
  simp [tyEq] at h ⊢; exact ⟨h.1.symm, h.2.symm⟩

/-- Every variable and literal has a type of Python. -/
def AllPython : Ex → Prop
  | .lit l => (Lit.ty l).python = true
  | .var _ t => t.python = true
  | .neg a => AllPython a
  | .add a b | .minus a b | .mul a b | .div a b => AllPython a ∧ AllPython b

theorem sumTy_python : ∀ a b : Num, a.python = true → b.python = true →
    (sumTy a b).python = true := by decide
theorem divTy_python : ∀ a b : Num, a.python = true → b.python = true →
    ((divT a b).getD .pbool).python = true := by decide

theorem ty_python : ∀ a : Ex, AllPython a → (ty a).python = true
  | .lit _, h => h
  | .var _ _, h => h
  | .neg a, h => ty_python a h
  | .add a b, h => sumTy_python _ _ (ty_python a h.1) (ty_python b h.2)
  | .minus a b, h => sumTy_python _ _ (ty_python a h.1) (ty_python b h.2)
  | .mul a b, h => sumTy_python _ _ (ty_python a h.1) (ty_python b h.2)
  | .div a b, h => divTy_python _ _ (ty_python a h.1) (ty_python b h.2)

theorem sumTy_assoc_python : ∀ a b c : Num, a.python = true → b.python = true → c.python = true →
    sumTy (sumTy a b) c = sumTy a (sumTy b c) := by decide +kernel

/-- Where literals are regrouped, all types are Python's. -/
def RegroupPython (a b : Ex) : Prop :=
  ∀ p l, a = .add p (.lit l) ∨ a = .minus p (.lit l) → AllPython a ∧ AllPython b

theorem addTail_ty (same : Ex → Ex → Bool) (a b : Ex) (h : RegroupPython a b) :
    tyEq (ty (addTail same a b)) (sumTy (ty a) (ty b)) = true := by
  unfold addTail
  simp only
  split
  · rw [ty_toLit _ _ (sumTy_kind _ _)]; exact tyEq_refl _
  split
  · rename_i h0
    simp only [Bool.and_eq_true] at h0
    exact tyEq_symm h0.1
  split
  · rename_i h0
    simp only [Bool.and_eq_true] at h0
    exact tyEq_symm h0.1
  split
  · split
    · rename_i h0
      simp only [Bool.and_eq_true] at h0
      exact h0.2
    · exact tyEq_refl _
  · rename_i p l _ _ _
    split
    · rename_i m hm
      have e2 := eval_asLit hm
      subst e2
      obtain ⟨h1, h2⟩ := h p l (.inl rfl)
      have e := sumTy_assoc_python (ty p) (Lit.ty l) (Lit.ty m) (ty_python p h1.1) h1.2 h2
      simp only [ty, ty_toLit _ _ (sumTy_kind _ _), e]
      exact tyEq_refl _
    · exact tyEq_refl _
  · exact tyEq_refl _

theorem minusTail_ty (same : Ex → Ex → Bool) (a b : Ex) (h : RegroupPython a b) :
    tyEq (ty (minusTail same a b)) (sumTy (ty a) (ty b)) = true := by
  unfold minusTail
  simp only
  split
  · rw [ty_toLit _ _ (sumTy_kind _ _)]; exact tyEq_refl _
  split
  · rename_i h0
    simp only [Bool.and_eq_true] at h0
    exact tyEq_symm h0.1
  split
  · rename_i h0
    simp only [Bool.and_eq_true] at h0
    exact tyEq_symm h0.1
  split
  · split
    · rename_i h0
      simp only [Bool.and_eq_true] at h0
      exact h0.2
    · split
      · rename_i p q _ _ _ _ _ _ l m hl hm
        have e1 := eval_asLit hl
        have e2 := eval_asLit hm
        subst e1; subst e2
        obtain ⟨h1, h2⟩ := h p l (.inl rfl)
        have e := sumTy_assoc_python (ty p) (Lit.ty l) (Lit.ty m) (ty_python p h1.1) h1.2 h2
        simp only [ty, ty_toLit _ _ (sumTy_kind _ _), e]
        exact tyEq_refl _
      · exact tyEq_refl _
  · split
    · rename_i p q _ _ _ _ _ l m hl hm
      have e1 := eval_asLit hl
      have e2 := eval_asLit hm
      subst e1; subst e2
      obtain ⟨h1, h2⟩ := h p l (.inr rfl)
      have e := sumTy_assoc_python (ty p) (Lit.ty l) (Lit.ty m) (ty_python p h1.1) h1.2 h2
      simp only [ty, ty_toLit _ _ (sumTy_kind _ _), e]
      exact tyEq_refl _
    · exact tyEq_refl _
  · exact tyEq_refl _

theorem addMinus_ty (same : Ex → Ex → Bool) (a : Ex) : ∀ (b : Ex) (plus : Bool),
    RegroupPython a b → tyEq (ty (addMinus same plus a b)) (sumTy (ty a) (ty b)) = true := by
  intro b
  induction b with
  | neg b ih =>
    intro plus h
    unfold addMinus
    exact ih (!plus) h
  | _ =>
    intro plus h
    unfold addMinus
    cases plus with
    | true => exact addTail_ty same a _ h
    | false => exact minusTail_ty same a _ h

/-! ### Boolean operators -/

theorem bevalAnd_append (ρ : Nat → Rat) (α : Nat → Option Bool) : ∀ l m : List BEx,
    beval.bevalAnd ρ α (l ++ m) =
      (beval.bevalAnd ρ α l).bind fun b => if b then beval.bevalAnd ρ α m else some false
  | [], m => by simp [beval.bevalAnd]
  | a :: l, m => by
    simp only [List.cons_append, beval.bevalAnd, bevalAnd_append ρ α l m]
    cases beval ρ α a with
    | none => rfl
    | some b => cases b <;> simp

theorem bevalOr_append (ρ : Nat → Rat) (α : Nat → Option Bool) : ∀ l m : List BEx,
    beval.bevalOr ρ α (l ++ m) =
      (beval.bevalOr ρ α l).bind fun b => if b then some true else beval.bevalOr ρ α m
  | [], m => by simp [beval.bevalOr]
  | a :: l, m => by
    simp only [List.cons_append, beval.bevalOr, bevalOr_append ρ α l m]
    cases beval ρ α a with
    | none => rfl
    | some b => cases b <;> simp

theorem bevalAnd_args (ρ : Nat → Rat) (α : Nat → Option Bool) (a : BEx) :
    beval.bevalAnd ρ α (andArgs a) = beval ρ α a := by
  cases a with
  | and l => simp [andArgs, beval]
  | _ =>
    simp only [andArgs, beval.bevalAnd]
    generalize beval ρ α _ = o
    cases o with
    | none => rfl
    | some b => cases b <;> rfl

theorem bevalOr_args (ρ : Nat → Rat) (α : Nat → Option Bool) (a : BEx) :
    beval.bevalOr ρ α (orArgs a) = beval ρ α a := by
  cases a with
  | or l => simp [orArgs, beval]
  | _ =>
    simp only [orArgs, beval.bevalOr]
    generalize beval ρ α _ = o
    cases o with
    | none => rfl
    | some b => cases b <;> rfl

/-- Flattening changes nothing. -/
theorem beval_mkAnd (ρ : Nat → Rat) (α : Nat → Option Bool) (l : List BEx) :
    beval ρ α (mkAnd l) = beval ρ α (.and l) := by
  simp only [mkAnd, beval]
  induction l with
  | nil => rfl
  | cons a l ih =>
    rw [List.flatMap_cons, bevalAnd_append, bevalAnd_args, ih, beval.bevalAnd]
    cases beval ρ α a with
    | none => rfl
    | some b => cases b <;> rfl

theorem beval_mkOr (ρ : Nat → Rat) (α : Nat → Option Bool) (l : List BEx) :
    beval ρ α (mkOr l) = beval ρ α (.or l) := by
  simp only [mkOr, beval]
  induction l with
  | nil => rfl
  | cons a l ih =>
    rw [List.flatMap_cons, bevalOr_append, bevalOr_args, ih, beval.bevalOr]
    cases beval ρ α a with
    | none => rfl
    | some b => cases b <;> rfl

theorem isLitB_eq {v : Bool} {a : BEx} (h : isLitB v a = true) : a = .lit v := by
  cases a <;> simp [isLitB] at h
  rw [h]

/-- Dropping the literal `True` operands of a conjunction. -/
theorem bevalAnd_filter (ρ : Nat → Rat) (α : Nat → Option Bool) (l : List BEx) :
    beval.bevalAnd ρ α (l.filter fun a => !isLitB true a) = beval.bevalAnd ρ α l := by
  induction l with
  | nil => rfl
  | cons a l ih =>
    by_cases h : isLitB true a = true
    · have e := isLitB_eq h
      subst e
      rw [List.filter_cons_of_neg (by simp [h])]
      simp [beval.bevalAnd, beval, ih]
    · rw [List.filter_cons_of_pos (by simp [h])]
      simp only [beval.bevalAnd, ih]

theorem bevalOr_filter (ρ : Nat → Rat) (α : Nat → Option Bool) (l : List BEx) :
    beval.bevalOr ρ α (l.filter fun a => !isLitB false a) = beval.bevalOr ρ α l := by
  induction l with
  | nil => rfl
  | cons a l ih =>
    by_cases h : isLitB false a = true
    · have e := isLitB_eq h
      subst e
      rw [List.filter_cons_of_neg (by simp [h])]
      simp [beval.bevalOr, beval, ih]
    · rw [List.filter_cons_of_pos (by simp [h])]
      simp only [beval.bevalOr, ih]

theorem bevalAnd_true {ρ : Nat → Rat} {α : Nat → Option Bool} : ∀ {l : List BEx},
    beval.bevalAnd ρ α l = some true → ∀ a ∈ l, beval ρ α a = some true
  | [], _, a, ha => by cases ha
  | b :: l, h, a, ha => by
    simp only [beval.bevalAnd] at h
    cases hb : beval ρ α b with
    | none => rw [hb] at h; cases h
    | some v =>
      rw [hb] at h
      cases v with
      | false => simp at h
      | true =>
        rcases List.mem_cons.1 ha with rfl | ha
        · exact hb
        · exact bevalAnd_true (by simpa using h) a ha

theorem bevalOr_false {ρ : Nat → Rat} {α : Nat → Option Bool} : ∀ {l : List BEx},
    beval.bevalOr ρ α l = some false → ∀ a ∈ l, beval ρ α a = some false
  | [], _, a, ha => by cases ha
  | b :: l, h, a, ha => by
    simp only [beval.bevalOr] at h
    cases hb : beval ρ α b with
    | none => rw [hb] at h; cases h
    | some v =>
      rw [hb] at h
      cases v with
      | true => simp at h
      | false =>
        rcases List.mem_cons.1 ha with rfl | ha
        · exact hb
        · exact bevalOr_false (by simpa using h) a ha

end Verif.Simplify
