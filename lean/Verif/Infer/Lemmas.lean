import Verif.Infer.Model

namespace Verif.Infer
open Verif.Types (addT)
open Verif.Types.Spec (Num)

/-! ### Numbers -/

theorem trunc_int {q : Rat} (h : q.isInt = true) : ((trunc q : Int) : Rat) = q := by
  have hd : q.den = 1 := by simpa [Rat.isInt] using h
  unfold trunc
  rw [hd]
  simp only [Int.natCast_one, Int.tdiv_one]
  exact Rat.ext rfl hd.symm

theorem trunc_num {q : Rat} (h : q.isInt = true) : trunc q = q.num := by
  have hd : q.den = 1 := by simpa [Rat.isInt] using h
  unfold trunc
  rw [hd]
  simp

theorem wrapW_id {w : Nat} (hw : 0 < w) {n : Int} (h1 : -2 ^ (w - 1) ≤ n) (h2 : n < 2 ^ (w - 1)) : wrapW w n = n := by
  unfold wrapW
  obtain ⟨k, rfl⟩ : ∃ k, w = k + 1 := ⟨w - 1, by omega⟩
  simp only [Nat.add_sub_cancel] at *
  rw [Int.pow_succ]
  have hp : (0 : Int) < 2 ^ k := Int.pow_pos (by decide)
  generalize (2 : Int) ^ k = p at *
  rw [Int.emod_eq_of_lt (by omega) (by omega)]
  omega

theorem width_pos {t : Num} (h : t.kind = .int) : 0 < t.width := by revert t; decide

theorem conv_fits {t : Num} {q : Rat} (h : Fits t q) : conv t q = q := by
  unfold conv
  unfold Fits at h
  split
  · next hk =>
    rw [hk] at h
    rcases h with rfl | rfl <;> rfl
  · next hk =>
    rw [hk] at h
    obtain ⟨hi, h1, h2⟩ := h
    rw [trunc_num hi, wrapW_id (width_pos hk) h1 h2, ← trunc_num hi, trunc_int hi]
  · rfl

/-- The conversion depends on the kind and the size only. -/
theorem conv_congr {t u : Num} (h : t.kind = u.kind ∧ t.width = u.width) (q : Rat) : conv t q = conv u q := by
  unfold conv
  rw [h.1, h.2]

theorem conv_convV {t : Num} {q : Rat} (h : Fits t (convV t q)) : conv t q = convV t q := by
  have h0 := conv_fits h
  unfold conv convV at *
  unfold Fits at h
  cases hk : t.kind with
  | bool => rfl
  | int =>
    simp only [hk] at h ⊢
    obtain ⟨hi, h1, h2⟩ := h
    have e : ((trunc q : Int) : Rat).num = trunc q := rfl
    rw [e] at h1 h2
    rw [wrapW_id (width_pos hk) h1 h2]
  | real => rfl
  | complex => rfl

theorem dynT_addT (a b : Num) : addT a b = some (dynT a b) := by revert a b; decide

/-! ### Relations between types -/

/-- A relation between the types of Python's values and those of the variables under which the generated program is right. -/
structure Cong (r : Num → Num → Prop) : Prop where
  trans : ∀ {a b c}, r a b → r b c → r a c
  size : ∀ {a b}, r a b → a.kind = b.kind ∧ a.width = b.width
  op : ∀ {a a' b b'}, r a a' → r b b' → r (dynT a b) (dynT a' b')

/-- Two lists are related element by element. -/
def Rel2 {α β : Type} (p : α → β → Prop) : List α → List β → Prop
  | [], [] => True
  | a :: l, b :: m => p a b ∧ Rel2 p l m
  | _, _ => False

/-- A value of Python belongs to the type of a variable. -/
def HasTy (r : Num → Num → Prop) : PVal → STy → Prop
  | .num d q, .num t => r d t ∧ Fits d q
  | .tup l, .htup t _ => ∀ p ∈ l, r p.1 t ∧ Fits p.1 p.2
  | .tup l, .tup ts => Rel2 (fun p t => r p.1 t ∧ Fits p.1 p.2) l ts
  | .list l, .list t => ∀ p ∈ l, r p.1 t ∧ Fits p.1 p.2
  | _, _ => False

/-- The variables of the generated program hold the values of Python, and these belong to their types. -/
def Sim (r : Num → Num → Prop) (Γ : Nat → Option STy) (env : Nat → Option PVal) (cenv : Nat → Option (List Rat)) : Prop :=
  ∀ x, match env x with
    | none => cenv x = none
    | some v => ∃ T, Γ x = some T ∧ HasTy r v T ∧ cenv x = some v.nums

/-- Later types agree with earlier ones. -/
def Ext (Γ Γ' : Nat → Option STy) : Prop := ∀ x T, Γ x = some T → Γ' x = some T

theorem Ext.trans {a b c : Nat → Option STy} (h : Ext a b) (h' : Ext b c) : Ext a c := fun x T hx => h' x T (h x T hx)

theorem ext_upd {Γ : Nat → Option STy} {x : Nat} {T : STy} (h : Γ x = none) : Ext Γ (upd Γ x T) := by
  intro y U hy
  unfold upd
  split
  · next e => subst e; simp [h] at hy
  · exact hy

theorem assign_ext {Γ Γ' : Nat → Option STy} {x : Nat} {r : Rhs} (h : assignT Γ x r = some Γ') : Ext Γ Γ' := by
  unfold assignT at h
  split at h
  · next hx _ => cases h; exact ext_upd hx
  · split at h
    · cases h; exact fun _ _ h => h
    · simp at h
  · simp at h

/-- The inference never changes the type of a variable. -/
theorem infer_ext {s : Stmt} {Γ Γ' : Nat → Option STy} (h : infer Γ s = some Γ') : Ext Γ Γ' := by
  induction s generalizing Γ Γ' with
  | skip => cases h; exact fun _ _ h => h
  | assign x r => exact assign_ext h
  | ret r => exact assign_ext h
  | setElem x i e =>
    simp only [infer] at h
    split at h
    · cases h; exact fun _ _ h => h
    · simp at h
  | aug x o e =>
    simp only [infer] at h
    split at h
    · split at h
      · split at h
        · cases h; exact fun _ _ h => h
        · simp at h
      · simp at h
    · simp at h
  | seq a b iha ihb =>
    simp only [infer, Option.bind_eq_some_iff] at h
    obtain ⟨Γ1, h1, h2⟩ := h
    exact (iha h1).trans (ihb h2)
  | ite c a b iha ihb =>
    simp only [infer] at h
    split at h
    · simp only [Option.bind_eq_some_iff] at h
      obtain ⟨Γ1, h1, h2⟩ := h
      exact (iha h1).trans (ihb h2)
    · simp at h
  | loop c a iha =>
    simp only [infer] at h
    split at h
    · exact iha h
    · simp at h

/-! ### Conditions -/

/-- The conditions on an expression: the literals and casts have types of the relation, and the two sides of `a if c else b` have the type of
the whole. -/
def StrictE (r : Num → Num → Prop) (Γ : Nat → Option STy) : Expr → Prop
  | .lit t _ => r t t
  | .var _ | .elem _ _ => True
  | .bin _ a b => StrictE r Γ a ∧ StrictE r Γ b
  | .cast t a => r t t ∧ StrictE r Γ a
  | .cond c a b => StrictE r Γ c ∧ StrictE r Γ a ∧ StrictE r Γ b ∧
    ∀ t u v, typ Γ a = some t → typ Γ b = some u → typ Γ (.cond c a b) = some v → r t v ∧ r u v

/-- The expression reads the variable. -/
def Expr.Reads (x : Nat) : Expr → Prop
  | .lit _ _ => False
  | .var y | .elem y _ => y = x
  | .bin _ a b => a.Reads x ∨ b.Reads x
  | .cast _ a => a.Reads x
  | .cond c a b => c.Reads x ∨ a.Reads x ∨ b.Reads x

/-- The right-hand side has the type of the variable `x`. -/
def StrictA (r : Num → Num → Prop) (Γ : Nat → Option STy) (x : Nat) : Rhs → STy → Prop
  | .one e, .num t => StrictE r Γ e ∧ ∀ u, typ Γ e = some u → r u t
  | .tup es, .htup t _ => (∀ e ∈ es, StrictE r Γ e) ∧ ∀ us, typs Γ es = some us → ∀ u ∈ us, r u t
  | .tup es, .tup ts => (∀ e ∈ es, StrictE r Γ e ∧ ¬ e.Reads x) ∧ ∀ us, typs Γ es = some us → Rel2 r us ts
  | .list es, .list t => (∀ e ∈ es, StrictE r Γ e) ∧ ∀ us, typs Γ es = some us → ∀ u ∈ us, r u t
  | .copy y, .htup t _ => ∃ u n, Γ y = some (.htup u n) ∧ r u t
  | .copy y, .tup ts => ∃ us, Γ y = some (.tup us) ∧ Rel2 r us ts
  | _, _ => False

/-- The conditions on a statement: every value has the type (up to `r`) of the variable or element that it is assigned to. -/
def Strict (r : Num → Num → Prop) : (Nat → Option STy) → Stmt → Prop
  | _, .skip => True
  | Γ, .assign x e => ∀ Γ' T, assignT Γ x e = some Γ' → Γ' x = some T → StrictA r Γ x e T
  | Γ, .ret e => ∀ Γ' T, assignT Γ 0 e = some Γ' → Γ' 0 = some T → StrictA r Γ 0 e T
  | Γ, .setElem x _ e => StrictE r Γ e ∧ ∀ t u, Γ x = some (.list t) → typ Γ e = some u → r u t
  | Γ, .aug x _ e => StrictE r Γ e ∧ ∀ t u v, Γ x = some (.num t) → typ Γ e = some u → addT t u = some v → r v t
  | Γ, .seq a b => Strict r Γ a ∧ ∀ Γ', infer Γ a = some Γ' → Strict r Γ' b
  | Γ, .ite c a b => StrictE r Γ c ∧ Strict r Γ a ∧ ∀ Γ', infer Γ a = some Γ' → Strict r Γ' b
  | Γ, .loop c a => StrictE r Γ c ∧ Strict r Γ a

end Verif.Infer
