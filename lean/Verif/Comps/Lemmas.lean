import Verif.Comps.Model
namespace Verif.Comps.Lemmas
open Verif.Comps.Spec Verif.Comps.Model

theorem bind_some {α β : Type} {o : Option α} {f : α → Option β} {v : β} (h : (o >>= f) = some v) :
    ∃ a, o = some a ∧ f a = some v := by
  cases o with
  | none => cases h
  | some a => exact ⟨a, rfl, h⟩

@[simp] theorem upd_same {α : Type} (f : Nat → α) (x : Nat) (v : α) : upd f x v x = v := by simp [upd]
theorem upd_ne {α : Type} (f : Nat → α) (x : Nat) (v : α) {y : Nat} (h : y ≠ x) : upd f x v y = f y := by simp [upd, h]

/-- More variables with values and other contents of an unused sequence do not change a value. -/
theorem eval_mono {env env' : Nat → Option Int} {q q' : Nat → List Int} {l : Nat}
    (he : ∀ x v, env x = some v → env' x = some v) (hq : ∀ t, t ≠ l → q' t = q t)
    {e : Expr} (hf : e.Free l) {v : Int} (h : eval env q e = some v) : eval env' q' e = some v := by
  induction e generalizing v with
  | num n => exact h
  | var x => exact he x v h
  | len t => simp only [eval] at h ⊢; rw [hq t hf]; exact h
  | elt t e ih =>
    obtain ⟨i, h1, h2⟩ := bind_some h
    simp only [eval, ih hf.2 h1, hq t hf.1]
    exact h2
  | add a b iha ihb =>
    obtain ⟨i, h1, h2⟩ := bind_some h; obtain ⟨j, h3, h4⟩ := bind_some h2
    simp only [eval, iha hf.1 h1, ihb hf.2 h3]; exact h4
  | sub a b iha ihb =>
    obtain ⟨i, h1, h2⟩ := bind_some h; obtain ⟨j, h3, h4⟩ := bind_some h2
    simp only [eval, iha hf.1 h1, ihb hf.2 h3]; exact h4
  | mul a b iha ihb =>
    obtain ⟨i, h1, h2⟩ := bind_some h; obtain ⟨j, h3, h4⟩ := bind_some h2
    simp only [eval, iha hf.1 h1, ihb hf.2 h3]; exact h4

theorem holds_mono {env env' : Nat → Option Int} {q q' : Nat → List Int} {l : Nat}
    (he : ∀ x v, env x = some v → env' x = some v) (hq : ∀ t, t ≠ l → q' t = q t)
    {cs : List Expr} (hf : ∀ d ∈ cs, d.Free l) {b : Bool} (h : holds env q cs = some b) :
    holds env' q' cs = some b := by
  induction cs with
  | nil => exact h
  | cons c cs ih =>
    obtain ⟨v, h1, h2⟩ := bind_some h
    simp only [holds, eval_mono he hq (hf c (by simp)) h1]
    show (if v = 0 then some false else holds env' q' cs) = some b
    split
    · next hv => rw [if_pos hv] at h2; exact h2
    · next hv => rw [if_neg hv] at h2; exact ih (fun d hd => hf d (by simp [hd])) h2

/-- All values of a list are written. -/
def emits (k : Kind) (lhs : Nat) : List Int → Mem → Option Mem
  | [], m => some m
  | v :: vs, m => (emit k lhs v m).bind (emits k lhs vs)

theorem emits_append (k : Kind) (lhs : Nat) (a b : List Int) (m : Mem) :
    emits k lhs (a ++ b) m = (emits k lhs a m).bind (emits k lhs b) := by
  induction a generalizing m with
  | nil => rfl
  | cons v a ih =>
    simp only [List.cons_append, emits]
    cases emit k lhs v m with
    | none => rfl
    | some m => exact ih m

theorem emit_seqs {k : Kind} {lhs : Nat} {v : Int} {m m' : Mem} (h : emit k lhs v m = some m') :
    ∀ t, t ≠ lhs → m'.seqs t = m.seqs t := by
  intro t ht
  cases k with
  | list => simp only [emit, Option.some.injEq] at h; subst h; exact upd_ne _ _ _ ht
  | array =>
    simp only [emit] at h
    split at h
    · simp only [Option.some.injEq] at h; subst h; exact upd_ne _ _ _ ht
    · cases h

theorem emits_seqs {k : Kind} {lhs : Nat} {vs : List Int} {m m' : Mem} (h : emits k lhs vs m = some m') :
    ∀ t, t ≠ lhs → m'.seqs t = m.seqs t := by
  induction vs generalizing m with
  | nil => simp only [emits, Option.some.injEq] at h; subst h; exact fun _ _ => rfl
  | cons v vs ih =>
    simp only [emits] at h
    cases h1 : emit k lhs v m with
    | none => rw [h1] at h; cases h
    | some m1 =>
      rw [h1] at h
      intro t ht
      rw [ih h t ht, emit_seqs h1 t ht]

/-- Outcome of statements that write the values `vs`: the memory changes accordingly, and no
variable outside `xs`. -/
def Done (k : Kind) (lhs : Nat) (xs : List Nat) (vs : List Int) (s : St) (r : Option St) : Prop :=
  match emits k lhs vs s.mem with
  | none => r = none
  | some m => ∃ f, r = some ⟨f, m⟩ ∧ ∀ y, y ∉ xs → f y = s.vars y

theorem Done.nil {k : Kind} {lhs : Nat} {xs : List Nat} {s : St} : Done k lhs xs [] s (some s) :=
  ⟨s.vars, rfl, fun _ _ => rfl⟩

/-- What is known about a variable of the generated function in the scope `env`. -/
def Agree (env : Nat → Option Int) (vars : Nat → Int) : Prop := ∀ x v, env x = some v → vars x = v

theorem Agree.env {env : Nat → Option Int} {vars : Nat → Int} (h : Agree env vars) :
    ∀ x v, env x = some v → (fun x => some (vars x)) x = some v := by
  intro x v hx; simp [h x v hx]

theorem Agree.upd {env : Nat → Option Int} {vars : Nat → Int} (h : Agree env vars) (x : Nat) (v : Int) :
    Agree (Spec.upd env x (some v)) (Spec.upd vars x v) := by
  intro y w hy
  by_cases hyx : y = x
  · subst hyx; simpa using hy
  · rw [upd_ne _ _ _ hyx] at hy ⊢; exact h y w hy

theorem Agree.keep {env : Nat → Option Int} {vars f : Nat → Int} {xs : List Nat} (h : Agree env vars)
    (hx : ∀ y ∈ xs, env y = none) (hf : ∀ y, y ∉ xs → f y = vars y) : Agree env f := by
  intro y v hy
  by_cases hm : y ∈ xs
  · rw [hx y hm] at hy; cases hy
  · rw [hf y hm]; exact h y v hy

/-! Ranges -/

theorem rangeLen_zero {a b s : Int} (hs : s ≠ 0) : rangeLen a b s = 0 ↔
    (if 0 < s then decide (a < b) else decide (a > b)) = false := by
  unfold rangeLen
  split
  · next h =>
    simp only [decide_eq_false_iff_not, Int.not_lt]
    constructor
    · intro h1
      have h2 : (b - a + s - 1) / s ≤ 0 := Int.toNat_eq_zero.1 h1
      have h3 : b - a + s - 1 < (0 + 1) * s := by
        have := Int.lt_ediv_add_one_mul_self (b - a + s - 1) h
        have h4 : ((b - a + s - 1) / s + 1) * s ≤ (0 + 1) * s :=
          Int.mul_le_mul_of_nonneg_right (by omega) (by omega)
        omega
      omega
    · intro h1
      apply Int.toNat_eq_zero.2
      have : (b - a + s - 1) / s < 1 := Int.ediv_lt_of_lt_mul h (by omega)
      omega
  · next h =>
    have h' : 0 < -s := by omega
    simp only [decide_eq_false_iff_not, Int.not_lt, gt_iff_lt]
    constructor
    · intro h1
      have h2 : (a - b + -s - 1) / -s ≤ 0 := Int.toNat_eq_zero.1 h1
      have h3 : a - b + -s - 1 < (0 + 1) * -s := by
        have := Int.lt_ediv_add_one_mul_self (a - b + -s - 1) h'
        have h4 : ((a - b + -s - 1) / -s + 1) * -s ≤ (0 + 1) * -s :=
          Int.mul_le_mul_of_nonneg_right (by omega) (by omega)
        omega
      omega
    · intro h1
      apply Int.toNat_eq_zero.2
      have : (a - b + -s - 1) / -s < 1 := Int.ediv_lt_of_lt_mul h' (by omega)
      omega

theorem rangeLen_succ {a b s : Int} (hs : s ≠ 0) {n : Nat} (h : rangeLen a b s = n + 1) :
    rangeLen (a + s) b s = n := by
  unfold rangeLen at h ⊢
  split at h
  · next h0 =>
    rw [if_pos h0]
    have : (b - a + s - 1) / s = (b - (a + s) + s - 1) / s + 1 := by
      have := Int.add_mul_ediv_right (b - (a + s) + s - 1) 1 (c := s) (by omega)
      rw [← this]; congr 1; omega
    omega
  · next h0 =>
    rw [if_neg h0]
    have : (a - b + -s - 1) / -s = (a + s - b + -s - 1) / -s + 1 := by
      have := Int.add_mul_ediv_right (a + s - b + -s - 1) 1 (c := -s) (by omega)
      rw [← this]; congr 1; omega
    omega

end Verif.Comps.Lemmas
