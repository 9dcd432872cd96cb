import Verif.Scalars.Model
import Verif.IntMath.Props

/-
Bits of two's complement numbers, and the types of operations.
-/
namespace Verif.Scalars
open Verif.Types (addT andT)
open Verif.Types.Spec (Num)
open Verif.IntMath
open Verif.IntMath.Spec (InRange IsDivMod)

theorem int_testBit_ext {x y : Int} (h : ∀ i, Int.testBit x i = Int.testBit y i) : x = y := by
  have key : ∀ m n : Nat, (∀ i, Nat.testBit m i = !Nat.testBit n i) → False := by
    intro m n h
    have h1 : m < 2 ^ (m + n) := lt_of_lt_of_le (Nat.lt_two_pow_self (n := m)) (Nat.pow_le_pow_right (by decide) (by omega))
    have h2 : n < 2 ^ (m + n) := lt_of_lt_of_le (Nat.lt_two_pow_self (n := n)) (Nat.pow_le_pow_right (by decide) (by omega))
    have := h (m + n)
    rw [Nat.testBit_lt_two_pow h1, Nat.testBit_lt_two_pow h2] at this
    simp at this
  cases x with
  | ofNat m => cases y with
    | ofNat n => congr 1; exact Nat.eq_of_testBit_eq h
    | negSucc n => exact absurd h (fun h => key m n h)
  | negSucc m => cases y with
    | ofNat n => exact (key n m (fun i => (h i).symm)).elim
    | negSucc n =>
      congr 1
      apply Nat.eq_of_testBit_eq
      intro i
      have := h i
      simpa [Int.testBit] using this

theorem toInt_testBit {w : Nat} (x : BitVec w) (i : Nat) : Int.testBit x.toInt i = if i < w then x.getLsbD i else x.msb := by
  rw [BitVec.toInt_eq_msb_cond]
  cases hm : x.msb with
  | false =>
    show Nat.testBit x.toNat i = _
    split
    · rfl
    · next hi =>
      exact Nat.testBit_lt_two_pow (lt_of_lt_of_le x.isLt (Nat.pow_le_pow_right (by decide) (by omega)))
  | true =>
    have e : ((x.toNat : Int) - ((2 ^ w : Nat) : Int)) = Int.negSucc (2 ^ w - (x.toNat + 1)) := by
      rw [Int.negSucc_eq]
      have := x.isLt
      omega
    rw [if_pos rfl, e]
    show (!Nat.testBit (2 ^ w - (x.toNat + 1)) i) = _
    rw [Nat.testBit_two_pow_sub_succ x.isLt]
    split
    · next hi => simp [hi]; rfl
    · next hi => simp [hi]

theorem ofInt_toInt {w : Nat} (hw : 0 < w) {x : Int} (h : InRange w x) : (BitVec.ofInt w x).toInt = x := by
  rw [BitVec.toInt_ofInt]
  exact wrap_of_inRange hw h

theorem toInt_inRange {w : Nat} (hw : 0 < w) (x : BitVec w) : InRange w x.toInt := by
  have h1 := BitVec.le_toInt x
  have h2 := BitVec.toInt_lt (x := x)
  exact ⟨h1, h2⟩

theorem bits_eq {w : Nat} (hw : 0 < w) {x y : Int} (hx : InRange w x) (hy : InRange w y) (f : BitVec w → BitVec w → BitVec w)
    (g : Int → Int → Int) (k : Bool → Bool → Bool) (hg : ∀ x y i, Int.testBit (g x y) i = k (Int.testBit x i) (Int.testBit y i))
    (hf : ∀ a b i, (f a b).getLsbD i = if i < w then k (a.getLsbD i) (b.getLsbD i) else false)
    (hm : ∀ a b, (f a b).msb = k a.msb b.msb) : bits w f x y = g x y ∧ InRange w (g x y) := by
  have h : bits w f x y = g x y := by
    apply int_testBit_ext
    intro i
    rw [hg]
    unfold bits
    conv => rhs; rw [← ofInt_toInt hw hx, ← ofInt_toInt hw hy]
    simp only [toInt_testBit]
    split
    · next hi => rw [hf, if_pos hi]
    · exact hm _ _
  exact ⟨h, h ▸ toInt_inRange hw _⟩

theorem bits_and {w : Nat} (hw : 0 < w) {x y : Int} (hx : InRange w x) (hy : InRange w y) :
    bits w (· &&& ·) x y = Int.land x y ∧ InRange w (Int.land x y) :=
  bits_eq hw hx hy _ Int.land and Int.testBit_land
    (fun a b i => by
      simp only [BitVec.getLsbD_and]
      split
      · rfl
      · next h => simp [BitVec.getLsbD_of_ge _ _ (Nat.le_of_not_lt h)])
    (fun a b => by simp)

theorem bits_or {w : Nat} (hw : 0 < w) {x y : Int} (hx : InRange w x) (hy : InRange w y) :
    bits w (· ||| ·) x y = Int.lor x y ∧ InRange w (Int.lor x y) :=
  bits_eq hw hx hy _ Int.lor or Int.testBit_lor
    (fun a b i => by
      simp only [BitVec.getLsbD_or]
      split
      · rfl
      · next h => simp [BitVec.getLsbD_of_ge _ _ (Nat.le_of_not_lt h)])
    (fun a b => by simp)

theorem bits_xor {w : Nat} (hw : 0 < w) {x y : Int} (hx : InRange w x) (hy : InRange w y) :
    bits w (· ^^^ ·) x y = Int.xor x y ∧ InRange w (Int.xor x y) :=
  bits_eq hw hx hy _ Int.xor xor Int.testBit_lxor
    (fun a b i => by
      simp only [BitVec.getLsbD_xor]
      split
      · rfl
      · next h => simp [BitVec.getLsbD_of_ge _ _ (Nat.le_of_not_lt h)])
    (fun a b => by simp)

theorem bits_not {w : Nat} (hw : 0 < w) {x : Int} (hx : InRange w x) :
    (~~~ BitVec.ofInt w x).toInt = Int.lnot x ∧ InRange w (Int.lnot x) := by
  have h : (~~~ BitVec.ofInt w x).toInt = Int.lnot x := by
    apply int_testBit_ext
    intro i
    rw [Int.testBit_lnot]
    conv => rhs; rw [← ofInt_toInt hw hx]
    simp only [toInt_testBit]
    split
    · next hi => simp [BitVec.getLsbD_not, hi]
    · simp [BitVec.msb_not, hw]
  exact ⟨h, h ▸ toInt_inRange hw _⟩

theorem lnot_eq (x : Int) : Int.lnot x = -x - 1 := by
  cases x with
  | ofNat n => show Int.negSucc n = _; simp [Int.negSucc_eq]; ring
  | negSucc n => show (n : Int) = _; rw [Int.negSucc_eq]; ring

theorem shiftRight_fdiv (x : Int) (n : Nat) : x >>> n = x.fdiv (2 ^ n) := by
  rw [Int.shiftRight_eq_div_pow, Int.fdiv_eq_ediv_of_nonneg _ (by positivity)]
  norm_cast

theorem fdiv_isDivMod {x y : Int} (hy : y ≠ 0) : IsDivMod x y (x.fdiv y) (x.fmod y) := by
  obtain ⟨q, r, h1, h2⟩ := C02_modulo_fortran x y hy
  have e : x - x.fdiv y * y = x.fmod y := by
    have := Int.mul_fdiv_add_fmod x y
    linarith [Int.mul_comm y (x.fdiv y)]
  simp only [fModulo, hy, if_false, Option.some.injEq] at h1
  rw [← h1] at h2
  have := h2.identity
  have hq : x.fdiv y = q := by
    have : x.fdiv y * y = q * y := by linarith
    exact Int.eq_of_mul_eq_mul_right hy this
  rw [← e, hq]
  rw [hq] at h2
  exact h2

end Verif.Scalars
