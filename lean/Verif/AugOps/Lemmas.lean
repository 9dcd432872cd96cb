import Verif.AugOps.Model
import Verif.IntMath.Lemmas
/-! Helper lemmas for C06/C07. -/
namespace Verif.AugOps
open Spec Verif.IntMath Verif.IntMath.Spec

theorem bit_natCast (n i : Nat) : bit (n : Int) i = n.testBit i := by
  unfold bit
  rw [Nat.testBit_eq_decide_div_mod_eq]
  have : ((n : Int) / 2 ^ i) % 2 = ((n / 2 ^ i % 2 : Nat) : Int) := by push_cast; rfl
  rw [this]
  congr 1
  apply propext
  omega

theorem bit_sub_pow (x : Int) (k i : Nat) (h : i < k) : bit (x - 2 ^ k) i = bit x i := by
  unfold bit
  obtain ⟨d, rfl⟩ : ∃ d, k = i + 1 + d := ⟨k - (i + 1), by omega⟩
  have : x - 2 ^ (i + 1 + d) = x + 2 ^ i * (-(2 * 2 ^ d)) := by
    rw [pow_add, pow_succ]; ring
  rw [this, Int.add_mul_ediv_left _ _ (by positivity)]
  congr 1
  apply propext
  omega

theorem bit_neg_high (x : Int) (k i : Nat) (h : k ≤ i) (h1 : -(2 : Int) ^ k ≤ x) (h2 : x < 0) :
    bit x i = true := by
  unfold bit
  have hp : (2 : Int) ^ k ≤ 2 ^ i := by exact_mod_cast Nat.pow_le_pow_right (by decide) h
  have : x / 2 ^ i = -1 := by
    have hpos : (0 : Int) < 2 ^ i := by positivity
    have h3 : (x + 2 ^ i * 1) / 2 ^ i = x / 2 ^ i + 1 := Int.add_mul_ediv_left _ _ (by omega)
    have h4 : (x + 2 ^ i * 1) / 2 ^ i = 0 := Int.ediv_eq_zero_of_lt (by omega) (by omega)
    omega
  rw [this]; decide

theorem bit_nonneg_high (x : Int) (k i : Nat) (h : k ≤ i) (h1 : 0 ≤ x) (h2 : x < 2 ^ k) :
    bit x i = false := by
  unfold bit
  have hp : (2 : Int) ^ k ≤ 2 ^ i := by exact_mod_cast Nat.pow_le_pow_right (by decide) h
  rw [Int.ediv_eq_zero_of_lt h1 (by omega)]; decide

/-- Bit `i` of the value of a machine word. -/
theorem bit_toInt (b : BitVec 64) (i : Nat) : bit b.toInt i = b.getLsbD (min i 63) := by
  have hlt : b.toNat < 2 ^ 64 := b.isLt
  have hmsb : b.msb = b.getLsbD 63 := by rw [BitVec.msb_eq_getLsbD_last]
  rw [BitVec.toInt_eq_msb_cond]
  by_cases hm : b.msb
  · have hge := BitVec.le_toNat_of_msb_true hm
    rw [if_pos hm]
    have hcast : ((2 ^ 64 : Nat) : Int) = 2 ^ 64 := by norm_cast
    rcases Nat.lt_or_ge i 64 with hi | hi
    · rw [hcast, bit_sub_pow _ _ _ hi, bit_natCast]
      rw [show min i 63 = i by omega]; rfl
    · rw [bit_neg_high _ 63 i (by omega) (by omega) (by omega)]
      rw [show min i 63 = 63 by omega, ← hmsb, hm]
  · have hle := BitVec.toNat_lt_of_msb_false (x := b) (by simpa using hm)
    rw [if_neg hm]
    rcases Nat.lt_or_ge i 64 with hi | hi
    · rw [bit_natCast, show min i 63 = i by omega]; rfl
    · rw [bit_nonneg_high _ 63 i (by omega) (by omega) (by omega)]
      rw [show min i 63 = 63 by omega, ← hmsb]; simpa using hm

theorem toInt_ofInt_of_inRange {x : Int} (h : InRange 64 x) : (BitVec.ofInt 64 x).toInt = x := by
  rw [BitVec.toInt_ofInt]
  exact wrap_of_inRange (w := 64) (by decide) h

theorem bit_ofInt {x : Int} (h : InRange 64 x) (i : Nat) :
    (BitVec.ofInt 64 x).getLsbD (min i 63) = bit x i := by
  rw [← bit_toInt, toInt_ofInt_of_inRange h]

end Verif.AugOps
