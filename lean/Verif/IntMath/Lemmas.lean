import Verif.IntMath.Model
import Mathlib.Tactic.Linarith
import Mathlib.Tactic.Ring
/-! Helper lemmas for the integer run-time library. -/
namespace Verif.IntMath
open Spec

/-- The defining facts of truncating division. -/
theorem trunc_facts (x y : Int) (hy : y ≠ 0) :
    x = x.tdiv y * y + x.tmod y ∧ (0 ≤ x → 0 ≤ x.tmod y) ∧ (x ≤ 0 → x.tmod y ≤ 0) ∧
    (x.tmod y < y ∨ x.tmod y < -y) ∧ (-y < x.tmod y ∨ y < x.tmod y) := by
  have h1 := Int.mul_tdiv_add_tmod x y
  refine ⟨by linarith [Int.mul_comm y (x.tdiv y)], fun h => Int.tmod_nonneg y h, ?_, ?_, ?_⟩
  · intro h
    have := Int.tmod_nonneg (a := -x) y (by omega)
    rw [Int.neg_tmod] at this; omega
  all_goals
    have h2 : (x.tmod y).natAbs = x.natAbs % y.natAbs := Int.natAbs_tmod ..
    have h3 := Nat.mod_lt x.natAbs (y := y.natAbs) (by omega)
    omega

/-- Uniqueness of Python's divmod. -/
theorem isDivMod_unique {x y q r q' r' : Int} (h : IsDivMod x y q r) (h' : IsDivMod x y q' r') :
    q = q' ∧ r = r' := by
  obtain ⟨e, b⟩ := h; obtain ⟨e', b'⟩ := h'
  have key : (q - q') * y = r' - r := by linarith [Int.sub_mul q q' y]
  have hq : q = q' := by
    by_contra hne
    rcases b with ⟨hy, b1, b2⟩ | ⟨hy, b1, b2⟩ <;> rcases b' with ⟨_, b1', b2'⟩ | ⟨_, b1', b2'⟩ <;>
      try omega
    · rcases lt_or_gt_of_ne hne with h | h <;> nlinarith
    · rcases lt_or_gt_of_ne hne with h | h <;> nlinarith
  subst hq
  refine ⟨rfl, ?_⟩
  simp at key; omega

/-- The truncated quotient corrected as in the C macro is Python's divmod. -/
theorem corrected_isDivMod (x y : Int) (hy : y ≠ 0) :
    IsDivMod x y
      (x.tdiv y - (if x.tmod y ≠ 0 ∧ xorb (x < 0) (y < 0) then 1 else 0))
      (x.tmod y + (if x.tmod y ≠ 0 ∧ xorb (x < 0) (y < 0) then y else 0)) := by
  obtain ⟨h1, h2, h3, h4, h5⟩ := trunc_facts x y hy
  generalize x.tdiv y = q at *
  generalize x.tmod y = r at *
  by_cases hc : r ≠ 0 ∧ xorb (x < 0) (y < 0)
  · simp only [hc, if_true, not_false_eq_true, and_self, ne_eq]
    obtain ⟨hr, hx⟩ := hc
    refine ⟨by rw [h1]; ring, ?_⟩
    simp [xorb] at hx
    omega
  · simp only [hc, if_false]
    refine ⟨by rw [h1]; ring, ?_⟩
    simp [xorb] at hc
    by_cases hr : r = 0
    · omega
    · have := hc hr; omega


/-- Python's quotient of two `w`-bit integers fits unless it is `INT_MIN // -1`. -/
theorem isDivMod_inRange {w : Nat} {x y q r : Int} (h : IsDivMod x y q r)
    (hx : InRange w x) (hov : ¬ (x = -(2 : Int) ^ (w - 1) ∧ y = -1)) : InRange w q := by
  obtain ⟨e, b⟩ := h
  unfold InRange at *
  have hM : (0 : Int) < 2 ^ (w - 1) := Int.pow_pos (by decide)
  generalize (2 : Int) ^ (w - 1) = M at *
  constructor
  · by_contra hlt
    rcases b with ⟨hy, b1, b2⟩ | ⟨hy, b1, b2⟩
    · have : q * y ≤ (-M - 1) * y := Int.mul_le_mul_of_nonneg_right (by omega) (by omega)
      nlinarith
    · have : (-M - 1) * y ≤ q * y := Int.mul_le_mul_of_nonpos_right (by omega) (by omega)
      nlinarith
  · by_contra hlt
    rcases b with ⟨hy, b1, b2⟩ | ⟨hy, b1, b2⟩
    · have : M * y ≤ q * y := Int.mul_le_mul_of_nonneg_right (by omega) (by omega)
      nlinarith
    · have h1 : q * y ≤ M * y := Int.mul_le_mul_of_nonpos_right (by omega) (by omega)
      have h2 : M * y ≤ -M := by nlinarith
      have h3 : x = -M := by omega
      have h4 : M * y = -M := by omega
      have h5 : y = -1 := by
        have : M * (y + 1) = 0 := by linarith [Int.mul_add M y 1]
        rcases Int.mul_eq_zero.mp this with h | h <;> omega
      exact hov ⟨h3, h5⟩

/-- The truncated quotient fits unless it is `INT_MIN / -1`. -/
theorem tdiv_inRange {w : Nat} {x y : Int} (hy : y ≠ 0)
    (hx : InRange w x) (hov : ¬ (x = -(2 : Int) ^ (w - 1) ∧ y = -1)) : InRange w (x.tdiv y) := by
  have hd := corrected_isDivMod x y hy
  have hr := isDivMod_inRange hd hx hov
  obtain ⟨h1, h2, h3, h4, h5⟩ := trunc_facts x y hy
  have hM : (0 : Int) < 2 ^ (w - 1) := Int.pow_pos (by decide)
  unfold InRange at *
  generalize (2 : Int) ^ (w - 1) = M at *
  by_cases hc : x.tmod y ≠ 0 ∧ xorb (x < 0) (y < 0)
  · simp only [hc, if_true, not_false_eq_true, and_self, ne_eq] at hr
    refine ⟨by omega, ?_⟩
    have : x.tdiv y ≤ 0 := by
      by_contra hpos
      have hx2 := hc.2
      simp [xorb] at hx2
      generalize x.tdiv y = q at *
      generalize x.tmod y = r at *
      rcases lt_or_gt_of_ne hy with hy' | hy'
      · have hxx : 0 ≤ x := by omega
        have : q * y ≤ 1 * y := Int.mul_le_mul_of_nonpos_right (by omega) (by omega)
        omega
      · have hxx : x < 0 := by omega
        have : 1 * y ≤ q * y := Int.mul_le_mul_of_nonneg_right (by omega) (by omega)
        omega
    omega
  · simp only [hc, if_false] at hr
    omega

theorem chk_some {w : Nat} {z : Int} (h : InRange w z) : chk w z = some z := by simp [chk, h]
theorem chk_none {w : Nat} {z : Int} (h : ¬ InRange w z) : chk w z = none := by simp [chk, h]
theorem chk_eq_some {w : Nat} {z v : Int} : chk w z = some v ↔ InRange w z ∧ v = z := by
  unfold chk; split <;> simp [*, eq_comm]

theorem inRange_mono {w w' : Nat} (h : w ≤ w') {z : Int} (hz : InRange w z) : InRange w' z := by
  unfold InRange at *
  have : (2 : Int) ^ (w - 1) ≤ 2 ^ (w' - 1) := by
    exact_mod_cast Nat.pow_le_pow_right (by decide) (by omega)
  omega

theorem wrap_of_inRange {w : Nat} (hw : 0 < w) {z : Int} (hz : InRange w z) : wrap w z = z := by
  unfold InRange wrap at *
  have h2 : (2 : Int) ^ w = 2 * 2 ^ (w - 1) := by
    obtain ⟨k, rfl⟩ : ∃ k, w = k + 1 := ⟨w - 1, by omega⟩
    simp [Int.pow_succ]; ring
  have h3 : ((2 ^ w : Nat) : Int) = 2 ^ w := by push_cast; rfl
  apply Int.bmod_eq_of_le <;> rw [h3, h2] <;> omega

theorem absBV_toInt {w : Nat} (a : BitVec w) (h : a ≠ BitVec.intMin w) :
    (absBV a).toInt = (a.toInt.natAbs : Int) := by
  unfold absBV
  by_cases hp : BitVec.slt 0#w a
  · simp only [hp, if_true]
    simp only [BitVec.slt, BitVec.toInt_zero, decide_eq_true_eq] at hp
    omega
  · simp only [hp, Bool.false_eq_true, if_false]
    simp only [BitVec.slt, BitVec.toInt_zero, decide_eq_true_eq] at hp
    rw [BitVec.toInt_neg_of_ne_intMin h]
    omega

theorem gcdLoop_toInt {w : Nat} (a b : BitVec w) (ha : 0 ≤ a.toInt) (hb : 0 ≤ b.toInt) :
    (gcdLoop a b).toInt = (Nat.gcd a.toInt.natAbs b.toInt.natAbs : Int) := by
  fun_induction gcdLoop a b with
  | case1 a => simp only [BitVec.toInt_zero, Int.natAbs_zero, Nat.gcd_zero_right]; omega
  | case2 a b h a' p ih =>
    have hp : p = (b, a') := xorSwap_eq _ _
    rw [hp] at ih ⊢
    have h2 : a'.toInt = a.toInt.tmod b.toInt := BitVec.toInt_srem ..
    have h3 : a'.toInt.natAbs = a.toInt.natAbs % b.toInt.natAbs := by rw [h2]; exact Int.natAbs_tmod ..
    have h4 : 0 ≤ a'.toInt := by rw [h2]; exact Int.tmod_nonneg _ ha
    rw [ih hb h4]
    simp only []
    rw [h3, Nat.gcd_comm a.toInt.natAbs, Nat.gcd_rec b.toInt.natAbs a.toInt.natAbs, Nat.gcd_comm]

theorem gcdLoopF_toInt {w : Nat} (a b : BitVec w) (ha : 0 ≤ a.toInt) (hb : 0 ≤ b.toInt) :
    (gcdLoopF a b).toInt = (Nat.gcd a.toInt.natAbs b.toInt.natAbs : Int) := by
  fun_induction gcdLoopF a b with
  | case1 a b h a' p ih =>
    have hp : p = (b, a') := xorSwap_eq _ _
    rw [hp] at ih ⊢
    have h2 : a'.toInt = a.toInt.tmod b.toInt := BitVec.toInt_srem ..
    have h3 : a'.toInt.natAbs = a.toInt.natAbs % b.toInt.natAbs := by rw [h2]; exact Int.natAbs_tmod ..
    have h4 : 0 ≤ a'.toInt := by rw [h2]; exact Int.tmod_nonneg _ ha
    rw [ih hb h4]
    simp only []
    rw [h3, Nat.gcd_comm a.toInt.natAbs, Nat.gcd_rec b.toInt.natAbs a.toInt.natAbs, Nat.gcd_comm]
  | case2 a b h =>
    simp only [BitVec.slt, BitVec.toInt_zero, decide_eq_true_eq] at h
    have : b.toInt = 0 := by omega
    rw [this]; simp only [Int.natAbs_zero, Nat.gcd_zero_right]; omega

theorem isGcd_of_eq {a b d : Int} (h : d = (Nat.gcd a.natAbs b.natAbs : Int)) : IsGcd a b d := by
  subst h
  refine ⟨by omega, ?_, ?_, ?_⟩
  · exact Int.ofNat_dvd_left.mpr (Nat.gcd_dvd_left ..)
  · exact Int.ofNat_dvd_left.mpr (Nat.gcd_dvd_right ..)
  · intro e h1 h2
    rw [← Int.natAbs_dvd_natAbs] at h1 h2 ⊢
    simpa using Nat.dvd_gcd h1 h2

theorem isLcm_of_eq {a b d : Int} (h : d = (Nat.lcm a.natAbs b.natAbs : Int)) : IsLcm a b d := by
  subst h
  refine ⟨by omega, ?_, ?_, ?_⟩
  · exact Int.dvd_natCast.mpr (Nat.dvd_lcm_left ..)
  · exact Int.dvd_natCast.mpr (Nat.dvd_lcm_right ..)
  · intro e h1 h2
    rw [← Int.natAbs_dvd_natAbs] at h1 h2 ⊢
    simpa using Nat.lcm_dvd h1 h2

theorem factLoop_spec (n : Nat) (i : Nat) (hi : 1 ≤ i) (hin : i ≤ n + 1)
    (hfit : InRange 64 (fact n : Int)) :
    factLoop n i (fact (i - 1) : Int) = some (fact n : Int) := by
  obtain ⟨d, hd⟩ : ∃ d, d = n + 1 - i := ⟨_, rfl⟩
  induction d generalizing i with
  | zero =>
    have : i = n + 1 := by omega
    subst this
    unfold factLoop
    simp
  | succ d ih =>
    unfold factLoop
    have hle : (i : Int) ≤ n := by omega
    have hfac : fact (i - 1) * i = fact i := by
      obtain ⟨k, rfl⟩ : ∃ k, i = k + 1 := ⟨i - 1, by omega⟩
      simp [fact, Nat.mul_comm]
    have hmono : ∀ m k, fact k ≤ fact (k + m) := by
      intro m k
      induction m with
      | zero => simp
      | succ m ih => 
        calc fact k ≤ fact (k + m) := ih
          _ ≤ (k + m + 1) * fact (k + m) := Nat.le_mul_of_pos_left _ (by omega)
          _ = fact (k + (m + 1)) := by rw [← Nat.add_assoc]; rfl
    have hlei : fact i ≤ fact n := by
      have := hmono (n - i) i
      rwa [show i + (n - i) = n by omega] at this
    simp only [hle, if_true, Option.bind_eq_bind]
    have hc : (fact (i - 1) : Int) * (i : Int) = (fact i : Nat) := by exact_mod_cast hfac
    rw [hc, chk_some (by unfold InRange at *; omega), Option.bind_some]
    have := ih (i + 1) (by omega) (by omega) (by omega)
    simpa using this

theorem pow10_step (k : Nat) : pow10 (k+1) = (pow10 k).bind fun m => chk 64 (m * 10) := rfl
theorem pow10_inRange (k : Nat) (hk : k ≤ 18) : InRange 64 ((10:Int)^k) := by
  have hle : (10 : Nat) ^ k ≤ 10 ^ 18 := Nat.pow_le_pow_right (by decide) hk
  have hle' : (10 : Int) ^ k ≤ 10 ^ 18 := by exact_mod_cast hle
  have hpos : (0 : Int) < 10 ^ k := Int.pow_pos (by decide)
  unfold InRange
  constructor
  · have : -(2:Int)^(64-1) ≤ 0 := by decide
    exact le_trans this hpos.le
  · exact lt_of_le_of_lt hle' (by decide)
theorem pow10_spec (k : Nat) (hk : k ≤ 18) : pow10 k = some ((10 : Int) ^ k) := by
  induction k with
  | zero => rfl
  | succ k ih =>
    rw [pow10_step, ih (by omega), Option.bind_some, ← pow_succ]
    exact chk_some (pow10_inRange _ hk)

/-- Facts about the constants used for `k = -ndigits ≥ 1` digits. -/
theorem round_consts (k : Nat) (hk1 : 1 ≤ k) (hk : k ≤ 18) :
    ∃ h : Int, (10 : Int) ^ k = 2 * h ∧ 0 < h ∧ h ≤ 500000000000000000 ∧ h = 5 * 10 ^ (k - 1) ∧
      pow10 k = some (2 * h) ∧ chk 64 (5 * (2 * h)) = some (10 * h) ∧
      cdiv 64 (10 * h) 10 = some h := by
  obtain ⟨j, rfl⟩ : ∃ j, k = j + 1 := ⟨k - 1, by omega⟩
  have hle : (10 : Int) ^ j ≤ 10 ^ 17 := by
    exact_mod_cast Nat.pow_le_pow_right (n := 10) (by decide) (by omega : j ≤ 17)
  have hpos : (0 : Int) < 10 ^ j := Int.pow_pos (by decide)
  have he : (10 : Int) ^ (j + 1) = 2 * (5 * 10 ^ j) := by rw [Int.pow_succ]; ring
  refine ⟨5 * 10 ^ j, he, by omega, by omega, by simp, ?_, ?_, ?_⟩
  · rw [pow10_spec _ hk, he]
  · rw [show 5 * (2 * (5 * (10 : Int) ^ j)) = 10 * (5 * 10 ^ j) by ring]
    apply chk_some
    unfold InRange; simp only [Nat.add_one_sub_one]; omega
  · unfold cdiv
    rw [Int.mul_tdiv_cancel_left _ (by decide)]
    simp only [show (10 : Int) ≠ 0 by decide, if_false]
    apply chk_some
    unfold InRange; simp only [Nat.add_one_sub_one]; omega

/-- The `else` branch of both rounding functions. -/
theorem round_else (x : Int) (k : Nat) (h : Int) (hM : (10 : Int) ^ k = 2 * h) (hpos : 0 < h)
    (hfit : InRange 64 (x + copysignInt h x)) (hnt : ¬ Tie x k) :
    ∃ r, (do
      let s ← chk 64 (x + copysignInt h x)
      let q ← cdiv 64 s (2 * h)
      chk 64 (q * (2 * h))) = some r ∧ IsRound x k r := by
  have hM0 : (2 * h) ≠ 0 := by omega
  obtain ⟨f1, f2, f3, f4, f5⟩ := trunc_facts (x + copysignInt h x) (2 * h) hM0
  have hq := tdiv_inRange (w := 64) hM0 hfit (by omega)
  have hnt' : ∀ m : Int, 2 * (x - m * (2 * h)) ≠ 2 * h := by
    intro m hm; exact hnt ⟨m, by rw [hM]; exact hm⟩
  refine ⟨(x + copysignInt h x).tdiv (2 * h) * (2 * h), ?_, ?_⟩
  · rw [chk_some hfit]
    simp only [Option.bind_eq_bind, Option.bind_some]
    unfold cdiv
    simp only [hM0, if_false, chk_some hq, Option.bind_some]
    apply chk_some
    unfold InRange at *
    generalize (x + copysignInt h x).tdiv (2 * h) * (2 * h) = qm at *
    generalize (x + copysignInt h x).tmod (2 * h) = t at *
    unfold copysignInt at *
    simp only [Nat.add_one_sub_one] at *
    split at f1 <;> omega
  · refine ⟨_, by rw [hM], Or.inl ?_⟩
    rw [hM]
    have n0 := hnt' ((x + copysignInt h x).tdiv (2 * h))
    have n1 := hnt' ((x + copysignInt h x).tdiv (2 * h) - 1)
    rw [Int.sub_mul] at n1
    generalize (x + copysignInt h x).tdiv (2 * h) * (2 * h) = qm at *
    generalize (x + copysignInt h x).tmod (2 * h) = t at *
    unfold copysignInt at *
    split at f1 <;> constructor <;> omega

theorem small_inRange (h : Int) (hpos : 0 < h) (hle : h ≤ 500000000000000000) : InRange 64 h := by
  unfold InRange; simp only [Nat.add_one_sub_one]; omega

theorem fmod_ne_pivot (x : Int) (k : Nat) (h : Int) (hM : (10 : Int) ^ k = 2 * h) (hpos : 0 < h)
    (hnt : ¬ Tie x k) : x - x.fdiv (2 * h) * (2 * h) ≠ copysignInt h x := by
  intro hh
  have n0 : ∀ m : Int, 2 * (x - m * (2 * h)) ≠ 2 * h := by
    intro m hm; exact hnt ⟨m, by rw [hM]; exact hm⟩
  have a0 := n0 (x.fdiv (2 * h))
  have a1 := n0 (x.fdiv (2 * h) - 1)
  rw [Int.sub_mul] at a1
  unfold copysignInt at hh
  split at hh <;> omega

theorem fBankersRound_else (x : Int) (k : Nat) (mul p five rem : Int) (hk1 : 1 ≤ k)
    (h1 : pow10 k = some mul) (h2 : pow10 (k - 1) = some p) (h3 : chk 64 (5 * p) = some five)
    (h4 : fModulo x mul = some rem) (hne : rem ≠ copysignInt five x) :
    fBankersRound x (-(k : Int)) = (do
      let s ← chk 64 (x + copysignInt five x)
      let q ← cdiv 64 s mul
      chk 64 (q * mul)) := by
  have hneg : ¬ (-(k : Int) ≥ 0) := by omega
  have hk' : ((k : Int) - 1).toNat = k - 1 := by omega
  unfold fBankersRound
  rw [if_neg hneg]
  simp only [Int.neg_neg, Int.toNat_natCast, hk', h1, h2, Option.bind_eq_bind, Option.bind_some,
    h3, h4, hne, if_false]

end Verif.IntMath
