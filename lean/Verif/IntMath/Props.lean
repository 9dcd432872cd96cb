import Verif.IntMath.Lemmas
/-!
Property theorems C01–C05 (integer run-time library).
-/
namespace Verif.IntMath
open Spec

/-! ## C01 — floor division -/

/-- C01 (C): for every signed type of `w` bits, `py_floor_div_T(x, y)` is defined and is
Python's `x // y`, except for a zero divisor and the overflowing pair `INT_MIN // -1`. -/
theorem C01_floor_div_c (w : Nat) (hw : 0 < w) (x y : Int) (hx : InRange w x)
    (_hyr : InRange w y) (hy : y ≠ 0) (hov : ¬ (x = -(2 : Int) ^ (w - 1) ∧ y = -1)) :
    ∃ q r, pyFloorDiv w x y = some q ∧ IsDivMod x y q r := by
  have hd := corrected_isDivMod x y hy
  refine ⟨_, _, ?_, hd⟩
  have hle : w ≤ arithWidth w := by unfold arithWidth; omega
  have ht : InRange (arithWidth w) (x.tdiv y) := inRange_mono hle (tdiv_inRange hy hx hov)
  have hq := isDivMod_inRange hd hx hov
  unfold pyFloorDiv cdiv cmod
  simp only [hy, if_false, chk_some ht, ht, if_true, Option.bind_eq_bind, Option.bind_some]
  rw [chk_some (inRange_mono hle hq)]
  simp only [Option.bind_some, Option.pure_def]
  rw [wrap_of_inRange hw hq]

example : InRange 64 (-7) ∧ InRange 64 2 ∧ (2 : Int) ≠ 0 ∧ pyFloorDiv 64 (-7) 2 = some (-4) := by
  decide

/-- C01 (Fortran): `pyc_floor_div_iN`. -/
theorem C01_floor_div_fortran (w : Nat) (x y : Int) (hx : InRange w x)
    (_hyr : InRange w y) (hy : y ≠ 0) (hov : ¬ (x = -(2 : Int) ^ (w - 1) ∧ y = -1)) :
    ∃ q r, fFloorDiv w x y = some q ∧ IsDivMod x y q r := by
  have hd := corrected_isDivMod x y hy
  refine ⟨_, _, ?_, hd⟩
  have ht := tdiv_inRange hy hx hov
  have hq := isDivMod_inRange hd hx hov
  unfold fFloorDiv cdiv cmod
  simp only [hy, if_false, chk_some ht, ht, if_true, Option.bind_eq_bind, Option.bind_some]
  rw [chk_some hq]

example : fFloorDiv 32 7 (-2) = some (-4) := by decide

/-- C01, excluded point: the quotient of the overflowing pair does not exist in the type, so
no implementation can return it (Python's result is `2^(w-1)`). -/
theorem C01_overflow_pair (w : Nat) (q r : Int)
    (h : IsDivMod (-(2 : Int) ^ (w - 1)) (-1) q r) : ¬ InRange w q := by
  have h0 : IsDivMod (-(2 : Int) ^ (w - 1)) (-1) (2 ^ (w - 1)) 0 :=
    ⟨by ring, Or.inr ⟨by omega, by omega, by omega⟩⟩
  obtain ⟨rfl, _⟩ := isDivMod_unique h h0
  unfold InRange; omega

/-- The specification determines the result: Python's quotient and remainder are unique. -/
theorem C01_spec_unique {x y q r q' r' : Int} (h : IsDivMod x y q r) (h' : IsDivMod x y q' r') :
    q = q' ∧ r = r' := isDivMod_unique h h'

/-! ## C02 — modulo -/

/-- C02 (C): `pyc_modulo(a, b)` is Python's `a % b`. -/
theorem C02_modulo_c (a b : Int) (ha : InRange 64 a) (hbr : InRange 64 b) (hb : b ≠ 0)
    (hov : ¬ (a = -(2 : Int) ^ 63 ∧ b = -1)) :
    ∃ q r, pycModulo a b = some r ∧ IsDivMod a b q r := by
  have hd := corrected_isDivMod a b hb
  refine ⟨_, _, ?_, hd⟩
  have ht : InRange 64 (a.tdiv b) := tdiv_inRange hb ha hov
  have hr := hd.range
  unfold pycModulo cmod
  simp only [hb, if_false, ht, if_true, Option.bind_eq_bind, Option.bind_some]
  by_cases hc : a.tmod b ≠ 0 ∧ xorb (a < 0) (b < 0)
  · have hc' : ¬ ((!xorb (a < 0) (b < 0)) = true ∨ a.tmod b = 0) := by
      intro h; rcases h with h | h
      · simp [hc.2] at h
      · exact hc.1 h
    simp only [hc, if_true, ne_eq, not_false_eq_true, and_self] at hr ⊢
    simp only [Bool.not_true, Bool.false_eq_true, or_self, if_false]
    apply chk_some
    unfold InRange at *; omega
  · have hc' : (!xorb (a < 0) (b < 0)) = true ∨ a.tmod b = 0 := by
      by_cases h0 : a.tmod b = 0
      · exact Or.inr h0
      · left; simp only [ne_eq, h0, not_false_eq_true, true_and] at hc; simpa using hc
    simp only [hc, if_false, Int.add_zero, hc', if_true, Option.pure_def]

example : pycModulo (-7) 3 = some 2 ∧ pycModulo 7 (-3) = some (-2) := by decide

/-- C02 (Fortran): `MODULO`. -/
theorem C02_modulo_fortran (a b : Int) (hb : b ≠ 0) :
    ∃ q r, fModulo a b = some r ∧ IsDivMod a b q r := by
  refine ⟨a.fdiv b, a.fmod b, ?_, ?_⟩
  · have := Int.mul_fdiv_add_fmod a b
    simp only [fModulo, hb, if_false, Option.some.injEq]
    linarith [Int.mul_comm b (a.fdiv b)]
  · refine ⟨by linarith [Int.mul_fdiv_add_fmod a b, Int.mul_comm b (a.fdiv b)], ?_⟩
    rcases lt_or_gt_of_ne hb with h | h
    · right
      have h1 := Int.fmod_eq_emod (a := a) (b := b)
      have h2 := Int.emod_nonneg a hb
      have h3 := Int.emod_lt_of_neg a h
      have h4 : (b ∣ a) ↔ a % b = 0 := Int.dvd_iff_emod_eq_zero
      split at h1 <;> omega
    · left
      rw [Int.fmod_eq_emod_of_nonneg a (by omega)]
      exact ⟨h, Int.emod_nonneg a hb, Int.emod_lt_of_pos a h⟩

example : fModulo (-7) 3 = some 2 := by decide

/-- C02 together with C01: `(a // b) * b + a % b == a` for the values generated code computes. -/
theorem C02_divmod_identity (a b : Int) (ha : InRange 64 a) (hbr : InRange 64 b) (hb : b ≠ 0)
    (hov : ¬ (a = -(2 : Int) ^ 63 ∧ b = -1)) :
    ∃ q r, pyFloorDiv 64 a b = some q ∧ pycModulo a b = some r ∧ q * b + r = a := by
  obtain ⟨q, r, h1, h2⟩ := C01_floor_div_c 64 (by decide) a b ha hbr hb hov
  obtain ⟨q', r', h1', h2'⟩ := C02_modulo_c a b ha hbr hb hov
  obtain ⟨rfl, rfl⟩ := isDivMod_unique h2 h2'
  exact ⟨q, r, h1, h1', h2.identity.symm⟩

/-! ## C03 — gcd / lcm -/

/-- C03 (C): `pyc_gcd` terminates (it is a total function) and returns the gcd, for all 64-bit
operands except `INT64_MIN`, whose negation is undefined in C. -/
theorem C03_gcd_c (a b : BitVec 64) (ha : a ≠ BitVec.intMin 64) (hb : b ≠ BitVec.intMin 64) :
    IsGcd a.toInt b.toInt (pycGcd a b).toInt := by
  apply isGcd_of_eq
  have h1 := absBV_toInt a ha
  have h2 := absBV_toInt b hb
  unfold pycGcd
  rw [gcdLoop_toInt _ _ (by omega) (by omega), h1, h2]
  simp only [Int.natAbs_natCast]

/-- C03 (Fortran, both kinds). -/
theorem C03_gcd_fortran (w : Nat) (a b : BitVec w) (ha : a ≠ BitVec.intMin w)
    (hb : b ≠ BitVec.intMin w) : IsGcd a.toInt b.toInt (fGcd a b).toInt := by
  apply isGcd_of_eq
  have h1 := absBV_toInt a ha
  have h2 := absBV_toInt b hb
  unfold fGcd
  rw [gcdLoopF_toInt _ _ (by omega) (by omega), h1, h2]
  simp only [Int.natAbs_natCast]

example : (12#64 ≠ BitVec.intMin 64) ∧ (-18#64 ≠ BitVec.intMin 64) ∧
    IsGcd 12 (-18) 6 := by
  refine ⟨by decide, by decide, isGcd_of_eq (by decide)⟩

/-- C03, lcm: whenever the operands are not both zero and the least common multiple is
representable, `pyc_lcm` returns it.  Missing for the full property: `lcm(0, 0)`, which is
0 in Python and a division by zero here (`C03_lcm_zero_violated`). -/
theorem C03_lcm_c_partial (a b : BitVec 64) (ha : a ≠ BitVec.intMin 64) (hb : b ≠ BitVec.intMin 64)
    (hne : ¬ (a = 0 ∧ b = 0)) (hfit : InRange 64 (Nat.lcm a.toInt.natAbs b.toInt.natAbs)) :
    ∃ m, pycLcm a b = some m ∧ IsLcm a.toInt b.toInt m := by
  refine ⟨_, ?_, isLcm_of_eq rfl⟩
  have h1 := absBV_toInt a ha
  have h2 := absBV_toInt b hb
  have n1 : absBV a ≠ BitVec.intMin 64 := by
    intro h; rw [h] at h1; have : (BitVec.intMin 64).toInt < 0 := by decide
    omega
  have n2 : absBV b ≠ BitVec.intMin 64 := by
    intro h; rw [h] at h2; have : (BitVec.intMin 64).toInt < 0 := by decide
    omega
  have hg : (pycGcd (absBV a) (absBV b)).toInt = (Nat.gcd a.toInt.natAbs b.toInt.natAbs : Int) := by
    have h1' := absBV_toInt _ n1
    have h2' := absBV_toInt _ n2
    unfold pycGcd
    rw [gcdLoop_toInt _ _ (by omega) (by omega), h1', h2', h1, h2]
    simp only [Int.natAbs_natCast]
  have hz : ¬ (a.toInt.natAbs = 0 ∧ b.toInt.natAbs = 0) := by
    intro ⟨hh1, hh2⟩
    apply hne
    constructor <;> apply BitVec.eq_of_toInt_eq <;> simp <;> omega
  unfold pycLcm
  simp only [h1, h2, hg, Option.bind_eq_bind]
  generalize a.toInt.natAbs = m at *
  generalize b.toInt.natAbs = n at *
  have hgpos : 0 < Nat.gcd m n := by
    rcases Nat.eq_zero_or_pos (Nat.gcd m n) with h | h
    · exact absurd (Nat.gcd_eq_zero_iff.mp h) hz
    · exact h
  have hg0 : ((Nat.gcd m n : Nat) : Int) ≠ 0 := by omega
  have hm : (m : Int) < 2 ^ 63 := by
    have := (absBV a).toInt_lt; rw [h1] at this; simpa using this
  have hle : m / Nat.gcd m n ≤ m := Nat.div_le_self ..
  unfold cdiv
  simp only [hg0, if_false]
  have ht : (m : Int).tdiv (Nat.gcd m n : Int) = ((m / Nat.gcd m n : Nat) : Int) := by
    exact (Int.ofNat_tdiv ..).symm
  rw [ht, chk_some (by unfold InRange; generalize m / Nat.gcd m n = z at *; simp only [Nat.add_one_sub_one]; omega), Option.bind_some]
  have : ((m / Nat.gcd m n : Nat) : Int) * (n : Int) = (Nat.lcm m n : Nat) := by
    have : m / Nat.gcd m n * n = Nat.lcm m n := by
      rw [Nat.lcm, Nat.div_mul_right_comm (Nat.gcd_dvd_left m n)]
    exact_mod_cast this
  rw [this, chk_some hfit]

example : (4#64 ≠ BitVec.intMin 64) ∧ (-6#64 ≠ BitVec.intMin 64) ∧ ¬ (4#64 = 0 ∧ -6#64 = 0) ∧
    InRange 64 (Nat.lcm (4#64).toInt.natAbs (-6#64).toInt.natAbs) := by decide

/-- C03: the code violates `math.lcm(0, 0) == 0`: it divides by zero. -/
theorem C03_lcm_zero_violated : pycLcm 0#64 0#64 = none ∧ IsLcm 0 0 0 := by
  constructor
  · have : (pycGcd (absBV 0#64) (absBV 0#64)).toInt = 0 := by
      have h := gcdLoop_toInt (absBV (absBV 0#64)) (absBV (absBV 0#64)) (by decide) (by decide)
      unfold pycGcd; rw [h]; decide
    unfold pycLcm cdiv
    simp [this]
  · exact isLcm_of_eq (by decide)

/-! ## C04 — factorial -/

/-- C04 (C): `math.factorial(n)` is `n!` whenever `n!` is representable. -/
theorem C04_factorial_c (n : Nat) (hfit : InRange 64 (fact n : Int)) :
    pycFactorial n = some (fact n : Int) := by
  unfold pycFactorial
  have : ¬ ((n : Int) < 0) := by omega
  simp only [this, if_false]
  by_cases h0 : n = 0
  · subst h0; unfold factLoop; simp [fact]
  · exact factLoop_spec n 2 (by omega) (by omega) hfit

/-- C04 (Fortran). -/
theorem C04_factorial_fortran (n : Nat) (hfit : InRange 64 (fact n : Int)) :
    fFactorial n = some (fact n : Int) := by
  have := C04_factorial_c n hfit
  unfold pycFactorial at this
  have h : ¬ ((n : Int) < 0) := by omega
  simpa [h, fFactorial] using this

/-- C04: negative arguments (a `ValueError` in Python) give 0 in C and 1 in Fortran. -/
theorem C04_factorial_negative (n : Int) (hn : n < 0) :
    pycFactorial n = some 0 ∧ fFactorial n = some 1 := by
  constructor
  · simp [pycFactorial, hn]
  · unfold fFactorial factLoop
    simp; omega

example : InRange 64 (fact 20 : Int) ∧ ¬ InRange 64 (fact 21 : Int) := by decide

/-! ## C05 — round on integers -/

/-- C05 (C), the part that holds: away from ties `round(x, -k)` is Python's.  Missing for the
full property: ties (`C05_round_c_ties`, `C05_round_c_violated`), and `k > 18` where
`10^k` overflows `int64_t`. -/
theorem C05_round_c_partial (x : Int) (k : Nat) (hk1 : 1 ≤ k) (hk : k ≤ 18)
    (hx : InRange 64 x) (hfit : InRange 64 (x + copysignInt (5 * 10 ^ (k - 1)) x))
    (hnt : ¬ Tie x k) :
    ∃ r, ipycBankersRound x (-(k : Int)) = some r ∧ IsRound x k r := by
  obtain ⟨h, hM, hpos, hle, he, hp, h5, h10⟩ := round_consts k hk1 hk
  rw [← he] at hfit
  obtain ⟨r, hr, hround⟩ := round_else x k h hM hpos hfit hnt
  refine ⟨r, ?_, hround⟩
  have hM0 : (2 * h) ≠ 0 := by omega
  have hneg : ¬ (-(k : Int) ≥ 0) := by omega
  have hq := tdiv_inRange (w := 64) hM0 hx (by omega)
  obtain ⟨f1, f2, f3, f4, f5⟩ := trunc_facts x (2 * h) hM0
  have hne : x.tmod (2 * h) ≠ copysignInt h x := by
    intro hh
    have n0 : ∀ m : Int, 2 * (x - m * (2 * h)) ≠ 2 * h := by
      intro m hm; exact hnt ⟨m, by rw [hM]; exact hm⟩
    have a0 := n0 (x.tdiv (2 * h))
    have a1 := n0 (x.tdiv (2 * h) - 1)
    rw [Int.sub_mul] at a1
    unfold copysignInt at hh
    split at hh <;> omega
  unfold ipycBankersRound
  simp only [hneg, if_false, Int.neg_neg, Int.toNat_natCast, hp, h5, h10, Option.bind_eq_bind,
    Option.bind_some]
  have hcm : cmod 64 x (2 * h) = some (x.tmod (2 * h)) := by
    unfold cmod; simp only [hM0, if_false, hq, if_true]
  rw [hcm]
  simp only [Option.bind_some, hne, if_false]
  simp only [Option.bind_eq_bind] at hr
  exact hr

example : (1 : Nat) ≤ 1 ∧ InRange 64 (-27) ∧ InRange 64 (-27 + copysignInt (5 * 10 ^ 0) (-27)) ∧
    ¬ Tie (-27) 1 ∧ ipycBankersRound (-27) (-1) = some (-30) := by
  refine ⟨by decide, by decide, by decide, ?_, by decide⟩
  rintro ⟨m, hm⟩; simp at hm; omega

/-- C05 (C and Fortran): a non-negative number of digits returns the integer unchanged. -/
theorem C05_round_nonneg_digits (x nd : Int) (h : 0 ≤ nd) :
    ipycBankersRound x nd = some x ∧ fBankersRound x nd = some x := by
  unfold ipycBankersRound fBankersRound
  simp [h]

/-- C05 (Fortran), the part that holds: away from ties. -/
theorem C05_round_fortran_partial (x : Int) (k : Nat) (hk1 : 1 ≤ k) (hk : k ≤ 18)
    (hfit : InRange 64 (x + copysignInt (5 * 10 ^ (k - 1)) x)) (hnt : ¬ Tie x k) :
    ∃ r, fBankersRound x (-(k : Int)) = some r ∧ IsRound x k r := by
  obtain ⟨h, hM, hpos, hle, he, hp, h5, h10⟩ := round_consts k hk1 hk
  rw [← he] at hfit
  obtain ⟨r, hr, hround⟩ := round_else x k h hM hpos hfit hnt
  refine ⟨r, ?_, hround⟩
  have hM0 : (2 * h) ≠ 0 := by clear hM he hle; omega
  have hchk : chk 64 (5 * (10 : Int) ^ (k - 1)) = some h := by
    rw [← he]; exact chk_some (small_inRange h hpos hle)
  have hne := fmod_ne_pivot x k h hM hpos hnt
  have hcm : fModulo x (2 * h) = some (x - x.fdiv (2 * h) * (2 * h)) := by
    unfold fModulo; simp only [hM0, if_false]
  rw [fBankersRound_else x k _ _ _ _ hk1 hp (pow10_spec (k - 1) (Nat.le_trans (Nat.sub_le ..) hk))
    hchk hcm hne]
  exact hr

/-- C05 (C): what the code does at every tie.  A positive tie gives 0 and a negative tie gives
`2 * 10^k` (with the wrong sign), whatever the magnitude of the argument. -/
theorem C05_round_c_ties (x : Int) (k : Nat) (hk1 : 1 ≤ k) (hk : k ≤ 18) (hx : InRange 64 x)
    (ht : Tie x k) :
    ipycBankersRound x (-(k : Int)) = some (if x < 0 then 2 * 10 ^ k else 0) := by
  obtain ⟨h, hM, hpos, hle, he, hp, h5, h10⟩ := round_consts k hk1 hk
  obtain ⟨m, hm⟩ := ht
  rw [hM] at hm ⊢
  have hM0 : (2 * h) ≠ 0 := by omega
  have hneg : ¬ (-(k : Int) ≥ 0) := by omega
  have hq := tdiv_inRange (w := 64) hM0 hx (by omega)
  obtain ⟨f1, f2, f3, f4, f5⟩ := trunc_facts x (2 * h) hM0
  have hrem : x.tmod (2 * h) = copysignInt h x := by
    have hk : (x.tdiv (2 * h) - m) * (2 * h) = h - x.tmod (2 * h) := by
      rw [Int.sub_mul]; omega
    generalize x.tdiv (2 * h) - m = d at *
    have hd : d = 0 ∨ d = 1 := by
      by_contra hcon
      push Not at hcon
      obtain ⟨c1, c2⟩ := hcon
      rcases lt_or_gt_of_ne c1 with c | c
      · have : d * (2 * h) ≤ (-1) * (2 * h) := Int.mul_le_mul_of_nonneg_right (by omega) (by omega)
        omega
      · have : 2 * (2 * h) ≤ d * (2 * h) := Int.mul_le_mul_of_nonneg_right (by omega) (by omega)
        omega
    unfold copysignInt
    rcases hd with rfl | rfl <;> split <;> omega
  have hcm : cmod 64 x (2 * h) = some (x.tmod (2 * h)) := by
    unfold cmod; simp only [hM0, if_false, hq, if_true]
  unfold ipycBankersRound
  simp only [hneg, if_false, Int.neg_neg, Int.toNat_natCast, hp, h5, h10, Option.bind_eq_bind,
    Option.bind_some, hcm, hrem, if_true]
  have e1 : (h : Int).tdiv (2 * h) = 0 := Int.tdiv_eq_zero_of_lt (by omega) (by omega)
  have e2 : (3 * h : Int).tdiv (2 * h) = 1 := by
    obtain ⟨g1, g2, g3, g4, g5⟩ := trunc_facts (3 * h) (2 * h) hM0
    have g2 := g2 (by omega)
    generalize (3 * h).tdiv (2 * h) = d at *
    by_contra hcon
    rcases lt_or_gt_of_ne hcon with c | c
    · have : d * (2 * h) ≤ 0 * (2 * h) := Int.mul_le_mul_of_nonneg_right (by omega) (by omega)
      omega
    · have : 2 * (2 * h) ≤ d * (2 * h) := Int.mul_le_mul_of_nonneg_right (by omega) (by omega)
      omega
  unfold copysignInt
  by_cases hx0 : x < 0
  · simp only [hx0, if_true]
    rw [show 2 * h - -h = 3 * h by omega,
      chk_some (z := 3 * h) (by unfold InRange; simp only [Nat.add_one_sub_one]; omega)]
    simp only [Option.bind_some]
    unfold cdiv
    simp only [hM0, if_false, e2]
    rw [chk_some (z := 1) (by decide)]
    simp only [Option.bind_some]
    rw [show (1 + 1 % 2 : Int) = 2 from rfl, chk_some (z := 2) (by decide)]
    simp only [Option.bind_some]
    apply chk_some
    unfold InRange; simp only [Nat.add_one_sub_one]; omega
  · simp only [hx0, if_false]
    rw [show 2 * h - h = h by omega,
      chk_some (z := h) (by unfold InRange; simp only [Nat.add_one_sub_one]; omega)]
    simp only [Option.bind_some]
    unfold cdiv
    simp only [hM0, if_false, e1]
    rw [chk_some (z := 0) (by decide)]
    simp only [Option.bind_some]
    rw [show (0 + 0 % 2 : Int) = 0 from rfl, chk_some (z := 0) (by decide)]
    simp only [Option.bind_some, Int.zero_mul]
    rw [chk_some (z := 0) (by decide)]

/-- Python's result is unique. -/
theorem C05_spec_unique (x : Int) (k : Nat) (r r' : Int) (h : IsRound x k r) (h' : IsRound x k r') :
    r = r' := by
  obtain ⟨m, hr, hc⟩ := h; obtain ⟨m', hr', hc'⟩ := h'
  have hpos : (0 : Int) < 10 ^ k := Int.pow_pos (by decide)
  generalize (10 : Int) ^ k = M at *
  have key : (m - m') * M = r - r' := by rw [Int.sub_mul]; omega
  have hd : m - m' = 0 ∨ m - m' = 1 ∨ m - m' = -1 := by
    generalize m - m' = d at *
    by_contra hcon
    push Not at hcon
    obtain ⟨c0, c1, c2⟩ := hcon
    rcases lt_or_gt_of_ne c0 with c | c
    · have : d * M ≤ (-2) * M := Int.mul_le_mul_of_nonneg_right (by omega) (by omega)
      omega
    · have : 2 * M ≤ d * M := Int.mul_le_mul_of_nonneg_right (by omega) (by omega)
      omega
  rcases hd with hd | hd | hd <;> rw [hd] at key <;> omega

/-- C05: the unchanged code violates the property in C: `round(15, -1)` is 20 in Python and 0
in generated C; `round(-5, -1)` is 0 in Python and 20 in generated C. -/
theorem C05_round_c_violated :
    (IsRound 15 1 20 ∧ ipycBankersRound 15 (-1) = some 0) ∧
    (IsRound (-5) 1 0 ∧ ipycBankersRound (-5) (-1) = some 20) :=
  ⟨⟨⟨2, by decide, by decide⟩, by decide⟩, ⟨⟨0, by decide, by decide⟩, by decide⟩⟩

/-- C05: the unchanged code violates the property in Fortran: `round(-25, -1)` is -20 in
Python and -30 in generated Fortran; `round(15, -1)` is 20 in Python and 0. -/
theorem C05_round_fortran_violated :
    (IsRound (-25) 1 (-20) ∧ fBankersRound (-25) (-1) = some (-30)) ∧
    (IsRound 15 1 20 ∧ fBankersRound 15 (-1) = some 0) :=
  ⟨⟨⟨-2, by decide, by decide⟩, by decide⟩, ⟨⟨2, by decide, by decide⟩, by decide⟩⟩

/-- `numpy.sign` on integers (part of the run-time library): -1, 0 or 1 with the sign of `x`. -/
theorem C05_sign (x : Int) : pySign x = x.sign := by
  unfold pySign
  rcases lt_trichotomy x 0 with h | h | h
  · have := Int.sign_eq_neg_one_of_neg h; split <;> omega
  · subst h; decide
  · have := Int.sign_eq_one_of_pos h; split <;> split <;> omega

end Verif.IntMath
