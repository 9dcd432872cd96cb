import Verif.Floats.Model
import Mathlib.Tactic.IntervalCases

/-!
# Arithmetic on floating-point numbers: proofs
-/

namespace Verif.Floats
open Spec Model

theorem fl_int {m : ℤ} (h : |m| ≤ 2 ^ 53) : fl (m : ℚ) = m := fl_exact (rep_int h)

theorem fl_one : fl 1 = 1 := by exact_mod_cast fl_int (m := 1) (by norm_num)

theorem fl_ten0 : fl ((10 : ℚ) ^ (0 : ℤ)) = 1 := by rw [zpow_zero, fl_one]

/-- Floating-point numbers of at least `2 ^ j` are multiples of `2 ^ (j - 52)`. -/
theorem rep_mul {x : ℚ} (hx : Rep x) (j : ℤ) (h : (2 : ℚ) ^ j ≤ x) : ∃ n : ℤ, x = n * 2 ^ (j - 52) :=
  hx.multiple (h.trans (le_abs_self x))

theorem trunc_nonneg {x : ℚ} (h : 0 ≤ x) : trunc x = ⌊x⌋ := if_neg (not_lt.2 h)

theorem trunc_neg (x : ℚ) : trunc (-x) = -trunc x := by
  unfold trunc
  rcases lt_trichotomy x 0 with h | h | h
  · rw [if_neg (by linarith), if_pos h, Int.floor_neg]
  · subst h; simp
  · rw [if_pos (by linarith), if_neg (by linarith), Int.ceil_neg]

theorem toI64_of {x : ℚ} {k : ℤ} (h0 : 0 ≤ x) (h1 : (k : ℚ) ≤ x) (h2 : x < k + 1) (hk : k < 2 ^ 63) : toI64 x = some k := by
  have hf : ⌊x⌋ = k := Int.floor_eq_iff.2 ⟨h1, h2⟩
  have : 0 ≤ k := hf ▸ Int.floor_nonneg.2 h0
  unfold toI64
  rw [trunc_nonneg h0, hf, if_pos]
  unfold inRange
  simp only [Bool.and_eq_true, decide_eq_true_eq]
  omega

/-- The numbers just below one half. -/
theorem below_half {x : ℚ} (hx : Rep x) (h : x < 1/2) (hne : x ≠ 1/2 - 2 ^ (-54 : ℤ)) : x ≤ 1/2 - 2 ^ (-53 : ℤ) := by
  rcases lt_or_ge x (1/4) with h4 | h4
  · norm_num; linarith
  · obtain ⟨n, hn⟩ := rep_mul hx (-2) (by norm_num; linarith)
    norm_num at hn hne ⊢
    have h1 : (n : ℚ) < 2 ^ 53 := by rw [hn] at h; norm_num; linarith
    have h1' : n < 2 ^ 53 := by exact_mod_cast h1
    have h2 : n ≠ 2 ^ 53 - 1 := by rintro rfl; apply hne; rw [hn]; norm_num
    have h3 : n ≤ 2 ^ 53 - 2 := by omega
    have h4 : (n : ℚ) ≤ 2 ^ 53 - 2 := by exact_mod_cast h3
    rw [hn]; norm_num at h4; linarith

/-- An integer part that is not the last one below a power of two: adding one half keeps the number below the next
integer also after rounding. -/
theorem add_half_low {x : ℚ} (hx : Rep x) {m : ℤ} (hm : 1 ≤ m) (hm' : m < 2 ^ 52) (h1 : (m : ℚ) ≤ x) (h2 : x < m + 1/2) :
    fl (x + 1/2) < m + 1 := by
  obtain ⟨j, hj⟩ : ∃ j : ℕ, j = Nat.log 2 m.toNat := ⟨_, rfl⟩
  have hm0 : m.toNat ≠ 0 := by omega
  have a1 : 2 ^ j ≤ m.toNat := hj ▸ Nat.pow_log_le_self 2 hm0
  have a2 : m.toNat < 2 ^ (j + 1) := hj ▸ Nat.lt_pow_succ_log_self (by norm_num) _
  have a1' : (2 : ℤ) ^ j ≤ m := by
    have : ((2 ^ j : ℕ) : ℤ) ≤ m.toNat := by exact_mod_cast a1
    push_cast at this; omega
  have a2' : m + 1 ≤ (2 : ℤ) ^ (j + 1) := by
    have : ((m.toNat : ℕ) : ℤ) < ((2 ^ (j + 1) : ℕ) : ℤ) := by exact_mod_cast a2
    push_cast at this; omega
  have hj52 : j < 52 := by
    have : (2 : ℤ) ^ j < 2 ^ 52 := lt_of_le_of_lt a1' hm'
    exact (pow_lt_pow_iff_right₀ (by norm_num)).1 this
  obtain ⟨d, hd⟩ : ∃ d : ℕ, 52 = j + d + 1 := ⟨51 - j, by omega⟩
  obtain ⟨n, hn⟩ := rep_mul hx j (by
    have : ((2 ^ j : ℤ) : ℚ) ≤ m := by exact_mod_cast a1'
    push_cast at this
    rw [zpow_natCast]; linarith)
  have he : (j : ℤ) - 52 = -((d : ℤ) + 1) := by omega
  rw [he, zpow_neg, ← Nat.cast_succ, zpow_natCast, Nat.succ_eq_add_one] at hn
  have hp : (0 : ℚ) < 2 ^ (d + 1) := by positivity
  have hn' : x * 2 ^ (d + 1) = n := by rw [hn]; field_simp
  -- the number in units of the last place
  have hlt : (n : ℚ) < m * 2 ^ (d + 1) + 2 ^ d := by
    rw [← hn']
    have := mul_lt_mul_of_pos_right h2 hp
    rw [pow_succ] at this ⊢; linarith
  have hlt' : n < m * 2 ^ (d + 1) + 2 ^ d := by exact_mod_cast hlt
  have hle : n + 1 ≤ m * 2 ^ (d + 1) + 2 ^ d := hlt'
  have hle' : (n : ℚ) + 1 ≤ m * 2 ^ (d + 1) + 2 ^ d := by exact_mod_cast hle
  have hrep : Rep ((((m + 1) * 2 ^ (d + 1) - 1 : ℤ) : ℚ) * 2 ^ (-((d : ℤ) + 1))) := by
    apply rep_scaled
    have hb : (m + 1) * 2 ^ (d + 1) ≤ (2 : ℤ) ^ 53 := by
      calc (m + 1) * 2 ^ (d + 1) ≤ (2 : ℤ) ^ (j + 1) * 2 ^ (d + 1) := by gcongr
        _ = 2 ^ 53 := by rw [← pow_add]; congr 1; omega
    have hpos : (1 : ℤ) ≤ 2 ^ (d + 1) := one_le_pow₀ (by norm_num)
    rw [abs_of_nonneg (by nlinarith)]
    linarith
  have hz : (((m + 1) * 2 ^ (d + 1) - 1 : ℤ) : ℚ) * 2 ^ (-((d : ℤ) + 1)) = m + 1 - (2 ^ (d + 1))⁻¹ := by
    rw [zpow_neg, ← Nat.cast_succ, zpow_natCast]
    push_cast
    field_simp
  rw [hz] at hrep
  have hxle : x + 1/2 ≤ m + 1 - (2 ^ (d + 1))⁻¹ := by
    rw [hn]
    have e : (m : ℚ) + 1 - (2 ^ (d + 1))⁻¹ - (n * (2 ^ (d + 1))⁻¹ + 1/2) =
      (m * 2 ^ (d + 1) + 2 ^ d - (n + 1)) * (2 ^ (d + 1))⁻¹ := by
      rw [pow_succ]; field_simp; ring
    have : 0 ≤ (m * 2 ^ (d + 1) + 2 ^ d - ((n : ℚ) + 1)) * (2 ^ (d + 1))⁻¹ :=
      mul_nonneg (by linarith) (by positivity)
    linarith
  have h := fl_mono hxle
  rw [fl_exact hrep] at h
  have : (0 : ℚ) < (2 ^ (d + 1))⁻¹ := by positivity
  linarith

theorem add_half {x : ℚ} (hx : Rep x) (h0 : 0 ≤ x) (h52 : x < 2 ^ 52) (hne : x ≠ 1/2 - 2 ^ (-54 : ℤ)) :
    (⌊x + 1/2⌋ : ℚ) ≤ fl (x + 1/2) ∧ fl (x + 1/2) < ⌊x + 1/2⌋ + 1 := by
  have hf0 := Int.floor_le x
  have hf1 := Int.lt_floor_add_one x
  have hm0 : 0 ≤ ⌊x⌋ := Int.floor_nonneg.2 h0
  have hm1 : ⌊x⌋ < 2 ^ 52 := by rw [Int.floor_lt]; exact_mod_cast h52
  obtain ⟨m, hm⟩ : ∃ m, m = ⌊x⌋ := ⟨_, rfl⟩
  rw [← hm] at hf0 hf1 hm0 hm1
  rcases lt_or_ge x (m + 1/2) with h | h
  · have hk : ⌊x + 1/2⌋ = m := Int.floor_eq_iff.2 ⟨by linarith, by linarith⟩
    rw [hk]
    constructor
    · have := fl_mono (show (m : ℚ) ≤ x + 1/2 by linarith)
      rwa [fl_int (by rw [abs_of_nonneg hm0]; linarith)] at this
    · rcases eq_or_lt_of_le hm0 with h00 | h00
      · rw [← h00] at h ⊢
        have hb := below_half hx (by simpa using h) hne
        have := fl_mono (show x + 1/2 ≤ ((2 ^ 53 - 1 : ℤ) : ℚ) * 2 ^ (-53 : ℤ) by norm_num at hb ⊢; linarith)
        rw [fl_exact (rep_scaled (by norm_num) _)] at this
        norm_num at this ⊢; linarith
      · exact add_half_low hx h00 hm1 hf0 h
  · have hk : ⌊x + 1/2⌋ = m + 1 := Int.floor_eq_iff.2 ⟨by push_cast; linarith, by push_cast; linarith⟩
    rw [hk]
    constructor
    · have := fl_mono (show ((m + 1 : ℤ) : ℚ) ≤ x + 1/2 by push_cast; linarith)
      rwa [fl_int (by rw [abs_of_nonneg (by omega)]; omega)] at this
    · rcases eq_or_lt_of_le (show m ≤ 2 ^ 52 - 1 by omega) with he | hl
      · -- the last integer part, where there are only halves
        obtain ⟨n, hn⟩ := rep_mul hx 51 (by
          rw [he] at hf0; push_cast at hf0; norm_num at hf0 ⊢; linarith)
        have hx' : x = m + 1/2 := by
          norm_num at hn
          have b1 : (n : ℚ) < 2 * m + 2 := by rw [hn] at hf1; linarith
          have b2 : 2 * (m : ℚ) + 1 ≤ n := by rw [hn] at h; linarith
          have b1' : n < 2 * m + 2 := by exact_mod_cast b1
          have b2' : 2 * m + 1 ≤ n := by exact_mod_cast b2
          have : n = 2 * m + 1 := by omega
          rw [hn, this]; push_cast; ring
        rw [hx', show (m : ℚ) + 1/2 + 1/2 = ((m + 1 : ℤ) : ℚ) by push_cast; ring,
          fl_int (by rw [abs_of_nonneg (by omega)]; omega)]
        linarith
      · have := fl_mono (show x + 1/2 ≤ ((2 * m + 3 : ℤ) : ℚ) * 2 ^ (-1 : ℤ) by push_cast; norm_num; linarith)
        rw [fl_exact (rep_scaled (by rw [abs_of_nonneg (by omega)]; omega) _)] at this
        push_cast at this ⊢; norm_num at this; linarith

theorem floor_half (x : ℚ) : -(1/2) ≤ x - ⌊x + 1/2⌋ ∧ x - ⌊x + 1/2⌋ < 1/2 := by
  have h0 := Int.floor_le (x + 1/2)
  have h1 := Int.lt_floor_add_one (x + 1/2)
  constructor <;> linarith

theorem floor_half_bounds {x : ℚ} (h0 : 0 ≤ x) (h52 : x < 2 ^ 52) : 0 ≤ ⌊x + 1/2⌋ ∧ ⌊x + 1/2⌋ ≤ 2 ^ 52 := by
  constructor
  · exact Int.floor_nonneg.2 (by linarith)
  · have : ⌊x + 1/2⌋ < 2 ^ 52 + 1 := by rw [Int.floor_lt]; push_cast; linarith
    omega

/-- The difference to the nearest integer is exact. -/
theorem diff_rep {x : ℚ} (hx : Rep x) (h0 : 0 ≤ x) (h52 : x < 2 ^ 52) : Rep (x - ⌊x + 1/2⌋) := by
  rcases lt_or_ge x (1/2) with h | h
  · have : ⌊x + 1/2⌋ = 0 := Int.floor_eq_iff.2 ⟨by norm_num; linarith, by norm_num; linarith⟩
    rw [this]; simpa using hx
  · obtain ⟨n, hn⟩ := rep_mul hx (-1) (by norm_num; linarith)
    obtain ⟨f0, f1⟩ := floor_half x
    obtain ⟨k, hk⟩ : ∃ k, k = ⌊x + 1/2⌋ := ⟨_, rfl⟩
    rw [← hk] at f0 f1 ⊢
    have e : x - k = ((n - k * 2 ^ 53 : ℤ) : ℚ) * 2 ^ (-53 : ℤ) := by
      rw [hn]; push_cast; norm_num; ring
    rw [e] at f0 f1 ⊢
    apply rep_scaled
    norm_num at f0 f1
    have b0 : -(2 ^ 53 : ℚ) ≤ ((n - k * 2 ^ 53 : ℤ) : ℚ) := by push_cast; norm_num; linarith
    have b1 : ((n - k * 2 ^ 53 : ℤ) : ℚ) ≤ 2 ^ 53 := by push_cast; norm_num; linarith
    rw [abs_le]
    exact ⟨by exact_mod_cast b0, by exact_mod_cast b1⟩

theorem half_rep {x : ℚ} (hx : Rep x) : fl (x * (1/2)) = x * (1/2) := by
  have := hx.scale (-1)
  norm_num at this
  exact fl_exact (by norm_num; exact this)

/-- Halves: the second step gives the even one of the two integers. -/
theorem tie_step {x : ℚ} {k : ℤ} (hk0 : 1 ≤ k) (hk : k ≤ 2 ^ 52) (hx : x = k - 1/2) :
    ∃ i : ℤ, toI64 (fl (x * (1/2) + 1/2)) = some i ∧ RoundsTo x (2 * i) ∧ 0 ≤ i ∧ i ≤ 2 ^ 51 := by
  rcases Int.even_or_odd' k with ⟨i, hi | hi⟩
  · refine ⟨i, toI64_of ?_ ?_ ?_ (by omega), ⟨?_, fun _ => ⟨i, by ring⟩⟩, by omega, by omega⟩
    · have := fl_mono (show (0 : ℚ) ≤ x * (1/2) + 1/2 by
        have : (1 : ℚ) ≤ k := by exact_mod_cast hk0
        rw [hx]; linarith)
      rwa [fl_zero] at this
    · have := fl_mono (show (i : ℚ) ≤ x * (1/2) + 1/2 by rw [hx, hi]; push_cast; linarith)
      rwa [fl_int (by rw [abs_le]; constructor <;> omega)] at this
    · have := fl_mono (show x * (1/2) + 1/2 ≤ ((2 * i + 1 : ℤ) : ℚ) * 2 ^ (-1 : ℤ) by
        rw [hx, hi]; push_cast; norm_num; linarith)
      rw [fl_exact (rep_scaled (by rw [abs_le]; constructor <;> omega) _)] at this
      push_cast at this; norm_num at this; linarith
    · rw [hx, hi]; push_cast
      rw [show (2 : ℚ) * i - 1/2 - 2 * i = -(1/2) by ring]; norm_num
  · refine ⟨i, toI64_of ?_ ?_ ?_ (by omega), ⟨?_, fun _ => ⟨i, by ring⟩⟩, by omega, by omega⟩
    · have := fl_mono (show (0 : ℚ) ≤ x * (1/2) + 1/2 by
        have : (1 : ℚ) ≤ k := by exact_mod_cast hk0
        rw [hx]; linarith)
      rwa [fl_zero] at this
    · have := fl_mono (show (i : ℚ) ≤ x * (1/2) + 1/2 by rw [hx, hi]; push_cast; linarith)
      rwa [fl_int (by rw [abs_le]; constructor <;> omega)] at this
    · have e : x * (1/2) + 1/2 = ((4 * i + 3 : ℤ) : ℚ) * 2 ^ (-2 : ℤ) := by
        rw [hx, hi]; push_cast; norm_num; ring
      rw [e, fl_exact (rep_scaled (by rw [abs_le]; constructor <;> omega) _)]
      push_cast; norm_num; linarith
    · rw [hx, hi]; push_cast
      rw [show (2 : ℚ) * i + 1 - 1/2 - 2 * i = 1/2 by ring]; norm_num

theorem roundsTo_floor {x : ℚ} (h : x - ⌊x + 1/2⌋ ≠ -(1/2)) : RoundsTo x ⌊x + 1/2⌋ := by
  obtain ⟨f0, f1⟩ := floor_half x
  have f0' := lt_of_le_of_ne f0 (Ne.symm h)
  have : |x - ⌊x + 1/2⌋| < 1/2 := by rw [abs_lt]; exact ⟨by linarith, by linarith⟩
  exact ⟨by linarith, fun h => by linarith⟩

theorem roundsTo_int (n : ℤ) : RoundsTo n n := by
  unfold RoundsTo; rw [sub_self, abs_zero]; norm_num

theorem cRound_small' {x : ℚ} (hx : Rep x) (h0 : 0 ≤ x) (h52 : x < 2 ^ 52) (hne : x ≠ 1/2 - 2 ^ (-54 : ℤ)) :
    ∃ k : ℤ, RoundsTo x k ∧ cRound x 0 = some (k : ℚ) := by
  obtain ⟨b0, b1⟩ := floor_half_bounds h0 h52
  obtain ⟨a0, a1⟩ := add_half hx h0 h52 hne
  have hd := fl_exact (diff_rep hx h0 h52)
  obtain ⟨f0, f1⟩ := floor_half x
  have hs0 : 0 ≤ fl (x + 1/2) := le_trans (by exact_mod_cast b0) a0
  have ht := toI64_of hs0 a0 a1 (by omega)
  have htie : ∀ k : ℤ, k = ⌊x + 1/2⌋ → x = k - 1/2 → 1 ≤ k := by
    intro k hk he
    have : (0 : ℚ) < k := by linarith
    exact_mod_cast this
  obtain ⟨k, hk⟩ : ∃ k, k = ⌊x + 1/2⌋ := ⟨_, rfl⟩
  rw [← hk] at b0 b1 a0 a1 hd f0 f1 ht htie
  have hkf : fl (k : ℚ) = k := fl_int (by rw [abs_le]; constructor <;> omega)
  simp only [cRound, fl_ten0, mul_one, fl_exact hx, if_neg (not_lt.2 h0), ht, hkf, hd, le_refl, true_and, half_rep hx,
    div_one]
  by_cases h : x - k = -(1/2)
  · obtain ⟨i, hi, hr, i0, i1⟩ := tie_step (htie k rfl (by linarith)) b1 (x := x) (by linarith)
    refine ⟨2 * i, hr, ?_⟩
    rw [if_pos (Or.inr (by rw [h]; norm_num)), hi]
    have e1 : fl (i : ℚ) = i := fl_int (by rw [abs_le]; constructor <;> omega)
    have e2 : fl ((i : ℚ) * 2) = i * 2 := by
      have := fl_int (m := i * 2) (by rw [abs_le]; constructor <;> omega)
      push_cast at this; exact this
    simp only [e1, e2]
    congr 1; push_cast; ring
  · refine ⟨k, hk ▸ roundsTo_floor (hk ▸ h), ?_⟩
    rw [if_neg]
    rintro (h' | h')
    · linarith
    · exact h (by rw [h']; norm_num)

/-- For the last number below one half, two wrong steps give the right result. -/
theorem cRound_pred : cRound (1/2 - 2 ^ (-54 : ℤ)) 0 = some 0 := by decide +kernel

theorem cRound_small {x : ℚ} (hx : Rep x) (h0 : 0 ≤ x) (h52 : x < 2 ^ 52) :
    ∃ k : ℤ, RoundsTo x k ∧ cRound x 0 = some (k : ℚ) := by
  by_cases hne : x = 1/2 - 2 ^ (-54 : ℤ)
  · refine ⟨0, ?_, by rw [hne, cRound_pred]; norm_num⟩
    unfold RoundsTo
    rw [hne, Int.cast_zero, sub_zero, abs_of_pos (by norm_num)]
    norm_num
  · exact cRound_small' hx h0 h52 hne

/-- Floating-point numbers of at least `2 ^ 52` are integers. -/
theorem large_int {x : ℚ} (hx : Rep x) (h : 2 ^ 52 ≤ x) : ∃ n : ℤ, x = n := by
  obtain ⟨n, hn⟩ := rep_mul hx 52 (by norm_num at h ⊢; exact h)
  exact ⟨n, by simpa using hn⟩

/-- Floating-point numbers of at least `2 ^ 53` are even integers. -/
theorem large_even {x : ℚ} (hx : Rep x) (h : 2 ^ 53 ≤ x) : ∃ n : ℤ, x = 2 * n := by
  obtain ⟨n, hn⟩ := rep_mul hx 53 (by norm_num at h ⊢; exact h)
  exact ⟨n, by rw [hn]; norm_num; ring⟩

theorem fl_large {n : ℤ} (hn : Rep n) (h : 2 ^ 52 ≤ n) (he : 2 ^ 53 ≤ n ∨ Even n) : fl ((n : ℚ) + 1/2) = n := by
  have hq : (2 : ℚ) ^ 52 ≤ n := by exact_mod_cast h
  symm
  refine nearest_iff.1 ⟨hn, fun z hz => ?_, fun z hz hd hne => ?_⟩
  · rw [show (n : ℚ) - (n + 1/2) = -(1/2) by ring, abs_neg, abs_of_pos (by norm_num)]
    rcases lt_or_ge z (2 ^ 52) with hlt | hge
    · rw [abs_of_neg (by linarith)]; linarith
    · obtain ⟨l, rfl⟩ := large_int hz hge
      rcases le_or_gt l n with hl | hl
      · have : (l : ℚ) ≤ n := by exact_mod_cast hl
        rw [abs_of_neg (by linarith)]; linarith
      · have : (n : ℚ) + 1 ≤ l := by exact_mod_cast hl
        rw [abs_of_pos (by linarith)]; linarith
  · have hz1 : z = n + 1 := by
      rw [show (n : ℚ) - (n + 1/2) = -(1/2) by ring] at hd
      rcases abs_eq_abs.1 hd with h | h
      · exact absurd (by linarith) hne
      · linarith
    rcases lt_or_ge n (2 ^ 53) with hlt | hge
    · rcases he with he | ⟨i, hi⟩
      · omega
      · exact ⟨i, 1, by rw [abs_lt]; constructor <;> omega, by rw [hi]; push_cast; ring⟩
    · have hq : (2 : ℚ) ^ 53 ≤ n := by exact_mod_cast hge
      obtain ⟨a, ha⟩ := large_even hn hq
      obtain ⟨b, hb⟩ := large_even hz (by rw [hz1]; linarith)
      have ha' : n = 2 * a := by exact_mod_cast ha
      rw [hz1] at hb
      have hb' : n + 1 = 2 * b := by exact_mod_cast hb
      omega

theorem cRound_large {n : ℤ} (hn : Rep n) (h : 2 ^ 52 ≤ n) (he : 2 ^ 53 ≤ n ∨ Even n) (h63 : n < 2 ^ 63) :
    cRound n 0 = some (n : ℚ) := by
  have hq : (2 : ℚ) ^ 52 ≤ n := by exact_mod_cast h
  have h0 : (0 : ℚ) ≤ n := by linarith
  have ht : toI64 ((n : ℚ)) = some n := toI64_of h0 le_rfl (by linarith) h63
  simp only [cRound, fl_ten0, mul_one, fl_exact hn, if_neg (not_lt.2 h0), fl_large hn h he, ht, sub_self, fl_zero, le_refl,
    true_and, div_one]
  rw [if_neg (by norm_num)]

/-- All numbers for which the C code is right. -/
theorem cRound_nonneg {x : ℚ} (hx : Rep x) (h0 : 0 ≤ x) (h63 : x < 2 ^ 63)
    (hodd : ∀ n : ℤ, x = n → 2 ^ 52 < n → n < 2 ^ 53 → Even n) : ∃ k : ℤ, RoundsTo x k ∧ cRound x 0 = some (k : ℚ) := by
  rcases lt_or_ge x (2 ^ 52) with h | h
  · exact cRound_small hx h0 h
  · obtain ⟨n, rfl⟩ := large_int hx h
    have h' : 2 ^ 52 ≤ n := by exact_mod_cast h
    refine ⟨n, roundsTo_int n, cRound_large hx h' ?_ (by exact_mod_cast h63)⟩
    rcases lt_or_ge n (2 ^ 53) with hl | hl
    · rcases eq_or_lt_of_le h' with e | e
      · exact .inr (e ▸ ⟨2 ^ 51, by norm_num⟩)
      · exact .inr (hodd n rfl e hl)
    · exact .inl hl

/-! ## Negative numbers -/

theorem inRange_neg {k : ℤ} (h : |k| < 2 ^ 63) : inRange (-k) = inRange k := by
  have := abs_lt.1 h
  have h1 : inRange k = true := by simp only [inRange, Bool.and_eq_true, decide_eq_true_eq]; omega
  have h2 : inRange (-k) = true := by simp only [inRange, Bool.and_eq_true, decide_eq_true_eq]; omega
  rw [h1, h2]

theorem RoundsTo.neg {x : ℚ} {k : ℤ} (h : RoundsTo x k) : RoundsTo (-x) (-k) := by
  have e : |(-x) - ((-k : ℤ) : ℚ)| = |x - k| := by
    push_cast; rw [show -x - -(k : ℚ) = -(x - k) by ring, abs_neg]
  unfold RoundsTo
  rw [e]
  exact ⟨h.1, fun h' => (h.2 h').neg⟩

theorem toI64_neg {x : ℚ} {k : ℤ} (h : toI64 x = some k) (hx : 0 ≤ x) : toI64 (-x) = some (-k) := by
  unfold toI64 at h ⊢
  split at h
  · rename_i hr
    simp only [Option.some.injEq] at h
    rw [trunc_neg, h]
    rw [h] at hr
    have hk : 0 ≤ k := by rw [← h, trunc_nonneg hx]; exact Int.floor_nonneg.2 hx
    have : |k| < 2 ^ 63 := by
      simp [inRange] at hr
      rw [abs_of_nonneg hk]; omega
    rw [inRange_neg this, if_pos hr]
  · cases h

theorem fl_pos {x : ℚ} (h : 0 ≤ x) : 0 ≤ fl x := by have := fl_mono h; rwa [fl_zero] at this

theorem cRound_neg {x y : ℚ} {n : ℤ} (h0 : 0 < fl (x * fl (10 ^ n))) (h : cRound x n = some y) :
    cRound (-x) n = some (-y) := by
  have ha : fl (-x * fl (10 ^ n)) = -fl (x * fl (10 ^ n)) := by rw [neg_mul, fl_neg]
  have hx : Rep (fl (x * fl (10 ^ n))) := fl_rep _
  simp only [cRound, ha] at h ⊢
  generalize fl (x * fl (10 ^ n)) = x at *
  generalize fl (10 ^ n) = f at *
  simp only [if_neg (not_lt.2 h0.le), if_pos (neg_lt_zero.2 h0), half_rep hx, half_rep hx.neg] at h ⊢
  have e1 : fl (-x + -1/2) = -fl (x + 1/2) := by rw [← fl_neg]; congr 1; ring
  have e2 : fl (-x * (1/2) + -1/2) = -fl (x * (1/2) + 1/2) := by rw [← fl_neg]; congr 1; ring
  rw [e1, e2]
  split at h
  · cases h
  · rename_i k hk
    rw [toI64_neg hk (fl_pos (by linarith))]
    simp only
    have e3 : fl ((-k : ℤ) : ℚ) = -fl k := by push_cast; exact fl_neg _
    have e4 : fl (-x - fl ((-k : ℤ) : ℚ)) = -fl (x - fl k) := by
      rw [e3, show -x - -fl (k : ℚ) = -(x - fl k) by ring, fl_neg]
    rw [e4, e3]
    split at h
    · rename_i hd
      rw [if_pos ⟨hd.1, by rcases hd.2 with hd | hd <;> rw [hd] <;> norm_num⟩]
      split at h
      · cases h
      · rename_i k2 hk2
        rw [toI64_neg hk2 (fl_pos (by linarith))]
        simp only [Option.some.injEq] at h ⊢
        rw [← h]
        push_cast
        rw [fl_neg, neg_mul, fl_neg, neg_div, fl_neg]
    · rename_i hd
      rw [if_neg]
      · simp only [Option.some.injEq] at h ⊢
        rw [← h, neg_div, fl_neg]
      · rintro ⟨hn, hc | hc⟩
        · exact hd ⟨hn, .inr (by linarith)⟩
        · exact hd ⟨hn, .inl (by linarith)⟩

/-! ## Digits -/

theorem rep_ten {n : ℕ} (h : n ≤ 22) : Rep (10 ^ n) := by
  have e : (10 : ℚ) ^ n = ((5 ^ n : ℤ) : ℚ) * 2 ^ (n : ℤ) := by
    push_cast; rw [zpow_natCast, ← mul_pow]; norm_num
  rw [e]
  apply rep_scaled
  rw [abs_of_nonneg (by positivity)]
  calc (5 : ℤ) ^ n ≤ 5 ^ 22 := pow_le_pow_right₀ (by norm_num) h
    _ ≤ _ := by norm_num

theorem fl_ten {n : ℕ} (h : n ≤ 22) : fl ((10 : ℚ) ^ (n : ℤ)) = 10 ^ n := by rw [zpow_natCast, fl_exact (rep_ten h)]

theorem cRound_digits {x : ℚ} {n : ℕ} (hn : n ≤ 22) (hp : Rep (x * 10 ^ n)) (h0 : 0 ≤ x * 10 ^ n)
    (h52 : x * 10 ^ n < 2 ^ 52) (hne : x * 10 ^ n ≠ 1/2 - 2 ^ (-54 : ℤ)) (htie : n = 0 ∨ ∀ k : ℤ, 2 * |x * 10 ^ n - k| ≠ 1) :
    ∃ y, RoundsToDigits x n y ∧ cRound x n = some y := by
  rcases Nat.eq_zero_or_pos n with rfl | hn0
  · simp only [pow_zero, mul_one] at hp h0 h52 hne
    obtain ⟨k, hk, h⟩ := cRound_small hp h0 h52
    refine ⟨k, ⟨k, by simpa using hk, ?_⟩, h⟩
    rw [pow_zero, div_one]
    have := nearest_iff.2 (show (k : ℚ) = fl k from ?_)
    · exact this
    · simp only [cRound, Nat.cast_zero, fl_ten0, div_one] at h
      split at h
      · cases h
      · split at h
        · split at h
          · cases h
          · simp only [Option.some.injEq] at h
            rw [← h, fl_exact (fl_rep _), fl_exact (fl_rep _)]
        · simp only [Option.some.injEq] at h
          rw [← h, fl_exact (fl_rep _), fl_exact (fl_rep _)]
  · have htie : ∀ k : ℤ, 2 * |x * 10 ^ n - k| ≠ 1 := htie.resolve_left (by omega)
    have hr : RoundsTo (x * 10 ^ n) ⌊x * 10 ^ n + 1/2⌋ := by
      apply roundsTo_floor
      intro hc
      apply htie ⌊x * 10 ^ n + 1/2⌋
      rw [hc]; norm_num
    obtain ⟨b0, b1⟩ := floor_half_bounds h0 h52
    obtain ⟨a0, a1⟩ := add_half hp h0 h52 hne
    have hs0 : 0 ≤ fl (x * 10 ^ n + 1/2) := le_trans (by exact_mod_cast b0) a0
    have ht := toI64_of hs0 a0 a1 (by omega)
    have hkf : fl (⌊x * 10 ^ n + 1/2⌋ : ℚ) = ⌊x * 10 ^ n + 1/2⌋ := fl_int (by rw [abs_le]; constructor <;> omega)
    refine ⟨_, ⟨_, hr, fl_nearest _⟩, ?_⟩
    simp only [cRound, fl_ten hn, fl_exact hp, if_neg (not_lt.2 h0), ht, hkf]
    rw [if_neg]
    rintro ⟨h, _⟩
    omega

/-! ## Fortran -/

theorem nint_nonneg {x : ℚ} (h0 : 0 ≤ x) (h : x < 2 ^ 62) : nint x = some ⌊x + 1/2⌋ := by
  unfold nint
  rw [if_neg (not_lt.2 h0)]
  simp only
  rw [if_pos]
  have h1 : 0 ≤ ⌊x + 1/2⌋ := Int.floor_nonneg.2 (by linarith)
  have h2 : ⌊x + 1/2⌋ < 2 ^ 62 + 1 := by rw [Int.floor_lt]; push_cast; linarith
  simp only [inRange, Bool.and_eq_true, decide_eq_true_eq]; omega

theorem nint_int {n : ℤ} (h0 : 0 ≤ n) (h : n < 2 ^ 63) : nint n = some n := by
  unfold nint
  have hq : (0 : ℚ) ≤ n := by exact_mod_cast h0
  have : ⌊(n : ℚ) + 1/2⌋ = n := Int.floor_eq_iff.2 ⟨by linarith, by linarith⟩
  rw [if_neg (not_lt.2 hq), this]
  simp only
  rw [if_pos]
  simp only [inRange, Bool.and_eq_true, decide_eq_true_eq]; omega

theorem tie_nint {x : ℚ} {k : ℤ} (hk0 : 1 ≤ k) (hk : k ≤ 2 ^ 52) (hx : x = k - 1/2) :
    ∃ i : ℤ, nint (x * (1/2)) = some i ∧ RoundsTo x (2 * i) ∧ 0 ≤ i ∧ i ≤ 2 ^ 51 := by
  have hk0' : (1 : ℚ) ≤ k := by exact_mod_cast hk0
  have hk' : (k : ℚ) ≤ 2 ^ 52 := by exact_mod_cast hk
  rw [nint_nonneg (by rw [hx]; linarith) (by rw [hx]; norm_num at hk' ⊢; linarith)]
  rcases Int.even_or_odd' k with ⟨i, hi | hi⟩
  · refine ⟨i, ?_, ⟨?_, fun _ => ⟨i, by ring⟩⟩, by omega, by omega⟩
    · congr 1
      rw [hx, hi]; push_cast
      exact Int.floor_eq_iff.2 ⟨by linarith, by linarith⟩
    · rw [hx, hi]; push_cast
      rw [show (2 : ℚ) * i - 1/2 - 2 * i = -(1/2) by ring]; norm_num
  · refine ⟨i, ?_, ⟨?_, fun _ => ⟨i, by ring⟩⟩, by omega, by omega⟩
    · congr 1
      rw [hx, hi]; push_cast
      exact Int.floor_eq_iff.2 ⟨by linarith, by linarith⟩
    · rw [hx, hi]; push_cast
      rw [show (2 : ℚ) * i + 1 - 1/2 - 2 * i = 1/2 by ring]; norm_num

theorem fRound_nonneg {x : ℚ} (hx : Rep x) (h0 : 0 ≤ x) (h63 : x < 2 ^ 63) :
    ∃ k : ℤ, RoundsTo x k ∧ fRound x 0 = some (k : ℚ) := by
  rcases lt_or_ge x (2 ^ 52) with h52 | h52
  · obtain ⟨b0, b1⟩ := floor_half_bounds h0 h52
    have hd := fl_exact (diff_rep hx h0 h52)
    obtain ⟨f0, f1⟩ := floor_half x
    have ht := nint_nonneg h0 (by linarith)
    obtain ⟨k, hk⟩ : ∃ k, k = ⌊x + 1/2⌋ := ⟨_, rfl⟩
    rw [← hk] at b0 b1 hd f0 f1 ht
    have hkf : fl (k : ℚ) = k := fl_int (by rw [abs_le]; constructor <;> omega)
    simp only [fRound, neg_zero, fl_ten0, mul_one, fl_exact hx, ht, hkf, hd, le_refl, true_and, half_rep hx]
    by_cases h : x - k = -(1/2)
    · have hk1 : 1 ≤ k := by
        have : (0 : ℚ) < k := by linarith
        exact_mod_cast this
      obtain ⟨i, hi, hr, i0, i1⟩ := tie_nint hk1 b1 (x := x) (by linarith)
      refine ⟨2 * i, hr, ?_⟩
      rw [if_pos (Or.inr (by rw [h]; norm_num)), hi]
      have e2 : fl ((i * 2 : ℤ) : ℚ) = ((i * 2 : ℤ) : ℚ) := fl_int (by rw [abs_le]; constructor <;> omega)
      simp only [e2]
      rw [if_pos (by simp only [inRange, Bool.and_eq_true, decide_eq_true_eq]; omega)]
      congr 1; push_cast; ring
    · refine ⟨k, hk ▸ roundsTo_floor (hk ▸ h), ?_⟩
      rw [if_neg]
      rintro (h' | h')
      · linarith
      · exact h (by rw [h']; norm_num)
  · obtain ⟨n, rfl⟩ := large_int hx h52
    have h' : 2 ^ 52 ≤ n := by exact_mod_cast h52
    refine ⟨n, roundsTo_int n, ?_⟩
    simp only [fRound, neg_zero, fl_ten0, mul_one, fl_exact hx, nint_int (show 0 ≤ n by omega) (by exact_mod_cast h63),
      sub_self, fl_zero, le_refl, true_and]
    rw [if_neg (by norm_num)]

theorem nint_neg {x : ℚ} {k : ℤ} (h : nint x = some k) (hx : 0 < x) : nint (-x) = some (-k) := by
  unfold nint at h ⊢
  rw [if_neg (show ¬ x < 0 by linarith)] at h
  rw [if_pos (show -x < 0 by linarith), show -x - 1/2 = -(x + 1/2) by ring, Int.ceil_neg]
  simp only at h ⊢
  split at h
  · rename_i hr
    simp only [Option.some.injEq] at h
    rw [h] at hr ⊢
    have hk : 0 ≤ k := by rw [← h]; exact Int.floor_nonneg.2 (by linarith)
    have : |k| < 2 ^ 63 := by
      simp [inRange] at hr
      rw [abs_of_nonneg hk]; omega
    rw [inRange_neg this, if_pos hr]
  · cases h

theorem fRound_neg {x y : ℚ} (hx : Rep x) (h0 : 0 < x) (h52 : x < 2 ^ 63) (h : fRound x 0 = some y) :
    fRound (-x) 0 = some (-y) := by
  simp only [fRound, neg_zero, fl_ten0, mul_one, fl_exact hx, fl_exact hx.neg, le_refl, true_and, half_rep hx,
    half_rep hx.neg] at h ⊢
  split at h
  · cases h
  · rename_i k hk
    rw [nint_neg hk h0]
    simp only
    have e3 : fl ((-k : ℤ) : ℚ) = -fl k := by push_cast; exact fl_neg _
    have e4 : fl (-x - fl ((-k : ℤ) : ℚ)) = -fl (x - fl k) := by
      rw [e3, show -x - -fl (k : ℚ) = -(x - fl k) by ring, fl_neg]
    rw [e4, e3]
    split at h
    · rename_i hd
      rw [if_pos (by rcases hd with hd | hd <;> rw [hd] <;> norm_num)]
      split at h
      · cases h
      · rename_i k2 hk2
        rw [show -x * (1/2) = -(x * (1/2)) by ring, nint_neg hk2 (by linarith)]
        simp only
        split at h
        · rename_i hr
          have hk0 : 0 ≤ k2 := by
            unfold nint at hk2
            rw [if_neg (show ¬ x * (1/2) < 0 by linarith)] at hk2
            simp only at hk2
            split at hk2
            · simp only [Option.some.injEq] at hk2
              rw [← hk2]; exact Int.floor_nonneg.2 (by linarith)
            · cases hk2
          have : |k2 * 2| < 2 ^ 63 := by
            simp [inRange] at hr
            rw [abs_of_nonneg (by omega)]; omega
          rw [neg_mul, inRange_neg this, if_pos hr]
          simp only [Option.some.injEq] at h ⊢
          rw [← h, Int.cast_neg, fl_neg, fl_neg]
        · cases h
    · rename_i hd
      rw [if_neg]
      · simp only [Option.some.injEq] at h ⊢
        rw [← h, fl_neg]
      · rintro (hc | hc)
        · exact hd (.inr (by linarith))
        · exact hd (.inl (by linarith))

/-! ## Floor division -/

theorem floor_fl {q : ℚ} (h : |q| < 2 ^ 53) :
    (⌊q⌋ : ℚ) ≤ fl q ∧ fl q ≤ ⌊q⌋ + 1 := by
  obtain ⟨h1, h2⟩ := abs_lt.1 h
  have f0 := Int.floor_le q
  have f1 := Int.lt_floor_add_one q
  have b0 : -2 ^ 53 ≤ ⌊q⌋ := by
    rw [Int.le_floor]; push_cast; linarith
  have b1 : ⌊q⌋ < 2 ^ 53 := by rw [Int.floor_lt]; push_cast; linarith
  constructor
  · have := fl_mono f0
    rwa [fl_int (by rw [abs_le]; constructor <;> omega)] at this
  · have := fl_mono (show q ≤ ((⌊q⌋ + 1 : ℤ) : ℚ) by push_cast; linarith)
    rw [fl_int (by rw [abs_le]; constructor <;> omega)] at this
    push_cast at this; exact this

/-- Integers: the quotient is not rounded to the next integer. -/
theorem int_quotient {a b : ℤ} (hb : 0 < b) (h : |a| + b ≤ 2 ^ 52) : fl (a / b : ℚ) < ⌊(a : ℚ) / b⌋ + 1 := by
  have hbq : (0 : ℚ) < b := by exact_mod_cast hb
  have f0 := Int.floor_le ((a : ℚ) / b)
  have f1 := Int.lt_floor_add_one ((a : ℚ) / b)
  obtain ⟨N, hN⟩ : ∃ N, N = ⌊(a : ℚ) / b⌋ + 1 := ⟨_, rfl⟩
  have hNq : (⌊(a : ℚ) / b⌋ : ℚ) = N - 1 := by rw [hN]; push_cast; ring
  rw [hNq] at f0 f1 ⊢
  rw [le_div_iff₀ hbq] at f0
  rw [show (N : ℚ) - 1 + 1 = N by ring, div_lt_iff₀ hbq] at f1
  have f0' : (N - 1) * b ≤ a := by exact_mod_cast f0
  have f1' : a + 1 ≤ N * b := by exact_mod_cast f1
  have f1q : (a : ℚ) + 1 ≤ N * b := by exact_mod_cast f1'
  have ha := abs_le.1 (le_refl |a|)
  -- the bound on `b * |N|`
  have hbN : b * |N| ≤ 2 ^ 52 := by
    rcases le_or_gt N 0 with hn | hn
    · rw [abs_of_nonpos hn]; nlinarith
    · rw [abs_of_pos hn]; nlinarith
  rw [show (N : ℚ) - 1 + 1 = N by ring]
  rcases eq_or_ne N 0 with h0 | h0
  · subst h0
    have hle : (a : ℚ) / b ≤ ((-1 : ℤ) : ℚ) * 2 ^ (-53 : ℤ) := by
      rw [div_le_iff₀ hbq]
      have hb53 : (b : ℚ) ≤ 2 ^ 52 := by
        have : b ≤ 2 ^ 52 := by have := abs_nonneg a; omega
        exact_mod_cast this
      push_cast at f1q ⊢
      norm_num at hb53 ⊢
      linarith
    have := fl_mono hle
    rw [fl_exact (rep_scaled (by norm_num) _)] at this
    norm_num at this ⊢; linarith
  · obtain ⟨j, hj⟩ : ∃ j : ℕ, j = Nat.log 2 N.natAbs := ⟨_, rfl⟩
    have hn0 : N.natAbs ≠ 0 := by omega
    have a1 : 2 ^ j ≤ N.natAbs := hj ▸ Nat.pow_log_le_self 2 hn0
    have a2 : N.natAbs < 2 ^ (j + 1) := hj ▸ Nat.lt_pow_succ_log_self (by norm_num) _
    have a1' : (2 : ℤ) ^ j ≤ |N| := by
      have : ((2 ^ j : ℕ) : ℤ) ≤ N.natAbs := by exact_mod_cast a1
      push_cast at this; simpa using this
    have a2' : |N| < (2 : ℤ) ^ (j + 1) := by
      have : (N.natAbs : ℤ) < ((2 ^ (j + 1) : ℕ) : ℤ) := by exact_mod_cast a2
      push_cast at this; simpa using this
    have hj52 : j ≤ 52 := by
      have : (2 : ℤ) ^ j ≤ 2 ^ 52 := by nlinarith
      exact (pow_le_pow_iff_right₀ (by norm_num)).1 this
    obtain ⟨d, hd⟩ : ∃ d : ℕ, 52 = j + d := ⟨52 - j, by omega⟩
    have hbd : b ≤ 2 ^ d := by
      have h1 : b * 2 ^ j ≤ 2 ^ d * 2 ^ j := by
        calc b * 2 ^ j ≤ b * |N| := by gcongr
          _ ≤ 2 ^ 52 := hbN
          _ = 2 ^ d * 2 ^ j := by rw [← pow_add]; congr 1; omega
      exact le_of_mul_le_mul_right h1 (by positivity)
    have hbdq : (b : ℚ) ≤ 2 ^ d := by exact_mod_cast hbd
    have hrep : Rep (((N * 2 ^ d - 1 : ℤ) : ℚ) * 2 ^ (-(d : ℤ))) := by
      apply rep_scaled
      have hb : |N| * 2 ^ d < (2 : ℤ) ^ 53 := by
        calc |N| * 2 ^ d < (2 : ℤ) ^ (j + 1) * 2 ^ d := by gcongr
          _ = 2 ^ 53 := by rw [← pow_add]; congr 1; omega
      have hb' : |N * 2 ^ d| < 2 ^ 53 := by rwa [abs_mul, abs_of_pos (a := (2 : ℤ) ^ d) (by positivity)]
      obtain ⟨c1, c2⟩ := abs_lt.1 hb'
      rw [abs_le]; constructor <;> omega
    have hp : (0 : ℚ) < 2 ^ d := by positivity
    have hz : ((N * 2 ^ d - 1 : ℤ) : ℚ) * 2 ^ (-(d : ℤ)) = N - (2 ^ d)⁻¹ := by
      rw [zpow_neg, zpow_natCast]; push_cast; field_simp
    rw [hz] at hrep
    have hinv : (2 ^ d : ℚ)⁻¹ ≤ (b : ℚ)⁻¹ := inv_anti₀ hbq hbdq
    have hle : (a : ℚ) / b ≤ N - (2 ^ d)⁻¹ := by
      rw [div_le_iff₀ hbq]
      have := mul_le_mul_of_nonneg_right hinv hbq.le
      rw [inv_mul_cancel₀ hbq.ne'] at this
      linarith
    have := fl_mono hle
    rw [fl_exact hrep] at this
    have : (0 : ℚ) < (2 ^ d)⁻¹ := by positivity
    linarith

/-! ## Remainder -/

theorem trunc_le_abs (q : ℚ) : |(trunc q : ℚ)| ≤ |q| := by
  unfold trunc
  split
  · rename_i h
    have h1 : ⌈q⌉ ≤ 0 := Int.ceil_le.2 (by push_cast; exact h.le)
    have h2 : (⌈q⌉ : ℚ) ≤ 0 := by exact_mod_cast h1
    rw [abs_of_nonpos h2, abs_of_neg h]
    linarith [Int.le_ceil q]
  · rename_i h
    have h1 : 0 ≤ ⌊q⌋ := Int.floor_nonneg.2 (not_lt.1 h)
    have h2 : (0 : ℚ) ≤ ⌊q⌋ := by exact_mod_cast h1
    rw [abs_of_nonneg h2, abs_of_nonneg (not_lt.1 h)]
    exact Int.floor_le q

theorem sub_trunc (q : ℚ) : |q - trunc q| < 1 ∧ |q - trunc q| ≤ |q| ∧ 0 ≤ (q - trunc q) * q := by
  unfold trunc
  split
  · rename_i h
    have h1 : ⌈q⌉ ≤ 0 := Int.ceil_le.2 (by push_cast; exact h.le)
    have h2 : (⌈q⌉ : ℚ) ≤ 0 := by exact_mod_cast h1
    have h3 := Int.le_ceil q
    have h4 := Int.ceil_lt_add_one q
    rw [abs_of_nonpos (by linarith), abs_of_neg h]
    refine ⟨by linarith, by linarith, ?_⟩
    exact mul_nonneg_of_nonpos_of_nonpos (by linarith) h.le
  · rename_i h
    have h1 : 0 ≤ ⌊q⌋ := Int.floor_nonneg.2 (not_lt.1 h)
    have h2 : (0 : ℚ) ≤ ⌊q⌋ := by exact_mod_cast h1
    have h3 := Int.floor_le q
    have h4 := Int.lt_floor_add_one q
    rw [abs_of_nonneg (by linarith), abs_of_nonneg (not_lt.1 h)]
    exact ⟨by linarith, by linarith, mul_nonneg (by linarith) (not_lt.1 h)⟩

theorem fmod_eq {a b : ℚ} (hb : b ≠ 0) : fmod a b = b * (a / b - trunc (a / b)) := by
  unfold fmod; field_simp

/-- `fmod` needs no rounding. -/
theorem fmod_rep {a b : ℚ} (ha : Rep a) (hb : Rep b) (h : b ≠ 0) : Rep (fmod a b) := by
  obtain ⟨t1, t2, -⟩ := sub_trunc (a / b)
  have hlb : |fmod a b| < |b| := by
    rw [fmod_eq h, abs_mul]
    have := mul_lt_mul_of_pos_left t1 (abs_pos.2 h)
    linarith
  have hla : |fmod a b| ≤ |a| := by
    rw [fmod_eq h, abs_mul]
    have := mul_le_mul_of_nonneg_left t2 (abs_nonneg b)
    rw [← abs_mul, ← abs_mul] at this
    rw [mul_div_cancel₀ _ h] at this
    rwa [← abs_mul]
  unfold fmod at *
  generalize trunc (a / b) = t at *
  obtain ⟨m, e, hm, rfl⟩ := ha
  obtain ⟨n, f, hn, rfl⟩ := hb
  rcases le_total e f with hle | hle
  · obtain ⟨d, rfl⟩ : ∃ d : ℕ, f = e + d := ⟨(f - e).toNat, by omega⟩
    have hp : (0 : ℚ) < 2 ^ e := by positivity
    have e1 : (m : ℚ) * 2 ^ e - n * 2 ^ (e + (d : ℤ)) * t = ((m - n * 2 ^ d * t : ℤ) : ℚ) * 2 ^ e := by
      rw [zpow_add₀ (by norm_num), zpow_natCast]; push_cast; ring
    rw [e1] at hla ⊢
    rw [abs_mul, abs_mul, abs_of_pos hp] at hla
    have h1 := le_of_mul_le_mul_right hla hp
    have h2 : |m - n * 2 ^ d * t| ≤ |m| := by exact_mod_cast h1
    exact ⟨_, e, by omega, rfl⟩
  · obtain ⟨d, rfl⟩ : ∃ d : ℕ, e = f + d := ⟨(e - f).toNat, by omega⟩
    have hp : (0 : ℚ) < 2 ^ f := by positivity
    have e1 : (m : ℚ) * 2 ^ (f + (d : ℤ)) - n * 2 ^ f * t = ((m * 2 ^ d - n * t : ℤ) : ℚ) * 2 ^ f := by
      rw [zpow_add₀ (by norm_num), zpow_natCast]; push_cast; ring
    rw [e1] at hlb ⊢
    rw [abs_mul, abs_mul, abs_of_pos hp] at hlb
    have h1 := lt_of_mul_lt_mul_right hlb hp.le
    have h2 : |m * 2 ^ d - n * t| < |n| := by exact_mod_cast h1
    exact ⟨_, f, by omega, rfl⟩

/-- How the remainder towards zero and that of Python are related. -/
theorem mod_cases {a b : ℚ} (hb : b ≠ 0) :
    (a - b * ⌊a / b⌋ = fmod a b ∧ (fmod a b = 0 ∨ (fmod a b < 0 ↔ b < 0)) ∧ (fmod a b = 0 ∨ (a < 0 ↔ b < 0))) ∨
    (a - b * ⌊a / b⌋ = fmod a b + b ∧ fmod a b ≠ 0 ∧ (fmod a b < 0 ↔ ¬ b < 0) ∧ (a < 0 ↔ ¬ b < 0)) := by
  have hq : a = b * (a / b) := by field_simp
  rw [fmod_eq hb]
  have f0 := Int.floor_le (a / b)
  have f1 := Int.lt_floor_add_one (a / b)
  have e1 : a - b * ⌊a / b⌋ = b * (a / b - ⌊a / b⌋) := by field_simp
  rw [e1]
  have ha : ∀ q, q = a / b → (a < 0 ↔ b * q < 0) := by rintro q rfl; rw [← hq]
  have ha := ha _ rfl
  generalize a / b = q at *
  unfold trunc
  by_cases h : q < 0
  · rw [if_pos h]
    by_cases hi : (⌊q⌋ : ℚ) = q
    · left
      have hc : (⌈q⌉ : ℚ) = q := by
        have : ⌈q⌉ = ⌊q⌋ := by rw [← hi]; simp
        rw [this, hi]
      rw [hc, hi]; simp
    · right
      have hlt := lt_of_le_of_ne f0 hi
      have hc : ⌈q⌉ = ⌊q⌋ + 1 := Int.ceil_eq_iff.2 ⟨by push_cast; linarith, by push_cast; linarith⟩
      rw [hc]; push_cast
      refine ⟨by ring, mul_ne_zero hb (by linarith), ?_, ?_⟩
      · have hneg : q - (⌊q⌋ + 1) < 0 := by linarith
        rcases lt_or_gt_of_ne hb with hb | hb
        · have := mul_pos_of_neg_of_neg hb hneg
          constructor
          · intro; linarith
          · intro hn; exact absurd hb hn
        · have := mul_neg_of_pos_of_neg hb hneg
          constructor
          · intro _ _; linarith
          · intro; exact this
      · rw [ha]
        rcases lt_or_gt_of_ne hb with hb | hb
        · have := mul_pos_of_neg_of_neg hb h
          constructor
          · intro; linarith
          · intro hn; exact absurd hb hn
        · have := mul_neg_of_pos_of_neg hb h
          constructor
          · intro _ _; linarith
          · intro; exact this
  · rw [if_neg h]
    left
    refine ⟨rfl, ?_, ?_⟩
    · rcases eq_or_lt_of_le (show 0 ≤ q - ⌊q⌋ by linarith) with h0 | h0
      · left; rw [← h0, mul_zero]
      · right
        rcases lt_or_gt_of_ne hb with hb | hb
        · have := mul_neg_of_neg_of_pos hb h0
          exact ⟨fun _ => hb, fun _ => this⟩
        · have := mul_pos hb h0
          exact ⟨fun h => by linarith, fun h => by linarith⟩
    · rcases eq_or_lt_of_le (not_lt.1 h) with h0 | h0
      · left; rw [← h0]; simp
      · right
        rw [ha]
        rcases lt_or_gt_of_ne hb with hb | hb
        · have := mul_neg_of_neg_of_pos hb h0
          exact ⟨fun _ => hb, fun _ => this⟩
        · have := mul_pos hb h0
          exact ⟨fun h => by linarith, fun h => by linarith⟩

theorem cMod_isMod {a b : ℚ} (ha : Rep a) (hb : Rep b) (h : b ≠ 0) : IsMod a b (cMod a b) := by
  unfold IsMod pyFloorDiv
  rw [nearest_iff]
  have hr := fl_exact (fmod_rep ha hb h)
  simp only [cMod]
  rcases mod_cases (a := a) h with ⟨e, -, hs⟩ | ⟨e, hne, -, hs⟩
  · rw [e, hr, if_pos]
    rcases hs with hs | hs
    · simp [hs]
    · by_cases hb : b < 0 <;> simp [hs, hb]
  · rw [e, if_neg]
    by_cases hb : b < 0 <;> simp [hs, hb, hne]

theorem fMod_isMod {a b : ℚ} (ha : Rep a) (hb : Rep b) (h : b ≠ 0) : IsMod a b (fMod a b) := by
  unfold IsMod pyFloorDiv
  rw [nearest_iff]
  have hr := fl_exact (fmod_rep ha hb h)
  simp only [fMod]
  rcases mod_cases (a := a) h with ⟨e, hs, -⟩ | ⟨e, hne, hs, -⟩
  · rw [e, hr, if_neg]
    rintro ⟨h1, h2⟩
    rcases hs with hs | hs
    · exact h1 hs
    · rw [hs] at h2
      by_cases hb : b < 0 <;> simp [hb] at h2
  · rw [e, if_pos ⟨hne, hs⟩]

/-! ## `min` and `max` -/

theorem cMinLoop_eq {α : Type} (lt : α → α → Bool) (pre : List α) (l : List α) (m : α) :
    cMinLoop lt (pre ++ l) pre.length l.length m = some (pyMin lt m l) := by
  induction l generalizing pre m with
  | nil => rfl
  | cons x l ih =>
    have := ih (pre ++ [x]) (if lt x m then x else m)
    simp only [List.append_assoc, List.singleton_append, List.length_append, List.length_singleton] at this
    simp [cMinLoop, this, pyMin]

theorem cMaxLoop_eq {α : Type} (lt : α → α → Bool) (pre : List α) (l : List α) (m : α) :
    cMaxLoop lt (pre ++ l) pre.length l.length m = some (pyMax lt m l) := by
  induction l generalizing pre m with
  | nil => rfl
  | cons x l ih =>
    have := ih (pre ++ [x]) (if lt m x then x else m)
    simp only [List.append_assoc, List.singleton_append, List.length_append, List.length_singleton] at this
    simp [cMaxLoop, this, pyMax]

theorem foldl_min {α : Type} (lt : α → α → Bool) (l : List α) (m : α) :
    l.foldl (fun m x => if lt x m then x else m) m = pyMin lt m l := by
  induction l generalizing m with
  | nil => rfl
  | cons x l ih => rw [List.foldl_cons, ih, pyMin]

theorem foldl_max {α : Type} (lt : α → α → Bool) (l : List α) (m : α) :
    l.foldl (fun m x => if lt m x then x else m) m = pyMax lt m l := by
  induction l generalizing m with
  | nil => rfl
  | cons x l ih => rw [List.foldl_cons, ih, pyMax]

end Verif.Floats
