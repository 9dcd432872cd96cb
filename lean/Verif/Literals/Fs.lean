import Verif.Literals.Spec
import Verif.Floats.Fl

/-!
# Rounding of rational numbers to single precision

The same as `Verif.Floats.Fl` with 24 bits.
-/

namespace Verif.Literals
open Spec
open Verif.Floats (rne rne_half rne_even rne_near rne_near_eq abs_scale abs_le_of_near)

/-- The exponent of the last of the 24 bits. -/
def expo (x : ℚ) : ℤ := Int.log 2 |x| - 23

/-- `x` rounded to 24 bits. -/
def fs (x : ℚ) : ℚ := rne (x / 2 ^ expo x) * 2 ^ expo x

theorem rep_zero : Single 0 := ⟨0, 0, by norm_num, by norm_num⟩

theorem _root_.Verif.Literals.Spec.Single.neg {x : ℚ} : Single x → Single (-x)
  | ⟨m, e, h, hx⟩ => ⟨-m, e, by rwa [abs_neg], by rw [hx]; push_cast; ring⟩

theorem _root_.Verif.Literals.Spec.Single.scale {x : ℚ} (k : ℤ) : Single x → Single (x * 2 ^ k)
  | ⟨m, e, h, hx⟩ => ⟨m, e + k, h, by rw [hx, zpow_add₀ (by norm_num)]; ring⟩

theorem rep_int {m : ℤ} (h : |m| ≤ 2 ^ 24) : Single m := by
  rcases lt_or_eq_of_le h with h | h
  · exact ⟨m, 0, h, by norm_num⟩
  · rcases abs_eq (by norm_num) |>.1 h with h | h
    · exact ⟨1, 24, by norm_num, by rw [h]; norm_num⟩
    · exact ⟨-1, 24, by norm_num, by rw [h]; norm_num⟩

theorem rep_scaled {m : ℤ} (h : |m| ≤ 2 ^ 24) (e : ℤ) : Single (m * 2 ^ e) := (rep_int h).scale e

/-- Large floating-point numbers are multiples of the unit in the last place. -/
theorem _root_.Verif.Literals.Spec.Single.multiple {y : ℚ} (hy : Single y) {k : ℤ} (hk : (2 : ℚ) ^ k ≤ |y|) : ∃ n : ℤ, y = n * 2 ^ (k - 23) := by
  obtain ⟨m, e, hm, rfl⟩ := hy
  have h2 : (0 : ℚ) < 2 ^ e := by positivity
  have hm' : |(m : ℚ)| < 2 ^ (24 : ℤ) := by
    have : ((|m| : ℤ) : ℚ) < ((2 ^ 24 : ℤ) : ℚ) := by exact_mod_cast hm
    rw [Int.cast_abs] at this
    calc |(m : ℚ)| < _ := this
      _ = _ := by norm_num
  have hlt : (2 : ℚ) ^ k < 2 ^ (24 + e) := by
    rw [abs_mul, abs_of_pos h2] at hk
    rw [zpow_add₀ (by norm_num)]
    exact lt_of_le_of_lt hk (mul_lt_mul_of_pos_right hm' h2)
  have hke : k < 24 + e := (zpow_lt_zpow_iff_right₀ (by norm_num)).1 hlt
  obtain ⟨d, hd⟩ : ∃ d : ℕ, e = k - 23 + d := ⟨(e - (k - 23)).toNat, by omega⟩
  refine ⟨m * 2 ^ d, ?_⟩
  rw [hd, zpow_add₀ (by norm_num), zpow_natCast]
  push_cast; ring

theorem expo_le {x : ℚ} (h : x ≠ 0) : (2 : ℚ) ^ (expo x + 23) ≤ |x| := by
  have := Int.zpow_log_le_self (b := 2) (by norm_num) (abs_pos.2 h)
  unfold expo; rw [sub_add_cancel]; exact_mod_cast this

theorem lt_expo (x : ℚ) : |x| < (2 : ℚ) ^ (expo x + 24) := by
  have := Int.lt_zpow_succ_log_self (b := 2) (by norm_num) |x|
  unfold expo; rw [show Int.log 2 |x| - 23 + 24 = Int.log 2 |x| + 1 by ring]; exact_mod_cast this

/-- The scaled number has 24 bits before the point. -/
theorem scaled_bounds {x : ℚ} (h : x ≠ 0) : (2 : ℚ) ^ 23 ≤ |x / 2 ^ expo x| ∧ |x / 2 ^ expo x| < 2 ^ 24 := by
  have hp : (0 : ℚ) < 2 ^ expo x := by positivity
  have h1 := expo_le h
  have h2 := lt_expo x
  rw [zpow_add₀ (by norm_num)] at h1 h2
  rw [abs_div, abs_of_pos hp, le_div_iff₀ hp, div_lt_iff₀ hp]
  constructor
  · calc (2 : ℚ) ^ 23 * 2 ^ expo x = 2 ^ expo x * 2 ^ (23 : ℤ) := by norm_num; ring
      _ ≤ _ := h1
  · calc |x| < _ := h2
      _ = _ := by norm_num; ring

theorem fs_zero : fs 0 = 0 := by simp [fs, rne]

theorem x_eq (x : ℚ) : x = x / 2 ^ expo x * 2 ^ expo x := by
  have hp : (0 : ℚ) < 2 ^ expo x := by positivity
  field_simp

theorem fs_sub (x : ℚ) : |fs x - x| = |x / 2 ^ expo x - rne (x / 2 ^ expo x)| * 2 ^ expo x := by
  rw [abs_sub_comm, ← abs_scale, ← x_eq, fs]

theorem fs_rep (x : ℚ) : Single (fs x) := by
  rcases eq_or_ne x 0 with rfl | h
  · rw [fs_zero]; exact rep_zero
  · exact rep_scaled (abs_le_of_near (rne_half _) (scaled_bounds h).2) _

/-- Multiples of the unit in the last place are not nearer. -/
theorem sub_multiple (x : ℚ) (n : ℤ) : |n * 2 ^ expo x - x| = |x / 2 ^ expo x - n| * 2 ^ expo x := by
  rw [abs_sub_comm, ← abs_scale, ← x_eq]

theorem fs_near_multiple (x : ℚ) (n : ℤ) : |fs x - x| ≤ |n * 2 ^ expo x - x| := by
  have hp : (0 : ℚ) < 2 ^ expo x := by positivity
  rw [fs_sub, sub_multiple]
  exact mul_le_mul_of_nonneg_right (rne_near _ n) hp.le

/-- Floating-point numbers with fewer bits than `x` before the point are farther away than the first with as many. -/
theorem far_below {x y : ℚ} (h : x ≠ 0) (hy : |y| < 2 ^ (expo x + 23)) :
    ∃ n : ℤ, |n * 2 ^ expo x - x| < |y - x| := by
  have h1 := expo_le h
  have e : (2 : ℚ) ^ (expo x + 23) = 8388608 * 2 ^ expo x := by rw [zpow_add₀ (by norm_num)]; norm_num; ring
  have ⟨y1, y2⟩ := abs_lt.1 hy
  rcases lt_or_gt_of_ne h with hx | hx
  · refine ⟨-2 ^ 23, ?_⟩
    push_cast
    rw [abs_of_neg hx] at h1
    rw [neg_mul, ← e, abs_of_nonneg (by linarith), abs_of_nonneg (by linarith)]
    linarith
  · refine ⟨2 ^ 23, ?_⟩
    push_cast
    rw [abs_of_pos hx] at h1
    rw [← e, abs_of_nonpos (by linarith), abs_of_nonpos (by linarith)]
    linarith

theorem fs_near (x y : ℚ) (hy : Single y) : |fs x - x| ≤ |y - x| := by
  rcases eq_or_ne x 0 with rfl | h
  · rw [fs_zero]; simp
  · rcases lt_or_ge |y| (2 ^ (expo x + 23)) with h1 | h1
    · obtain ⟨n, hn⟩ := far_below h h1
      exact (fs_near_multiple x n).trans hn.le
    · obtain ⟨n, hn⟩ := hy.multiple h1
      rw [hn, show expo x + 23 - 23 = expo x by ring]
      exact fs_near_multiple x n

theorem repEven_scaled {m : ℤ} (h : |m| ≤ 2 ^ 24) (he : Even m) (e : ℤ) : SingleEven (m * 2 ^ e) := by
  obtain ⟨k, rfl⟩ := he
  have hk : |k| ≤ 2 ^ 23 := by
    rw [← two_mul, abs_mul] at h
    norm_num at h ⊢
    omega
  rcases lt_or_eq_of_le hk with hk | hk
  · exact ⟨k, e + 1, hk, by rw [zpow_add₀ (by norm_num)]; push_cast; ring⟩
  · rcases abs_eq (by norm_num) |>.1 hk with hk | hk
    · exact ⟨1, e + 24, by norm_num, by rw [hk, zpow_add₀ (by norm_num)]; norm_num; ring⟩
    · exact ⟨-1, e + 24, by norm_num, by rw [hk, zpow_add₀ (by norm_num)]; norm_num; ring⟩

/-- `fs` rounds as IEEE 754 requires. -/
theorem fs_nearest (x : ℚ) : NearestSingle x (fs x) := by
  refine ⟨fs_rep x, fs_near x, fun z hz hd hne => ?_⟩
  rcases eq_or_ne x 0 with rfl | h
  · rw [fs_zero]; exact ⟨0, 0, by norm_num, by norm_num⟩
  · rcases lt_or_ge |z| (2 ^ (expo x + 23)) with h1 | h1
    · obtain ⟨n, hn⟩ := far_below h h1
      have := fs_near_multiple x n
      rw [hd] at hn
      exact absurd hn (not_lt.2 this)
    · obtain ⟨n, hn⟩ := hz.multiple h1
      rw [show expo x + 23 - 23 = expo x by ring] at hn
      have hp : (0 : ℚ) < 2 ^ expo x := by positivity
      rw [hn, fs_sub, sub_multiple] at hd
      refine repEven_scaled (abs_le_of_near (rne_half _) (scaled_bounds h).2) (rne_near_eq (mul_right_cancel₀ hp.ne' hd) ?_) _
      rintro rfl
      exact hne hn

/-! ## Consequences of being nearest -/

theorem NearestSingle.exact {x y : ℚ} (h : NearestSingle x y) (hx : Single x) : y = x := by
  have := h.near x hx
  rw [sub_self, abs_zero] at this
  exact sub_eq_zero.1 (abs_eq_zero.1 (le_antisymm this (abs_nonneg _)))

theorem fs_exact {x : ℚ} (hx : Single x) : fs x = x := NearestSingle.exact (fs_nearest x) hx

theorem NearestSingle.mono_lt {x x' y y' : ℚ} (h : NearestSingle x y) (h' : NearestSingle x' y') (hx : x < x') : y ≤ y' := by
  by_contra hy
  push Not at hy
  have h1 := h.near y' h'.rep
  have h2 := h'.near y h.rep
  have a1 : 2 * x ≥ y + y' := by
    by_contra hc
    push Not at hc
    have : |y' - x| < |y - x| := by
      rw [abs_lt]
      have : y - x ≤ |y - x| := le_abs_self _
      constructor <;> linarith
    linarith
  have a2 : 2 * x' ≤ y + y' := by
    by_contra hc
    push Not at hc
    have : |y - x'| < |y' - x'| := by
      rw [abs_lt]
      have : -(y' - x') ≤ |y' - x'| := neg_le_abs _
      constructor <;> linarith
    linarith
  linarith

theorem between_aux {m m' e : ℤ} {d : ℕ} (hm : |m| < 2 ^ 23) (h : (m : ℚ) * 2 ^ e < m' * 2 ^ (e + d)) :
    Single (m * 2 ^ e + 2 ^ (e - 1)) ∧ (m : ℚ) * 2 ^ e + 2 ^ (e - 1) < m' * 2 ^ (e + d) := by
  have he : (2 : ℚ) ^ e = 2 * 2 ^ (e - 1) := by
    rw [mul_comm, ← zpow_add_one₀ (by norm_num), sub_add_cancel]
  have hp : (0 : ℚ) < 2 ^ (e - 1) := by positivity
  constructor
  · refine ⟨2 * m + 1, e - 1, ?_, by rw [he]; push_cast; ring⟩
    have := abs_lt.1 hm
    rw [abs_lt]; constructor <;> omega
  · have hp' : (0 : ℚ) < 2 ^ e := by positivity
    have h' : (m : ℚ) < m' * 2 ^ d := by
      rw [zpow_add₀ (by norm_num), zpow_natCast, mul_comm ((2:ℚ) ^ e), ← mul_assoc] at h
      exact lt_of_mul_lt_mul_right h hp'.le
    have h2 : m + 1 ≤ m' * 2 ^ d := by exact_mod_cast h'
    have h3 : (m : ℚ) + 1 ≤ m' * 2 ^ d := by exact_mod_cast h2
    have h4 := mul_le_mul_of_nonneg_right h3 hp'.le
    rw [zpow_add₀ (by norm_num), zpow_natCast]
    nlinarith

/-- Between two numbers whose last bit is zero there is another floating-point number. -/
theorem between {y y' : ℚ} (hy : SingleEven y) (hy' : SingleEven y') (h : y < y') : ∃ z, Single z ∧ y < z ∧ z < y' := by
  obtain ⟨m, e, hm, rfl⟩ := hy
  obtain ⟨m', e', hm', rfl⟩ := hy'
  rcases le_total e e' with hle | hle
  · obtain ⟨d, rfl⟩ : ∃ d : ℕ, e' = e + d := ⟨(e' - e).toNat, by omega⟩
    obtain ⟨h1, h2⟩ := between_aux hm h
    have hp : (0 : ℚ) < 2 ^ (e - 1) := by positivity
    exact ⟨_, h1, by linarith, h2⟩
  · obtain ⟨d, rfl⟩ : ∃ d : ℕ, e = e' + d := ⟨(e - e').toNat, by omega⟩
    have h' : ((-m' : ℤ) : ℚ) * 2 ^ e' < ((-m : ℤ) : ℚ) * 2 ^ (e' + d) := by push_cast; linarith
    obtain ⟨h1, h2⟩ := between_aux (by rwa [abs_neg]) h'
    push_cast at h1 h2
    have hp : (0 : ℚ) < 2 ^ (e' - 1) := by positivity
    exact ⟨_, h1.neg, by linarith, by linarith⟩

theorem unique_aux {x y y' : ℚ} (h : NearestSingle x y) (h' : NearestSingle x y') (hlt : y < y') : False := by
  have e : |y' - x| = |y - x| := le_antisymm (h'.near y h.rep) (h.near y' h'.rep)
  obtain ⟨z, hz, h1, h2⟩ := between (h.even y' h'.rep e hlt.ne') (h'.even y h.rep e.symm hlt.ne) hlt
  have hn := h.near z hz
  have hx : y' - x = -(y - x) := by
    rcases abs_eq_abs.1 e with e | e
    · linarith
    · exact e
  have : |z - x| < |y - x| := by
    rw [abs_lt]
    have := neg_le_abs (y - x)
    constructor <;> linarith
  linarith

/-- There is only one rounding. -/
theorem NearestSingle.unique {x y y' : ℚ} (h : NearestSingle x y) (h' : NearestSingle x y') : y = y' := by
  rcases lt_trichotomy y y' with hlt | heq | hlt
  · exact (unique_aux h h' hlt).elim
  · exact heq
  · exact (unique_aux h' h hlt).elim

theorem fs_mono {x y : ℚ} (h : x ≤ y) : fs x ≤ fs y := by
  rcases lt_or_eq_of_le h with h | h
  · exact NearestSingle.mono_lt (fs_nearest x) (fs_nearest y) h
  · rw [h]

theorem nearest_iff {x y : ℚ} : NearestSingle x y ↔ y = fs x :=
  ⟨fun h => NearestSingle.unique h (fs_nearest x), fun h => h ▸ fs_nearest x⟩

theorem fs_neg (x : ℚ) : fs (-x) = -fs x := by
  have h := fs_nearest x
  refine (NearestSingle.unique (x := -x) ⟨h.rep.neg, fun z hz => ?_, fun z hz hd hne => ?_⟩ (fs_nearest _)).symm
  · have := h.near (-z) hz.neg
    rw [show -fs x - -x = -(fs x - x) by ring, abs_neg]
    rwa [show -z - x = -(z - -x) by ring, abs_neg] at this
  · have : SingleEven (fs x) := by
      refine h.even (-z) hz.neg ?_ ?_
      · rw [show -z - x = -(z - -x) by ring, abs_neg, hd, show -fs x - -x = -(fs x - x) by ring, abs_neg]
      · intro hc; apply hne; rw [← hc]; ring
    obtain ⟨m, e, hm, hx⟩ := this
    exact ⟨-m, e, by rwa [abs_neg], by rw [hx]; push_cast; ring⟩

end Verif.Literals
