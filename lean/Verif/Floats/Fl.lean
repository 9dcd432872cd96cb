import Verif.Floats.Spec
import Mathlib.Algebra.Order.Field.Power
import Mathlib.Tactic.Linarith
import Mathlib.Tactic.Ring
import Mathlib.Tactic.FieldSimp
import Mathlib.Tactic.Positivity
import Mathlib.Tactic.NormNum

/-!
# Rounding of rational numbers to floating-point numbers

There is exactly one rounding as IEEE 754 requires: `fl` gives it, and `Nearest` has only one solution.
-/

namespace Verif.Floats
open Spec

/-- Nearest integer, the even one of two. -/
def rne (x : ℚ) : ℤ :=
  if x - ⌊x⌋ < 1/2 then ⌊x⌋
  else if x - ⌊x⌋ = 1/2 ∧ ⌊x⌋ % 2 = 0 then ⌊x⌋
  else ⌊x⌋ + 1

/-- The exponent of the last of the 53 bits. -/
def expo (x : ℚ) : ℤ := Int.log 2 |x| - 52

/-- The result of a floating-point operation whose exact result is `x`. -/
def fl (x : ℚ) : ℚ := rne (x / 2 ^ expo x) * 2 ^ expo x

theorem rne_half (x : ℚ) : 2 * |x - rne x| ≤ 1 := by
  have h0 := Int.floor_le x
  have h1 := Int.lt_floor_add_one x
  unfold rne
  split
  · rw [abs_of_nonneg (by linarith)]; linarith
  · split
    · rw [abs_of_nonneg (by linarith)]; linarith
    · push_cast
      rw [abs_of_nonpos (by linarith)]; linarith

theorem rne_even (x : ℚ) (h : 2 * |x - rne x| = 1) : Even (rne x) := by
  have h0 := Int.floor_le x
  have h1 := Int.lt_floor_add_one x
  unfold rne at h ⊢
  split
  · rename_i hlt
    rw [if_pos hlt, abs_of_nonneg (by linarith)] at h; linarith
  · rename_i hlt
    rw [if_neg hlt] at h
    split
    · rename_i hc; exact Int.even_iff.2 hc.2
    · rename_i hc
      rw [if_neg hc] at h
      push_cast at h
      rw [abs_of_nonpos (by linarith)] at h
      have : ¬ ⌊x⌋ % 2 = 0 := fun h2 => hc ⟨by linarith, h2⟩
      rw [Int.even_iff]; omega

theorem rne_roundsTo (x : ℚ) : RoundsTo x (rne x) := ⟨rne_half x, rne_even x⟩

/-- Two integers at distance at most one half. -/
theorem near_ints {x : ℚ} {k l : ℤ} (hk : 2 * |x - k| ≤ 1) (hl : 2 * |x - l| ≤ 1) :
    k = l ∨ (|k - l| = 1 ∧ 2 * |x - k| = 1 ∧ 2 * |x - l| = 1) := by
  obtain ⟨a1, a2⟩ := abs_le.1 (show |x - k| ≤ 1/2 by linarith)
  obtain ⟨b1, b2⟩ := abs_le.1 (show |x - l| ≤ 1/2 by linarith)
  have h1 : (k : ℚ) - l ≤ 1 := by linarith
  have h2 : (l : ℚ) - k ≤ 1 := by linarith
  have h1' : k - l ≤ 1 := by exact_mod_cast h1
  have h2' : l - k ≤ 1 := by exact_mod_cast h2
  rcases eq_or_ne k l with h | h
  · exact .inl h
  · right
    rcases lt_or_gt_of_ne h with h | h
    · have e : l = k + 1 := by omega
      subst e
      push_cast at *
      refine ⟨by rw [show k - (k + 1) = -1 by ring]; rfl, ?_, ?_⟩
      · rw [abs_of_nonneg (by linarith)]; linarith
      · rw [abs_of_nonpos (by linarith)]; linarith
    · have e : k = l + 1 := by omega
      subst e
      push_cast at *
      refine ⟨by rw [show l + 1 - l = 1 by ring]; rfl, ?_, ?_⟩
      · rw [abs_of_nonpos (by linarith)]; linarith
      · rw [abs_of_nonneg (by linarith)]; linarith

theorem roundsTo_unique {x : ℚ} {k l : ℤ} (hk : RoundsTo x k) (hl : RoundsTo x l) : k = l := by
  rcases near_ints hk.1 hl.1 with h | ⟨h, hk', hl'⟩
  · exact h
  · have e1 := hk.2 hk'
    have e2 := hl.2 hl'
    rw [Int.even_iff] at e1 e2
    rcases abs_eq (by norm_num) |>.1 h with h | h <;> omega

/-- The nearest integer is at least as near as any other. -/
theorem rne_near (x : ℚ) (l : ℤ) : |x - rne x| ≤ |x - l| := by
  rcases lt_or_ge (2 * |x - l|) 1 with h | h
  · rcases near_ints (rne_half x) h.le with h' | ⟨_, _, h'⟩
    · rw [h']
    · linarith
  · have := rne_half x; linarith

theorem rne_near_eq {x : ℚ} {l : ℤ} (h : |x - l| = |x - rne x|) (hne : l ≠ rne x) : Even (rne x) := by
  have h1 := rne_half x
  rcases near_ints h1 (by rw [h]; exact h1) with h' | ⟨_, h', _⟩
  · exact absurd h'.symm hne
  · exact rne_even x h'

/-! ## Rounding to 53 bits -/

theorem rep_zero : Rep 0 := ⟨0, 0, by norm_num, by norm_num⟩

theorem _root_.Verif.Floats.Spec.Rep.neg {x : ℚ} : Rep x → Rep (-x)
  | ⟨m, e, h, hx⟩ => ⟨-m, e, by rwa [abs_neg], by rw [hx]; push_cast; ring⟩

theorem _root_.Verif.Floats.Spec.Rep.scale {x : ℚ} (k : ℤ) : Rep x → Rep (x * 2 ^ k)
  | ⟨m, e, h, hx⟩ => ⟨m, e + k, h, by rw [hx, zpow_add₀ (by norm_num)]; ring⟩

theorem rep_int {m : ℤ} (h : |m| ≤ 2 ^ 53) : Rep m := by
  rcases lt_or_eq_of_le h with h | h
  · exact ⟨m, 0, h, by norm_num⟩
  · rcases abs_eq (by norm_num) |>.1 h with h | h
    · exact ⟨1, 53, by norm_num, by rw [h]; norm_num⟩
    · exact ⟨-1, 53, by norm_num, by rw [h]; norm_num⟩

theorem rep_scaled {m : ℤ} (h : |m| ≤ 2 ^ 53) (e : ℤ) : Rep (m * 2 ^ e) := (rep_int h).scale e

/-- Large floating-point numbers are multiples of the unit in the last place. -/
theorem _root_.Verif.Floats.Spec.Rep.multiple {y : ℚ} (hy : Rep y) {k : ℤ} (hk : (2 : ℚ) ^ k ≤ |y|) : ∃ n : ℤ, y = n * 2 ^ (k - 52) := by
  obtain ⟨m, e, hm, rfl⟩ := hy
  have h2 : (0 : ℚ) < 2 ^ e := by positivity
  have hm' : |(m : ℚ)| < 2 ^ (53 : ℤ) := by
    have : ((|m| : ℤ) : ℚ) < ((2 ^ 53 : ℤ) : ℚ) := by exact_mod_cast hm
    rw [Int.cast_abs] at this
    calc |(m : ℚ)| < _ := this
      _ = _ := by norm_num
  have hlt : (2 : ℚ) ^ k < 2 ^ (53 + e) := by
    rw [abs_mul, abs_of_pos h2] at hk
    rw [zpow_add₀ (by norm_num)]
    exact lt_of_le_of_lt hk (mul_lt_mul_of_pos_right hm' h2)
  have hke : k < 53 + e := (zpow_lt_zpow_iff_right₀ (by norm_num)).1 hlt
  obtain ⟨d, hd⟩ : ∃ d : ℕ, e = k - 52 + d := ⟨(e - (k - 52)).toNat, by omega⟩
  refine ⟨m * 2 ^ d, ?_⟩
  rw [hd, zpow_add₀ (by norm_num), zpow_natCast]
  push_cast; ring

theorem expo_le {x : ℚ} (h : x ≠ 0) : (2 : ℚ) ^ (expo x + 52) ≤ |x| := by
  have := Int.zpow_log_le_self (b := 2) (by norm_num) (abs_pos.2 h)
  unfold expo; rw [sub_add_cancel]; exact_mod_cast this

theorem lt_expo (x : ℚ) : |x| < (2 : ℚ) ^ (expo x + 53) := by
  have := Int.lt_zpow_succ_log_self (b := 2) (by norm_num) |x|
  unfold expo; rw [show Int.log 2 |x| - 52 + 53 = Int.log 2 |x| + 1 by ring]; exact_mod_cast this

/-- The scaled number has 53 bits before the point. -/
theorem scaled_bounds {x : ℚ} (h : x ≠ 0) : (2 : ℚ) ^ 52 ≤ |x / 2 ^ expo x| ∧ |x / 2 ^ expo x| < 2 ^ 53 := by
  have hp : (0 : ℚ) < 2 ^ expo x := by positivity
  have h1 := expo_le h
  have h2 := lt_expo x
  rw [zpow_add₀ (by norm_num)] at h1 h2
  rw [abs_div, abs_of_pos hp, le_div_iff₀ hp, div_lt_iff₀ hp]
  constructor
  · calc (2 : ℚ) ^ 52 * 2 ^ expo x = 2 ^ expo x * 2 ^ (52 : ℤ) := by norm_num; ring
      _ ≤ _ := h1
  · calc |x| < _ := h2
      _ = _ := by norm_num; ring

theorem abs_scale (a b : ℚ) (e : ℤ) : |a * 2 ^ e - b * 2 ^ e| = |a - b| * 2 ^ e := by
  rw [← sub_mul, abs_mul, abs_of_pos (a := (2 : ℚ) ^ e) (by positivity)]

theorem abs_le_of_near {r : ℚ} {k : ℤ} {n : ℕ} (h : 2 * |r - k| ≤ 1) (hr : |r| < 2 ^ n) : |k| ≤ 2 ^ n := by
  have h1 : |(k : ℚ)| ≤ |r| + 1/2 := by
    have := abs_sub_abs_le_abs_sub (k : ℚ) r
    rw [abs_sub_comm] at this; linarith
  have h2 : ((|k| : ℤ) : ℚ) < ((2 ^ n + 1 : ℤ) : ℚ) := by push_cast; linarith
  have : |k| < 2 ^ n + 1 := by exact_mod_cast h2
  omega

theorem fl_zero : fl 0 = 0 := by simp [fl, rne]

theorem x_eq (x : ℚ) : x = x / 2 ^ expo x * 2 ^ expo x := by
  have hp : (0 : ℚ) < 2 ^ expo x := by positivity
  field_simp

theorem fl_sub (x : ℚ) : |fl x - x| = |x / 2 ^ expo x - rne (x / 2 ^ expo x)| * 2 ^ expo x := by
  rw [abs_sub_comm, ← abs_scale, ← x_eq, fl]

theorem fl_rep (x : ℚ) : Rep (fl x) := by
  rcases eq_or_ne x 0 with rfl | h
  · rw [fl_zero]; exact rep_zero
  · exact rep_scaled (abs_le_of_near (rne_half _) (scaled_bounds h).2) _

/-- Multiples of the unit in the last place are not nearer. -/
theorem sub_multiple (x : ℚ) (n : ℤ) : |n * 2 ^ expo x - x| = |x / 2 ^ expo x - n| * 2 ^ expo x := by
  rw [abs_sub_comm, ← abs_scale, ← x_eq]

theorem fl_near_multiple (x : ℚ) (n : ℤ) : |fl x - x| ≤ |n * 2 ^ expo x - x| := by
  have hp : (0 : ℚ) < 2 ^ expo x := by positivity
  rw [fl_sub, sub_multiple]
  exact mul_le_mul_of_nonneg_right (rne_near _ n) hp.le

/-- Floating-point numbers with fewer bits than `x` before the point are farther away than the first with as many. -/
theorem far_below {x y : ℚ} (h : x ≠ 0) (hy : |y| < 2 ^ (expo x + 52)) :
    ∃ n : ℤ, |n * 2 ^ expo x - x| < |y - x| := by
  have h1 := expo_le h
  have e : (2 : ℚ) ^ (expo x + 52) = 4503599627370496 * 2 ^ expo x := by rw [zpow_add₀ (by norm_num)]; norm_num; ring
  have ⟨y1, y2⟩ := abs_lt.1 hy
  rcases lt_or_gt_of_ne h with hx | hx
  · refine ⟨-2 ^ 52, ?_⟩
    push_cast
    rw [abs_of_neg hx] at h1
    rw [neg_mul, ← e, abs_of_nonneg (by linarith), abs_of_nonneg (by linarith)]
    linarith
  · refine ⟨2 ^ 52, ?_⟩
    push_cast
    rw [abs_of_pos hx] at h1
    rw [← e, abs_of_nonpos (by linarith), abs_of_nonpos (by linarith)]
    linarith

theorem fl_near (x y : ℚ) (hy : Rep y) : |fl x - x| ≤ |y - x| := by
  rcases eq_or_ne x 0 with rfl | h
  · rw [fl_zero]; simp
  · rcases lt_or_ge |y| (2 ^ (expo x + 52)) with h1 | h1
    · obtain ⟨n, hn⟩ := far_below h h1
      exact (fl_near_multiple x n).trans hn.le
    · obtain ⟨n, hn⟩ := hy.multiple h1
      rw [hn, show expo x + 52 - 52 = expo x by ring]
      exact fl_near_multiple x n

theorem repEven_scaled {m : ℤ} (h : |m| ≤ 2 ^ 53) (he : Even m) (e : ℤ) : RepEven (m * 2 ^ e) := by
  obtain ⟨k, rfl⟩ := he
  have hk : |k| ≤ 2 ^ 52 := by
    rw [← two_mul, abs_mul] at h
    norm_num at h ⊢
    omega
  rcases lt_or_eq_of_le hk with hk | hk
  · exact ⟨k, e + 1, hk, by rw [zpow_add₀ (by norm_num)]; push_cast; ring⟩
  · rcases abs_eq (by norm_num) |>.1 hk with hk | hk
    · exact ⟨1, e + 53, by norm_num, by rw [hk, zpow_add₀ (by norm_num)]; norm_num; ring⟩
    · exact ⟨-1, e + 53, by norm_num, by rw [hk, zpow_add₀ (by norm_num)]; norm_num; ring⟩

/-- `fl` rounds as IEEE 754 requires. -/
theorem fl_nearest (x : ℚ) : Nearest x (fl x) := by
  refine ⟨fl_rep x, fl_near x, fun z hz hd hne => ?_⟩
  rcases eq_or_ne x 0 with rfl | h
  · rw [fl_zero]; exact ⟨0, 0, by norm_num, by norm_num⟩
  · rcases lt_or_ge |z| (2 ^ (expo x + 52)) with h1 | h1
    · obtain ⟨n, hn⟩ := far_below h h1
      have := fl_near_multiple x n
      rw [hd] at hn
      exact absurd hn (not_lt.2 this)
    · obtain ⟨n, hn⟩ := hz.multiple h1
      rw [show expo x + 52 - 52 = expo x by ring] at hn
      have hp : (0 : ℚ) < 2 ^ expo x := by positivity
      rw [hn, fl_sub, sub_multiple] at hd
      refine repEven_scaled (abs_le_of_near (rne_half _) (scaled_bounds h).2) (rne_near_eq (mul_right_cancel₀ hp.ne' hd) ?_) _
      rintro rfl
      exact hne hn

/-! ## Consequences of being nearest -/

theorem Nearest.exact {x y : ℚ} (h : Nearest x y) (hx : Rep x) : y = x := by
  have := h.near x hx
  rw [sub_self, abs_zero] at this
  exact sub_eq_zero.1 (abs_eq_zero.1 (le_antisymm this (abs_nonneg _)))

theorem fl_exact {x : ℚ} (hx : Rep x) : fl x = x := Nearest.exact (fl_nearest x) hx

theorem Nearest.mono_lt {x x' y y' : ℚ} (h : Nearest x y) (h' : Nearest x' y') (hx : x < x') : y ≤ y' := by
  by_contra hy
  push Not at hy
  have h1 := h.near y' h'.rep
  have h2 := h'.near y h.rep
  have a1 : 2 * x ≥ y + y' := by
    by_contra hc
    push Not at hc
    have : |y' - x| < |y - x| := by
      rw [abs_lt]
      have : y - x ≤ |y - x| := le_abs_self _
      constructor <;> linarith
    linarith
  have a2 : 2 * x' ≤ y + y' := by
    by_contra hc
    push Not at hc
    have : |y - x'| < |y' - x'| := by
      rw [abs_lt]
      have : -(y' - x') ≤ |y' - x'| := neg_le_abs _
      constructor <;> linarith
    linarith
  linarith

theorem between_aux {m m' e : ℤ} {d : ℕ} (hm : |m| < 2 ^ 52) (h : (m : ℚ) * 2 ^ e < m' * 2 ^ (e + d)) :
    Rep (m * 2 ^ e + 2 ^ (e - 1)) ∧ (m : ℚ) * 2 ^ e + 2 ^ (e - 1) < m' * 2 ^ (e + d) := by
  have he : (2 : ℚ) ^ e = 2 * 2 ^ (e - 1) := by
    rw [mul_comm, ← zpow_add_one₀ (by norm_num), sub_add_cancel]
  have hp : (0 : ℚ) < 2 ^ (e - 1) := by positivity
  constructor
  · refine ⟨2 * m + 1, e - 1, ?_, by rw [he]; push_cast; ring⟩
    have := abs_lt.1 hm
    rw [abs_lt]; constructor <;> omega
  · have hp' : (0 : ℚ) < 2 ^ e := by positivity
    have h' : (m : ℚ) < m' * 2 ^ d := by
      rw [zpow_add₀ (by norm_num), zpow_natCast, mul_comm ((2:ℚ) ^ e), ← mul_assoc] at h
      exact lt_of_mul_lt_mul_right h hp'.le
    have h2 : m + 1 ≤ m' * 2 ^ d := by exact_mod_cast h'
    have h3 : (m : ℚ) + 1 ≤ m' * 2 ^ d := by exact_mod_cast h2
    have h4 := mul_le_mul_of_nonneg_right h3 hp'.le
    rw [zpow_add₀ (by norm_num), zpow_natCast]
    nlinarith

/-- Between two numbers whose last bit is zero there is another floating-point number. -/
theorem between {y y' : ℚ} (hy : RepEven y) (hy' : RepEven y') (h : y < y') : ∃ z, Rep z ∧ y < z ∧ z < y' := by
  obtain ⟨m, e, hm, rfl⟩ := hy
  obtain ⟨m', e', hm', rfl⟩ := hy'
  rcases le_total e e' with hle | hle
  · obtain ⟨d, rfl⟩ : ∃ d : ℕ, e' = e + d := ⟨(e' - e).toNat, by omega⟩
    obtain ⟨h1, h2⟩ := between_aux hm h
    have hp : (0 : ℚ) < 2 ^ (e - 1) := by positivity
    exact ⟨_, h1, by linarith, h2⟩
  · obtain ⟨d, rfl⟩ : ∃ d : ℕ, e = e' + d := ⟨(e - e').toNat, by omega⟩
    have h' : ((-m' : ℤ) : ℚ) * 2 ^ e' < ((-m : ℤ) : ℚ) * 2 ^ (e' + d) := by push_cast; linarith
    obtain ⟨h1, h2⟩ := between_aux (by rwa [abs_neg]) h'
    push_cast at h1 h2
    have hp : (0 : ℚ) < 2 ^ (e' - 1) := by positivity
    exact ⟨_, h1.neg, by linarith, by linarith⟩

theorem unique_aux {x y y' : ℚ} (h : Nearest x y) (h' : Nearest x y') (hlt : y < y') : False := by
  have e : |y' - x| = |y - x| := le_antisymm (h'.near y h.rep) (h.near y' h'.rep)
  obtain ⟨z, hz, h1, h2⟩ := between (h.even y' h'.rep e hlt.ne') (h'.even y h.rep e.symm hlt.ne) hlt
  have hn := h.near z hz
  have hx : y' - x = -(y - x) := by
    rcases abs_eq_abs.1 e with e | e
    · linarith
    · exact e
  have : |z - x| < |y - x| := by
    rw [abs_lt]
    have := neg_le_abs (y - x)
    constructor <;> linarith
  linarith

/-- There is only one rounding. -/
theorem Nearest.unique {x y y' : ℚ} (h : Nearest x y) (h' : Nearest x y') : y = y' := by
  rcases lt_trichotomy y y' with hlt | heq | hlt
  · exact (unique_aux h h' hlt).elim
  · exact heq
  · exact (unique_aux h' h hlt).elim

theorem fl_mono {x y : ℚ} (h : x ≤ y) : fl x ≤ fl y := by
  rcases lt_or_eq_of_le h with h | h
  · exact Nearest.mono_lt (fl_nearest x) (fl_nearest y) h
  · rw [h]

theorem nearest_iff {x y : ℚ} : Nearest x y ↔ y = fl x :=
  ⟨fun h => Nearest.unique h (fl_nearest x), fun h => h ▸ fl_nearest x⟩

theorem fl_neg (x : ℚ) : fl (-x) = -fl x := by
  have h := fl_nearest x
  refine (Nearest.unique (x := -x) ⟨h.rep.neg, fun z hz => ?_, fun z hz hd hne => ?_⟩ (fl_nearest _)).symm
  · have := h.near (-z) hz.neg
    rw [show -fl x - -x = -(fl x - x) by ring, abs_neg]
    rwa [show -z - x = -(z - -x) by ring, abs_neg] at this
  · have : RepEven (fl x) := by
      refine h.even (-z) hz.neg ?_ ?_
      · rw [show -z - x = -(z - -x) by ring, abs_neg, hd, show -fl x - -x = -(fl x - x) by ring, abs_neg]
      · intro hc; apply hne; rw [← hc]; ring
    obtain ⟨m, e, hm, hx⟩ := this
    exact ⟨-m, e, by rwa [abs_neg], by rw [hx]; push_cast; ring⟩

end Verif.Floats
