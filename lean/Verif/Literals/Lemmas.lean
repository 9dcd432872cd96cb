import Verif.Literals.Model
import Verif.Literals.Fs

/-!
# Number literals: lemmas
-/

namespace Verif.Literals
open Spec Model
open Verif.Floats (fl fl_nearest fl_exact fl_mono)
open Verif.Floats.Spec (Rep Nearest)

theorem single_rep {x : ℚ} : Single x → Rep x
  | ⟨m, e, h, hx⟩ => ⟨m, e, lt_trans h (by norm_num), hx⟩

/-! ## Rounding twice -/

/-- The middle of two neighbours is a double. -/
theorem mid_rep {y z : ℚ} (hy : Single y) (hz : Single z) (h : y < z)
    (hn : ∀ u, Single u → ¬ (y < u ∧ u < z)) : Rep ((y + z) / 2) := by
  obtain ⟨m, e, hm, rfl⟩ := hy
  obtain ⟨m', e', hm', rfl⟩ := hz
  rcases le_total e e' with hle | hle
  · obtain ⟨d, rfl⟩ : ∃ d : ℕ, e' = e + d := ⟨(e' - e).toNat, by omega⟩
    have hp : (0 : ℚ) < 2 ^ e := by positivity
    have ez : (m' : ℚ) * 2 ^ (e + d) = (m' * 2 ^ d) * 2 ^ e := by
      rw [zpow_add₀ (by norm_num), zpow_natCast]; ring
    have h1 : (m : ℚ) < m' * 2 ^ d := by
      rw [ez] at h; exact lt_of_mul_lt_mul_right h hp.le
    have h2 : m + 1 ≤ m' * 2 ^ d := by exact_mod_cast h1
    have h3 : (m : ℚ) + 1 ≤ m' * 2 ^ d := by exact_mod_cast h2
    have hs : Single (((m + 1 : ℤ) : ℚ) * 2 ^ e) :=
      rep_scaled (by have := abs_lt.1 hm; rw [abs_le]; constructor <;> omega) e
    have h4 := hn _ hs
    have h5 : (m : ℚ) + 1 = m' * 2 ^ d := by
      by_contra hne
      have hlt := lt_of_le_of_ne h3 hne
      apply h4
      rw [ez]
      push_cast
      constructor
      · nlinarith
      · exact mul_lt_mul_of_pos_right hlt hp
    rw [ez, ← h5]
    refine ⟨2 * m + 1, e - 1, ?_, ?_⟩
    · have := abs_lt.1 hm; rw [abs_lt]; constructor <;> omega
    · have : (2 : ℚ) ^ e = 2 * 2 ^ (e - 1) := by
        rw [mul_comm, ← zpow_add_one₀ (by norm_num), sub_add_cancel]
      rw [this]; push_cast; ring
  · obtain ⟨d, rfl⟩ : ∃ d : ℕ, e = e' + d := ⟨(e - e').toNat, by omega⟩
    have hp : (0 : ℚ) < 2 ^ e' := by positivity
    have ez : (m : ℚ) * 2 ^ (e' + d) = (m * 2 ^ d) * 2 ^ e' := by
      rw [zpow_add₀ (by norm_num), zpow_natCast]; ring
    have h1 : (m : ℚ) * 2 ^ d < m' := by
      rw [ez] at h; exact lt_of_mul_lt_mul_right h hp.le
    have h2 : m * 2 ^ d ≤ m' - 1 := by
      have : m * 2 ^ d < m' := by exact_mod_cast h1
      omega
    have h3 : (m : ℚ) * 2 ^ d ≤ m' - 1 := by exact_mod_cast h2
    have hs : Single (((m' - 1 : ℤ) : ℚ) * 2 ^ e') :=
      rep_scaled (by have := abs_lt.1 hm'; rw [abs_le]; constructor <;> omega) e'
    have h4 := hn _ hs
    have h5 : (m : ℚ) * 2 ^ d = m' - 1 := by
      by_contra hne
      have hlt := lt_of_le_of_ne h3 hne
      apply h4
      rw [ez]
      push_cast
      constructor
      · exact mul_lt_mul_of_pos_right hlt hp
      · nlinarith
    rw [ez, h5]
    refine ⟨2 * m' - 1, e' - 1, ?_, ?_⟩
    · have := abs_lt.1 hm'; rw [abs_lt]; constructor <;> omega
    · have : (2 : ℚ) ^ e' = 2 * 2 ^ (e' - 1) := by
        rw [mul_comm, ← zpow_add_one₀ (by norm_num), sub_add_cancel]
      rw [this]; push_cast; ring

theorem abs_le_mid {a b x : ℚ} (h : a < b) (hn : |a - x| ≤ |b - x|) : 2 * x ≤ a + b := by
  by_contra hc
  push Not at hc
  have : |b - x| < |a - x| := by
    rw [abs_lt]
    have := neg_le_abs (a - x)
    constructor <;> linarith
  linarith

theorem mid_le_abs {a b x : ℚ} (h : a < b) (hn : |b - x| ≤ |a - x|) : a + b ≤ 2 * x := by
  by_contra hc
  push Not at hc
  have : |a - x| < |b - x| := by
    rw [abs_lt]
    have := le_abs_self (b - x)
    constructor <;> linarith
  linarith

/-- Rounding the double `d` instead of the number `r` does not give less. -/
theorem twice_aux {r d y z : ℚ} (hd : ∀ w, Rep w → |d - r| ≤ |w - r|)
    (hy : Single y) (hyn : ∀ u, Single u → |y - d| ≤ |u - d|)
    (hz : Single z) (hzn : ∀ u, Single u → |z - r| ≤ |u - r|) (hh : ¬ Halfway d) : ¬ y < z := by
  intro hlt
  have h1 := abs_le_mid hlt (hyn z hz)
  have h2 := mid_le_abs hlt (hzn y hy)
  -- no double above `d` and not above `r`
  have no : ∀ w, Rep w → d < w → ¬ w ≤ r := by
    intro w hw h3 h4
    have := hd w hw
    rw [abs_of_nonpos (by linarith), abs_of_nonpos (by linarith)] at this
    linarith
  have yd : y ≤ d := by
    by_contra hc
    push Not at hc
    rcases le_or_gt y r with h3 | h3
    · exact no y (single_rep hy) hc h3
    · linarith
  have zr : r ≤ z := by
    by_contra hc
    push Not at hc
    by_cases hdz : d < z
    · exact no z (single_rep hz) hdz hc.le
    · push Not at hdz
      linarith
  have adj : ∀ u, Single u → ¬ (y < u ∧ u < z) := by
    rintro u hu ⟨h3, h4⟩
    rcases le_or_gt u d with h5 | h5
    · have := hyn u hu
      rw [abs_of_nonpos (by linarith), abs_of_nonpos (by linarith)] at this
      linarith
    · have h6 : r < u := by
        by_contra hc
        push Not at hc
        exact no u (single_rep hu) h5 hc
      have := hzn u hu
      rw [abs_of_nonneg (by linarith), abs_of_nonneg (by linarith)] at this
      linarith
  rcases lt_or_eq_of_le h1 with h3 | h3
  · exact no _ (mid_rep hy hz hlt adj) (by linarith) (by linarith)
  · exact hh ⟨y, z, hy, hz, hlt, h3.symm, adj⟩

theorem abs_neg_sub (a b : ℚ) : |-a - b| = |a - -b| := by
  rw [← abs_neg (-a - b)]; congr 1; ring

theorem halfway_neg {x : ℚ} (h : Halfway (-x)) : Halfway x := by
  obtain ⟨s, t, hs, ht, hlt, he, hn⟩ := h
  refine ⟨-t, -s, ht.neg, hs.neg, by linarith, by linarith, fun u hu hc => ?_⟩
  exact hn (-u) hu.neg ⟨by linarith [hc.2], by linarith [hc.1]⟩

/-- Rounding to double precision first makes no difference, unless the double is halfway. -/
theorem twice {r d y z : ℚ} (hd : Nearest r d) (hy : NearestSingle d y) (hz : NearestSingle r z)
    (hh : ¬ Halfway d) : y = z := by
  rcases lt_trichotomy y z with h | h | h
  · exact absurd h (twice_aux hd.near hy.rep hy.near hz.rep hz.near hh)
  · exact h
  · refine absurd (neg_lt_neg h) (twice_aux (r := -r) (d := -d) ?_ hy.rep.neg ?_ hz.rep.neg ?_
      fun hc => hh (halfway_neg hc))
    · intro w hw
      have := hd.near (-w) hw.neg
      rw [abs_neg_sub, neg_neg]
      rwa [abs_neg_sub] at this
    · intro w hw
      have := hy.near (-w) hw.neg
      rw [abs_neg_sub, neg_neg]
      rwa [abs_neg_sub] at this
    · intro w hw
      have := hz.near (-w) hw.neg
      rw [abs_neg_sub, neg_neg]
      rwa [abs_neg_sub] at this

/-! ## The limits -/

theorem fl_big : fl bigDouble = 2 ^ 1024 := by decide +kernel

theorem below_big {r s d : ℚ} (hr : r < bigDouble) (h : Nearest r d) (h' : Nearest s d) : s < bigDouble := by
  by_contra hc
  push Not at hc
  have h1 := fl_mono hc
  rw [fl_big, ← Floats.nearest_iff.1 h'] at h1
  have hM : Rep (2 ^ 1024 - 2 ^ 971) := ⟨2 ^ 53 - 1, 971, by norm_num, by decide +kernel⟩
  have h2 := h.near _ hM
  unfold bigDouble at hr
  have e : (2 : ℚ) ^ 971 = 2 * 2 ^ 970 := by decide +kernel
  have p : (0 : ℚ) < 2 ^ 970 := by positivity
  rw [e] at h2
  clear hM e hc h h'
  generalize (2 : ℚ) ^ 970 = a at *
  generalize (2 : ℚ) ^ 1024 = b at *
  rw [abs_of_nonneg (a := d - r) (by linarith)] at h2
  rcases abs_cases (b - 2 * a - r) with ⟨h3, _⟩ | ⟨h3, _⟩ <;> rw [h3] at h2 <;> linarith

theorem rep_bigSingle : Rep bigSingle := ⟨2 ^ 25 - 1, 103, by norm_num, by unfold bigSingle; norm_num⟩

theorem halfway_bigSingle : Halfway bigSingle := by
  refine ⟨2 ^ 128 - 2 ^ 104, 2 ^ 128, ⟨2 ^ 24 - 1, 104, by norm_num, by norm_num⟩, ⟨1, 128, by norm_num, by norm_num⟩,
    by norm_num, by unfold bigSingle; norm_num, fun u hu hc => ?_⟩
  obtain ⟨n, hn⟩ := hu.multiple (k := 127) (by rw [abs_of_pos (by norm_num at hc; linarith [hc.1])]; norm_num at hc ⊢; linarith [hc.1])
  rw [hn] at hc
  norm_num at hc
  have h1 : (16777215 : ℚ) < n := by linarith [hc.1]
  have h2 : (n : ℚ) < 16777216 := by linarith [hc.2]
  have h1' : (16777215 : ℤ) < n := by exact_mod_cast h1
  have h2' : n < (16777216 : ℤ) := by exact_mod_cast h2
  omega

theorem below_single {r d : ℚ} (h : Nearest r d) (hh : ¬ Halfway d) : r < bigSingle ↔ d < bigSingle := by
  have e := fl_exact rep_bigSingle
  constructor
  · intro hr
    have := fl_mono hr.le
    rw [e, ← Floats.nearest_iff.1 h] at this
    refine lt_of_le_of_ne this ?_
    rintro rfl
    exact hh halfway_bigSingle
  · intro hd
    by_contra hc
    push Not at hc
    have := fl_mono hc
    rw [e, ← Floats.nearest_iff.1 h] at this
    linarith

theorem double_iff {r : ℚ} (h : r < bigDouble) (v : Num) : Double r v ↔ v = .fin (fl r) := by
  constructor
  · rintro (⟨_, hd⟩ | h')
    · rw [Floats.nearest_iff.1 hd]
    · linarith
  · rintro rfl
    exact .fin h (fl_nearest r)

theorem double_inf {r : ℚ} (h : bigDouble ≤ r) (v : Num) : Double r v ↔ v = .inf false := by
  constructor
  · rintro (⟨h', _⟩ | _)
    · linarith
    · rfl
  · rintro rfl
    exact .inf h

theorem single_iff {r : ℚ} (h : r < bigSingle) (v : Num) : SingleOf r v ↔ v = .fin (fs r) := by
  constructor
  · rintro (⟨_, hd⟩ | h')
    · rw [nearest_iff.1 hd]
    · linarith
  · rintro rfl
    exact .fin h (fs_nearest r)

theorem single_inf {r : ℚ} (h : bigSingle ≤ r) (v : Num) : SingleOf r v ↔ v = .inf false := by
  constructor
  · rintro (⟨h', _⟩ | _)
    · linarith
    · rfl
  · rintro rfl
    exact .inf h

end Verif.Literals
