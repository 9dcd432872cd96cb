import Verif.Whole.Model
import Verif.Complex.Lemmas

/-!
# Conversions and whole numbers: lemmas
-/

namespace Verif.Whole
open Spec
open Verif.Complex.Spec (Fl Prec rnd fs Rep24)
open Verif.Floats

/-! ## Rounding of whole numbers -/

/-- Rounding to `b + 1` bits gives a whole number if the number is whole. -/
theorem round_int (b : ℕ) (n : ℤ) (ex : ∀ m : ℤ, |m| < 2 ^ b → rne ((m : ℚ) / 2 ^ (Int.log 2 |(m : ℚ)| - b)) * 2 ^ (Int.log 2 |(m : ℚ)| - b) = (m : ℚ)) :
    ∃ k : ℤ, rne ((n : ℚ) / 2 ^ (Int.log 2 |(n : ℚ)| - b)) * 2 ^ (Int.log 2 |(n : ℚ)| - b) = (k : ℚ) := by
  rcases lt_or_ge |n| (2 ^ b) with h | h
  · exact ⟨n, ex n h⟩
  · have h1 : ((2 : ℕ) : ℚ) ^ (b : ℤ) ≤ |(n : ℚ)| := by
      have : ((2 ^ b : ℤ) : ℚ) ≤ ((|n| : ℤ) : ℚ) := by exact_mod_cast h
      rw [Int.cast_abs] at this
      rw [zpow_natCast]; push_cast at this ⊢; exact this
    have h0 : 0 < |(n : ℚ)| := lt_of_lt_of_le (by positivity) h1
    have h2 : (b : ℤ) ≤ Int.log 2 |(n : ℚ)| := (Int.zpow_le_iff_le_log (by norm_num) h0).1 h1
    obtain ⟨d, hd⟩ : ∃ d : ℕ, Int.log 2 |(n : ℚ)| - b = d := ⟨(Int.log 2 |(n : ℚ)| - b).toNat, by omega⟩
    rw [hd]
    exact ⟨rne ((n : ℚ) / 2 ^ (d : ℤ)) * 2 ^ d, by push_cast; rw [zpow_natCast]⟩

theorem rnd_int (p : Prec) (n : ℤ) : ∃ k : ℤ, rnd p n = k := by
  cases p with
  | dbl => exact round_int 52 n fun m hm => fl_exact (rep_int (le_of_lt (lt_trans hm (by norm_num))))
  | sgl =>
    exact round_int 23 n fun m hm => Complex.fs_exact ⟨m, 0, lt_trans hm (by norm_num), by simp⟩

theorem tozero_int (k : ℤ) : tozero k = k := by simp [tozero]

/-- The greatest whole number below a number with `b + 1` bits has `b + 1` bits. -/
theorem floor_bits (b : ℕ) (m e : ℤ) (hm : |m| < 2 ^ (b + 1)) :
    ∃ m' e' : ℤ, |m'| < 2 ^ (b + 1) ∧ ((⌊(m * 2 ^ e : ℚ)⌋ : ℤ) : ℚ) = m' * 2 ^ e' := by
  rcases le_or_gt 0 e with he | he
  · obtain ⟨d, rfl⟩ : ∃ d : ℕ, e = d := ⟨e.toNat, by omega⟩
    refine ⟨m, d, hm, ?_⟩
    have : (m * 2 ^ (d : ℤ) : ℚ) = ((m * 2 ^ d : ℤ) : ℚ) := by push_cast; rw [zpow_natCast]
    rw [this, Int.floor_intCast]
  · refine ⟨⌊(m * 2 ^ e : ℚ)⌋, 0, ?_, by simp⟩
    have h2 : (2 : ℚ) ^ e ≤ 1 / 2 := by
      calc (2 : ℚ) ^ e ≤ 2 ^ (-1 : ℤ) := zpow_le_zpow_right₀ (by norm_num) (by omega)
        _ = 1 / 2 := by norm_num
    have hp : (0 : ℚ) < 2 ^ e := by positivity
    have hq : |(m * 2 ^ e : ℚ)| ≤ 2 ^ b := by
      rw [abs_mul, abs_of_pos hp]
      have : (|(m : ℚ)|) ≤ 2 ^ (b + 1) := by
        have : ((|m| : ℤ) : ℚ) ≤ ((2 ^ (b + 1) : ℤ) : ℚ) := by exact_mod_cast hm.le
        rw [Int.cast_abs] at this; push_cast at this; exact this
      calc |(m : ℚ)| * 2 ^ e ≤ 2 ^ (b + 1) * (1 / 2) := mul_le_mul this h2 hp.le (by positivity)
        _ = 2 ^ b := by rw [pow_succ]; ring
    have ha := abs_le.1 hq
    have l1 : -(2 : ℤ) ^ b ≤ ⌊(m * 2 ^ e : ℚ)⌋ := by
      rw [Int.le_floor]; push_cast; exact ha.1
    have l2 : ⌊(m * 2 ^ e : ℚ)⌋ ≤ (2 : ℤ) ^ b := by
      have : ((⌊(m * 2 ^ e : ℚ)⌋ : ℤ) : ℚ) ≤ ((2 ^ b : ℤ) : ℚ) := by
        push_cast; exact le_trans (Int.floor_le _) ha.2
      exact_mod_cast this
    have : |⌊(m * 2 ^ e : ℚ)⌋| ≤ (2 : ℤ) ^ b := abs_le.2 ⟨l1, l2⟩
    have h3 : (2 : ℤ) ^ b < 2 ^ (b + 1) := by
      rw [pow_succ]; have : (0 : ℤ) < 2 ^ b := by positivity
      omega
    omega

theorem rnd_floor {p : Prec} {q : ℚ} (h : Fl.IsFloat p (.num q)) : rnd p ⌊q⌋ = (⌊q⌋ : ℤ) := by
  cases p with
  | sgl =>
    obtain ⟨m, e, hm, rfl⟩ := h
    exact Complex.fs_exact (floor_bits 23 m e hm)
  | dbl =>
    obtain ⟨m, e, hm, rfl⟩ := h
    exact fl_exact (floor_bits 52 m e hm)

theorem rnd_abs {p : Prec} {q : ℚ} (h : Fl.IsFloat p (.num q)) : rnd p |q| = |q| := by
  have : Fl.IsFloat p (.num |q|) := by
    rcases abs_choice q with hq | hq <;> rw [hq]
    · exact h
    · cases p with
      | sgl => obtain ⟨m, e, hm, rfl⟩ := h; exact ⟨-m, e, by rwa [abs_neg], by push_cast; ring⟩
      | dbl => exact Floats.Spec.Rep.neg h
  exact Complex.rnd_exact this

/-! ## Values -/

theorem toQ_ofQ (q : ℚ) : toQ (.ofQ q) = some q := by
  unfold Fl.ofQ; split
  · rename_i h; rw [h]; rfl
  · rfl

theorem toQ_floorFl (x : Fl) : toQ (floorFl x) = (toQ x).map fun q => ((⌊q⌋ : ℤ) : ℚ) := by
  cases x with
  | num q => 
    simp only [floorFl]; split
    · rename_i h; show some (0 : ℚ) = some ((⌊q⌋ : ℤ) : ℚ); rw [h]; simp
    · rfl
  | zero s => simp [floorFl, toQ]
  | _ => rfl

theorem toQ_ceilFl (x : Fl) : toQ (ceilFl x) = (toQ x).map fun q => ((⌈q⌉ : ℤ) : ℚ) := by
  cases x with
  | num q => 
    simp only [ceilFl]; split
    · rename_i h; show some (0 : ℚ) = some ((⌈q⌉ : ℤ) : ℚ); rw [h]; simp
    · rfl
  | zero s => simp [ceilFl, toQ]
  | _ => rfl

theorem toQ_truncFl (x : Fl) : toQ (truncFl x) = (toQ x).map fun q => ((tozero q : ℤ) : ℚ) := by
  cases x with
  | num q => 
    simp only [truncFl]; split
    · rename_i h; show some (0 : ℚ) = some ((tozero q : ℤ) : ℚ); rw [h]; simp
    · rfl
  | zero s => simp [truncFl, toQ, tozero]
  | _ => rfl

theorem toQ_absFl (x : Fl) : toQ (absFl x) = (toQ x).map fun q => |q| := by
  cases x <;> simp [absFl, toQ]

theorem toInt_some {w : ℕ} {x : Fl} {q : ℚ} (h : toQ x = some q) : toInt w x = if InBits w (tozero q) then some (tozero q) else none := by
  simp [toInt, h]

theorem toInt_none {w : ℕ} {x : Fl} (h : toQ x = none) : toInt w x = none := by simp [toInt, h]

theorem InBits.mono {w : ℕ} {n : ℤ} (hw : w ≤ 64) (h : InBits w n) : InBits 64 n := by
  have : (2 : ℤ) ^ (w - 1) ≤ 2 ^ (64 - 1) := pow_le_pow_right₀ (by norm_num) (by omega)
  exact ⟨by linarith [h.1], by linarith [h.2]⟩

/-- A whole number that comes out of a rounded one is right only if nothing was rounded. -/
theorem whole_iff {w : ℕ} {n k : ℤ} (hn : InBits w n) : (if InBits w k then some (Res.int k) else none) = some (Res.int n) ↔ k = n := by
  constructor
  · intro h; split at h <;> simp_all
  · rintro rfl; simp [hn]

end Verif.Whole
