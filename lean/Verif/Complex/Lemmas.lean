import Verif.Complex.Model

/-! # complex(a, b): lemmas on floating-point numbers -/

namespace Verif.Complex
open Spec Verif.Floats

/-! ## Rounding to 24 bits -/

theorem rne_int (n : ℤ) : rne (n : ℚ) = n := by simp [rne]

theorem multiple24 {y : ℚ} (hy : Rep24 y) {k : ℤ} (hk : (2 : ℚ) ^ k ≤ |y|) : ∃ n : ℤ, y = n * 2 ^ (k - 23) := by
  obtain ⟨m, e, hm, rfl⟩ := hy
  have h2 : (0 : ℚ) < 2 ^ e := by positivity
  have hm' : |(m : ℚ)| < 2 ^ (24 : ℤ) := by
    have : ((|m| : ℤ) : ℚ) < ((2 ^ 24 : ℤ) : ℚ) := by exact_mod_cast hm
    rw [Int.cast_abs] at this
    calc |(m : ℚ)| < _ := this
      _ = _ := by norm_num
  have hlt : (2 : ℚ) ^ k < 2 ^ (24 + e) := by
    rw [abs_mul, abs_of_pos h2] at hk
    rw [zpow_add₀ (by norm_num)]
    exact lt_of_le_of_lt hk (mul_lt_mul_of_pos_right hm' h2)
  have hke : k < 24 + e := (zpow_lt_zpow_iff_right₀ (by norm_num)).1 hlt
  obtain ⟨d, hd⟩ : ∃ d : ℕ, e = k - 23 + d := ⟨(e - (k - 23)).toNat, by omega⟩
  refine ⟨m * 2 ^ d, ?_⟩
  rw [hd, zpow_add₀ (by norm_num), zpow_natCast]
  push_cast; ring

theorem fs_zero : fs 0 = 0 := by simp [fs, rne]

theorem fs_exact {x : ℚ} (hx : Rep24 x) : fs x = x := by
  rcases eq_or_ne x 0 with rfl | h
  · exact fs_zero
  · obtain ⟨n, hn⟩ := multiple24 hx (k := Int.log 2 |x|)
      (by have := Int.zpow_log_le_self (b := 2) (by norm_num) (abs_pos.2 h); exact_mod_cast this)
    have hp : (0 : ℚ) < 2 ^ (Int.log 2 |x| - 23) := by positivity
    unfold fs
    have : x / 2 ^ (Int.log 2 |x| - 23) = n := by
      rw [div_eq_iff hp.ne']; exact hn
    rw [this, rne_int]; exact hn.symm

theorem fs_rep (x : ℚ) : Rep24 (fs x) := by
  rcases eq_or_ne x 0 with rfl | h
  · rw [fs_zero]; exact ⟨0, 0, by norm_num, by norm_num⟩
  · have hp : (0 : ℚ) < 2 ^ (Int.log 2 |x| - 23) := by positivity
    have hlt : |x / 2 ^ (Int.log 2 |x| - 23)| < 2 ^ 24 := by
      have h2 : |x| < (2 : ℚ) ^ (Int.log 2 |x| + 1) := by
        have := Int.lt_zpow_succ_log_self (b := 2) (by norm_num) |x|
        exact_mod_cast this
      rw [abs_div, abs_of_pos hp, div_lt_iff₀ hp]
      calc |x| < _ := h2
        _ = 2 ^ (24 : ℤ) * 2 ^ (Int.log 2 |x| - 23) := by
            rw [← zpow_add₀ (by norm_num)]; congr 1; ring
        _ = _ := by norm_num
    have hk := abs_le_of_near (n := 24) (rne_half (x / 2 ^ (Int.log 2 |x| - 23))) hlt
    rcases lt_or_eq_of_le hk with hk | hk
    · exact ⟨_, _, hk, rfl⟩
    · rcases abs_eq (by norm_num) |>.1 hk with hk | hk
      · exact ⟨1, Int.log 2 |x| - 23 + 24, by norm_num, by
          unfold fs; rw [hk, zpow_add₀ (by norm_num)]; norm_num; ring⟩
      · exact ⟨-1, Int.log 2 |x| - 23 + 24, by norm_num, by
          unfold fs; rw [hk, zpow_add₀ (by norm_num)]; norm_num; ring⟩

theorem rep_of_24 {x : ℚ} : Rep24 x → Floats.Spec.Rep x
  | ⟨m, e, h, hx⟩ => ⟨m, e, lt_of_lt_of_le h (by norm_num), hx⟩

theorem rnd_exact {p : Prec} {q : ℚ} (h : Fl.IsFloat p (.num q)) : rnd p q = q := by
  cases p
  · exact fs_exact h
  · exact fl_exact h

/-- Both precisions: what is representable in single precision is in double precision. -/
theorem IsFloat.mono {p : Prec} {x : Fl} (q : Prec) (h : x.IsFloat p) (hq : p = .dbl → q = .dbl) : x.IsFloat q := by
  cases x <;> try trivial
  cases p <;> cases q
  · exact h
  · exact rep_of_24 h
  · exact absurd (hq rfl) (by decide)
  · exact h

theorem isFloat_ofQ (p : Prec) (q : ℚ) : (Fl.ofQ (rnd p q)).IsFloat p := by
  unfold Fl.ofQ
  split
  · trivial
  · cases p
    · exact fs_rep q
    · exact fl_rep q

theorem finite_ofQ (q : ℚ) : (Fl.ofQ q).finite = true := by
  unfold Fl.ofQ; split <;> rfl

theorem isFloat_add (x y : Fl) (hx : x.IsFloat .dbl) (hy : y.IsFloat .dbl) : (Fl.add .dbl x y).IsFloat .dbl := by
  cases x <;> cases y <;> simp only [Fl.add] <;> (try split) <;> first | trivial | exact hx | exact hy | exact fl_rep _

theorem finite_add (p : Prec) (x y : Fl) (hx : x.finite = true) (hy : y.finite = true) : (Fl.add p x y).finite = true := by
  cases x <;> cases y <;> first | rfl | (simp [Fl.finite] at hx; done) | (simp [Fl.finite] at hy; done) | skip
  simp only [Fl.add]; split <;> rfl

theorem finite_neg (x : Fl) : x.neg.finite = x.finite := by cases x <;> rfl

theorem isFloat_neg (x : Fl) (hx : x.IsFloat .dbl) : x.neg.IsFloat .dbl := by
  cases x <;> try trivial
  exact Floats.Spec.Rep.neg hx

/-! ## Same except for the sign of zero -/

theorem same_refl (x : Fl) : x.Same x := .inl rfl

theorem same_symm {x y : Fl} : x.Same y → y.Same x
  | .inl h => .inl h.symm
  | .inr ⟨s, t, hx, hy⟩ => .inr ⟨t, s, hy, hx⟩

theorem same_trans {x y z : Fl} : x.Same y → y.Same z → x.Same z
  | .inl h, h' => h ▸ h'
  | h, .inl h' => h' ▸ h
  | .inr ⟨s, _, hx, _⟩, .inr ⟨_, t, _, hz⟩ => .inr ⟨s, t, hx, hz⟩

theorem same_zero (s t : Bool) : (Fl.zero s).Same (.zero t) := .inr ⟨s, t, rfl, rfl⟩

theorem same_congr {x x' y y' : Fl} (hx : x.Same x') (hy : y.Same y') : x.Same y ↔ x'.Same y' :=
  ⟨fun h => same_trans (same_symm hx) (same_trans h hy), fun h => same_trans hx (same_trans h (same_symm hy))⟩

theorem add_comm (p : Prec) (x y : Fl) : Fl.add p x y = Fl.add p y x := by
  cases x <;> cases y <;> simp only [Fl.add]
  · rename_i s t; by_cases h : s = t
    · subst h; rfl
    · rw [if_neg h, if_neg (Ne.symm h)]
  · rw [Bool.and_comm]
  · rename_i a b; rw [_root_.add_comm b a]

theorem add_zero_same (p : Prec) (x : Fl) (s : Bool) : (Fl.add p x (.zero s)).Same x := by
  cases x <;> first | exact same_refl _ | exact same_zero _ _

theorem zero_add_same (p : Prec) (x : Fl) (s : Bool) : (Fl.add p (.zero s) x).Same x := by
  rw [add_comm]; exact add_zero_same p x s

theorem add_same (p : Prec) (x : Fl) {y y' : Fl} (h : y.Same y') : (Fl.add p x y).Same (Fl.add p x y') := by
  rcases h with rfl | ⟨s, t, rfl, rfl⟩
  · exact same_refl _
  · exact same_trans (add_zero_same p x s) (same_symm (add_zero_same p x t))

theorem same_ofQ {q q' : ℚ} : (Fl.ofQ q).Same (.ofQ q') ↔ q = q' := by
  constructor
  · intro h
    unfold Fl.ofQ at h
    rcases h with h | ⟨s, t, h1, h2⟩
    · split at h <;> split at h <;> simp_all
    · split at h1 <;> split at h2 <;> simp_all
  · rintro rfl; exact same_refl _

theorem mul_one (p : Prec) {x : Fl} (h : x.IsFloat p) : Fl.mul p x one = x := by
  cases x <;> simp only [Fl.mul, one]
  · rename_i s; cases s <;> simp
  · rename_i s; cases s <;> simp
  · rename_i q; rw [_root_.mul_one, rnd_exact h]

theorem mul_zero (p : Prec) {x : Fl} (h : x.finite = true) : ∃ s, Fl.mul p x pz = .zero s := by
  cases x <;> simp_all [Fl.mul, pz, Fl.finite]

end Verif.Complex
