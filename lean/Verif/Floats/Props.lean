import Verif.Floats.Lemmas

/-!
# Arithmetic on floating-point numbers: properties

C83: `round(x)`.  C84: `round(x, n)`.  C85: `//`.  C86: `%`.  C87: comparisons of integers with floats.
C88: `/` of integers.  C89: `**` of integers.  C90: `min` and `max`.
-/

namespace Verif.Floats
open Spec Model

/-- The specification is not empty: each number has exactly one rounding. -/
theorem C83_rounding (x : ℚ) : ∃! y, Nearest x y :=
  ⟨fl x, fl_nearest x, fun _ h => nearest_iff.1 h⟩

/-- **C83** (C): `round(x)` is the nearest integer, the even one of two, for all floating-point numbers that fit into
64-bit integers.  Missing: odd integers between `2 ^ 52` and `2 ^ 53` (`C83_odd_violated`). -/
theorem C83_partial {x : ℚ} (hx : Rep x) (h63 : |x| < 2 ^ 63)
    (hodd : ∀ n : ℤ, |x| = n → 2 ^ 52 < n → n < 2 ^ 53 → Even n) :
    ∃ k : ℤ, RoundsTo x k ∧ cRound x 0 = some (k : ℚ) := by
  rcases le_or_gt 0 x with h | h
  · rw [abs_of_nonneg h] at h63 hodd
    exact cRound_nonneg hx h h63 hodd
  · rw [abs_of_neg h] at h63 hodd
    obtain ⟨k, hk, hr⟩ := cRound_nonneg hx.neg (by linarith) h63 hodd
    have hn := RoundsTo.neg hk
    have hc := cRound_neg (x := -x) (n := 0) (by rw [fl_ten0, mul_one, fl_exact hx.neg]; linarith) hr
    rw [neg_neg] at hn hc
    exact ⟨-k, hn, by rw [hc]; push_cast; rfl⟩

example : Rep (-5/2) ∧ |(-5/2 : ℚ)| < 2 ^ 63 ∧ (∀ n : ℤ, |(-5/2 : ℚ)| = n → 2 ^ 52 < n → n < 2 ^ 53 → Even n) ∧
    cRound (-5/2) 0 = some (-2) := by
  refine ⟨⟨-5, -1, by norm_num, by norm_num⟩, by rw [abs_of_neg (by norm_num)]; norm_num, fun n h h1 => ?_, by decide +kernel⟩
  have : (2 ^ 52 : ℚ) < n := by exact_mod_cast h1
  rw [← h, abs_of_neg (by norm_num)] at this
  norm_num at this

/-- **C83** (Fortran): all floating-point numbers that fit into 64-bit integers. -/
theorem C83_fortran {x : ℚ} (hx : Rep x) (h63 : |x| < 2 ^ 63) :
    ∃ k : ℤ, RoundsTo x k ∧ fRound x 0 = some (k : ℚ) := by
  rcases le_or_gt 0 x with h | h
  · rw [abs_of_nonneg h] at h63
    exact fRound_nonneg hx h h63
  · rw [abs_of_neg h] at h63
    obtain ⟨k, hk, hr⟩ := fRound_nonneg hx.neg (by linarith) h63
    have hn := RoundsTo.neg hk
    have hc := fRound_neg hx.neg (by linarith) h63 hr
    rw [neg_neg] at hn hc
    exact ⟨-k, hn, by rw [hc]; push_cast; rfl⟩

example : Rep (4503599627370497 : ℚ) ∧ |(4503599627370497 : ℚ)| < 2 ^ 63 ∧ fRound 4503599627370497 0 = some 4503599627370497 :=
  ⟨⟨4503599627370497, 0, by norm_num, by norm_num⟩, by rw [abs_of_pos (by norm_num)]; norm_num, by decide +kernel⟩

/-- C83 fails: in C, `round(x)` of an odd integer `x` above `2 ^ 52` is `x + 1`: adding one half is rounded up. -/
theorem C83_odd_violated :
    Rep 4503599627370497 ∧ cRound 4503599627370497 0 = some 4503599627370498 ∧
      ¬ RoundsTo 4503599627370497 4503599627370498 := by
  refine ⟨⟨4503599627370497, 0, by norm_num, by norm_num⟩, by decide +kernel, fun h => ?_⟩
  have := h.1
  norm_num at this

/-- C83 fails: `round(x)` of a number that does not fit into 64 bits is undefined; in Python it is an integer. -/
theorem C83_range_violated : Rep (2 ^ 63) ∧ cRound (2 ^ 63) 0 = none ∧ fRound (2 ^ 63) 0 = none ∧ RoundsTo (2 ^ 63) (2 ^ 63) :=
  ⟨⟨1, 63, by norm_num, by norm_num⟩, by decide +kernel, by decide +kernel, by unfold RoundsTo; norm_num⟩

/-- **C84** (C): `round(x, n)` for `n ≥ 0`, if the product of `x` and `10 ** n` needs no rounding.  Missing: rounded
products (`C84_product_violated`), halves of the last digit (`C84_half_violated`), `n > 22`, `n < 0`, large numbers. -/
theorem C84_partial {x : ℚ} {n : ℕ} (hn : n ≤ 22) (hp : Rep (x * 10 ^ n)) (h52 : |x * 10 ^ n| < 2 ^ 52)
    (hne : |x * 10 ^ n| ≠ 1/2 - 2 ^ (-54 : ℤ)) (htie : n = 0 ∨ ∀ k : ℤ, 2 * |x * 10 ^ n - k| ≠ 1) :
    ∃ y, RoundsToDigits x n y ∧ cRound x n = some y := by
  rcases le_or_gt 0 (x * 10 ^ n) with h | h
  · rw [abs_of_nonneg h] at h52 hne
    exact cRound_digits hn hp h h52 hne htie
  · rw [abs_of_neg h] at h52 hne
    have e : -(x * 10 ^ n) = -x * 10 ^ n := by ring
    rw [e] at h52 hne
    have hp' : Rep (-x * 10 ^ n) := e ▸ hp.neg
    obtain ⟨y, ⟨k, hk, hy⟩, hr⟩ := cRound_digits hn hp' (by linarith) h52 hne (htie.imp_right fun ht k hk => ht (-k) (by
      rw [← hk, ← abs_neg]; push_cast; congr 2; ring))
    have hn' := RoundsTo.neg hk
    have hc := cRound_neg (x := -x) (n := n) (by rw [fl_ten hn, fl_exact hp']; linarith) hr
    rw [neg_neg] at hc
    rw [show -(-x * 10 ^ n) = x * 10 ^ n by ring] at hn'
    refine ⟨-y, ⟨-k, hn', ?_⟩, hc⟩
    rw [nearest_iff] at hy ⊢
    rw [hy, ← fl_neg]
    congr 1; push_cast; ring

example : Rep ((1/8 : ℚ) * 10 ^ 1) ∧ |(1/8 : ℚ) * 10 ^ 1| < 2 ^ 52 ∧ |(1/8 : ℚ) * 10 ^ 1| ≠ 1/2 - 2 ^ (-54 : ℤ) ∧
    cRound (1/8) 1 = some (fl (1/10)) := by
  rw [abs_of_pos (by norm_num)]
  exact ⟨⟨5, -2, by norm_num, by norm_num⟩, by norm_num, by norm_num, by decide +kernel⟩

/-- There is only one result that Python can have. -/
theorem digits_unique {x y y' : ℚ} {n : ℕ} (h : RoundsToDigits x n y) (h' : RoundsToDigits x n y') : y = y' := by
  obtain ⟨k, hk, hy⟩ := h
  obtain ⟨k', hk', hy'⟩ := h'
  rw [roundsTo_unique hk hk'] at hy
  exact Nearest.unique hy hy'

/-- C84 fails: `round(0.125, 2)` is 0.13 in C and Fortran and 0.12 in Python. -/
theorem C84_half_violated :
    RoundsToDigits (1/8) 2 (fl (12/100)) ∧ cRound (1/8) 2 = some (fl (13/100)) ∧ fRound (1/8) 2 ≠ some (fl (12/100)) ∧
      fl (12/100) ≠ fl (13/100) := by
  refine ⟨⟨12, ⟨?_, fun _ => ⟨6, by norm_num⟩⟩, by norm_num; exact fl_nearest _⟩, by decide +kernel, by decide +kernel,
    by decide +kernel⟩
  rw [abs_of_pos (by norm_num)]; norm_num

/-- C84 fails: `round(2.675, 2)` is 2.68 in C and 2.67 in Python: the number is a bit below, but the product is rounded. -/
theorem C84_product_violated :
    RoundsToDigits (fl (2675/1000)) 2 (fl (267/100)) ∧ cRound (fl (2675/1000)) 2 = some (fl (268/100)) ∧
      fl (267/100) ≠ fl (268/100) := by
  have e : fl (2675/1000) = 3011782250804019/1125899906842624 := by decide +kernel
  refine ⟨⟨267, ?_, by norm_num; exact fl_nearest _⟩, by decide +kernel, by decide +kernel⟩
  rw [e]
  unfold RoundsTo
  rw [abs_of_pos (by norm_num)]
  norm_num

/-- C84 fails: in Fortran, `round(0.3, 1)` is not 0.3: it multiplies with 0.1. -/
theorem C84_fortran_violated :
    RoundsToDigits (fl (3/10)) 1 (fl (3/10)) ∧ ∃ y, fRound (fl (3/10)) 1 = some y ∧ y ≠ fl (3/10) := by
  have e : fl (3/10) = 5404319552844595/18014398509481984 := by decide +kernel
  refine ⟨⟨3, ?_, by norm_num; exact fl_nearest _⟩, 1351079888211149/4503599627370496, by decide +kernel, by decide +kernel⟩
  rw [e]
  unfold RoundsTo
  rw [abs_of_neg (by norm_num)]
  norm_num

/-- **C85**: `a // b` in C is that of Python exactly if the rounded quotient is not the next integer; otherwise
it is one more.  Missing: quotients of more than 53 bits; the negation is `C85_violated`. -/
theorem C85_partial {a b : ℚ} (h : |a / b| < 2 ^ 53) :
    (¬ Nearest (a / b) (pyFloorDiv a b + 1) → cFloorDiv a b = pyFloorDiv a b) ∧
    (Nearest (a / b) (pyFloorDiv a b + 1) → cFloorDiv a b = pyFloorDiv a b + 1) := by
  obtain ⟨h1, h2⟩ := floor_fl h
  unfold pyFloorDiv cFloorDiv
  rw [nearest_iff]
  constructor
  · intro hn
    exact Int.floor_eq_iff.2 ⟨h1, lt_of_le_of_ne h2 (Ne.symm hn)⟩
  · intro hn
    rw [← hn]
    exact Int.floor_eq_iff.2 ⟨by push_cast; linarith, by push_cast; linarith⟩

example : |(7 / (1/2) : ℚ)| < 2 ^ 53 ∧ ¬ Nearest (7 / (1/2)) (pyFloorDiv 7 (1/2) + 1) ∧ cFloorDiv 7 (1/2) = 14 := by
  refine ⟨by rw [abs_of_pos (by norm_num)]; norm_num, ?_, by decide +kernel⟩
  rw [nearest_iff]; decide +kernel

/-- **C85** for integers as floats (or a float and an integer), in C. -/
theorem C85_integers {a b : ℤ} (hb : b ≠ 0) (h : |a| + |b| ≤ 2 ^ 52) : cFloorDiv a b = pyFloorDiv a b := by
  unfold cFloorDiv pyFloorDiv
  have key : ∀ {a b : ℤ}, 0 < b → |a| + |b| ≤ 2 ^ 52 → ⌊fl ((a : ℚ) / b)⌋ = ⌊(a : ℚ) / b⌋ := by
    intro a b hb h
    rw [abs_of_pos hb] at h
    have hbq : (1 : ℚ) ≤ b := by exact_mod_cast hb
    have hq : |(a : ℚ) / b| < 2 ^ 53 := by
      rw [abs_div, abs_of_pos (a := (b : ℚ)) (by linarith), div_lt_iff₀ (by linarith)]
      have h1 : |a| ≤ 2 ^ 52 := by omega
      have h2 : |(a : ℚ)| ≤ 2 ^ 52 := by exact_mod_cast h1
      nlinarith
    exact Int.floor_eq_iff.2 ⟨(floor_fl hq).1, int_quotient hb h⟩
  rcases lt_or_gt_of_ne hb with hb | hb
  · have := key (a := -a) (b := -b) (by omega) (by rwa [abs_neg, abs_neg])
    push_cast at this
    rwa [neg_div_neg_eq] at this
  · exact key hb h

example : (7 : ℤ) ≠ 0 ∧ |(-20 : ℤ)| + |(7 : ℤ)| ≤ 2 ^ 52 ∧ cFloorDiv (-20) 7 = -3 :=
  ⟨by norm_num, by norm_num, by decide +kernel⟩

/-- **C85** in Fortran: the same, if the result fits into 64 bits. -/
theorem C85_fortran_partial {a b : ℚ} (h : |a / b| < 2 ^ 53) : fFloorDiv a b = some (cFloorDiv a b : ℚ) := by
  obtain ⟨h1, h2⟩ := floor_fl h
  obtain ⟨q1, q2⟩ := abs_lt.1 h
  have b0 : -2 ^ 53 ≤ ⌊a / b⌋ := by rw [Int.le_floor]; push_cast; linarith
  have b1 : ⌊a / b⌋ < 2 ^ 53 := by rw [Int.floor_lt]; push_cast; linarith
  have c0 : ⌊a / b⌋ ≤ ⌊fl (a / b)⌋ := Int.le_floor.2 h1
  have c1 : ⌊fl (a / b)⌋ ≤ ⌊a / b⌋ + 1 := by
    have h3 := Int.floor_le (fl (a / b))
    have : (⌊fl (a / b)⌋ : ℚ) ≤ ((⌊a / b⌋ + 1 : ℤ) : ℚ) := by push_cast; linarith
    exact_mod_cast this
  unfold fFloorDiv cFloorDiv
  rw [if_pos (by simp only [inRange, Bool.and_eq_true, decide_eq_true_eq]; omega),
    fl_int (by rw [abs_le]; constructor <;> omega)]

example : |(-7 / 2 : ℚ)| < 2 ^ 53 ∧ fFloorDiv (-7) 2 = some (-4) :=
  ⟨by rw [abs_of_neg (by norm_num)]; norm_num, by decide +kernel⟩

/-- C85 fails: `1.0 // 0.1` is 10.0 in C and Fortran, and 9.0 in Python (0.1 is a bit more than a tenth). -/
theorem C85_violated : cFloorDiv 1 (fl (1/10)) = 10 ∧ fFloorDiv 1 (fl (1/10)) = some 10 ∧ pyFloorDiv 1 (fl (1/10)) = 9 :=
  ⟨by decide +kernel, by decide +kernel, by decide +kernel⟩

/-- C85 fails: in Fortran, a quotient that does not fit into 64 bits is undefined. -/
theorem C85_range_violated : fFloorDiv (2 ^ 70) 1 = none ∧ pyFloorDiv (2 ^ 70) 1 = 2 ^ 70 :=
  ⟨by decide +kernel, by decide +kernel⟩

/-- **C86**: `a % b` of floats is that of Python in both languages. -/
theorem C86_partial {a b : ℚ} (ha : Rep a) (hb : Rep b) (h : b ≠ 0) : IsMod a b (cMod a b) ∧ IsMod a b (fMod a b) :=
  ⟨cMod_isMod ha hb h, fMod_isMod ha hb h⟩

example : Rep (-7/2) ∧ Rep 2 ∧ cMod (-7/2) 2 = 1/2 ∧ fMod (-7/2) 2 = 1/2 :=
  ⟨⟨-7, -1, by norm_num, by norm_num⟩, ⟨2, 0, by norm_num, by norm_num⟩, by decide +kernel, by decide +kernel⟩

/-- C86 fails: `a // b` and `a % b` do not belong together, as they do in Python: `(a // b) * b + a % b` is not near `a`. -/
theorem C86_identity_violated :
    let b := fl (1/10)
    |cFloorDiv 1 b * b + cMod 1 b - 1| > 9/100 ∧ |pyFloorDiv 1 b * b + cMod 1 b - 1| = 0 := by
  refine ⟨by decide +kernel, by decide +kernel⟩

/-- **C87**: comparisons of integers with floats give the same as in Python.  Missing: integers of more than 53 bits
(`C87_violated`). -/
theorem C87_partial {n : ℤ} (h : |n| ≤ 2 ^ 53) (c : Cmp) (x : ℚ) : cCmp c n x = c.holds n x := by
  rw [cCmp, fl_int h]

example : |(-9007199254740992 : ℤ)| ≤ 2 ^ 53 ∧ cCmp .lt (-9007199254740992) (1/2) = true := ⟨by norm_num, by decide +kernel⟩

/-- **C87** for all integers: the order is never reversed, and what Python finds less or equal is less or equal. -/
theorem C87_order (n : ℤ) {x : ℚ} (hx : Rep x) :
    (Cmp.holds .le n x → cCmp .le n x) ∧ (Cmp.holds .ge n x → cCmp .ge n x) ∧
    (cCmp .lt n x → Cmp.holds .lt n x) ∧ (cCmp .gt n x → Cmp.holds .gt n x) := by
  simp only [cCmp, Cmp.holds, decide_eq_true_eq]
  have h1 : (n : ℚ) ≤ x → fl n ≤ x := fun h => by have := fl_mono h; rwa [fl_exact hx] at this
  have h2 : x ≤ (n : ℚ) → x ≤ fl n := fun h => by have := fl_mono h; rwa [fl_exact hx] at this
  exact ⟨h1, h2, fun h => not_le.1 fun hc => absurd (h2 hc) (not_le.2 h), fun h => not_le.1 fun hc => absurd (h1 hc) (not_le.2 h)⟩

example : Rep (2 ^ 53) ∧ Cmp.holds .ge ((2 ^ 53 + 1 : ℤ) : ℚ) (2 ^ 53) = true :=
  ⟨⟨1, 53, by norm_num, by norm_num⟩, by decide +kernel⟩

/-- C87 fails: the integer `2 ** 53 + 1` equals the float `2.0 ** 53` in compiled code; in Python it is greater. -/
theorem C87_violated :
    cCmp .eq (2 ^ 53 + 1) (2 ^ 53) = true ∧ Cmp.holds .eq ((2 ^ 53 + 1 : ℤ) : ℚ) (2 ^ 53) = false ∧
    cCmp .gt (2 ^ 53 + 1) (2 ^ 53) = false ∧ Cmp.holds .gt ((2 ^ 53 + 1 : ℤ) : ℚ) (2 ^ 53) = true :=
  ⟨by decide +kernel, by decide +kernel, by decide +kernel, by decide +kernel⟩

/-- **C88**: `a / b` of integers is the nearest float to the quotient, as in Python.  Missing: integers of more than 53
bits (`C88_violated`). -/
theorem C88_partial {a b : ℤ} (ha : |a| ≤ 2 ^ 53) (hb : |b| ≤ 2 ^ 53) : IsTrueDiv a b (trueDiv a b) := by
  unfold IsTrueDiv trueDiv
  rw [fl_int ha, fl_int hb]
  exact fl_nearest _

example : |(-9007199254740992 : ℤ)| ≤ 2 ^ 53 ∧ |(3 : ℤ)| ≤ 2 ^ 53 ∧ trueDiv 1 3 = 6004799503160661/18014398509481984 :=
  ⟨by norm_num, by norm_num, by decide +kernel⟩

/-- C88 fails: `a / 3` for `a = 2 ** 53 + 1` is not the nearest float: `a` is rounded before. -/
theorem C88_violated : ¬ IsTrueDiv (2 ^ 53 + 1) 3 (trueDiv (2 ^ 53 + 1) 3) := by
  unfold IsTrueDiv
  rw [nearest_iff]; decide +kernel

/-- **C89**: `a ** b` of integers in C is exact.  Missing: results of more than 53 bits (`C89_violated`) and negative
exponents (`C89_negative_violated`). -/
theorem C89_partial {a : ℤ} {b : ℕ} (isVar : Bool) (ha : |a| ≤ 2 ^ 53) (h : |a ^ b| ≤ 2 ^ 53) :
    cPow isVar a b = some (a ^ b) := by
  have hr : inRange (a ^ b) = true := by
    have := abs_le.1 h
    simp only [inRange, Bool.and_eq_true, decide_eq_true_eq]; omega
  have ht : toI64 (fl (fl a ^ (b : ℤ))) = some (a ^ b) := by
    rw [fl_int ha, zpow_natCast]
    have e : (a : ℚ) ^ b = ((a ^ b : ℤ) : ℚ) := by push_cast; rfl
    rw [e, fl_int h]
    have t : trunc ((a ^ b : ℤ) : ℚ) = a ^ b := by unfold trunc; rw [Int.ceil_intCast, Int.floor_intCast, ite_self]
    rw [toI64, t, if_pos hr]
  unfold cPow
  split
  · rename_i hb
    simp only [Bool.and_eq_true, decide_eq_true_eq] at hb
    have hb2 : b = 2 := by exact_mod_cast hb.2
    subst hb2
    rw [pow_two] at hr ⊢
    rw [if_pos hr]
  · exact ht

example : |(-3 : ℤ)| ≤ 2 ^ 53 ∧ |(-3 : ℤ) ^ 33| ≤ 2 ^ 53 ∧ cPow true (-3) 33 = some (-5559060566555523) :=
  ⟨by norm_num, by norm_num, by decide +kernel⟩

/-- C89 fails: `3 ** 39` fits into 64 bits, but C computes it with 53. -/
theorem C89_violated : (3 : ℤ) ^ 39 < 2 ^ 63 ∧ cPow false 3 39 = some 4052555153018976256 ∧ (3 : ℤ) ^ 39 = 4052555153018976267 :=
  ⟨by norm_num, by decide +kernel, by norm_num⟩

/-- C89 fails: `2 ** -1` has the type of an integer in C and becomes 0; in Python it is 0.5. -/
theorem C89_negative_violated : cPow false 2 (-1) = some 0 ∧ ((2 : ℚ) ^ (-1 : ℤ)) = 1/2 := ⟨by decide +kernel, by norm_num⟩

/-- **C90**: `min(a, b, ...)` and `max(a, b, ...)` in C choose the same value as Python, for any order (so with NaN too). -/
theorem C90_partial {α : Type} (lt : α → α → Bool) (a : α) (l : List α) :
    cMin lt (a :: l) = some (pyMin lt a l) ∧ cMax lt (a :: l) = some (pyMax lt a l) :=
  ⟨by simpa [cMin] using cMinLoop_eq lt [a] l a, by simpa [cMax] using cMaxLoop_eq lt [a] l a⟩

example : cMin (fun x y : Nat => x < y) [3, 1, 2] = some 1 ∧ cMax (fun x y : Nat => x < y) [3, 1, 2] = some 3 := by decide

/-- **C90** for lists: the loop in C looks at the first element twice, with the same result. -/
theorem C90_lists {α : Type} (lt : α → α → Bool) (a : α) (l : List α) :
    cListMin lt (a :: l) = some (pyMin lt a l) ∧ cListMax lt (a :: l) = some (pyMax lt a l) := by
  constructor
  · simp only [cListMin, List.foldl_cons, ite_self]; rw [foldl_min]
  · simp only [cListMax, List.foldl_cons, ite_self]; rw [foldl_max]

example : cListMin (fun x y : Nat => x < y) [3, 1, 2] = some 1 ∧ cListMax (fun x y : Nat => x < y) [3, 1, 2] = some 3 := by
  decide

/-- **C90** for two booleans. -/
theorem C90_bools (a b : Bool) :
    cBoolMin a b = pyMin (fun x y => decide (x < y)) a [b] ∧ cBoolMax a b = pyMax (fun x y => decide (x < y)) a [b] := by
  cases a <;> cases b <;> decide

end Verif.Floats
