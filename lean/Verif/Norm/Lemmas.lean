import Verif.Norm.Model

namespace Verif.Norm
open Spec Model

theorem fold_fin (ts : List Ext) (rs : List ℝ) (a : ℝ) (h : ts = rs.map Ext.fin) :
    ts.foldl Ext.add (.fin a) = .fin (a + rs.sum) := by
  subst h
  induction rs generalizing a with
  | nil => simp
  | cons r t ih => simp [Ext.add, ih, add_assoc]

theorem fold_inf (ts : List Ext) (h : ∀ t ∈ ts, t ≠ .ub) : ts.foldl Ext.add .inf = .inf := by
  induction ts with
  | nil => rfl
  | cons t r ih =>
    simp only [List.foldl_cons]
    have : Ext.add .inf t = .inf := by
      have := h t (by simp)
      cases t <;> simp_all [Ext.add]
    rw [this]
    exact ih fun t ht => h t (by simp [ht])

theorem fold_mem_inf (ts : List Ext) (h : ∀ t ∈ ts, t ≠ .ub) (hi : Ext.inf ∈ ts) (a : ℝ) :
    ts.foldl Ext.add (.fin a) = .inf := by
  induction ts generalizing a with
  | nil => simp at hi
  | cons t r ih =>
    simp only [List.foldl_cons]
    have hr : ∀ t ∈ r, t ≠ .ub := fun t ht => h t (by simp [ht])
    cases t with
    | ub => exact absurd rfl (h .ub (by simp))
    | inf => exact fold_inf r hr
    | fin b =>
      have : Ext.inf ∈ r := by simpa using hi
      simpa [Ext.add] using ih hr this (a + b)

theorem fold_map {β : Type} (f : β → Ext) (xs : List β) (a : Ext) :
    xs.foldl (fun t x => t.add (f x)) a = (xs.map f).foldl Ext.add a := by
  induction xs generalizing a with
  | nil => rfl
  | cons x r ih => simp [ih]

/-- The terms `|x| ^ p`. -/
theorem fold_pow (p : ℝ) (xs : List ℝ) (h : ¬ (p < 0 ∧ 0 ∈ xs)) :
    (xs.map fun x => Ext.pow (.fin |x|) p).foldl Ext.add (.fin 0) =
      .fin (xs.map fun x => |x| ^ p).sum := by
  have := fold_fin (xs.map fun x => Ext.pow (.fin |x|) p) (xs.map fun x => |x| ^ p) 0 (by
    rw [List.map_map]
    apply List.map_congr_left
    intro x hx
    have : ¬ (|x| = 0 ∧ p < 0) := by
      rintro ⟨h0, hp⟩
      exact h ⟨hp, by rw [abs_eq_zero] at h0; exact h0 ▸ hx⟩
    simp only [Ext.pow, if_neg this, Function.comp])
  simpa using this

theorem fold_pow_zero (p : ℝ) (xs : List ℝ) (h : p < 0 ∧ 0 ∈ xs) :
    (xs.map fun x => Ext.pow (.fin |x|) p).foldl Ext.add (.fin 0) = .inf := by
  apply fold_mem_inf
  · intro t ht
    obtain ⟨x, _, rfl⟩ := List.mem_map.1 ht
    simp only [Ext.pow]
    split <;> simp
  · refine List.mem_map.2 ⟨0, h.2, ?_⟩
    simp [Ext.pow, h.1]

theorem sum_pos (p : ℝ) (xs : List ℝ) (hne : xs ≠ []) (h : 0 ∉ xs) :
    0 < (xs.map fun x => |x| ^ p).sum := by
  have hx : ∀ x ∈ xs, 0 < |x| ^ p := fun x hx =>
    Real.rpow_pos_of_pos (abs_pos.2 fun h0 => h (h0 ▸ hx)) p
  cases xs with
  | nil => exact absurd rfl hne
  | cons x r =>
    simp only [List.map_cons, List.sum_cons]
    have h1 := hx x (by simp)
    have h2 : 0 ≤ (r.map fun x => |x| ^ p).sum := by
      apply List.sum_nonneg
      intro y hy
      obtain ⟨z, hz, rfl⟩ := List.mem_map.1 hy
      exact (hx z (by simp [hz])).le
    linarith

/-- Sum of the powers, then the root. -/
theorem root (p : ℝ) (hp : p ≠ 0) (xs : List ℝ) (hne : xs ≠ []) :
    open Classical in
    ((xs.map fun x => Ext.pow (.fin |x|) p).foldl Ext.add (.fin 0)).pow (1 / p) =
      .fin (if p < 0 ∧ 0 ∈ xs then 0 else (xs.map fun x => |x| ^ p).sum ^ (1 / p)) := by
  classical
  by_cases h : p < 0 ∧ 0 ∈ xs
  · rw [fold_pow_zero p xs h]
    have : 1 / p < 0 := one_div_neg.2 h.1
    rw [if_pos h, Ext.pow, if_pos this]
  · rw [fold_pow p xs h, Ext.pow, if_neg h]
    rw [if_neg]
    rintro ⟨h0, hn⟩
    have hp' : p < 0 := one_div_neg.1 hn
    have := sum_pos p xs hne fun hm => h ⟨hp', hm⟩
    linarith

theorem inv_eq_pow (e : Ext) : e.inv = e.pow (-1) := by
  cases e with
  | ub => rfl
  | inf => simp [Ext.inv, Ext.pow]
  | fin a =>
    simp only [Ext.inv, Ext.pow]
    by_cases h : a = 0
    · simp [h]
    · simp [h, Real.rpow_neg_one]

theorem nonzeros_sum (xs : List ℝ) :
    open Classical in
    (nonzeros xs : ℝ) = (xs.map fun x => if x = 0 then (0 : ℝ) else 1).sum := by
  classical
  induction xs with
  | nil => simp [nonzeros]
  | cons x r ih =>
    simp only [nonzeros, List.map_cons, List.sum_cons, ← ih]
    split <;> simp

theorem nonzeros_filter (xs : List ℝ) :
    open Classical in nonzeros xs = (xs.filter fun x => 0 < |x|).length := by
  classical
  induction xs with
  | nil => simp [nonzeros]
  | cons x r ih =>
    simp only [nonzeros, List.filter_cons, ih]
    by_cases h : x = 0
    · simp [h]
    · simp [h]; omega

theorem sum_eq {k : Kind} {o : Ord} (h0 : o.value ≠ 0) (xs : List ℝ)
    (hk : ∀ x ∈ xs, cTerm k o x = Ext.pow (.fin |x|) o.value) :
    cSum k o xs = (xs.map fun x => Ext.pow (.fin |x|) o.value).foldl Ext.add (.fin 0) := by
  rw [cSum, fold_map]
  congr 1
  exact List.map_congr_left hk

theorem term_one (x : ℝ) : Ext.fin |x| = Ext.pow (.fin |x|) 1 := by
  simp [Ext.pow]

/-- The norm in C, if the terms are the powers. -/
theorem cNorm_of_terms {k : Kind} {o : Ord} (xs : List ℝ) (hne : xs ≠ [])
    (hk : o.value ≠ 0 → ∀ x ∈ xs, cTerm k o x = Ext.pow (.fin |x|) o.value) :
    cNorm k o xs = .fin (vecNorm o xs) := by
  classical
  unfold cNorm vecNorm
  by_cases h0 : o.value = 0
  · simp only [h0, true_or, if_true]
    rw [cSum, fold_map, fold_fin _ (xs.map fun x => if x = 0 then (0 : ℝ) else 1) 0]
    · rw [nonzeros_sum]; simp
    · rw [List.map_map]
      apply List.map_congr_left
      intro x _
      simp only [cTerm, h0, if_true, Function.comp]
  · have hs := sum_eq h0 xs (hk h0)
    have hr := root o.value h0 xs hne
    by_cases h1 : o.value = 1
    · simp only [h1, or_true, if_true, one_ne_zero, if_false]
      rw [hs, h1]
      rw [fold_pow 1 xs (by rintro ⟨h, _⟩; linarith)]
      rw [if_neg (by rintro ⟨h, _⟩; linarith)]
      simp
    · rw [if_neg (by simp [h0, h1]), hs, hr]
      simp only [h0, if_false]

/-- The terms for real numbers. -/
theorem term_real (o : Ord) (h0 : o.value ≠ 0) (x : ℝ) :
    cTerm .real o x = Ext.pow (.fin |x|) o.value := by
  classical
  unfold cTerm
  rw [if_neg h0]
  split
  · rename_i h; rw [h, ← term_one]
  · split
    · rename_i h; rw [h, inv_eq_pow]
    · rfl

/-- The terms for integers and an order that is a floating point number, 1 or -1. -/
theorem term_flt (p : ℝ) (h0 : p ≠ 0) (x : ℝ) :
    cTerm .int (.flt p) x = Ext.pow (.fin |x|) p := by
  have := term_real (.flt p) h0 x
  simpa [cTerm, Ord.value] using this

theorem cast_nat (m : ℤ) (h0 : 0 ≤ m) (h : m < 2 ^ 63) :
    Ext.cast64 (.fin (m : ℝ)) = .fin (m : ℝ) := by
  have : (m : ℝ) < 2 ^ 63 := by exact_mod_cast h
  simp [Ext.cast64, this]

/-- The terms for integers and a positive integer order. -/
theorem term_int (o : Ord) (n : ℕ) (hn : o.value = n) (hpos : 1 ≤ n) (z : ℤ)
    (hz : |z| ^ n < 2 ^ 63) :
    cTerm .int o z = Ext.pow (.fin |(z : ℝ)|) o.value := by
  classical
  have h0 : o.value ≠ 0 := by rw [hn]; positivity
  have hr := term_real o h0 (z : ℝ)
  have hp : Ext.pow (.fin |(z : ℝ)|) o.value = .fin (((|z| ^ n : ℤ)) : ℝ) := by
    have : ¬ (|(z : ℝ)| = 0 ∧ o.value < 0) := by
      rintro ⟨_, h⟩
      rw [hn] at h
      have : (0 : ℝ) ≤ n := by positivity
      linarith
    rw [Ext.pow, if_neg this, hn, Real.rpow_natCast]
    push_cast
    rfl
  have hc : Ext.cast64 (Ext.pow (.fin |(z : ℝ)|) o.value) = Ext.pow (.fin |(z : ℝ)|) o.value := by
    rw [hp]
    exact cast_nat _ (by positivity) hz
  unfold cTerm at hr ⊢
  rw [if_neg h0] at hr ⊢
  split
  · rename_i h; rw [if_pos h] at hr; exact hr
  · rename_i h1
    split
    · rename_i h; rw [if_neg h1, if_pos h] at hr; exact hr
    · cases o <;> simp only [hc]

/-- The norm in Fortran. -/
theorem fNorm_eq (o : Ord) (xs : List ℝ) (hne : xs ≠ []) : fNorm o xs = .fin (vecNorm o xs) := by
  classical
  unfold fNorm vecNorm
  by_cases h2 : o.value = 2
  · simp only [h2, if_true, OfNat.ofNat_ne_zero, if_false]
    rw [if_neg (by rintro ⟨h, _⟩; linarith)]
    congr 1
    rw [Real.sqrt_eq_rpow]
    congr 2
    apply List.map_congr_left
    intro x _
    rw [← Real.rpow_natCast]
    norm_num
  · rw [if_neg h2]
    by_cases h0 : o.value = 0
    · simp only [h0, if_true]
      congr 1
      rw [nonzeros_filter]
    · simp only [h0, if_false]
      by_cases h1 : o.value = 1
      · simp only [h1, if_true]
        rw [if_neg (by rintro ⟨h, _⟩; linarith)]
        rw [fSum, fold_fin _ (xs.map fun x => |x|) 0 (by simp)]
        simp
      · simp only [h1, if_false]
        have hr := root o.value h0 xs hne
        by_cases hm : o.value = -1
        · rw [if_pos hm, inv_eq_pow, fSum]
          rw [hm] at hr ⊢
          rw [← hr]
          simp only [inv_eq_pow]
          norm_num
        · rw [if_neg hm, fSum, hr]

theorem vecNorm_two (xs : List ℝ) : vecNorm .none xs = Real.sqrt (xs.map fun x => x ^ 2).sum := by
  classical
  have hv : Ord.none.value = 2 := rfl
  unfold vecNorm
  simp only
  rw [if_neg (by rw [hv]; norm_num), if_neg (by rw [hv]; rintro ⟨h, _⟩; linarith), hv,
    Real.sqrt_eq_rpow]
  congr 2
  apply List.map_congr_left
  intro x _
  rw [show (2 : ℝ) = ((2 : ℕ) : ℝ) by norm_num, Real.rpow_natCast, sq_abs]

end Verif.Norm
