import Verif.Fills.Lemmas

namespace Verif.Fills

/-! ## C119: linspace -/

/-- C119, C: the array has NumPy's elements if and only if, where `stop` is included, a single element has `start` equal to `stop` (rounded down
and towards zero, for integers), and an integer array of several elements ends with a number that is not negative or has no fraction. -/
theorem C119_c_iff_partial (r : Req) (m : Mem) :
    (∃ m', runC r m = some m' ∧ ∀ i < r.num, ∀ j < r.cols,
        m' i j = some (npLinspace r.int (r.start j) (r.stop j) r.num r.endp.val i)) ↔
      (r.endp.val = true → ∀ j < r.cols,
        (r.num = 1 → if r.int then trunc (r.stop j) = (r.start j).floor else r.stop j = r.start j) ∧
        (1 < r.num → r.int = true → 0 ≤ r.stop j ∨ ((r.stop j).floor : Rat) = r.stop j)) := by
  obtain ⟨m', e, h⟩ := loops_ok (r := r) (m := m) (Nat.le_refl r.num)
  have e : runC r m = some m' := e
  simp only [e, Option.some.injEq, exists_eq_left']
  constructor
  · intro k hv j hj
    refine ⟨fun h1 => ?_, fun h1 hi => ?_⟩
    · have h0 : 0 < r.num := by omega
      have := k 0 h0 j hj
      rw [h 0 h0 j hj, final_iff h0] at this
      have := this (by omega) hv
      simp only [Req.last, h1, if_true] at this
      split
      · next hi => simpa [hi, Rat.intCast_inj] using this
      · next hi => simpa [hi] using this
    · have h0 : r.num - 1 < r.num := by omega
      have := k (r.num - 1) h0 j hj
      rw [h _ h0 j hj, final_iff h0] at this
      have := this (by omega) hv
      have hn : r.num ≠ 1 := by omega
      simp only [Req.last, hi, if_true, hn, if_false, Rat.intCast_inj] at this
      exact (trunc_floor _).1 this
  · intro k i hi j hj
    rw [h i hi j hj, final_iff hi]
    intro _ hv
    have k := k hv j hj
    unfold Req.last
    by_cases h1 : r.num = 1
    · have := k.1 h1
      simp only [h1, if_true]
      cases hI : r.int
      · simpa [hI] using this
      · simp only [hI, if_true] at this
        simp [this]
    · have := k.2 (by omega)
      simp only [h1, if_false]
      cases hI : r.int
      · simp
      · simp only [if_true]
        rw [(trunc_floor _).2 (this hI)]

/-- C119, Fortran, a result with one dimension: the array has the elements that Python computes if and only if there are elements or `endpoint` is the
literal `False`, and, where `stop` is included, `stop` is what the expression around the call makes of the last element. -/
theorem C119_fortran_iff_partial (r : Req) (f : Rat → Rat) (m : Mem) (hc : r.cols = 1) :
    (∃ m', runF r f m = some m' ∧ ∀ i < r.num, m' i 0 = some (f (npLinspace r.int (r.start 0) (r.stop 0) r.num r.endp.val i))) ↔
      ((r.num = 0 → r.endp = .lit false) ∧
       (0 < r.num → r.endp.val = true →
         (if r.int then (trunc (r.stop 0) : Rat) else r.stop 0) = f (npLinspace r.int (r.start 0) (r.stop 0) r.num true (r.num - 1)))) := by
  by_cases h0 : r.num = 0
  · constructor
    · rintro ⟨m', e, -⟩
      refine ⟨fun _ => ?_, fun h => absurd h0 (by omega)⟩
      unfold runF finish write at e
      cases he : r.endp with
      | lit b => cases b <;> simp_all
      | dyn b => simp_all
    · rintro ⟨h1, -⟩
      refine ⟨_, by unfold runF finish; rw [h1 h0], fun i hi => absurd hi (by omega)⟩
  · have hn : 0 < r.num := by omega
    have e := finish_ok (r := r) (m := fun i j => if i < r.num ∧ j = 0 then (r.elem i 0).map f else m i j) (j := 0) hn (by omega)
    have e : runF r f m = _ := e
    simp only [e, Option.some.injEq, exists_eq_left', h0, false_implies, true_and]
    constructor
    · intro k _ hv
      have := k (r.num - 1) (by omega)
      have q : r.num - 1 + 1 = r.num := by omega
      simp only [q, hv, and_self, if_true, Option.some.injEq, Req.last] at this
      exact this
    · intro k i hi
      by_cases hl : i + 1 = r.num ∧ r.endp.val = true
      · have := k hn hl.2
        have q : r.num - 1 = i := by omega
        simp only [hl.1, hl.2, and_self, if_true, Req.last, Option.some.injEq]
        rw [q] at this
        exact this
      · have hf := (final_iff (j := 0) hi).2 (fun a b => absurd ⟨a, b⟩ hl)
        unfold finalVal at hf
        rw [if_neg hl] at hf
        rw [if_neg hl, if_pos ⟨hi, trivial⟩, hf]
        rfl

/-- C119, Fortran: on its own (`f` is the identity) the call works under the conditions of C, if there are elements. -/
theorem C119_fortran_partial (r : Req) (m : Mem) (hc : r.cols = 1) (hn : 0 < r.num)
    (h : r.endp.val = true → (r.num = 1 → if r.int then trunc (r.stop 0) = (r.start 0).floor else r.stop 0 = r.start 0) ∧
        (1 < r.num → r.int = true → 0 ≤ r.stop 0 ∨ ((r.stop 0).floor : Rat) = r.stop 0)) :
    ∃ m', runF r id m = some m' ∧ ∀ i < r.num, m' i 0 = some (npLinspace r.int (r.start 0) (r.stop 0) r.num r.endp.val i) := by
  refine (C119_fortran_iff_partial r id m hc).2 ⟨fun h0 => absurd hn (by omega), fun _ hv => ?_⟩
  have h := h hv
  have q : r.num - 1 + 1 = r.num := by omega
  simp only [npLinspace, npElem, if_true, q, id_eq]
  by_cases h1 : r.num = 1
  · have := h.1 h1
    simp only [h1, if_true]
    cases hI : r.int
    · simpa [hI] using this
    · simp only [hI, if_true] at this
      simp [this]
  · have := h.2 (by omega)
    simp only [h1, if_false]
    cases hI : r.int
    · simp
    · simp only [if_true]
      rw [(trunc_floor _).2 (this hI)]

/-- `np.linspace(a, 1.0, 5)` with `a = [0.0, 0.5, 1.0, …]`, and `np.linspace(0, 7.5, 4, dtype = int)`. -/
example (m : Mem) : (∃ m', runC ⟨fun j => j / 2, fun _ => 1, 3, 5, .lit true, false⟩ m = some m' ∧ m' 4 2 = some 1) ∧
    ∃ m', runC ⟨fun _ => 0, fun _ => 15/2, 1, 4, .lit true, true⟩ m = some m' ∧ m' 3 0 = some 7 := by
  constructor
  · obtain ⟨m', h1, h2⟩ := (C119_c_iff_partial ⟨fun j => j / 2, fun _ => 1, 3, 5, .lit true, false⟩ m).2
      (fun _ j _ => ⟨fun h => absurd h (by decide), fun _ h => absurd h (by decide)⟩)
    exact ⟨m', h1, h2 4 (by decide) 2 (by decide)⟩
  · obtain ⟨m', h1, h2⟩ := (C119_c_iff_partial ⟨fun _ => 0, fun _ => 15/2, 1, 4, .lit true, true⟩ m).2
      (fun _ j _ => ⟨fun h => absurd h (by decide), fun _ _ => .inl (show (0 : Rat) ≤ 15/2 by decide +kernel)⟩)
    refine ⟨m', h1, ?_⟩
    rw [h2 3 (by decide) 0 (by decide)]
    exact congrArg some (by decide +kernel)

example (m : Mem) : ∃ m', runF ⟨fun _ => 0, fun _ => 1, 1, 5, .dyn true, false⟩ id m = some m' ∧ m' 1 0 = some (1/4) := by
  obtain ⟨m', h1, h2⟩ := C119_fortran_partial ⟨fun _ => 0, fun _ => 1, 1, 5, .dyn true, false⟩ m rfl (by decide)
    (fun _ => ⟨fun h => absurd h (by decide), fun _ h => absurd h (by decide)⟩)
  refine ⟨m', h1, ?_⟩
  rw [h2 1 (by decide)]
  exact congrArg some (by decide +kernel)

/-- C119 fails: `np.linspace(0.0, 1.0, 1)` is `[0.0]`, the generated programs give `[1.0]`. -/
theorem C119_violated_single (m : Mem) :
    npLinspace false 0 1 1 true 0 = 0 ∧
    (∃ m', runC ⟨fun _ => 0, fun _ => 1, 1, 1, .lit true, false⟩ m = some m' ∧ m' 0 0 = some 1) ∧
    ∃ m', runF ⟨fun _ => 0, fun _ => 1, 1, 1, .lit true, false⟩ id m = some m' ∧ m' 0 0 = some 1 :=
  ⟨rfl, ⟨_, rfl, rfl⟩, ⟨_, rfl, rfl⟩⟩

/-- C119 fails: `np.linspace(0, -2.5, 3, dtype = int)` ends with `-3`, the generated programs with `-2`. -/
theorem C119_violated_negative (m : Mem) :
    npLinspace true 0 (-5/2) 3 true 2 = -3 ∧
    ∃ m', runF ⟨fun _ => 0, fun _ => -5/2, 1, 3, .lit true, true⟩ id m = some m' ∧ m' 2 0 = some (-2) := by
  refine ⟨by decide +kernel, _, rfl, ?_⟩
  exact congrArg some (show ((trunc (-5/2) : Int) : Rat) = -2 by decide +kernel)

/-- C119 fails: `x = np.linspace(0.0, 1.0, n)` with `n = 0` writes in front of the array in Fortran. -/
theorem C119_violated_empty (m : Mem) : runF ⟨fun _ => 0, fun _ => 1, 1, 0, .lit true, false⟩ id m = none := rfl

/-- C119 fails: `x = 2 * np.linspace(0.0, 1.0, 5)` ends with `1.0` in Fortran, not with `2.0`. -/
theorem C119_violated_operand (m : Mem) :
    2 * npLinspace false 0 1 5 true 4 = 2 ∧
    ∃ m', runF ⟨fun _ => 0, fun _ => 1, 1, 5, .lit true, false⟩ (2 * ·) m = some m' ∧ m' 4 0 = some 1 :=
  ⟨by decide +kernel, _, rfl, rfl⟩

/-! ## C120: arange -/

/-- C120, C: the array is NumPy's if and only if its length is not negative and, for integer arrays, rounding towards zero does not disturb the distances. -/
theorem C120_c_iff_partial (int : Bool) (start stop step : Rat) (hs : step ≠ 0) :
    (∃ l, arangeC int start stop step = some l ∧ IsArange int start stop step l) ↔
      (-1 < (stop - start) / step ∧ (int = true → ∀ k : Nat, Before step (start + k * step) stop →
        (trunc (start + k * step) : Rat) = trunc start + k * (trunc (start + step) - trunc start))) := by
  rw [← len_nonneg]
  unfold arangeC
  split
  · next h =>
    constructor
    · rintro ⟨l, h1, -⟩; simp at h1
    · rintro ⟨h1, -⟩; omega
  · next h =>
    simp only [Option.some.injEq, exists_eq_left', isArange_iff hs, elem_iff]
    exact ⟨fun k => ⟨by omega, fun hi j hj => k j hj hi⟩, fun k j hj hi => k.2 hi j hj⟩

/-- C120, Fortran: the same without the condition on the length. -/
theorem C120_fortran_iff_partial (int : Bool) (start stop step : Rat) (hs : step ≠ 0) :
    IsArange int start stop step (arangeF int start stop step) ↔
      (int = true → ∀ k : Nat, Before step (start + k * step) stop →
        (trunc (start + k * step) : Rat) = trunc start + k * (trunc (start + step) - trunc start)) := by
  unfold arangeF
  simp only [isArange_iff hs, elem_iff]
  exact ⟨fun k hi j hj => k j hj hi, fun k j hj hi => k hi j hj⟩

/-- C120: with integers, or with a floating point type, only the length matters. -/
theorem C120_partial (int : Bool) (start stop step : Rat) (hs : step ≠ 0)
    (hi : int = true → ((start.floor : Rat) = start ∧ (step.floor : Rat) = step)) :
    IsArange int start stop step (arangeF int start stop step) ∧
    (-1 < (stop - start) / step → ∃ l, arangeC int start stop step = some l ∧ IsArange int start stop step l) := by
  have key : int = true → ∀ k : Nat, Before step (start + k * step) stop →
      (trunc (start + k * step) : Rat) = trunc start + k * (trunc (start + step) - trunc start) := by
    intro h k _
    obtain ⟨h1, h2⟩ := hi h
    rw [trunc_int h1, trunc_int (int_add h1 h2), trunc_int (int_add h1 (int_mul (int_nat k) h2))]
    grind
  exact ⟨(C120_fortran_iff_partial int start stop step hs).2 key, fun h => (C120_c_iff_partial int start stop step hs).2 ⟨h, key⟩⟩

/-- `np.arange(20, 2, -3, dtype = int)`. -/
example : IsArange true 20 2 (-3) (arangeF true 20 2 (-3)) ∧ arangeC true 20 2 (-3) = some [20, 17, 14, 11, 8, 5] :=
  ⟨(C120_partial true 20 2 (-3) (by decide +kernel) (fun _ => by decide +kernel)).1, by decide +kernel⟩

/-- C120 fails: `np.arange(5, 2)` is empty, in C there is no array. -/
theorem C120_violated_empty : IsArange true 5 2 1 [] ∧ arangeC true 5 2 1 = none := by
  refine ⟨?_, by decide +kernel⟩
  have := (C120_partial true 5 2 1 (by decide +kernel) (fun _ => by decide +kernel)).1
  have e : arangeF true 5 2 1 = [] := by decide +kernel
  rwa [e] at this

/-- C120 fails: `np.arange(0, 2, 0.5, dtype = int)` is `[0, 0, 0, 0]`, the generated programs give `[0, 0, 1, 1]`. -/
theorem C120_violated_fraction :
    (List.range 4).map (npArange true 0 (1/2)) = [0, 0, 0, 0] ∧ arangeF true 0 2 (1/2) = [0, 0, 1, 1] ∧ arangeC true 0 2 (1/2) = some [0, 0, 1, 1] := by
  decide +kernel

end Verif.Fills
