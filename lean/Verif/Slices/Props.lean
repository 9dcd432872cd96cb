import Verif.Slices.Lemmas
/-!
Property theorems C13–C17 and C57 (indices and slices).
-/
namespace Verif.Slices
open Spec Verif.Loops Verif.Loops.Spec

/-! ## C13 — negative indices -/

/-- C13: for every index that is in range in Python, the position printed in C, the (0-based)
position printed in Fortran and the (1-based) list position in Fortran are Python's; run-time
indices may be negative only if negative indices are allowed for the array (`Ex.Ok`), which is
what pyccel documents.  `Ex.Ok` also excludes the literal `-0` (`C13_minus_zero_violated`). -/
theorem C13_index_partial (d : Dim) (allowNeg : Bool) (e : Ex) (hok : e.Ok allowNeg) (p : Int)
    (hp : pyIndex d.n e.val = some p) :
    cIndex d allowNeg e = p ∧ fIndex d allowNeg e = p ∧ fListIndex d allowNeg e = p + 1 := by
  have hw : wrapV d.n e.val = p ∧ 0 ≤ p := by
    unfold pyIndex at hp
    unfold wrapV
    split at hp
    · rw [if_neg (by omega)]; simp at hp; omega
    · split at hp
      · rw [if_pos (by omega)]; simp at hp; omega
      · cases hp
  obtain ⟨h1, h2⟩ := index_norm d allowNeg e hok (by omega)
  unfold fListIndex
  rw [h1, h2]; omega

example : (Ex.neg 2).Ok false ∧ pyIndex 5 (Ex.neg 2).val = some 3 ∧
    cIndex ⟨5, true⟩ false (.neg 2) = 3 ∧ fIndex ⟨5, false⟩ true (.dyn (-2)) = 3 := by decide

/-- C13: the literal index `-0` is `n` in generated Fortran instead of 0 (out of bounds). -/
theorem C13_minus_zero_violated (d : Dim) (allowNeg : Bool) (hn : 0 < d.n) :
    pyIndex d.n (Ex.neg 0).val = some 0 ∧ cIndex d allowNeg (.neg 0) = 0 ∧
    fIndex d allowNeg (.neg 0) = d.n := by
  refine ⟨?_, ?_, ?_⟩
  · simp [pyIndex, Ex.val, hn]
  · simp [cIndex, makePositive]
  · simp [fIndex, makePositive]

/-- C13, all dimensions of an array in Fortran: index `k` of the Python access is printed at
position `k` (Fortran-ordered base) or `rank - 1 - k` (C-ordered base) with Python's value, if
the order of the condensed base and of the indexed expression agree. -/
theorem C13_indices_fortran_partial (dims : List Dim) (allowNeg order : Bool) (inds : List Ex)
    (hlen : dims.length = inds.length)
    (hok : ∀ e ∈ inds, e.Ok allowNeg) (ps : List Int)
    (hps : (dims.zip inds).map (fun p => pyIndex p.1.n p.2.val) = ps.map some) :
    fIndices dims allowNeg order order inds
      = (if order then ps.reverse else ps).map some := by
  have hpl : ps.length = inds.length := by
    have := congrArg List.length hps
    simp [hlen] at this; omega
  have key : ∀ k (h : k < inds.length) (h1 : k < dims.length) (h2 : k < ps.length),
      fIndex dims[k] allowNeg inds[k] = ps[k] := by
    intro k hk h1 h2
    have h := congrArg (fun l => l[k]?) hps
    simp only [List.getElem?_map] at h
    rw [List.getElem?_eq_getElem (by simp; omega), List.getElem?_eq_getElem (by omega)] at h
    simp only [List.getElem_zip, Option.map_some, Option.some.injEq] at h
    exact (C13_index_partial _ _ _ (hok _ (List.getElem_mem hk)) _ h).2.1
  unfold fIndices
  apply List.ext_getElem
  · cases order <;> simp [hpl]
  intro i hi hi2
  have hin : i < inds.length := by simpa using hi
  simp only [List.getElem_map, List.getElem_range]
  cases order with
  | false =>
    simp only [Bool.false_eq_true, if_false]
    rw [List.getElem?_eq_getElem (by simp; omega), List.getElem?_eq_getElem (by omega)]
    simp only [List.getElem_map, List.getElem_zip]
    rw [← key i hin (by omega) (by omega)]
    rfl
  | true =>
    simp only [if_true]
    rw [List.getElem?_eq_getElem (by simp; omega), List.getElem?_eq_getElem (by omega)]
    simp only [List.getElem_reverse, List.getElem_map, List.getElem_zip, List.length_map,
      List.length_zip]
    have e : min dims.length inds.length - 1 - i = inds.length - i - 1 := by omega
    have e2 : ps.length - 1 - i = inds.length - i - 1 := by omega
    simp only [e, e2]
    rw [← key (inds.length - i - 1) (by omega) (by omega) (by omega)]
    rfl

example : fIndices [⟨2, false⟩, ⟨3, false⟩] true true true [.dyn (-1), .dyn (-1)]
    = [some 2, some 1] := by decide

/-- C13: an index into a tuple of tuples is printed from a condensed base (C order) while the
indexed expression has no order: the sizes of the wrong dimensions are used for run-time negative
indices.  `t[i][j]` with `i = j = -1` on shape (2, 3) is position `[1][2]`; the printed (reversed)
subscripts should be `(2, 1)` and are `(1, 2)`. -/
theorem C13_tuple_of_tuples_violated :
    [pyIndex 2 (-1), pyIndex 3 (-1)] = [some 1, some 2] ∧
    fIndices [⟨2, false⟩, ⟨3, false⟩] true true false [.dyn (-1), .dyn (-1)]
      = [some 1, some 2] := by decide

/-! ## C14 — length of a slice -/

/-- C14, the part that holds: for a positive step, or a negative literal step, with bounds inside
the sequence and in order, the shape computed for the slice is the number of selected elements.
Missing: bounds outside the sequence or in the wrong order, which Python clamps
(`C14_out_of_range_violated`), and negative run-time steps (`C14_runtime_step_violated`). -/
theorem C14_slice_length_partial (n : Nat) (allowNeg : Bool) (s : Sl) (l : List Int)
    (h : s.PosOk n allowNeg ∨ (s.NegOk n allowNeg ∧ ∃ k, s.step = some (.neg k)))
    (hl : IsPySlice n (s.start.map Ex.val) (s.stop.map Ex.val) (s.step.map Ex.val) l) :
    sliceLen n allowNeg s = (l.length : Int) := by
  rcases h with h | ⟨h, k, hk⟩
  · obtain ⟨p1, p2, p3, p4, _, _, _, _, u1, u2⟩ := start_pos ⟨n, false⟩ rfl h
    unfold IsPySlice at hl; simp only [p1, p2, p3] at hl
    rw [isRange_length (by omega) hl]
    have key := ceilDiv_eq_doCount (s.lo n) (s.hi n) s.st (by omega) (Or.inl ⟨p4, h.2.2.2⟩)
    rw [← key]
    have hab := h.2.2.2
    have habs : ((s.hi n - s.lo n).natAbs : Int) = s.hi n - s.lo n := by omega
    unfold sliceLen
    cases hs : s.step with
    | none =>
      have e1 : s.st = 1 := by unfold Sl.st; rw [hs]; rfl
      simp only [u1, u2, e1, ceilDiv]; simp
    | some e =>
      have e1 : e.val = s.st := by unfold Sl.st; rw [hs]; rfl
      cases e with
      | neg k =>
        exfalso
        have := h.1 _ hs
        rw [val_neg] at this; omega
      | lit k => simp only [u1, u2, e1, habs, ite_self]
      | dyn v => simp only [u1, u2, e1, habs, ite_self]
  · obtain ⟨p1, p2, p3, p4, _, _, u1, u2⟩ := start_neg ⟨n, false⟩ rfl h
    unfold IsPySlice at hl; simp only [p1, p2, p3] at hl
    rw [isRange_length (by omega) hl]
    have key := ceilDiv_eq_doCount (s.hiN n) (s.loN n) s.st (by omega) (Or.inr ⟨p4, h.2.2.2⟩)
    rw [← key]
    have e1 : s.st = -(k : Int) := by unfold Sl.st; rw [hk]; rfl
    unfold sliceLen
    simp only [hk, u1, u2]
    rw [if_pos (by omega), e1]
    unfold ceilDiv
    rw [if_pos (by omega), if_neg (by omega)]
    congr 2
    · omega
    · omega

example : (⟨some (.lit 1), some (.neg 1), some (.lit 2)⟩ : Sl).PosOk 6 false ∧
    sliceLen 6 false ⟨some (.lit 1), some (.neg 1), some (.lit 2)⟩ = 2 ∧
    (⟨none, some (.lit 1), some (.neg 2)⟩ : Sl).NegOk 6 false ∧
    sliceLen 6 false ⟨none, some (.lit 1), some (.neg 2)⟩ = 2 := by
  refine ⟨⟨?_, ?_, ?_, by decide⟩, by decide, ⟨⟨_, rfl, by decide⟩, ?_, ?_, by decide⟩, by decide⟩ <;>
    simp <;> decide

/-- C14: out-of-range bounds are not clamped: `a[0:10]` on 5 elements selects 5 elements in Python;
the computed shape is 10. -/
theorem C14_out_of_range_violated :
    IsPySlice 5 (some 0) (some 10) none [0, 1, 2, 3, 4] ∧
    sliceLen 5 false ⟨some (.lit 0), some (.lit 10), none⟩ = 10 := by
  refine ⟨?_, by decide⟩
  unfold IsPySlice
  intro _ k v
  show _ ↔ v = (0 : Int) + 1 * k ∧ ((0 < (1 : Int) ∧ v < 5) ∨ ((1 : Int) < 0 ∧ 5 < v))
  rcases k with _ | _ | _ | _ | _ | k <;> simp <;> omega

/-- C14: bounds in the wrong order: `a[3:1]` is empty in Python; the computed shape is -2. -/
theorem C14_reversed_violated :
    IsPySlice 5 (some 3) (some 1) none [] ∧
    sliceLen 5 false ⟨some (.lit 3), some (.lit 1), none⟩ = -2 := by
  refine ⟨?_, by decide⟩
  unfold IsPySlice
  intro _ k v
  show _ ↔ v = (3 : Int) + 1 * k ∧ ((0 < (1 : Int) ∧ v < 1) ∨ ((1 : Int) < 0 ∧ 1 < v))
  simp; omega

/-- C14: a run-time step that is negative (allowed by `allow_negative_index`) gives a negative
shape: `a[4:1:s]` with `s = -1` selects 3 elements, the computed shape is -3. -/
theorem C14_runtime_step_violated :
    IsPySlice 5 (some 4) (some 1) (some (-1)) [4, 3, 2] ∧
    sliceLen 5 true ⟨some (.lit 4), some (.lit 1), some (.dyn (-1))⟩ = -3 := by
  refine ⟨?_, by decide⟩
  unfold IsPySlice
  intro _ k v
  show _ ↔ v = (4 : Int) + (-1) * k ∧ ((0 < (-1 : Int) ∧ v < 1) ∨ ((-1 : Int) < 0 ∧ 1 < v))
  rcases k with _ | _ | _ | k <;> simp <;> omega

/-! ## C15 — slices in C -/

/-- C15: a slice with bounds inside the array and a positive step is either refused (a run-time
step when negative indices are allowed) or passed to `cspan_slice` with a triple that selects
Python's elements, in order, whenever Python selects at least one.  Missing: bounds outside the
array, and empty slices (`C15_empty_violated`). -/
theorem C15_slice_c_partial (d : Dim) (allowNeg : Bool) (s : Sl) (l : List Int)
    (h : s.PosOk d.n allowNeg) (hne : s.lo d.n < s.hi d.n)
    (hl : IsPySlice d.n (s.start.map Ex.val) (s.stop.map Ex.val) (s.step.map Ex.val) l) :
    (cSlice d allowNeg s = none ∧ allowNeg = true ∧ ∃ v, s.step = some (.dyn v)) ∨
    ∃ t, cSlice d allowNeg s = some t ∧ cspanElems d.n t = some l := by
  obtain ⟨p1, p2, p3, p4, c1, c2, _, _, _, _⟩ := start_pos d rfl h
  unfold IsPySlice at hl; simp only [p1, p2, p3] at hl
  have hlo : 0 ≤ s.lo d.n := by
    unfold Sl.lo
    cases hs : s.start with
    | none => simp
    | some e => simpa using (h.2.1 e hs).2.1
  have hhi : s.hi d.n ≤ d.n := by
    unfold Sl.hi
    cases hs : s.stop with
    | none => simp
    | some e => simpa using (h.2.2.1 e hs).2.2
  have key := ceilDiv_eq_doCount (s.lo d.n) (s.hi d.n) s.st (by omega) (Or.inl ⟨p4, h.2.2.2⟩)
  have hlen := isRange_length (by omega) hl
  have helems : cspanElems d.n (s.lo d.n, s.hi d.n, s.st) = some l := by
    unfold cspanElems
    simp only [hlo, hne, hhi, p4, and_self, if_true]
    have hc : ((s.hi d.n - s.lo d.n - 1) / s.st + 1).toNat = l.length := by
      rw [hlen]
      have hk : ceilDiv (s.hi d.n - s.lo d.n) s.st = (s.hi d.n - s.lo d.n - 1) / s.st + 1 := by
        unfold ceilDiv; rw [if_pos p4]
        have e := Int.emod_add_mul_ediv (s.hi d.n - s.lo d.n - 1) s.st
        have e1 := Int.emod_nonneg (s.hi d.n - s.lo d.n - 1) (by omega : s.st ≠ 0)
        have e2 := Int.emod_lt_of_pos (s.hi d.n - s.lo d.n - 1) p4
        generalize (s.hi d.n - s.lo d.n - 1) % s.st = r at *
        generalize (s.hi d.n - s.lo d.n - 1) / s.st = q at *
        have e3 : -(s.hi d.n - s.lo d.n) = (s.st - 1 - r) + s.st * (-(q + 1)) := by
          have : s.st * (-(q + 1)) = -(s.st * q) - s.st := by ring
          rw [this]; omega
        rw [e3, Int.add_mul_ediv_left _ _ (by omega), Int.ediv_eq_zero_of_lt (by omega) (by omega)]
        omega
      omega
    rw [hc, ← isRange_map hl]
  unfold cSlice
  simp only [c1, c2]
  have hms : (makePositiveSl d s).step = s.step := rfl
  rw [hms]
  cases hs : s.step with
  | none =>
    have e1 : s.st = 1 := by unfold Sl.st; rw [hs]; rfl
    right; exact ⟨_, rfl, by rw [← e1]; exact helems⟩
  | some e =>
    have e1 : e.val = s.st := by unfold Sl.st; rw [hs]; rfl
    cases e with
    | neg k =>
      exfalso; have := h.1 _ hs
      rw [val_neg] at this; omega
    | lit k => right; exact ⟨_, rfl, by rw [val_lit] at e1; rw [e1]; exact helems⟩
    | dyn v =>
      cases allowNeg with
      | true => left; exact ⟨rfl, rfl, v, rfl⟩
      | false => right; exact ⟨_, rfl, by rw [val_dyn] at e1; rw [e1]; exact helems⟩

/-- C15: negative literal steps are always refused in C, never mistranslated. -/
theorem C15_negative_step_refused (d : Dim) (allowNeg : Bool) (s : Sl) (k : Nat)
    (hk : s.step = some (.neg k)) : cSlice d allowNeg s = none := by
  unfold cSlice makePositiveSl; simp only [hk]

example : cSlice ⟨6, false⟩ true ⟨some (.neg 5), some (.dyn (-1)), some (.lit 2)⟩ = some (1, 5, 2) ∧
    cspanElems 6 (1, 5, 2) = some [1, 3] := by decide

/-- C15: an empty slice (`a[2:2]`) is not a valid argument of `cspan_slice`. -/
theorem C15_empty_violated :
    IsPySlice 5 (some 2) (some 2) none [] ∧
    (cSlice ⟨5, false⟩ false ⟨some (.lit 2), some (.lit 2), none⟩).bind (cspanElems 5) = none := by
  refine ⟨?_, by decide⟩
  unfold IsPySlice
  intro _ k v
  show _ ↔ v = (2 : Int) + 1 * k ∧ ((0 < (1 : Int) ∧ v < 2) ∨ ((1 : Int) < 0 ∧ 2 < v))
  simp; omega

/-! ## C16 — slices in Fortran -/

/-- C16, the part that holds: for bounds inside the array and in order, and any non-zero step
(literal or run-time; a negative run-time step needs `allow_negative_index`), the printed triplet
selects Python's elements in order, except for a positive run-time step with an explicit stop
when negative indices are allowed (`C16_runtime_step_violated`). -/
theorem C16_slice_fortran_partial (d : Dim) (allowNeg : Bool) (s : Sl) (l : List Int)
    (h : (s.PosOk d.n allowNeg ∧
            ¬ (allowNeg = true ∧ s.stop.isSome ∧ ∃ v, s.step = some (.dyn v))) ∨
         (s.NegOk d.n allowNeg ∧ ∀ v, s.step = some (.dyn v) → allowNeg = true))
    (hl : IsPySlice d.n (s.start.map Ex.val) (s.stop.map Ex.val) (s.step.map Ex.val) l) :
    tripletElems (fSlice d allowNeg s) = l := by
  have hms : (makePositiveSl d s).step = s.step := rfl
  rcases h with ⟨h, hx⟩ | ⟨h, hx⟩
  · obtain ⟨p1, p2, p3, p4, _, _, f1, f2, _, _⟩ := start_pos d rfl h
    unfold IsPySlice at hl; simp only [p1, p2, p3] at hl
    have key := tripletElems_eq (by omega) hl
    rw [if_pos p4] at key
    rw [← key]
    congr 1
    unfold fSlice
    simp only [hms, f1, f2]
    cases hs : s.step with
    | none =>
      have e1 : s.st = 1 := by unfold Sl.st; rw [hs]; rfl
      simp only [e1]
    | some e =>
      have e1 : e.val = s.st := by unfold Sl.st; rw [hs]; rfl
      cases e with
      | neg k =>
        exfalso; have := h.1 _ hs
        rw [val_neg] at this; omega
      | lit k => rw [val_lit] at e1; simp only [e1]
      | dyn v =>
        rw [val_dyn] at e1
        cases allowNeg with
        | false => simp only [Bool.false_eq_true, if_false, e1]
        | true =>
          have hstop : s.stop = none := by
            cases hst : s.stop with
            | none => rfl
            | some b => exact absurd ⟨rfl, by simp [hst], v, hs⟩ hx
          have hv : 0 < v := by omega
          have hhi : s.hi d.n = d.n := by unfold Sl.hi; rw [hstop]; rfl
          have hb : fBound d.n true (makePositiveSl d s).stop = none := by
            unfold makePositiveSl; simp only [hstop]; rfl
          subst e1
          simp only [if_true, hb, gt_iff_lt, hv, f1, hhi]
  · obtain ⟨p1, p2, p3, p4, f1, f2, _, _⟩ := start_neg d rfl h
    unfold IsPySlice at hl; simp only [p1, p2, p3] at hl
    have key := tripletElems_eq (by omega) hl
    rw [if_neg (by omega)] at key
    rw [← key]
    congr 1
    unfold fSlice
    simp only [hms, f1, f2]
    obtain ⟨e, hs, _⟩ := h.1
    have e1 : e.val = s.st := by unfold Sl.st; rw [hs]; rfl
    cases e with
    | neg k => rw [val_neg] at e1; simp only [hs, e1]
    | lit k => rw [val_lit] at e1; omega
    | dyn v =>
      rw [val_dyn] at e1
      have han := hx v hs
      have hv : ¬ v > 0 := by omega
      simp only [hs, han, if_true, hv, if_false]
      rw [← han] at *
      rw [f1]
      refine congrArg₂ _ rfl (congrArg₂ _ ?_ e1)
      rw [← f2]
      cases fBound d.n allowNeg (makePositiveSl d s).stop <;> simp

example : (⟨none, some (.lit 1), some (.dyn (-2))⟩ : Sl).NegOk 6 true ∧
    tripletElems (fSlice ⟨6, false⟩ true ⟨none, some (.lit 1), some (.dyn (-2))⟩) = [5, 3] := by
  refine ⟨⟨⟨_, rfl, by decide⟩, ?_, ?_, by decide⟩, by decide⟩ <;> simp; decide

/-- C16: with `allow_negative_index` and a positive run-time step the stop bound is printed as an
inclusive bound: `a[0:4:s]` with `s = 2` selects elements 0 and 2 in Python, 0, 2 and 4 in
Fortran. -/
theorem C16_runtime_step_violated :
    IsPySlice 6 (some 0) (some 4) (some 2) [0, 2] ∧
    tripletElems (fSlice ⟨6, false⟩ true ⟨some (.lit 0), some (.lit 4), some (.dyn 2)⟩)
      = [0, 2, 4] := by
  refine ⟨?_, by decide⟩
  unfold IsPySlice
  intro _ k v
  show _ ↔ v = (0 : Int) + 2 * k ∧ ((0 < (2 : Int) ∧ v < 4) ∨ ((2 : Int) < 0 ∧ 4 < v))
  rcases k with _ | _ | k <;> simp <;> omega

/-- C15/C16: the literal bound `-0` is the length of the array instead of 0: `a[-0:]` is the whole
array in Python and an empty section in Fortran. -/
theorem C16_minus_zero_violated :
    IsPySlice 3 (some 0) none none [0, 1, 2] ∧
    tripletElems (fSlice ⟨3, false⟩ false ⟨some (.neg 0), none, none⟩) = [] := by
  refine ⟨?_, by decide⟩
  unfold IsPySlice
  intro _ k v
  show _ ↔ v = (0 : Int) + 1 * k ∧ ((0 < (1 : Int) ∧ v < 3) ∨ ((1 : Int) < 0 ∧ 3 < v))
  rcases k with _ | _ | _ | k <;> simp <;> omega

/-! ## C17 — indexing a slice -/

/-- C17, the part that holds: indexing a slice (bounds inside the array and in order) with a
non-negative index yields a single access to the position Python reads, for positive steps, and
for negative literal steps unless the start is omitted while the stop is given
(`C17_negative_step_stop_violated`).  Missing: negative indices of a slice
(`C17_negative_index_violated`). -/
theorem C17_index_of_slice_partial (d : Dim) (allowNeg : Bool) (s : Sl) (l : List Int) (j : Ex)
    (hj : 0 ≤ j.val) (hsok : ∀ e, s.start = some e → 0 ≤ e.val ∨ ∃ k, e = .neg k)
    (h : s.PosOk d.n allowNeg ∨
         (s.NegOk d.n allowNeg ∧ (∃ k, s.step = some (.neg k)) ∧
          (s.start = none → s.stop = none)))
    (hl : IsPySlice d.n (s.start.map Ex.val) (s.stop.map Ex.val) (s.step.map Ex.val) l)
    (p : Int) (hp : l[j.val.toNat]? = some p) :
    (indexOfSlice d s j).val = p := by
  have hms : (makePositiveSl d s).step = s.step := rfl
  have hstart : ∀ e, s.start = some e → e.Ok allowNeg → 0 ≤ wrapV d.n e.val →
      ∃ e', (makePositiveSl d s).start = some e' ∧ e'.val = wrapV d.n e.val := by
    intro e he hok hw
    refine ⟨makePositive d e, by simp [makePositiveSl, he], ?_⟩
    rcases makePositive_val d allowNeg e hok hw with ⟨k, h, hk⟩ | ⟨v, h, hv, hn⟩ | ⟨v, h, hv, hn⟩
    · rw [h]; exact hk
    · rw [h, val_dyn, hv]
      rcases hsok e he with h0 | ⟨k, rfl⟩
      · rw [wrapV_nonneg h0]
      · exfalso
        simp only [Ex.Ok] at hok
        simp only [makePositive] at h
        rw [if_pos (by omega)] at h
        cases hd : d.isLit <;> simp [hd, Ex.ofInt] at h
        · rw [val_neg] at hv
          have : d.n = 0 := by omega
          rw [val_neg, wrapV_neg (by omega), this] at hw
          omega
        · split at h <;> cases h
    · rw [h]; exact hv
  rcases h with h | ⟨h, ⟨k, hk⟩, hns⟩
  · obtain ⟨p1, p2, p3, p4, _⟩ := start_pos d rfl h
    unfold IsPySlice at hl; simp only [p1, p2, p3] at hl
    have hpv := ((hl _ _).1 hp).1
    have hjj : ((j.val.toNat : Nat) : Int) = j.val := by omega
    rw [hjj] at hpv
    have hst : (s.step.getD (.lit 1)).val = s.st := by
      unfold Sl.st; cases s.step <;> rfl
    have hinc : (if s.step.getD (.lit 1) = .lit 1 then j
        else .dyn ((s.step.getD (.lit 1)).val * j.val)).val = s.st * j.val := by
      rw [incr_val, hst]
    have hnn : ∀ k, s.step.getD (.lit 1) = .neg k → False := by
      intro k hk; rw [hk, val_neg] at hst; omega
    rw [hpv]
    unfold indexOfSlice; simp only [hms]
    cases hs : s.start with
    | none =>
      have hlo : s.lo d.n = 0 := by unfold Sl.lo; rw [hs]; rfl
      have hms' : (makePositiveSl d s).start = none := by simp [makePositiveSl, hs]
      simp only [hms', hlo]
      generalize s.step.getD (.lit 1) = st at *
      cases st with
      | neg k => exact (hnn k rfl).elim
      | lit k => show (if _ then _ else _ : Ex).val = _; rw [hinc]; omega
      | dyn v => show (if _ then _ else _ : Ex).val = _; rw [hinc]; omega
    | some a =>
      have hlo : s.lo d.n = wrapV d.n a.val := by unfold Sl.lo; rw [hs]; rfl
      obtain ⟨a', ha1, ha2⟩ := hstart a hs (h.2.1 a hs).1 (h.2.1 a hs).2.1
      rw [← hlo] at ha2
      simp only [ha1]
      split
      · rename_i hz
        have : a'.val = 0 := by rcases hz with rfl | rfl <;> rfl
        rw [hinc]; omega
      · rw [val_dyn, hinc, ha2]
  · obtain ⟨p1, p2, p3, p4, _⟩ := start_neg d rfl h
    unfold IsPySlice at hl; simp only [p1, p2, p3] at hl
    have hpv := ((hl _ _).1 hp).1
    have hjj : ((j.val.toNat : Nat) : Int) = j.val := by omega
    rw [hjj] at hpv
    have e1 : -(k : Int) = s.st := by unfold Sl.st; rw [hk]; rfl
    have hkpos : -(k : Int) < 0 := by omega
    have hinc := incr_val (.neg k) j
    rw [val_neg, e1] at hinc
    rw [hpv]
    unfold indexOfSlice; simp only [hms, hk, Option.getD_some]
    cases hs : s.start with
    | none =>
      have hhi : s.hiN d.n = (d.n : Int) - 1 := by unfold Sl.hiN; rw [hs]; rfl
      have hms' : (makePositiveSl d s).start = none := by simp [makePositiveSl, hs]
      have hms2 : (makePositiveSl d s).stop = none := by simp [makePositiveSl, hns hs]
      simp only [hms', hms2, hkpos, if_true, hhi]
      rw [val_dyn, val_neg, e1, hinc]
    | some a =>
      have hhi : s.hiN d.n = wrapV d.n a.val := by unfold Sl.hiN; rw [hs]; rfl
      obtain ⟨a', ha1, ha2⟩ := hstart a hs (h.2.1 a hs).1 (h.2.1 a hs).2.1
      rw [← hhi] at ha2
      simp only [ha1]
      rw [val_neg, e1]
      split
      · rename_i hz
        have : a'.val = 0 := by rcases hz with rfl | rfl <;> rfl
        rw [hinc]; omega
      · rw [val_dyn, hinc, ha2]

example : (indexOfSlice ⟨9, false⟩ ⟨some (.lit 1), some (.lit 8), some (.lit 3)⟩ (.dyn 2)).val = 7 ∧
    (indexOfSlice ⟨9, false⟩ ⟨none, none, some (.neg 2)⟩ (.lit 1)).val = 6 := by decide

/-- C17: with the start omitted and a negative step, the stop bound is used as the origin:
`a[:2:-1][0]` on 5 elements is `a[4]` in Python and `a[2]` in the generated code. -/
theorem C17_negative_step_stop_violated :
    IsPySlice 5 none (some 2) (some (-1)) [4, 3] ∧
    (indexOfSlice ⟨5, false⟩ ⟨none, some (.lit 2), some (.neg 1)⟩ (.lit 0)).val = 2 := by
  refine ⟨?_, by decide⟩
  unfold IsPySlice
  intro _ k v
  show _ ↔ v = (4 : Int) + (-1) * k ∧ ((0 < (-1 : Int) ∧ v < 2) ∨ ((-1 : Int) < 0 ∧ 2 < v))
  rcases k with _ | _ | k <;> simp <;> omega

/-- C17: a negative index of a slice counts from the wrong end: `a[1:4][-1]` is `a[3]` in Python
and `a[0]` in the generated code. -/
theorem C17_negative_index_violated :
    IsPySlice 5 (some 1) (some 4) none [1, 2, 3] ∧
    (indexOfSlice ⟨5, false⟩ ⟨some (.lit 1), some (.lit 4), none⟩ (.neg 1)).val = 0 := by
  refine ⟨?_, by decide⟩
  unfold IsPySlice
  intro _ k v
  show _ ↔ v = (1 : Int) + 1 * k ∧ ((0 < (1 : Int) ∧ v < 4) ∨ ((1 : Int) < 0 ∧ 4 < v))
  rcases k with _ | _ | _ | k <;> simp <;> omega

/-! ## C57 — slices of tuples with different element types -/

/-- C57, the part that holds: without a step (or with step 1) the selected elements are Python's,
for all bounds, in range or not.  Missing: any other step, which is ignored
(`C57_tuple_step_violated`). -/
theorem C57_tuple_slice_partial (n : Nat) (s : Sl) (l : List Int) (hst : s.st = 1)
    (hl : IsPySlice n (s.start.map Ex.val) (s.stop.map Ex.val) (s.step.map Ex.val) l) :
    tupleSlice n s = l := by
  have hgd : (s.step.map Ex.val).getD 1 = 1 := hst
  have heq : pyIndices n (s.start.map Ex.val) (s.stop.map Ex.val) (s.step.map Ex.val)
      = pyIndices n (s.start.map Ex.val) (s.stop.map Ex.val) none := by
    unfold pyIndices; simp only [hgd]; rfl
  unfold IsPySlice at hl; simp only [heq] at hl
  unfold tupleSlice
  have h1 : (pyIndices n (s.start.map Ex.val) (s.stop.map Ex.val) none).2.2 = 1 := rfl
  generalize pyIndices n (s.start.map Ex.val) (s.stop.map Ex.val) none = t at *
  rw [h1] at hl
  have hlen := isRange_length (by omega) hl
  simp only
  have : (t.2.1 - t.1).toNat = l.length := by
    rw [hlen]; unfold doCount; simp; congr 1; omega
  rw [this]
  conv => rhs; rw [isRange_map hl]
  simp

example : tupleSlice 5 ⟨some (.neg 3), some (.lit 9), none⟩ = [2, 3, 4] := by decide

/-- C57: the step is ignored: `t[::2]` on 4 elements selects positions 0 and 2 in Python, all four
in the generated code. -/
theorem C57_tuple_step_violated :
    IsPySlice 4 none none (some 2) [0, 2] ∧
    tupleSlice 4 ⟨none, none, some (.lit 2)⟩ = [0, 1, 2, 3] := by
  refine ⟨?_, by decide⟩
  unfold IsPySlice
  intro _ k v
  show _ ↔ v = (0 : Int) + 2 * k ∧ ((0 < (2 : Int) ∧ v < 4) ∨ ((2 : Int) < 0 ∧ 4 < v))
  rcases k with _ | _ | k <;> simp <;> omega

end Verif.Slices
