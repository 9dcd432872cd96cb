import Verif.Slices.Model
import Verif.Loops.Props
/-! Helper lemmas for the slice properties. -/
namespace Verif.Slices
open Spec Verif.Loops Verif.Loops.Spec

theorem wrapV_neg {n v : Int} (h : v < 0) : wrapV n v = v + n := if_pos h
theorem wrapV_nonneg {n v : Int} (h : 0 ≤ v) : wrapV n v = v := if_neg (by omega)
theorem val_lit (k : Nat) : (Ex.lit k).val = k := rfl
theorem val_neg (k : Nat) : (Ex.neg k).val = -(k : Int) := rfl
theorem val_dyn (v : Int) : (Ex.dyn v).val = v := rfl

theorem makePositive_val (d : Dim) (an : Bool) (e : Ex) (hok : e.Ok an)
    (h0 : 0 ≤ wrapV d.n e.val) :
    (∃ k, makePositive d e = .lit k ∧ (k : Int) = wrapV d.n e.val) ∨
    (∃ v, makePositive d e = .dyn v ∧ v = e.val ∧ (an = true ∨ 0 ≤ v)) ∨
    (∃ v, makePositive d e = .dyn v ∧ v = wrapV d.n e.val ∧ 0 ≤ v) := by
  cases e with
  | lit k => left; exact ⟨k, rfl, by rw [val_lit, wrapV_nonneg (by omega)]⟩
  | dyn v => right; left; exact ⟨v, rfl, rfl, hok⟩
  | neg k =>
    simp only [Ex.Ok] at hok
    have hv : wrapV d.n (Ex.neg k).val = (d.n : Int) - k := by
      rw [val_neg, wrapV_neg (by omega)]; omega
    rw [hv] at h0 ⊢
    simp only [makePositive]
    rw [if_pos (by omega)]
    cases d.isLit with
    | true =>
      left; refine ⟨((d.n : Int) - k).toNat, ?_, by omega⟩
      simp only [if_true, Ex.ofInt]; rw [if_neg (by omega)]
    | false => right; right; exact ⟨_, by simp, rfl, h0⟩

theorem index_norm (d : Dim) (an : Bool) (e : Ex) (hok : e.Ok an) (h0 : 0 ≤ wrapV d.n e.val) :
    cIndex d an e = wrapV d.n e.val ∧ fIndex d an e = wrapV d.n e.val := by
  unfold cIndex fIndex
  rcases makePositive_val d an e hok h0 with ⟨k, h, hk⟩ | ⟨v, h, hv, hn⟩ | ⟨v, h, hv, hn⟩
  · rw [h]; exact ⟨hk, hk⟩
  · rw [h]; subst hv
    unfold wrapV at *
    rcases hn with rfl | hn
    · simp only [if_true]; split <;> omega
    · have : ¬ e.val < 0 := by omega
      simp [this]
  · rw [h]; rw [← hv]
    have : ¬ v < 0 := by omega
    simp [this]

theorem bound_norm (d : Dim) (an : Bool) (e : Ex) (hok : e.Ok an) (h0 : 0 ≤ wrapV d.n e.val) :
    cBound d.n an ((some e).map (makePositive d)) = some (wrapV d.n e.val) ∧
    fBound d.n an ((some e).map (makePositive d)) = some (wrapV d.n e.val) ∧
    unpackBound d.n an 0 (some e) = wrapV d.n e.val := by
  refine ⟨?_, ?_, ?_⟩
  · simp only [Option.map_some]
    rcases makePositive_val d an e hok h0 with ⟨k, h, hk⟩ | ⟨v, h, hv, hn⟩ | ⟨v, h, hv, hn⟩
    · rw [h]; simp [cBound, hk]
    · rw [h]; subst hv; unfold wrapV at *
      rcases hn with rfl | hn
      · simp only [cBound, if_true]; split <;> simp; omega
      · have : ¬ e.val < 0 := by omega
        simp [cBound, this]
    · rw [h, ← hv]
      have : ¬ v < 0 := by omega
      simp [cBound, this]
  · simp only [Option.map_some]
    rcases makePositive_val d an e hok h0 with ⟨k, h, hk⟩ | ⟨v, h, hv, hn⟩ | ⟨v, h, hv, hn⟩
    · rw [h]; simp [fBound, hk]
    · rw [h]; subst hv; unfold wrapV at *
      rcases hn with rfl | hn
      · simp only [fBound, if_true]; split <;> simp; omega
      · have : ¬ e.val < 0 := by omega
        simp [fBound, this]
    · rw [h, ← hv]
      have : ¬ v < 0 := by omega
      simp [fBound, this]
  · cases e with
    | lit k => rw [val_lit, wrapV_nonneg (by omega)]; rfl
    | neg k => rfl
    | dyn v =>
      rw [val_dyn]
      rcases hok with rfl | hn
      · rfl
      · rw [wrapV_nonneg hn]
        have : ¬ v < 0 := by omega
        simp [unpackBound, this]

theorem unpack_some (n : Int) (an : Bool) (d1 d2 : Int) (e : Ex) :
    unpackBound n an d1 (some e) = unpackBound n an d2 (some e) := by
  cases e <;> rfl

theorem clamp_inside {n lower upper v : Int} (h1 : lower ≤ wrapV n v) (h2 : wrapV n v ≤ upper) :
    clamp n lower upper v = wrapV n v := by
  unfold clamp wrapV at *
  simp only
  rw [if_neg (by omega), if_neg (by omega)]

theorem start_pos {n : Nat} {s : Sl} {an : Bool} (d : Dim) (hd : d.n = n) (h : s.PosOk n an) :
    (pyIndices n (s.start.map Ex.val) (s.stop.map Ex.val) (s.step.map Ex.val)).1 = s.lo n ∧
    (pyIndices n (s.start.map Ex.val) (s.stop.map Ex.val) (s.step.map Ex.val)).2.1 = s.hi n ∧
    (pyIndices n (s.start.map Ex.val) (s.stop.map Ex.val) (s.step.map Ex.val)).2.2 = s.st ∧
    0 < s.st ∧
    (cBound n an (makePositiveSl d s).start).getD 0 = s.lo n ∧
    (cBound n an (makePositiveSl d s).stop).getD n = s.hi n ∧
    (fBound n an (makePositiveSl d s).start).getD 0 = s.lo n ∧
    ((fBound n an (makePositiveSl d s).stop).map (· - 1)).getD ((n : Int) - 1) = s.hi n - 1 ∧
    unpackBound n an 0 s.start = s.lo n ∧ unpackBound n an n s.stop = s.hi n := by
  obtain ⟨h1, h2, h3, h4⟩ := h
  subst hd
  have hst : (s.step.map Ex.val).getD 1 = s.st ∧ 0 < s.st := by
    unfold Sl.st
    cases hs : s.step with
    | none => simp
    | some e => simp [h1 e hs]
  have hn : ¬ (s.st < 0) := by omega
  have ha : ∀ e, s.start = some e → cBound d.n an (makePositiveSl d s).start = some (wrapV d.n e.val) ∧
      fBound d.n an (makePositiveSl d s).start = some (wrapV d.n e.val) ∧
      unpackBound d.n an 0 s.start = wrapV d.n e.val := by
    intro e he
    have := bound_norm d an e (h2 e he).1 (h2 e he).2.1
    unfold makePositiveSl; simp only [he]; exact this
  have hb : ∀ e, s.stop = some e → cBound d.n an (makePositiveSl d s).stop = some (wrapV d.n e.val) ∧
      fBound d.n an (makePositiveSl d s).stop = some (wrapV d.n e.val) ∧
      unpackBound d.n an d.n s.stop = wrapV d.n e.val := by
    intro e he
    have := bound_norm d an e (h3 e he).1 (h3 e he).2.1
    unfold makePositiveSl; simp only [he]
    rw [unpack_some d.n an d.n 0]; exact this
  have e1 : (pyIndices d.n (s.start.map Ex.val) (s.stop.map Ex.val) (s.step.map Ex.val)).1
      = s.lo d.n := by
    unfold pyIndices Sl.lo; simp only [hst.1, hn, if_false]
    cases hs : s.start with
    | none => simp
    | some e => simp only [Option.map_some]; exact clamp_inside (h2 e hs).2.1 (h2 e hs).2.2
  have e2 : (pyIndices d.n (s.start.map Ex.val) (s.stop.map Ex.val) (s.step.map Ex.val)).2.1
      = s.hi d.n := by
    unfold pyIndices Sl.hi; simp only [hst.1, hn, if_false]
    cases hs : s.stop with
    | none => simp
    | some e => simp only [Option.map_some]; exact clamp_inside (h3 e hs).2.1 (h3 e hs).2.2
  refine ⟨e1, e2, hst.1, hst.2, ?_, ?_, ?_, ?_, ?_, ?_⟩
  · unfold Sl.lo
    cases hs : s.start with
    | none => simp [makePositiveSl, hs, cBound]
    | some e => rw [(ha e hs).1]; simp
  · unfold Sl.hi
    cases hs : s.stop with
    | none => simp [makePositiveSl, hs, cBound]
    | some e => rw [(hb e hs).1]; simp
  · unfold Sl.lo
    cases hs : s.start with
    | none => simp [makePositiveSl, hs, fBound]
    | some e => rw [(ha e hs).2.1]; simp
  · unfold Sl.hi
    cases hs : s.stop with
    | none => simp [makePositiveSl, hs, fBound]
    | some e => rw [(hb e hs).2.1]; simp
  · unfold Sl.lo
    cases hs : s.start with
    | none => simp [unpackBound]
    | some e => rw [← hs, (ha e hs).2.2, hs]; rfl
  · unfold Sl.hi
    cases hs : s.stop with
    | none => simp [unpackBound]
    | some e => rw [← hs, (hb e hs).2.2, hs]; rfl

theorem start_neg {n : Nat} {s : Sl} {an : Bool} (d : Dim) (hd : d.n = n) (h : s.NegOk n an) :
    (pyIndices n (s.start.map Ex.val) (s.stop.map Ex.val) (s.step.map Ex.val)).1 = s.hiN n ∧
    (pyIndices n (s.start.map Ex.val) (s.stop.map Ex.val) (s.step.map Ex.val)).2.1 = s.loN n ∧
    (pyIndices n (s.start.map Ex.val) (s.stop.map Ex.val) (s.step.map Ex.val)).2.2 = s.st ∧
    s.st < 0 ∧
    (fBound n an (makePositiveSl d s).start).getD (n - 1) = s.hiN n ∧
    ((fBound n an (makePositiveSl d s).stop).map (· + 1)).getD 0 = s.loN n + 1 ∧
    unpackBound n an (n - 1) s.start = s.hiN n ∧ unpackBound n an (-1) s.stop = s.loN n := by
  obtain ⟨⟨est, hst0, hst1⟩, h2, h3, h4⟩ := h
  subst hd
  have hst : (s.step.map Ex.val).getD 1 = s.st ∧ s.st < 0 := by
    unfold Sl.st; rw [hst0]; exact ⟨rfl, hst1⟩
  have hn : (s.st < 0) := by omega
  have ha : ∀ e, s.start = some e → 
      fBound d.n an (makePositiveSl d s).start = some (wrapV d.n e.val) ∧
      unpackBound d.n an (d.n - 1) s.start = wrapV d.n e.val := by
    intro e he
    have := bound_norm d an e (h2 e he).1 (h2 e he).2.1
    unfold makePositiveSl; simp only [he]
    rw [unpack_some d.n an (d.n - 1) 0]; exact this.2
  have hb : ∀ e, s.stop = some e → 
      fBound d.n an (makePositiveSl d s).stop = some (wrapV d.n e.val) ∧
      unpackBound d.n an (-1) s.stop = wrapV d.n e.val := by
    intro e he
    have := bound_norm d an e (h3 e he).1 (h3 e he).2.1
    unfold makePositiveSl; simp only [he]
    rw [unpack_some d.n an (-1) 0]; exact this.2
  have e1 : (pyIndices d.n (s.start.map Ex.val) (s.stop.map Ex.val) (s.step.map Ex.val)).1
      = s.hiN d.n := by
    unfold pyIndices Sl.hiN; simp only [hst.1, hn, if_true]
    cases hs : s.start with
    | none => simp
    | some e =>
      simp only [Option.map_some]
      exact clamp_inside (by have := (h2 e hs).2.1; omega) (by have := (h2 e hs).2.2; omega)
  have e2 : (pyIndices d.n (s.start.map Ex.val) (s.stop.map Ex.val) (s.step.map Ex.val)).2.1
      = s.loN d.n := by
    unfold pyIndices Sl.loN; simp only [hst.1, hn, if_true]
    cases hs : s.stop with
    | none => simp
    | some e =>
      simp only [Option.map_some]
      exact clamp_inside (by have := (h3 e hs).2.1; omega) (by have := (h3 e hs).2.2; omega)
  refine ⟨e1, e2, hst.1, hst.2, ?_, ?_, ?_, ?_⟩
  · unfold Sl.hiN
    cases hs : s.start with
    | none => simp [makePositiveSl, hs, fBound]
    | some e => rw [(ha e hs).1]; simp
  · unfold Sl.loN
    cases hs : s.stop with
    | none => simp [makePositiveSl, hs, fBound]
    | some e => rw [(hb e hs).1]; simp
  · unfold Sl.hiN
    cases hs : s.start with
    | none => simp [unpackBound]
    | some e => rw [← hs, (ha e hs).2, hs]; rfl
  · unfold Sl.loN
    cases hs : s.stop with
    | none => simp [unpackBound]
    | some e => rw [← hs, (hb e hs).2, hs]; rfl

theorem isRange_map {a b s : Int} {l : List Int} (h : IsRange a b s l) :
    l = (List.range l.length).map fun (k : Nat) => a + s * k := by
  apply List.ext_getElem?
  intro k
  by_cases hk : k < l.length
  · have hx := (h k l[k]).1 (by simp [hk])
    simp [hk, ← hx.1]
  · rw [List.getElem?_eq_none (by omega), List.getElem?_eq_none (by simp; omega)]

theorem tripletElems_eq {a b s : Int} (hs : s ≠ 0) {l : List Int} (h : IsRange a b s l) :
    tripletElems (a, (if 0 < s then b - 1 else b + 1), s) = l := by
  unfold tripletElems
  simp only
  rw [← isRange_length hs h, ← isRange_map h]

theorem incr_val (st j : Ex) :
    (if st = .lit 1 then j else .dyn (st.val * j.val)).val = st.val * j.val := by
  split
  · rename_i h; subst h; rw [val_lit]; simp
  · rfl

end Verif.Slices
