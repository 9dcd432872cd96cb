import Verif.Fills.Model

namespace Verif.Fills

/-- The divisor. -/
def Req.div (r : Req) : Rat := if r.endp.val then (r.num : Rat) - 1 else r.num

theorem elem_eq (r : Req) (i j : Nat) (h : r.div ≠ 0) :
    r.elem i j = some (if r.int then ((r.start j + i * ((r.stop j - r.start j) / r.div)).floor : Rat) else
      r.start j + i * ((r.stop j - r.start j) / r.div)) := by
  have hs : r.step j = some ((r.stop j - r.start j) / r.div) := by
    unfold Req.step Req.div at *
    cases he : r.endp with
    | lit b => cases b <;> simp_all [Endp.val, div?]
    | dyn b =>
      cases b
      · have h0 : (r.num : Rat) - 0 = r.num := by rw [Rat.sub_eq_add_neg, Rat.neg_zero, Rat.add_zero]
        simp_all [Endp.val, div?]
      · simp_all [Endp.val, div?]
  simp [Req.elem, hs]

/-- The contents of an element at the end. -/
def finalVal (r : Req) (a b : Nat) : Option Rat := if a + 1 = r.num ∧ r.endp.val = true then some (r.last b) else r.elem a b

theorem write_ok {r : Req} {m : Mem} {i j : Nat} {v : Option Rat} (hi : i < r.num) (hj : j < r.cols) :
    write r m i j v = some fun a b => if a = i ∧ b = j then v else m a b := by
  unfold write
  rw [if_pos ⟨by omega, by omega, hj⟩]
  simp only [Int.ofNat_inj]

theorem finish_ok {r : Req} {m : Mem} {j : Nat} (hn : 0 < r.num) (hj : j < r.cols) :
    finish r m j = some fun a b => if a + 1 = r.num ∧ b = j ∧ r.endp.val = true then some (r.last j) else m a b := by
  have e : ((r.num : Int) - 1) = ((r.num - 1 : Nat) : Int) := by omega
  have k : ∀ v : Option Rat, write r m ((r.num : Int) - 1) j v = some fun a b => if a = r.num - 1 ∧ b = j then v else m a b := by
    intro v
    rw [e]
    exact write_ok (by omega) hj
  have q : ∀ a, a = r.num - 1 ↔ a + 1 = r.num := by intro a; omega
  unfold finish
  cases he : r.endp with
  | lit b =>
    cases b
    · simp [Endp.val]
    · simp [k, Endp.val, q]
  | dyn b =>
    cases b
    · simp only [k, Endp.val, q, Option.some.injEq]
      funext a b
      split
      · next h => obtain ⟨h, rfl⟩ := h; simp [← h]
      · simp
    · simp [k, Endp.val, q]

theorem body_ok {r : Req} {m : Mem} {i j : Nat} (hi : i < r.num) (hj : j < r.cols) :
    ∃ m', body r m i j = some m' ∧ m' i j = finalVal r i j ∧ ∀ a b, (a ≠ i ∨ b ≠ j) → (a + 1 ≠ r.num ∨ b ≠ j) → m' a b = m a b := by
  unfold body
  rw [write_ok hi hj]
  simp only [Option.bind_some]
  rw [finish_ok (by omega) hj]
  refine ⟨_, rfl, ?_, ?_⟩
  · simp [finalVal]
  · intro a b h1 h2
    rw [if_neg (by rintro ⟨h3, h4, -⟩; rcases h2 with h2 | h2 <;> contradiction),
      if_neg (by rintro ⟨h3, h4⟩; rcases h1 with h1 | h1 <;> contradiction)]

theorem row_ok {r : Req} {i : Nat} (hi : i < r.num) : ∀ {n : Nat} {m : Mem}, n ≤ r.cols →
    ∃ m', rowLoop r i n m = some m' ∧ (∀ b < n, m' i b = finalVal r i b) ∧ ∀ a b, a < i → m' a b = m a b
  | 0, m, _ => ⟨m, rfl, fun b h => absurd h (by omega), fun _ _ _ => rfl⟩
  | n + 1, m, h => by
    obtain ⟨m1, e1, k1, k2⟩ := row_ok hi (n := n) (m := m) (by omega)
    obtain ⟨m2, e2, l1, l2⟩ := body_ok (r := r) (m := m1) hi (j := n) (by omega)
    refine ⟨m2, by simp [rowLoop, e1, e2], ?_, ?_⟩
    · intro b hb
      by_cases hbn : b = n
      · rw [hbn]; exact l1
      · rw [l2 i b (.inr hbn) (.inr hbn)]
        exact k1 b (by omega)
    · intro a b ha
      rw [l2 a b (.inl (by omega)) (.inl (by omega))]
      exact k2 a b ha

theorem loops_ok {r : Req} : ∀ {n : Nat} {m : Mem}, n ≤ r.num →
    ∃ m', loops r n m = some m' ∧ ∀ a < n, ∀ b < r.cols, m' a b = finalVal r a b
  | 0, m, _ => ⟨m, rfl, fun a h => absurd h (by omega)⟩
  | n + 1, m, h => by
    obtain ⟨m1, e1, k1⟩ := loops_ok (r := r) (n := n) (m := m) (by omega)
    obtain ⟨m2, e2, l1, l2⟩ := row_ok (r := r) (m := m1) (i := n) (by omega) (Nat.le_refl r.cols)
    refine ⟨m2, by simp [loops, e1, e2], ?_⟩
    intro a ha b hb
    by_cases han : a = n
    · rw [han]; exact l1 b hb
    · rw [l2 a b (by omega)]
      exact k1 a (by omega) b hb

theorem trunc_floor (q : Rat) : trunc q = q.floor ↔ 0 ≤ q ∨ (q.floor : Rat) = q := by
  unfold trunc
  split
  · next h => simp [h]
  · next h =>
    simp only [h, false_or]
    constructor
    · intro e
      have h1 := Rat.floor_le q
      have h2 : q ≤ (q.ceil : Rat) := Rat.le_ceil
      rw [e] at h2
      exact Rat.le_antisymm h1 h2
    · intro e
      rw [← e, Rat.ceil_intCast, Rat.floor_intCast]

theorem div_ne {r : Req} {i : Nat} (hi : i < r.num) (h : r.endp.val = true → r.num ≠ 1) : r.div ≠ 0 := by
  unfold Req.div
  split
  · next hv =>
    have := h hv
    intro h0
    have h1 : (r.num : Rat) = ((1 : Nat) : Rat) := by
      have : (r.num : Rat) = (r.num : Rat) - 1 + 1 := by rw [Rat.sub_add_cancel]
      rw [this, h0, Rat.zero_add]; rfl
    exact this (Rat.natCast_inj.1 h1)
  · intro h0
    have : (r.num : Rat) = ((0 : Nat) : Rat) := h0
    have := Rat.natCast_inj.1 this
    omega

/-- What the last element is, if it is assigned. -/
theorem final_iff {r : Req} {i j : Nat} (hi : i < r.num) :
    finalVal r i j = some (npLinspace r.int (r.start j) (r.stop j) r.num r.endp.val i) ↔
      (i + 1 = r.num → r.endp.val = true → r.last j = (if r.int then ((if r.num = 1 then r.start j else r.stop j).floor : Rat) else if r.num = 1 then r.start j else r.stop j)) := by
  unfold finalVal
  split
  · next h =>
    simp only [h.1, h.2, forall_const, Option.some.injEq, npLinspace, npElem, if_true]
  · next h =>
    have hc : ¬ (i + 1 = r.num → r.endp.val = true → False) → False := by
      intro k; apply k; intro a b; exact h ⟨a, b⟩
    constructor
    · intro _ a b; exact absurd ⟨a, b⟩ h
    · intro _
      have hne : r.endp.val = true → r.num ≠ 1 := by
        intro hv h1; exact h ⟨by omega, hv⟩
      rw [elem_eq r i j (div_ne hi hne)]
      simp only [npLinspace, npElem, Req.div]
      cases hv : r.endp.val
      · simp
      · have h1 : r.num ≠ 1 := hne hv
        have h2 : i + 1 ≠ r.num := fun e => h ⟨e, hv⟩
        simp [h1, h2]

/-! ### arange -/

theorem lt_len {start stop step : Rat} (hs : step ≠ 0) (k : Nat) :
    (k : Int) < arangeLen start stop step ↔ Before step (start + k * step) stop := by
  unfold arangeLen Before
  rw [Rat.lt_ceil_iff]
  have hk : (((k : Int) : Rat)) = (k : Rat) := rfl
  rw [hk]
  by_cases h : step < 0
  · have hn : ¬ 0 < step := by grind
    have hp : 0 < -step := by grind
    have e : (stop - start) / step = (start - stop) / (-step) := by grind
    rw [e, Rat.lt_div_iff hp]
    simp only [hn, h, false_and, false_or, true_and]
    constructor <;> intro _ <;> grind
  · have hp : 0 < step := by grind
    rw [Rat.lt_div_iff hp]
    simp only [h, hp, false_and, or_false, true_and]
    constructor <;> intro _ <;> grind

theorem isArange_iff {int : Bool} {start stop step : Rat} (hs : step ≠ 0) :
    IsArange int start stop step ((List.range (arangeLen start stop step).toNat).map (arangeElem int start step)) ↔
      ∀ k : Nat, Before step (start + k * step) stop → arangeElem int start step k = npArange int start step k := by
  constructor
  · intro h k hb
    have hl := (lt_len (start := start) (stop := stop) hs k).2 hb
    exact h.2 k (arangeElem int start step k) (by rw [List.getElem?_map, List.getElem?_range (by omega)]; rfl)
  · intro h
    refine ⟨fun k => ?_, fun k v hv => ?_⟩
    · rw [List.length_map, List.length_range, ← lt_len hs]
      omega
    · simp only [List.getElem?_map, Option.map_eq_some_iff] at hv
      obtain ⟨i, hi, rfl⟩ := hv
      obtain ⟨hlt, e⟩ := List.getElem?_eq_some_iff.1 hi
      simp only [List.length_range] at hlt
      simp only [List.getElem_range] at e
      subst e
      exact h k ((lt_len (start := start) (stop := stop) hs k).1 (by omega))

theorem elem_iff {int : Bool} {start step : Rat} {k : Nat} : arangeElem int start step k = npArange int start step k ↔
    (int = true → (trunc (start + k * step) : Rat) = trunc start + k * (trunc (start + step) - trunc start)) := by
  unfold arangeElem npArange
  cases int <;> simp

theorem len_nonneg {start stop step : Rat} : 0 ≤ arangeLen start stop step ↔ -1 < (stop - start) / step := by
  unfold arangeLen
  have : (0 : Int) ≤ ((stop - start) / step).ceil ↔ (-1 : Int) < ((stop - start) / step).ceil := by omega
  rw [this, Rat.lt_ceil_iff]
  rfl

theorem trunc_int {q : Rat} (h : (q.floor : Rat) = q) : (trunc q : Rat) = q := by
  rw [(trunc_floor q).2 (.inr h), h]

theorem int_add {a b : Rat} (ha : (a.floor : Rat) = a) (hb : (b.floor : Rat) = b) : ((a + b).floor : Rat) = a + b := by
  rw [← ha, ← hb, ← Rat.intCast_add, Rat.floor_intCast]

theorem int_mul {a b : Rat} (ha : (a.floor : Rat) = a) (hb : (b.floor : Rat) = b) : ((a * b).floor : Rat) = a * b := by
  rw [← ha, ← hb, ← Rat.intCast_mul, Rat.floor_intCast]

theorem int_nat (k : Nat) : ((k : Rat).floor : Rat) = k := by
  have : (k : Rat) = ((k : Int) : Rat) := rfl
  rw [this, Rat.floor_intCast]

end Verif.Fills
