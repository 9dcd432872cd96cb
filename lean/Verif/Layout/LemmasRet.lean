import Verif.Layout.LemmasSim

namespace Verif.Layout.Model
open Spec

theorem indices_cons {n : Nat} {ns : List Nat} {i : List Nat} :
    i ∈ indices (n :: ns) ↔ ∃ k is, i = k :: is ∧ k < n ∧ is ∈ indices ns := by
  simp only [indices, List.mem_flatMap, List.mem_range, List.mem_map]
  constructor
  · rintro ⟨k, hk, is, his, rfl⟩
    exact ⟨k, is, rfl, hk, his⟩
  · rintro ⟨k, is, rfl, hk, his⟩
    exact ⟨k, hk, is, his, rfl⟩

theorem addr_of_mem {ds : List Dim} {i : List Nat} (h : i ∈ indices (ds.map (·.len))) :
    ∃ a, addr ds i = some a := by
  induction ds generalizing i with
  | nil =>
    simp [indices] at h
    subst h
    exact ⟨0, rfl⟩
  | cons d ds ih =>
    obtain ⟨k, is, rfl, hk, his⟩ := indices_cons.mp h
    obtain ⟨a, ha⟩ := ih his
    exact ⟨k * d.stride + a, by simp [addr, hk, ha]⟩

theorem mem_of_addr {ds : List Dim} {i : List Nat} {a : Int} (h : addr ds i = some a) :
    i ∈ indices (ds.map (·.len)) := by
  induction ds generalizing i a with
  | nil =>
    cases i with
    | nil => simp [indices]
    | cons => simp [addr] at h
  | cons d ds ih =>
    cases i with
    | nil => simp [addr] at h
    | cons k ks =>
      simp only [addr] at h
      split at h
      · rename_i hk
        obtain ⟨b, hb, -⟩ := Option.map_eq_some_iff.mp h
        exact indices_cons.mpr ⟨k, ks, rfl, hk, ih hb⟩
      · simp at h

/-- Equal lengths; equal strides where they matter. -/
def SameStrides : List Dim → List Dim → Prop
  | [], [] => True
  | d :: ds, e :: es => d.len = e.len ∧ (1 < d.len → d.stride = e.stride) ∧ SameStrides ds es
  | _, _ => False

theorem addr_zero {ds : List Dim} (h : ∀ d ∈ ds, 0 < d.len) :
    ∃ i ∈ indices (ds.map (·.len)), addr ds i = some 0 := by
  induction ds with
  | nil => exact ⟨[], by simp [indices], rfl⟩
  | cons d ds ih =>
    obtain ⟨i, hi, ha⟩ := ih (fun e he => h e (by simp [he]))
    refine ⟨0 :: i, indices_cons.mpr ⟨0, i, rfl, h d (by simp), hi⟩, ?_⟩
    simp [addr, h d (by simp), ha]

theorem sameStrides_iff {ds es : List Dim} (hl : ds.map (·.len) = es.map (·.len))
    (hp : ∀ d ∈ ds, 0 < d.len) :
    (∀ i ∈ indices (ds.map (·.len)), addr ds i = addr es i) ↔ SameStrides ds es := by
  induction ds generalizing es with
  | nil =>
    cases es with
    | nil => simp [SameStrides]
    | cons => simp at hl
  | cons d ds ih =>
    cases es with
    | nil => simp at hl
    | cons e es =>
      simp only [List.map_cons, List.cons.injEq] at hl
      have hd : 0 < d.len := hp d (by simp)
      have ih := ih hl.2 (fun x hx => hp x (by simp [hx]))
      constructor
      · intro h
        have htail : ∀ i ∈ indices (ds.map (·.len)), addr ds i = addr es i := by
          intro i hi
          have := h (0 :: i) (indices_cons.mpr ⟨0, i, rfl, hd, hi⟩)
          obtain ⟨a, ha⟩ := addr_of_mem hi
          obtain ⟨b, hb⟩ := addr_of_mem (ds := es) (i := i) (by rw [← hl.2]; exact hi)
          simp [addr, hd, ← hl.1, ha, hb] at this
          rw [ha, hb, this]
        refine ⟨hl.1, ?_, ih.mp htail⟩
        intro h1
        obtain ⟨i, hi, hz⟩ := addr_zero (ds := ds) (fun x hx => hp x (by simp [hx]))
        have hz' := htail i hi
        rw [hz] at hz'
        have := h (1 :: i) (indices_cons.mpr ⟨1, i, rfl, h1, hi⟩)
        simpa [addr, h1, ← hl.1, hz, ← hz'] using this
      · rintro ⟨h1, h2, h3⟩ i hi
        obtain ⟨k, is, rfl, hk, his⟩ := indices_cons.mp hi
        have := ih.mpr h3 is his
        simp only [addr, ← h1, hk, if_true, this]
        by_cases h : 1 < d.len
        · rw [h2 h]
        · have hk' : k < d.len := hk
          have : k = 0 := by omega
          subst this
          simp

theorem elements_iff (w : View) (ds : List Dim) (hl : w.dims.map (·.len) = ds.map (·.len)) :
    (∀ val, elements val ⟨w.buf, w.off, ds⟩ = elements val w) ↔
      ∀ i ∈ indices (w.dims.map (·.len)), addr w.dims i = addr ds i := by
  constructor
  · intro h i hi
    have := h (fun x => x)
    simp only [elements, ← hl] at this
    have := (List.map_inj_left.mp this) i hi
    obtain ⟨a, ha⟩ := addr_of_mem hi
    obtain ⟨b, hb⟩ := addr_of_mem (ds := ds) (i := i) (by rw [← hl]; exact hi)
    simp only [ha, hb] at this
    rw [ha, hb]
    congr 1
    omega
  · intro h val
    simp only [elements, ← hl]
    apply List.map_inj_left.mpr
    intro i hi
    rw [h i hi]

/-! ## Array element order -/

theorem fAlloc_nat (k : Nat) (s : List Nat) (i : List Nat) (a : Int)
    (h : addr (colMajor k s) i = some a) :
    ∃ p : Nat, a = k * p ∧ p < prod s ∧ nth s p = i := by
  induction s generalizing k i a with
  | nil =>
    cases i with
    | nil =>
      simp [colMajor, addr] at h
      exact ⟨0, by simp [← h], by simp [prod], rfl⟩
    | cons => simp [colMajor, addr] at h
  | cons n ns ih =>
    cases i with
    | nil => simp [colMajor, addr] at h
    | cons j js =>
      simp only [colMajor, addr] at h
      split at h
      · rename_i hj
        obtain ⟨b, hb, rfl⟩ := Option.map_eq_some_iff.mp h
        obtain ⟨q, rfl, hq, hn⟩ := ih _ _ _ hb
        refine ⟨j + n * q, ?_, ?_, ?_⟩
        · push_cast
          rw [Int.mul_add, Int.mul_comm (j : Int), Int.mul_assoc]
        · calc j + n * q < n + n * q := by omega
            _ = n * (q + 1) := by rw [Nat.mul_add]; omega
            _ ≤ n * prod ns := Nat.mul_le_mul_left n hq
        · have h0 : 0 < n := by omega
          have e1 : (j + n * q) % n = j := by
            rw [Nat.add_mul_mod_self_left, Nat.mod_eq_of_lt hj]
          have e2 : (j + n * q) / n = q := by
            rw [Nat.add_mul_div_left _ _ h0, Nat.div_eq_of_lt hj, Nat.zero_add]
          simp [nth, e1, e2, hn]
      · simp at h

theorem addr_length {ds : List Dim} {i : List Nat} {a : Int} (h : addr ds i = some a) :
    ds.length = i.length := by
  induction ds generalizing i a with
  | nil =>
    cases i with
    | nil => rfl
    | cons => simp [addr] at h
  | cons d ds ih =>
    cases i with
    | nil => simp [addr] at h
    | cons k ks =>
      simp only [addr] at h
      split at h
      · obtain ⟨b, hb, -⟩ := Option.map_eq_some_iff.mp h
        simp [ih hb]
      · simp at h

theorem addr_rowMajor (s i : List Nat) (h : s.length = i.length) :
    addr (rowMajor s) i = addr (colMajor 1 s.reverse) i.reverse := by
  have e1 := fAddr_map (rowMajor s) i
  have e2 := fAddr_map (colMajor 1 s.reverse) i.reverse
  have hl : (rowMajor s).length = s.length := layout_length .C s
  rw [← fAddr_reverse (by simp [hl, h])] at e1
  rw [← e1, ← e2, rowMajor_eq]
  simp

theorem zip_lb (ds : List Dim) (i : List Nat) (o : Option Order) (h : ds.length = i.length) :
    (((revUnlessF o i).zip (revUnlessF o (ds.map fd))).map (fun q => (q.1 : Int) + q.2.lb))
      = (revUnlessF o i).map Int.ofNat := by
  have hz : ∀ (l : List Nat) (m : List FDim), l.length = m.length → (∀ d ∈ m, d.lb = 0) →
      (l.zip m).map (fun q => (q.1 : Int) + q.2.lb) = l.map Int.ofNat := by
    intro l
    induction l with
    | nil => intro m hm _; simp
    | cons a l ih =>
      intro m hm hz
      cases m with
      | nil => simp at hm
      | cons d m =>
        simp only [List.zip_cons_cons, List.map_cons]
        rw [ih m (by simpa using hm) (fun e he => hz e (by simp [he])), hz d (by simp)]
        simp
  apply hz
  · simp [length_revUnlessF, h]
  · intro d hd
    have : d ∈ ds.map fd := by
      unfold revUnlessF at hd
      split at hd
      · exact hd
      · simpa using hd
    obtain ⟨e, -, rfl⟩ := List.mem_map.mp this
    rfl

theorem copiedF_eq (o : Option Order) (hs : List Nat) (val : Int → Int) (w : View) (i : List Nat)
    (a : Int) (hw : w.dims.map (·.len) = hs) (h : addr (cLayout (decide (o = some .F)) hs) i = some a) :
    0 ≤ a ∧ copiedF o val ⟨w.buf, w.off, revUnlessF o (w.dims.map fd)⟩ hs a.toNat =
      (addr w.dims i).map (fun b => val (w.off + b)) := by
  have hlen : w.dims.length = i.length := by
    have := addr_length h
    rw [← hw] at this
    by_cases ho : o = some .F
    · simp only [cLayout, ho, decide_true, if_true] at this
      rw [← this, ← List.length_map (f := fun d : Dim => d.len), ← List.length_map (f := fun d : Dim => d.len),
        colMajor_len]
    · simp only [cLayout, ho, decide_false, Bool.false_eq_true, if_false] at this
      rw [← this, ← List.length_map (f := fun d : Dim => d.len), ← List.length_map (f := fun d : Dim => d.len),
        rowMajor_len]
  have hcol : addr (colMajor 1 (revUnlessF o hs)) (revUnlessF o i) = some a := by
    by_cases ho : o = some .F
    · simp only [cLayout, ho, decide_true, if_true] at h
      simpa [revUnlessF, ho] using h
    · simp only [cLayout, ho, decide_false, Bool.false_eq_true, if_false] at h
      simp only [revUnlessF, ho, if_false]
      rw [← addr_rowMajor _ _ (by rw [← hw]; simpa using hlen)]
      exact h
  obtain ⟨p, hp, -, hn⟩ := fAlloc_nat _ _ _ _ hcol
  have hp' : a = (p : Int) := by simpa using hp
  refine ⟨by omega, ?_⟩
  subst hp'
  simp only [copiedF, Int.toNat_natCast, hn]
  rw [zip_lb _ _ _ hlen, fAddr_rev _ _ _ hlen]

end Verif.Layout.Model
