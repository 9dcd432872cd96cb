import Verif.Containers.Model

/-! # Lists, sets, dictionaries: lemmas -/

namespace Verif.Containers
open Spec Model

variable {α : Type}

/-! ## Lists -/

theorem popped_pullElem (l : List α) (k : Nat) (v : α) (i : Int) (hi : (k : Int) = addr l.length i)
    (hv : l[k]? = some v) : Popped l i v (l.take k ++ l.drop (k + 1)) := by
  have hk : k < l.length := (List.getElem?_eq_some_iff.mp hv).1
  refine ⟨by simp; omega, k, hi, hv, ?_, ?_⟩
  · intro j hj
    rw [List.getElem?_append_left (by simp; omega), List.getElem?_take_of_lt hj]
  · intro j hj
    rw [List.getElem?_append_right (by simp; omega), List.getElem?_drop]
    congr 1
    simp; omega

theorem popped_unique {l : List α} {i : Int} {v v' : α} {r r' : List α} (h : Popped l i v r)
    (h' : Popped l i v' r') : v = v' ∧ r = r' := by
  obtain ⟨_, p, hp, hv, hb, ha⟩ := h
  obtain ⟨_, p', hp', hv', hb', ha'⟩ := h'
  have : p = p' := by omega
  subst this
  refine ⟨by simpa [hv] using hv', ?_⟩
  apply List.ext_getElem?
  intro j
  by_cases hj : j < p
  · rw [hb j hj, hb' j hj]
  · rw [ha j (by omega), ha' j (by omega)]

theorem inserted_unique {l : List α} {i : Int} {x : α} {r r' : List α} (h : Inserted l i x r)
    (h' : Inserted l i x r') : r = r' := by
  apply List.ext_getElem?
  intro j
  by_cases hj : j < slot l.length i
  · rw [h.before j hj, h'.before j hj]
  · by_cases he : j = slot l.length i
    · rw [he, h.there, h'.there]
    · obtain ⟨m, rfl⟩ : ∃ m, j = m + 1 := ⟨j - 1, by omega⟩
      rw [h.after m (by omega), h'.after m (by omega)]

theorem slot_le (n : Nat) (i : Int) : slot n i ≤ n := by unfold slot; omega

theorem inserted_at (l : List α) (i : Int) (x : α) :
    Inserted l i x (l.take (slot l.length i) ++ x :: l.drop (slot l.length i)) := by
  have hs := slot_le l.length i
  generalize hk : slot l.length i = k at *
  refine ⟨by simp; omega, ?_, ?_, ?_⟩
  · intro j hj
    rw [hk] at hj
    rw [List.getElem?_append_left (by simp; omega), List.getElem?_take_of_lt hj]
  · rw [hk, List.getElem?_append_right (by simp; omega), List.length_take,
      show k - min k l.length = 0 by omega]; rfl
  · intro j hj
    rw [hk] at hj
    rw [List.getElem?_append_right (by simp; omega), List.length_take,
      show j + 1 - min k l.length = (j - k) + 1 by omega, List.getElem?_cons_succ, List.getElem?_drop]
    congr 1; omega

theorem pullElem_ok (l : List α) (i : Int) (v : α) (r : List α) (h0 : 0 ≤ i)
    (h : Popped l i v r) : pullElem l i = .ok (v, r) := by
  obtain ⟨p, hp, hv, _⟩ := h.ok
  have hpi : (p : Int) = i := by rw [hp, addr]; split <;> omega
  have hk : p < l.length := (List.getElem?_eq_some_iff.mp hv).1
  have hadv : advance l i = .at p := by
    unfold advance
    rw [if_neg (by omega), if_pos (by omega), show i.toNat = p by omega]
  have := popped_unique h (popped_pullElem l p v i (by rw [hp]) hv)
  unfold pullElem
  rw [hadv]
  simp only [hv, this.2]

theorem pullElem_ub (l : List α) (i : Int) (h : i < 0 ∨ ∀ v r, ¬Popped l i v r) :
    pullElem l i = .ub := by
  unfold pullElem advance
  by_cases h0 : i < 0
  · rw [if_pos h0]
  · rw [if_neg h0]
    by_cases h1 : i.toNat < l.length
    · exfalso
      rcases h with h | h
      · exact h0 h
      · exact h _ _ (popped_pullElem l i.toNat l[i.toNat] i (by rw [addr, if_neg h0]; omega)
          (List.getElem?_eq_getElem h1))
    · rw [if_neg h1]

/-- The index counted from the front. -/
theorem popped_front {l : List α} {i : Int} {v : α} {r : List α} (hi : i < 0) :
    Popped l i v r ↔ 0 ≤ l.length + i ∧ Popped l (l.length + i) v r := by
  constructor
  · intro h
    obtain ⟨p, hp, hh⟩ := h.ok
    rw [addr, if_pos hi] at hp
    refine ⟨by omega, h.shorter, p, ?_, hh⟩
    rw [addr, if_neg (by omega)]; omega
  · intro ⟨h0, h⟩
    obtain ⟨p, hp, hh⟩ := h.ok
    rw [addr, if_neg (by omega)] at hp
    refine ⟨h.shorter, p, ?_, hh⟩
    rw [addr, if_pos hi]; omega

theorem pull_ok (l : List α) (v : α) (r : List α) (h : Popped l (-1) v r) : pull l = .ok (v, r) := by
  have hl : l.length ≠ 0 := by have := h.shorter; omega
  have h' : Popped l (-1) (l.getLast (by intro e; simp [e] at hl)) l.dropLast := by
    refine ⟨by simp; omega, l.length - 1, ?_, ?_, ?_, ?_⟩
    · rw [addr, if_pos (by omega)]; omega
    · rw [List.getLast_eq_getElem, List.getElem?_eq_getElem]
    · intro j hj
      rw [List.dropLast_eq_take, List.getElem?_take_of_lt hj]
    · intro j hj
      rw [List.getElem?_eq_none (by simp; omega), List.getElem?_eq_none (by omega)]
  obtain ⟨e1, e2⟩ := popped_unique h h'
  unfold pull
  rw [List.getLast?_eq_some_getLast (by intro e; simp [e] at hl)]
  simp only [e1, e2]

theorem pull_ub (l : List α) (h : ∀ v r, ¬Popped l (-1) v r) : pull l = .ub := by
  cases l with
  | nil => rfl
  | cons a t =>
    exfalso
    refine h _ _ (popped_pullElem (a :: t) t.length _ (-1) ?_
      (List.getElem?_eq_getElem (by simp)))
    rw [addr, if_pos (by omega)]; simp; omega

theorem wrap_eq (i : Int) (h1 : -2 ^ 63 ≤ i) (h2 : i < 2 ^ 63) : wrap i = i := by
  unfold wrap
  rw [Int.emod_eq_of_lt (by omega) (by omega)]; omega

theorem unsigned_eq (i : Int) (h1 : 0 ≤ i) (h2 : i < 2 ^ 63) : unsigned i = i := by
  unfold unsigned
  rw [Int.emod_eq_of_lt (by omega) (by omega)]

theorem cInsert_eq (l : List α) (i : Int) (x : α) (hl : (l.length : Int) < 2 ^ 63)
    (h1 : -2 ^ 63 ≤ i) (h2 : i < 2 ^ 63) :
    cInsert l i x = .ok (l.take (slot l.length i) ++ x :: l.drop (slot l.length i)) := by
  have hs := slot_le l.length i
  unfold cInsert
  simp only
  have hw : (if i < 0 then wrap (i + l.length) else i) = addr l.length i := by
    unfold addr
    by_cases hi : i < 0
    · rw [if_pos hi, if_pos hi, wrap_eq _ (by omega) (by omega)]
    · rw [if_neg hi, if_neg hi]
  rw [hw]
  have hlt : addr l.length i < 2 ^ 63 := by unfold addr; split <;> omega
  generalize hA : addr l.length i = A at *
  have hsl : slot l.length i = (min (max A 0) l.length).toNat := by rw [slot, hA]
  have hm : (if A < 0 then 0 else A) = max A 0 := by split <;> omega
  rw [hm, unsigned_eq _ (by omega) (by omega)]
  by_cases hge : max A 0 ≥ l.length
  · rw [if_pos hge, hsl, show (min (max A 0) (l.length : Int)).toNat = l.length by omega]
    simp
  · rw [if_neg hge]
    have : advance l (max A 0) = .at (slot l.length i) := by
      unfold advance
      rw [if_neg (by omega), if_pos (by omega), hsl]
      congr 1; omega
    rw [this]

theorem fInsert_eq (l : List α) (i : Int) (x : α) (hl : (l.length : Int) < 2 ^ 63)
    (h1 : -2 ^ 63 ≤ i) (h2 : i < 2 ^ 63) :
    fInsert l i x = .ok (l.take (slot l.length i) ++ x :: l.drop (slot l.length i)) := by
  unfold fInsert
  simp only
  have hw : (if i < 0 then wrap (i + l.length) else i) = addr l.length i := by
    unfold addr
    by_cases hi : i < 0
    · rw [if_pos hi, if_pos hi, wrap_eq _ (by omega) (by omega)]
    · rw [if_neg hi, if_neg hi]
  rw [hw]
  generalize hA : addr l.length i = A at *
  have hsl : slot l.length i = (min (max A 0) l.length).toNat := by rw [slot, hA]
  have hm : (if A < 0 then 0 else A) = max A 0 := by split <;> omega
  have hm' : (if max A 0 > (l.length : Int) then (l.length : Int) else max A 0) =
      min (max A 0) l.length := by split <;> omega
  rw [hm, hm', if_pos (by omega), hsl]

theorem extend_eq (l m : List α) : extend l m = l ++ m := by
  induction m generalizing l with
  | nil => simp [extend]
  | cons x m ih => rw [extend, ih]; simp

theorem fExtendSelf_eq (l m : List α) (i : Nat) (h : i + m.length = l.length)
    (hm : l.drop i = m) (t : List α) : fExtendSelf (l ++ t) i m.length = .ok (l ++ t ++ m) := by
  induction m generalizing i t with
  | nil => simp [fExtendSelf]
  | cons x m ih =>
    have hi : (l ++ t)[i]? = some x := by
      rw [List.getElem?_append_left (by simp at h; omega)]
      have := congrArg (·[0]?) hm
      simpa using this
    have hd : l.drop (i + 1) = m := by
      rw [← List.drop_drop, hm]; rfl
    rw [List.length_cons, fExtendSelf, hi]
    simp only
    rw [List.append_assoc, ih (i + 1) (by simp at h; omega) hd (t ++ [x])]
    simp

theorem cExtendSelf_room (cap : Nat) (l m : List α) (h : l.length + m.length ≤ cap) :
    cExtendSelf cap false l m = .ok (l ++ m) := by
  induction m generalizing l with
  | nil => simp [cExtendSelf]
  | cons x m ih =>
    simp only [List.length_cons] at h
    have hne : l.length ≠ cap := by omega
    rw [cExtendSelf, if_neg (by simp), if_neg hne, decide_eq_false hne, ih _ (by simp; omega)]
    simp

theorem extendLit_eq (l : List α) (es : List (List α → α)) (xs : List α)
    (h : ∀ t, es.map (fun e => e (l ++ t)) = xs) (t : List α) :
    extendLit (l ++ t) es = l ++ t ++ xs := by
  induction es generalizing xs t with
  | nil => have := h []; simp at this; simp [extendLit, this]
  | cons e es ih =>
    cases xs with
    | nil => have := h []; simp at this
    | cons x xs =>
      have hx := h t
      simp only [List.map_cons, List.cons.injEq] at hx
      rw [extendLit, hx.1, List.append_assoc, ih xs (fun t => by
        have := h t; simp only [List.map_cons, List.cons.injEq] at this; exact this.2)]
      simp

theorem scan_eq (less : α → α → Bool) (a : α) (t : List α) : scan less a t = least less a t := by
  induction t generalizing a with
  | nil => rfl
  | cons x t ih => rw [scan, least, ih]

theorem least_mem (less : α → α → Bool) (a : α) (t : List α) : least less a t ∈ a :: t := by
  induction t generalizing a with
  | nil => simp [least]
  | cons x t ih =>
    rw [least]
    have := ih (if less x a then x else a)
    rcases List.mem_cons.mp this with h | h
    · rw [h]; split <;> simp
    · simp [h]

/-- In a total preorder the result is below all elements. -/
theorem least_le (less : α → α → Bool)
    (htr : ∀ x y z, less y x = false → less z y = false → less z x = false)
    (has : ∀ x y, less x y = true → less y x = false)
    (a : α) (t : List α) : ∀ x ∈ a :: t, less x (least less a t) = false := by
  have hirr : ∀ x, less x x = false := fun x => by
    cases h : less x x with
    | false => rfl
    | true => exact (has x x h).symm.trans h |>.symm ▸ rfl
  induction t generalizing a with
  | nil => intro x hx; simp at hx; subst hx; exact hirr _
  | cons y t ih =>
    intro x hx
    rw [least]
    have hb := ih (if less y a then y else a)
    have h0 := hb _ (List.mem_cons_self)
    rcases List.mem_cons.mp hx with rfl | hx
    · refine htr _ _ _ h0 ?_
      cases h : less y x with
      | true => rw [if_pos rfl]; exact has _ _ h
      | false => simpa using hirr x
    · rcases List.mem_cons.mp hx with rfl | hx
      · refine htr _ _ _ h0 ?_
        cases h : less x a with
        | true => simpa using hirr x
        | false => simpa using h
      · exact hb x (List.mem_cons_of_mem _ hx)

/-! ### Reversal in place -/

theorem fReverse_eq (l : List α) (a b m : List α) (h : l = a ++ m ++ b)
    (hl : a.length = b.length) :
    fReverse l (a.length + 1) (a.length + m.length) = .ok (a ++ m.reverse ++ b) := by
  generalize hn : m.length = n
  induction n using Nat.strongRecOn generalizing a b m l with
  | _ n ih =>
    by_cases hlt : 2 ≤ n
    · obtain ⟨x, t, rfl⟩ : ∃ x t, m = x :: t := by
        cases m with
        | nil => simp at hn; omega
        | cons x t => exact ⟨x, t, rfl⟩
      have htl : t ≠ [] := by rintro rfl; simp at hn; omega
      obtain ⟨t', y, rfl⟩ : ∃ t' y, t = t' ++ [y] := ⟨t.dropLast, t.getLast htl,
        (List.dropLast_concat_getLast htl).symm⟩
      simp at hn
      rw [fReverse, if_pos (by omega)]
      have e1 : l[a.length + 1 - 1]? = some x := by
        subst h; simp
      have e2 : l[a.length + n - 1]? = some y := by
        subst h hn
        rw [List.append_assoc, List.getElem?_append_right (by omega)]
        simp [show a.length + (t'.length + 1 + 1) - 1 - a.length = t'.length + 1 by omega]
      rw [e1, e2]
      simp only
      have e3 : (l.set (a.length + 1 - 1) y).set (a.length + n - 1) x =
          (a ++ [y]) ++ t' ++ ([x] ++ b) := by
        subst h hn
        simp only [List.append_assoc, Nat.add_sub_cancel]
        rw [List.set_append_right _ _ (by omega), List.set_append_right _ _ (by omega)]
        simp [show a.length + (t'.length + 1 + 1) - 1 - a.length = t'.length + 1 by omega]
      have := ih t'.length (by omega) _ (a ++ [y]) ([x] ++ b) t' e3 (by simp [hl]) rfl
      rw [e3] at this ⊢
      rw [show a.length + 1 + 1 = (a ++ [y]).length + 1 by simp,
        show a.length + n - 1 = (a ++ [y]).length + t'.length by simp; omega, this]
      simp
    · rw [fReverse, if_neg (by omega)]
      subst h
      congr 3
      match m, hn with
      | [], _ => rfl
      | [x], _ => rfl
      | x :: y :: t, hn => simp at hn; omega

end Verif.Containers
