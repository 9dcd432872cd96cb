import Verif.Layout.LemmasArr
import Verif.Masks.Model

namespace Verif.Masks.Lemmas
open Layout.Spec Layout.Model Layout Spec Model

/-! ## Lists -/

theorem insertIdx_append {α : Type} (l t : List α) (k : Nat) (m : α) (h : k ≤ l.length) :
    (l ++ t).insertIdx k m = l.insertIdx k m ++ t := by
  induction l generalizing k with
  | nil => have : k = 0 := by simpa using h
           subst this; simp
  | cons x l ih =>
    cases k with
    | zero => simp
    | succ k => simp [ih k (by simpa using h)]

theorem insertIdx_end {α : Type} (l : List α) (m : α) : l.insertIdx l.length m = l ++ [m] := by
  induction l with
  | nil => simp
  | cons x l ih => simp [ih]

theorem insertIdx_reverse {α : Type} (l : List α) (k : Nat) (m : α) (h : k ≤ l.length) :
    l.reverse.insertIdx (l.length - k) m = (l.insertIdx k m).reverse := by
  induction l generalizing k with
  | nil => have : k = 0 := by simpa using h
           subst this; simp
  | cons x l ih =>
    cases k with
    | zero =>
      have := insertIdx_end (l.reverse ++ [x]) m
      simp only [List.length_append, List.length_reverse, List.length_singleton] at this
      simp [this]
    | succ k =>
      have hk : k ≤ l.length := by simpa using h
      simp only [List.reverse_cons, List.length_cons, List.insertIdx_succ_cons]
      rw [show l.length + 1 - (k + 1) = l.length - k by omega,
        insertIdx_append _ _ _ _ (by simp), ih k hk]

theorem eraseIdx_reverse {α : Type} (l : List α) (k : Nat) (h : k < l.length) :
    l.reverse.eraseIdx (l.length - 1 - k) = (l.eraseIdx k).reverse := by
  induction l generalizing k with
  | nil => simp at h
  | cons x l ih =>
    cases k with
    | zero =>
      simp only [List.reverse_cons, List.length_cons, List.eraseIdx_zero, List.tail_cons]
      rw [List.eraseIdx_append_of_length_le (by simp)]
      simp
    | succ k =>
      have hk : k < l.length := by simpa using h
      simp only [List.reverse_cons, List.length_cons, List.eraseIdx_cons_succ]
      rw [show l.length + 1 - 1 - (k + 1) = l.length - 1 - k by omega,
        List.eraseIdx_append_of_lt_length (by simp; omega), ih k hk]

theorem set_reverse {α : Type} (l : List α) (k : Nat) (m : α) (h : k < l.length) :
    l.reverse.set (l.length - 1 - k) m = (l.set k m).reverse := by
  induction l generalizing k with
  | nil => simp at h
  | cons x l ih =>
    cases k with
    | zero =>
      simp only [List.reverse_cons, List.length_cons, List.set_cons_zero]
      rw [List.set_append_right _ _ (by simp)]
      simp
    | succ k =>
      have hk : k < l.length := by simpa using h
      simp only [List.reverse_cons, List.length_cons, List.set_cons_succ]
      rw [show l.length + 1 - 1 - (k + 1) = l.length - 1 - k by omega,
        List.set_append_left _ _ (by simp; omega), ih k hk]

theorem getD_reverse (l : List Nat) (k : Nat) (h : k < l.length) :
    l.reverse.getD (l.length - 1 - k) 0 = l.getD k 0 := by
  rw [List.getD_eq_getElem?_getD, List.getD_eq_getElem?_getD, List.getElem?_reverse (by omega)]
  congr 2
  omega

/-! ## Indices -/

theorem mem_insertIdx {s i : List Nat} {k m : Nat} (hk : k < s.length) (hm : m < s.getD k 0)
    (hi : i ∈ indices (s.eraseIdx k)) : i.insertIdx k m ∈ indices s := by
  induction s generalizing i k with
  | nil => simp at hk
  | cons n ns ih =>
    cases k with
    | zero =>
      simp only [List.eraseIdx_zero, List.tail_cons] at hi
      exact indices_cons.mpr ⟨m, i, by simp, by simpa using hm, hi⟩
    | succ k =>
      obtain ⟨x, is, rfl, hx, his⟩ := indices_cons.mp hi
      exact indices_cons.mpr ⟨x, is.insertIdx k m, by simp, hx,
        ih (by simpa using hk) (by simpa using hm) his⟩

theorem mem_set {s i : List Nat} {k m : Nat} (hk : k < s.length) (hm : m < s.getD k 0)
    (hi : i ∈ indices (s.set k 1)) : i.set k m ∈ indices s := by
  induction s generalizing i k with
  | nil => simp at hk
  | cons n ns ih =>
    cases k with
    | zero =>
      obtain ⟨x, is, rfl, hx, his⟩ := indices_cons.mp hi
      exact indices_cons.mpr ⟨m, is, by simp, by simpa using hm, his⟩
    | succ k =>
      obtain ⟨x, is, rfl, hx, his⟩ := indices_cons.mp hi
      exact indices_cons.mpr ⟨x, is.set k m, by simp, hx,
        ih (by simpa using hk) (by simpa using hm) his⟩

theorem mem_eraseIdx {s i : List Nat} {k : Nat} (hk : k < s.length)
    (hi : i ∈ indices (s.set k 1)) : i.eraseIdx k ∈ indices (s.eraseIdx k) := by
  induction s generalizing i k with
  | nil => simp at hk
  | cons n ns ih =>
    cases k with
    | zero =>
      obtain ⟨x, is, rfl, hx, his⟩ := indices_cons.mp hi
      simpa using his
    | succ k =>
      obtain ⟨x, is, rfl, hx, his⟩ := indices_cons.mp hi
      exact indices_cons.mpr ⟨x, is.eraseIdx k, by simp, hx, ih (by simpa using hk) his⟩

theorem insert_erase {i : List Nat} {k m : Nat} (hk : k < i.length) :
    (i.eraseIdx k).insertIdx k m = i.set k m := by
  induction i generalizing k with
  | nil => simp at hk
  | cons x i ih =>
    cases k with
    | zero => simp
    | succ k => simp [ih (by simpa using hk)]

theorem pos_erase {s j : List Nat} {d : Nat} (hd : d < s.length) (hj : j ∈ indices (s.set d 1)) :
    pos (s.set d 1) j = pos (s.eraseIdx d) (j.eraseIdx d) := by
  induction s generalizing j d with
  | nil => simp at hd
  | cons n ns ih =>
    cases d with
    | zero =>
      obtain ⟨x, is, rfl, hx, his⟩ := indices_cons.mp hj
      have hx : x = 0 := by omega
      subst hx
      simp [pos]
    | succ d =>
      obtain ⟨x, is, rfl, hx, his⟩ := indices_cons.mp hj
      simp [pos, ih (by simpa using hd) his]

theorem prod_erase {s : List Nat} {d : Nat} (hd : d < s.length) :
    prod (s.set d 1) = prod (s.eraseIdx d) := by
  induction s generalizing d with
  | nil => simp at hd
  | cons n ns ih =>
    cases d with
    | zero => simp [prod]
    | succ d => simp [prod, ih (by simpa using hd)]

/-! ## All elements -/

theorem nth_mem {s : List Nat} {p : Nat} (h : p < prod s) : nth s p ∈ indices s ∧ pos s (nth s p) = p := by
  induction s generalizing p with
  | nil => simp [prod] at h; simp [nth, indices, pos, h]
  | cons n ns ih =>
    simp only [prod] at h
    have hn : 0 < n := by
      rcases Nat.eq_zero_or_pos n with h0 | h0
      · subst h0; simp at h
      · exact h0
    have hq : p / n < prod ns := by
      rw [Nat.div_lt_iff_lt_mul hn, Nat.mul_comm]; exact h
    have := ih hq
    refine ⟨indices_cons.mpr ⟨_, _, rfl, Nat.mod_lt _ hn, this.1⟩, ?_⟩
    simp only [nth, pos, this.2]
    exact Nat.mod_add_div p n

theorem nodup_prefixed {L : List (List Nat)} (hL : L.Nodup) (n : Nat) :
    ((List.range n).flatMap (fun i => L.map (fun is => i :: is))).Nodup := by
  induction n with
  | zero => simp
  | succ n ih =>
    rw [List.range_succ, List.flatMap_append]
    refine List.nodup_append.mpr ⟨ih, ?_, ?_⟩
    · simp only [List.flatMap_cons, List.flatMap_nil, List.append_nil]
      exact List.Pairwise.map _ (fun a b hab e => hab (by simpa using e)) hL
    · intro c hc d hd e
      subst e
      simp only [List.mem_flatMap, List.mem_range, List.mem_map, List.mem_singleton] at hc hd
      obtain ⟨a, ha, x, -, rfl⟩ := hc
      obtain ⟨b, hb, y, -, hy⟩ := hd
      simp at hy
      omega

theorem nodup_indices (s : List Nat) : (indices s).Nodup := by
  induction s with
  | nil => simp [indices]
  | cons n ns ih => exact nodup_prefixed ih n

/-- The elements in array element order are all elements. -/
theorem nths_perm (s : List Nat) : ((List.range (prod s)).map (nth s)).Perm (indices s) := by
  rw [List.perm_ext_iff_of_nodup ?_ (nodup_indices s)]
  · intro i
    simp only [List.mem_map, List.mem_range]
    constructor
    · rintro ⟨p, hp, rfl⟩; exact (nth_mem hp).1
    · intro h; exact ⟨pos s i, pos_lt h, nth_pos h⟩
  · have : (List.range (prod s)).Nodup := List.nodup_range
    rw [List.Nodup, List.pairwise_map]
    refine List.Pairwise.imp_of_mem ?_ this
    intro a b ha hb hab e
    apply hab
    rw [← (nth_mem (List.mem_range.mp ha)).2, ← (nth_mem (List.mem_range.mp hb)).2, e]

/-- The same indices, written backwards. -/
theorem indices_reverse_perm (s : List Nat) : ((indices s).map List.reverse).Perm (indices s.reverse) := by
  rw [List.perm_ext_iff_of_nodup ?_ (nodup_indices _)]
  · intro i
    simp only [List.mem_map]
    constructor
    · rintro ⟨j, hj, rfl⟩; exact mem_indices_reverse hj
    · intro h
      exact ⟨i.reverse, by simpa using mem_indices_reverse h, by simp⟩
  · rw [List.Nodup, List.pairwise_map]
    refine List.Pairwise.imp ?_ (nodup_indices s)
    intro a b hab e
    exact hab (by simpa using e)

theorem indices_rev_perm (o : Option Order) (s : List Nat) :
    ((indices s).map (revUnlessF o)).Perm (indices (revUnlessF o s)) := by
  unfold revUnlessF
  split
  · simp
  · exact indices_reverse_perm s

theorem nonzeros_perm {l m : List Int} (h : l.Perm m) : nonzeros l = nonzeros m :=
  (h.filter _).length_eq

theorem nonzeros_map {α : Type} (l : List α) (g : α → Int) :
    nonzeros (l.map g) = (l.filter (fun p => decide (g p ≠ 0))).length := by
  unfold nonzeros
  rw [List.filter_map, List.length_map]
  rfl

theorem nonzeros_congr {α : Type} {l : List α} {g h : α → Int} (e : ∀ x ∈ l, g x = h x) :
    nonzeros (l.map g) = nonzeros (l.map h) := by
  rw [List.map_congr_left e]

/-- `count(mask)` counts the elements of the array in Python. -/
theorem count_all {o : Option Order} {a : Arr} {f : FArr} (h : Rep o a f) (hs : a.shape ≠ []) :
    ∃ c, count (mask f) = some c ∧ c.dims = [] ∧ c.get = fun _ => (countAll a : Int) := by
  have hd : f.dims ≠ [] := by
    rw [h.1]; unfold revUnlessF; split
    · exact hs
    · simpa using hs
  refine ⟨_, by unfold count; rw [if_neg (show ¬ (mask f).dims = [] from hd)], rfl, ?_⟩
  funext _
  have e1 : ((List.range (prod f.dims)).filter (fun p => decide (f.get (nth f.dims p) ≠ 0))).length
      = nonzeros ((indices f.dims).map f.get) := by
    rw [← nonzeros_map (List.range (prod f.dims)) (fun p => f.get (nth f.dims p))]
    apply nonzeros_perm
    have := (nths_perm f.dims).map f.get
    rwa [List.map_map] at this
  simp only [mask]
  rw [e1]
  congr 1
  unfold countAll
  apply nonzeros_perm
  rw [h.1]
  refine (((indices_rev_perm o a.shape).symm.map f.get)).trans ?_
  rw [List.map_map]
  have : (indices a.shape).map (f.get ∘ revUnlessF o) = (indices a.shape).map a.get :=
    List.map_congr_left h.2
  rw [this]

/-! ## Along an axis -/

/-- The place of dimension `k` in the Fortran array. -/
def place (o : Option Order) (n k : Nat) : Nat := if o = some .F then k else n - 1 - k

theorem rev_erase (o : Option Order) (l : List Nat) {k : Nat} (h : k < l.length) :
    (revUnlessF o l).eraseIdx (place o l.length k) = revUnlessF o (l.eraseIdx k) := by
  unfold revUnlessF place
  split
  · rfl
  · exact eraseIdx_reverse l k h

theorem rev_set (o : Option Order) (l : List Nat) (m : Nat) {k : Nat} (h : k < l.length) :
    (revUnlessF o l).set (place o l.length k) m = revUnlessF o (l.set k m) := by
  unfold revUnlessF place
  split
  · rfl
  · exact set_reverse l k m h

theorem rev_insert (o : Option Order) (l : List Nat) (m : Nat) {k : Nat} (h : k ≤ l.length) :
    (revUnlessF o l).insertIdx (place o (l.length + 1) k) m = revUnlessF o (l.insertIdx k m) := by
  unfold revUnlessF place
  split
  · rfl
  · rw [Nat.add_sub_cancel]; exact insertIdx_reverse l k m h

theorem rev_getD (o : Option Order) (l : List Nat) {k : Nat} (h : k < l.length) :
    (revUnlessF o l).getD (place o l.length k) 0 = l.getD k 0 := by
  unfold revUnlessF place
  split
  · rfl
  · exact getD_reverse l k h

theorem place_lt (o : Option Order) {n k : Nat} (h : k < n) : place o n k < n := by
  unfold place; split <;> omega

/-- The argument `dim` is the place, counted from 1. -/
theorem fDim_place {o : Option Order} {n k : Nat} (h : k < n) (ho : o = none → n < 2) :
    fDim o n k = (place o n k : Int) + 1 := by
  unfold fDim place
  rcases o with _ | (_ | _)
  · have := ho rfl
    simp
    omega
  · simp; omega
  · simp

/-- `count(mask, dim)` at a place. -/
theorem countDim_eq (f : FArr) {d : Nat} (h : d < f.dims.length) :
    ∃ c, countDim (mask f) ((d : Int) + 1) = some c ∧ c.dims = f.dims.eraseIdx d ∧
      ∀ i, c.get i = (nonzeros ((List.range (f.dims.getD d 0)).map (fun m => f.get (i.insertIdx d m))) : Int) := by
  refine ⟨_, by unfold countDim; rw [if_pos (show 1 ≤ (d : Int) + 1 ∧ (d : Int) + 1 ≤ (mask f).dims.length by
    have : (mask f).dims.length = f.dims.length := rfl
    omega)], ?_, ?_⟩
  · simp [mask]
  · intro i
    simp only [nonzeros_map, mask]
    have : ((d : Int) + 1 - 1).toNat = d := by omega
    rw [this]

theorem count_axis {o : Option Order} {a : Arr} {f : FArr} {k : Nat} (h : Rep o a f)
    (ho : o = none → a.shape.length < 2) (hk : k < a.shape.length) :
    ∃ c, countDim (mask f) (fDim o a.shape.length k) = some c ∧ Rep o (countAxis a k) c := by
  have hl : f.dims.length = a.shape.length := by rw [h.1, length_revUnlessF]
  obtain ⟨c, hc, hd, hg⟩ := countDim_eq f (d := place o a.shape.length k) (by rw [hl]; exact place_lt o hk)
  refine ⟨c, by rw [fDim_place hk ho]; exact hc, ?_, ?_⟩
  · rw [hd, h.1, rev_erase o _ hk]; rfl
  · intro i hi
    have hi' : i ∈ indices (a.shape.eraseIdx k) := hi
    have hil : i.length + 1 = a.shape.length := by
      rw [mem_indices_length hi', List.length_eraseIdx_of_lt hk]; omega
    rw [hg, h.1, rev_getD o _ hk]
    simp only [countAxis]
    congr 1
    apply nonzeros_congr
    intro m hm
    rw [← hil, rev_insert o _ _ (by omega)]
    exact h.2 _ (mem_insertIdx hk (List.mem_range.mp hm) hi')

/-- `reshape` to the same lengths and one more dimension, of length 1. -/
theorem kept_eq {c : FArr} {D : List Nat} {d : Nat} (hd : d < D.length) (hc : c.dims = D.eraseIdx d) :
    ∃ r, reshape c.flat (D.set d 1) (byDefault (D.set d 1)) = some r ∧ r.dims = D.set d 1 ∧
      ∀ j ∈ indices (D.set d 1), r.get j = c.get (j.eraseIdx d) := by
  obtain ⟨r, hr⟩ := reshape_default_ok (l := c.flat) (dims := D.set d 1)
    (by rw [flat_length, hc, prod_erase hd]; exact Nat.le_refl _)
  obtain ⟨h1, h2⟩ := reshape_default hr
  refine ⟨r, hr, h1, ?_⟩
  intro j hj
  rw [h2 j hj, pos_erase hd hj, ← hc, flat_get]
  rw [hc]
  exact mem_eraseIdx hd hj

theorem reshapeTo_eq {o : Option Order} {s : List Nat} (ho : o = none → s.length < 2) :
    reshapeTo o s = revUnlessF o s := by
  unfold reshapeTo revUnlessF
  rcases o with _ | (_ | _)
  · simp [reverse_short (ho rfl)]
  · simp
  · simp

theorem count_kept {o : Option Order} {a : Arr} {f c : FArr} {k : Nat} (h : Rep o a f)
    (ho : o = none → a.shape.length < 2) (hk : k < a.shape.length)
    (hc : countDim (mask f) (fDim o a.shape.length k) = some c) :
    ∃ r, reshape c.flat (reshapeTo o (a.shape.set k 1)) (byDefault (reshapeTo o (a.shape.set k 1))) = some r ∧
      Rep o (countKept a k) r := by
  have hl : f.dims.length = a.shape.length := by rw [h.1, length_revUnlessF]
  have hp : place o a.shape.length k < f.dims.length := by rw [hl]; exact place_lt o hk
  obtain ⟨c', hc', hd, hg⟩ := countDim_eq f hp
  rw [fDim_place hk ho] at hc
  rw [hc] at hc'
  obtain rfl : c = c' := by simpa using hc'
  rw [reshapeTo_eq (by simpa using ho), ← rev_set o _ _ hk, ← h.1]
  obtain ⟨r, hr, hrd, hrg⟩ := kept_eq hp hd
  refine ⟨r, hr, ?_, ?_⟩
  · rw [hrd, h.1, rev_set o _ _ hk]; rfl
  · intro i hi
    have hi' : i ∈ indices (a.shape.set k 1) := hi
    have hil : i.length = a.shape.length := by rw [mem_indices_length hi', List.length_set]
    have hj : revUnlessF o i ∈ indices (f.dims.set (place o a.shape.length k) 1) := by
      rw [h.1, rev_set o _ _ hk]; exact mem_indices_rev o hi'
    rw [hrg _ hj, hg, h.1, rev_getD o _ hk]
    simp only [countKept]
    congr 1
    apply nonzeros_congr
    intro m hm
    rw [insert_erase (by rw [length_revUnlessF, hil]; exact place_lt o hk), ← hil,
      rev_set o _ _ (by omega)]
    exact h.2 _ (mem_set hk (List.mem_range.mp hm) hi')

theorem printCount_rep {o : Option Order} {a : Arr} {f : FArr} (h : Rep o a f) (hs : a.shape ≠ [])
    (ho : o = none → a.shape.length < 2) (axis : Option Nat) (keep : Bool)
    (hk : ∀ k, axis = some k → k < a.shape.length) :
    ∃ r, printCount o a.shape f axis keep = some r ∧ Rep o (countNonzero a axis keep) r := by
  rcases axis with _ | k
  · obtain ⟨c, hc, hd, hg⟩ := count_all h hs
    cases keep
    · refine ⟨c, by simp [printCount, resultShape, hc], ?_, ?_⟩
      · rw [hd]; simp [countNonzero, revUnlessF]
      · intro i _; rw [hg]; rfl
    · have hD : reshapeTo o (List.replicate a.shape.length 1) = List.replicate a.shape.length 1 := by
        unfold reshapeTo; split <;> simp
      obtain ⟨r, hr⟩ := reshape_default_ok (l := c.flat) (dims := List.replicate a.shape.length 1)
        (by rw [flat_length, hd, prod_ones]; exact Nat.le_refl _)
      obtain ⟨h1, h2⟩ := reshape_default hr
      refine ⟨r, by simp [printCount, resultShape, hc, hD, hr], ?_, ?_⟩
      · rw [h1]; simp only [countNonzero, revUnlessF]; split <;> simp
      · intro i hi
        have hi' : i ∈ indices (List.replicate a.shape.length 1) := hi
        obtain ⟨-, rfl⟩ := pos_ones _ _ hi'
        have e : revUnlessF o (List.replicate a.shape.length 0) = List.replicate a.shape.length 0 := by
          unfold revUnlessF; split <;> simp
        rw [e, h2 _ hi', (pos_ones _ _ hi').1]
        simp [FArr.flat, hd, prod, nth, hg, countNonzero]
  · have hk := hk k rfl
    obtain ⟨c, hc, hr⟩ := count_axis h ho hk
    cases keep
    · exact ⟨c, by simp [printCount, resultShape, hk, hc], hr⟩
    · obtain ⟨r, hr, hR⟩ := count_kept h ho hk hc
      exact ⟨r, by simp [printCount, resultShape, hk, hc, hr], hR⟩

/-! ## `np.nonzero` -/

theorem zipIdx_range (n : Nat) : (List.range n).zipIdx = (List.range n).map (fun i => (i, i)) := by
  apply List.ext_getElem
  · simp
  · intro i h1 h2; simp

theorem printNonzero_eq {n : Nat} {a : Arr} {f : FArr} (hs : a.shape = [n]) (h : Rep none a f) :
    printNonzero a.shape f = some (nonzero n a) := by
  have hd : f.dims = [n] := by rw [h.1, hs]; rfl
  have hr : implied 0 ((n : Int) - 1) = List.range n := by
    unfold implied
    rw [show ((n : Int) - 1 - 0 + 1).toNat = n by omega, List.range_eq_range']
    rfl
  simp only [printNonzero, hs, pack, mask, hr, hd, List.length_range, if_true, zipIdx_range]
  rw [List.filter_map, List.map_map]
  simp only [Function.comp_def, List.map_id']
  congr 1
  unfold nonzero
  apply List.filter_congr
  intro i hi
  have := h.2 [i] (by rw [hs]; exact indices_cons.mpr ⟨i, [], rfl, List.mem_range.mp hi, by simp [indices]⟩)
  simp only [revUnlessF] at this
  simp at this
  simp [this]

theorem nonzeroShape_eq {n : Nat} {a : Arr} {f : FArr} (hs : a.shape = [n]) (h : Rep none a f) :
    nonzeroShape a.shape f = some ((nonzero n a).length : Int) := by
  obtain ⟨c, hc, -, hg⟩ := count_all h (by simp [hs])
  simp only [nonzeroShape, printCount, resultShape, hc]
  simp only [hg, Option.bind_eq_bind, Option.bind_some, Option.map_some]
  simp only [Bool.false_eq_true, if_false, Option.bind_some, Option.map_some, hg]
  congr 2
  unfold countAll nonzero
  rw [nonzeros_map, hs]
  have : indices [n] = (List.range n).map (fun i => [i]) := by
    simp [indices, List.map_eq_flatMap]
  rw [this, List.filter_map, List.length_map]
  rfl

/-! ## `np.full` in C -/

/-- Without calls, evaluation changes nothing. -/
theorem eval_store (F : Funs) {e : Expr} (h : e.calls = 0) (s : Store) : (eval F e s).2 = s := by
  induction e generalizing s with
  | lit | var => rfl
  | elem a i ih => exact ih h s
  | op f a b iha ihb =>
    simp only [Expr.calls] at h
    simp only [eval, iha (by omega) s, ihb (by omega) s]
  | call f a => simp [Expr.calls] at h

/-- Without calls, the value depends only on the arrays that are read. -/
theorem eval_value (F : Funs) {e : Expr} (h : e.calls = 0) {x : Nat} (hx : e.reads x = false) {s t : Store}
    (hv : s.val = t.val) (ha : ∀ a, a ≠ x → s.arr a = t.arr a) : (eval F e s).1 = (eval F e t).1 := by
  induction e with
  | lit => rfl
  | var y => simp [eval, hv]
  | elem a i ih =>
    simp only [Expr.reads, Bool.or_eq_false_iff, beq_eq_false_iff_ne] at hx
    simp only [Expr.calls] at h
    simp only [eval, eval_store F h, ih h hx.2, ha a hx.1]
  | op f a b iha ihb =>
    simp only [Expr.calls] at h
    simp only [Expr.reads, Bool.or_eq_false_iff] at hx
    simp only [eval, eval_store F (show a.calls = 0 by omega), iha (by omega) hx.1, ihb (by omega) hx.2]
  | call f a => simp [Expr.calls] at h

theorem fill_zero (s : Store) (x : Nat) (v : Int) : s.fill x 0 v = s := by
  unfold Store.fill
  have : ∀ (a : Nat) (p : Int), ¬ (a = x ∧ 0 ≤ p ∧ p < ((0 : Nat) : Int)) := by
    intro a p h; omega
  simp only [this, if_false]

theorem fill_step (s : Store) (x n : Nat) (v : Int) :
    s.fill x (n + 1) v
      = { s.fill x n v with arr := fun a q => if a = x ∧ q = (n : Int) then v else (s.fill x n v).arr a q } := by
  unfold Store.fill
  simp only [Store.mk.injEq, true_and, and_true]
  funext a p
  by_cases h1 : a = x
  · by_cases h2 : p = (n : Int)
    · rw [if_pos (by omega), if_pos ⟨h1, h2⟩]
    · by_cases h3 : 0 ≤ p ∧ p < (n : Int)
      · rw [if_pos (by omega), if_neg (by omega), if_pos (by omega)]
      · rw [if_neg (by omega), if_neg (by omega), if_neg (by omega)]
  · simp [h1]

theorem fillC_succ (F : Funs) (x n : Nat) (e : Expr) (s : Store) :
    fillC F x (n + 1) e s = fillStep F x e (fillC F x n e s) n := by
  simp [fillC, List.range_succ]

/-- As long as the expression keeps its value while the array is filled, the result is Python's. -/
theorem fillC_eq (F : Funs) {x n : Nat} {e : Expr} (h : e.calls = 0) (s : Store)
    (hv : ∀ p, p < n → (eval F e (s.fill x p (eval F e s).1)).1 = (eval F e s).1) :
    fillC F x n e s = s.fill x n (eval F e s).1 := by
  induction n with
  | zero => rw [fill_zero]; rfl
  | succ n ih =>
    rw [fillC_succ, ih (fun p hp => hv p (by omega)), fill_step]
    simp only [fillStep, eval_store F h, hv n (by omega)]

theorem fillC_iff (F : Funs) {x n : Nat} {e : Expr} (h : e.calls = 0) (s : Store) :
    fillC F x n e s = full F x n e s ↔
      ∀ p, p < n → (eval F e (s.fill x p (eval F e s).1)).1 = (eval F e s).1 := by
  constructor
  · intro hf
    -- by strong induction: the element at `p` was written in round `p` and never again
    have key : ∀ m, ∀ k, k < m → (fillC F x m e s).arr x (k : Int) = (eval F e (fillC F x k e s)).1 := by
      intro m
      induction m with
      | zero => intro k hk; omega
      | succ m ih =>
        intro k hk
        rw [fillC_succ]
        simp only [fillStep, eval_store F h]
        by_cases hkm : k = m
        · subst hkm; simp
        · rw [if_neg (by omega), ih k (by omega)]
    intro p
    induction p using Nat.strongRecOn with
    | _ p ih =>
      intro hp
      have h1 := key n p hp
      rw [hf] at h1
      have h2 : (full F x n e s).arr x (p : Int) = (eval F e s).1 := by
        simp only [full, Store.fill]
        rw [if_pos ⟨trivial, by omega, by omega⟩]
      rw [h2, fillC_eq F h s (fun q hq => ih q hq (by omega))] at h1
      exact h1.symm
  · intro hv
    rw [fillC_eq F h s hv]
    simp only [full, eval_store F h]

/-- Each evaluation makes the calls that are written. -/
theorem eval_calls (F : Funs) (e : Expr) (s : Store) :
    (eval F e s).2.calls.length = s.calls.length + e.calls := by
  induction e generalizing s with
  | lit | var => simp [eval, Expr.calls]
  | elem a i ih => simp [eval, Expr.calls, ih]
  | op f a b iha ihb => simp only [eval, Expr.calls, ihb, iha]; omega
  | call f a ih => simp only [eval, Expr.calls, List.length_append, ih, List.length_singleton]; omega

theorem fillC_calls (F : Funs) (x n : Nat) (e : Expr) (s : Store) :
    (fillC F x n e s).calls.length = s.calls.length + n * e.calls := by
  induction n with
  | zero => simp [fillC]
  | succ n ih =>
    rw [fillC_succ]
    simp only [fillStep, eval_calls, ih]
    rw [Nat.add_mul]
    omega

end Verif.Masks.Lemmas
