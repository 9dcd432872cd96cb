import Verif.Layout.ModelArr
import Verif.Layout.LemmasRet

namespace Verif.Layout.Model
open Spec

/-! ## Positions -/

theorem mem_indices_length {s i : List Nat} (h : i ∈ indices s) : i.length = s.length := by
  induction s generalizing i with
  | nil => simp [indices] at h; simp [h]
  | cons n ns ih =>
    obtain ⟨k, is, rfl, -, his⟩ := indices_cons.mp h
    simp [ih his]

theorem mem_indices_append {s t i : List Nat} :
    i ∈ indices (s ++ t) ↔ ∃ j k, i = j ++ k ∧ j ∈ indices s ∧ k ∈ indices t := by
  induction s generalizing i with
  | nil =>
    simp only [List.nil_append, indices, List.mem_singleton]
    constructor
    · intro h; exact ⟨[], i, rfl, rfl, h⟩
    · rintro ⟨j, k, rfl, rfl, h⟩; exact h
  | cons n ns ih =>
    simp only [List.cons_append]
    rw [indices_cons]
    constructor
    · rintro ⟨x, is, rfl, hx, his⟩
      obtain ⟨j, k, rfl, hj, hk⟩ := ih.mp his
      exact ⟨x :: j, k, rfl, indices_cons.mpr ⟨x, j, rfl, hx, hj⟩, hk⟩
    · rintro ⟨j, k, rfl, hj, hk⟩
      obtain ⟨x, is, rfl, hx, his⟩ := indices_cons.mp hj
      exact ⟨x, is ++ k, rfl, hx, ih.mpr ⟨is, k, rfl, his, hk⟩⟩

theorem mem_indices_reverse {s i : List Nat} : i ∈ indices s → i.reverse ∈ indices s.reverse := by
  induction s generalizing i with
  | nil => intro h; simp [indices] at h; simp [h, indices]
  | cons n ns ih =>
    intro h
    obtain ⟨x, is, rfl, hx, his⟩ := indices_cons.mp h
    simp only [List.reverse_cons]
    refine mem_indices_append.mpr ⟨_, _, rfl, ih his, ?_⟩
    exact indices_cons.mpr ⟨x, [], rfl, hx, by simp [indices]⟩

theorem mem_indices_rev {s i : List Nat} (o : Option Order) (h : i ∈ indices s) :
    revUnlessF o i ∈ indices (revUnlessF o s) := by
  unfold revUnlessF; split
  · exact h
  · exact mem_indices_reverse h

theorem pos_lt {s i : List Nat} (h : i ∈ indices s) : pos s i < prod s := by
  induction s generalizing i with
  | nil => simp [indices] at h; simp [h, pos, prod]
  | cons n ns ih =>
    obtain ⟨x, is, rfl, hx, his⟩ := indices_cons.mp h
    have := ih his
    simp only [pos, prod]
    calc x + n * pos ns is < n + n * pos ns is := by omega
      _ = n * (pos ns is + 1) := by rw [Nat.mul_add]; omega
      _ ≤ n * prod ns := Nat.mul_le_mul_left n this

theorem nth_pos {s i : List Nat} (h : i ∈ indices s) : nth s (pos s i) = i := by
  induction s generalizing i with
  | nil => simp [indices] at h; simp [h, nth]
  | cons n ns ih =>
    obtain ⟨x, is, rfl, hx, his⟩ := indices_cons.mp h
    have h0 : 0 < n := by omega
    have e1 : (x + n * pos ns is) % n = x := by
      rw [Nat.add_mul_mod_self_left, Nat.mod_eq_of_lt hx]
    have e2 : (x + n * pos ns is) / n = pos ns is := by
      rw [Nat.add_mul_div_left _ _ h0, Nat.div_eq_of_lt hx, Nat.zero_add]
    simp [nth, pos, e1, e2, ih his]

theorem pos_append {s i : List Nat} (t j : List Nat) (h : s.length = i.length) :
    pos (s ++ t) (i ++ j) = pos s i + prod s * pos t j := by
  induction s generalizing i with
  | nil =>
    cases i with
    | nil => simp [pos, prod]
    | cons => simp at h
  | cons n ns ih =>
    cases i with
    | nil => simp at h
    | cons x xs =>
      simp only [List.cons_append, pos, prod, ih (by simpa using h)]
      rw [Nat.mul_add, Nat.mul_assoc, Nat.add_assoc]

theorem pos_ones (k : Nat) (i : List Nat) (h : i ∈ indices (List.replicate k 1)) :
    pos (List.replicate k 1) i = 0 ∧ i = List.replicate k 0 := by
  induction k generalizing i with
  | zero => simp [indices] at h; simp [h, pos]
  | succ k ih =>
    obtain ⟨x, is, rfl, hx, his⟩ := indices_cons.mp h
    have := ih is his
    have hx : x = 0 := by omega
    subst hx
    refine ⟨by simp [List.replicate, pos, this.1], ?_⟩
    rw [this.2]; rfl

theorem prod_ones (k : Nat) : prod (List.replicate k 1) = 1 := by
  induction k with
  | zero => rfl
  | succ k ih => simp [List.replicate, prod, ih]

theorem flat_length (f : FArr) : f.flat.length = prod f.dims := by simp [FArr.flat]

theorem flat_get (f : FArr) {i : List Nat} (h : i ∈ indices f.dims) :
    f.flat.getD (pos f.dims i) 0 = f.get i := by
  have := pos_lt h
  simp [FArr.flat, List.getD, List.getElem?_map, List.getElem?_range, this, nth_pos h]

theorem flatten_get {fs : List (List Int)} {c : Nat} (hc : ∀ l ∈ fs, l.length = c) {k p : Nat}
    (hp : p < c) {l : List Int} (hl : fs[k]? = some l) :
    fs.flatten.getD (p + c * k) 0 = l.getD p 0 := by
  induction fs generalizing k with
  | nil => simp at hl
  | cons m ms ih =>
    have hm : m.length = c := hc m (by simp)
    cases k with
    | zero =>
      simp only [List.getElem?_cons_zero, Option.some.injEq] at hl
      subst hl
      simp only [List.flatten_cons, Nat.mul_zero, Nat.add_zero]
      simp [List.getD, List.getElem?_append_left (show p < m.length by omega)]
    | succ k =>
      simp only [List.getElem?_cons_succ] at hl
      have := ih (fun l hl => hc l (by simp [hl])) hl
      rw [← this]
      simp only [List.flatten_cons, List.getD]
      rw [List.getElem?_append_right (by rw [hm, Nat.mul_add]; omega)]
      congr 2
      rw [hm, Nat.mul_add]; omega

theorem flatten_length {fs : List (List Int)} {c : Nat} (hc : ∀ l ∈ fs, l.length = c) :
    fs.flatten.length = fs.length * c := by
  induction fs with
  | nil => simp
  | cons m ms ih =>
    rw [List.flatten_cons, List.length_append, ih (fun l hl => hc l (by simp [hl])), hc m (by simp)]
    simp [Nat.add_mul]; omega

theorem flats_length {fs : List FArr} {d : List Nat} (h : ∀ f ∈ fs, f.dims = d) :
    (fs.flatMap FArr.flat).length = fs.length * prod d := by
  rw [List.flatMap_def]
  rw [flatten_length (c := prod d)]
  · simp
  · intro l hl
    obtain ⟨f, hf, rfl⟩ := List.mem_map.mp hl
    rw [flat_length, h f hf]

theorem flats_get {fs : List FArr} {d : List Nat} (h : ∀ f ∈ fs, f.dims = d) {k : Nat} {f : FArr}
    (hf : fs[k]? = some f) {i : List Nat} (hi : i ∈ indices d) :
    (fs.flatMap FArr.flat).getD (pos d i + prod d * k) 0 = f.get i := by
  have hfd : f.dims = d := h f (List.mem_of_getElem? hf)
  rw [List.flatMap_def, flatten_get (c := prod d) (l := f.flat)]
  · rw [← hfd, flat_get f (by rw [hfd]; exact hi)]
  · intro l hl
    obtain ⟨g, hg, rfl⟩ := List.mem_map.mp hl
    rw [flat_length, h g hg]
  · exact pos_lt hi
  · simp [List.getElem?_map, hf]

/-! ## The orders of `reshape` -/

theorem permute_default (l : List Nat) : permute (List.range' 1 l.length) l = l := by
  apply List.ext_getElem
  · simp [permute]
  · intro k h1 h2
    simp only [permute, List.getElem_map, List.getElem_range']
    have : 1 + 1 * k - 1 = k := by omega
    rw [this]
    simp [List.getD, h2]

theorem permute_reverse (order l : List Nat) :
    permute order.reverse l = (permute order l).reverse := by simp [permute]

theorem permute_backwards (l : List Nat) : permute (backwards l.length) l = l.reverse := by
  rw [backwards, permute_reverse, permute_default]

theorem permute_append (a b l : List Nat) : permute (a ++ b) l = permute a l ++ permute b l := by
  simp [permute]

theorem permute_rotated (x : Nat) (l : List Nat) : permute (rotated (l.length + 1)) (x :: l) = l ++ [x] := by
  have h := permute_default (x :: l)
  rw [rotated, permute_append]
  simp only [permute, List.map_drop, List.map_take] at h ⊢
  simp only [List.length_cons] at h
  rw [h]
  rfl

theorem reshape_default {l : List Int} {dims : List Nat} {f : FArr}
    (h : reshape l dims (byDefault dims) = some f) :
    f.dims = dims ∧ ∀ j ∈ indices dims, f.get j = l.getD (pos dims j) 0 := by
  unfold reshape at h
  split at h
  · simp only [Option.some.injEq] at h
    subst h
    refine ⟨rfl, ?_⟩
    intro j hj
    have hl := mem_indices_length hj
    simp only [byDefault, permute_default]
    rw [← hl, permute_default]
  · simp at h

theorem reshape_default_ok {l : List Int} {dims : List Nat} (h : prod dims ≤ l.length) :
    ∃ f, reshape l dims (byDefault dims) = some f := by
  unfold reshape
  rw [if_pos ⟨h, by simp [byDefault]⟩]
  exact ⟨_, rfl⟩

theorem reshape_backwards {l : List Int} {dims : List Nat} (h : prod dims ≤ l.length) :
    ∃ f, reshape l dims (backwards dims.length) = some f ∧ f.dims = dims ∧
      ∀ j ∈ indices dims, f.get j = l.getD (pos dims.reverse j.reverse) 0 := by
  unfold reshape
  rw [if_pos ⟨h, by simp [backwards]⟩]
  refine ⟨_, rfl, rfl, ?_⟩
  intro j hj
  have hl := mem_indices_length hj
  simp only [permute_backwards]
  rw [← hl, permute_backwards]

theorem reshape_rotated {l : List Int} {n : Nat} {dims : List Nat} (h : prod (n :: dims) ≤ l.length) :
    ∃ f, reshape l (n :: dims) (rotated (n :: dims).length) = some f ∧ f.dims = n :: dims ∧
      ∀ k j, (k :: j) ∈ indices (n :: dims) → f.get (k :: j) = l.getD (pos dims j + prod dims * k) 0 := by
  unfold reshape
  rw [if_pos ⟨h, by simp [rotated]⟩]
  refine ⟨_, rfl, rfl, ?_⟩
  intro k j hj
  have hl : j.length = dims.length := by simpa using mem_indices_length hj
  simp only [List.length_cons, permute_rotated]
  rw [← hl, permute_rotated, pos_append _ _ (by omega)]
  simp [pos]

/-! ## `np.array` -/

theorem indices_rev_mem {o : Option Order} {s i : List Nat} (h : i ∈ indices (revUnlessF o s)) :
    revUnlessF o i ∈ indices s := by
  have := mem_indices_rev o h
  rwa [revUnlessF_revUnlessF] at this

/-- The elements of a list, in the order in which they are stacked in row-major order. -/
theorem stackC {fs : List FArr} {s : List Nat} {xs : List Arr}
    (hlen : xs.length = fs.length)
    (hx : ∀ (k : Nat) f x, fs[k]? = some f → xs[k]? = some x → Rep (some .C) x f ∧ x.shape = s)
    {n : Nat} :
    ∃ g, reshape (fs.flatMap FArr.flat) (List.replicate n 1 ++ (fs.length :: s)).reverse
        (byDefault (List.replicate n 1 ++ (fs.length :: s)).reverse) = some g ∧
      g.dims = (List.replicate n 1 ++ (fs.length :: s)).reverse ∧
      ∀ i ∈ indices (List.replicate n 1 ++ (fs.length :: s)),
        g.get i.reverse = (stack s xs).get (i.drop n) := by
  have hd : ∀ f ∈ fs, f.dims = s.reverse := by
    intro f hf
    obtain ⟨k, hk, rfl⟩ := List.getElem_of_mem hf
    have := hx k fs[k] xs[k] (by simp [hk]) (by simp [hlen, hk])
    rw [this.1.1, this.2]
    simp [revUnlessF]
  have hp : prod (List.replicate n 1 ++ (fs.length :: s)).reverse = (fs.flatMap FArr.flat).length := by
    rw [flats_length hd, prod_reverse, prod_append, prod_ones, prod_reverse]
    simp [prod]
  obtain ⟨g, hg⟩ := reshape_default_ok (Nat.le_of_eq hp)
  obtain ⟨g1, g2⟩ := reshape_default hg
  refine ⟨g, hg, g1, ?_⟩
  intro i hi
  rw [g2 _ (mem_indices_reverse hi)]
  obtain ⟨z, r, rfl, hz, hr⟩ := mem_indices_append.mp hi
  obtain ⟨k, j, rfl, hk, hj⟩ := indices_cons.mp hr
  have hzl : z.length = n := by simpa using mem_indices_length hz
  have hjl := mem_indices_length hj
  have hdrop : (z ++ k :: j).drop n = k :: j := by rw [← hzl]; simp
  rw [hdrop]
  have hf : fs[k]? = some fs[k] := by simp [hk]
  have hxk : xs[k]? = some (xs[k]'(by omega)) := by simp [hlen, hk]
  have hrep := hx k _ _ hf hxk
  have e1 : (List.replicate n 1 ++ (fs.length :: s)).reverse
      = s.reverse ++ ([fs.length] ++ List.replicate n 1) := by simp
  have e2 : (z ++ k :: j).reverse = j.reverse ++ ([k] ++ z.reverse) := by simp
  have hz0 := pos_ones n z.reverse (by
    have := mem_indices_reverse hz
    simpa using this)
  have epos : pos (List.replicate n 1 ++ (fs.length :: s)).reverse (z ++ k :: j).reverse
      = pos s.reverse j.reverse + prod s.reverse * k := by
    rw [e1, e2, pos_append _ _ (by simp [hjl]), pos_append _ _ (by simp), hz0.1]
    simp [pos]
  rw [epos, flats_get hd hf (mem_indices_reverse hj)]
  simp only [stack, hxk]
  have := hrep.1.2 j (by rw [hrep.2]; exact hj)
  simpa [revUnlessF] using this

/-- The same in column-major order. -/
theorem stackF {fs : List FArr} {s : List Nat} {xs : List Arr}
    (hlen : xs.length = fs.length)
    (hx : ∀ (k : Nat) f x, fs[k]? = some f → xs[k]? = some x → Rep (some .F) x f ∧ x.shape = s) :
    ∃ g, reshape (fs.flatMap FArr.flat) (fs.length :: s) (rotated (fs.length :: s).length) = some g ∧
      g.dims = (fs.length :: s) ∧
      ∀ i ∈ indices (fs.length :: s), g.get i = (stack s xs).get i := by
  have hd : ∀ f ∈ fs, f.dims = s := by
    intro f hf
    obtain ⟨k, hk, rfl⟩ := List.getElem_of_mem hf
    have := hx k fs[k] xs[k] (by simp [hk]) (by simp [hlen, hk])
    rw [this.1.1, this.2]
    simp [revUnlessF]
  have hp : prod (fs.length :: s) = (fs.flatMap FArr.flat).length := by
    rw [flats_length hd]; simp [prod]
  obtain ⟨g, hg, g1, g2⟩ := reshape_rotated (l := fs.flatMap FArr.flat) (Nat.le_of_eq hp)
  refine ⟨g, hg, g1, ?_⟩
  intro i hi
  obtain ⟨k, j, rfl, hk, hj⟩ := indices_cons.mp hi
  rw [g2 k j hi]
  have hf : fs[k]? = some fs[k] := by simp [hk]
  have hxk : xs[k]? = some (xs[k]'(by omega)) := by simp [hlen, hk]
  have hrep := hx k _ _ hf hxk
  rw [flats_get hd hf hj]
  simp only [stack, hxk]
  have := hrep.1.2 j (by rw [hrep.2]; exact hj)
  simpa [revUnlessF] using this

theorem fTranspose_rep {o : Order} {a : Arr} {f : FArr} (h2 : a.shape.length = 2)
    (h : Rep (some o) a f) :
    ∃ g, fTranspose f = some g ∧ ∀ o', o' ≠ o → Rep (some o') a g := by
  obtain ⟨n, m, hs⟩ : ∃ n m, a.shape = [n, m] := by
    match hq : a.shape, h2 with
    | [n, m], _ => exact ⟨n, m, rfl⟩
  have hd : f.dims = revUnlessF (some o) [n, m] := by rw [← hs]; exact h.1
  obtain ⟨n', m', hd'⟩ : ∃ n' m', f.dims = [n', m'] := by
    cases o <;> simp [revUnlessF] at hd <;> exact ⟨_, _, hd⟩
  refine ⟨⟨[m', n'], fun j => f.get j.reverse⟩, by simp [fTranspose, hd'], ?_⟩
  intro o' ho
  rw [hd'] at hd
  constructor
  · cases o <;> cases o' <;> simp [revUnlessF, hs] at hd ho ⊢ <;> simp [hd]
  · intro i hi
    have := h.2 i hi
    cases o <;> cases o' <;> simp [revUnlessF] at this ho ⊢ <;> exact this

theorem Rep.short {o o' : Option Order} {a : Arr} {f : FArr} (h2 : a.shape.length < 2)
    (h : Rep o a f) : Rep o' a f := by
  constructor
  · rw [revUnlessF_short _ h2, h.1, revUnlessF_short _ h2]
  · intro i hi
    have hl := mem_indices_length hi
    rw [revUnlessF_short _ (by omega)]
    have := h.2 i hi
    rwa [revUnlessF_short _ (by omega)] at this

/-- An element in the other order is reordered. -/
theorem reorder_rep {o : Option Order} {a : Arr} {f : FArr} (t : Order) (h : Rep o a f)
    (ho : o = none → a.shape.length < 2) :
    ∃ g, reorder (some t) o a.shape f = some g ∧ Rep (some t) a g := by
  unfold reorder
  by_cases hc : o = some (if some t = some Order.F then .C else .F)
  · rw [if_pos hc]
    have hlen : prod (if o = some .F then a.shape.reverse else a.shape) ≤ f.flat.length := by
      rw [flat_length, h.1]
      apply Nat.le_of_eq
      unfold revUnlessF
      split <;> simp [prod_reverse]
    have hl2 : (if o = some .F then a.shape.reverse else a.shape).length = a.shape.length := by
      split <;> simp
    obtain ⟨g, hg, g1, g2⟩ := reshape_backwards hlen
    rw [hl2] at hg
    refine ⟨g, hg, ?_, ?_⟩
    · rw [g1]
      cases t <;> simp_all [revUnlessF]
    · intro i hi
      have hflat := flat_get f (i := revUnlessF o i) (by rw [h.1]; exact mem_indices_rev o hi)
      rw [h.2 i hi, h.1] at hflat
      rw [← hflat]
      cases t
      · simp only [reduceCtorEq, Option.some.injEq, if_false] at hc
        subst hc
        simp only [revUnlessF, if_true, reduceCtorEq, Option.some.injEq, if_false] at g2 ⊢
        rw [g2 _ (mem_indices_reverse hi)]
        simp
      · simp only [if_true] at hc
        subst hc
        simp only [revUnlessF, if_true, reduceCtorEq, Option.some.injEq, if_false] at g2 ⊢
        rw [g2 _ hi]
  · rw [if_neg hc]
    refine ⟨f, rfl, ?_⟩
    match o, t with
    | none, _ => exact h.short (ho rfl)
    | some .C, .C => exact h
    | some .F, .F => exact h
    | some .C, .F => simp at hc
    | some .F, .C => simp at hc

theorem Reps.cons {o : Option Order} {s : List Nat} {x : Arr} {xs : List Arr} {f : FArr} {fs : List FArr} :
    Reps o s (x :: xs) (f :: fs) ↔ (Rep o x f ∧ x.shape = s) ∧ Reps o s xs fs := by
  constructor
  · rintro ⟨h1, h2⟩
    refine ⟨h2 0 f x rfl rfl, by simpa using h1, ?_⟩
    intro k f' x' hf hx
    exact h2 (k + 1) f' x' (by simpa using hf) (by simpa using hx)
  · rintro ⟨h0, h1, h2⟩
    refine ⟨by simp [h1], ?_⟩
    intro k f' x' hf hx
    cases k with
    | zero =>
      simp only [List.getElem?_cons_zero, Option.some.injEq] at hf hx
      subst hf; subst hx; exact h0
    | succ k => exact h2 k f' x' (by simpa using hf) (by simpa using hx)

theorem reorder_reps {o : Option Order} {s : List Nat} (t : Order) (ho : o = none → s.length < 2)
    {xs : List Arr} {fs : List FArr} (h : Reps o s xs fs) :
    ∃ gs, fs.mapM (reorder (some t) o s) = some gs ∧ Reps (some t) s xs gs ∧ gs.length = fs.length := by
  induction fs generalizing xs with
  | nil =>
    refine ⟨[], rfl, ⟨by simpa using h.1, ?_⟩, rfl⟩
    intro k f x hf
    simp at hf
  | cons f fs ih =>
    cases xs with
    | nil => simp [Reps] at h
    | cons x xs =>
      obtain ⟨⟨h0, h0'⟩, h1⟩ := Reps.cons.mp h
      obtain ⟨g, hg, hr⟩ := reorder_rep t h0 (by rw [h0']; exact ho)
      obtain ⟨gs, hgs, hrs, hl⟩ := ih h1
      rw [h0'] at hg
      refine ⟨g :: gs, by simp [List.mapM_cons, hg, hgs], Reps.cons.mpr ⟨⟨hr, h0'⟩, hrs⟩, by simp [hl]⟩

/-- Dimensions of length 1 in front of an array in row-major order. -/
theorem growC {a : Arr} {f : FArr} (h : Rep (some .C) a f) (n : Nat) :
    ∃ g, reshape f.flat (List.replicate n 1 ++ a.shape).reverse
        (byDefault (List.replicate n 1 ++ a.shape).reverse) = some g ∧
      g.dims = (List.replicate n 1 ++ a.shape).reverse ∧
      ∀ i ∈ indices (List.replicate n 1 ++ a.shape), g.get i.reverse = a.get (i.drop n) := by
  have hd : f.dims = a.shape.reverse := by simpa [revUnlessF] using h.1
  have hp : prod (List.replicate n 1 ++ a.shape).reverse = f.flat.length := by
    rw [flat_length, hd, prod_reverse, prod_append, prod_ones, prod_reverse]; simp
  obtain ⟨g, hg⟩ := reshape_default_ok (Nat.le_of_eq hp)
  obtain ⟨g1, g2⟩ := reshape_default hg
  refine ⟨g, hg, g1, ?_⟩
  intro i hi
  rw [g2 _ (mem_indices_reverse hi)]
  obtain ⟨z, j, rfl, hz, hj⟩ := mem_indices_append.mp hi
  have hzl : z.length = n := by simpa using mem_indices_length hz
  have hjl := mem_indices_length hj
  have hdrop : (z ++ j).drop n = j := by rw [← hzl]; simp
  have hz0 := pos_ones n z.reverse (by have := mem_indices_reverse hz; simpa using this)
  rw [hdrop, List.reverse_append, List.reverse_append, List.reverse_replicate,
    pos_append _ _ (by simp [hjl]), hz0.1, Nat.mul_zero, Nat.add_zero, ← hd,
    flat_get f (by rw [hd]; exact mem_indices_reverse hj)]
  simpa [revUnlessF] using h.2 j hj

theorem permute_rotated_list {x : Nat} {l : List Nat} :
    permute (rotated (x :: l).length) (x :: l) = l ++ [x] := by
  simpa using permute_rotated x l

/-- Dimensions of length 1 in front of an array in column-major order. -/
theorem growF {a : Arr} {f : FArr} (h : Rep (some .F) a f) (n : Nat) :
    ∃ g, reshape f.flat (List.replicate (n + 1) 1 ++ a.shape)
        (rotated (List.replicate (n + 1) 1 ++ a.shape).length) = some g ∧
      g.dims = (List.replicate (n + 1) 1 ++ a.shape) ∧
      ∀ i ∈ indices (List.replicate (n + 1) 1 ++ a.shape), g.get i = a.get (i.drop (n + 1)) := by
  have hd : f.dims = a.shape := by simpa [revUnlessF] using h.1
  have hp : prod (List.replicate (n + 1) 1 ++ a.shape) = f.flat.length := by
    rw [flat_length, hd, prod_append, prod_ones]; simp
  have hc : List.replicate (n + 1) 1 ++ a.shape = 1 :: (List.replicate n 1 ++ a.shape) := rfl
  rw [hc] at hp ⊢
  obtain ⟨g, hg, g1, g2⟩ := reshape_rotated (l := f.flat) (Nat.le_of_eq hp)
  refine ⟨g, hg, g1, ?_⟩
  intro i hi
  obtain ⟨k, r, rfl, hk, hr⟩ := indices_cons.mp hi
  rw [g2 k r hi]
  obtain ⟨z, j, rfl, hz, hj⟩ := mem_indices_append.mp hr
  have hzl : z.length = n := by simpa using mem_indices_length hz
  have hk0 : k = 0 := by omega
  subst hk0
  have hdrop : (0 :: (z ++ j)).drop (n + 1) = j := by rw [← hzl]; simp
  have hz0 := pos_ones n z hz
  rw [hdrop, pos_append _ _ (by simp [hzl]), hz0.1, prod_ones, Nat.mul_zero, Nat.zero_add, Nat.one_mul,
    Nat.add_zero, ← hd, flat_get f (by rw [hd]; exact hj)]
  simpa [revUnlessF] using h.2 j hj

/-- Dimensions of length 1 in front of a vector, for the default order of `reshape`. -/
theorem growV {a : Arr} {f : FArr} (h : Rep none a f) (h1 : a.shape.length < 2) (n : Nat) :
    ∃ g, reshape f.flat (List.replicate n 1 ++ a.shape)
        (byDefault (List.replicate n 1 ++ a.shape)) = some g ∧
      g.dims = (List.replicate n 1 ++ a.shape) ∧
      ∀ i ∈ indices (List.replicate n 1 ++ a.shape), g.get i = a.get (i.drop n) := by
  have hd : f.dims = a.shape := by rw [h.1, revUnlessF_short _ h1]
  have hp : prod (List.replicate n 1 ++ a.shape) = f.flat.length := by
    rw [flat_length, hd, prod_append, prod_ones]; simp
  obtain ⟨g, hg⟩ := reshape_default_ok (Nat.le_of_eq hp)
  obtain ⟨g1, g2⟩ := reshape_default hg
  refine ⟨g, hg, g1, ?_⟩
  intro i hi
  rw [g2 _ hi]
  obtain ⟨z, j, rfl, hz, hj⟩ := mem_indices_append.mp hi
  have hzl : z.length = n := by simpa using mem_indices_length hz
  have hjl := mem_indices_length hj
  have hdrop : (z ++ j).drop n = j := by rw [← hzl]; simp
  have hz0 := pos_ones n z hz
  rw [hdrop, pos_append _ _ (by simp [hzl]), hz0.1, prod_ones, Nat.zero_add, Nat.one_mul, ← hd,
    flat_get f (by rw [hd]; exact hj)]
  have := h.2 j hj
  rwa [revUnlessF_short _ (by omega)] at this

theorem rep_atLeast {o : Order} {n : Nat} {a : Arr} {g : FArr}
    (h1 : g.dims = revUnlessF (some o) (List.replicate (n - a.shape.length) 1 ++ a.shape))
    (h2 : ∀ i ∈ indices (List.replicate (n - a.shape.length) 1 ++ a.shape),
      g.get (revUnlessF (some o) i) = a.get (i.drop (n - a.shape.length))) :
    Rep (some o) (atLeast n a) g := ⟨h1, h2⟩

theorem atLeast_small {n : Nat} {a : Arr} (h : n ≤ a.shape.length) : atLeast n a = a := by
  have : n - a.shape.length = 0 := by omega
  cases a
  simp_all [atLeast]

theorem Rep.none_of {o : Option Order} {a : Arr} {f : FArr} (h : Rep o a f)
    (h1 : a.shape.length < 2) : Rep none a f := h.short h1

/-- From a value in row-major order (the code of a list) or in the order of the argument, as long as the
result has at most two dimensions. -/
theorem small_rep {kw o : Option Order} {ndmin : Nat} {a : Arr} {v : FArr}
    (h : Rep o a v) (ho : o = none → a.shape.length < 2) (ho' : o ≠ none → a.shape.length = 2)
    (h2 : (arrayShape ndmin a.shape).length ≤ 2) :
    ∃ g, fewDims (arrayOrder (arrayShape ndmin a.shape).length kw o) o a.shape
        (arrayShape ndmin a.shape) v = some g ∧
      Rep (arrayOrder (arrayShape ndmin a.shape).length kw o) (atLeast ndmin a) g := by
  have hlen : (arrayShape ndmin a.shape).length = ndmin - a.shape.length + a.shape.length := by
    simp [arrayShape]
  unfold fewDims
  by_cases hn : o = none
  · subst hn
    have h1 := ho rfl
    simp only [ne_eq, not_true_eq_false, false_and, if_false, Option.bind_eq_bind, Option.bind_some]
    by_cases hg : a.shape.length < (arrayShape ndmin a.shape).length
    · rw [if_pos hg]
      by_cases hF : arrayOrder (arrayShape ndmin a.shape).length kw none = some .F
      · rw [if_pos hF, hF]
        obtain ⟨g, e, g1, g2⟩ := growV h h1 (ndmin - a.shape.length)
        exact ⟨g, e, rep_atLeast (by simpa [revUnlessF] using g1) (by simpa [revUnlessF] using g2)⟩
      · rw [if_neg hF]
        obtain ⟨g, e, g1, g2⟩ := growC (h.short (o' := some .C) h1) (ndmin - a.shape.length)
        have hC : Rep (some .C) (atLeast ndmin a) g :=
          rep_atLeast (by simpa [revUnlessF] using g1) (by simpa [revUnlessF] using g2)
        refine ⟨g, e, ?_⟩
        revert hF
        unfold arrayOrder
        split
        · intro _
          exact hC.short (by simp [atLeast, arrayShape] at *; omega)
        · intro hF
          cases hq : kw.getD (Option.getD none Order.C) with
          | C => exact hC
          | F => rw [hq] at hF; simp at hF
    · rw [if_neg hg]
      refine ⟨v, rfl, ?_⟩
      rw [atLeast_small (by omega)]
      exact h.short h1
  · have h2' := ho' hn
    have hle : ¬ a.shape.length < (arrayShape ndmin a.shape).length := by omega
    have hr2 : (arrayShape ndmin a.shape).length = 2 := by omega
    obtain ⟨q, rfl⟩ : ∃ q, o = some q := by cases o with
      | none => exact absurd rfl hn
      | some q => exact ⟨q, rfl⟩
    rw [atLeast_small (by omega)]
    by_cases hc : some q ≠ none ∧ some q ≠ arrayOrder (arrayShape ndmin a.shape).length kw (some q)
    · rw [if_pos hc]
      obtain ⟨g, hg, hr⟩ := fTranspose_rep h2' h
      refine ⟨g, by simp [hg, hle], ?_⟩
      have hc2 := hc.2
      revert hc2
      unfold arrayOrder
      rw [if_neg (by omega)]
      intro hc2
      exact hr _ (fun e => hc2 (by rw [e]))
    · rw [if_neg hc]
      refine ⟨v, by simp [hle], ?_⟩
      have : some q = arrayOrder (arrayShape ndmin a.shape).length kw (some q) :=
        Classical.byContradiction (fun e => hc ⟨by simp, e⟩)
      rw [← this]; exact h

theorem arrayOrder_big {rank : Nat} {kw o : Option Order} (h : 2 ≤ rank) :
    ∃ t, arrayOrder rank kw o = some t := by
  unfold arrayOrder
  rw [if_neg (by omega)]
  exact ⟨_, rfl⟩

/-- `np.array` of an array variable. -/
theorem printArray_var (kw : Option Order) (ndmin : Nat) {o : Option Order} {a : Arr} {f : FArr}
    (h : Rep o a f) (ho : o = none ↔ a.shape.length < 2) :
    ∃ g, printArray kw ndmin (.var o a.shape f) = some g ∧
      Rep (arrayOrder (arrayShape ndmin a.shape).length kw o) (atLeast ndmin a) g := by
  have hlen : (arrayShape ndmin a.shape).length = ndmin - a.shape.length + a.shape.length := by
    simp [arrayShape]
  by_cases h2 : (arrayShape ndmin a.shape).length ≤ 2
  · have he : printArray kw ndmin (.var o a.shape f)
        = fewDims (arrayOrder (arrayShape ndmin a.shape).length kw o) o a.shape
          (arrayShape ndmin a.shape) f := by
      simp [printArray, Src.shape, Src.order, Src.code, h2]
    rw [he]
    refine small_rep h ho.mp (fun hn => ?_) h2
    have : ¬ a.shape.length < 2 := fun e => hn (ho.mpr e)
    omega
  · obtain ⟨t, ht⟩ := arrayOrder_big (kw := kw) (o := o) (show 2 ≤ (arrayShape ndmin a.shape).length by omega)
    obtain ⟨v, hv, hr⟩ := reorder_rep t h ho.mp
    have he : printArray kw ndmin (.var o a.shape f)
        = manyDims (some t) a.shape (arrayShape ndmin a.shape) [v] := by
      simp [printArray, Src.shape, Src.order, h2, ht, hv]
    rw [he, ht]
    simp only [manyDims]
    by_cases hg : a.shape.length < (arrayShape ndmin a.shape).length
    · rw [if_pos hg]
      cases t with
      | C =>
        rw [if_pos rfl]
        obtain ⟨g, e, g1, g2⟩ := growC hr (ndmin - a.shape.length)
        exact ⟨g, e, rep_atLeast (by simpa [revUnlessF] using g1) (by simpa [revUnlessF] using g2)⟩
      | F =>
        rw [if_neg (by simp)]
        obtain ⟨n, hn⟩ : ∃ n, ndmin - a.shape.length = n + 1 := ⟨ndmin - a.shape.length - 1, by omega⟩
        obtain ⟨g, e, g1, g2⟩ := growF hr n
        rw [← hn] at e g1 g2
        exact ⟨g, e, rep_atLeast (by simpa [revUnlessF] using g1) (by simpa [revUnlessF] using g2)⟩
    · rw [if_neg hg, atLeast_small (by omega)]
      have hvl : v.dims.length = (arrayShape ndmin a.shape).length := by
        rw [hr.1, length_revUnlessF]; omega
      rw [if_pos hvl]
      exact ⟨v, rfl, hr⟩

theorem listCode_rep {o : Option Order} {s : List Nat} {xs : List Arr} {fs : List FArr}
    (h : Reps o s xs fs) (ho : o = some .C ∨ s.length < 2) :
    ∃ v, listCode s fs = some v ∧ Rep (some .C) (stack s xs) v := by
  have hx : ∀ (k : Nat) f x, fs[k]? = some f → xs[k]? = some x → Rep (some .C) x f ∧ x.shape = s := by
    intro k f x hf hx
    obtain ⟨h1, h2⟩ := h.2 k f x hf hx
    refine ⟨?_, h2⟩
    rcases ho with rfl | ho
    · exact h1
    · exact h1.short (by rw [h2]; exact ho)
  obtain ⟨g, e, g1, g2⟩ := stackC h.1 hx (n := 0)
  refine ⟨g, by simpa [listCode] using e, ?_, ?_⟩
  · simpa [revUnlessF, stack, h.1] using g1
  · intro i hi
    have := g2 i (by simpa [stack, h.1] using hi)
    simpa [revUnlessF] using this

/-- `np.array` of a list or tuple. -/
theorem printArray_list (kw : Option Order) (ndmin : Nat) {o : Option Order} {s : List Nat}
    {xs : List Arr} {fs : List FArr} (h : Reps o s xs fs) (ho : o = none ↔ s.length < 2)
    (h1 : 2 ≤ s.length → ndmin ≤ s.length + 1 → xs.length ≠ 1)
    (hF : s.length + 1 < ndmin → 3 ≤ ndmin → kw = some .F → s ≠ [] → xs.length = 1) :
    ∃ g, printArray kw ndmin (.list o s fs) = some g ∧
      Rep (arrayOrder (arrayShape ndmin (xs.length :: s)).length kw (Src.list o s fs).order)
        (atLeast ndmin (stack s xs)) g := by
  have hlen : (arrayShape ndmin (xs.length :: s)).length = ndmin - (s.length + 1) + (s.length + 1) := by
    simp [arrayShape]
  have hst : (stack s xs).shape = xs.length :: s := rfl
  by_cases h2 : (arrayShape ndmin (xs.length :: s)).length ≤ 2
  · have hs : s.length < 2 := by omega
    have hn := ho.mpr hs
    obtain ⟨v, hv, hr⟩ := listCode_rep h (Or.inr hs)
    have he : printArray kw ndmin (.list o s fs)
        = fewDims (arrayOrder (arrayShape ndmin (xs.length :: s)).length kw (Src.list o s fs).order)
          (Src.list o s fs).order (xs.length :: s) (arrayShape ndmin (xs.length :: s)) v := by
      rw [h.1] at h2 ⊢
      simp [printArray, Src.shape, Src.code, h2, hv]
    rw [he]
    have := small_rep (kw := kw) (o := (Src.list o s fs).order) (ndmin := ndmin) (a := stack s xs) (v := v)
      (by
        by_cases h0 : s.length = 1
        · have : (Src.list o s fs).order = some .C := by simp [Src.order, h0]
          rw [this]; exact hr
        · exact hr.short (by rw [hst]; simp only [List.length_cons]; omega))
      (by
        rw [hst]
        intro e
        have : s.length ≠ 1 := by
          intro h0
          simp [Src.order, h0] at e
        simp only [List.length_cons]; omega)
      (by
        rw [hst]
        intro e
        have : s.length = 1 := by
          apply Classical.byContradiction
          intro h0
          simp [Src.order, h0, hn] at e
        simp only [List.length_cons]; omega)
      (by rw [hst]; exact h2)
    rw [hst] at this
    exact this
  · obtain ⟨t, ht⟩ := arrayOrder_big (kw := kw) (o := (Src.list o s fs).order)
      (show 2 ≤ (arrayShape ndmin (xs.length :: s)).length by omega)
    obtain ⟨vs, hvs, hrs, hvl⟩ := reorder_reps t ho.mp h
    have hxl : xs.length = vs.length := hrs.1
    have he : printArray kw ndmin (.list o s fs)
        = manyDims (some t) (xs.length :: s) (arrayShape ndmin (xs.length :: s)) vs := by
      rw [h.1] at h2 ht ⊢
      simp only [printArray, Src.shape, h2, decide_false, ht, hvs, Option.bind_some]
    rw [he, ht]
    have ht' : some t = some (kw.getD ((Src.list o s fs).order.getD .C)) := by
      rw [← ht]; unfold arrayOrder; rw [if_neg (by omega)]
    simp only [Option.some.injEq] at ht'
    -- the list in row-major order
    have hCC : t = .C → ∃ g, reshape (vs.flatMap FArr.flat) (arrayShape ndmin (xs.length :: s)).reverse
        (byDefault (arrayShape ndmin (xs.length :: s)).reverse) = some g ∧
        Rep (some .C) (atLeast ndmin (stack s xs)) g := by
      intro e
      subst e
      obtain ⟨g, e, g1, g2⟩ := stackC hrs.1 hrs.2 (n := ndmin - (xs.length :: s).length)
      rw [← hxl] at e g1 g2
      refine ⟨g, e, ?_, ?_⟩
      · simpa [revUnlessF, atLeast, stack] using g1
      · intro i hi
        have := g2 i hi
        simpa [revUnlessF, atLeast, hst] using this
    by_cases hone : xs.length = 1
    · obtain ⟨v, rfl⟩ : ∃ v, vs = [v] := by
        match vs, hxl with
        | [v], _ => exact ⟨v, rfl⟩
        | [], e => rw [hone] at e; simp at e
        | _ :: _ :: _, e => rw [hone] at e; simp at e
      have hgrow : (xs.length :: s).length < (arrayShape ndmin (xs.length :: s)).length := by
        simp only [List.length_cons] at hlen ⊢
        by_cases hs2 : 2 ≤ s.length
        · have : ¬ ndmin ≤ s.length + 1 := fun e => h1 hs2 e hone
          omega
        · omega
      simp only [manyDims]
      rw [if_pos hgrow]
      cases t with
      | C =>
        rw [if_pos rfl]
        simpa using hCC rfl
      | F =>
        rw [if_neg (by simp)]
        obtain ⟨x, rfl⟩ : ∃ x, xs = [x] := by
          match xs, hone with
          | [x], _ => exact ⟨x, rfl⟩
        obtain ⟨hr, hxs⟩ := hrs.2 0 v x rfl rfl
        obtain ⟨g, e, g1, g2⟩ := growF hr (ndmin - (s.length + 1))
        have hshape : arrayShape ndmin ([x].length :: s)
            = List.replicate (ndmin - (s.length + 1) + 1) 1 ++ s := by
          simp only [arrayShape, List.length_cons, List.length_nil, Nat.zero_add]
          rw [List.replicate_succ', List.append_assoc]
          rfl
        rw [hxs] at e g1 g2
        rw [hshape]
        refine ⟨g, e, ?_, ?_⟩
        · rw [g1, ← hshape]; rfl
        · intro i hi
          have hi' : i ∈ indices (List.replicate (ndmin - (s.length + 1) + 1) 1 ++ s) := by
            rw [← hshape]; exact hi
          rw [show revUnlessF (some Order.F) i = i from rfl, g2 i hi']
          obtain ⟨z, j, rfl, hz, hj⟩ := mem_indices_append.mp hi'
          have hz0 := (pos_ones _ z hz).2
          subst hz0
          have e1 : (List.replicate (ndmin - (s.length + 1) + 1) 0 ++ j).drop
              (ndmin - (s.length + 1) + 1) = j := by simp
          have e2 : (List.replicate (ndmin - (s.length + 1) + 1) 0 ++ j).drop
              (ndmin - (s.length + 1)) = 0 :: j := by
            rw [List.replicate_succ', List.append_assoc]
            simp
          rw [e1]
          show x.get j = (stack s [x]).get (List.drop (ndmin - (s.length + 1)) _)
          rw [e2]
          rfl
    · have hmany : manyDims (some t) (xs.length :: s) (arrayShape ndmin (xs.length :: s)) vs
          = if some t = some .C then reshape (vs.flatMap FArr.flat) (arrayShape ndmin (xs.length :: s)).reverse
              (byDefault (arrayShape ndmin (xs.length :: s)).reverse)
            else reshape (vs.flatMap FArr.flat) (arrayShape ndmin (xs.length :: s))
              (rotated (arrayShape ndmin (xs.length :: s)).length) := by
        match vs, hxl with
        | [v], e => simp at e; omega
        | [], _ => rfl
        | _ :: _ :: _, _ => rfl
      rw [hmany]
      cases t with
      | C => rw [if_pos rfl]; exact hCC rfl
      | F =>
        rw [if_neg (by simp)]
        have hkw : kw = some .F := by
          cases kw with
          | none =>
            simp only [Option.getD_none] at ht'
            have : (Src.list o s fs).order ≠ some .F := by
              simp only [Src.order]; split <;> simp
            cases hq : (Src.list o s fs).order with
            | none => rw [hq] at ht'; simp at ht'
            | some q => rw [hq] at ht' this; simp at ht'; exact absurd (by rw [ht']) this
          | some q => simp at ht'; rw [ht']
        by_cases hgrow : s.length + 1 < ndmin
        · have hs : s = [] := by
            apply Classical.byContradiction
            intro e
            exact hone (hF hgrow (by omega) hkw e)
          subst hs
          obtain ⟨n, hn⟩ : ∃ n, ndmin - 1 = n + 1 := ⟨ndmin - 2, by simp at hgrow; omega⟩
          obtain ⟨v, hv, hr⟩ := listCode_rep hrs (Or.inr (by simp))
          -- the numbers of the list, as one vector
          have hvflat : v.flat = vs.flatMap FArr.flat := by
            obtain ⟨v1, v2⟩ := reshape_default hv
            apply List.ext_getElem?
            intro p
            have hd : ∀ f ∈ vs, f.dims = [] := by
              intro f hf
              obtain ⟨k, hk, rfl⟩ := List.getElem_of_mem hf
              have := hrs.2 k vs[k] xs[k] (by simp [hk]) (by simp [hxl, hk])
              rw [this.1.1, this.2]; rfl
            have hl : (vs.flatMap FArr.flat).length = vs.length := by
              rw [flats_length hd]; simp [prod]
            have hl2 : v.flat.length = vs.length := by rw [flat_length, v1]; simp [prod]
            by_cases hp : p < vs.length
            · have hpi : [p] ∈ indices [vs.length] := indices_cons.mpr ⟨p, [], rfl, hp, by simp [indices]⟩
              have q1 := flat_get v (i := [p]) (by rw [v1]; exact hpi)
              have q2 := v2 [p] hpi
              rw [v1] at q1
              simp [pos, List.getD] at q1 q2
              rw [List.getElem?_eq_getElem (by omega), List.getElem?_eq_getElem (by omega)] at *
              simp at q1 q2 ⊢
              rw [q1, q2]
            · rw [List.getElem?_eq_none (by omega), List.getElem?_eq_none (by omega)]
          have hr' : Rep (some .F) (stack [] xs) v := hr.short (by simp [stack])
          obtain ⟨g, e, g1, g2⟩ := growF hr' n
          rw [hvflat] at e
          have hshape : arrayShape ndmin [xs.length] = List.replicate (n + 1) 1 ++ (stack [] xs).shape := by
            simp [arrayShape, hn, stack]
          rw [hshape]
          refine ⟨g, e, ?_, ?_⟩
          · rw [g1]
            simp [revUnlessF, atLeast, stack, hn]
          · intro i hi
            have hi' : i ∈ indices (List.replicate (n + 1) 1 ++ (stack [] xs).shape) := by
              rw [← hshape]; exact hi
            rw [show revUnlessF (some Order.F) i = i from rfl, g2 i hi']
            simp [atLeast, stack, hn]
        · have hshape : arrayShape ndmin (xs.length :: s) = vs.length :: s := by
            have : ndmin - (s.length + 1) = 0 := by omega
            simp [arrayShape, this, hxl]
          obtain ⟨g, e, g1, g2⟩ := stackF hrs.1 hrs.2
          rw [hshape]
          rw [atLeast_small (by rw [hst]; simp only [List.length_cons]; omega)]
          refine ⟨g, e, ?_, ?_⟩
          · rw [g1, hst, hxl]; rfl
          · intro i hi
            rw [hst, hxl] at hi
            exact g2 i hi

end Verif.Layout.Model
