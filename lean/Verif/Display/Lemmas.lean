import Verif.Display.Model

/-!
# Lemmas
-/

namespace Verif.Display.Lemmas
open Verif.Display.Spec Verif.Display.Model

/-! ## Values depend on what is read -/

theorem val_congr {m m' : Mem} : ∀ (e : Elem), (∀ p ∈ e.reads, m p.1 p.2 = m' p.1 p.2) → e.val m = e.val m'
  | .lit _, _ => rfl
  | .at x i, h => h (x, i) (by simp [Elem.reads])
  | .neg a, h => by simp only [Elem.val]; rw [val_congr a h]
  | .add a b, h => by
    simp only [Elem.val]
    rw [val_congr a fun p hp => h p (by simp [Elem.reads, hp]),
      val_congr b fun p hp => h p (by simp [Elem.reads, hp])]
  | .mul a b, h => by
    simp only [Elem.val]
    rw [val_congr a fun p hp => h p (by simp [Elem.reads, hp]),
      val_congr b fun p hp => h p (by simp [Elem.reads, hp])]

/-! ## All subscripts -/

theorem mem_allIx : ∀ (s : List Nat) (i : Ix), i ∈ allIx s ↔ Inside s i
  | [], i => by cases i <;> simp [allIx, Inside]
  | n :: s, [] => by simp [allIx, Inside]
  | n :: s, i :: is => by
    simp only [allIx, Inside, List.mem_flatMap, List.mem_range, List.mem_map]
    constructor
    · rintro ⟨k, hk, j, hj, e⟩
      injection e with e1 e2
      subst e1 e2
      exact ⟨hk, (mem_allIx s j).mp hj⟩
    · rintro ⟨hk, hj⟩
      exact ⟨i, hk, is, (mem_allIx s is).mpr hj, rfl⟩

theorem before_irrefl : ∀ (i : Ix), ¬ Before i i
  | [], h => h
  | i :: is, h => by
    rcases h with h | h
    · omega
    · exact before_irrefl is h.2

theorem sorted_allIx : ∀ (s : List Nat), (allIx s).Pairwise Before
  | [] => by simp [allIx]
  | n :: s => by
    have ih := sorted_allIx s
    simp only [allIx]
    rw [List.pairwise_flatMap]
    refine ⟨fun k _ => ?_, ?_⟩
    · rw [List.pairwise_map]
      exact ih.imp fun h => Or.inr ⟨rfl, h⟩
    · refine List.pairwise_lt_range.imp fun {a b} hab => ?_
      intro x hx y hy
      obtain ⟨i, _, rfl⟩ := List.mem_map.mp hx
      obtain ⟨j, _, rfl⟩ := List.mem_map.mp hy
      exact Or.inl hab

/-! ## Writing all elements in order -/

theorem run_append (x : Name) : ∀ (a b : List Write) (m : Mem), run x (a ++ b) m = run x b (run x a m)
  | [], _, _ => rfl
  | _ :: a, b, m => by simp only [List.cons_append, run]; exact run_append x a b _

theorem run_sorted (x : Name) (f : Ix → Elem) (g : Ix → Ix) (hg : ∀ i j, g i = g j → i = j)
    (l : List Ix) (hs : l.Pairwise Before) (m : Mem)
    (h : ∀ p ∈ l, ∀ q ∈ l, Before q p → (x, g q) ∉ (f p).reads) :
    (∀ p ∈ l, run x (l.map fun p => ⟨g p, f p⟩) m x (g p) = (f p).val m) ∧
    (∀ y i, (y = x → ∀ p ∈ l, i ≠ g p) → run x (l.map fun p => ⟨g p, f p⟩) m y i = m y i) := by
  induction l generalizing m with
  | nil => exact ⟨by simp, fun _ _ _ => rfl⟩
  | cons a l ih =>
    rw [List.pairwise_cons] at hs
    have ih' := ih hs.2 (fun y i => if y = x ∧ i = g a then (f a).val m else m y i)
      (fun p hp q hq => h p (List.mem_cons_of_mem _ hp) q (List.mem_cons_of_mem _ hq))
    simp only [List.map_cons, run]
    constructor
    · intro p hp
      rcases List.mem_cons.mp hp with e | hp
      · subst e
        rw [ih'.2 x (g p)]
        · simp
        · intro _ q hq e
          have := hg _ _ e
          subst this
          exact before_irrefl _ (hs.1 _ hq)
      · rw [ih'.1 p hp]
        refine val_congr _ fun r hr => ?_
        have hne : ¬ (r.1 = x ∧ r.2 = g a) := by
          rintro ⟨e1, e2⟩
          refine h p (List.mem_cons_of_mem _ hp) a (by simp) (hs.1 _ hp) ?_
          rw [← e1, ← e2]; exact hr
        simp only [if_neg hne]
    · intro y i hy
      rw [ih'.2 y i fun e p hp => hy e p (List.mem_cons_of_mem _ hp)]
      have : ¬ (y = x ∧ i = g a) := fun ⟨e1, e2⟩ => hy e1 a (by simp) e2
      simp only [if_neg this]

/-! ## The generated writes -/

theorem elems_get : ∀ (ds : List Data) (k : Nat) (d : Data) (i : Ix), ds[k]? = some d →
    Data.elems ds k i = d.elem i
  | [], _, _, _, h => by simp at h
  | d' :: ds, 0, d, i, h => by
    simp only [List.getElem?_cons_zero, Option.some.injEq] at h
    subst h
    rw [Data.elems]
  | d' :: ds, k + 1, d, i, h => by
    simp only [List.getElem?_cons_succ] at h
    rw [Data.elems]
    exact elems_get ds k d i h

/-- The writes for all elements of `d`, in order. -/
def writes (s : List Nat) (pre : Ix) (d : Data) : List Write :=
  (allIx s).map fun p => ⟨pre ++ p, d.elem p⟩

/-- The same for the members of a list, from number `k` on. -/
def writesL (s : List Nat) (pre : Ix) : Nat → List Data → List Write
  | _, [] => []
  | k, d :: ds => writes s (pre ++ [k]) d ++ writesL s pre (k + 1) ds

theorem range_flatMap_shift {β : Type} (f : Nat → List β) (n : Nat) :
    (List.range (n + 1)).flatMap f = f 0 ++ (List.range n).flatMap fun k => f (k + 1) := by
  rw [List.range_succ_eq_map]
  simp [List.flatMap_map]

theorem writesL_eq (s : List Nat) (pre : Ix) : ∀ (k : Nat) (ds : List Data),
    writesL s pre k ds =
      (List.range ds.length).flatMap fun j => (allIx s).map fun p =>
        (⟨pre ++ (k + j) :: p, Data.elems ds j p⟩ : Write)
  | _, [] => rfl
  | k, d :: ds => by
    rw [writesL, writesL_eq s pre (k + 1) ds, List.length_cons, range_flatMap_shift]
    congr 1
    · simp [writes, Data.elems]
    · congr 1
      funext j
      refine List.map_congr_left fun p _ => ?_
      rw [Data.elems]
      simp only [Write.mk.injEq, and_true]
      congr 2
      omega

theorem writes_list (s : List Nat) (pre : Ix) (ds : List Data) :
    writes (ds.length :: s) pre (.list ds) = writesL s pre 0 ds := by
  rw [writesL_eq]
  simp only [writes, allIx, List.map_flatMap, List.map_map]
  congr 1
  funext j
  refine List.map_congr_left fun p _ => ?_
  simp [Data.elem]

mutual
theorem shape_regular : ∀ (d : Data) (s : List Nat), Regular d s → shapeOf d = s
  | .num _, s, h => by rw [Regular] at h; rw [shapeOf, h]
  | .view v, s, h => by rw [Regular] at h; rw [shapeOf, h.1]
  | .list [], s, h => by rw [Regular] at h; exact absurd rfl h.1
  | .list (d :: ds), s, h => by
    rw [Regular] at h
    obtain ⟨_, s', rfl, h⟩ := h
    rw [Regulars] at h
    rw [shapeOf, shape_regular d s' h.1, List.length_cons]
end

mutual
theorem flatten_eq : ∀ (d : Data) (s : List Nat), Regular d s → hasArray d = false →
    flatten d = (allIx s).map d.elem
  | .num e, s, h, _ => by rw [Regular] at h; subst h; simp [flatten, allIx, Data.elem]
  | .view v, s, _, hv => by simp [hasArray] at hv
  | .list ds, s, h, hv => by
    rw [Regular] at h
    obtain ⟨_, s', rfl, h⟩ := h
    rw [hasArray] at hv
    rw [flatten, flattens_eq ds s' h hv]
    simp only [allIx, List.map_flatMap, List.map_map]
    congr 1
theorem flattens_eq : ∀ (ds : List Data) (s : List Nat), Regulars ds s → hasArrays ds = false →
    flattens ds = (List.range ds.length).flatMap fun j => (allIx s).map fun p => Data.elems ds j p
  | [], _, _, _ => rfl
  | d :: ds, s, h, hv => by
    rw [Regulars] at h
    simp only [hasArrays, Bool.or_eq_false_iff] at hv
    rw [flattens, flatten_eq d s h.1 hv.1, flattens_eq ds s h.2 hv.2, List.length_cons,
      range_flatMap_shift]
    congr 1
end

theorem zip_self {β : Type} : ∀ (l : List β), l.zip l = l.map fun a => (a, a)
  | [] => rfl
  | a :: l => by simp [zip_self l]

theorem zip_map_right' {β γ : Type} (f : β → γ) : ∀ (l : List β), l.zip (l.map f) = l.map fun a => (a, f a)
  | [] => rfl
  | a :: l => by simp [zip_map_right' f l]

mutual
theorem copy_regular : ∀ (d : Data) (s : List Nat) (pre : Ix), Regular d s →
    copy s pre d = some (writes s pre d)
  | .num e, s, pre, h => by
    rw [Regular] at h
    subst h
    simp [copy, writes, allIx, Data.elem]
  | .view v, s, pre, h => by
    rw [Regular] at h
    obtain ⟨e, hs⟩ := h
    rw [copy, if_neg hs, ← e, zip_self, List.map_map]
    rfl
  | .list ds, s, pre, h => by
    have hsh := shape_regular (.list ds) s h
    rw [Regular] at h
    obtain ⟨_, s', rfl, h⟩ := h
    rw [writes_list]
    rw [copy]
    by_cases hv : hasArrays ds = true
    · simp only [if_pos hv]
      exact copies_regular ds s' pre 0 ds.length h (by omega)
    · simp only [if_neg hv]
      rw [hsh, if_pos (by simp)]
      have hf := flatten_eq (.list ds) (ds.length :: s') (by
        rw [Regular]; exact ⟨‹_›, s', rfl, h⟩) (by rw [hasArray]; simpa using hv)
      rw [flatten] at hf
      rw [hf, zip_map_right', List.map_map, ← writes_list]
      rfl
theorem copies_regular : ∀ (ds : List Data) (s : List Nat) (pre : Ix) (k n : Nat), Regulars ds s →
    k + ds.length ≤ n → copies n s pre k ds = some (writesL s pre k ds)
  | [], _, _, _, _, _, _ => rfl
  | d :: ds, s, pre, k, n, h, hn => by
    rw [Regulars] at h
    simp only [List.length_cons] at hn
    rw [copies, if_pos (by omega), copy_regular d s _ h.1,
      copies_regular ds s pre (k + 1) n h.2 (by omega)]
    rfl
end

/-! ## Dimensions of length 1 in front -/

mutual
/-- Too many dimensions on the left. -/
theorem copy_deep : ∀ (d : Data) (s t : List Nat) (pre : Ix), Regular d s → Numbers d →
    s.length < t.length → (∀ n ∈ t, 0 < n) → copy t pre d = none
  | .num e, s, t, pre, h, _, ht, _ => by
    rw [copy, if_neg]
    rintro rfl
    simp at ht
  | .view v, _, _, _, _, hn, _, _ => by rw [Numbers] at hn; exact hn.elim
  | .list [], _, _, _, h, _, _, _ => by rw [Regular] at h; exact absurd rfl h.1
  | .list (d :: ds), s, t, pre, h, hn, ht, hp => by
    have hsh := shape_regular _ s h
    rw [Regular] at h
    obtain ⟨_, s', rfl, h⟩ := h
    rw [Regulars] at h
    rw [Numbers, NumbersL] at hn
    match t, ht, hp with
    | n :: t', ht, hp =>
      rw [copy]
      by_cases hv : hasArrays (d :: ds) = true
      · simp only [if_pos hv]
        rw [copies, if_pos (hp n (by simp)), copy_deep d s' t' _ h.1 hn.1 (by simpa using ht)
          fun k hk => hp k (List.mem_cons_of_mem _ hk)]
      · simp only [if_neg hv]
        rw [hsh, if_neg]
        simp only [List.length_cons] at ht ⊢
        omega
end

mutual
theorem shape_pos : ∀ (d : Data) (s : List Nat), Regular d s → Numbers d → ∀ n ∈ s, 0 < n
  | .num _, s, h, _ => by rw [Regular] at h; subst h; simp
  | .view v, _, _, hn => by rw [Numbers] at hn; exact hn.elim
  | .list [], _, h, _ => by rw [Regular] at h; exact absurd rfl h.1
  | .list (d :: ds), s, h, hn => by
    rw [Regular] at h
    obtain ⟨_, s', rfl, h⟩ := h
    rw [Regulars] at h
    rw [Numbers, NumbersL] at hn
    intro n hm
    rcases List.mem_cons.mp hm with rfl | hm
    · simp
    · exact shape_pos d s' h.1 hn.1 n hm
end

theorem allIx_pad (s : List Nat) : ∀ (pad : Nat),
    allIx (List.replicate pad 1 ++ s) = (allIx s).map (List.replicate pad 0 ++ ·)
  | 0 => by simp
  | pad + 1 => by
    rw [List.replicate_succ, List.cons_append, allIx, allIx_pad s pad]
    simp [List.replicate_succ]

theorem inside_pad (s : List Nat) (pad : Nat) (i : Ix) :
    Inside (List.replicate pad 1 ++ s) i ↔ ∃ j, Inside s j ∧ i = List.replicate pad 0 ++ j := by
  rw [← mem_allIx, allIx_pad, List.mem_map]
  constructor
  · rintro ⟨j, hj, rfl⟩; exact ⟨j, (mem_allIx s j).mp hj, rfl⟩
  · rintro ⟨j, hj, rfl⟩; exact ⟨j, (mem_allIx s j).mpr hj, rfl⟩

end Verif.Display.Lemmas
