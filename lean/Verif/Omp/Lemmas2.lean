import Verif.Omp.Lemmas

namespace Verif.Omp
open Spec Model

variable {κ : Type}

/-! ## Turns one after the other, in C -/

/-- The stores that remain of some work, if the variable of the loop is `j`. -/
def rem (j : Nat) : Work κ → List (Mem κ → Mem κ)
  | .store f => [f]
  | .init m f => (List.range m).map f
  | .test m f => (List.range' j (m - j)).map f
  | .inc m f => (List.range' (j + 1) (m - (j + 1))).map f

/-- Work that is not begun. -/
def Fresh (r : List (Work κ)) : Prop := ∀ w ∈ r, (∃ f, w = .store f) ∨ ∃ m f, w = .init m f

def wl (j : Nat) : List (Work κ) → List (Mem κ → Mem κ)
  | [] => []
  | w :: r => rem j w ++ r.flatMap (rem 0)

theorem wl_fresh (j : Nat) (r : List (Work κ)) (h : Fresh r) : wl j r = r.flatMap (rem 0) := by
  cases r with
  | nil => rfl
  | cons w r => rcases h w (by simp) with ⟨f, rfl⟩ | ⟨m, f, rfl⟩ <;> simp [wl, rem]

theorem step_other (i x : Nat) (s : State κ) (h : x ≠ i) : (cStep i s).todo x = s.todo x := by
  unfold cStep
  split <;> try rfl
  · simp [h]
  · simp [h]
  · split <;> simp [h]
  · simp [h]

theorem step_nil (i : Nat) (s : State κ) (h : s.todo i = []) : cStep i s = s := by
  simp [cStep, h]

theorem step_same (i : Nat) (s : State κ) (h : Fresh (s.todo i).tail) :
    runAll (wl (cStep i s).j ((cStep i s).todo i)) (cStep i s).mem = runAll (wl s.j (s.todo i)) s.mem ∧
    Fresh ((cStep i s).todo i).tail := by
  have ht : ∀ r : List (Work κ), Fresh r → Fresh r.tail := fun r hr w hw => hr w (List.mem_of_mem_tail hw)
  unfold cStep
  split
  · rename_i h0; rw [h0]; exact ⟨rfl, by simp [Fresh]⟩
  · rename_i f r h0
    rw [h0] at h ⊢
    simp only [List.tail_cons] at h
    simp only [if_true]
    refine ⟨?_, ht r h⟩
    rw [wl_fresh _ _ h, wl, runAll_append]
    rfl
  · rename_i m f r h0
    rw [h0] at h ⊢
    simp only [List.tail_cons] at h
    simp only [if_true]
    refine ⟨?_, h⟩
    simp [wl, rem, List.range_eq_range']
  · rename_i m f r h0
    rw [h0] at h ⊢
    simp only [List.tail_cons] at h
    split
    · rename_i hj
      simp only [if_true]
      refine ⟨?_, h⟩
      have e : m - s.j = (m - (s.j + 1)) + 1 := by omega
      simp only [wl, rem]
      rw [e, List.range'_succ]
      simp [runAll]
    · rename_i hj
      simp only [if_true]
      refine ⟨?_, ht r h⟩
      rw [wl_fresh _ _ h, wl, rem, show m - s.j = 0 by omega]
      simp
  · rename_i m f r h0
    rw [h0] at h ⊢
    simp only [List.tail_cons] at h
    simp only [if_true]
    exact ⟨rfl, h⟩

/-- The turns from `lo`, as many as `d`. -/
def seqFrom (todo : Nat → List (Work κ)) (lo d : Nat) (m : Mem κ) : Mem κ :=
  (List.range' lo d).foldl (fun m i => runAll ((todo i).flatMap (rem 0)) m) m

theorem run_other (sched : List Nat) (x : Nat) (s : State κ) (h : ∀ i ∈ sched, x < i) :
    (sched.foldl (fun s i => cStep i s) s).todo x = s.todo x := by
  induction sched generalizing s with
  | nil => rfl
  | cons i r ih =>
    rw [List.foldl_cons, ih _ fun j hj => h j (by simp [hj])]
    exact step_other i x s (by have := h i (by simp); omega)

theorem seqFrom_congr (t t' : Nat → List (Work κ)) (lo d : Nat) (m : Mem κ)
    (h : ∀ x, lo ≤ x → t x = t' x) : seqFrom t lo d m = seqFrom t' lo d m := by
  induction d generalizing lo m with
  | zero => rfl
  | succ d ih =>
    have := ih (lo + 1) (runAll ((t' lo).flatMap (rem 0)) m) (fun x hx => h x (by omega))
    simp only [seqFrom] at this
    simp only [seqFrom, List.range'_succ, List.foldl_cons, h lo (Nat.le_refl _), this]

theorem sequential (d : Nat) : ∀ (sched : List Nat) (s : State κ) (lo : Nat), sched.Pairwise (· ≤ ·) →
    (∀ i ∈ sched, lo ≤ i) → Fresh (s.todo lo).tail → (∀ x, lo < x → Fresh (s.todo x)) →
    (∀ x, lo + d < x → s.todo x = []) → (∀ i, (sched.foldl (fun s i => cStep i s) s).todo i = []) →
    (sched.foldl (fun s i => cStep i s) s).mem =
      seqFrom s.todo (lo + 1) d (runAll (wl s.j (s.todo lo)) s.mem) := by
  induction d with
  | zero =>
    intro sched
    induction sched with
    | nil =>
      intro s lo _ _ _ _ _ hd
      have := hd lo
      simp only [List.foldl_nil] at this
      simp [seqFrom, this, wl, runAll]
    | cons i r ihs =>
      intro s lo hp hlo h1 h2 h3 hd
      by_cases hi : i = lo
      · subst hi
        obtain ⟨g1, g2⟩ := step_same i s h1
        rw [List.foldl_cons, ihs (cStep i s) i (List.pairwise_cons.1 hp).2 (fun j hj => hlo j (by simp [hj])) g2
          (fun x hx => by rw [step_other i x s (by omega)]; exact h2 x hx)
          (fun x hx => by rw [step_other i x s (by omega)]; exact h3 x hx) hd, g1]
        rfl
      · have hli := hlo i (by simp)
        have hn : s.todo i = [] := h3 i (by omega)
        rw [List.foldl_cons, step_nil i s hn] at hd ⊢
        exact ihs s lo (List.pairwise_cons.1 hp).2 (fun j hj => hlo j (by simp [hj])) h1 h2 h3 hd
  | succ d ihd =>
    intro sched
    induction sched with
    | nil =>
      intro s lo _ _ _ h2 _ hd
      simp only [List.foldl_nil] at hd
      have : ∀ m, seqFrom s.todo (lo + 1) (d + 1) m = m := by
        intro m
        rw [seqFrom_congr s.todo (fun _ => []) _ _ _ (fun x _ => hd x)]
        clear h2 hd ihd
        generalize d + 1 = e
        generalize lo + 1 = q
        induction e generalizing q with
        | zero => rfl
        | succ e ih =>
          have := ih (q + 1)
          simp only [seqFrom] at this
          simp [seqFrom, List.range'_succ, runAll]
          simpa [runAll] using this
      rw [List.foldl_nil, this, hd lo]
      rfl
    | cons i r ihs =>
      intro s lo hp hlo h1 h2 h3 hd
      by_cases hi : i = lo
      · subst hi
        obtain ⟨g1, g2⟩ := step_same i s h1
        rw [List.foldl_cons, ihs (cStep i s) i (List.pairwise_cons.1 hp).2 (fun j hj => hlo j (by simp [hj])) g2
          (fun x hx => by rw [step_other i x s (by omega)]; exact h2 x hx)
          (fun x hx => by rw [step_other i x s (by omega)]; exact h3 x hx) hd, g1]
        exact seqFrom_congr _ _ _ _ _ fun x hx => step_other i x s (by omega)
      · have hli := hlo i (by simp)
        have hall : ∀ j ∈ i :: r, lo < j := by
          intro j hj
          rcases List.mem_cons.1 hj with rfl | hj
          · omega
          · have := (List.pairwise_cons.1 hp).1 j hj
            omega
        have hdone : s.todo lo = [] := by rw [← run_other (i :: r) lo s hall]; exact hd lo
        have hf := h2 (lo + 1) (by omega)
        rw [ihd (i :: r) s (lo + 1) hp (fun j hj => hall j hj)
          (fun w hw => hf w (List.mem_of_mem_tail hw)) (fun x hx => h2 x (by omega))
          (fun x hx => h3 x (by omega)) hd]
        rw [hdone, wl_fresh _ _ hf]
        simp [seqFrom, List.range'_succ, wl, runAll]

theorem python_foldl (body : Nat → List (Stmt κ)) (n : Nat) (m : Mem κ) :
    python body n m = (List.range n).foldl (fun m i => runAll (stores (body i)) m) m := by
  induction n with
  | zero => rfl
  | succ n ih => rw [List.range_succ, List.foldl_append, ← ih]; rfl

theorem rem_stores (b : List (Stmt κ)) : (b.map cWork).flatMap (rem 0) = stores b := by
  induction b with
  | nil => rfl
  | cons s b ih =>
    simp only [stores] at ih
    cases s <;> simp [stores, Stmt.stores, cWork, rem, ih]

theorem fresh_map (b : List (Stmt κ)) : Fresh (b.map cWork) := by
  intro w hw
  obtain ⟨s, _, rfl⟩ := List.mem_map.1 hw
  cases s with
  | store f => exact .inl ⟨f, rfl⟩
  | vec m f => exact .inr ⟨m, f, rfl⟩

theorem cRun_sequential (body : Nat → List (Stmt κ)) (n : Nat) (m : Mem κ) (sched : List Nat)
    (hs : sched.Pairwise (· ≤ ·)) (hd : ∀ i, (cRun body n m sched).todo i = []) :
    (cRun body n m sched).mem = python body n m := by
  have hfr : ∀ x, Fresh (if x < n then (body x).map cWork else []) := by
    intro x
    split
    · exact fresh_map _
    · simp [Fresh]
  have h := sequential (n - 1) sched ⟨m, 0, fun i => if i < n then (body i).map cWork else []⟩ 0 hs
    (fun i _ => Nat.zero_le i) (fun w hw => hfr 0 w (List.mem_of_mem_tail hw)) (fun x _ => hfr x)
    (fun x hx => by simp only; rw [if_neg (by omega)]) hd
  rw [show (cRun body n m sched).mem = _ from h, python_foldl]
  simp only
  rw [wl_fresh _ _ (hfr 0)]
  cases n with
  | zero => simp [seqFrom, runAll]
  | succ n =>
    rw [List.range_eq_range', List.range'_succ, List.foldl_cons, seqFrom]
    simp only [Nat.zero_lt_succ, if_true, rem_stores, Nat.add_sub_cancel, Nat.zero_add]
    have : ∀ (q e : Nat) (m : Mem κ), q + e ≤ n + 1 →
        (List.range' q e).foldl (fun m i => runAll (((if i < n + 1 then (body i).map cWork else [])).flatMap (rem 0)) m) m =
        (List.range' q e).foldl (fun m i => runAll (stores (body i)) m) m := by
      intro q e
      induction e generalizing q with
      | zero => intro m _; rfl
      | succ e ih =>
        intro m hq
        rw [List.range'_succ, List.foldl_cons, List.foldl_cons, if_pos (by omega), rem_stores]
        exact ih (q + 1) _ (by omega)
    exact this 1 n _ (by omega)

end Verif.Omp
