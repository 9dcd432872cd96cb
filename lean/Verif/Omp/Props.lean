import Verif.Omp.Lemmas2

/-!
# OpenMP: the properties
-/

namespace Verif.Omp
open Spec Model

/-! ## C155: parallel loops -/

/-- C155, Fortran: a loop whose turns are independent gives Python's result, for every schedule. -/
theorem C155_fortran_partial {κ : Type} (own : κ → Option Nat) (body : Nat → List (Stmt κ))
    (h : Independent own body) (n : Nat) (m : Mem κ) (sched : List Nat)
    (hd : ∀ i, (fRun body n m sched).todo i = []) : (fRun body n m sched).mem = python body n m :=
  fRun_eq own body h n m sched hd

/-- C155, C: the same for bodies without vector statements. -/
theorem C155_c_partial {κ : Type} (own : κ → Option Nat) (body : Nat → List (Stmt κ))
    (h : Independent own body) (hp : ∀ i, ∀ s ∈ body i, ∃ f, s = .store f) (n : Nat) (m : Mem κ)
    (sched : List Nat) (hd : ∀ i, (cRun body n m sched).todo i = []) :
    (cRun body n m sched).mem = python body n m := by
  have hr := cRun_rel body hp n m sched
  rw [hr.1]
  refine fRun_eq own body h n m sched fun i => ?_
  have := hr.2 i
  rw [hd i] at this
  simpa using this.symm

/-- C155, C, if the turns are executed one after the other (with one thread, say): Python's result, also
with vector statements. -/
theorem C155_sequential_partial {κ : Type} (body : Nat → List (Stmt κ)) (n : Nat) (m : Mem κ)
    (sched : List Nat) (hs : sched.Pairwise (· ≤ ·)) (hd : ∀ i, (cRun body n m sched).todo i = []) :
    (cRun body n m sched).mem = python body n m := cRun_sequential body n m sched hs hd

/-- `a[i] = b[i] + 1`, where the cells `2 i` are those of `a` and the cells `2 i + 1` those of `b`. -/
def addOne (i : Nat) : List (Stmt Nat) :=
  [.store fun m k => if k = 2 * i then m (2 * i + 1) + 1 else m k]

/-- Hypotheses of C155: the turns of this loop are independent, and a schedule that is not sequential is
complete. -/
example : Independent (fun k => if k % 2 = 0 then some (k / 2) else none) addOne ∧
    (∀ i, ∀ s ∈ addOne i, ∃ f, s = .store f) ∧
    ∀ m, ∀ i, (cRun addOne 3 m [2, 0, 1]).todo i = [] := by
  refine ⟨?_, ?_, ?_⟩
  · intro i f hf
    simp only [stores, addOne, Stmt.stores, List.flatMap_cons, List.flatMap_nil, List.append_nil,
      List.mem_singleton] at hf
    subst hf
    constructor
    · intro m k hk
      simp only
      rw [if_neg]
      rintro rfl
      apply hk
      simp
    · intro m m' hm k hk
      simp only
      split
      · rw [hm (2 * i + 1) (.inr (if_neg (by omega)))]
      · exact hm k (.inl hk)
  · intro i s hs
    simp only [addOne, List.mem_singleton] at hs
    exact ⟨_, hs⟩
  · intro m i
    match i with
    | 0 => rfl
    | 1 => rfl
    | 2 => rfl
    | i + 3 => simp [cRun, cStep, addOne, cWork]

/-- `a[i, :] = 1`, with two columns. -/
def fillRow (i : Nat) : List (Stmt (Nat × Nat)) := [.vec 2 fun j m k => if k = (i, j) then 1 else m k]

/-- Hypotheses of C155_sequential_partial: two turns of this loop, one after the other. -/
example : [0, 0, 0, 0, 0, 0, 1, 1, 1, 1, 1, 1].Pairwise (· ≤ ·) ∧
    ∀ m, ∀ i, (cRun fillRow 2 m [0, 0, 0, 0, 0, 0, 1, 1, 1, 1, 1, 1]).todo i = [] := by
  refine ⟨by decide, fun m i => ?_⟩
  match i with
  | 0 => rfl
  | 1 => rfl
  | i + 2 => simp [cRun, cStep, fillRow, cWork]

/-- C155 fails: in C, with the vector statement `a[i, :] = 1`, there is a schedule in which an element of
the array is not written, although the turns are independent: the threads share the variable of the
inner loop. -/
theorem C155_violated :
    Independent (fun k => some k.1) fillRow ∧
    (∀ i, (cRun fillRow 2 (fun _ => 0) [0, 0, 1, 1, 0, 0, 1, 1, 0, 0]).todo i = []) ∧
    (cRun fillRow 2 (fun _ => 0) [0, 0, 1, 1, 0, 0, 1, 1, 0, 0]).mem (1, 1) = 0 ∧
    python fillRow 2 (fun _ => 0) (1, 1) = 1 := by
  refine ⟨?_, ?_, by decide, by decide⟩
  · intro i f hf
    simp only [stores, fillRow, Stmt.stores, List.flatMap_cons, List.flatMap_nil, List.append_nil,
      List.mem_map] at hf
    obtain ⟨j, _, rfl⟩ := hf
    constructor
    · intro m k hk
      simp only
      rw [if_neg]
      rintro rfl
      exact hk rfl
    · intro m m' hm k hk
      simp only
      split
      · rfl
      · exact hm k (.inl hk)
  · intro i
    match i with
    | 0 => rfl
    | 1 => rfl
    | i + 2 => simp [cRun, cStep, fillRow, cWork]

/-! ## C156: barriers -/

/-- C156, C: a barrier is at the end of a construct if and only if `nowait` is not given. -/
theorem C156_c (rs : List Region) : cBarriers rs = barriers rs := cBarriers_eq rs

/-- C156, Fortran: the barriers are where they have to be if and only if in the block every construct
that follows one with `nowait`, and is of the same kind, has `nowait` too. -/
theorem C156_fortran_iff (rs : List Region) : fBarriers rs = barriers rs ↔
    rs.Pairwise (fun p q => p.1 = q.1 → p.2 = true → q.2 = true) := by
  rw [fBarriers_eq, bars_iff]
  simp

/-- C156, Fortran, blocks without `nowait`. -/
theorem C156_fortran_partial (rs : List Region) (h : ∀ r ∈ rs, r.2 = false) :
    fBarriers rs = barriers rs := by
  rw [C156_fortran_iff, List.pairwise_iff_forall_sublist]
  intro p q hs _ hp
  have := h p (hs.subset (by simp))
  simp [this] at hp

/-- Hypotheses of C156_fortran_partial. -/
example : ∀ r ∈ [(Kind.single, false), (.sections, false), (.single, false)], r.2 = false := by decide

/-- C156 fails: after `single nowait`, the barrier of the next `single` is missing in Fortran. -/
theorem C156_violated :
    fBarriers [(.single, true), (.single, false)] = [false, false] ∧
    barriers [(.single, true), (.single, false)] = [false, true] := by decide

/-! ## C157: blocks -/

/-- C157, C: the annotations, loops and blocks are where they have to be, for all annotated programs
without `masked taskloop` and without critical sections whose names contain a word for a loop. -/
theorem C157_blocks_partial (l : List Item)
    (h : wellFormedAll (fun c => ¬ (c.1 = .masked ∧ .taskloop ∈ c.2))
      (fun name => ∀ w ∈ loopWords, ¬ w <:+: name) l) : printAll l = rightAll l :=
  printAll_right l h

/-- Hypotheses of C157_blocks_partial: a `parallel` region with a loop and a `single` construct, and a
critical section with a name. -/
example : wellFormedAll (fun c => ¬ (c.1 = .masked ∧ .taskloop ∈ c.2))
    (fun name => ∀ w ∈ loopWords, ¬ w <:+: name)
    [.region (.parallel, []) [.loop (.for, [.simd]) 1, .region (.single, []) [.stmt 2],
      .critical ['s', 'u', 'm'] [.stmt 4]],
     .loop (.parallel, [.for]) 3] := by
  simp only [wellFormedAll, wellFormed]
  decide

/-- C157, one construct with a loop: the condition is necessary. -/
theorem C157_loop_iff (c : Word × List Word) (h : c ∈ constructs) (hl : isLoop c = true) (n : Nat) :
    print (.loop c n) = right (.loop c n) ↔ ¬ (c.1 = .masked ∧ .taskloop ∈ c.2) := by
  constructor
  · intro e hm
    have key : ∀ c ∈ constructs, c.1 = .masked ∧ Word.taskloop ∈ c.2 → opensBrace c = true := by decide
    simp [print, right, key c h hm] at e
  · intro hm
    exact print_right (.loop c n) ⟨h, hl, hm⟩

/-- C157, critical sections: the condition on the name is necessary. -/
theorem C157_critical_iff (name : List Char) : print (.critical name []) = right (.critical name []) ↔
    ∀ w ∈ loopWords, ¬ w <:+: name := by
  rw [← closesCritical_iff]
  cases h : closesCritical name <;> simp [print, right, h, printAll, rightAll]

/-- Hypotheses of C157_loop_iff. -/
example : (Word.parallel, [Word.for]) ∈ constructs ∧ isLoop (.parallel, [.for]) = true := by decide

/-- C157 fails: `masked taskloop` opens a block that is never closed. -/
theorem C157_violated :
    wellFormedAll (fun _ => True) (fun _ => True) [.loop (.masked, [.taskloop]) 1] ∧
    printAll [.loop (.masked, [.taskloop]) 1] = [.pragma (.masked, [.taskloop]), .open, .stmt 1] ∧
    rightAll [.loop (.masked, [.taskloop]) 1] = [.pragma (.masked, [.taskloop]), .stmt 1] := by
  refine ⟨?_, rfl, rfl⟩
  simp only [wellFormedAll, wellFormed]
  decide

/-- C157 fails: the end of `critical (before)` is dropped, because `before` contains `for`: the block is
not closed. -/
theorem C157_violated_critical :
    print (.critical ['b', 'e', 'f', 'o', 'r', 'e'] [.stmt 1]) =
      [.critical ['b', 'e', 'f', 'o', 'r', 'e'], .open, .stmt 1] ∧
    right (.critical ['b', 'e', 'f', 'o', 'r', 'e'] [.stmt 1]) =
      [.critical ['b', 'e', 'f', 'o', 'r', 'e'], .open, .stmt 1, .close] := ⟨rfl, rfl⟩

end Verif.Omp
