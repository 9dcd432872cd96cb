import Verif.Display.Lemmas

/-!
# `x = np.array(…)` in C (C192)
-/

namespace Verif.Display.Props
open Verif.Display.Spec Verif.Display.Model Verif.Display.Lemmas

theorem replicate_append_inj (pad : Nat) (i j : Ix)
    (h : List.replicate pad 0 ++ i = List.replicate pad 0 ++ j) : i = j := List.append_cancel_left h

theorem zip_left {β γ : Type} : ∀ (a a' : List β) (b : List γ), b.length ≤ a.length →
    (a ++ a').zip b = a.zip b
  | _, _, [], _ => by simp
  | [], _, _ :: _, h => by simp at h
  | x :: a, a', y :: b, h => by
    simp only [List.cons_append, List.zip_cons_cons]
    rw [zip_left a a' b (by simpa using h)]

/-- C192 (part): `x = np.array(d)` is translated, and the generated statements leave the elements in `x`
that Python puts there, and leave everything else alone, for lists of any depth of numbers and arrays, if
no element is computed from an element of `x` that was written before it.  Missing:
`C192_swap_violated`, `C192_rows_violated`, `C192_ndmin_violated`, `C192_display_violated`. -/
theorem C192_partial (x : Name) (d : Data) (s : List Nat) (h : Regular d s)
    (ha : ∀ p q : Ix, Inside s p → Inside s q → Before q p → (x, q) ∉ (d.elem p).reads) (m : Mem) :
    ∃ m', assign x 0 d m = some m' ∧ Python x s 0 d m m' := by
  have hc := copy_regular d s [] h
  have hr := run_sorted x d.elem id (fun i j e => e) (allIx s) (sorted_allIx s) m
    (fun p hp q hq hb => ha p q ((mem_allIx s p).mp hp) ((mem_allIx s q).mp hq) hb)
  refine ⟨run x (writes s [] d) m, by
    simp only [assign, arrayShape, List.replicate_zero, List.nil_append, shape_regular d s h, hc,
      Option.map_some], ?_, ?_⟩
  · intro i hi
    exact hr.1 i ((mem_allIx s i).mpr hi)
  · intro y i hy
    refine hr.2 y i fun e p hp => ?_
    rintro rfl
    exact hy e (by simpa using (mem_allIx s _).mp hp)

/-- `x = np.array([[x[0, 0] + 1, 2], [y[0], x[1, 1]]])`. -/
def table : Data :=
  .list [.list [.num (.add (.at 0 [0, 0]) (.lit 1)), .num (.lit 2)],
    .list [.num (.at 1 [0]), .num (.at 0 [1, 1])]]

theorem table_regular : Regular table [2, 2] := by
  simp [table, Regular, Regulars]

example (m : Mem) : ∃ m', assign 0 0 table m = some m' ∧ Python 0 [2, 2] 0 table m m' := by
  refine C192_partial 0 table [2, 2] table_regular ?_ m
  intro p q hp hq hb
  match p, hp with
  | [i, j], hp =>
    simp only [Inside, and_true] at hp
    obtain ⟨hi, hj⟩ := hp
    have hi' : i = 0 ∨ i = 1 := by omega
    have hj' : j = 0 ∨ j = 1 := by omega
    rcases hi' with rfl | rfl <;> rcases hj' with rfl | rfl <;>
      simp [table, Data.elem, Data.elems, Elem.reads]
    · rintro rfl; simp [Before] at hb
    · rintro rfl; simp [Before] at hb

/-- C192: a new variable, or one that is not read. -/
theorem C192_new_partial (x : Name) (d : Data) (s : List Nat) (h : Regular d s)
    (hx : ∀ p q : Ix, Inside s p → (x, q) ∉ (d.elem p).reads) (m : Mem) :
    ∃ m', assign x 0 d m = some m' ∧ Python x s 0 d m m' :=
  C192_partial x d s h (fun p q hp _ _ => hx p q hp) m

/-- `z = np.array([x, y[::-1]])`. -/
example (m : Mem) : ∃ m', assign 2 0 (.list [.view (.whole 0 [3]), .view ⟨1, [3], fun i => [2 - i.headD 0]⟩]) m =
    some m' ∧ m' 2 [1, 0] = m 1 [2] ∧ m' 2 [0, 1] = m 0 [1] := by
  obtain ⟨m', h1, h2, -⟩ := C192_new_partial 2
    (.list [.view (.whole 0 [3]), .view ⟨1, [3], fun i => [2 - i.headD 0]⟩]) [2, 3]
    (by simp [Regular, Regulars, View.whole]) (by
      intro p q hp
      match p, hp with
      | [i, j], hp =>
        have hi : i = 0 ∨ i = 1 := by have := hp.1; omega
        rcases hi with rfl | rfl <;> simp [Data.elem, Data.elems, Elem.reads, View.whole]) m
  refine ⟨m', h1, ?_, ?_⟩
  · simpa [Data.get, Data.elem, Data.elems, Elem.val] using h2 [1, 0] (by simp [Inside])
  · simpa [Data.get, Data.elem, Data.elems, Elem.val, View.whole] using h2 [0, 1] (by simp [Inside])

/-- C192 (`ndmin`, part): `x = np.array(y, ndmin=…)` of an array or slice of another variable.  Missing:
`C192_ndmin_violated`, `C192_display_violated`. -/
theorem C192_ndmin_partial (x : Name) (v : View) (pad : Nat) (hs : v.shape ≠ []) (hx : v.base ≠ x)
    (m : Mem) : ∃ m', assign x pad (.view v) m = some m' ∧ Python x v.shape pad (.view v) m m' := by
  have hne : List.replicate pad 1 ++ v.shape ≠ [] := by simp [hs]
  have hcopy : copy (List.replicate pad 1 ++ v.shape) [] (.view v) =
      some ((allIx v.shape).map fun p =>
        (⟨List.replicate pad 0 ++ p, (Data.view v).elem p⟩ : Write)) := by
    rw [copy, if_neg hne, allIx_pad, List.zip_map_left, zip_self, List.map_map, List.map_map]
    rfl
  have hr := run_sorted x (Data.view v).elem (List.replicate pad 0 ++ ·)
    (replicate_append_inj pad) (allIx v.shape) (sorted_allIx v.shape) m
    (fun p _ q _ _ hm => by
      simp only [Data.elem, Elem.reads, List.mem_singleton, Prod.mk.injEq] at hm
      exact hx hm.1.symm)
  refine ⟨run x ((allIx v.shape).map fun p =>
      (⟨List.replicate pad 0 ++ p, (Data.view v).elem p⟩ : Write)) m, by
    simp only [assign, arrayShape, shapeOf, hcopy, Option.map_some], ?_, ?_⟩
  · intro i hi
    exact hr.1 i ((mem_allIx _ i).mpr hi)
  · intro y i hy
    refine hr.2 y i fun e p hp => ?_
    rintro rfl
    exact hy e ((inside_pad _ _ _).mpr ⟨p, (mem_allIx _ _).mp hp, rfl⟩)

example (m : Mem) : ∃ m', assign 1 2 (.view (.whole 0 [3])) m = some m' ∧ m' 1 [0, 0, 2] = m 0 [2] := by
  obtain ⟨m', h1, h2, -⟩ := C192_ndmin_partial 1 (.whole 0 [3]) 2 (by simp [View.whole])
    (by simp [View.whole]) m
  refine ⟨m', h1, ?_⟩
  have := h2 [2] (by simp [Inside, View.whole])
  simpa [Data.get, Data.elem, Elem.val, View.whole, List.replicate] using this

/-- C192 fails: after `x = np.array([x[1], x[0]])`, for an array `x` of two elements, both elements are the
old `x[1]` in C. -/
theorem C192_swap_violated (x : Name) (m : Mem) :
    ∃ m', assign x 0 (.list [.num (.at x [1]), .num (.at x [0])]) m = some m' ∧
      m' x [0] = m x [1] ∧ m' x [1] = m x [1] ∧
      (Data.list [.num (.at x [1]), .num (.at x [0])]).get m [1] = m x [0] := by
  refine ⟨_, rfl, ?_, ?_, rfl⟩ <;> simp [run, Elem.val]

/-- The rows of a matrix in the opposite order. -/
def rows (x : Name) (n : Nat) : Data := .list [.view (.row x [n] 1), .view (.row x [n] 0)]

/-- C192 fails: after `x = np.array([x[1], x[0]])`, for a matrix `x` with two rows, both rows are the old
second row in C, where Python swaps them. -/
theorem C192_rows_violated (x : Name) (n : Nat) (m : Mem) :
    ∃ m', assign x 0 (rows x n) m = some m' ∧
      ∀ j, j < n → m' x [0, j] = m x [1, j] ∧ m' x [1, j] = m x [1, j] ∧
        (rows x n).get m [1, j] = m x [0, j] := by
  have hc := copy_regular (rows x n) [2, n] []
    (by simp [rows, Regular, Regulars, View.row])
  have hw : writes [2, n] [] (rows x n) =
      ((allIx [n]).map fun p => (⟨0 :: p, .at x (1 :: p)⟩ : Write)) ++
      ((allIx [n]).map fun p => (⟨1 :: p, .at x (0 :: p)⟩ : Write)) := by
    simp only [rows]
    rw [show [2, n] = [Data.view (View.row x [n] 1), .view (.row x [n] 0)].length :: [n] from rfl,
      writes_list]
    simp [writesL, writes, Data.elem, View.row]
  refine ⟨run x (writes [2, n] [] (rows x n)) m, by
    rw [assign, arrayShape, shape_regular (rows x n) [2, n]
      (by simp [rows, Regular, Regulars, View.row])]
    simp only [List.replicate_zero, List.nil_append, hc, Option.map_some], ?_⟩
  rw [hw, run_append]
  intro j hj
  have hin : [j] ∈ allIx [n] := (mem_allIx [n] [j]).mpr (by simp [Inside, hj])
  have h0 := run_sorted x (fun p => .at x (1 :: p)) (0 :: ·) (fun i j e => by simpa using e)
    (allIx [n]) (sorted_allIx [n]) m (by intro p _ q _ _; simp [Elem.reads])
  have h1 := run_sorted x (fun p => .at x (0 :: p)) (1 :: ·) (fun i j e => by simpa using e)
    (allIx [n]) (sorted_allIx [n])
    (run x ((allIx [n]).map fun p => (⟨0 :: p, .at x (1 :: p)⟩ : Write)) m)
    (by intro p _ q _ _; simp [Elem.reads])
  refine ⟨?_, ?_, rfl⟩
  · rw [h1.2 x [0, j] (by intro _ p _; simp), h0.1 [j] hin]
    rfl
  · rw [h1.1 [j] hin]
    simp only [Elem.val]
    rw [h0.1 [j] hin]
    rfl

/-- C192 fails: after `z = np.array([x, y], ndmin=3)`, for arrays `x` and `y` of `n` elements, the elements
of `y` are missing in C: `z[0, 1, j]` is not written. -/
theorem C192_ndmin_violated (x y z : Name) (n : Nat) (m : Mem) :
    ∃ m', assign z 1 (.list [.view (.whole x [n]), .view (.whole y [n])]) m = some m' ∧
      (∀ j, m' z [0, 1, j] = m z [0, 1, j]) ∧
      (∀ j, j < n → (Data.list [.view (.whole x [n]), .view (.whole y [n])]).get m [1, j] = m y [j]) := by
  refine ⟨_, rfl, ?_, fun _ _ => rfl⟩
  intro j
  have key : ∀ (l : List (Ix × Ix)) (m : Mem), (∀ p ∈ l, p.1.headD 0 = 0) →
      run z (l.map fun p => (⟨0 :: p.1, .at x p.2⟩ : Write)) m z [0, 1, j] = m z [0, 1, j] := by
    intro l
    induction l with
    | nil => intros; rfl
    | cons p l ih =>
      intro m hl
      simp only [List.map_cons, run]
      rw [ih _ fun q hq => hl q (List.mem_cons_of_mem _ hq)]
      have : ¬ ([0, 1, j] = 0 :: p.1) := by
        intro e
        injection e with _ e
        have := hl p (by simp)
        rw [← e] at this
        simp at this
      simp only [true_and, if_neg this]
  have hz : ∀ p ∈ (allIx [2, n]).zip (allIx [n]), p.1.headD 0 = 0 := by
    have e : allIx [2, n] = (allIx [n]).map (0 :: ·) ++ (allIx [n]).map (1 :: ·) := by
      rw [show allIx [2, n] = (List.range 2).flatMap fun k => (allIx [n]).map (k :: ·) from rfl]
      simp [List.range_succ]
    rw [e]
    intro p hp
    rw [zip_left _ _ _ (by simp)] at hp
    obtain ⟨q, _, hq⟩ := List.mem_map.mp (List.of_mem_zip hp).1
    rw [← hq]; rfl
  have := key _ m hz
  simp only [List.append_nil]
  exact this

/-- C192 fails: `np.array([…], ndmin=…)` of lists of numbers, with more dimensions than the lists have, is
not translated to C: an assertion fails, or the code does not compile. -/
theorem C192_display_violated (x : Name) (d : Data) (s : List Nat) (pad : Nat)
    (h : Regular d s) (hn : Numbers d) (hp : 0 < pad) (m : Mem) : assign x pad d m = none := by
  rw [assign, arrayShape, shape_regular d s h, copy_deep d s _ [] h hn (by simp; omega)]
  · rfl
  · intro n hm
    rcases List.mem_append.mp hm with hm | hm
    · rw [List.mem_replicate] at hm; omega
    · exact shape_pos d s h hn n hm

example (m : Mem) : assign 0 1 (.list [.num (.lit 1), .num (.lit 2)]) m = none :=
  C192_display_violated 0 _ [2] 1 (by simp [Regular, Regulars])
    (by simp [Numbers, NumbersL]) (by decide) m

example (m : Mem) : assign 0 1 table m = none :=
  C192_display_violated 0 _ [2, 2] 1 table_regular (by simp [table, Numbers, NumbersL]) (by decide) m

end Verif.Display.Props
