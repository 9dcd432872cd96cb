import Verif.Layout.LemmasRed
import Verif.Layout.LemmasSim
import Verif.Layout.LemmasInfer

/-!
# Multi-dimensional arrays
-/

namespace Verif.Layout
open Spec Model

/-! ## C99 histories -/

/-- Arrays are created in either order, named twice, transposed and sliced, elements are assigned
through any of the names, and elements and lengths are printed: in any program of such statements that
Python runs without an exception and that type-checks, the Fortran program is conforming and prints the
same.  Not covered: negative indices (C13), slices out of range (C14 to C16), arrays as values (C101 to
C104). -/
theorem C99_fortran_partial {Γ : Var → Ty} (hΓ : Proper Γ) {ops : List Op} {s : State}
    (ht : ∀ op ∈ ops, typed Γ op = true) (hs : run {} ops = some s) :
    ∃ f, fRun {} (compileF Γ ops) = some f ∧ f.mem.out = s.mem.out := by
  obtain ⟨f, hf, hr⟩ := runF hΓ ht hs (f := {}) ⟨rfl, by intro x w h; simp at h⟩
  exact ⟨f, hf, by rw [hr.mem]⟩

/-- The same in C. -/
theorem C99_c_partial {Γ : Var → Ty} {ops : List Op} {s : State}
    (ht : ∀ op ∈ ops, typed Γ op = true) (hs : run {} ops = some s) :
    ∃ f, cRun {} (compileC Γ ops) = some f ∧ f.mem.out = s.mem.out := by
  obtain ⟨f, hf, hr⟩ := runC ht hs (f := {}) ⟨rfl, by intro x w h; simp at h⟩
  exact ⟨f, hf, by rw [hr.mem]⟩

/-- `x = np.full((2, 3), 0); y = x.T; z = y[1:3, 1]; z[1] = 7; print(x[1, 2], y.shape[0])` -/
def ops1 : List Op :=
  [.full 0 [2, 3] .C 0, .trans 1 0, .sub 2 1 [.sl 1 3 1, .at 1], .set 2 [1] 7, .get 0 [1, 2], .shape 1 0]

def Γ1 : Var → Ty
  | 0 => ⟨2, some .C⟩
  | 1 => ⟨2, some .F⟩
  | _ => ⟨1, none⟩

theorem proper1 : Proper Γ1 := by
  intro x
  match x with
  | 0 => simp [Γ1]
  | 1 => simp [Γ1]
  | n + 2 => simp [Γ1]

example : (∀ op ∈ ops1, typed Γ1 op = true) ∧ (run {} ops1).map (·.mem.out) = some [7, 3] := by
  constructor
  · decide
  · rfl

example : (fRun {} (compileF Γ1 ops1)).map (·.mem.out) = some [7, 3]
    ∧ (cRun {} (compileC Γ1 ops1)).map (·.mem.out) = some [7, 3] := ⟨rfl, rfl⟩

/-- With the types that pyccel infers: every accepted program in which no name is given an array twice
prints the same in Python, Fortran and C.  Nothing is assumed about types. -/
theorem C99_once_partial {ops : List Op} {g : Known} {s : State}
    (ha : inferAll (fun _ => none) ops = some g) (h1 : (ops.filterMap defines).Nodup)
    (hs : run {} ops = some s) :
    (∃ f, fRun {} (compileF (types g) ops) = some f ∧ f.mem.out = s.mem.out) ∧
      ∃ f, cRun {} (compileC (types g) ops) = some f ∧ f.mem.out = s.mem.out := by
  have ht := typed_once ops _ g ha h1 (fun _ _ => rfl)
  have hp := types_proper (inferAll_proper ops _ g (by intro x p h; simp at h) ha)
  exact ⟨C99_fortran_partial hp ht hs, C99_c_partial ht hs⟩

example : (inferAll (fun _ => none) ops1).isSome = true ∧ (ops1.filterMap defines).Nodup := by
  decide

/-- With the types that pyccel infers: the same for programs with arrays of one dimension, in which names
are given new views as often as one likes. -/
theorem C99_vectors_partial {ops : List Op} {g : Known} {s : State}
    (ha : inferAll (fun _ => none) ops = some g)
    (h1 : ∀ x sh o v, Op.full x sh o v ∈ ops → sh.length = 1) (hs : run {} ops = some s) :
    (∃ f, fRun {} (compileF (types g) ops) = some f ∧ f.mem.out = s.mem.out) ∧
      ∃ f, cRun {} (compileC (types g) ops) = some f ∧ f.mem.out = s.mem.out := by
  have ht := (typed_flat ops _ g ha (by intro x p h; simp at h) h1).2
  have hp := types_proper (inferAll_proper ops _ g (by intro x p h; simp at h) ha)
  exact ⟨C99_fortran_partial hp ht hs, C99_c_partial ht hs⟩

/-- `a = np.full(4, 1); y = a[1:3]; y = a; y[3] = 2; print(a[3])` -/
example : (inferAll (fun _ => none) [.full 0 [4] .C 1, .sub 1 0 [.sl 1 3 1], .alias 1 0, .set 1 [3] 2,
      .get 0 [3]]).isSome = true ∧
    (run {} [.full 0 [4] .C 1, .sub 1 0 [.sl 1 3 1], .alias 1 0, .set 1 [3] 2, .get 0 [3]]).map
      (·.mem.out) = some [2] := ⟨by decide, rfl⟩

/-- `a = np.full((2, 2), 0); b = np.full((2, 2), 0); b[0, 1] = 5; y = a; y = b.T; print(y[1, 0])` -/
def opsPointer : List Op :=
  [.full 0 [2, 2] .C 0, .full 1 [2, 2] .C 0, .set 1 [0, 1] 5, .alias 2 0, .trans 2 1, .get 2 [1, 0]]

/-- C99 fails: a name of an array that is given a transposed array later keeps its first order, because
the types of pointers are not compared.  The program above is accepted; Python prints 5, and the
generated programs print 0, in both languages. -/
theorem C99_pointer_violated : ∃ g, inferAll (fun _ => none) opsPointer = some g ∧
    (run {} opsPointer).map (·.mem.out) = some [5] ∧
    (fRun {} (compileF (types g) opsPointer)).map (·.mem.out) = some [0] ∧
    (cRun {} (compileC (types g) opsPointer)).map (·.mem.out) = some [0] :=
  ⟨_, rfl, rfl, rfl, rfl⟩

/-- C99 fails: the same without a transposition, `y = a; y = b` with `b` in the other order. -/
theorem C99_order_violated : ∃ ops g, inferAll (fun _ => none) ops = some g ∧
    (run {} ops).map (·.mem.out) = some [5] ∧
    (fRun {} (compileF (types g) ops)).map (·.mem.out) = some [0] ∧
    (cRun {} (compileC (types g) ops)).map (·.mem.out) = some [0] :=
  ⟨[.full 0 [2, 2] .C 0, .full 1 [2, 2] .F 0, .set 1 [0, 1] 5, .alias 2 0, .alias 2 1, .get 2 [0, 1]],
    _, rfl, rfl, rfl, rfl⟩

/-! ## C100 results -/

/-- The array returned to Python is the array of the program, for every contents of memory, exactly if
the strides of dimensions longer than 1 are those of a contiguous array of its order. -/
theorem C100_same_iff (o : Option Order) (w : View) (hp : ∀ d ∈ w.dims, 0 < d.len) :
    (∀ val, elements val (toPyArray o w) = elements val w) ↔
      SameStrides w.dims (layout (if o = some .F then .F else .C) (w.dims.map (·.len))) := by
  have hl : w.dims.map (·.len) = (layout (if o = some .F then Order.F else .C) (w.dims.map (·.len))).map (·.len) :=
    (layout_len _ _).symm
  have e : toPyArray o w = ⟨w.buf, w.off, layout (if o = some .F then Order.F else .C) (w.dims.map (·.len))⟩ := by
    unfold toPyArray cLayout
    by_cases h : o = some .F <;> simp [h, layout]
  rw [e, elements_iff w _ hl, sameStrides_iff hl hp]

example : ∀ d ∈ (⟨0, 0, rowMajor [2, 3]⟩ : View).dims, 0 < d.len := by decide

/-- Arrays made by the function are returned as they are. -/
theorem C100_fresh_partial (o : Order) (b : Nat) (s : List Nat) (val : Int → Int) :
    elements val (toPyArray (mkTy s.length (some o)).order ⟨b, 0, layout o s⟩)
      = elements val ⟨b, 0, layout o s⟩ := by
  have : cLayout (decide ((mkTy s.length (some o)).order = some .F)) s = layout o s := cLayout_eq o s
  simp only [toPyArray, layout_len]
  rw [this]

example : elements (fun p => p) (toPyArray (mkTy 2 (some .F)).order ⟨0, 0, layout .F [2, 3]⟩)
    = [0, 2, 4, 1, 3, 5] := by decide

/-- Rows and ranges of rows of arrays in row-major order: `x[i, j, a:b]`. -/
theorem C100_rows_partial (b : Nat) (s is : List Nat) (a c : Nat) {p : Int} {ds : List Dim}
    (hs : select (rowMajor s) (is.map Sub.at ++ [.sl a c 1]) = some (p, ds)) (val : Int → Int) (o : Option Order)
    (ho : o ≠ some .F) :
    elements val (toPyArray o ⟨b, p, ds⟩) = elements val ⟨b, p, ds⟩ := by
  have key : ∀ (s : List Nat) (is : List Nat) p ds,
      select (rowMajor s) (is.map Sub.at ++ [.sl a c 1]) = some (p, ds) → rowMajor (ds.map (·.len)) = ds := by
    intro s is
    induction is generalizing s with
    | nil =>
      intro p ds h
      cases s with
      | nil => simp [rowMajor, select] at h
      | cons n ns =>
        simp only [List.map_nil, List.nil_append, rowMajor, select] at h
        split at h
        · simp only [Option.map_some, Option.some.injEq, Prod.mk.injEq] at h
          obtain ⟨-, rfl⟩ := h
          have hl : (rowMajor ns).map (·.len) = ns := layout_len .C ns
          simp [rowMajor, hl]
        · simp at h
    | cons i is ih =>
      intro p ds h
      cases s with
      | nil => simp [rowMajor, select] at h
      | cons n ns =>
        simp only [List.map_cons, List.cons_append, rowMajor, select] at h
        split at h
        · cases hq : select (rowMajor ns) (is.map Sub.at ++ [.sl a c 1]) with
          | none => simp [hq] at h
          | some r =>
            simp only [hq, Option.map_some, Option.some.injEq, Prod.mk.injEq] at h
            obtain ⟨-, rfl⟩ := h
            exact ih ns r.1 r.2 hq
        · simp at h
  have := key s is p ds hs
  simp only [toPyArray, cLayout, ho, decide_false, Bool.false_eq_true, if_false, this]

example : (select (rowMajor [2, 5]) ([1].map Sub.at ++ [.sl 1 4 1])).isSome ∧ (none : Option Order) ≠ some .F := by
  decide

/-- C100 fails: a slice with a step that is returned, `return x[0:5:2]`, is read without the step:
0, 1, 2 in place of 0, 2, 4. -/
theorem C100_violated_step : ∃ p ds, select (rowMajor [5]) [.sl 0 5 2] = some (p, ds) ∧
    elements (fun q => q) ⟨0, p, ds⟩ = [0, 2, 4] ∧
    elements (fun q => q) (toPyArray none ⟨0, p, ds⟩) = [0, 1, 2] :=
  ⟨0, [⟨3, 2⟩], by decide, by decide, by decide⟩

/-- C100 fails: a column, `return x[:, 0]`, is read as a part of a row. -/
theorem C100_violated_column : ∃ p ds, select (rowMajor [2, 3]) [.all, .at 0] = some (p, ds) ∧
    elements (fun q => q) ⟨0, p, ds⟩ = [0, 3] ∧
    elements (fun q => q) (toPyArray none ⟨0, p, ds⟩) = [0, 1] :=
  ⟨0, [⟨2, 3⟩], by decide, by decide, by decide⟩

/-- In Fortran a result that points to nothing of the caller is copied, element by element, whatever its
strides: the element `i` of the array that Python gets is the element `i` of the program's array. -/
theorem C100_copied_partial (o : Option Order) (val : Int → Int) (w : View) (i : List Nat) (a : Int)
    (h : addr (toPyArray o w).dims i = some a) :
    0 ≤ a ∧ copiedF o val ⟨w.buf, w.off, revUnlessF o (w.dims.map fd)⟩ (w.dims.map (·.len)) a.toNat
      = (addr w.dims i).map (fun b => val (w.off + b)) :=
  copiedF_eq o _ val w i a rfl h

example : addr (toPyArray (some .F) ⟨0, 0, rowMajor [2, 3]⟩).dims [1, 2] = some 5 := by decide

/-! ## C101 `np.array` in Fortran -/

/-- `np.array(x, ndmin=…, order=…)` of an array variable. -/
theorem C101_variable_partial (kw : Option Order) (ndmin : Nat) {o : Option Order} {a : Arr} {f : FArr}
    (h : Rep o a f) (ho : o = none ↔ a.shape.length < 2) :
    ∃ g, printArray kw ndmin (.var o a.shape f) = some g ∧
      Rep (arrayOrder (max ndmin a.shape.length) kw o) (atLeast ndmin a) g := by
  have := printArray_var kw ndmin h ho
  have e : (arrayShape ndmin a.shape).length = max ndmin a.shape.length := by
    simp [arrayShape]; omega
  rwa [e] at this

/-- `np.array([x, y, …], ndmin=…, order=…)` of numbers, lists or arrays of one shape `s`: except for a
list of one element of rank 2 or more (without a larger `ndmin`), and for a larger `ndmin` with
`order='F'`. -/
theorem C101_list_partial (kw : Option Order) (ndmin : Nat) {o : Option Order} {s : List Nat}
    {xs : List Arr} {fs : List FArr} (h : Reps o s xs fs) (ho : o = none ↔ s.length < 2)
    (h1 : 2 ≤ s.length → ndmin ≤ s.length + 1 → xs.length ≠ 1)
    (hF : s.length + 1 < ndmin → 3 ≤ ndmin → kw = some .F → s ≠ [] → xs.length = 1) :
    ∃ g, printArray kw ndmin (.list o s fs) = some g ∧
      Rep (arrayOrder (max ndmin (s.length + 1)) kw (Src.list o s fs).order)
        (atLeast ndmin (stack s xs)) g := by
  have := printArray_list kw ndmin h ho h1 hF
  have e : (arrayShape ndmin (xs.length :: s)).length = max ndmin (s.length + 1) := by
    simp [arrayShape]; omega
  rwa [e] at this

/-- Nested lists of numbers, of any depth, all lists of the same depth being equally long. -/
theorem C101_nested_partial {n : Nat} {s : List Nat} {x : Nest n} (h : Nest.Regular n s x) :
    ∃ f, nestCode n x = some f ∧ Rep (some .C) ⟨s, Nest.val n x⟩ f := nestCode_rep h

example : Nest.Regular 2 [2, 3] (show List (List Int) from [[1, 2, 3], [4, 5, 6]]) := by
  refine ⟨rfl, by decide, ?_⟩
  intro y hy
  rcases List.mem_cons.mp hy with rfl | hy
  · exact ⟨rfl, by decide, fun _ _ => rfl⟩
  · rcases List.mem_cons.mp hy with rfl | hy
    · exact ⟨rfl, by decide, fun _ _ => rfl⟩
    · exact absurd hy List.not_mem_nil

/-- A vector, and its Fortran array. -/
def vec (l : List Int) : Arr := ⟨[l.length], fun i => l.getD (i.headD 0) 0⟩

def fvec (l : List Int) : FArr := ⟨[l.length], fun i => l.getD (i.headD 0) 0⟩

theorem rep_vec (l : List Int) : Rep none (vec l) (fvec l) := by
  refine ⟨rfl, ?_⟩
  intro i hi
  obtain ⟨x, rfl, -⟩ := of_mem1 hi
  rfl

theorem reps2 : Reps none [2] [vec [1, 2], vec [3, 4]] [fvec [1, 2], fvec [3, 4]] :=
  Reps.cons.mpr ⟨⟨rep_vec _, rfl⟩, Reps.cons.mpr ⟨⟨rep_vec _, rfl⟩, rfl, by intro k f x hf; simp at hf⟩⟩

example : ∃ g, printArray (some .F) 0 (.list none [2] [fvec [1, 2], fvec [3, 4]]) = some g ∧
    Rep (some .F) (atLeast 0 (stack [2] [vec [1, 2], vec [3, 4]])) g :=
  C101_list_partial (some .F) 0 reps2 (by decide) (by decide) (by decide)

/-- C101 fails: `np.array([[1, 2], [3, 4]], ndmin=3, order='F')` is transposed in its last two
dimensions: element `[0, 0, 1]` is 3. -/
theorem C101_violated_ndmin :
    (printArray (some .F) 3 (.list none [2] [fvec [1, 2], fvec [3, 4]])).map (fun g => (g.dims, g.get [0, 0, 1]))
      = some ([1, 2, 2], 3) ∧
    (atLeast 3 (stack [2] [vec [1, 2], vec [3, 4]])).get [0, 0, 1] = 2 := by
  constructor <;> rfl

/-- C101 fails: `np.array([a])` with one matrix `a` is printed as `a`, which has not the rank of the
result: no Fortran compiler accepts the assignment. -/
theorem C101_violated_single (kw : Option Order) {o : Order} {s : List Nat} {a : Arr} {f : FArr}
    (h : Rep (some o) a f) (hs : a.shape = s) (h2 : 2 ≤ s.length) :
    printArray kw 0 (.list (some o) s [f]) = none := by
  obtain ⟨t, ht⟩ := arrayOrder_big (rank := s.length + 1) (kw := kw) (o := (Src.list (some o) s [f]).order)
    (by omega)
  obtain ⟨vs, hvs, hrs, hvl⟩ := reorder_reps (o := some o) (s := s) t (by simp)
    (Reps.cons.mpr ⟨⟨h, hs⟩, rfl, by intro k f x hf; simp at hf⟩ : Reps (some o) s [a] [f])
  obtain ⟨v, rfl⟩ : ∃ v, vs = [v] := by
    match vs, hvl with
    | [v], _ => exact ⟨v, rfl⟩
  have hr := hrs.2 0 v a rfl rfl
  have hvd : v.dims.length = s.length := by rw [hr.1.1, length_revUnlessF, hr.2]
  have hb : ¬ (arrayShape 0 ([f].length :: s)).length ≤ 2 := by simp [arrayShape]; omega
  have hlen : (arrayShape 0 ([f].length :: s)).length = s.length + 1 := by simp [arrayShape]
  unfold printArray
  simp only [Src.shape, hb, decide_false]
  rw [hlen, ht, hvs]
  have hlen' : (arrayShape 0 (1 :: s)).length = s.length + 1 := by simp [arrayShape]
  simp only [Option.bind_some, manyDims, List.length_cons, List.length_nil, Nat.zero_add, hlen',
    Nat.lt_irrefl, if_false]
  rw [if_neg (by omega)]

example : ∃ a f, Rep (some .C) a f ∧ a.shape = [1, 1] :=
  ⟨⟨[1, 1], fun _ => 5⟩, ⟨[1, 1], fun _ => 5⟩, ⟨rfl, fun _ _ => rfl⟩, rfl⟩

/-- `y = x.T` where `y` owns its data (or `y[:, :] = x.T`), in either order. -/
theorem C101_transpose_partial {o : Order} {a : Arr} {f : FArr} (l : Order) (h : Rep (some o) a f) :
    ∃ g, printTranspose (some (some l)) (some o) a.shape f = some g ∧ Rep (some l) (transposed a) g :=
  printTranspose_rep l h

/-! ## C102 `np.matmul` -/

/-- In Fortran, for arguments of one order (or a matrix and a vector, except a vector times a matrix in
column-major order), if the result goes to an array of the order of the expression. -/
theorem C102_fortran_partial {oa ob : Option Order} {a b r : Arr} {fa fb : FArr} (ha : Rep oa a fa)
    (hb : Rep ob b fb) (hoa : oa = none ↔ a.shape.length < 2) (hob : ob = none ↔ b.shape.length < 2)
    (hr : matmul a b = some r) (hm : oa ≠ none → ob ≠ none → oa = ob)
    (hF : oa = none → ob ≠ some .F) :
    ∃ g, printMatmul oa ob fa fb = some g ∧ Rep (matmulOrder r.shape.length none oa ob) r g :=
  printMatmul_rep ha hb hoa hob hr hm hF

/-- A matrix in row-major order and its Fortran array (in either order). -/
def mat (n m : Nat) (l : List Int) : Arr :=
  ⟨[n, m], fun i => match i with
    | [x, y] => l.getD (x * m + y) 0
    | _ => 0⟩

def fmat (o : Order) (n m : Nat) (l : List Int) : FArr :=
  ⟨revUnlessF (some o) [n, m], fun i => (mat n m l).get (revUnlessF (some o) i)⟩

theorem rep_mat (o : Order) (n m : Nat) (l : List Int) : Rep (some o) (mat n m l) (fmat o n m l) :=
  ⟨rfl, fun i _ => by simp only [fmat, revUnlessF_revUnlessF]⟩

example : ∃ g, printMatmul (some .C) (some .C) (fmat .C 2 2 [1, 2, 3, 4]) (fmat .C 2 2 [5, 6, 7, 8]) = some g ∧
    Rep (some .C) (mat 2 2 [19, 22, 43, 50]) g := by
  obtain ⟨g, h1, h2⟩ := C102_fortran_partial (rep_mat .C 2 2 [1, 2, 3, 4]) (rep_mat .C 2 2 [5, 6, 7, 8])
    (by simp [mat]) (by simp [mat]) rfl (by simp) (by simp)
  refine ⟨g, h1, h2.1, ?_⟩
  intro i hi
  refine (h2.2 i hi).trans ?_
  obtain ⟨x, y, rfl, hx, hy⟩ := of_mem2 hi
  match x, y, hx, hy with
  | 0, 0, _, _ => rfl
  | 0, 1, _, _ => rfl
  | 1, 0, _, _ => rfl
  | 1, 1, _, _ => rfl

/-- C102 fails: a vector times a square matrix in column-major order is printed `matmul(b, a)`, the
matrix times the vector: `[1, 0]` times `[[1, 2], [3, 4]]` gives `[1, 3]` in place of `[1, 2]`. -/
theorem C102_violated_vector :
    (printMatmul none (some .F) (fvec [1, 0]) (fmat .F 2 2 [1, 2, 3, 4])).map
      (fun g => (g.dims, g.get [0], g.get [1])) = some ([2], 1, 3) ∧
    (matmul (vec [1, 0]) (mat 2 2 [1, 2, 3, 4])).map (fun r => (r.shape, r.get [0], r.get [1]))
      = some ([2], 1, 2) := by
  constructor <;> rfl

/-- C102 fails: with `order='F'` the variable that takes the result has order `"F"`, but the expression
printed does not depend on it: for arguments in row-major order the variable holds the transposed
product. -/
theorem C102_violated_order : matmulOrder 2 (some .F) (some .C) (some .C) = some .F ∧
    (printMatmul (some .C) (some .C) (fmat .C 2 2 [1, 2, 3, 4]) (fmat .C 2 2 [1, 0, 0, 0])).map
      (fun g => (g.get (revUnlessF (some .F) [0, 1]), g.get (revUnlessF (some .F) [1, 0]))) = some (3, 0) ∧
    (matmul (mat 2 2 [1, 2, 3, 4]) (mat 2 2 [1, 0, 0, 0])).map (fun r => (r.get [0, 1], r.get [1, 0]))
      = some (0, 3) := by
  refine ⟨rfl, ?_, ?_⟩ <;> rfl

/-- C102 fails: arguments of two different orders are refused by an exception of the translator. -/
theorem C102_violated_mixed (fa fb : FArr) : printMatmul (some .C) (some .F) fa fb = none := rfl

/-- In C, for operands with any strides, if the result shares no memory with them: the result is right
and nothing else is changed. -/
theorem C102_c_partial {out a b : View} {h : Heap} {r : Arr} (hi : out.Inj) (ha : a.Apart out)
    (hb : b.Apart out) (hr : matmul (a.value h) (b.value h) = some r)
    (hs : out.dims.map (·.len) = r.shape) :
    ∃ h', matmulC out a b h = some h' ∧ (out.value h').same r ∧
      ∀ x, (∀ i, out.cell i ≠ some x) → h' x = h x :=
  matmulC_eq hi ha hb hr hs

/-- Matrices in buffers of their own. -/
def w22 (b : Nat) : View := ⟨b, 0, [⟨2, 2⟩, ⟨2, 1⟩]⟩

theorem cell_w22 (b : Nat) (i : List Nat) (x : Addr) (h : (w22 b).cell i = some x) :
    ∃ p q, i = [p, q] ∧ p < 2 ∧ q < 2 ∧ x = (b, (p : Int) * 2 + q) := by
  match i with
  | [] => simp [View.cell, w22, addr] at h
  | [_] => simp only [View.cell, w22, addr] at h; split at h <;> simp at h
  | _ :: _ :: _ :: _ =>
    simp only [View.cell, w22, addr] at h
    split at h
    · split at h <;> simp at h
    · simp at h
  | [p, q] =>
    simp only [View.cell, w22, addr] at h
    split at h
    · split at h
      · simp at h
        exact ⟨p, q, rfl, by assumption, by assumption, h.symm⟩
      · simp at h
    · simp at h

theorem w22_inj (b : Nat) : (w22 b).Inj := by
  intro i j x h1 h2
  obtain ⟨p, q, rfl, hp, hq, rfl⟩ := cell_w22 b i x h1
  obtain ⟨p', q', rfl, hp', hq', e⟩ := cell_w22 b j _ h2
  simp only [Prod.mk.injEq, true_and] at e
  have : p = p' ∧ q = q' := by omega
  rw [this.1, this.2]

theorem w22_apart {b c : Nat} (h : b ≠ c) : (w22 b).Apart (w22 c) := by
  intro i j x h1 h2
  obtain ⟨p, q, rfl, hp, hq, rfl⟩ := cell_w22 b i x h1
  obtain ⟨p', q', rfl, hp', hq', e⟩ := cell_w22 c j _ h2
  simp only [Prod.mk.injEq] at e
  exact h e.1

example : (w22 0).Inj ∧ (w22 1).Apart (w22 0) ∧ (w22 2).Apart (w22 0) ∧
    (matmul ((w22 1).value (fun _ => 1)) ((w22 2).value (fun _ => 1))).isSome :=
  ⟨w22_inj 0, w22_apart (by decide), w22_apart (by decide), rfl⟩

/-- C102 fails: in C the result is written while the operands are read.  `y[:, :] = np.matmul(y, b)` with
the identity for `b` and `y = [[1, 2], [3, 4]]` makes `y` zero in its first column. -/
theorem C102_violated_shared : ∃ h : Heap,
    (matmul ((w22 0).value h) ((w22 1).value h)).map (fun r => (r.get [0, 0], r.get [1, 0])) = some (1, 3) ∧
    (matmulC (w22 0) (w22 0) (w22 1) h).map (fun h' => (h' (0, 0), h' (0, 2))) = some (0, 0) :=
  ⟨fun x => if x.1 = 0 then x.2 + 1 else if x.2 = 0 ∨ x.2 = 3 then 1 else 0, by decide, by decide⟩

/-! ## C103 reductions along axes -/

/-- `np.sum`, `np.amax`, `np.amin` along axes: each element computed by the loops is the reduction of the
elements of the array that belong to it, for any rank, any set of axes (also negative, unless `keepdims`)
and with `keepdims` or without. -/
theorem C103_axis_partial {op : Int → Int → Int} {init : Int} {a : Arr} {axis : List Int} {keep : Bool}
    {i : List Nat} (ha : AxisOk a.shape.length axis) (hk : keep = true → ∀ x ∈ axis, 0 ≤ x)
    (hi : i ∈ indices (reduceAxis op init keep (axisMask a.shape.length axis) a).shape) :
    reduceC op init a axis keep i
      = some ((reduceAxis op init keep (axisMask a.shape.length axis) a).get i) :=
  reduceC_eq ha hk hi

example : AxisOk (mat 2 3 [1, 2, 3, 4, 5, 6]).shape.length [-1] ∧
    [1] ∈ indices (reduceAxis (· + ·) 0 false (axisMask 2 [-1]) (mat 2 3 [1, 2, 3, 4, 5, 6])).shape ∧
    reduceC (· + ·) 0 (mat 2 3 [1, 2, 3, 4, 5, 6]) [-1] false [1] = some 15 := by
  refine ⟨⟨?_, ?_⟩, ?_, ?_⟩
  · decide
  · decide
  · decide
  · decide

/-- C103 fails: with `keepdims=True` a negative axis is not found again and an assertion of the
translator fails. -/
theorem C103_violated_keepdims (op : Int → Int → Int) (init : Int) (a : Arr) (i : List Nat) :
    reduceC op init a [-1] true i = none := by
  simp [reduceC, mkRed]

/-- Two statements, `x[:, :] = f(x)` and `y[:] = np.sum(x, axis=1)`, in one loop: the rows are complete
when they are summed. -/
theorem C103_fused_partial (f : Int → Int) (n : Nat) (s : Two) : fused f n true s = apart f n true s :=
  fused_last f n s

/-- C103 fails: the same with `axis=0`: the columns are summed before the rows below are computed. -/
theorem C103_violated_fused : (fused (fun v => 2 * v) 2 false ⟨fun _ _ => 1, fun _ => 0⟩).y 0 = 3 ∧
    (apart (fun v => 2 * v) 2 false ⟨fun _ _ => 1, fun _ => 0⟩).y 0 = 4 := by decide

/-! ## C104 reductions to a number -/

/-- `y = np.sum(x)` (and `np.amax`, … with an initial value) in C: if the variable or element assigned is
not an element of the array, it gets the reduction and nothing else changes. -/
theorem C104_c_partial {op : Int → Int → Int} {lhs : Addr} {start : Int} {arg : List Addr} {h : Heap}
    (ha : lhs ∉ arg) :
    functionalC op lhs start arg h lhs = (arg.map h).foldl op start ∧
    ∀ x, x ≠ lhs → functionalC op lhs start arg h x = h x := by
  rw [functional_eq ha]
  exact ⟨hput_same _ _ _, fun x hx => hput_other _ hx⟩

example : ((1, 0) : Addr) ∉ [((0, 0) : Addr), (0, 1)] := by decide

/-- `np.amax` and `np.amin` start from the first element; they may be assigned to the first element. -/
theorem C104_extremum_partial {op : Int → Int → Int} (hop : ∀ a, op a a = a) {lhs x : Addr}
    {rest : List Addr} {h : Heap} (hl : lhs ∉ rest) :
    ∃ h', extremumC op lhs (x :: rest) h = some h' ∧
      h' lhs = (rest.map h).foldl op (h x) ∧ ∀ y, y ≠ lhs → h' y = h y := by
  by_cases e : lhs = x
  · subst e
    refine ⟨_, extremum_first hop hl, ?_, fun y hy => hput_other _ hy⟩
    rw [hput_same]
    simp [hop]
  · have hn : lhs ∉ x :: rest := by simp [e, hl]
    refine ⟨_, rfl, ?_, ?_⟩
    · rw [functional_eq hn, hput_same]
      simp [hop]
    · intro y hy
      rw [functional_eq hn]
      exact hput_other _ hy

example : (∀ a : Int, max a a = a) ∧ ((0, 0) : Addr) ∉ [((0, 1) : Addr), (0, 2)] :=
  ⟨fun a => by omega, by decide⟩

/-- C104 fails: `x[0] = np.sum(x)` in C sums 0, not the old value, for the element assigned: with
`x = [1, 2]` it gives 2. -/
theorem C104_violated_sum : ∃ h : Heap, h (0, 0) = 1 ∧ h (0, 1) = 2 ∧
    functionalC (· + ·) (0, 0) 0 [(0, 0), (0, 1)] h (0, 0) = 2 :=
  ⟨fun x => x.2 + 1, by decide, by decide, by decide⟩

/-- C104 fails: `x[1] = np.amax(x)` in C loses the element assigned: with `x = [1, 5, 3]` it gives 3. -/
theorem C104_violated_amax : ∃ h : Heap, h (0, 0) = 1 ∧ h (0, 1) = 5 ∧ h (0, 2) = 3 ∧
    (extremumC max (0, 1) [(0, 0), (0, 1), (0, 2)] h).map (fun h' => h' (0, 1)) = some 3 :=
  ⟨fun x => if x.2 = 0 then 1 else if x.2 = 1 then 5 else 3, by decide, by decide, by decide, by decide⟩

/-- C104 fails: the largest element of an empty array is read from memory that does not belong to it,
where NumPy raises an exception. -/
theorem C104_violated_empty (op : Int → Int → Int) (lhs : Addr) (h : Heap) : extremumC op lhs [] h = none :=
  rfl

/-- In Fortran, expressions with sums that have an initial value, unless such a sum is a factor or is
subtracted. -/
theorem C104_initial_partial {e : SExpr} (h : Plain e) : (printSum e).value = e.eval := (printSum_eq h).1

example : Plain (.add (.all 2 5) (.mul (.num 3) (.all 0 5))) := by simp [Plain]

/-- C104 fails: `3 * np.sum(a, initial=2)` is printed `3 * 2 + sum(a)`: with a sum of 5 it is 11, not
21. -/
theorem C104_violated_factor : (printSum (.mul (.num 3) (.all 2 5))).value = 11 ∧
    (SExpr.mul (.num 3) (.all 2 5)).eval = 21 := by decide

/-- C104 fails: `10 - np.sum(a, initial=2)` is printed `10 - 2 + sum(a)`. -/
theorem C104_violated_subtracted : (printSum (.sub (.num 10) (.all 2 5))).value = 13 ∧
    (SExpr.sub (.num 10) (.all 2 5)).eval = 3 := by decide

end Verif.Layout
