import Verif.Vectors.Lemmas8

/-! # Whole-array statements: properties -/

namespace Verif.Vectors
open Spec Model Lemmas

/-! ## Loops compute NumPy's result -/

/-- Whatever the target (`hv`: vector expressions are kept where possible, as in Fortran) and the orders
of the arrays (`F`): if pyccel lowers the block and NumPy raises nothing, the generated code accesses
existing elements only and leaves the arrays as NumPy does.  This holds as long as no statement reads an
element it has already written, statements that may share a loop keep apart (`Free`), and pyccel can see
where slices start and which dimensions are repeated (`Clear`).  Missing: the cases below. -/
theorem C42_partial (W : World) (hv : Bool) (F : Var → Bool) (b : List Stmt) (cs : Codes)
    (σ σ' : Store) (env : Env) (t : Nat → Int) (he : expand hv F b = some cs)
    (hn : numpys W σ b = some σ') (hf : Free W b) (hc : ∀ s ∈ b, s.Clear W) :
    exec W cs env t σ = some σ' := by
  unfold expand collect at he
  rw [Option.map_map] at he
  obtain ⟨a', h1, rfl⟩ := Option.map_eq_some_iff.1 he
  obtain ⟨st', h2, h3⟩ := addStmts_run W hv F env ⟨σ, t⟩ b ⟨.nil, 0, 0⟩ a' h1 ⟨σ, t⟩ σ' rfl hn hf hc
    trivial
  unfold exec
  simp only [Function.comp, ffors_run, h2, Option.map_some, h3]

/-- The same for arrays that are always referred to in one way, without lists; and then they are
lowered. -/
theorem C42_elementwise_partial (W : World) (hv : Bool) (F : Var → Bool) (b : List Stmt)
    (σ σ' : Store) (env : Env) (t : Nat → Int) (hn : numpys W σ b = some σ') (hf : Elementwise W b)
    (hc : ∀ s ∈ b, s.Clear W) : ∃ cs, expand hv F b = some cs ∧ exec W cs env t σ = some σ' := by
  obtain ⟨a', h1⟩ := addStmts_open hv F b (by
    intro list lhs e₀ es hm
    obtain ⟨_, _, h, _⟩ := hf _ hm
    simp at h) ⟨.nil, 0, 0⟩ trivial
  have he : expand hv F b = some (a'.result.fors 0) := by
    unfold expand collect
    rw [h1]; rfl
  exact ⟨_, he, C42_partial W hv F b _ σ σ' env t he hn (elementwise_free W b b hf fun _ h => h) hc⟩

/-- In Fortran, a block in which only scalars have to be broadcast gives NumPy's result, however the
operands and the left-hand sides overlap. -/
theorem C42_fortran_partial (W : World) (F : Var → Bool) (b : List Stmt) (σ σ' : Store) (env : Env)
    (t : Nat → Int) (hn : numpys W σ b = some σ') (hw : ∀ s ∈ b, Whole F s) :
    ∃ cs, expand true F b = some cs ∧ exec W cs env t σ = some σ' := by
  obtain ⟨a', st', h1, h2, h3⟩ := whole_stmts W F b hw ⟨.nil, 0, 0⟩ σ' env ⟨σ, t⟩ ⟨σ, t⟩ rfl hn
  refine ⟨a'.result.fors 0, by unfold expand collect; rw [h1]; rfl, ?_⟩
  unfold exec
  simp only [ffors_run, h2, Option.map_some, h3]

/-- Blocks without lists and tuples on the right are lowered. -/
theorem C42_lowered_partial (hv : Bool) (F : Var → Bool) (b : List Stmt)
    (hb : ∀ list lhs e₀ es, Stmt.elems list lhs e₀ es ∉ b) : (expand hv F b).isSome := by
  obtain ⟨a', h1⟩ := addStmts_open hv F b hb ⟨.nil, 0, 0⟩ trivial
  unfold expand collect
  rw [h1]
  rfl

/-! ### Examples -/

/-- Vectors `0` to `3` of three elements, matrices `4` and `5` of 3×3, a vector `6` whose length is
known at run time only (`1`), a vector `7` of two elements. -/
def exWorld : World where
  shape v := if v < 4 then [.lit 3] else if v < 6 then [.lit 3, .lit 3] else if v = 6 then [.sym 0]
    else [.lit 2]
  ρ _ := 1

/-- The elements are all different. -/
def exStore : Store := fun v k => 100 * v + 10 * k.headD 0 + k.tail.headD 0

/-- `v` as a whole. -/
def exAll (v : Var) : Ref := ⟨v, if v < 4 then [.sl none none (.lit 3)] else
  if v < 6 then [.sl none none (.lit 3), .sl none none (.lit 3)] else if v = 6 then [.sl none none (.sym 0)]
  else [.sl none none (.lit 2)]⟩

/-- The elements of vectors. -/
def exVec (σ : Store) (v : Var) : List Int := [σ v [0], σ v [1], σ v [2]]

/-- The elements of matrices. -/
def exMat (σ : Store) (v : Var) : List Int :=
  [σ v [0, 0], σ v [0, 1], σ v [0, 2], σ v [1, 0], σ v [1, 1], σ v [1, 2], σ v [2, 0], σ v [2, 1], σ v [2, 2]]

/-- `x[:, :] = x * v + np.sum(v)`, `y[:, :] = x + v`, `v[:-1] = v[1:]`. -/
def exBlock : List Stmt :=
  [.set (exAll 4) (.bin (· + ·) (.bin (· * ·) (.ref (exAll 4)) (.ref (exAll 0))) (.red List.sum (exAll 0))),
   .set (exAll 5) (.bin (· + ·) (.ref (exAll 4)) (.ref (exAll 0))),
   .set ⟨0, [.sl none none (.lit 2)]⟩ (.ref ⟨0, [.sl (some 1) none (.lit 2)]⟩)]

/-- The block is lowered and accepted by NumPy. -/
example : (expand false (fun _ => false) exBlock).isSome ∧ (expand true (fun _ => false) exBlock).isSome ∧
    ((numpys exWorld exStore exBlock).map fun σ => (exMat σ 5, exVec σ 0)) =
      some ([30, 4050, 8090, 30, 4150, 8290, 30, 4250, 8490], [10, 20, 20]) := by
  refine ⟨by decide +kernel, by decide +kernel, by decide +kernel⟩

/-- The block satisfies the hypotheses of `C42_partial`. -/
example : Free exWorld exBlock ∧ ∀ s ∈ exBlock, s.Clear exWorld := by
  refine ⟨⟨settled_of _ _ _ (by decide +kernel), ?_, settled_of _ _ _ (by decide +kernel), ?_,
    settled_of _ _ _ (by decide +kernel), ?_, trivial⟩, ?_⟩
  · intro t ht
    have ht : t = exBlock[1] ∨ t = exBlock[2] := by simpa using (show t ∈ [exBlock[1], exBlock[2]] from ht)
    rcases ht with rfl | rfl
    · exact apart_of _ _ _ _ _ (by decide +kernel)
    · exact apart_of _ _ _ _ _ (by decide +kernel)
  · intro t ht
    have ht : t = exBlock[2] := by simpa using (show t ∈ [exBlock[2]] from ht)
    subst ht
    exact apart_of _ _ _ _ _ (by decide +kernel)
  · intro t ht
    simp [List.takeWhile] at ht
  · intro s hs
    simp only [exBlock, List.mem_cons, List.not_mem_nil, or_false] at hs
    have hst : ∀ v, (exAll v).Started := by
      intro v a b n hm _
      unfold exAll at hm
      simp only at hm
      split at hm
      · simp_all
      · split at hm
        · simp_all
        · split at hm <;> simp_all
    rcases hs with rfl | rfl | rfl
    · exact ⟨hst 4, ⟨⟨hst 4, by unfold Shown; decide +kernel⟩, ⟨hst 0, by unfold Shown; decide +kernel⟩⟩, trivial⟩
    · exact ⟨hst 5, ⟨hst 4, by unfold Shown; decide +kernel⟩, ⟨hst 0, by unfold Shown; decide +kernel⟩⟩
    · refine ⟨?_, ?_, by unfold Shown; decide +kernel⟩
      · intro a b n hm _; simp at hm; simp [hm]
      · intro a b n hm _; simp at hm; simp [hm]

/-- `x[:, :] = x * v + np.sum(x)`, `y[:, :] = x + v`: here `C42_elementwise_partial` applies. -/
def exElementwise : List Stmt :=
  [.set (exAll 4) (.bin (· + ·) (.bin (· * ·) (.ref (exAll 4)) (.ref (exAll 0))) (.red List.sum (exAll 4))),
   .set (exAll 5) (.bin (· + ·) (.ref (exAll 4)) (.ref (exAll 0)))]

example : Elementwise exWorld exElementwise ∧
    ((numpys exWorld exStore exElementwise).map fun σ => σ 5 [2, 1]) = some 7919 := by
  refine ⟨?_, by decide +kernel⟩
  have h4 : (exAll 4).Strided exWorld := by
    refine ⟨rfl, fun a b n hm => ?_⟩
    simp only [exAll] at hm
    simp at hm
    simp [hm]
  have h5 : (exAll 5).Strided exWorld := by
    refine ⟨rfl, fun a b n hm => ?_⟩
    simp only [exAll] at hm
    simp at hm
    simp [hm]
  intro s hs
  simp only [exElementwise, List.mem_cons, List.not_mem_nil, or_false] at hs
  rcases hs with rfl | rfl
  · refine ⟨_, _, rfl, h4, ?_⟩
    intro l e hm
    simp only [exElementwise, List.mem_cons, List.not_mem_nil, or_false, Stmt.set.injEq] at hm
    rcases hm with ⟨rfl, rfl⟩ | ⟨rfl, rfl⟩ <;> simp [Ex.refs, exAll, Ref.shape, lens]
  · refine ⟨_, _, rfl, h5, ?_⟩
    intro l e hm
    simp only [exElementwise, List.mem_cons, List.not_mem_nil, or_false, Stmt.set.injEq] at hm
    rcases hm with ⟨rfl, rfl⟩ | ⟨rfl, rfl⟩ <;> simp [Ex.refs, exAll, Ref.shape, lens]

/-- `v[1:] = v[:-1] + 1`, `v[:] = (v[2], v[1], v[0])`: here `C42_fortran_partial` applies. -/
def exFortran : List Stmt :=
  [.set ⟨0, [.sl (some 1) none (.lit 2)]⟩ (.un (· + 1) (.ref ⟨0, [.sl none none (.lit 2)]⟩)),
   .elems false (exAll 0) (.ref ⟨0, [.at 2]⟩) [.ref ⟨0, [.at 1]⟩, .ref ⟨0, [.at 0]⟩]]

example : (∀ s ∈ exFortran, Whole (fun _ => false) s) ∧
    ((numpys exWorld exStore exFortran).map fun σ => exVec σ 0) = some [11, 1, 0] := by
  refine ⟨?_, by decide +kernel⟩
  intro s hs
  simp only [exFortran, List.mem_cons, List.not_mem_nil, or_false] at hs
  rcases hs with rfl | rfl
  · simp [Whole, Ex.refs, Alike, Ref.shape, lens]
  · simp [Whole]

/-! ## Where it goes wrong -/

/-- C42 fails: `v[1:] = v[:-1] + 1` is translated to C as a loop that goes up, which reads the elements
it has just written. -/
theorem C42_overlap_violated : ∃ (W : World) (b : List Stmt) (σ : Store) (cs : Codes) (env : Env)
    (t : Nat → Int),
    expand false (fun _ => false) b = some cs ∧ (numpys W σ b).map (exVec · 0) = some [0, 1, 11] ∧
    (exec W cs env t σ).map (exVec · 0) = some [0, 1, 2] := by
  refine ⟨exWorld, [.set ⟨0, [.sl (some 1) none (.lit 2)]⟩ (.un (· + 1) (.ref ⟨0, [.sl none none (.lit 2)]⟩))],
    exStore, _, fun _ => 0, fun _ => 0, (Option.some_get (by decide +kernel)).symm, by decide +kernel, by decide +kernel⟩

/-- C42 fails: `v[:-1] = w[:-1]` and `u[:-1] = v[1:]` are put into one loop in C, which reads elements
of `v` before the first statement has written them. -/
theorem C42_fusion_violated : ∃ (W : World) (b : List Stmt) (σ : Store) (cs : Codes) (env : Env)
    (t : Nat → Int),
    expand false (fun _ => false) b = some cs ∧ (numpys W σ b).map (exVec · 2) = some [110, 20, 220] ∧
    (exec W cs env t σ).map (exVec · 2) = some [10, 20, 220] := by
  refine ⟨exWorld, [.set ⟨0, [.sl none none (.lit 2)]⟩ (.ref ⟨1, [.sl none none (.lit 2)]⟩),
    .set ⟨2, [.sl none none (.lit 2)]⟩ (.ref ⟨0, [.sl (some 1) none (.lit 2)]⟩)],
    exStore, _, fun _ => 0, fun _ => 0, (Option.some_get (by decide +kernel)).symm, by decide +kernel, by decide +kernel⟩

/-- C42 fails: with a matrix `x` whose rows have the length of `v`, `v[:] = w` and `x[:, :] = v` share
the outer loop in C, and the first rows of `x` get the old elements of `v`. -/
theorem C42_fused_broadcast_violated : ∃ (W : World) (b : List Stmt) (σ : Store) (cs : Codes) (env : Env)
    (t : Nat → Int),
    expand false (fun _ => false) b = some cs ∧ (numpys W σ b).map (exMat · 4) = some [100, 110, 120, 100, 110, 120, 100, 110, 120] ∧
    (exec W cs env t σ).map (exMat · 4) = some [100, 10, 20, 100, 110, 20, 100, 110, 120] := by
  refine ⟨exWorld, [.set (exAll 0) (.ref (exAll 1)), .set (exAll 4) (.ref (exAll 0))],
    exStore, _, fun _ => 0, fun _ => 0, (Option.some_get (by decide +kernel)).symm, by decide +kernel, by decide +kernel⟩

/-- C42 fails: `v[:] = [v[2], v[1], v[0]]` becomes three assignments, in C and in Fortran, and the last
one reads what the first one wrote. -/
theorem C42_list_violated (hv : Bool) : ∃ (W : World) (b : List Stmt) (σ : Store) (cs : Codes) (env : Env)
    (t : Nat → Int),
    expand hv (fun _ => false) b = some cs ∧ (numpys W σ b).map (exVec · 0) = some [20, 10, 0] ∧
    (exec W cs env t σ).map (exVec · 0) = some [20, 10, 20] := by
  refine ⟨exWorld, [.elems true (exAll 0) (.ref ⟨0, [.at 2]⟩) [.ref ⟨0, [.at 1]⟩, .ref ⟨0, [.at 0]⟩]],
    exStore, .cons (.item (.line ⟨⟨0, [.ix none none (.lit 0)], false⟩, .ref ⟨0, [.at 2], false⟩⟩))
      (.cons (.item (.line ⟨⟨0, [.ix none none (.lit 1)], false⟩, .ref ⟨0, [.at 1], false⟩⟩))
        (.cons (.item (.line ⟨⟨0, [.ix none none (.lit 2)], false⟩, .ref ⟨0, [.at 0], false⟩⟩)) .nil)), fun _ => 0, fun _ => 0,
    by cases hv <;> rfl, by decide +kernel, by decide +kernel⟩

/-- C42 fails: `x[:, :] = x.T` overwrites, in C and in Fortran, the upper half of the matrix before it
is read. -/
theorem C42_transpose_violated (hv : Bool) :
    ∃ (W : World) (b : List Stmt) (σ : Store) (cs : Codes) (env : Env)
    (t : Nat → Int),
    expand hv (fun _ => false) b = some cs ∧ (numpys W σ b).map (exMat · 4) = some [400, 410, 420, 401, 411, 421, 402, 412, 422] ∧
    (exec W cs env t σ).map (exMat · 4) = some [400, 410, 420, 410, 411, 421, 420, 421, 422] := by
  cases hv
  · refine ⟨exWorld, [.set (exAll 4) (.tr (exAll 4))], exStore, _, fun _ => 0, fun _ => 0,
      (Option.some_get (by decide +kernel)).symm, by decide +kernel, by decide +kernel⟩
  · refine ⟨exWorld, [.set (exAll 4) (.tr (exAll 4))], exStore, _, fun _ => 0, fun _ => 0,
      (Option.some_get (by decide +kernel)).symm, by decide +kernel, by decide +kernel⟩

/-- C42 fails: an operand that turns out to have one element is not repeated, its dimension being
unknown when the code is generated; the C code reads past its end. -/
theorem C42_broadcast_violated : ∃ (W : World) (b : List Stmt) (σ : Store) (cs : Codes) (env : Env)
    (t : Nat → Int),
    expand false (fun _ => false) b = some cs ∧ (numpys W σ b).map (exVec · 0) = some [600, 600, 600] ∧
    exec W cs env t σ = none := by
  refine ⟨exWorld, [.set (exAll 0) (.ref (exAll 6))], exStore, _, fun _ => 0, fun _ => 0,
    (Option.some_get (by decide +kernel)).symm, by decide +kernel, by decide +kernel⟩

/-- C42 fails: `v[:] = w[::-1]` reads `w[0]`, `w[-1]` and `w[-2]` in C, which do not exist. -/
theorem C42_reversed_violated : ∃ (W : World) (b : List Stmt) (σ : Store) (cs : Codes) (env : Env)
    (t : Nat → Int),
    expand false (fun _ => false) b = some cs ∧ (numpys W σ b).map (exVec · 0) = some [120, 110, 100] ∧
    exec W cs env t σ = none := by
  refine ⟨exWorld, [.set (exAll 0) (.ref ⟨1, [.sl none (some (-1)) (.lit 3)]⟩)], exStore, _, fun _ => 0, fun _ => 0,
    (Option.some_get (by decide +kernel)).symm, by decide +kernel, by decide +kernel⟩

/-- C42 fails: pyccel stops with an exception if an array is assigned a list between two loops. -/
theorem C42_mixed_violated : ∃ (W : World) (b : List Stmt) (σ : Store),
    expand false (fun _ => false) b = none ∧
    (numpys W σ b).map (exVec · 2) = some [100, 110, 120] := by
  refine ⟨exWorld, [.set (exAll 0) (.ref (exAll 1)), .elems true (exAll 7) (.lit 1) [.lit 2],
    .set (exAll 2) (.ref (exAll 0))], exStore, rfl, by decide +kernel⟩

end Verif.Vectors
