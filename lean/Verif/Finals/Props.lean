import Verif.Finals.Lemmas

/-!
# Variables marked as `Final`: properties
-/

namespace Verif.Finals
open Verif.Finals.Spec Verif.Finals.Model Verif.Finals.Lemmas

/-! ## C187: what is marked as `Final` is not changed -/

/-- C187.  In an accepted module no name that is marked as `Final` gets another value, and the memory of
its value is not written, not even by the functions that it is passed to — as long as no single elements or
rows of marked arrays are assigned, marked arrays are passed only to marked parameters, and their memory
has no second name.  Missing: these three, see the violations below; loops and branches. -/
theorem C187_partial (fs : List Func) (ha : accept [] fs = true)
    (hd : Direct Func.Marked fs) (ho : OneName Func.Marked fs) : AllKept Func.Marked fs := by
  intro k f hf x hx
  exact (all_kept Func.Marked (fun f x h => Or.inl h) (fun _ _ h => h) fs ha hd ho fs.length
    (Nat.le_refl _)).2 k f (List.getElem?_eq_some_iff.mp hf).1 hf x hx

/-- `def g(a: Final[float[:]], b: float[:]): n: Final[int] = 1; b[0] = a[0] + n`
and `def f(a: Final[float[:,:]], b: float[:]): g(a[0], b); b[:] = a[1,:]` -/
def careful : List Func :=
  [⟨[⟨true, 1⟩, ⟨false, 1⟩],
    [.declare 2 ⟨true, 0⟩ (.new 0), .store 1 [.at] (.add (.index 0 [.at]) (.var 2))]⟩,
   ⟨[⟨true, 2⟩, ⟨false, 1⟩],
    [.call 0 [.index 0 [.at], .var 1], .store 1 [.slice] (.index 0 [.at, .slice])]⟩]

theorem careful_direct : Direct Func.Marked careful := by
  intro k f hf st hst
  match k, hf with
  | 0, hf =>
    simp only [careful, List.getElem?_cons_zero, Option.some.injEq] at hf
    subst hf
    simp only [List.mem_cons, List.not_mem_nil, or_false] at hst
    rcases hst with h | h <;> subst h
    · trivial
    · intro hm
      rcases hm with ⟨t, h1, h2⟩ | ⟨t, e, h1, h2⟩
      · simp only [List.getElem?_cons_succ, List.getElem?_cons_zero, Option.some.injEq] at h1
        rw [← h1] at h2; simp at h2
      · simp at h1
  | 1, hf =>
    simp only [careful, List.getElem?_cons_succ, List.getElem?_cons_zero, Option.some.injEq] at hf
    subst hf
    simp only [List.mem_cons, List.not_mem_nil, or_false] at hst
    rcases hst with h | h <;> subst h
    · intro sig hs p hp y hm hof hr
      simp only [careful, List.take_succ_cons, List.take_zero, List.map_cons, List.map_nil,
        List.getElem?_cons_zero, Option.some.injEq] at hs
      subst hs
      simp only [List.zip_cons_cons, List.zip_nil_left, List.mem_cons, List.not_mem_nil,
        or_false] at hp
      rcases hp with hp | hp
      · rw [hp]
      · exfalso
        rw [hp] at hof
        rcases hof with h | ⟨ixs, h⟩
        · simp only [Expr.var.injEq] at h
          subst h
          rcases hm with ⟨t, h1, h2⟩ | ⟨t, e, h1, h2⟩
          · simp only [List.getElem?_cons_succ, List.getElem?_cons_zero, Option.some.injEq] at h1
            rw [← h1] at h2; simp at h2
          · simp at h1
        · simp at h
    · intro _ i hi
      simpa using hi
  | k + 2, hf => simp [careful] at hf

theorem careful_oneName : OneName Func.Marked careful := by
  intro k f hf n x y ox oy hm h1 h2 h3
  match k, hf with
  | 0, hf =>
    simp only [careful, List.getElem?_cons_zero, Option.some.injEq] at hf
    subst hf
    match n with
    | 0 =>
      match x, y with
      | 0, 0 | 1, 1 => rfl
      | 0, 1 | 1, 0 =>
        simp [Func.after, Func.start] at h1 h2
        rw [← h1, ← h2] at h3; simp at h3
      | x + 2, _ => simp [Func.after, Func.start] at h1
      | _, y + 2 => simp [Func.after, Func.start] at h2
    | n + 1 =>
      have key : ∀ z oz, (Func.after (effects (careful.take 0)) ⟨[⟨true, 1⟩, ⟨false, 1⟩],
          [.declare 2 ⟨true, 0⟩ (.new 0), .store 1 [.at] (.add (.index 0 [.at]) (.var 2))]⟩
            (n + 1)).env z = some oz → oz.id = z := by
        intro z oz hz
        have hz' : put (fun x => (([⟨true, 1⟩, ⟨false, 1⟩] : List Ty)[x]?).map fun t =>
            (⟨x, t.rank⟩ : Obj)) 2 ⟨2, 0⟩ z = some oz := by
          match n, hz with
          | 0, hz => exact hz
          | n + 1, hz =>
            simp only [Func.after, List.take_succ_cons, List.take_nil] at hz
            exact hz
        by_cases h2 : z = 2
        · subst h2; rw [put_self] at hz'; simp at hz'; rw [← hz']
        · rw [put_ne _ _ _ _ h2] at hz'
          cases hp : ([⟨true, 1⟩, ⟨false, 1⟩] : List Ty)[z]? with
          | none => rw [hp] at hz'; simp at hz'
          | some t => rw [hp] at hz'; simp at hz'; rw [← hz']
      rw [key x ox h1, key y oy h2] at h3
      exact h3.symm
  | 1, hf =>
    simp only [careful, List.getElem?_cons_succ, List.getElem?_cons_zero, Option.some.injEq] at hf
    subst hf
    have key : ∀ z oz, (Func.after (effects (careful.take 1)) ⟨[⟨true, 2⟩, ⟨false, 1⟩],
        [.call 0 [.index 0 [.at], .var 1], .store 1 [.slice] (.index 0 [.at, .slice])]⟩
          n).env z = some oz → oz.id = z := by
      intro z oz hz
      have hz' : (([⟨true, 2⟩, ⟨false, 1⟩] : List Ty)[z]?).map (fun t => (⟨z, t.rank⟩ : Obj))
          = some oz := by
        match n, hz with
        | 0, hz => exact hz
        | 1, hz => exact hz
        | n + 2, hz =>
          simp only [Func.after, List.take_succ_cons, List.take_nil] at hz
          exact hz
      cases hp : ([⟨true, 2⟩, ⟨false, 1⟩] : List Ty)[z]? with
      | none => rw [hp] at hz'; simp at hz'
      | some t => rw [hp] at hz'; simp at hz'; rw [← hz']
    rw [key x ox h1, key y oy h2] at h3
    exact h3.symm
  | k + 2, hf => simp [careful] at hf

/-- The module above meets the hypotheses: it is accepted, a row of the marked array is passed to a
marked parameter and read, and the other parameters are written. -/
example : accept [] careful = true ∧ Direct Func.Marked careful ∧ OneName Func.Marked careful ∧
    effects careful = [[false, true], [false, true]] ∧ AllKept Func.Marked careful :=
  ⟨by decide, careful_direct, careful_oneName, by decide,
    C187_partial _ (by decide) careful_direct careful_oneName⟩

/-- C187.  Which assignments to a marked array are reported, exactly: those whose subscripts are all
slices.  One subscript that is an integer is enough for the assignment to be accepted. -/
theorem C187_store_iff (sigs : List (List Ty)) (Γ : Name → Option Var) (x : Name) (v : Var)
    (ixs : List Ix) (r : Nat) (hx : Γ x = some v) (hf : v.ty.final = true) (hne : ixs ≠ [])
    (hl : ixs.length ≤ v.ty.rank) (hr : r ≤ keeps v.ty.rank ixs) :
    (check sigs Γ (.store x ixs (.new r))).isSome = true ↔ Ix.at ∈ ixs := by
  have key : (∀ i ∈ ixs, i = .slice) ↔ Ix.at ∉ ixs := by
    constructor
    · intro h hm; exact absurd (h _ hm) (by simp)
    · intro h i hi
      cases i with
      | «at» => exact absurd hi h
      | slice => rfl
  have hrk := indexTy_rank v.ty ixs
  have hfin := indexTy_final v.ty ixs hl hne
  simp only [check, exprTy, hx]
  rw [if_pos ⟨hne, hl⟩]
  simp only
  by_cases hm : Ix.at ∈ ixs
  · have : (indexTy v.ty ixs).final ≠ true := fun hc => (key.mp (hfin.mp hc).2) hm
    rw [if_neg this, if_pos (by rw [hrk]; exact hr)]
    simp [hm]
  · rw [if_pos (hfin.mpr ⟨hf, key.mpr hm⟩)]
    simp [hm]

example : (check [] (put (fun _ => none) 0 ⟨⟨true, 2⟩, false⟩) (.store 0 [.slice, .at] (.new 1))).isSome
    = true := by decide

/-- C187.  A marked name never gets another value by `x = e` or `x op= e`, and no assignment to slices of
all dimensions is accepted: whatever the expression and the other variables are. -/
theorem C187_whole (sigs : List (List Ty)) (Γ : Name → Option Var) (x : Name) (v : Var) (e : Expr)
    (hx : Γ x = some v) (hf : v.ty.final = true) :
    check sigs Γ (.assign x e) = none ∧ check sigs Γ (.aug x e) = none ∧
      (∀ t, check sigs Γ (.declare x t e) = none) ∧
      ∀ ixs, (∀ i ∈ ixs, i = .slice) →
        check sigs Γ (.store x ixs e) = none ∧ check sigs Γ (.augAt x ixs e) = none := by
  refine ⟨?_, ?_, ?_, ?_⟩
  · simp only [check]
    cases exprTy Γ e with
    | none => rfl
    | some t => simp [hx, hf]
  · simp only [check, exprTy, hx, Option.map_some]
    cases exprTy Γ e with
    | none => rfl
    | some t => simp [hf]
  · intro t
    simp [check, hx]
  · intro ixs hs
    simp only [check, exprTy, hx]
    by_cases hl : ixs ≠ [] ∧ ixs.length ≤ v.ty.rank
    · rw [if_pos hl]
      have := (indexTy_final v.ty ixs hl.2 hl.1).mpr ⟨hf, hs⟩
      cases exprTy Γ e with
      | none => exact ⟨rfl, rfl⟩
      | some t => simp [this]
    · rw [if_neg hl]
      exact ⟨rfl, rfl⟩

example : put (fun _ => none) 0 (⟨⟨true, 1⟩, false⟩ : Var) 0 = some ⟨⟨true, 1⟩, false⟩ := rfl

/-- C187 fails: `def f(a: Final[float[:]]): a[0] = 1.0` is accepted and changes the array (in C, where
the elements of an argument that is a constant structure can be assigned). -/
theorem C187_element_violated : ∃ f : Func, accept [] [f] = true ∧ f.MarkedParam 0 ∧
    OneName Func.Marked [f] ∧ ¬ Kept (f.run []) 0 := by
  refine ⟨⟨[⟨true, 1⟩], [.store 0 [.at] (.new 0)]⟩, by decide, ⟨⟨true, 1⟩, rfl, rfl⟩, ?_, ?_⟩
  · intro k f hf n x y ox oy _ h1 h2 h3
    match k, hf with
    | 0, hf =>
      simp only [List.getElem?_cons_zero, Option.some.injEq] at hf
      subst hf
      have key : ∀ z oz, (Func.after (effects ([].take 0)) ⟨[⟨true, 1⟩],
          [.store 0 [.at] (.new 0)]⟩ n).env z = some oz → z = 0 := by
        intro z oz hz
        have hz' : (([⟨true, 1⟩] : List Ty)[z]?).map (fun t => (⟨z, t.rank⟩ : Obj)) = some oz := by
          match n, hz with
          | 0, hz => exact hz
          | n + 1, hz =>
            simp only [Func.after, List.take_succ_cons, List.take_nil] at hz
            exact hz
        match z, hz' with
        | 0, _ => rfl
        | z + 1, hz' => simp at hz'
      rw [key x ox h1, key y oy h2]
    | k + 1, hf => simp at hf
  · intro h
    exact h.2 ⟨0, 1⟩ rfl (by decide)

/-- C187 fails: a marked array can be passed to a function that changes it,
`def g(b: float[:]): b[:] = 0.0` and `def f(a: Final[float[:]]): g(a)` are accepted. -/
theorem C187_call_violated : ∃ g f : Func, accept [] [g, f] = true ∧ f.MarkedParam 0 ∧
    (∀ x, ¬ g.Marked x) ∧ (∀ x ixs e, Stmt.store x ixs e ∉ f.body) ∧
    ¬ Kept (f.run (effects [g])) 0 := by
  refine ⟨⟨[⟨false, 1⟩], [.store 0 [.slice] (.new 0)]⟩, ⟨[⟨true, 1⟩], [.call 0 [.var 0]]⟩, by decide,
    ⟨⟨true, 1⟩, rfl, rfl⟩, ?_, ?_, ?_⟩
  · rintro x (⟨t, h1, h2⟩ | ⟨t, e, h1, _⟩)
    · match x, h1 with
      | 0, h1 =>
        simp only [List.getElem?_cons_zero, Option.some.injEq] at h1
        rw [← h1] at h2; simp at h2
      | x + 1, h1 => simp at h1
    · simp at h1
  · intro x ixs e h
    simp at h
  · intro h
    exact h.2 ⟨0, 1⟩ rfl (by decide)

/-- C187 fails in C and in Fortran: a row of a marked array gets a name that is not marked,
`def f(a: Final[float[:,:]]): r = a[0]; r[0] = 1.0` is accepted and compiles (the pointer `r` is not
subject to `intent(in)`), and changes the array. -/
theorem C187_row_violated : ∃ f : Func, accept [] [f] = true ∧ compiles [] [f] = true ∧
    f.MarkedParam 0 ∧ ¬ Kept (f.run []) 0 := by
  refine ⟨⟨[⟨true, 2⟩], [.assign 1 (.index 0 [.at]), .store 1 [.at] (.new 0)]⟩, by decide, by decide,
    ⟨⟨true, 2⟩, rfl, rfl⟩, ?_⟩
  intro h
  exact h.2 ⟨0, 2⟩ rfl (by decide)

/-- C187 fails in C and in Fortran: a pointer that is not marked is set to a marked array,
`def f(a: Final[float[:]], b: float[:]): r = b; r = a; r[:] = 1.0` is accepted and compiles, because the
types of pointers are not compared. -/
theorem C187_pointer_violated : ∃ f : Func, accept [] [f] = true ∧ compiles [] [f] = true ∧
    f.MarkedParam 0 ∧ ¬ Kept (f.run []) 0 := by
  refine ⟨⟨[⟨true, 1⟩, ⟨false, 1⟩],
    [.assign 2 (.var 1), .assign 2 (.var 0), .store 2 [.slice] (.new 0)]⟩, by decide, by decide,
    ⟨⟨true, 1⟩, rfl, rfl⟩, ?_⟩
  intro h
  exact h.2 ⟨0, 1⟩ rfl (by decide)

/-- C187.  A new name for a marked array, or for slices of all its dimensions, is not accepted, so that
the two violations above are the only ways to get a second name for its memory. -/
theorem C187_name (sigs : List (List Ty)) (Γ : Name → Option Var) (x y : Name) (v : Var) (e : Expr)
    (hy : Γ y = some v) (hf : v.ty.final = true) (hr : v.ty.rank ≠ 0) (hx : Γ x = none)
    (he : e = .var y ∨ ∃ ixs, e = .index y ixs ∧ ∀ i ∈ ixs, i = .slice) :
    check sigs Γ (.assign x e) = none := by
  simp only [check]
  cases ht : exprTy Γ e with
  | none => rfl
  | some t =>
    have key : t.final = true ∧ t.rank ≠ 0 := by
      rcases he with he | ⟨ixs, he, hs⟩
      · subst he
        simp only [exprTy, hy, Option.map_some, Option.some.injEq] at ht
        rw [← ht]; exact ⟨hf, hr⟩
      · subst he
        simp only [exprTy, hy] at ht
        split at ht
        · rename_i hl
          simp only [Option.some.injEq] at ht
          have hfin := (indexTy_final v.ty ixs hl.2 hl.1).mpr ⟨hf, hs⟩
          have hrk := indexTy_rank v.ty ixs
          rw [← ht]
          refine ⟨hfin, ?_⟩
          rw [hrk]
          have hc := (all_slice_iff ixs).mp hs
          unfold keeps
          omega
        · simp at ht
    simp only [hx]
    unfold infer
    rw [if_neg key.2, if_pos key.1]

example : check [] (put (fun _ => none) 0 ⟨⟨true, 2⟩, false⟩) (.assign 1 (.index 0 [.slice, .slice]))
    = none := by decide

/-- C187 (Fortran).  If the generated code compiles, a marked parameter is never changed, as long as its
memory has no second name: assignments of elements and calls that could change it do not compile. -/
theorem C187_fortran_partial (fs : List Func) (ha : accept [] fs = true)
    (hc : compiles [] fs = true) (ho : OneName Func.MarkedParam fs) :
    AllKept Func.MarkedParam fs := by
  have hd : Direct Func.MarkedParam fs := by
    intro k f hf st hst
    have := compiles_get fs [] hc k f hf st hst
    simp only [List.nil_append] at this
    exact direct_of_fortran this
  intro k f hf x hx
  exact (all_kept Func.MarkedParam (fun _ _ h => h) (fun _ _ h => Or.inl h) fs ha hd ho fs.length
    (Nat.le_refl _)).2 k f (List.getElem?_eq_some_iff.mp hf).1 hf x hx

example : compiles [] careful = true ∧ AllKept Func.MarkedParam careful :=
  ⟨by decide, C187_fortran_partial careful (by decide) (by decide)
    (fun k f hf n x y ox oy hm => careful_oneName k f hf n x y ox oy (Or.inl hm))⟩

/-- C187 fails in Fortran too for local variables, which are declared without any restriction:
`def f(): a: Final[float[:]] = np.zeros(3); a[0] = 1.0` is accepted and compiles. -/
theorem C187_local_violated : ∃ f : Func, accept [] [f] = true ∧ compiles [] [f] = true ∧
    f.Marked 0 ∧ ¬ Kept (f.run []) 0 := by
  refine ⟨⟨[], [.declare 0 ⟨true, 1⟩ (.new 1), .store 0 [.at] (.new 0)]⟩, by decide, by decide,
    Or.inr ⟨⟨true, 1⟩, .new 1, by simp, rfl⟩, ?_⟩
  intro h
  exact h.2 ⟨0, 1⟩ rfl (by decide)

/-! ## C188: what is marked as `Final` can be read -/

/-- The annotations of the variables. -/
def tys (Γ : Name → Option Var) : Name → Option Ty := fun x => (Γ x).map Var.ty

theorem legal_ty (Γ : Name → Option Var) : ∀ e, Legal (tys Γ) e → ∃ t, exprTy Γ e = some t
  | .new r, _ => ⟨_, rfl⟩
  | .var x, h => by
      simp only [Legal, tys] at h
      exact Option.isSome_iff_exists.mp h
  | .index x ixs, h => by
      obtain ⟨t, h1, h2, h3⟩ := h
      simp only [tys] at h1
      cases hv : Γ x with
      | none => rw [hv] at h1; simp at h1
      | some v =>
        rw [hv] at h1
        simp only [Option.map_some, Option.some.injEq] at h1
        rw [← h1] at h3
        exact ⟨_, by simp only [exprTy, hv]; rw [if_pos ⟨h2, h3⟩]⟩
  | .neg e, h => legal_ty Γ e h
  | .add a b, h => by
      obtain ⟨s, hs⟩ := legal_ty Γ a h.1
      obtain ⟨t, ht⟩ := legal_ty Γ b h.2
      exact ⟨_, by simp only [exprTy, hs, ht]; rfl⟩

theorem whole_iff (Γ : Name → Option Var) : ∀ e t, exprTy Γ e = some t →
    ((t.final = true ∧ t.rank ≠ 0) ↔ Whole (tys Γ) e)
  | .new r, t, ht => by
      simp only [exprTy, Option.some.injEq] at ht
      subst ht
      constructor
      · intro h; simp at h
      · intro h; cases h
  | .var x, t, ht => by
      simp only [exprTy] at ht
      constructor
      · intro h; exact .var x t ht h.1 h.2
      · intro h
        cases h with
        | var _ t' h1 h2 h3 =>
          simp only [tys] at h1
          rw [h1] at ht
          have ht : t' = t := by simpa using ht
          subst ht; exact ⟨h2, h3⟩
  | .index x ixs, t, ht => by
      simp only [exprTy] at ht
      cases hv : Γ x with
      | none => rw [hv] at ht; simp at ht
      | some v =>
        rw [hv] at ht
        simp only at ht
        split at ht
        · rename_i hl
          simp only [Option.some.injEq] at ht
          subst ht
          rw [indexTy_final v.ty ixs hl.2 hl.1, indexTy_rank]
          have hp : 0 < ixs.length := List.length_pos_iff.mpr hl.1
          constructor
          · intro h
            exact .index x v.ty ixs (by simp [tys, hv]) h.1.1 (by omega) h.1.2
          · intro h
            cases h with
            | index _ t' _ h1 h2 h3 h4 =>
              simp only [tys, hv, Option.map_some, Option.some.injEq] at h1
              subst h1
              refine ⟨⟨h2, h4⟩, ?_⟩
              have := (all_slice_iff ixs).mp h4
              unfold keeps; omega
        · simp at ht
  | .neg e, t, ht => by
      simp only [exprTy] at ht
      rw [whole_iff Γ e t ht]
      constructor
      · intro h; exact .neg e h
      · intro h; cases h with | neg _ h => exact h
  | .add a b, t, ht => by
      simp only [exprTy] at ht
      constructor
      · intro h
        cases ha : exprTy Γ a with
        | none => rw [ha] at ht; simp at ht
        | some s =>
          cases hb : exprTy Γ b with
          | none => rw [ha, hb] at ht; simp at ht
          | some u =>
            rw [ha, hb] at ht
            simp only [Option.some.injEq] at ht
            rw [← ht] at h; simp at h
      · intro h; cases h

/-- C188.  `y = e` with a new name `y` is accepted for every legal expression, exactly except when the
expression is a marked array as a whole, slices of all its dimensions, or the negative of one. -/
theorem C188_iff_partial (sigs : List (List Ty)) (Γ : Name → Option Var) (y : Name) (e : Expr)
    (hy : Γ y = none) (he : Legal (tys Γ) e) :
    (check sigs Γ (.assign y e)).isSome = true ↔ ¬ Whole (tys Γ) e := by
  obtain ⟨t, ht⟩ := legal_ty Γ e he
  rw [← whole_iff Γ e t ht]
  simp only [check, ht, hy]
  unfold infer
  by_cases hr : t.rank = 0
  · simp [hr]
  · rw [if_neg hr]
    by_cases hf : t.final = true
    · simp [hf, hr]
    · simp [hf]

/-- The sum of a marked array and one of its elements meets the hypotheses, and is accepted. -/
example : Legal (tys (put (fun _ => none) 0 ⟨⟨true, 2⟩, false⟩))
    (.add (.var 0) (.index 0 [.at, .at])) ∧
    (check [] (put (fun _ => none) 0 ⟨⟨true, 2⟩, false⟩)
      (.assign 1 (.add (.var 0) (.index 0 [.at, .at])))).isSome = true :=
  ⟨⟨rfl, ⟨true, 2⟩, rfl, by simp, by simp⟩, by decide⟩

/-- C188.  Marked numbers can be read everywhere, and the copy is an ordinary variable. -/
theorem C188_number (sigs : List (List Ty)) (Γ : Name → Option Var) (x y : Name) (v : Var)
    (hx : Γ x = some v) (hr : v.ty.rank = 0) (hy : Γ y = none) :
    check sigs Γ (.assign y (.var x)) = some (put Γ y ⟨⟨false, 0⟩, false⟩) := by
  simp only [check, exprTy, hx, hy, Option.map_some]
  unfold infer
  simp [hr, isView]

example : check [] (put (fun _ => none) 0 ⟨⟨true, 0⟩, false⟩) (.assign 1 (.var 0)) ≠ none := by decide

/-- C188 fails: `def f(a: Final[float[:]]): b = -a` is rejected with "Cannot modify variable marked as
Final", although it only reads `a`; `b = 0.0 - a`, with the same value, is accepted. -/
theorem C188_negative_violated : ∃ f : Func, f.body = [.assign 1 (.neg (.var 0))] ∧
    (∀ x, f.Marked x → Kept (f.run []) x) ∧ accept [] [f] = false ∧
    accept [] [{ f with body := [.assign 1 (.add (.new 0) (.var 0))] }] = true := by
  refine ⟨⟨[⟨true, 1⟩], [.assign 1 (.neg (.var 0))]⟩, rfl, ?_, by decide, by decide⟩
  intro x _
  exact ⟨by simp [Func.run, Func.start, Run.step, Run.bind], by
    simp [Func.run, Func.start, Run.step, Run.bind]⟩

end Verif.Finals
