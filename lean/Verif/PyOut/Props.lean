/-
C177 – C179: the code that is printed for `language='python'`.
-/
import Verif.PyOut.Lemmas
import Verif.PyOut.LemmasBlocks

namespace Verif.PyOut.Props

open Spec Model Lemmas LemmasBlocks

/-! ## C177: functions with several types -/

/-- C177: the tests that are printed never raise an exception, whatever the arguments are, and the imports of all the bodies are executed. -/
theorem C177_no_exception (fs : List Func) (env : Nat → Val) (hne : fs ≠ []) (h0 : ∀ f ∈ fs, f.types ≠ []) (hT : ∀ f ∈ fs, ∀ t ∈ f.types, Testable t) :
    ∃ p, interface fs = some p ∧ p.run env ≠ none ∧ ∀ f ∈ fs, ∀ i ∈ f.imports, i ∈ p.imports := by
  obtain ⟨p, hp, hi, r, hr, _⟩ := interface_spec fs env hne h0 hT
  exact ⟨p, hp, by rw [hr]; simp, hi⟩

/-- C177: a body is only run for arguments that are accepted for the types it was made for (unless all the bodies are the same). -/
theorem C177_accepted (fs : List Func) (env : Nat → Val) (hne : fs ≠ []) (h0 : ∀ f ∈ fs, f.types ≠ []) (hT : ∀ f ∈ fs, ∀ t ∈ f.types, Testable t)
    (p : Printed) (hp : interface fs = some p) (b : Nat) (hb : p.run env = some (some b)) :
    (∀ f ∈ fs, f.body = b) ∨ ∃ f ∈ fs, f.body = b ∧ Accepted env f := by
  obtain ⟨p', hp', _, r, hr, h⟩ := interface_spec fs env hne h0 hT
  rw [hp] at hp'
  cases hp'
  rw [hb] at hr
  cases hr
  rcases h with ⟨b', h1, h2⟩ | ⟨h1, _⟩
  · cases h1; exact Or.inl h2
  · exact Or.inr (h1 b rfl)

/-- C177, partial: arguments that are accepted for the types of a function, and for those of no function with another body, run the body of this function.
Functions whose bodies are the same have the same imports.

Full statement: for all arguments whose types are exactly the declared ones the body for these types is run. It is false:
`C177_bool_violated`, `C177_empty_list_violated`. -/
theorem C177_dispatch_partial (fs : List Func) (env : Nat → Val) (h0 : ∀ f ∈ fs, f.types ≠ []) (hT : ∀ f ∈ fs, ∀ t ∈ f.types, Testable t)
    (hi : ∀ f ∈ fs, ∀ g ∈ fs, f.body = g.body → f.imports = g.imports)
    (f : Func) (hf : f ∈ fs) (ha : Accepted env f) (ho : ∀ g ∈ fs, g.body ≠ f.body → ¬ Accepted env g) :
    ∃ p, interface fs = some p ∧ p.run env = some (some f.body) ∧ ∀ i ∈ f.imports, i ∈ p.imports := by
  obtain ⟨p, hp, him, r, hr, h⟩ := interface_spec fs env (by rintro rfl; cases hf) h0 hT
  refine ⟨p, hp, ?_, him f hf⟩
  rcases h with ⟨b, rfl, h⟩ | ⟨h1, h2⟩
  · rw [hr, h f hf]
  · cases r with
    | none => exact absurd ha (h2 rfl hi f hf)
    | some b =>
      obtain ⟨g, hg, rfl, hacc⟩ := h1 b rfl
      by_cases hgf : g.body = f.body
      · rw [hr, hgf]
      · exact absurd hacc (ho g hg hgf)

/-- C177, partial: if the types of functions with different bodies cannot be confused at one of the arguments, then arguments of exactly the declared
types run the body for these types. -/
theorem C177_exact_types_partial (fs : List Func) (env : Nat → Val) (h0 : ∀ f ∈ fs, f.types ≠ []) (hT : ∀ f ∈ fs, ∀ t ∈ f.types, Testable t)
    (hi : ∀ f ∈ fs, ∀ g ∈ fs, f.body = g.body → f.imports = g.imports)
    (f : Func) (hf : f ∈ fs) (hm : Matches env f)
    (ho : ∀ g ∈ fs, g.body ≠ f.body → ∃ (k : Nat) (t u : Ty), f.types[k]? = some t ∧ g.types[k]? = some u ∧ Apart t u) :
    ∃ p, interface fs = some p ∧ p.run env = some (some f.body) ∧ ∀ i ∈ f.imports, i ∈ p.imports := by
  refine C177_dispatch_partial fs env h0 hT hi f hf (fun k t ht => has_fits t _ (hm k t ht)) (fun g hg hb hacc => ?_)
  obtain ⟨k, t, u, h1, h2, h3⟩ := ho g hg hb
  exact apart_not_fits t u _ (hm k t h1) h3 (hacc k u h2)

/-- `def f(x : 'int | float | float[:]', y : int)` with three bodies. -/
example : ∃ p, interface [⟨[.num .int, .num .int], [7], 1⟩, ⟨[.num .float, .num .int], [8], 2⟩, ⟨[.array .float 1 none, .num .int], [], 3⟩] = some p ∧
    p.run (fun n => if n = 0 then .obj .float else .obj .int) = some (some 2) ∧ ∀ i ∈ [8], i ∈ p.imports := by
  refine C177_exact_types_partial _ _ ?_ ?_ ?_ ⟨[.num .float, .num .int], [8], 2⟩ (by simp) ?_ ?_
  · simp
  · simp [Testable]
  · simp
  · intro k t h
    match k with
    | 0 => simp at h; subst h; rfl
    | 1 => simp at h; subst h; rfl
    | k + 2 => simp at h
  · intro g hg hb
    refine ⟨0, .num .float, (g.types[0]?).getD (.other 0), by simp, ?_, ?_⟩
    · simp at hg; rcases hg with rfl | rfl | rfl <;> rfl
    · simp at hg
      rcases hg with rfl | rfl | rfl
      · exact (by rfl : subclass .float .int = false)
      · exact absurd rfl hb
      · trivial

/-- C177 fails: for `def f(x : 'int | bool')` the test `isinstance(x, int)` comes first and also holds for `True`, which runs the body that was made for
integers. -/
theorem C177_bool_violated :
    ∃ (fs : List Func) (f : Func) (env : Nat → Val) (p : Printed), f ∈ fs ∧ Matches env f ∧ interface fs = some p ∧
      ∃ b, p.run env = some (some b) ∧ b ≠ f.body := by
  refine ⟨[⟨[.num .int], [], 1⟩, ⟨[.num .bool], [], 2⟩], ⟨[.num .bool], [], 2⟩, fun _ => .obj .bool, _, by simp, ?_, rfl, 1, rfl, by decide⟩
  intro k t h
  cases k with
  | zero => simp at h; subst h; rfl
  | succ k => simp at h

/-- C177 fails: for `def f(x : 'float | np.float64')` a value of type `np.float64` runs the body that was made for Python's floating-point numbers. -/
theorem C177_float64_violated :
    ∃ (fs : List Func) (f : Func) (env : Nat → Val) (p : Printed), f ∈ fs ∧ Matches env f ∧ interface fs = some p ∧
      ∃ b, p.run env = some (some b) ∧ b ≠ f.body := by
  refine ⟨[⟨[.num .float], [], 1⟩, ⟨[.num (.npFloat 64)], [], 2⟩], ⟨[.num (.npFloat 64)], [], 2⟩, fun _ => .obj (.npFloat 64), _, by simp, ?_, rfl,
    1, rfl, by decide⟩
  intro k t h
  cases k with
  | zero => simp at h; subst h; rfl
  | succ k => simp at h

/-- C177 fails: for `def f(x : 'list[int] | list[float]', y : 'int | float')` an empty list runs the body of the first type, also if it was the list of
floating-point numbers that the caller meant; for `y` the tests still decide. -/
theorem C177_empty_list_violated :
    ∃ (fs : List Func) (f : Func) (env : Nat → Val) (p : Printed), f ∈ fs ∧ Matches env f ∧ interface fs = some p ∧
      ∃ b, p.run env = some (some b) ∧ b ≠ f.body := by
  refine ⟨[⟨[.seq .list (.num .int)], [], 1⟩, ⟨[.seq .list (.num .float)], [], 2⟩], ⟨[.seq .list (.num .float)], [], 2⟩, fun _ => .seq .list [], _, by simp,
    ?_, rfl, 1, rfl, by decide⟩
  intro k t h
  cases k with
  | zero => simp at h; subst h; exact ⟨[], rfl, by simp⟩
  | succ k => simp at h

/-- C177 fails: a part of an array with two dimensions that is not contiguous is an array of the declared element type and rank, but none of the bodies is
run and the function returns `None`. The same holds for `None` given for an optional argument. -/
theorem C177_no_body_violated :
    ∃ (fs : List Func) (p : Printed), interface fs = some p ∧
      p.run (fun n => if n = 0 then .array .float 2 false false else .obj .int) = some none ∧
      p.run (fun n => if n = 0 then .array .float 2 true false else .obj .none) = some none := by
  exact ⟨[⟨[.array .float 2 (some .C), .num .int], [], 1⟩, ⟨[.array .int 2 (some .C), .num .int], [], 2⟩], _, rfl, rfl, rfl⟩

/-! ## C178: blocks -/

/-- C178, partial: if every block is empty or contains a statement for which something is printed, then the lines that are printed for a module are a
Python program, which can be read in one way only, and this program defines the same functions, in the same order, and each of them does what it did
before.

Full statement: the same for every program that is accepted. It is false: `C178_dead_branch_violated`. -/
theorem C178_module_partial (ds : List Def) (h : ∀ d ∈ ds, d.body.Filled ∧ (d.doc = true ∨ d.body = .nil ∨ d.body.shows = true)) :
    ∃ t, IsProgram (module ds) t ∧ (∀ t', Reads 0 (module ds) t' → t' = t) ∧
      ∀ (σ : Type) (S : Sem σ), t.functions.map (fun f => (f.1, f.2.means S)) = ds.map fun d => (d.name, d.body.means S) :=
  ⟨moduleTree ds, ⟨module_reads ds h, module_grammatical ds⟩, fun t' ht' => reads_unique (module_reads ds h) t' ht',
    fun _ S => module_functions S ds⟩

/-- C178, partial: the statements of a block. -/
theorem C178_block_partial (b : Code) (h : b.Filled) :
    ∃ t, IsProgram (block b) t ∧ (∀ t', Reads 0 (block b) t' → t' = t) ∧ ∀ (σ : Type) (S : Sem σ), t.means S = b.means S :=
  ⟨bodyTree b, ⟨block_reads b h, bodyTree_grammatical b⟩, fun t' ht' => reads_unique (block_reads b h) t' ht', fun _ S => bodyTree_means S b⟩

/-- C178, partial: programs in which every block contains an ordinary statement, and in which no condition is known to be false when the program is
compiled, are printed as Python programs that do the same as what the semantic stage has made of them. -/
theorem C178_source_partial (p : Src) (h : p.plain = true) :
    ∃ t, IsProgram (block (visit p)) t ∧ (∀ t', Reads 0 (block (visit p)) t' → t' = t) ∧ ∀ (σ : Type) (S : Sem σ), t.means S = (visit p).means S :=
  C178_block_partial (visit p) (visit_filled p h).1

/-- `if a: for …: s`, `elif b: pass`, `else: # …; s`. -/
example :
    let p : Src := .ifs (.cons none 0 (.loop 1 (.stmt 2 .nil) .nil) (.cons none 3 (.pass .nil)
      (.cons (some true) 0 (.comment (.stmt 4 .nil)) .nil))) .nil
    p.plain = true ∧ block (visit p) = [⟨0, .head (.if_ (.expr 0))⟩, ⟨4, .head (.loop 1)⟩, ⟨8, .stmt 2⟩, ⟨0, .head (.elif_ (.expr 3))⟩, ⟨4, .pass⟩,
      ⟨0, .head .else_⟩, ⟨4, .comment⟩, ⟨4, .stmt 4⟩] := by decide

/-- C178 fails: `for i in range(n):` with the only statement `if False: …` (or `if isinstance(x, int): …` for an `x` that is known to be something else): the
`if` block is left without sections, nothing is printed for it, and the loop has no body, so the text is not a Python program. -/
theorem C178_dead_branch_violated :
    ∃ p : Src, ¬ ∃ t, IsProgram (block (visit p)) t := by
  refine ⟨.loop 0 (.ifs (.cons (some false) 0 (.stmt 1 .nil) .nil) .nil) .nil, ?_⟩
  rintro ⟨t, h, _⟩
  have hl : block (visit (.loop 0 (.ifs (.cons (some false) 0 (.stmt 1 .nil) .nil) .nil) .nil)) = [⟨0, .head (.loop 0)⟩] := by decide
  rw [hl] at h
  generalize hL : [(⟨0, .head (.loop 0)⟩ : Line)] = L at h
  cases h with
  | nil => cases hL
  | skip k hw _ => simp only [List.cons.injEq, Line.mk.injEq] at hL; rw [← hL.1.2] at hw; cases hw
  | stmt => simp at hL
  | pass => simp at hL
  | doc => simp at hL
  | @block _ m _ body rest b t hm hb hne hr =>
    simp only [List.cons.injEq] at hL
    have hb0 : body = [] := by
      cases body with
      | nil => rfl
      | cons => simp at hL
    subst hb0
    cases hb
    exact hne rfl

/-! ## C179: assignments to arrays -/

/-- C179, partial: the printed assignment gives to the left-hand side the value that it has in the program, provided that an array which is copied into
part of another one has the same order as this one (`x.T` can always be copied).

Full statement: the same for all assignments. It is false: `C179_order_violated`. -/
theorem C179_assign_partial {α : Type} (l : Lhs) (r : Rhs) (o : Order) (x : Arr α) (h : ∀ ol, l = .slice ol → r = .var → ol = o) :
    (if (printAssign l r o).tr then x.transpose else x) = r.value x ∧ ((printAssign l r o).slice = true ↔ l ≠ .name) := by
  cases l with
  | name => cases r <;> cases o <;> exact ⟨rfl, by decide⟩
  | slice ol =>
    cases r with
    | tr => cases ol <;> cases o <;> exact ⟨rfl, by decide⟩
    | var =>
      have := h ol rfl rfl
      subst this
      cases ol <;> exact ⟨rfl, by decide⟩

example : (printAssign .name .tr .C).tr = true ∧ (printAssign (.slice .F) .var .F).tr = false := by decide

/-- C179 fails: `y[:, :] = x` for `y` in the order of Fortran and `x` in the order of C is printed as `y[:, :] = x.T`, which is another array (or an error if
the shape is not square). -/
theorem C179_order_violated :
    ∃ (x : Arr Nat) (i : List Nat), (if (printAssign (.slice .F) .var .C).tr then x.transpose else x).at_ i ≠ (Rhs.var.value x).at_ i :=
  ⟨⟨[2, 2], fun i => i.headD 0⟩, [0, 1], by decide⟩

end Verif.PyOut.Props
