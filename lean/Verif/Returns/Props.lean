import Verif.Returns.Lemmas
/-
C167: a function returns the values of its `return` statement.
C168: in C, the value of a `return` statement is the one of Python.
-/
namespace Verif.Returns.Props
open Verif.Returns.Spec Verif.Returns.Model Verif.Returns.Lemmas

/-- New names are new. -/
def New (f : Fn) : Prop :=
  (∀ i j, f.fresh i = f.fresh j → i = j) ∧ (∀ i, f.fresh i ∉ f.locals ∧ f.fresh i ∉ f.params) ∧
    ∀ i, ∀ r ∈ f.rets, ∀ e ∈ r, ¬ e.Reads (f.fresh i)

theorem names_get (f : Fn) (n i : Nat) (hi : i < (names f n).length) : (names f n)[i] = resName f i := by
  simp [names]

theorem resName_cases (f : Fn) (i : Nat) :
    resName f i = f.fresh i ∨ (f.annotated = false ∧ resName f i ∈ f.locals ∧ only (symbols f.rets i) = some (resName f i)) := by
  unfold resName
  by_cases ha : f.annotated = true
  · simp [ha]
  · simp only [Bool.not_eq_true] at ha
    simp only [ha, Bool.false_eq_true, if_false]
    cases h : only (symbols f.rets i) with
    | none => simp
    | some x =>
      by_cases hx : x ∉ f.params ∧ x ∈ f.locals
      · simp [hx]
      · simp [hx]

/-- C167: if no result variable that is assigned by a `return` is read by a later value of it, the caller gets the values of Python. -/
theorem C167_partial (f : Fn) (es : List Expr) (s : St) (hc : compiles f es.length = true)
    (h : ∀ i j, i < j → j < es.length → es[i]? ≠ some (.var (resName f i)) → ∀ e, es[j]? = some e → ¬ e.Reads (resName f i)) :
    run f es s = pyReturn s es := by
  have hnd : (names f es.length).Nodup := by
    simp only [compiles, Bool.and_eq_true, decide_eq_true_eq] at hc; exact hc.2
  have hlen : (names f es.length).length = es.length := by simp [names]
  unfold run
  rw [if_pos hc]
  refine (results_pass id (names f es.length) es s hlen hnd ?_).1
  intro i j hi hj hij hne
  rw [names_get] at hne ⊢
  exact h i j hij hj hne _ (by simp [hj])

/-- C167: if there is one value, it is right. -/
theorem C167_one_value (f : Fn) (e : Expr) (s : St) (hc : ∀ r ∈ f.rets, r.length = 1) : run f [e] s = (eval s e).map fun v => [v] := by
  have hcc : compiles f [e].length = true := by
    simp only [compiles, List.length_singleton, Bool.and_eq_true, List.all_eq_true, beq_iff_eq, decide_eq_true_eq]
    exact ⟨hc, by simp [names, List.range_succ]⟩
  rw [C167_partial f [e] s hcc (by intro i j h1 h2; simp at h2; omega)]
  simp only [pyReturn]
  cases eval s e <;> rfl

/-- C167: if the type of the tuple is given, all values are right. -/
theorem C167_annotated (f : Fn) (es : List Expr) (s : St) (hn : New f) (ha : f.annotated = true) (hes : es ∈ f.rets)
    (hlen : ∀ r ∈ f.rets, r.length = es.length) : run f es s = pyReturn s es := by
  have hname : ∀ i, resName f i = f.fresh i := fun i => by simp [resName, ha]
  have hcc : compiles f es.length = true := by
    simp only [compiles, Bool.and_eq_true, List.all_eq_true, beq_iff_eq, decide_eq_true_eq]
    refine ⟨hlen, ?_⟩
    simp only [names, List.Nodup, List.pairwise_map]
    refine List.Pairwise.imp ?_ List.nodup_range
    intro a b hab h
    rw [hname, hname] at h
    exact hab (hn.1 _ _ h)
  refine C167_partial f es s hcc ?_
  intro i j _ _ _ e he
  rw [hname]
  exact hn.2.2 i es hes e (List.mem_of_getElem? he)

/-- C167: if the function has one `return` statement and no variable is written twice in it, all values are right. -/
theorem C167_one_return (f : Fn) (es : List Expr) (s : St) (hn : New f) (hr : f.rets = [es])
    (hd : ∀ (i j x : Nat), es[i]? = some (Expr.var x) → es[j]? = some (Expr.var x) → i = j) : run f es s = pyReturn s es := by
  have hsym : ∀ i x, only (symbols f.rets i) = some x → es[i]? = some (.var x) := by
    intro i x h
    rw [hr] at h
    simp only [symbols, List.filterMap_cons, List.filterMap_nil] at h
    split at h
    · cases h
    · next y hy =>
      split at hy
      · next z hz =>
        cases hy
        simp only [only, List.all_nil, if_true, Option.some.injEq] at h
        rw [hz, h]
      · cases hy
  have hcc : compiles f es.length = true := by
    simp only [compiles, Bool.and_eq_true, List.all_eq_true, beq_iff_eq, decide_eq_true_eq]
    refine ⟨fun r h => by rw [hr, List.mem_singleton] at h; rw [h], ?_⟩
    simp only [names, List.Nodup, List.pairwise_map]
    refine List.Pairwise.imp ?_ List.nodup_range
    intro a b hab h
    apply hab
    rcases resName_cases f a with h1 | ⟨_, h1, h1'⟩ <;> rcases resName_cases f b with h2 | ⟨_, h2, h2'⟩
    · exact hn.1 _ _ (by rw [← h1, ← h2, h])
    · exact absurd (by rw [← h1, h]; exact h2) (hn.2.1 a).1
    · exact absurd (by rw [← h2, ← h]; exact h1) (hn.2.1 b).1
    · exact hd a b _ (hsym _ _ h1') (by rw [h]; exact hsym _ _ h2')
  refine C167_partial f es s hcc ?_
  intro i j _ _ hne e he
  rcases resName_cases f i with h1 | ⟨_, h1, h1'⟩
  · rw [h1]
    exact hn.2.2 i es (by simp [hr]) e (List.mem_of_getElem? he)
  · exact absurd (hsym _ _ h1') hne

/-- `if …: return b + 1, a` and `return a, b`, with the variables a = 1, b = 2 of the function. -/
def f1 : Fn := ⟨[0], [1, 2], false, [[.add (.var 2) (.num 1), .var 1], [.var 1, .var 2]], (· + 10)⟩

/-- C167 fails: if another statement is `return a, b`, then `return b + 1, a` returns `b + 1` twice: the first result is the variable
`a`, which is changed before it is read. -/
theorem C167_violated_order (s : St) :
    run f1 [.add (.var 2) (.num 1), .var 1] s = some [s.vars 2 + 1, s.vars 2 + 1] ∧
    pyReturn s [.add (.var 2) (.num 1), .var 1] = some [s.vars 2 + 1, s.vars 1] := by
  constructor
  · have hc : compiles f1 2 = true := by decide
    have hn : names f1 2 = [1, 11] := by decide
    simp only [run, List.length_cons, List.length_nil, hc, if_true, hn]
    simp [assigns, exec, eval, St.put, upd, results]
  · simp [pyReturn, eval]

/-- C167 fails: `return x, x` does not compile, since both results have the name `x`. -/
theorem C167_violated_twice (params locals : List Nat) (fresh : Nat → Nat) (x : Nat) (s : St) (hp : x ∉ params) (hl : x ∈ locals) :
    run ⟨params, locals, false, [[.var x, .var x]], fresh⟩ [.var x, .var x] s = none := by
  have h : ∀ i, i < 2 → resName ⟨params, locals, false, [[.var x, .var x]], fresh⟩ i = x := by
    intro i hi
    have : i = 0 ∨ i = 1 := by omega
    rcases this with rfl | rfl <;> simp [resName, symbols, only, hp, hl]
  have : names ⟨params, locals, false, [[.var x, .var x]], fresh⟩ 2 = [x, x] := by
    simp [names, List.range_succ, h 0, h 1]
  simp [run, compiles, this]

/-- The hypotheses are met: `return x, x + y, y` with the local variables x = 1, y = 2 and a parameter 0. -/
example (s : St) : run ⟨[0], [1, 2], false, [[.var 1, .add (.var 1) (.var 2), .var 2, .var 0]], (· + 10)⟩
    [.var 1, .add (.var 1) (.var 2), .var 2, .var 0] s = some [s.vars 1, s.vars 1 + s.vars 2, s.vars 2, s.vars 0] := by
  rw [C167_one_return _ _ _ ?_ rfl ?_]
  · simp [pyReturn, eval]
  · refine ⟨fun i j h => by simpa using h, fun i => by simp, fun i r hr e he => ?_⟩
    simp at hr; subst hr
    simp at he
    rcases he with rfl | rfl | rfl | rfl <;> simp [Expr.Reads] <;> omega
  · intro i j x h1 h2
    rcases i with _ | _ | _ | _ | i <;> rcases j with _ | _ | _ | _ | j <;> simp at h1 h2 <;> omega

example : New { f1 with annotated := true } := by
  refine ⟨fun i j h => by simpa [f1] using h, fun i => by simp [f1], fun i r hr e he => ?_⟩
  simp [f1] at hr
  rcases hr with rfl | rfl <;> simp at he <;> rcases he with rfl | rfl <;> simp [Expr.Reads, f1] <;> omega

example (s : St) : run f1 [.var 1, .var 2] s = some [s.vars 1, s.vars 2] := by
  rw [C167_partial f1 _ s (by decide) ?_]
  · simp [pyReturn, eval]
  · intro i j h1 h2 h3 e he
    have : i = 0 := by simp at h2; omega
    subst this
    exact absurd (by decide) h3

/-! ## One value in C -/

/-- C168: `return e` returns the value of `e`, in C and in Fortran; `fr` are the arrays that are freed. -/
theorem C168_expression (after : Int → Int) (low : Int) (r : Nat) (e : Expr) (fr : List Nat) (s : St) :
    runC after low r (.plain e) fr s = pyValue after low s (.plain e) ∧ runF after low r (.plain e) fr s = pyValue after low s (.plain e) := by
  simp only [runC, runF, lower, pyValue]
  by_cases he : e = .var r
  · subst he
    rw [if_pos rfl]
    constructor
    · have := printC_var after r .done fr s (by intro x e h; cases h)
      simpa [Code.andThen, exec, eval] using this
    · obtain ⟨t, h1, h2⟩ := exec_frees after fr s
      simp [h1, h2, eval]
  · rw [if_neg he]
    exact ⟨by simpa [Code.andThen, exec] using printC_assign after r r .done e fr s (fun _ => rfl), assign_frees after r e fr s⟩

/-- C168 in Fortran: `return g(…)` with `@inline` returns what Python returns. -/
theorem C168_inline_fortran (after : Int → Int) (low : Int) (r : Nat) (b : Code) (e : Expr) (fr : List Nat) (s : St) :
    runF after low r (.inlined b e) fr s = pyValue after low s (.inlined b e) := by
  simp only [runF, lower, pyValue, exec_andThen]
  cases exec after b s with
  | none => rfl
  | some t =>
    by_cases he : e = .var r
    · subst he
      rw [if_pos rfl]
      obtain ⟨u, h1, h2⟩ := exec_frees after fr t
      simp [h1, h2, eval]
    · rw [if_neg he]
      exact assign_frees after r e fr t

/-- C168 in C: `return g(…)` returns what Python returns if `g` ends with `return e` for an expression, or with an assignment to the
variable that it returns, or if its last assignment is one with an operator, to an array or from an array. -/
theorem C168_inline_c_partial (after : Int → Int) (low : Int) (r : Nat) (b : Code) (e : Expr) (fr : List Nat) (s : St)
    (h : e ≠ .var r ∨ b.EndsWith r ∨ ∀ e, b.lastSet = some (true, e) → e.usesArray = true) :
    runC after low r (.inlined b e) fr s = pyValue after low s (.inlined b e) := by
  simp only [runC, lower, pyValue]
  by_cases he : e = .var r
  · subst he
    rw [if_pos rfl]
    rcases h with h | h | h
    · exact absurd rfl h
    · obtain ⟨d, f, rfl⟩ := endsWith_split h
      have := printC_assign after r r d f fr s (fun _ => rfl)
      rw [andThen_assoc]
      simp only [Code.andThen]
      rw [this, exec_andThen]
      cases exec after d s with
      | none => rfl
      | some t =>
        simp only [Option.bind_some, exec, eval]
        cases eval t f with
        | none => rfl
        | some v => simp [St.put]
    · rw [printC_var after r b fr s (fun x e hl => h e (last_assign hl))]
      cases exec after b s <;> rfl
  · rw [if_neg he]
    exact printC_assign after r r b e fr s (fun _ => rfl)

/-- C168 in C: what is returned if `g` ends with `if … else …` and returns a variable: the value of the last expression that is assigned
in the text of the `else` branch, whichever branch was taken. -/
theorem C168_branch_c (after : Int → Int) (low : Int) (r : Nat) (b a d : Code) (c e : Expr) (fr : List Nat) (s : St)
    (hl : d.lastSet = some (true, e)) (ha : e.usesArray = false) :
    runC after low r (.inlined (b.andThen (.ite c a d .done)) (.var r)) fr s =
      (exec after (b.andThen (.ite c a d .done)) s).bind fun t => eval t e := by
  simp only [runC, lower, if_true]
  obtain ⟨x, hl⟩ := lastSet_plain hl
  refine printC_block after r x b (.ite c a d .done) e fr s ?_ ?_ ha
  · simp [last, hl]
  · simp [Code.andThen, dropLast, last_frees]

/-- `if x: y = x + 0 else: y = 0 - x`; `return y`. -/
def absBody : Code := .ite (.var 0) (.assign 1 (.var 0) .done) (.assign 1 (.sub (.num 0) (.var 0)) .done) .done

/-- C168 fails in C: with an `@inline` function `if x: y = x else: y = 0 - x` that returns `y`, `return g(x)` is `-x` for every `x`. (The
result is a variable of the caller here; if its name is one that pyccel made, it is not declared and the code does not compile.) -/
theorem C168_violated_branch (after : Int → Int) (low : Int) (s : St) (h : s.vars 0 ≠ 0) :
    runC after low 1 (.inlined absBody (.var 1)) [] s = some (- s.vars 0) ∧
    pyValue after low s (.inlined absBody (.var 1)) = some (s.vars 0) ∧ runF after low 1 (.inlined absBody (.var 1)) [] s = some (s.vars 0) := by
  have hp : pyValue after low s (.inlined absBody (.var 1)) = some (s.vars 0) := by
    simp [pyValue, absBody, exec, eval, h, St.put]
  refine ⟨?_, hp, by rw [C168_inline_fortran, hp]⟩
  have := C168_branch_c after low 1 .done (.assign 1 (.var 0) .done) (.assign 1 (.sub (.num 0) (.var 0)) .done) (.var 0)
    (.sub (.num 0) (.var 0)) [] s rfl rfl
  unfold absBody
  simp only [Code.andThen] at this
  rw [this]
  simp [exec, eval, h, St.put, upd]

/-- C168 in C: what is returned if `g` ends with an assignment to another variable than the one it returns: that variable. -/
theorem C168_other_c (after : Int → Int) (low : Int) (r x : Nat) (b : Code) (e : Expr) (fr : List Nat) (s : St) (ha : e.usesArray = false) :
    runC after low r (.inlined (b.andThen (.assign x e .done)) (.var r)) fr s =
      (exec after (b.andThen (.assign x e .done)) s).map fun t => t.vars x := by
  simp only [runC, lower, if_true, andThen_assoc, Code.andThen]
  rw [printC_assign after r x b e fr s (fun h => by rw [ha] at h; cases h), exec_andThen]
  cases exec after b s with
  | none => rfl
  | some t =>
    simp only [Option.bind_some, exec]
    cases eval t e with
    | none => rfl
    | some v => simp [St.put]

/-- C168 fails in C: `y = x + 1`, `z = 2 * y`, `return y` returns `z`. -/
theorem C168_violated_other (after : Int → Int) (low : Int) (s : St) :
    runC after low 1 (.inlined (.assign 1 (.add (.var 0) (.num 1)) (.assign 2 (.mul (.num 2) (.var 1)) .done)) (.var 1)) [] s =
      some (2 * (s.vars 0 + 1)) ∧
    pyValue after low s (.inlined (.assign 1 (.add (.var 0) (.num 1)) (.assign 2 (.mul (.num 2) (.var 1)) .done)) (.var 1)) =
      some (s.vars 0 + 1) := by
  constructor
  · have := C168_other_c after low 1 2 (.assign 1 (.add (.var 0) (.num 1)) .done) (.mul (.num 2) (.var 1)) [] s rfl
    simp only [Code.andThen] at this
    rw [this]
    simp [exec, eval, St.put, upd]
  · simp [pyValue, exec, eval, St.put, upd]

/-! ## Maximum of a generator -/

theorem max_loop (after : Int → Int) (r i : Nat) (e : Expr) (hri : r ≠ i) (hr : ¬ e.Reads r) (n : Nat) (k m : Int) (s0 s : St)
    (hs : ∀ y, y ≠ r → y ≠ i → s.vars y = s0.vars y) (ha : s.arrs = s0.arrs) (hm : s.vars r = m) :
    match pyMax s0 e i n k m with
    | none => repeated (exec after (.assign r (.max (.var r) e) .done)) i n k s = none
    | some v => ∃ t, repeated (exec after (.assign r (.max (.var r) e) .done)) i n k s = some t ∧ t.vars r = v ∧ t.arrs = s0.arrs ∧
        ∀ y, y ≠ r → y ≠ i → t.vars y = s0.vars y := by
  induction n generalizing k m s with
  | zero => simp only [pyMax, repeated]; exact ⟨s, rfl, hm, ha, hs⟩
  | succ n ih =>
    have hev : eval (s.put i k) e = eval (s0.put i k) e := by
      refine eval_congr (fun y hy => ?_) (fun _ => ha)
      have hyr : y ≠ r := by rintro rfl; exact hr hy
      by_cases hyi : y = i
      · subst hyi; simp [St.put]
      · simp [St.put, upd_ne _ _ hyi, hs y hyr hyi]
    simp only [pyMax, repeated, exec, eval, hev]
    have hpr : (s.put i k).vars r = m := by simp [St.put, upd_ne _ _ hri, hm]
    cases eval (s0.put i k) e with
    | none => simp
    | some v =>
      simp only [Option.bind_some, hpr, Option.map_some]
      exact ih (k + 1) _ _ (fun y h1 h2 => by simp [St.put, upd_ne _ _ h1, upd_ne _ _ h2, hs y h1 h2]) (by simpa [St.put] using ha)
        (by simp [St.put])

theorem max_exec (after : Int → Int) (low : Int) (r i : Nat) (e : Expr) (n : Nat) (s : St) (hri : r ≠ i) (hr : ¬ e.Reads r) :
    match pyMax s e i n 0 low with
    | none => exec after (.assign r (.num low) (.loop i (.num n) (.assign r (.max (.var r) e) .done) .done)) s = none
    | some v => ∃ t, exec after (.assign r (.num low) (.loop i (.num n) (.assign r (.max (.var r) e) .done) .done)) s = some t ∧
        t.vars r = v ∧ t.arrs = s.arrs ∧ (0 < n → t.vars i = after n) ∧ ∀ y, y ≠ r → y ≠ i → t.vars y = s.vars y := by
  have h := max_loop after r i e hri hr n 0 low s (s.put r low) (fun y h1 _ => by simp [St.put, upd_ne _ _ h1]) rfl (by simp [St.put])
  generalize hc : Code.assign r (.max (.var r) e) .done = c at h
  simp only [exec, eval, Option.bind_some, Int.toNat_natCast]
  cases hp : pyMax s e i n 0 low with
  | none => rw [hp] at h; simp only at h; simp [h]
  | some v =>
    rw [hp] at h
    obtain ⟨t, h1, h2, h3, h4⟩ := h
    simp only [h1, Option.bind_some]
    refine ⟨_, rfl, ?_, ?_, ?_, ?_⟩
    · split
      · simp [St.put, upd_ne _ _ hri, h2]
      · exact h2
    · split
      · exact h3
      · exact h3
    · intro hn; rw [if_pos (by omega)]; simp [St.put]
    · intro y h5 h6
      split
      · simp [St.put, upd_ne _ _ h6, h4 y h5 h6]
      · exact h4 y h5 h6

theorem max_lower (low : Int) (r i n : Nat) (e : Expr) (fr : List Nat) :
    lower low r (.maxOf e i n) (frees fr) =
      (Code.assign r (.num low) (.loop i (.num n) (.assign r (.max (.var r) e) .done) .done)).andThen (frees fr) := rfl

/-- C168: `return max(e for i in range(n))` returns what Python returns in Fortran, and in C if `e` uses an array. -/
theorem C168_max_partial (after : Int → Int) (low : Int) (r i n : Nat) (e : Expr) (fr : List Nat) (s : St) (hri : r ≠ i)
    (hr : ¬ e.Reads r) :
    runF after low r (.maxOf e i n) fr s = pyValue after low s (.maxOf e i n) ∧
    (e.usesArray = true → runC after low r (.maxOf e i n) fr s = pyValue after low s (.maxOf e i n)) := by
  have h := max_exec after low r i e n s hri hr
  have hval : ((exec after (.assign r (.num low) (.loop i (.num n) (.assign r (.max (.var r) e) .done) .done)) s).map fun s => s.vars r) =
      pyMax s e i n 0 low := by
    cases hp : pyMax s e i n 0 low with
    | none => rw [hp] at h; simp only at h; rw [h]; rfl
    | some v => rw [hp] at h; obtain ⟨t, h1, h2, _⟩ := h; rw [h1]; simp [h2]
  constructor
  · simp only [runF, max_lower, pyValue, exec_andThen]
    rw [← hval]
    cases exec after (.assign r (.num low) (.loop i (.num n) (.assign r (.max (.var r) e) .done) .done)) s with
    | none => rfl
    | some t => obtain ⟨u, h1, h2⟩ := exec_frees after fr t; simp [h1, h2]
  · intro ha
    simp only [runC, max_lower, pyValue]
    rw [printC_var after r _ fr s ?_, hval]
    intro x e' hl
    simp [last] at hl
    rw [← hl.2]
    simp [Expr.usesArray, ha]

/-- C168 in C: without arrays the maximum also counts the value of `e` after the loop, for `i = n`. -/
theorem C168_max_c (low : Int) (r i n : Nat) (e : Expr) (fr : List Nat) (s : St) (m v : Int) (hri : r ≠ i) (hr : ¬ e.Reads r)
    (ha : e.usesArray = false) (hn : 0 < n) (hm : pyValue id low s (.maxOf e i n) = some m) (hv : eval (s.put i n) e = some v) :
    runC id low r (.maxOf e i n) fr s = some (if m < v then v else m) := by
  have h := max_exec id low r i e n s hri hr
  simp only [pyValue] at hm
  rw [hm] at h
  obtain ⟨t, h1, h2, h3, h4, h5⟩ := h
  simp only [runC, max_lower]
  have := printC_block id r r (.assign r (.num low) .done) (.loop i (.num n) (.assign r (.max (.var r) e) .done) .done) (.max (.var r) e) fr s
    (by simp [last]) (by simp [Code.andThen, dropLast, last_frees]) (by simpa [Expr.usesArray] using ha)
  simp only [Code.andThen] at this ⊢
  rw [this, h1]
  have hev : eval t e = some v := by
    rw [← hv]
    refine eval_congr (fun y hy => ?_) (fun _ => h3)
    have hyr : y ≠ r := by rintro rfl; exact hr hy
    by_cases hyi : y = i
    · subst hyi; simp [St.put, h4 hn]
    · simp [St.put, upd_ne _ _ hyi, h5 y hyr hyi]
  simp [eval, hev, h2]

/-- C168 fails in C: `return max(2 * i for i in range(3))` is 6 instead of 4. -/
theorem C168_violated_max (s : St) :
    runC id (-1000) 1 (.maxOf (.mul (.num 2) (.var 0)) 0 3) [] s = some 6 ∧
    pyValue id (-1000) s (.maxOf (.mul (.num 2) (.var 0)) 0 3) = some 4 := by
  have hp : pyValue id (-1000) s (.maxOf (.mul (.num 2) (.var 0)) 0 3) = some 4 := by
    simp [pyValue, pyMax, eval, St.put]
  refine ⟨?_, hp⟩
  rw [C168_max_c (-1000) 1 0 3 _ [] s 4 6 (by decide) (by simp [Expr.Reads]) rfl (by decide) hp (by simp [eval, St.put])]
  rfl

/-- The hypotheses are met: `y = x`, `for i in range(x): y += i`, `return y`, and one that ends with `y = y + 1`; frees of an array. -/
example (s : St) : runC id 0 1 (.inlined (.assign 1 (.var 0) (.loop 2 (.var 0) (.aug 1 (.var 2) .done) .done)) (.var 1)) [7] s =
    pyValue id 0 s (.inlined (.assign 1 (.var 0) (.loop 2 (.var 0) (.aug 1 (.var 2) .done) .done)) (.var 1)) :=
  C168_inline_c_partial _ _ _ _ _ _ _ (Or.inr (Or.inr (by intro e h; simp [Code.lastSet] at h)))

example (s : St) : runC id 0 1 (.inlined (.ite (.var 0) (.assign 2 (.var 0) .done) .done (.assign 1 (.add (.var 2) (.num 1)) .done)) (.var 1)) [7] s =
    pyValue id 0 s (.inlined (.ite (.var 0) (.assign 2 (.var 0) .done) .done (.assign 1 (.add (.var 2) (.num 1)) .done)) (.var 1)) :=
  C168_inline_c_partial _ _ _ _ _ _ _ (Or.inr (Or.inl rfl))

example (s : St) : runC id 0 1 (.maxOf (.elt 3 (.var 0)) 0 4) [3] s = pyValue id 0 s (.maxOf (.elt 3 (.var 0)) 0 4) :=
  (C168_max_partial id 0 1 0 4 _ [3] s (by decide) (by simp [Expr.Reads])).2 rfl

end Verif.Returns.Props
