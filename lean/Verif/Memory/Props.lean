import Verif.Memory.Lemmas4

/-! # Array variables: properties -/

namespace Verif.Memory
open Spec Model Lemmas

/-- The exit of a path of the translation, without what was found out. -/
def plainExit : Exit Bool → Exit Unit
  | .normal => .normal
  | .brk => .brk
  | .cont => .cont
  | .ret _ => .ret ()

/-- The translation has the same paths as the source: nothing is lost by looking at the paths of the
translation only. -/
theorem C56_same_paths (f : Fn) :
    (∀ t e, Path (translate f) t e → Path f.body (srcPath t) (plainExit e)) ∧
    (∀ t e, Path f.body t e →
      ∃ t' e', Path (translate f) t' e' ∧ srcPath t' = t ∧ plainExit e' = e) := by
  have he : ∀ e, emap (fun _ => ()) e = plainExit e := by intro e; cases e <;> rfl
  constructor
  · intro t e h
    have := path_map Ann.src (fun _ => ()) h
    unfold translate at this
    rw [visit_src, he] at this
    exact this
  · intro t e h
    obtain ⟨t', e', h1, h2, h3⟩ := path_unmap Ann.src (fun _ => ()) h (translate f)
      (by unfold translate; exact visit_src ..)
    exact ⟨t', e', h1, h2, by rw [← he]; exact h3⟩

/-! ## No leaks, no undefined behaviour -/

/-- If no shape is literal, no right-hand side needs the old contents of `x` when `x` is reallocated,
no loop inside an `if` assigns `x` (unless that `if` is in a loop), a `return` in a loop comes after
the text of an assignment, and a function without value has no `return`: along every path along which
Python raises nothing, the C code has no undefined behaviour and frees every buffer exactly once,
except that of a result.  Missing: the cases below. -/
theorem C56_dynamic_partial (f : Fn) (hd : Dynamic false false false f.body)
    (hv : f.void = true → returns f.body = false) (t : List (Event Ann)) (e : Exit Bool) (P : St)
    (h : Path (translate f) t e) (ht : pythons {} (srcPath t) = some P)
    (he : f.void = true ∨ ∃ b, e = .ret b) :
    ∃ s, cSteps {} t = some s ∧ s.mem = P.mem ∧ cLost f s e = 0 := by
  obtain ⟨h1, h2⟩ := dynamic_ok hd h ht
  refine ⟨⟨P.mem, 0, P.out⟩, cSteps_ok (k := 0) h1 ht, rfl, cLost_zero h2 ?_ he⟩
  intro b hb _
  cases hf : f.void with
  | false => rfl
  | true => exact absurd hb (no_return' h (hv hf) b)

/-- `if a: x = np.zeros(n)` / `else: x = np.zeros(m)`, `for …: x = np.zeros(k)`, `return x[0]`. -/
def exDynamic : Fn where
  body := .seq (.ite (.cons (.atom (.assign (.dyn false))) (.els (.atom (.assign (.dyn false))))))
    (.seq (.loop (.atom (.assign (.dyn false)))) (.seq (.atom .use) (.ret ())))
  void := false
  isResult := false

example : Dynamic false false false exDynamic.body ∧ returns exDynamic.body = true := by
  simp [exDynamic, Spec.Dynamic, DynamicC, returns, returnsC]

/-- A path through it: the second branch, one iteration. -/
example : ∃ t P, Path (translate exDynamic) t (.ret true) ∧ t.length = 3 ∧
    pythons {} (srcPath t) = some P ∧ P.mem = some ([5], .made 1) :=
  ⟨[⟨.assign (.dyn false) (some .unallocated), [4], 0⟩,
      ⟨.assign (.dyn false) (some .unknown), [5], 1⟩, ⟨.use, [], 2⟩], ⟨some ([5], .made 1), []⟩,
    .seq (t := [_]) (.ite (.later (.els (.atom _ _ _))))
      (.seq (t := [_]) (.next (t := [_]) (u := []) (.atom _ _ _) (.inl rfl) .done)
        (.seq (t := [_]) (u := []) (.atom _ _ _) (.ret _))), rfl, rfl, rfl⟩

/-- If `x` is first assigned at the top level of the function or in all branches of an `if` at the top
level (nothing before assigns it), and after that no right-hand side reads `x` except in `x = x + 1` outside of `if`, in loops there are no literal
shapes and no `x.shape`, there is no `del x`, and in a function without value no `return`: the C code
has no undefined behaviour and frees every buffer exactly once, except that of a result.  Missing: the
cases below. -/
theorem C56_first_partial (f : Fn) (p s q : Stmt Atom Unit)
    (hf : f.body = .seq p (.seq s q)) (hp : assigns p = false) (hr : Starts s)
    (hq : Plain false false q) (hv : f.void = true → returns q = false)
    (t : List (Event Ann)) (e : Exit Bool) (P : St)
    (h : Path (translate f) t e) (ht : pythons {} (srcPath t) = some P)
    (he : f.void = true ∨ ∃ b, e = .ret b) :
    ∃ s, cSteps {} t = some s ∧ s.mem = P.mem ∧ cLost f s e = 0 := by
  have h1 := first_ok hf hp hr hq h ht
  refine ⟨⟨P.mem, 0, P.out⟩, cSteps_ok (k := 0) h1 ht, rfl, ?_⟩
  rcases first hf hp hr hq h ht with ⟨_, rfl, _⟩ | ⟨x, u, Q, st, r', v, _, _, _, _, _, _, _, _, h9, h10⟩
  · cases e <;> simp [cLost]
  · refine cLost_zero (fun b hb _ => h10 b hb) (fun b hb _ => ?_) he
    cases hf' : f.void with
    | false => rfl
    | true => exact absurd hb (no_return h9 Ann.src (by rw [visit_src]; exact hv hf') b)

/-- In Fortran as well, if whenever `x` gets another shape the number of its elements before is not
equal to every dimension afterwards.  (Fortran frees local arrays itself.)  Missing: the cases
below. -/
theorem C56_first_fortran_partial (f : Fn) (p s q : Stmt Atom Unit)
    (hf : f.body = .seq p (.seq s q)) (hp : assigns p = false) (hr : Starts s)
    (hq : Plain false false q) (t : List (Event Ann)) (e : Exit Bool) (P : St)
    (h : Path (translate f) t e) (ht : pythons {} (srcPath t) = some P)
    (hd : Distinct {} (srcPath t)) : ∃ s, fSteps {} t = some s ∧ s.mem = P.mem := by
  obtain ⟨Q, h1, h2⟩ := first_fortran hf hp hr hq h ht hd (u := t) (w := []) (by simp)
  rw [ht] at h1
  cases h1
  exact ⟨P, h2, rfl⟩

/-- For one-dimensional arrays the condition always holds. -/
theorem C56_distinct_vectors (P : St) (t : List (Event Atom))
    (hP : ∀ s d, P.mem = some (s, d) → s.length = 1)
    (h : ∀ e ∈ t, ∀ s, given e = some s → s.length = 1) : Distinct P t := by
  induction t generalizing P with
  | nil => trivial
  | cons e t ih =>
    refine ⟨?_, fun P' hp => ?_⟩
    · intro old d new hm hg
      have h1 := hP old d hm
      have h2 := h e (by simp) new hg
      match old, new, h1, h2 with
      | [a], [b], _, _ =>
        by_cases hab : a = b
        · exact .inl (by rw [hab])
        · exact .inr ⟨b, by simp, by simpa [size] using fun hc => hab hc.symm⟩
    · refine ih P' ?_ (fun x hx => h x (by simp [hx]))
      intro s d hm
      have h2 := h e (by simp)
      obtain ⟨m, o⟩ := P
      obtain ⟨a, sh, n⟩ := e
      simp only [python, given] at *
      cases a with
      | assign r =>
        cases r with
        | lit s' self =>
          cases self with
          | false =>
            simp only [Option.some.injEq] at hp
            subst hp
            simp only [Option.some.injEq, Prod.mk.injEq] at hm
            rw [← hm.1]; exact h2 _ rfl
          | true =>
            cases m with
            | none => cases hp
            | some y =>
              simp only [Option.some.injEq] at hp
              subst hp
              simp only [Option.some.injEq, Prod.mk.injEq] at hm
              rw [← hm.1]; exact h2 _ rfl
        | dyn self =>
          cases self with
          | false =>
            simp only [Option.some.injEq] at hp
            subst hp
            simp only [Option.some.injEq, Prod.mk.injEq] at hm
            rw [← hm.1]; exact h2 _ rfl
          | true =>
            cases m with
            | none => cases hp
            | some y =>
              simp only [Option.some.injEq] at hp
              subst hp
              simp only [Option.some.injEq, Prod.mk.injEq] at hm
              rw [← hm.1]; exact h2 _ rfl
        | same fn =>
          cases m with
          | none => cases hp
          | some y =>
            simp only [Option.some.injEq] at hp
            subst hp
            simp only [Option.some.injEq, Prod.mk.injEq] at hm
            rw [← hm.1]; exact hP y.1 y.2 rfl
      | use =>
        cases m with
        | none => cases hp
        | some y =>
          simp only [Option.some.injEq] at hp
          subst hp
          exact hP s d hm
      | len =>
        cases m with
        | none => cases hp
        | some y =>
          simp only [Option.some.injEq] at hp
          subst hp
          exact hP s d hm
      | del =>
        cases m with
        | none => cases hp
        | some y =>
          simp only [Option.some.injEq] at hp
          subst hp
          cases hm

/-- `x = np.zeros(3)`, `if a: x = np.zeros(4)` / `else: x = np.zeros(n)`, `for …: x = np.ones(m)`,
`x = x + 1`, `len(x)`, `return x`. -/
def exFirst : Fn where
  body := .seq .skip (.seq (.atom (.assign (.lit [3] false)))
    (.seq (.ite (.cons (.atom (.assign (.lit [4] false))) (.els (.atom (.assign (.dyn false))))))
    (.seq (.loop (.atom (.assign (.dyn false))))
    (.seq (.atom (.assign (.same false))) (.seq (.atom .len) (.ret ()))))))
  void := false
  isResult := true

example : ∃ p s q, exFirst.body = .seq p (.seq s q) ∧ assigns p = false ∧ Starts s ∧
    Plain false false q :=
  ⟨_, _, _, rfl, rfl, rfl, by simp [Plain, PlainC]⟩

/-- A path through it: the second branch, no iteration. -/
example : ∃ t P, Path (translate exFirst) t (.ret false) ∧ t.length = 4 ∧
    pythons {} (srcPath t) = some P ∧ Distinct {} (srcPath t) ∧
    P = ⟨some ([7], .madeFrom 2 (.made 1)), [[7]]⟩ :=
  ⟨[⟨.assign (.lit [3] false) (some .unallocated), [], 0⟩,
      ⟨.assign (.dyn false) (some .allocated), [7], 1⟩, ⟨.assign (.same false) none, [], 2⟩,
      ⟨.len none, [], 3⟩], _,
    .seq (t := []) .skip (.seq (t := [_]) (.atom _ _ _)
      (.seq (t := [_]) (.ite (.later (.els (.atom _ _ _))))
      (.seq (t := []) .done (.seq (t := [_]) (.atom _ _ _)
      (.seq (t := [_]) (u := []) (.atom _ _ _) (.ret _)))))), rfl, rfl, by
        refine C56_distinct_vectors {} _ (by intro s d h; cases h) ?_
        intro e he s hs
        simp only [srcPath, List.map_cons, List.map_nil, Ann.src, List.mem_cons, List.not_mem_nil,
          or_false] at he
        rcases he with rfl | rfl | rfl | rfl <;> simp [given] at hs <;> simp [← hs], rfl⟩

/-- `if a: x = np.zeros(3)` / `elif b: x = np.zeros(n)` / `else: x = np.zeros(3)`, `len(x)`,
`x = np.ones(3)`, `len(x)`. -/
def exBranches : Fn where
  body := .seq .skip (.seq (.ite (.cons (.atom (.assign (.lit [3] false)))
      (.cons (.atom (.assign (.dyn false))) (.els (.atom (.assign (.lit [3] false)))))))
    (.seq (.atom .len) (.seq (.atom (.assign (.lit [3] false))) (.atom .len))))
  void := true
  isResult := false

example : ∃ p s q, exBranches.body = .seq p (.seq s q) ∧ assigns p = false ∧ Starts s ∧
    Plain false false q ∧ returns q = false :=
  ⟨_, _, _, rfl, rfl, by simp [Starts, SetsC, Sets, Fresh], by simp [Plain, PlainC], rfl⟩

/-- A path through it: the second branch. -/
example : ∃ t P, Path (translate exBranches) t .normal ∧ t.length = 4 ∧
    pythons {} (srcPath t) = some P ∧ P = ⟨some ([3], .made 2), [[5], [3]]⟩ :=
  ⟨[⟨.assign (.dyn false) (some .unallocated), [5], 0⟩, ⟨.len none, [], 1⟩,
      ⟨.assign (.lit [3] false) (some .unknown), [], 2⟩, ⟨.len none, [], 3⟩], _,
    .seq (t := []) .skip (.seq (t := [_]) (.ite (.later (.here (.atom _ _ _))))
      (.seq (t := [_]) (.atom _ _ _) (.seq (t := [_]) (u := [_]) (.atom _ _ _) (.atom _ _ _)))),
    rfl, rfl, rfl⟩

/-- C56 fails: a bare `return` after the allocation loses the buffer in C:
`x = np.zeros(n)`, `if a: return`. -/
theorem C56_bare_return_violated : ∃ (f : Fn) (t : List (Event Ann)) (e : Exit Bool) (P : St) (s : CSt),
    f.void = true ∧ Dynamic false false false f.body ∧ Path (translate f) t e ∧
    pythons {} (srcPath t) = some P ∧ cSteps {} t = some s ∧ cLost f s e = 1 :=
  ⟨⟨.seq (.atom (.assign (.dyn false))) (.ite (.cons (.ret ()) .nil)), true, false⟩,
    [⟨.assign (.dyn false) (some .unallocated), [2], 0⟩], .ret true, _, _, rfl,
    by simp [Spec.Dynamic, DynamicC],
    .seq (t := [_]) (u := []) (.atom _ _ _) (.ite (.here (.ret _))), rfl, rfl, rfl⟩

/-- C56 fails: so does a `return` in a loop whose text comes before the first assignment, when it is executed in
a later iteration: `for …: if a: return 1` / `x = np.zeros(n)`. -/
theorem C56_return_in_loop_violated :
    ∃ (f : Fn) (t : List (Event Ann)) (e : Exit Bool) (P : St) (s : CSt),
    f.void = false ∧ f.isResult = false ∧ Path (translate f) t e ∧
    pythons {} (srcPath t) = some P ∧ cSteps {} t = some s ∧ cLost f s e = 1 :=
  ⟨⟨.seq (.loop (.seq (.ite (.cons (.ret ()) .nil)) (.atom (.assign (.dyn false))))) (.ret ()),
      false, false⟩,
    [⟨.assign (.dyn false) (some .unknown), [2], 0⟩], .ret false, _, _, rfl, rfl,
    .seqOut (.next (t := [_]) (u := []) (.seq (t := []) (u := [_]) (.ite (.later .nil)) (.atom _ _ _))
      (.inl rfl) (.leave (.seqOut (.ite (.here (.ret _))) (by simp)))) (by simp), rfl, rfl, rfl⟩

/-- C56 fails: an array that is allocated in one branch and in a loop in another branch is taken to be
unallocated in every iteration; C loses a buffer, Fortran allocates what is allocated:
`if a: x = np.zeros(n)` / `else: for …: x = np.zeros(m)`. -/
theorem C56_loop_in_branch_violated :
    ∃ (f : Fn) (t : List (Event Ann)) (e : Exit Bool) (P : St) (s : CSt),
    f.void = true ∧ returns f.body = false ∧ Path (translate f) t e ∧
    pythons {} (srcPath t) = some P ∧ cSteps {} t = some s ∧ cLost f s e = 1 ∧ fSteps {} t = none :=
  ⟨⟨.ite (.cons (.atom (.assign (.dyn false))) (.els (.loop (.atom (.assign (.dyn false)))))), true,
      false⟩,
    [⟨.assign (.dyn false) (some .unallocated), [2], 0⟩,
      ⟨.assign (.dyn false) (some .unallocated), [2], 0⟩], .normal, _, _, rfl, rfl,
    .ite (.later (.els (.next (t := [_]) (u := [_]) (.atom _ _ _) (.inl rfl)
      (.next (t := [_]) (u := []) (.atom _ _ _) (.inl rfl) .done)))), rfl, rfl, rfl, rfl⟩

/-- C56 fails: after `if a: x = np.zeros(3)`, the assignment `x = np.ones(3)` is taken to need no allocation;
if `a` does not hold, both languages use an array that does not exist. -/
theorem C56_same_shape_violated : ∃ (f : Fn) (t : List (Event Ann)) (e : Exit Bool) (P : St),
    Path (translate f) t e ∧ pythons {} (srcPath t) = some P ∧ cSteps {} t = none ∧
    fSteps {} t = none :=
  ⟨⟨.seq (.ite (.cons (.atom (.assign (.lit [3] false))) .nil)) (.atom (.assign (.lit [3] false))), true,
      false⟩,
    [⟨.assign (.lit [3] false) none, [], 0⟩], .normal, _,
    .seq (t := []) (u := [_]) (.ite (.later .nil)) (.atom _ _ _), rfl, rfl, rfl⟩

/-- C56 fails: the same after `del x`. -/
theorem C56_del_violated : ∃ (f : Fn) (t : List (Event Ann)) (e : Exit Bool) (P : St),
    Path (translate f) t e ∧ pythons {} (srcPath t) = some P ∧ cSteps {} t = none ∧
    fSteps {} t = none :=
  ⟨⟨.seq (.atom (.assign (.lit [3] false))) (.seq (.atom .del) (.atom (.assign (.lit [3] false)))), true,
      false⟩,
    [⟨.assign (.lit [3] false) (some .unallocated), [], 0⟩, ⟨.del, [], 0⟩,
      ⟨.assign (.lit [3] false) none, [], 0⟩], .normal, _,
    .seq (t := [_]) (u := [_, _]) (.atom _ _ _) (.seq (t := [_]) (u := [_]) (.atom _ _ _) (.atom _ _ _)),
    rfl, rfl, rfl⟩

/-- C56 fails: the status of the last allocation of one branch is taken for the next branch, where Fortran then
asks for the size of an array that is not allocated:
`if a: x = np.zeros(n); x = np.zeros(m)` / `else: x = np.zeros(k)`. -/
theorem C56_branch_status_violated : ∃ (f : Fn) (t : List (Event Ann)) (e : Exit Bool) (P : St),
    Dynamic false false false f.body ∧ Path (translate f) t e ∧ pythons {} (srcPath t) = some P ∧
    fSteps {} t = none :=
  ⟨⟨.ite (.cons (.seq (.atom (.assign (.dyn false))) (.atom (.assign (.dyn false))))
      (.els (.atom (.assign (.dyn false))))), true, false⟩,
    [⟨.assign (.dyn false) (some .allocated), [5], 0⟩], .normal, _,
    by simp [Spec.Dynamic, DynamicC], .ite (.later (.els (.atom _ _ _))), rfl, rfl⟩

/-! ## Shapes -/

/-- Under the same conditions `x` has at every point of every path the shape that it has in Python,
and `x.shape` is what it is in Python; C.  Missing: the cases below. -/
theorem C68_first_partial (f : Fn) (p s q : Stmt Atom Unit)
    (hf : f.body = .seq p (.seq s q)) (hp : assigns p = false) (hr : Starts s)
    (hq : Plain false false q) (t u w : List (Event Ann)) (e : Exit Bool) (P : St)
    (h : Path (translate f) t e) (ht : pythons {} (srcPath t) = some P) (hu : t = u ++ w) :
    ∃ Q s, pythons {} (srcPath u) = some Q ∧ cSteps {} u = some s ∧
      s.mem.map (·.1) = Q.mem.map (·.1) ∧ s.out = Q.out := by
  obtain ⟨Q, h1, h2⟩ := cSteps_prefix (first_ok hf hp hr hq h ht) ht hu
  exact ⟨Q, _, h1, h2, rfl, rfl⟩

/-- The same for functions without literal shapes.  Missing: the cases below. -/
theorem C68_dynamic_partial (f : Fn) (hd : Dynamic false false false f.body)
    (t u w : List (Event Ann)) (e : Exit Bool) (P : St)
    (h : Path (translate f) t e) (ht : pythons {} (srcPath t) = some P) (hu : t = u ++ w) :
    ∃ Q s, pythons {} (srcPath u) = some Q ∧ cSteps {} u = some s ∧
      s.mem.map (·.1) = Q.mem.map (·.1) ∧ s.out = Q.out := by
  obtain ⟨Q, h1, h2⟩ := cSteps_prefix (dynamic_ok hd h ht).1 ht hu
  exact ⟨Q, _, h1, h2, rfl, rfl⟩

/-- The same in Fortran.  Missing: the cases below. -/
theorem C68_first_fortran_partial (f : Fn) (p s q : Stmt Atom Unit)
    (hf : f.body = .seq p (.seq s q)) (hp : assigns p = false) (hr : Starts s)
    (hq : Plain false false q) (t u w : List (Event Ann)) (e : Exit Bool) (P : St)
    (h : Path (translate f) t e) (ht : pythons {} (srcPath t) = some P)
    (hd : Distinct {} (srcPath t)) (hu : t = u ++ w) :
    ∃ Q s, pythons {} (srcPath u) = some Q ∧ fSteps {} u = some s ∧
      s.mem.map (·.1) = Q.mem.map (·.1) ∧ s.out = Q.out := by
  obtain ⟨Q, h1, h2⟩ := first_fortran hf hp hr hq h ht hd hu
  exact ⟨Q, Q, h1, h2, rfl, rfl⟩

/-- C68 fails: in a loop, `x = np.ones(3)` before `x = np.zeros(4)` is taken to need no allocation; in the second
iteration `x` keeps four elements in both languages. -/
theorem C68_loop_violated : ∃ (f : Fn) (t : List (Event Ann)) (e : Exit Bool) (P : St) (s : CSt) (s' : St),
    Path (translate f) t e ∧ pythons {} (srcPath t) = some P ∧ cSteps {} t = some s ∧
    fSteps {} t = some s' ∧ P.mem = some ([3], .made 3) ∧ s.mem = some ([4], .made 3) ∧
    s'.mem = some ([4], .made 3) :=
  ⟨⟨.seq (.atom (.assign (.lit [3] false))) (.loop (.seq (.atom (.assign (.lit [3] false)))
      (.seq (.ite (.cons .brk .nil)) (.atom (.assign (.lit [4] false)))))), true, false⟩,
    [⟨.assign (.lit [3] false) (some .unallocated), [], 0⟩, ⟨.assign (.lit [3] false) none, [], 1⟩,
      ⟨.assign (.lit [4] false) (some .allocated), [], 2⟩, ⟨.assign (.lit [3] false) none, [], 3⟩],
    .normal, _, _, _,
    .seq (t := [_]) (u := [_, _, _]) (.atom _ _ _) (.next (t := [_, _]) (u := [_])
      (.seq (t := [_]) (u := [_]) (.atom _ _ _) (.seq (t := []) (.ite (.later .nil)) (.atom _ _ _)))
      (.inl rfl)
      (.out (.seq (t := [_]) (u := []) (.atom _ _ _) (.seqOut (.ite (.here .brk)) (by simp))))),
    rfl, rfl, rfl, rfl, rfl, rfl⟩

/-- C68 fails: `x.shape` in a loop in front of an assignment with another shape stays what it was:
`x = np.zeros(3)`, `for …: len(x)`; `x = np.zeros(4)`. -/
theorem C68_len_violated : ∃ (f : Fn) (t : List (Event Ann)) (e : Exit Bool) (P : St) (s : CSt) (s' : St),
    Path (translate f) t e ∧ pythons {} (srcPath t) = some P ∧ cSteps {} t = some s ∧
    fSteps {} t = some s' ∧ P.out = [[3], [4]] ∧ s.out = [[3], [3]] ∧ s'.out = [[3], [3]] :=
  ⟨⟨.seq (.atom (.assign (.lit [3] false))) (.loop (.seq (.atom .len)
      (.atom (.assign (.lit [4] false))))), true, false⟩,
    [⟨.assign (.lit [3] false) (some .unallocated), [], 0⟩, ⟨.len (some [3]), [], 0⟩,
      ⟨.assign (.lit [4] false) (some .allocated), [], 0⟩, ⟨.len (some [3]), [], 0⟩,
      ⟨.assign (.lit [4] false) (some .allocated), [], 0⟩], .normal, _, _, _,
    .seq (t := [_]) (u := [_, _, _, _]) (.atom _ _ _) (.next (t := [_, _]) (u := [_, _])
      (.seq (t := [_]) (u := [_]) (.atom _ _ _) (.atom _ _ _)) (.inl rfl)
      (.next (t := [_, _]) (u := []) (.seq (t := [_]) (u := [_]) (.atom _ _ _) (.atom _ _ _)) (.inl rfl)
        .done)), rfl, rfl, rfl, rfl, rfl, rfl⟩

/-- C68 fails: in Fortran, a 2×2 matrix that becomes a 4×4 matrix is not reallocated (`x = np.zeros((n, n))`
twice): four elements, and every new dimension is four. -/
theorem C68_matrix_fortran_violated : ∃ (f : Fn) (t : List (Event Ann)) (e : Exit Bool) (P s : St),
    Dynamic false false false f.body ∧ Path (translate f) t e ∧ pythons {} (srcPath t) = some P ∧
    fSteps {} t = some s ∧ P.mem = some ([4, 4], .made 1) ∧ s.mem = some ([2, 2], .made 1) :=
  ⟨⟨.seq (.atom (.assign (.dyn false))) (.atom (.assign (.dyn false))), true, false⟩,
    [⟨.assign (.dyn false) (some .unallocated), [2, 2], 0⟩,
      ⟨.assign (.dyn false) (some .allocated), [4, 4], 1⟩], .normal, _, _, by simp [Spec.Dynamic],
    .seq (t := [_]) (u := [_]) (.atom _ _ _) (.atom _ _ _), rfl, rfl, rfl, rfl⟩

/-! ## Contents -/

/-- Under the same conditions `x` has at every point of every path the contents that it has in Python;
C.  Missing: the cases below. -/
theorem C69_first_partial (f : Fn) (p s q : Stmt Atom Unit)
    (hf : f.body = .seq p (.seq s q)) (hp : assigns p = false) (hr : Starts s)
    (hq : Plain false false q) (t u w : List (Event Ann)) (e : Exit Bool) (P : St)
    (h : Path (translate f) t e) (ht : pythons {} (srcPath t) = some P) (hu : t = u ++ w) :
    ∃ Q s, pythons {} (srcPath u) = some Q ∧ cSteps {} u = some s ∧ s.mem = Q.mem := by
  obtain ⟨Q, h1, h2⟩ := cSteps_prefix (first_ok hf hp hr hq h ht) ht hu
  exact ⟨Q, _, h1, h2, rfl⟩

/-- The same for functions without literal shapes.  Missing: the cases below. -/
theorem C69_dynamic_partial (f : Fn) (hd : Dynamic false false false f.body)
    (t u w : List (Event Ann)) (e : Exit Bool) (P : St)
    (h : Path (translate f) t e) (ht : pythons {} (srcPath t) = some P) (hu : t = u ++ w) :
    ∃ Q s, pythons {} (srcPath u) = some Q ∧ cSteps {} u = some s ∧ s.mem = Q.mem := by
  obtain ⟨Q, h1, h2⟩ := cSteps_prefix (dynamic_ok hd h ht).1 ht hu
  exact ⟨Q, _, h1, h2, rfl⟩

/-- The same in Fortran.  Missing: the cases below. -/
theorem C69_first_fortran_partial (f : Fn) (p s q : Stmt Atom Unit)
    (hf : f.body = .seq p (.seq s q)) (hp : assigns p = false) (hr : Starts s)
    (hq : Plain false false q) (t u w : List (Event Ann)) (e : Exit Bool) (P : St)
    (h : Path (translate f) t e) (ht : pythons {} (srcPath t) = some P)
    (hd : Distinct {} (srcPath t)) (hu : t = u ++ w) :
    ∃ Q s, pythons {} (srcPath u) = some Q ∧ fSteps {} u = some s ∧ s.mem = Q.mem := by
  obtain ⟨Q, h1, h2⟩ := first_fortran hf hp hr hq h ht hd hu
  exact ⟨Q, Q, h1, h2, rfl⟩

/-- C69 fails: `x = np.zeros(n)`, `x = np.sin(x)`: in C the array is freed before the sine is taken; and in
Fortran, for a matrix, the sizes of a deallocated array are asked for. -/
theorem C69_function_violated : ∃ (f : Fn) (t : List (Event Ann)) (e : Exit Bool) (P : St) (s : CSt),
    Path (translate f) t e ∧ pythons {} (srcPath t) = some P ∧ cSteps {} t = some s ∧
    P.mem = some ([2, 2], .madeFrom 1 (.made 0)) ∧ s.mem = some ([2, 2], .madeFrom 1 .garbage) ∧
    fSteps {} t = none :=
  ⟨⟨.seq (.atom (.assign (.dyn false))) (.atom (.assign (.same true))), true, false⟩,
    [⟨.assign (.dyn false) (some .unallocated), [2, 2], 0⟩,
      ⟨.assign (.same true) (some .allocated), [], 1⟩], .normal, _, _,
    .seq (t := [_]) (u := [_]) (.atom _ _ _) (.atom _ _ _), rfl, rfl, rfl, rfl, rfl⟩

/-- C69 fails: `x = y + x` for arrays whose shapes are not literal: the same, and in Fortran if the shape
changes (`x` has one element). -/
theorem C69_operand_violated : ∃ (f : Fn) (t : List (Event Ann)) (e : Exit Bool) (P s' : St) (s : CSt),
    Path (translate f) t e ∧ pythons {} (srcPath t) = some P ∧ cSteps {} t = some s ∧
    fSteps {} t = some s' ∧ P.mem = some ([3], .madeFrom 1 (.made 0)) ∧
    s.mem = some ([3], .madeFrom 1 .garbage) ∧ s'.mem = some ([3], .madeFrom 1 .garbage) :=
  ⟨⟨.seq (.atom (.assign (.dyn false))) (.atom (.assign (.dyn true))), true, false⟩,
    [⟨.assign (.dyn false) (some .unallocated), [1], 0⟩,
      ⟨.assign (.dyn true) (some .allocated), [3], 1⟩], .normal, _, _, _,
    .seq (t := [_]) (u := [_]) (.atom _ _ _) (.atom _ _ _), rfl, rfl, rfl, rfl, rfl, rfl⟩

/-- C69 fails: `x = x + 1` in a branch after a branch that reallocates `x` is taken to need an allocation:
`x = np.zeros(n)`, `if a: x = np.zeros(m)` / `else: x = x + 1`. -/
theorem C69_branch_violated : ∃ (f : Fn) (t : List (Event Ann)) (e : Exit Bool) (P : St) (s : CSt),
    Path (translate f) t e ∧ pythons {} (srcPath t) = some P ∧ cSteps {} t = some s ∧
    P.mem = some ([3], .madeFrom 1 (.made 0)) ∧ s.mem = some ([3], .madeFrom 1 .garbage) :=
  ⟨⟨.seq (.atom (.assign (.dyn false))) (.ite (.cons (.atom (.assign (.dyn false)))
      (.els (.atom (.assign (.same false)))))), true, false⟩,
    [⟨.assign (.dyn false) (some .unallocated), [3], 0⟩,
      ⟨.assign (.same false) (some .allocated), [], 1⟩], .normal, _, _,
    .seq (t := [_]) (u := [_]) (.atom _ _ _) (.ite (.later (.els (.atom _ _ _)))), rfl, rfl, rfl, rfl⟩

/-! ## Modules -/

/-- If at most one of the arrays allocated by the statements of a module is a temporary variable, the
initialisation of the module frees exactly that one and the function that frees the module exactly the
others.  Missing: more temporary variables. -/
theorem C70_partial {α : Type} (temp : α → Bool) (allocated : List α)
    (h : (allocated.filter temp).length ≤ 1) :
    moduleDeallocs temp allocated 0 allocated [] =
      some (allocated.filter temp, allocated.filter (fun v => !temp v)) := by
  by_cases h0 : ∀ v ∈ allocated, temp v = false
  · rw [deallocs_none temp _ _ _ _ h0]
    rw [List.filter_eq_nil_iff.2 (fun v hv => by simp [h0 v hv]),
      List.filter_eq_self.2 (fun v hv => by simp [h0 v hv])]
  · -- the first temporary variable
    have : ∃ a t b, allocated = a ++ t :: b ∧ (∀ v ∈ a, temp v = false) ∧ temp t = true := by
      clear h
      induction allocated with
      | nil => exact absurd (by intro v hv; cases hv) h0
      | cons v l ih =>
        cases hv : temp v with
        | true => exact ⟨[], v, l, rfl, fun w hw => (by cases hw), hv⟩
        | false =>
          obtain ⟨a, t, b, h1, h2, h3⟩ := ih (fun hl => h0 (by
            intro w hw
            rcases List.mem_cons.1 hw with rfl | hw
            · exact hv
            · exact hl w hw))
          refine ⟨v :: a, t, b, by rw [h1]; rfl, ?_, h3⟩
          intro w hw
          rcases List.mem_cons.1 hw with rfl | hw
          · exact hv
          · exact h2 w hw
    obtain ⟨a, t, b, rfl, ha, ht⟩ := this
    have ha' : a.filter temp = [] := List.filter_eq_nil_iff.2 (fun v hv => by simp [ha v hv])
    rw [List.filter_append, ha', List.nil_append, List.filter_cons_of_pos ht] at h
    have hb' : b.filter temp = [] := by
      cases hb : b.filter temp with
      | nil => rfl
      | cons x y => rw [hb] at h; simp at h
    have hb : ∀ v ∈ b, temp v = false := fun v hv => by
      simpa using List.filter_eq_nil_iff.1 hb' v hv
    have key := deallocs_one temp a t b [] ha ht hb
    simp only [List.length_nil, List.nil_append] at key
    rw [key, List.filter_append, ha', List.filter_cons_of_pos ht, hb', List.filter_append,
      List.filter_cons_of_neg (by simp [ht])]
    have h1 : a.filter (fun v => !temp v) = a := List.filter_eq_self.2 (fun v hv => by simp [ha v hv])
    have h2 : b.filter (fun v => !temp v) = b := List.filter_eq_self.2 (fun v hv => by simp [hb v hv])
    rw [h1, h2]
    rfl

example : ([1, 2, 3].filter (· == 2)).length ≤ 1 ∧
    moduleDeallocs (· == 2) [1, 2, 3] 0 [1, 2, 3] [] = some ([2], [1, 3]) := by decide

/-- C70 fails: with two temporary variables an array of the module is freed when the module is initialised (and
a temporary variable when the module is freed), or the compiler stops with `IndexError`. -/
theorem C70_violated : ∃ temp : Nat → Bool,
    moduleDeallocs temp [0, 1, 2] 0 [0, 1, 2] [] = some ([0, 2], [1]) ∧ temp 2 = false ∧
    temp 1 = true ∧ moduleDeallocs temp [0, 1] 0 [0, 1] [] = none :=
  ⟨fun n => decide (n < 2), by decide⟩

end Verif.Memory
