import Verif.Inline.LemmasCorr

/-!
# Functions marked with `@inline`: properties
-/

namespace Verif.Inline
open Spec Model Lemmas

/-- The generated statements with the variables `L` do what the program does: if Python ends without exceptions, they
end as well, with the same cells, the same calls of other functions in the same order, and the same values in the
variables of the program. -/
def Faithful (G : Lib) (P : Prog) (out : List Stmt) (L : List Name) : Prop :=
  ∀ n ρ w ρ' w', P.run G n ρ w = some (.norm ρ' w') →
    ∃ k σ', runGen G out L k ρ w = some (.norm σ' w') ∧ ∀ x ∈ P.locals, ∀ v, ρ' x = some v → σ' x = some v

theorem allFuns_get {p : Nat → Func → Bool} : ∀ {l : List Func} {i : Nat}, allFuns p i l = true → ∀ f F, l[f]? = some F →
    p (i + f) F = true
  | [], _, _, _, _, h => by simp at h
  | A :: l, i, h, 0, F, hF => by
    simp [allFuns] at h
    simp at hF
    rw [← hF]; exact h.1
  | A :: l, i, h, f + 1, F, hF => by
    simp [allFuns] at h
    simp at hF
    have := allFuns_get h.2 f F hF
    rwa [Nat.add_right_comm, Nat.add_assoc] at this

/-- C81.  Calls of functions marked with `@inline` do the same as in Python: any program with calls nested in each
other, in statements and expressions, arbitrary operators, and other functions whose results depend on everything
called before.  Missing: what is excluded by `clean`; see the theorems below. -/
theorem C81_partial (G : Lib) (P : Prog) (q b : Nat → Bool) (depth : Nat) (out : List Stmt) (L : List Name)
    (hc : P.clean q b = true) (hk : compile P depth = some (out, L)) : Faithful G P out L := by
  intro n ρ w ρ' w' hr
  simp only [Prog.clean, Bool.and_eq_true, and_assoc] at hc
  obtain ⟨hc1, hc2, hc3, hc4⟩ := hc
  have hget := fun f F hF => allFuns_get hc1 f F hF
  simp only [Nat.zero_add] at hget
  have hC : CleanFuns P.funs q b := by
    intro f F hF
    have h := hget f F hF
    simp [cleanF, and_assoc] at h
    exact ⟨h.1, h.2.1, fun hb => by rcases h.2.2.1 with h2 | h2 <;> simp_all⟩
  have hS : Scoped P.funs (P.globals.filter fun x => !P.locals.contains x) := by
    intro F hF h0 x hx hl
    obtain ⟨f, hf⟩ := List.getElem?_of_mem hF
    have h := hget f F hf
    simp [cleanF, and_assoc, uncaptured] at h
    rcases h.2.2.2 with h2 | h2
    · exact absurd h0 h2
    · have := h2 x hx
      simp [hl] at this
      simp [this]
  simp only [compile, Option.map_eq_some_iff, Prod.mk.injEq] at hk
  obtain ⟨⟨out', sc'⟩, hv, rfl, rfl⟩ := hk
  have st := static_inl hC hS depth
  have hI := corr_inl (G := G) hC hS depth
  have hD := inl_decl hC hS depth
  have ho : Ok ⟨P.locals ++ P.globals, P.locals⟩ := by intro x hx; simp [hx]
  have hm := visitS_mono st.mono _ ho hv
  simp at hc3 hc4
  have hcov : ∀ x ∈ namesS P.body, ∀ y ∈ namesE (.name x), y ∈ P.locals ++ P.globals := by
    intro x hx y hy
    simp [namesE] at hy
    subst hy
    simpa using hc3 y hx
  have hnl : ∀ y ∈ P.globals.filter (fun x => !P.locals.contains x), y ∉ sc'.decl := by
    intro y hy hd
    simp at hy
    rcases hm.new y hd with h1 | ⟨h1, _⟩
    · exact hy.2 h1
    · simp [hy.1] at h1
  have hG : ∀ y ∈ P.globals.filter (fun x => !P.locals.contains x), y ∈ P.locals ++ P.globals := by
    intro y hy
    simp at hy
    simp [hy.1]
  have ht : ∀ y ∈ targets out', y ∈ sc'.decl := by
    intro y hy
    by_cases hu : y ∈ P.locals ++ P.globals
    · rcases visitS_targets st.mono st.targ _ ho hv y hy hu with ⟨x, hx, he⟩ | ⟨h1, _⟩
      · simp at he
        subst he
        exact hm.decl _ (hc4 x hx)
      · simp at h1
    · exact visitS_decl st hD _ ho hG hcov (by simp) hc2 hv y hy hu
  have hfr : SFr (P.globals.filter fun x => !P.locals.contains x) (namesS P.body) P.body.assigned sc'.decl Expr.name none none false
      ⟨P.locals ++ P.globals, P.locals⟩ := by
    refine ⟨⟨ho, hG, hnl, fun x _ => by simp [noExt], hcov⟩, ?_, ?_, .inr fun x _ => by simp [plain], by simp, by simp⟩
    · intro x _ y hy u _ hu
      simp at hy
      subst hy
      simp [namesE]
      exact fun hh => hu hh.symm
    · intro x hx y hy
      simp at hy
      subst hy
      simp [hc4 x hx]
  have hs0 : Sim G sc'.decl Expr.name (look G P.locals 0 ρ) (namesS P.body) ρ w.heap := by
    intro x hx v hv tr
    have : look G sc'.decl 0 ρ x = some v := by
      by_cases hl : x ∈ P.locals
      · simp [look, hl] at hv
        simp [look, hm.decl x hl, hv]
      · have hg : x ∈ P.globals := by
          rcases hc3 x hx with h | h
          · exact absurd h hl
          · exact h
        have := hnl x (by simp [hg, hl])
        simp [look, hl] at hv
        simp [look, this, hv]
    simp [eval, this]
  obtain ⟨σ', w1, ⟨k, h1⟩, rfl, hs⟩ := visitS_sim st hI P.body hfr (fun _ h => h) (fun _ h => h) (by simp) hc2 hv ht hs0 hr
  refine ⟨k, σ', h1, fun x hx v hxv => ?_⟩
  by_cases hn : x ∈ namesS P.body
  · have := hs x hn v (by simp [look, hx, hxv]) []
    have hxL := hm.decl x hx
    simp only [eval] at this
    cases hσ : σ' x with
    | none => simp [look, hxL, hσ] at this
    | some u => simp [look, hxL, hσ] at this; rw [this]
  · have hxa : x ∉ P.body.assigned := fun h => hn (visitS_decl.assigned_names _ _ h)
    rw [← hxv, exec_frame _ hxa hr]
    refine exec_frame _ ?_ h1
    intro hxt
    rcases visitS_targets st.mono st.targ _ ho hv x hxt (by simp [hx]) with ⟨u, hu, he⟩ | ⟨h3, _⟩
    · simp at he
      subst he
      exact hxa hu
    · simp at h3

/-- C82.  A call of a function marked with `@inline` changes no variable of the caller, other than by the assignment
of its result: what a function does not assign itself keeps its value.  Missing: functions that assign their
parameters. -/
theorem C82_partial (G : Lib) (P : Prog) (depth : Nat) (out : List Stmt) (L : List Name) (k : Nat) (ρ σ' : Env) (w w' : World)
    (hp : ∀ F ∈ P.funs, ∀ x ∈ F.params, x ∉ F.body.assigned) (hk : compile P depth = some (out, L))
    (hr : runGen G out L k ρ w = some (.norm σ' w')) :
    ∀ x, x ∈ P.locals ++ P.globals → x ∉ P.body.assigned → σ' x = ρ x := by
  intro x hx hxa
  simp only [compile, Option.map_eq_some_iff, Prod.mk.injEq] at hk
  obtain ⟨⟨out', sc'⟩, hv, rfl, rfl⟩ := hk
  refine exec_frame _ ?_ hr
  intro hxt
  have ho : Ok ⟨P.locals ++ P.globals, P.locals⟩ := by intro x hx; simp [hx]
  rcases visitS_targets (inl_mono P.funs depth) (inl_targ hp depth) _ ho hv x hxt hx with ⟨u, hu, he⟩ | ⟨h3, _⟩
  · simp at he
    subst he
    exact hxa hu
  · simp at h3

/-- C82.  The variables of replaced functions get names of their own: what is declared in addition has no name that is
used in the caller or its module. -/
theorem C82_names (P : Prog) (depth : Nat) (out : List Stmt) (L : List Name) (hk : compile P depth = some (out, L)) :
    (∀ x ∈ P.locals, x ∈ L) ∧ ∀ x ∈ L, x ∉ P.locals → x ∉ P.globals := by
  simp only [compile, Option.map_eq_some_iff, Prod.mk.injEq] at hk
  obtain ⟨⟨out', sc'⟩, hv, rfl, rfl⟩ := hk
  have hm := visitS_mono (inl_mono P.funs depth) _ (by intro x hx; simp [hx]) hv
  refine ⟨fun x hx => hm.decl x hx, fun x hx hl hg => ?_⟩
  rcases hm.new x hx with h | ⟨h, _⟩
  · exact hl h
  · simp [hg] at h

/-! ## A program that meets the conditions -/

private def ops : Nat → Int → Int → Option Int
  | 0, a, c => some (a + c)
  | 1, a, c => some (a * c)
  | 2, a, c => some (if a < c then 1 else 0)
  | _, a, c => if c = 0 then none else some (a / c)

private def lib : Lib := ⟨fun m x => some (m + x), ops, fun k v tr => k + v + tr.length⟩

private abbrev nm (x : Nat) : Expr := .name x
private abbrev add (a c : Expr) : Expr := .bin 0 a c
private abbrev args : List Expr → Exprs
  | [] => .nil
  | a :: as => .cons a (args as)

private def funs : List Func := [
  -- def square(a): return a * a
  ⟨0, [0], .ret (.bin 1 (nm 0) (nm 0))⟩,
  -- def clip(a, c):
  --     if a < c: r = a
  --     else: r = c + g
  --     return r
  ⟨0, [0, 1], .seq (.ite (.bin 2 (nm 0) (nm 1)) (.assign 2 (nm 0)) (.assign 2 (add (nm 1) (nm 100)))) (.ret (nm 2))⟩,
  -- def count(a):       (in another module)
  --     r = 0
  --     while r < square(a):
  --         r = r + 1
  --         A[0] = ext(r)
  --         t = clip(r, G)
  --     return r
  ⟨1, [0], .seq (.assign 2 (.lit 0)) (.seq (.loop (.bin 2 (nm 2) (.call 0 (args [nm 0])))
    (.seq (.assign 2 (add (nm 2) (.lit 1))) (.seq (.store 0 (.ext 5 (nm 2))) (.call (.var 3) 1 (args [nm 2, nm 50])))))
    (.ret (nm 2)))⟩,
  -- def twice(a): return count(a + 1)
  ⟨0, [0], .retCall 2 (args [add (nm 0) (.lit 1)])⟩]

/-- ```
x = square(y) + clip(clip(y, 3), A[0])
z = twice(x)
x = square(x)
twice(1)
A[1] = clip(x, z) if x else square(z)
``` -/
private def prog : Prog := ⟨funs, [100], [0, 1, 2],
  .seq (.assign 0 (add (.call 0 (args [nm 1])) (.call 1 (args [.call 1 (args [nm 1, .lit 3]), .load 0]))))
  (.seq (.call (.var 2) 3 (args [nm 0]))
  (.seq (.call (.var 0) 0 (args [nm 0]))
  (.seq (.call .drop 3 (args [.lit 1]))
    (.store 1 (.cond (nm 0) (.call 0 (args [nm 2])) (nm 2))))))⟩

private def quiet : Nat → Bool := fun f => f ≤ 1
private def bareF : Nat → Bool := fun f => f == 0

example : prog.clean quiet bareF = true := by decide +kernel
example : (compile prog 3).isSome = true := by decide +kernel
example : ∀ F ∈ prog.funs, ∀ x ∈ F.params, x ∉ F.body.assigned := by decide +kernel

private def start (x : Int) : Env := fun y => if y = 1 then some x else none
private def world : World := ⟨fun _ => 4, []⟩

/-- The variable `x`, the cells 0 and 1, and the number of calls. -/
private def shows (o : Option Out) (x : Name) : Option (Int × Int × Int × Nat) :=
  match o with
  | some (.norm ρ w) => (ρ x).map (·, w.heap 0, w.heap 1, w.trace.length)
  | _ => none

example : shows (prog.run lib 100 (start 1) world) 2 = some (9, 21, 81, 13) := by decide +kernel
example : (compile prog 3).bind (fun q => shows (runGen lib q.1 q.2 100 (start 1) world) 2) = some (9, 21, 81, 13) := by
  decide +kernel

/-! ## Programs that compute something else -/

/-- The value of a variable at the end. -/
private def var (o : Option Out) (x : Name) : Option (Option Int) :=
  match o with
  | some (.norm ρ _) => some (ρ x)
  | _ => none

/-- The calls that were made. -/
private def calls (o : Option Out) : Option (List (Nat × Int)) :=
  match o with
  | some (.norm _ w) => some w.trace
  | _ => none

private theorem var_some {o : Option Out} {x : Name} {v : Option Int} (h : var o x = some v) :
    ∃ ρ w, o = some (.norm ρ w) ∧ ρ x = v := by
  unfold var at h
  split at h
  · rename_i ρ w; exact ⟨ρ, w, rfl, by simpa using h⟩
  · simp at h

private theorem calls_some {o : Option Out} {t : List (Nat × Int)} (h : calls o = some t) :
    ∃ ρ w, o = some (.norm ρ w) ∧ w.trace = t := by
  unfold calls at h
  split at h
  · rename_i ρ w; exact ⟨ρ, w, rfl, by simpa using h⟩
  · simp at h

private theorem run_det {G : Lib} {out : List Stmt} {L : List Name} {k k' : Nat} {ρ : Env} {w : World} {o o' : Out}
    (h : runGen G out L k ρ w = some o) (h' : runGen G out L k' ρ w = some o') : o = o' := by
  have h1 := exec_mono (k' := max k k') (by omega) _ h
  have h2 := exec_mono (k' := max k k') (by omega) _ h'
  rw [h1] at h2
  simpa using h2

private theorem not_faithful_var {G : Lib} {P : Prog} {out : List Stmt} {L : List Name} (n k : Nat) (ρ : Env) (w : World)
    {x : Name} {v : Int} {u : Option Int} (hx : x ∈ P.locals) (h1 : var (P.run G n ρ w) x = some (some v))
    (h2 : var (runGen G out L k ρ w) x = some u) (hne : u ≠ some v) : ¬ Faithful G P out L := by
  intro hf
  obtain ⟨ρ', w', h1, hv⟩ := var_some h1
  obtain ⟨σ', w2, h2, hu⟩ := var_some h2
  obtain ⟨k', σ2, h3, h4⟩ := hf n ρ w ρ' w' h1
  have := run_det h2 h3
  simp at this
  apply hne
  rw [← hu, this.1]
  exact h4 x hx v hv

private theorem not_faithful_calls {G : Lib} {P : Prog} {out : List Stmt} {L : List Name} (n k : Nat) (ρ : Env) (w : World)
    {t u : List (Nat × Int)} (h1 : calls (P.run G n ρ w) = some t)
    (h2 : calls (runGen G out L k ρ w) = some u) (hne : u ≠ t) : ¬ Faithful G P out L := by
  intro hf
  obtain ⟨ρ', w', h1, hv⟩ := calls_some h1
  obtain ⟨σ', w2, h2, hu⟩ := calls_some h2
  obtain ⟨k', σ2, h3, _⟩ := hf n ρ w ρ' w' h1
  have := run_det h2 h3
  simp at this
  apply hne
  rw [← hu, ← hv, this.2]

private theorem not_faithful_none {G : Lib} {P : Prog} {out : List Stmt} {L : List Name} (n : Nat) (ρ : Env) (w : World)
    {t : List (Nat × Int)} (h1 : calls (P.run G n ρ w) = some t)
    (h2 : ∀ k, runGen G out L k ρ w = none) : ¬ Faithful G P out L := by
  intro hf
  obtain ⟨ρ', w', h1, hv⟩ := calls_some h1
  obtain ⟨k', σ2, h3, _⟩ := hf n ρ w ρ' w' h1
  rw [h2] at h3
  simp at h3

/-- Variables 0, 1, 2 with 0 = 7, 1 = 3. -/
private def st2 : Env := fun y => if y = 0 then some 7 else if y = 1 then some 3 else none

private def one (F : Func) (s : Stmt) : Prog := ⟨[F], [100], [0, 1, 2], s⟩

/-- `def same(a): return a`, called as `y = same(x)` -/
private def retParam : Prog := one ⟨0, [10], .ret (nm 10)⟩ (.call (.var 1) 0 (args [nm 0]))

/-- C81 fails: if a function returns its parameter, no assignment is generated; in `y = same(x)`, with
`def same(a): return a`, `y` keeps its old value. -/
theorem C81_parameter_violated :
    ∃ G P depth out L, compile P depth = some (out, L) ∧ ¬ Faithful G P out L :=
  ⟨lib, retParam, 1, _, _, rfl, not_faithful_var 9 9 st2 world (x := 1) (v := 7) (u := some 3) (by decide) rfl rfl (by decide)⟩

/-- `def pick(a, c): if a < c: return c + 0; return a + 0` -/
private def early : Prog := one ⟨0, [10, 11], .seq (.ite (.bin 2 (nm 10) (nm 11)) (.ret (add (nm 11) (.lit 0))) .skip)
  (.ret (add (nm 10) (.lit 0)))⟩ (.call (.var 2) 0 (args [nm 1, nm 0]))

/-- C81 fails: `return` does not end a replaced function; the statements after it run too. -/
theorem C81_return_violated :
    ∃ G P depth out L, compile P depth = some (out, L) ∧ ¬ Faithful G P out L :=
  ⟨lib, early, 1, _, _, rfl, not_faithful_var 9 9 st2 world (x := 2) (v := 7) (u := some 3) (by decide) rfl rfl (by decide)⟩

/-- `def f(a): r = 1; r = r + a; return r`, called as `x = f(x)` -/
private def same : Prog := one ⟨0, [10], .seq (.assign 11 (.lit 1)) (.seq (.assign 11 (add (nm 11) (nm 10))) (.ret (nm 11)))⟩
  (.call (.var 0) 0 (args [nm 0]))

/-- C81 fails: in `x = f(x)` the result variable of `f` becomes `x`, which is also the argument: with
`def f(a): r = 1; r = r + a; return r` the value is 2. -/
theorem C81_result_violated :
    ∃ G P depth out L, compile P depth = some (out, L) ∧ ¬ Faithful G P out L :=
  ⟨lib, same, 1, _, _, rfl, not_faithful_var 9 9 st2 world (x := 0) (v := 8) (u := some 2) (by decide) rfl rfl (by decide)⟩

/-- `def double(a): return a + a`, called as `y = double(ext(x))` -/
private def effect : Prog := one ⟨0, [10], .ret (add (nm 10) (nm 10))⟩ (.call (.var 1) 0 (args [.ext 1 (nm 0)]))

/-- C81 fails: an argument is evaluated each time the parameter appears (or never): `double(ext(x))` with
`def double(a): return a + a` calls `ext` twice. -/
theorem C81_argument_violated :
    ∃ G P depth out L, compile P depth = some (out, L) ∧ ¬ Faithful G P out L :=
  ⟨lib, effect, 1, _, _, rfl, not_faithful_calls 9 9 st2 world (t := [(1, 7)]) (u := [(1, 7), (1, 7)]) rfl rfl (by decide)⟩

/-- `def g(): return m + 0`, where `m` is a module variable; the caller has a local variable `m` -/
private def capture : Prog := ⟨[⟨0, [], .ret (add (nm 100) (.lit 0))⟩], [100], [0, 1, 100],
  .seq (.assign 100 (.lit 5)) (.call (.var 1) 0 .nil)⟩

/-- C81 fails: a module variable in a replaced function of the same module is taken for a local variable of the
caller with the same name. -/
theorem C81_capture_violated :
    ∃ G P depth out L, compile P depth = some (out, L) ∧ ¬ Faithful G P out L :=
  ⟨lib, capture, 1, _, _, rfl, not_faithful_var 9 9 st2 world (x := 1) (v := 100) (u := some 5) (by decide) rfl rfl (by decide)⟩

/-- `def f(a): if a: r = a; else: r = 0; return r`, and `while f(x) + x: x = x + 1` -/
private def cond : Prog := one ⟨0, [10], .seq (.ite (nm 10) (.assign 11 (nm 10)) (.assign 11 (.lit 0))) (.ret (nm 11))⟩
  (.seq (.assign 0 (.lit (-1))) (.loop (add (.call 0 (args [nm 0])) (nm 0)) (.assign 0 (add (nm 0) (.lit 1)))))

/-- C81 fails: the statements for a call in the condition of `while` run once, before the loop. -/
theorem C81_while_violated :
    ∃ G P depth out L, compile P depth = some (out, L) ∧ ¬ Faithful G P out L :=
  ⟨lib, cond, 1, _, _, rfl, not_faithful_var 9 9 st2 world (x := 0) (v := 0) (u := some 1) (by decide) rfl rfl (by decide)⟩

/-- `def inv(a): t = 10 // a; return t + 1`, and `y = (inv(x) if x else 0) + 0` -/
private def branch : Prog := one ⟨0, [10], .seq (.assign 11 (.bin 3 (.lit 10) (nm 10))) (.ret (add (nm 11) (.lit 1)))⟩
  (.seq (.assign 0 (.lit 0)) (.assign 1 (add (.cond (nm 0) (.call 0 (args [nm 0])) (.lit 0)) (.lit 0))))

/-- C81 fails: the statements for a call in `a if c else b` run whatever the condition is; `inv(x) if x else 0` divides
by zero. -/
theorem C81_conditional_violated :
    ∃ G P depth out L, compile P depth = some (out, L) ∧ ¬ Faithful G P out L :=
  ⟨lib, branch, 1, _, _, rfl, not_faithful_none 9 st2 world (t := []) rfl (fun _ => rfl)⟩

/-- `def f(a): t = ext2(a); return t + 0`, and `y = ext1(x) + f(x)` -/
private def order : Prog := one ⟨0, [10], .seq (.assign 11 (.ext 2 (nm 10))) (.ret (add (nm 11) (.lit 0)))⟩
  (.assign 1 (add (.ext 1 (nm 0)) (.call 0 (args [nm 0]))))

/-- C81 fails: the statements for a call in an expression run before everything else in the expression. -/
theorem C81_order_violated :
    ∃ G P depth out L, compile P depth = some (out, L) ∧ ¬ Faithful G P out L :=
  ⟨lib, order, 1, _, _, rfl, not_faithful_calls 9 9 st2 world (t := [(1, 7), (2, 7)]) (u := [(2, 7), (1, 7)]) rfl rfl (by decide)⟩

/-- `def f(a): r = a + 1; z = 5; return r`, and `y = f(x) + 0` -/
private def lastAssign : Prog := one ⟨0, [10], .seq (.assign 11 (add (nm 10) (.lit 1))) (.seq (.assign 12 (.lit 5)) (.ret (nm 11)))⟩
  (.assign 1 (add (.call 0 (args [nm 0])) (.lit 0)))

/-- C81 fails: in an expression the value of a call is the right-hand side of the last assignment in the function,
even if this is not the assignment to the result, whose variable has no declaration then. -/
theorem C81_last_violated :
    ∃ G P depth out L, compile P depth = some (out, L) ∧ ¬ Faithful G P out L :=
  ⟨lib, lastAssign, 1, _, _, rfl, not_faithful_none 9 st2 world (t := []) rfl (fun _ => rfl)⟩

/-- `def f(a): r = a; r = r + 1; return r`, and `y = f(x) + 0` -/
private def removed : Prog := one ⟨0, [10], .seq (.assign 11 (nm 10)) (.seq (.assign 11 (add (nm 11) (.lit 1))) (.ret (nm 11)))⟩
  (.assign 1 (add (.call 0 (args [nm 0])) (.lit 0)))

/-- C81 fails: in an expression the variable for the result of a call is removed, even if it is used before the last
assignment; the generated code has a variable without declaration. -/
theorem C81_removed_violated :
    ∃ G P depth out L, compile P depth = some (out, L) ∧ ¬ Faithful G P out L :=
  ⟨lib, removed, 1, _, _, rfl, not_faithful_none 9 st2 world (t := []) rfl (fun _ => rfl)⟩

/-- `def f(a): A[0] = 7; return a + 0`, and `y = f(A[0])` -/
private def cell : Prog := one ⟨0, [10], .seq (.store 0 (.lit 7)) (.ret (add (nm 10) (.lit 0)))⟩
  (.call (.var 1) 0 (args [.load 0]))

/-- C81 fails: an argument that is an element of an array is read when the parameter is used, not when the function
is called. -/
theorem C81_element_violated :
    ∃ G P depth out L, compile P depth = some (out, L) ∧ ¬ Faithful G P out L :=
  ⟨lib, cell, 1, _, _, rfl, not_faithful_var 9 9 st2 world (x := 1) (v := 4) (u := some 7) (by decide) rfl rfl (by decide)⟩

/-- `def f(a): a = a + 1; return a * a`, and `y = f(x)` -/
private def assigned : Prog := one ⟨0, [10], .seq (.assign 10 (add (nm 10) (.lit 1))) (.ret (.bin 1 (nm 10) (nm 10)))⟩
  (.call (.var 1) 0 (args [nm 0]))

/-- C82 fails: if a function assigns its parameter, the variable of the caller that is the argument changes. -/
theorem C82_parameter_violated :
    ∃ (G : Lib) (P : Prog) (depth : Nat) (out : List Stmt) (L : List Name) (k : Nat) (ρ σ' : Env) (w w' : World) (x : Name),
      compile P depth = some (out, L) ∧ runGen G out L k ρ w = some (.norm σ' w') ∧ x ∈ P.locals ∧ x ∉ P.body.assigned ∧
      σ' x ≠ ρ x := by
  obtain ⟨σ', w', h1, h2⟩ := var_some (o := runGen lib _ _ 9 st2 world) (x := 0) (v := some 8)
    (show var (runGen lib ((compile assigned 1).getD ([], [])).1 ((compile assigned 1).getD ([], [])).2 9 st2 world) 0 = some (some 8) from rfl)
  exact ⟨lib, assigned, 1, _, _, 9, st2, σ', world, w', 0, rfl, h1, by decide, by decide, by rw [h2]; decide⟩

end Verif.Inline
