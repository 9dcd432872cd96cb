import Verif.Aliases.LemmasCall

/-!
# Arrays shared by several variables: properties
-/

namespace Verif.Aliases
open Spec Model Lemmas

/-- C79.  If a function with arrays that are shared by `p = y` and slices is accepted, and Python runs it
without exceptions, the generated program uses no freed memory, frees nothing twice, prints the same, and
leaves the same contents in the arrays of the caller.  Missing: what is excluded by `clean`; see the theorems
below. -/
theorem C79_partial (L : Lang) (F : Func) (C : Compiled) (mem : List Vals) (rs : List Ref) (s : Py)
    (hc : compile F = some C) (hcl : F.clean) (hv : ∀ r ∈ rs, Valid mem r) (hp : Py.call F mem rs = some s) :
    ∃ c, call L F C mem rs = some c ∧ c.out = s.out ∧
      ∀ i, i < mem.length → c.bufs[i]? = (s.objs[i]?).map some := by
  obtain ⟨c, h1, h2, h3, _⟩ := call_ok L hc hcl hv hp
  exact ⟨c, h1, h2, h3⟩

/-- C80.  The array that is returned is there after the end of the call, with the same elements as in
Python.  If Python's result shares its data with an argument, the compiled one does with the same argument,
which is the one that the wrapper keeps alive; otherwise it has memory of its own.  Missing: what is excluded
by `clean` and `direct`. -/
theorem C80_partial (L : Lang) (F : Func) (C : Compiled) (mem : List Vals) (rs : List Ref) (s : Py) (r : Var)
    (hc : compile F = some C) (hcl : F.clean) (hd : F.direct) (hr : F.res = some r)
    (hv : ∀ r ∈ rs, Valid mem r) (hp : Py.call F mem rs = some s) :
    ∃ c v, call L F C mem rs = some c ∧ s.read r = some v ∧ c.read r = some v ∧
      ∃ rp rc, s.env r = some rp ∧ c.env r = some rc ∧ rc.pos = rp.pos ∧
        (∀ i, C.base = some i → ∃ ra, rs[i]? = some ra ∧ rp.buf = ra.buf ∧ rc.buf = ra.buf) ∧
        (C.base = none → mem.length ≤ rp.buf ∧ mem.length ≤ rc.buf) := by
  obtain ⟨c, h1, _, _, _, h5⟩ := call_ok L hc hcl hv hp
  obtain ⟨rp, rc, u, k1, k2, k3, k4, k5, k6⟩ := h5 hd r hr
  have hread : ∃ v, s.read r = some v := by
    unfold Py.call at hp
    cases hx : Py.exec F.body ⟨mem, bindArgs F.args rs, []⟩ with
    | none => simp [hx] at hp
    | some q =>
      cases hv : q.1.read r with
      | none => simp [hx, hr, hv] at hp
      | some v =>
        simp [hx, hr, hv] at hp
        exact ⟨v, by rw [← hp]; exact hv⟩
  obtain ⟨v, hv'⟩ := hread
  refine ⟨c, v, h1, hv', ?_, rp, rc, k1, k2, k3, fun i hi => ?_, fun hn => ?_⟩
  · rw [← hv']
    simp [Mach.read, Py.read, k1, k2, k3, k4, k5]
  · rw [hi] at k6; exact k6
  · rw [hn] at k6; exact k6

/-- C80.  When a function ends, all memory that it allocated is freed, except for that of the result. -/
theorem C80_freed_partial (L : Lang) (F : Func) (C : Compiled) (mem : List Vals) (rs : List Ref) (s : Py)
    (hc : compile F = some C) (hcl : F.clean) (hv : ∀ r ∈ rs, Valid mem r) (hp : Py.call F mem rs = some s) :
    ∃ c, call L F C mem rs = some c ∧ ∀ i v, mem.length ≤ i → c.bufs[i]? = some (some v) →
      ∃ r rc, F.res = some r ∧ c.env r = some rc ∧ rc.buf = i := by
  obtain ⟨c, h1, _, _, h4, _⟩ := call_ok L hc hcl hv hp
  exact ⟨c, h1, h4⟩

/-! ## A function with slices, a loop, branches and `return` -/

private abbrev add (k : Int) : List Vals → Vals := fun vs => ((vs[0]?).getD []).map (· + k)
private abbrev lit (v : Vals) : List Vals → Vals := fun _ => v

/-- ```
def f(a : 'int[:]'):
    x = a + 1
    p = x[1:]
    q = p
    q[:] = [7, 8]
    print(x)
    y = np.zeros(2)
    for i in range(2):
        y = y + 1
        p = a[:2]
        p += 1
        if i_is_never_true:
            return p
    z = y
    print(y)
    r = a[1:]
    return r
```
(`r` is 9, and the `return` in the loop returns `r` as well, assigned before) -/
private def sample : Func := ⟨[0],
  .seq (.fresh 1 [0] (add 1) false) <|
  .seq (.bind 2 1 (some [1, 2])) <|
  .seq (.bind 3 2 none) <|
  .seq (.store 3 [] (lit [7, 8])) <|
  .seq (.print 1) <|
  .seq (.fresh 4 [] (lit [0, 0]) false) <|
  .seq (.bind 9 0 (some [1, 2])) <|
  .seq (.loop [] (fun _ => 2) <|
    .seq (.fresh 4 [4] (add 1) true) <|
    .seq (.bind 2 0 (some [0, 1])) <|
    .seq (.store 2 [2] (add 1)) <|
    .ite [0] (fun vs => (vs[0]?).getD [] == []) .ret .skip) <|
  .seq (.bind 5 4 none) <|
  .print 5, some 9⟩

private theorem sample_clean : sample.clean := by
  simp [sample, Func.clean, Clean, Stmt.sources, Stmt.owners, Stmt.returns]

private theorem sample_direct : sample.direct := by
  simp [sample, Func.direct, Direct, Stmt.owners, Stmt.returns]

private theorem sample_valid : ∀ r ∈ [(⟨0, [0, 1, 2]⟩ : Ref)], Valid [[1, 2, 3]] r := by
  intro r hr
  simp only [List.mem_singleton] at hr
  subst hr
  exact ⟨[1, 2, 3], rfl, by decide⟩

example : sample.clean ∧ sample.direct ∧ (∀ r ∈ [(⟨0, [0, 1, 2]⟩ : Ref)], Valid [[1, 2, 3]] r) ∧
    (compile sample).isSome = true ∧
    (compile sample).bind (·.base) = some 0 ∧
    (Py.call sample [[1, 2, 3]] [⟨0, [0, 1, 2]⟩]).map (fun s => (s.out, s.objs[0]?, s.read 9)) =
      some ([[2, 7, 8], [2, 2]], some [3, 4, 3], some [4, 3]) :=
  ⟨sample_clean, sample_direct, sample_valid, by decide +kernel, by decide +kernel, by decide +kernel⟩

/-- Another result: an array of its own, to which there are pointers. -/
private def sample2 : Func := ⟨[0],
  .seq (.fresh 1 [0] (add 1) false) <| .seq (.bind 2 1 none) (.store 2 [2] (add 1)), some 1⟩

example : sample2.clean ∧ sample2.direct ∧ (compile sample2).isSome = true ∧
    (Py.call sample2 [[1, 2, 3]] [⟨0, [0, 1, 2]⟩]).map (fun s => s.read 1) = some (some [3, 4, 5]) :=
  ⟨by simp [sample2, Func.clean, Clean, Stmt.sources, Stmt.owners, Stmt.returns],
    by simp [sample2, Func.direct, Direct, Stmt.owners], by decide +kernel, by decide +kernel⟩

/-! ## What is excluded -/

/-- An array of the caller with one element. -/
private theorem one_valid (a : Int) : ∀ r ∈ [(⟨0, [0]⟩ : Ref)], Valid [[a]] r := by
  intro r hr
  simp only [List.mem_singleton] at hr
  subst hr
  exact ⟨[a], rfl, by simp⟩

/-- `f` of a compiled function. -/
private theorem compiled {α : Type} {F : Func} {f : Compiled → Option α} {a : α}
    (h : (compile F).bind f = some a) : ∃ C, compile F = some C ∧ f C = some a := by
  cases hc : compile F with
  | none => rw [hc] at h; cases h
  | some C => rw [hc] at h; exact ⟨C, rfl, h⟩

private theorem ran {α β : Type} {o : Option α} {f : α → β} {b : β} (h : o.map f = some b) :
    ∃ a, o = some a ∧ f a = b := by
  cases o with
  | none => cases h
  | some a => exact ⟨a, rfl, by simpa using h⟩

private def loopF (same : Bool) : Func := ⟨[0],
  .seq (.fresh 1 [] (lit [1]) false) <|
  .seq (.bind 2 0 none) <|
  .loop [] (fun _ => 2) <|
    .seq (.fresh 1 [] (lit [3]) same) <| .seq (.print 2) <| .seq (.store 1 [1] (add 1)) <| .bind 2 1 none, none⟩

private def loopG : Func := ⟨[0],
  .seq (.fresh 1 [] (lit [1]) false) <|
  .seq (.bind 2 0 none) <|
  .loop [] (fun _ => 2) <|
    .seq (.fresh 1 [1] (add 1) true) <| .seq (.print 2) <| .bind 2 1 none, none⟩

/-- C79 fails: in a loop with `x = x + 1`, `print(p)` and `p = x` in this order, the compiler does not see
that there is a pointer to `x` in the second iteration, because `p = x` comes last in the text.  `x` is
overwritten, and the new elements are printed. -/
theorem C79_loop_violated : ∃ F C mem rs s, compile F = some C ∧ (∀ r ∈ rs, Valid mem r) ∧
    Py.call F mem rs = some s ∧ s.out = [[5], [2]] ∧
    ∀ L, ∃ c, call L F C mem rs = some c ∧ c.out = [[5], [3]] := by
  obtain ⟨s, hs, ho⟩ := ran (o := Py.call loopG [[5]] [⟨0, [0]⟩]) (f := (·.out)) (b := [[5], [2]])
    (by decide +kernel)
  obtain ⟨C, hc, h1⟩ := compiled (F := loopG) (a := ([[5], [3]], [[5], [3]])) (f := fun C => do
    return ((← call .c loopG C [[5]] [⟨0, [0]⟩]).out, (← call .fortran loopG C [[5]] [⟨0, [0]⟩]).out))
    (by decide +kernel)
  refine ⟨loopG, C, [[5]], [⟨0, [0]⟩], s, hc, one_valid 5, hs, ho, ?_⟩
  cases e1 : call .c loopG C [[5]] [⟨0, [0]⟩] with
  | none => simp [e1] at h1
  | some c1 =>
    cases e2 : call .fortran loopG C [[5]] [⟨0, [0]⟩] with
    | none => simp [e1, e2] at h1
    | some c2 =>
      simp [e1, e2] at h1
      intro L
      cases L with
      | c => exact ⟨c1, e1, h1.1⟩
      | fortran => exact ⟨c2, e2, h1.2⟩

/-- C79 fails: the same with a shape that the compiler does not know.  In C the memory is freed although `p`
uses it. -/
theorem C79_loop_freed_violated : ∃ F C mem rs s, compile F = some C ∧ (∀ r ∈ rs, Valid mem r) ∧
    Py.call F mem rs = some s ∧ call .c F C mem rs = none := by
  obtain ⟨s, hs, _⟩ := ran (o := Py.call (loopF false) [[5]] [⟨0, [0]⟩]) (f := (·.out)) (b := [[5], [4]])
    (by decide +kernel)
  obtain ⟨C, hc, h1⟩ := compiled (F := loopF false) (a := true) (f := fun C =>
    some (call .c (loopF false) C [[5]] [⟨0, [0]⟩]).isNone) (by decide +kernel)
  exact ⟨loopF false, C, [[5]], [⟨0, [0]⟩], s, hc, one_valid 5, hs, by simpa using h1⟩

private def delF : Func := ⟨[],
  .seq (.fresh 1 [] (lit [1]) false) <| .seq (.bind 2 1 none) <| .seq (.del 1) (.print 2), none⟩

/-- C79 fails: `del x` frees the array of `x` although `p = x` uses it. -/
theorem C79_del_violated : ∃ F C s, compile F = some C ∧ Py.call F [] [] = some s ∧ s.out = [[1]] ∧
    ∀ L, call L F C [] [] = none := by
  obtain ⟨s, hs, ho⟩ := ran (o := Py.call delF [] []) (f := (·.out)) (b := [[1]]) (by decide +kernel)
  obtain ⟨C, hc, h1⟩ := compiled (F := delF) (a := true) (f := fun C =>
    some ((call .c delF C [] []).isNone && (call .fortran delF C [] []).isNone)) (by decide +kernel)
  simp at h1
  exact ⟨delF, C, s, hc, hs, ho, fun L => by cases L <;> first | exact h1.1 | exact h1.2⟩

private def delArg : Func := ⟨[0], .del 0, none⟩

/-- C79 fails: `del a` for an argument frees the array of the caller (in C; the Fortran code is not valid). -/
theorem C79_del_argument_violated : ∃ F C s c, compile F = some C ∧ Py.call F [[5]] [⟨0, [0]⟩] = some s ∧
    s.objs[0]? = some [5] ∧ call .c F C [[5]] [⟨0, [0]⟩] = some c ∧ c.bufs[0]? = some none := by
  obtain ⟨s, hs, ho⟩ := ran (o := Py.call delArg [[5]] [⟨0, [0]⟩]) (f := (·.objs[0]?)) (b := some [5])
    (by decide +kernel)
  obtain ⟨C, hc, h1⟩ := compiled (F := delArg) (a := some none)
    (f := fun C => (call .c delArg C [[5]] [⟨0, [0]⟩]).map (·.bufs[0]?)) (by decide +kernel)
  obtain ⟨c, h2, h3⟩ := ran h1
  exact ⟨delArg, C, s, c, hc, hs, ho, h2, h3⟩

private def argF : Func := ⟨[0], .fresh 0 [0] (add 1) true, none⟩

/-- C79 fails: `a = a + 1` for an argument changes the array of the caller. -/
theorem C79_argument_violated : ∃ F C s, compile F = some C ∧ Py.call F [[5]] [⟨0, [0]⟩] = some s ∧
    s.objs[0]? = some [5] ∧ ∀ L, ∃ c, call L F C [[5]] [⟨0, [0]⟩] = some c ∧ c.bufs[0]? = some (some [6]) := by
  obtain ⟨s, hs, ho⟩ := ran (o := Py.call argF [[5]] [⟨0, [0]⟩]) (f := (·.objs[0]?)) (b := some [5])
    (by decide +kernel)
  obtain ⟨C, hc, h1⟩ := compiled (F := argF) (a := (some (some [6]), some (some [6]))) (f := fun C => do
    return ((← call .c argF C [[5]] [⟨0, [0]⟩]).bufs[0]?, (← call .fortran argF C [[5]] [⟨0, [0]⟩]).bufs[0]?))
    (by decide +kernel)
  refine ⟨argF, C, s, hc, hs, ho, ?_⟩
  cases e1 : call .c argF C [[5]] [⟨0, [0]⟩] with
  | none => simp [e1] at h1
  | some c1 =>
    cases e2 : call .fortran argF C [[5]] [⟨0, [0]⟩] with
    | none => simp [e1, e2] at h1
    | some c2 =>
      simp only [e1, e2, Option.bind_eq_bind, Option.bind_some] at h1
      have h1' := Prod.mk.inj (Option.some.inj h1)
      intro L
      cases L with
      | c => exact ⟨c1, e1, h1'.1⟩
      | fortran => exact ⟨c2, e2, h1'.2⟩

private def retF : Func := ⟨[],
  .seq (.fresh 1 [] (lit [1]) false) <| .seq (.bind 2 1 none) <| .seq (.ite [] (fun _ => false) .ret .skip) <|
  .seq (.fresh 1 [] (lit [3, 4]) false) (.print 2), none⟩

/-- C79 fails: after a `return` in a branch the compiler has forgotten all pointers, so that `x = e` is
accepted after `p = x`.  The memory that `p` uses is freed. -/
theorem C79_return_violated : ∃ F C s, compile F = some C ∧ Py.call F [] [] = some s ∧ s.out = [[1]] ∧
    ∀ L, call L F C [] [] = none := by
  obtain ⟨s, hs, ho⟩ := ran (o := Py.call retF [] []) (f := (·.out)) (b := [[1]]) (by decide +kernel)
  obtain ⟨C, hc, h1⟩ := compiled (F := retF) (a := true) (f := fun C =>
    some ((call .c retF C [] []).isNone && (call .fortran retF C [] []).isNone)) (by decide +kernel)
  simp at h1
  exact ⟨retF, C, s, hc, hs, ho, fun L => by cases L <;> first | exact h1.1 | exact h1.2⟩

private def retG : Func := ⟨[],
  .seq (.fresh 1 [] (lit [1]) false) <| .seq (.fresh 3 [] (lit [3]) false) <| .seq (.bind 2 1 none) <|
  .seq (.ite [] (fun _ => false) .ret .skip) <| .seq (.bind 1 3 none) (.print 2), none⟩

/-- C79 fails: in the same place `x = y` is accepted, which is an error otherwise, and copies the elements of
`y` to the memory of `x`, where `p` sees them. -/
theorem C79_return_copy_violated : ∃ F C s, compile F = some C ∧ Py.call F [] [] = some s ∧ s.out = [[1]] ∧
    ∀ L, ∃ c, call L F C [] [] = some c ∧ c.out = [[3]] := by
  obtain ⟨s, hs, ho⟩ := ran (o := Py.call retG [] []) (f := (·.out)) (b := [[1]]) (by decide +kernel)
  obtain ⟨C, hc, h1⟩ := compiled (F := retG) (a := ([[3]], [[3]])) (f := fun C => do
    return ((← call .c retG C [] []).out, (← call .fortran retG C [] []).out)) (by decide +kernel)
  refine ⟨retG, C, s, hc, hs, ho, ?_⟩
  cases e1 : call .c retG C [] [] with
  | none => simp [e1] at h1
  | some c1 =>
    cases e2 : call .fortran retG C [] [] with
    | none => simp [e1, e2] at h1
    | some c2 =>
      simp [e1, e2] at h1
      intro L
      cases L with
      | c => exact ⟨c1, e1, h1.1⟩
      | fortran => exact ⟨c2, e2, h1.2⟩

private def baseF : Func := ⟨[0, 1],
  .seq (.bind 2 0 none) <| .loop [] (fun _ => 2) <| .seq (.bind 3 2 none) (.bind 2 1 none), some 3⟩

/-- C80 fails: in a loop with `r = p` and `p = b` in this order, `r` gets the targets that `p` had before the
loop.  The result uses the memory of `b`, but the wrapper keeps `a` alive. -/
theorem C80_base_violated : ∃ F C mem rs s, compile F = some C ∧ F.clean ∧ (∀ r ∈ rs, Valid mem r) ∧
    Py.call F mem rs = some s ∧ F.res = some 3 ∧ C.base = some 0 ∧
    ∀ L, ∃ c rc, call L F C mem rs = some c ∧ c.env 3 = some rc ∧ (rs[0]?).map (·.buf) = some 0 ∧ rc.buf = 1 := by
  obtain ⟨s, hs, _⟩ := ran (o := Py.call baseF [[5], [6]] [⟨0, [0]⟩, ⟨1, [0]⟩]) (f := (·.out)) (b := [])
    (by decide +kernel)
  obtain ⟨C, hc, h1⟩ := compiled (F := baseF) (a := (some 0, some 1, some 1)) (f := fun C => do
    return (C.base, ((← call .c baseF C [[5], [6]] [⟨0, [0]⟩, ⟨1, [0]⟩]).env 3).map (·.buf),
      ((← call .fortran baseF C [[5], [6]] [⟨0, [0]⟩, ⟨1, [0]⟩]).env 3).map (·.buf)))
    (by decide +kernel)
  cases e1 : call .c baseF C [[5], [6]] [⟨0, [0]⟩, ⟨1, [0]⟩] with
  | none => simp [e1] at h1
  | some c1 =>
    cases e2 : call .fortran baseF C [[5], [6]] [⟨0, [0]⟩, ⟨1, [0]⟩] with
    | none => simp [e1, e2] at h1
    | some c2 =>
      simp only [e1, e2, Option.bind_eq_bind, Option.bind_some] at h1
      obtain ⟨k1, k⟩ := Prod.mk.inj (Option.some.inj h1)
      obtain ⟨k2, k3⟩ := Prod.mk.inj k
      obtain ⟨r1, k4, k5⟩ := ran k2
      obtain ⟨r2, k6, k7⟩ := ran k3
      refine ⟨baseF, C, [[5], [6]], [⟨0, [0]⟩, ⟨1, [0]⟩], s, hc,
        by simp [baseF, Func.clean, Clean, Stmt.sources, Stmt.owners], ?_, hs, rfl, k1, ?_⟩
      · intro r hr
        simp only [List.mem_cons, List.not_mem_nil, or_false] at hr
        rcases hr with rfl | rfl
        · exact ⟨[5], rfl, by simp⟩
        · exact ⟨[6], rfl, by simp⟩
      · intro L
        cases L with
        | c => exact ⟨c1, r1, e1, k4, rfl, k5⟩
        | fortran => exact ⟨c2, r2, e2, k6, rfl, k7⟩

private def localF : Func := ⟨[0],
  .seq (.bind 2 0 none) <| .seq (.fresh 1 [] (lit [7]) false) <| .loop [] (fun _ => 2) <|
  .seq (.bind 3 2 none) (.bind 2 1 none), some 3⟩

/-- C80 fails: the same with a local array, which is freed at the end: the elements of the result cannot be
read. -/
theorem C80_local_violated : ∃ F C mem rs s, compile F = some C ∧ F.clean ∧ (∀ r ∈ rs, Valid mem r) ∧
    Py.call F mem rs = some s ∧ F.res = some 3 ∧ s.read 3 = some [7] ∧
    ∀ L, ∃ c, call L F C mem rs = some c ∧ c.read 3 = none := by
  obtain ⟨s, hs, hr⟩ := ran (o := Py.call localF [[5]] [⟨0, [0]⟩]) (f := (·.read 3)) (b := some [7])
    (by decide +kernel)
  obtain ⟨C, hc, h1⟩ := compiled (F := localF) (a := (none, none)) (f := fun C => do
    return ((← call .c localF C [[5]] [⟨0, [0]⟩]).read 3, (← call .fortran localF C [[5]] [⟨0, [0]⟩]).read 3))
    (by decide +kernel)
  refine ⟨localF, C, [[5]], [⟨0, [0]⟩], s, hc,
    by simp [localF, Func.clean, Clean, Stmt.sources, Stmt.owners, Stmt.returns], one_valid 5, hs, rfl, hr, ?_⟩
  cases e1 : call .c localF C [[5]] [⟨0, [0]⟩] with
  | none => simp [e1] at h1
  | some c1 =>
    cases e2 : call .fortran localF C [[5]] [⟨0, [0]⟩] with
    | none => simp [e1, e2] at h1
    | some c2 =>
      simp only [e1, e2, Option.bind_eq_bind, Option.bind_some] at h1
      have h1' := Prod.mk.inj (Option.some.inj h1)
      intro L
      cases L with
      | c => exact ⟨c1, e1, h1'.1⟩
      | fortran => exact ⟨c2, e2, h1'.2⟩

end Verif.Aliases
