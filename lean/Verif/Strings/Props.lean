import Verif.Strings.Lemmas
import Verif.Strings.Memory

/-!
# C124-C127: strings
-/

namespace Verif.Strings

/-! ### C124: comparison -/

/-- In Fortran, `s == t` and `s != t` are right exactly if the strings are equal or
differ in more than the number of blanks at the end. -/
theorem C124_fortran_iff_partial {s t : Str} (hs : ∀ c ∈ s, Scalar c)
    (ht : ∀ c ∈ t, Scalar c) :
    (fEq (utf8 s) (utf8 t) = decide (s = t) ↔ s = t ∨ rstrip s ≠ rstrip t) ∧
    (fNe (utf8 s) (utf8 t) = decide (s ≠ t) ↔ s = t ∨ rstrip s ≠ rstrip t) := by
  have hk : fEq (utf8 s) (utf8 t) = true ↔ rstrip s = rstrip t := by
    rw [fEq_iff, rstrip_utf8, rstrip_utf8]
    constructor
    · exact utf8_inj (fun c hc => hs c (rstrip_mem hc)) (fun c hc => ht c (rstrip_mem hc))
    · intro h; rw [h]
  have main : fEq (utf8 s) (utf8 t) = decide (s = t) ↔ s = t ∨ rstrip s ≠ rstrip t := by
    by_cases e : s = t
    · subst e
      simp [hk]
    · simp only [e, decide_false, false_or, ne_eq, ← hk, Bool.not_eq_true]
  refine ⟨main, ?_⟩
  rw [← main]
  unfold fNe
  by_cases e : s = t
  · simp [e]
  · cases h : fEq (utf8 s) (utf8 t) <;> simp [e]

example : fEq (utf8 [97, 233]) (utf8 [97, 234]) = decide ([97, 233] = [97, 234]) :=
  (C124_fortran_iff_partial (by simp [Scalar]) (by simp [Scalar])).1.2
    (Or.inr (by decide))

/-- In C, `s == t`, and `s != t` as a condition or stored in a variable, are right
exactly if the strings are equal or differ before the first null character; for
every conforming `strcmp`. -/
theorem C124_c_iff_partial {cmp : Str → Str → Int} (hc : IsStrcmp cmp) {s t : Str}
    (hs : ∀ c ∈ s, Scalar c) (ht : ∀ c ∈ t, Scalar c) :
    (asBool (cEq cmp (utf8 s) (utf8 t)) = decide (s = t) ↔
      s = t ∨ upToNul s ≠ upToNul t) ∧
    (asBool (cNe cmp (utf8 s) (utf8 t)) = decide (s ≠ t) ↔
      s = t ∨ upToNul s ≠ upToNul t) ∧
    (asInt (cEq cmp (utf8 s) (utf8 t)) = (if s = t then 1 else 0) ↔
      s = t ∨ upToNul s ≠ upToNul t) ∧
    (eqTrue (cEq cmp (utf8 s) (utf8 t)) = decide (s = t) ↔
      s = t ∨ upToNul s ≠ upToNul t) := by
  have hk : cmp (utf8 s) (utf8 t) = 0 ↔ upToNul s = upToNul t := by
    rw [hc.zero, upToNul_utf8, upToNul_utf8]
    constructor
    · exact utf8_inj (fun c hc => hs c (upToNul_mem hc)) (fun c hc => ht c (upToNul_mem hc))
    · intro h; rw [h]
  unfold cEq cNe asBool asInt eqTrue
  by_cases e : s = t
  · subst e
    simp [hk.2 rfl]
  · by_cases h0 : cmp (utf8 s) (utf8 t) = 0
    · simp [h0, e, hk.1 h0]
    · have : ¬ upToNul s = upToNul t := fun h => h0 (hk.2 h)
      simp [h0, e, this]

/-- A function that satisfies the standard's description of `strcmp`. -/
def strcmpRef (a b : Str) : Int :=
  if upToNul a = upToNul b then 0 else if upToNul a < upToNul b then -1 else 1

theorem strcmpRef_ok : IsStrcmp strcmpRef := by
  constructor
  · intro a b
    unfold strcmpRef
    split
    · simp [*]
    · split <;> simp [*]
  · intro a b
    unfold strcmpRef
    split
    · rename_i h
      rw [h]
      simp [List.lt_irrefl]
    · split <;> simp [*]

example : asBool (cEq strcmpRef (utf8 [97, 233]) (utf8 [97, 234])) = false := by
  have := (C124_c_iff_partial strcmpRef_ok (s := [97, 233]) (t := [97, 234])
    (by simp [Scalar]) (by simp [Scalar])).1.2 (Or.inr (by decide))
  simpa using this

/-- C124 fails: in Fortran `"a" == "a "` is true. -/
theorem C124_violated_blank : fEq (utf8 [97]) (utf8 [97, 32]) = true ∧
    ([97] : Str) ≠ [97, 32] := by decide

/-- C124 fails: in C `"a\0b" == "a"` is true for every conforming `strcmp`. -/
theorem C124_violated_nul {cmp : Str → Str → Int} (hc : IsStrcmp cmp) :
    asBool (cEq cmp (utf8 [97, 0, 98]) (utf8 [97])) = true ∧
    ([97, 0, 98] : Str) ≠ [97] := by
  refine ⟨?_, by decide⟩
  unfold asBool cEq
  rw [if_pos ((hc.zero _ _).2 (by decide))]
  rfl

/-- C124 fails: in C `int(s != t)` is negative whenever `s` comes before `t`, and
`(s != t) == True` is then false, for every conforming `strcmp`. -/
theorem C124_violated_value {cmp : Str → Str → Int} (hc : IsStrcmp cmp) {s t : Str}
    (h : upToNul (utf8 s) < upToNul (utf8 t)) :
    asInt (cNe cmp (utf8 s) (utf8 t)) ≠ 1 ∧ eqTrue (cNe cmp (utf8 s) (utf8 t)) = false := by
  have := (hc.neg _ _).2 h
  unfold asInt eqTrue cNe
  constructor
  · omega
  · simp; omega

example : upToNul (utf8 [97]) < upToNul (utf8 [98]) := by decide

/-! ### C125: strings passed from and to Python -/

/-- A function in C receives the string that Python passed exactly if it contains no
null character. -/
theorem C125_c_argument_iff_partial {s : Str} (hs : ∀ c ∈ s, Scalar c) :
    cArg s = utf8 s ↔ 0 ∉ s := by
  unfold cArg
  rw [upToNul_utf8, ← upToNul_eq_self]
  constructor
  · exact utf8_inj (fun c hc => hs c (upToNul_mem hc)) hs
  · intro h; rw [h]

/-- A function in Fortran receives the string that Python passed exactly if it is
plain ASCII. -/
theorem C125_fortran_argument_iff_partial (s : Str) : fArg s = utf8 s ↔ Ascii s := by
  rw [fArg_eq, ← (utf8_len s).2]
  constructor
  · intro h
    have := congrArg List.length h
    rw [List.length_take] at this
    have := (utf8_len s).1
    omega
  · intro h
    rw [← h, List.take_length]

/-- Python receives the string that a function returns exactly if it contains no null
character, in both languages; in Fortran the buffer is filled completely and Python
does not read behind its end. -/
theorem C125_result_iff_partial {s : Str} (hs : ∀ c ∈ s, Scalar c) :
    (cRes (utf8 s) = utf8 s ↔ 0 ∉ s) ∧
    (readC (fBuf (utf8 s)) = some (utf8 s) ↔ 0 ∉ s) := by
  have h := C125_c_argument_iff_partial hs
  unfold cArg at h
  refine ⟨h, ?_⟩
  rw [fBuf_eq, readC_buf, Option.some.injEq]
  exact h

/-- A string that goes through a function and back comes back unchanged exactly if
it contains no null character (C) or is ASCII without null characters (Fortran). -/
theorem C125_round_trip_iff_partial {s : Str} (hs : ∀ c ∈ s, Scalar c) :
    (cRes (cArg s) = utf8 s ↔ 0 ∉ s) ∧
    (readC (fBuf (fArg s)) = some (utf8 s) ↔ Ascii s ∧ 0 ∉ s) := by
  constructor
  · unfold cRes cArg
    rw [upToNul_utf8, upToNul_utf8]
    have hi : upToNul (upToNul s) = upToNul s := by
      rw [upToNul_eq_self]
      intro h
      have : ∀ l : Str, 0 ∉ upToNul l := by
        intro l hl
        have := List.all_takeWhile (p := (· != 0)) (l := l)
        rw [List.all_eq_true] at this
        have := this 0 hl
        simp at this
      exact this s h
    rw [hi, ← upToNul_eq_self]
    constructor
    · exact utf8_inj (fun c hc => hs c (upToNul_mem hc)) hs
    · intro h; rw [h]
  · rw [fBuf_eq, readC_buf, Option.some.injEq]
    constructor
    · intro h
      have hl : (upToNul (fArg s)).length ≤ (fArg s).length :=
        (List.takeWhile_sublist _).length_le
      have hf : (fArg s).length ≤ s.length := by
        rw [fArg_eq, List.length_take]; omega
      have hu := (utf8_len s).1
      have hA : Ascii s := (utf8_len s).2.1 (by rw [h] at hl; omega)
      refine ⟨hA, ?_⟩
      rw [(C125_fortran_argument_iff_partial s).2 hA] at h
      exact (C125_c_argument_iff_partial hs).1 h
    · rintro ⟨hA, h0⟩
      rw [(C125_fortran_argument_iff_partial s).2 hA]
      exact (C125_c_argument_iff_partial hs).2 h0

example : cRes (cArg [97, 233]) = utf8 [97, 233] :=
  (C125_round_trip_iff_partial (by simp [Scalar])).1.2 (by decide)
example : readC (fBuf (fArg [97, 98])) = some (utf8 [97, 98]) :=
  (C125_round_trip_iff_partial (by simp [Scalar])).2.2 ⟨by simp [Ascii], by decide⟩

/-- C125 fails: a function in Fortran receives only the first byte of `"é"`, which
is not the encoding of any string. -/
theorem C125_violated_accent : fArg [233] = [195] ∧ utf8 [233] = [195, 169] ∧
    ∀ s, utf8 s ≠ [195] := by
  refine ⟨by decide, by decide, ?_⟩
  intro s h
  cases s with
  | nil => cases h
  | cons c s =>
    rw [utf8_cons] at h
    unfold enc at h
    split at h
    · simp only [List.cons_append, List.nil_append, List.cons.injEq] at h
      omega
    · split at h
      · simp at h
      · split at h <;> simp at h

/-- C125 fails: a function in C receives `"a"` for `"a\0b"`. -/
theorem C125_violated_nul : cArg [97, 0, 98] = utf8 [97] := by decide

/-! ### C126: the memory of string variables in C -/

/-- The C function behaves like Python's — it runs without undefined behaviour,
observes the same strings, leaves the arguments and the result with their values and
their own buffers and frees every other buffer — exactly if every assignment on the
path is harmless and every local variable that is not returned has got a value.  The
function, its statements, the path through them and the strings are arbitrary. -/
theorem C126_iff_partial {p : Fn} {val : Nat → Str} {outs : List Str} {env : Env}
    (hdecl : Declared p) (hf : Flags p.evs (start p.args val))
    (hp : pyRun p.evs (start p.args val) = some (outs, env)) :
    Right p val outs env ↔
      Harmless p.evs (start p.args val) ∧
        ∀ v ∈ p.locals, p.ret ≠ some v → env v ≠ none :=
  right_iff hdecl hf hp

/-- A string of 23 letters. -/
def longStr : Str := List.replicate 23 97

/-- `def f(a: str): s = str(a); print(s); s = 'b'; t = s; r = str(a); return r`
is right for an argument of 23 letters. -/
def okFn : Fn :=
  ⟨[0], [1, 2, 3], some 3,
    [.asg false 1 (.fresh [0] fun l => l.flatten), .use 1,
     .asg true 1 (.fresh [] fun _ => [98]), .asg false 2 (.copy 1),
     .asg false 3 (.fresh [0] fun l => l.flatten)]⟩

example : Right okFn (fun _ => longStr) [longStr]
    (fun v => if v = 3 then some longStr else if v = 2 then some [98] else
      if v = 1 then some [98] else if v = 1 then some longStr else
      start [0] (fun _ => longStr) v) := by
  refine (C126_iff_partial (p := okFn) ⟨?_, ?_, ?_, ?_, ?_⟩ ?_ ?_).2 ⟨?_, ?_⟩
  · decide
  · decide
  · decide
  · simp [okFn]
  · simp [okFn, Assigns]
  · simp [okFn, Flags, Rhs.flag, start, upd, Rhs.val]
  · rfl
  · simp [okFn, Harmless, Rhs.good, start, upd, Rhs.val, cap]
  · decide

/-- C126 fails: `s = 'aa…a'; t = s` frees the same buffer twice. -/
theorem C126_violated_copy :
    let p : Fn := ⟨[], [0, 1], none,
      [.asg false 0 (.fresh [] fun _ => longStr), .asg false 1 (.copy 0)]⟩
    Declared p ∧ Flags p.evs (start [] fun _ => []) ∧
    (pyRun p.evs (start [] fun _ => [])).isSome ∧
    (p.runC fun _ => []).isNone := by
  refine ⟨⟨by decide, by decide, by decide, by decide, ?_⟩, ?_, by decide, by decide⟩
  · simp [Assigns]
  · simp [Flags, Rhs.flag, start, upd, Rhs.val]

/-- C126 fails: `s = 'aa…a'; s = str(s)` reads the buffer that it has just freed. -/
theorem C126_violated_self :
    let p : Fn := ⟨[], [0], none,
      [.asg false 0 (.fresh [] fun _ => longStr),
       .asg true 0 (.fresh [0] fun l => l.flatten)]⟩
    Declared p ∧ Flags p.evs (start [] fun _ => []) ∧
    (pyRun p.evs (start [] fun _ => [])).isSome ∧
    (p.runC fun _ => []).isNone := by
  refine ⟨⟨by decide, by decide, by decide, by decide, ?_⟩, ?_, by decide, by decide⟩
  · simp [Assigns]
  · simp [Flags, Rhs.flag, start]

/-- C126 fails: a string variable that is assigned only in a branch that is not taken
is freed although it was never initialised. -/
theorem C126_violated_branch :
    let p : Fn := ⟨[], [0], none, []⟩
    Declared p ∧ Flags p.evs (start [] fun _ => []) ∧
    (pyRun p.evs (start [] fun _ => [])).isSome ∧
    (p.runC fun _ => []).isNone := by
  refine ⟨⟨by decide, by decide, by decide, by decide, ?_⟩, ?_, by decide, by decide⟩
  · simp [Assigns]
  · simp [Flags]

/-- C126 fails: a string variable that gets its first value inside a loop counts as
possibly allocated there, so an uninitialised variable is freed, whatever the
strings. -/
theorem C126_violated_loop (s : Str) :
    let p : Fn := ⟨[], [0], none, [.asg true 0 (.fresh [] fun _ => s)]⟩
    Declared p ∧ Flags p.evs (start [] fun _ => []) ∧
    (pyRun p.evs (start [] fun _ => [])).isSome ∧
    (p.runC fun _ => []).isNone := by
  refine ⟨⟨by simp, by simp, by simp, by simp, ?_⟩, ?_, by rfl, by rfl⟩
  · simp [Assigns]
  · simp [Flags, Rhs.flag]

/-- C126 fails: `s = 'aa…a'; return s` through a result variable hands Python a
freed buffer. -/
theorem C126_violated_return :
    let p : Fn := ⟨[], [0, 1], some 1,
      [.asg false 0 (.fresh [] fun _ => longStr), .asg false 1 (.copy 0)]⟩
    Declared p ∧ Flags p.evs (start [] fun _ => []) ∧
    (pyRun p.evs (start [] fun _ => [])).map (fun r => r.2 1) = some (some longStr) ∧
    (p.runC fun _ => []).map (fun r => r.2.read 1) = some none := by
  refine ⟨⟨by decide, by decide, by decide, ?_, ?_⟩, ?_, by rfl, by rfl⟩
  · simp
  · simp [Assigns]
  · simp [Flags, Rhs.flag, start, upd, Rhs.val]

/-! ### C127: length -/

/-- `len(s)` is right exactly if the string is plain ASCII. -/
theorem C127_iff_partial (s : Str) : cLen (utf8 s) = s.length ↔ Ascii s :=
  (utf8_len s).2

example : cLen (utf8 [97, 98]) = 2 := (C127_iff_partial _).2 (by simp [Ascii])

/-- C127 fails: `len("é")` is 2. -/
theorem C127_violated : cLen (utf8 [233]) = 2 ∧ [233].length = 1 := by decide

end Verif.Strings
