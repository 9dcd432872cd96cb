import Verif.Comps.Lemmas3
import Verif.Loops.Spec
/-
C165: a comprehension gives its target the list that Python computes.
C166: a comprehension changes nothing but its target.
-/
namespace Verif.Comps.Props
open Verif.Comps.Spec Verif.Comps.Model Verif.Comps.Lemmas

theorem steps_get (n : Nat) (a s : Int) (k : Nat) : (steps n a s)[k]? = if k < n then some (a + s * k) else none := by
  induction n generalizing a k with
  | zero => simp [steps]
  | succ n ih =>
    cases k with
    | zero => simp [steps]
    | succ k =>
      simp only [steps, List.getElem?_cons_succ, ih, Nat.add_lt_add_iff_right]
      split
      · congr 1
        rw [Int.natCast_add, Int.mul_add]
        simp only [Int.natCast_one, Int.mul_one]; omega
      · rfl

theorem rangeLen_lt {a b s : Int} (hs : s ≠ 0) (k : Nat) :
    k < rangeLen a b s ↔ (0 < s ∧ a + s * k < b) ∨ (s < 0 ∧ b < a + s * k) := by
  induction k generalizing a with
  | zero =>
    have := rangeLen_zero (a := a) (b := b) hs
    have h2 : (0 < rangeLen a b s) ↔ ¬ rangeLen a b s = 0 := by omega
    rw [h2, this]
    simp only [Int.natCast_zero, Int.mul_zero, Int.add_zero]
    split <;> simp <;> omega
  | succ k ih =>
    by_cases h0 : rangeLen a b s = 0
    · have := (rangeLen_zero hs).1 h0
      have hk : (0 : Int) ≤ (k : Int) + 1 := by omega
      rw [h0]
      constructor
      · intro h; omega
      · intro h
        exfalso
        rcases h with ⟨h1, h2⟩ | ⟨h1, h2⟩
        · rw [if_pos h1] at this
          simp only [decide_eq_false_iff_not] at this
          have := Int.mul_nonneg (Int.le_of_lt h1) hk
          push_cast at h2; omega
        · rw [if_neg (by omega)] at this
          simp only [decide_eq_false_iff_not] at this
          have h3 : 0 ≤ (-s) * ((k : Int) + 1) := Int.mul_nonneg (by omega) hk
          rw [Int.neg_mul] at h3
          push_cast at h2; omega
    · obtain ⟨m, hm⟩ : ∃ m, rangeLen a b s = m + 1 := ⟨rangeLen a b s - 1, by omega⟩
      have hm' := rangeLen_succ hs hm
      have := ih (a := a + s)
      rw [hm'] at this
      rw [hm, Nat.add_lt_add_iff_right, this]
      have e : a + s * ((k + 1 : Nat) : Int) = a + s + s * (k : Int) := by
        push_cast; rw [Int.mul_add]; omega
      rw [e]

/-- The elements of `range` in the specification are those of Python's documentation. -/
theorem C165_range_spec {a b s : Int} (hs : s ≠ 0) : Verif.Loops.Spec.IsRange a b s (pyRange a b s) := by
  intro k v
  rw [pyRange, steps_get]
  have := rangeLen_lt (a := a) (b := b) hs k
  split
  · next h =>
    simp only [Option.some.injEq]
    constructor
    · intro h1; subst h1; exact ⟨rfl, this.1 h⟩
    · intro h1; exact h1.1.symm
  · next h =>
    constructor
    · intro h1; cases h1
    · intro ⟨h1, h2⟩; subst h1; exact absurd (this.2 h2) h

/-- C165 in C, for lists: if the variables of the clauses are different, none of them occurs in the iterable of the first
clause, and the target is not used by the comprehension, the list is the one of Python. -/
theorem C165_list_c_partial (t : Target) (lhs : Nat) (e : Expr) (cs : List Clause) (size : Nat) (junk : Nat → Int) (s : St)
    (vs : List Int) (hk : t.kind = .list) (hnew : t.known = false → t.inLoop = false → s.mem.seqs lhs = [])
    (he : e.Free lhs) (hcs : ∀ c ∈ cs, c.Free lhs) (hnd : (targets cs).Nodup)
    (hfirst : ∀ c ∈ cs.head?, c.iter.Without (targets cs)) (hv : pyComp s.vars s.mem.seqs e cs = some vs) :
    ∃ f, ∀ fuel, f ≤ fuel → ∃ s', compC t lhs e cs size junk fuel s = some s' ∧ s'.mem.seqs lhs = vs := by
  have hne : cs ≠ [] := by rintro rfl; cases hv
  have hacc : accepted t cs = true := by simp [accepted, hk, hne]
  obtain ⟨f, hf⟩ := compC_done (size := size) (junk := junk) hacc he hcs hnd hfirst hv
  refine ⟨f, fun fuel hfu => ?_⟩
  have h := hf fuel hfu
  unfold Done at h
  rw [hk, emits_list] at h
  obtain ⟨g, hr, _⟩ := h
  refine ⟨_, hr, ?_⟩
  simp only [upd_same]
  have : (start t lhs size junk s.mem).seqs lhs = [] := by
    unfold start prep
    rw [hk]
    simp only
    split
    · next h =>
      split at h
      · cases h
      · next h2 =>
        simp only [Bool.or_eq_true, not_or, Bool.not_eq_true] at h2
        exact hnew h2.1 h2.2
    · simp
    · next h => split at h <;> cases h
  rw [this]; rfl

/-- C165 in Fortran, for lists: the variables of the clauses may occur in the first iterable, but a clause has at most one
condition (the others could be evaluated although the first is false). -/
theorem C165_list_fortran_partial (t : Target) (lhs : Nat) (e : Expr) (cs : List Clause) (size : Nat) (junk : Nat → Int) (s : St)
    (vs : List Int) (hk : t.kind = .list) (hnew : t.known = false → t.inLoop = false → s.mem.seqs lhs = [])
    (he : e.Free lhs) (hcs : ∀ c ∈ cs, c.Free lhs) (hnd : (targets cs).Nodup)
    (hone : ∀ c ∈ cs, c.conds.length ≤ 1) (hv : pyComp s.vars s.mem.seqs e cs = some vs) :
    ∃ s', compF t lhs e cs size junk s = some s' ∧ s'.mem.seqs lhs = vs := by
  have hne : cs ≠ [] := by rintro rfl; cases hv
  have hacc : accepted t cs = true := by simp [accepted, hk, hne]
  have h := compF_done (size := size) (junk := junk) hacc he hcs hnd hone hv
  unfold Done at h
  rw [hk, emits_list] at h
  obtain ⟨g, hr, _⟩ := h
  refine ⟨_, hr, ?_⟩
  simp only [upd_same]
  have : (start t lhs size junk s.mem).seqs lhs = [] := by
    unfold start prep
    rw [hk]
    simp only
    split
    · next h =>
      split at h
      · cases h
      · next h2 =>
        simp only [Bool.or_eq_true, not_or, Bool.not_eq_true] at h2
        exact hnew h2.1 h2.2
    · simp
    · next h => split at h <;> cases h
  rw [this]; rfl

theorem start_array {t : Target} {lhs size : Nat} {junk : Nat → Int} {m : Mem} (hk : t.kind = .array)
    (hsame : t.known = true → t.sameShape = true → (m.seqs lhs).length = size) :
    ((start t lhs size junk m).seqs lhs).length = size ∧ (start t lhs size junk m).cnt = 0 := by
  unfold start prep
  rw [hk]
  simp only
  split
  · next h =>
    split at h
    · next h2 =>
      simp only [Bool.and_eq_true] at h2
      exact ⟨hsame h2.1 h2.2, rfl⟩
    · cases h
  · next h => split at h <;> cases h
  · simp

theorem array_done {lhs : Nat} {xs : List Nat} {vs : List Int} {f : Nat → Int} {m : Mem} {r : Option St} {size : Nat}
    (hm : (m.seqs lhs).length = size ∧ m.cnt = 0) (h : Done .array lhs xs vs ⟨f, m⟩ r) :
    ((∃ s', r = some s' ∧ s'.mem.seqs lhs = vs) ↔ vs.length = size) ∧ (size < vs.length → r = none) := by
  unfold Done at h
  rw [emits_array] at h
  simp only [hm.2, Nat.zero_add, hm.1, List.take_zero, List.nil_append] at h
  by_cases hle : vs.length ≤ size
  · rw [if_pos (Or.inl hle)] at h
    obtain ⟨g, hr, _⟩ := h
    refine ⟨?_, fun h => by omega⟩
    rw [hr]
    constructor
    · rintro ⟨s', hs, hv⟩
      cases hs
      have := congrArg List.length hv
      simp [hm.1] at this
      omega
    · intro hv
      refine ⟨_, rfl, ?_⟩
      simp only [upd_same]
      rw [List.drop_eq_nil_of_le (by rw [hm.1]; omega), List.append_nil]
  · have hv : vs ≠ [] := by rintro rfl; simp at hle
    rw [if_neg (by rintro (h | h); exact hle h; exact hv h)] at h
    simp only at h
    refine ⟨?_, fun _ => h⟩
    rw [h]
    constructor
    · rintro ⟨s', hs, _⟩; cases hs
    · intro h; omega

/-- C165 in C, for arrays: under the same conditions the array is the one of Python exactly if the allocated size (or that of the
existing array) is the number of values (C11); with more values than that the program writes outside the array. -/
theorem C165_array_c_partial (t : Target) (lhs : Nat) (e : Expr) (cs : List Clause) (size : Nat) (junk : Nat → Int) (s : St)
    (vs : List Int) (hk : t.kind = .array) (hacc : ∀ c ∈ cs, c.conds = [])
    (hsame : t.known = true → t.sameShape = true → (s.mem.seqs lhs).length = size)
    (he : e.Free lhs) (hcs : ∀ c ∈ cs, c.Free lhs) (hnd : (targets cs).Nodup)
    (hfirst : ∀ c ∈ cs.head?, c.iter.Without (targets cs)) (hv : pyComp s.vars s.mem.seqs e cs = some vs) :
    ∃ f, ∀ fuel, f ≤ fuel →
      ((∃ s', compC t lhs e cs size junk fuel s = some s' ∧ s'.mem.seqs lhs = vs) ↔ vs.length = size) ∧
      (size < vs.length → compC t lhs e cs size junk fuel s = none) := by
  have hne : cs ≠ [] := by rintro rfl; cases hv
  have hacc : accepted t cs = true := by simpa [accepted, hk, hne] using hacc
  obtain ⟨f, hf⟩ := compC_done (size := size) (junk := junk) hacc he hcs hnd hfirst hv
  refine ⟨f, fun fuel hfu => ?_⟩
  have h := hf fuel hfu
  rw [hk] at h
  exact array_done (start_array hk hsame) h

/-- C165 in Fortran, for arrays. -/
theorem C165_array_fortran_partial (t : Target) (lhs : Nat) (e : Expr) (cs : List Clause) (size : Nat) (junk : Nat → Int) (s : St)
    (vs : List Int) (hk : t.kind = .array) (hacc : ∀ c ∈ cs, c.conds = [])
    (hsame : t.known = true → t.sameShape = true → (s.mem.seqs lhs).length = size)
    (he : e.Free lhs) (hcs : ∀ c ∈ cs, c.Free lhs) (hnd : (targets cs).Nodup) (hv : pyComp s.vars s.mem.seqs e cs = some vs) :
    ((∃ s', compF t lhs e cs size junk s = some s' ∧ s'.mem.seqs lhs = vs) ↔ vs.length = size) ∧
      (size < vs.length → compF t lhs e cs size junk s = none) := by
  have hne : cs ≠ [] := by rintro rfl; cases hv
  have hone : ∀ c ∈ cs, c.conds.length ≤ 1 := fun c hc => by rw [hacc c hc]; simp
  have hacc : accepted t cs = true := by simpa [accepted, hk, hne] using hacc
  have h := compF_done (size := size) (junk := junk) hacc he hcs hnd hone hv
  rw [hk] at h
  exact array_done (start_array hk hsame) h

/-- C165: an existing array of the right length may be used by its own comprehension `x = np.array([e for i in range(n)])` if it is
only read at positions `i`, `i + 1`, …: these still have their old values. `n` is the length of the array. -/
theorem C165_inplace_partial (t : Target) (lhs : Nat) (e : Expr) (x : Nat) (b : Expr) (size : Nat) (junk : Nat → Int) (s : St)
    (vs : List Int) (hk : t.kind = .array) (hkn : t.known = true) (hsh : t.sameShape = true)
    (hb : b.Without [x]) (hb2 : b.Free lhs ∨ b = .len lhs)
    (hbv : eval (fun x => some (s.vars x)) s.mem.seqs b = some ((s.mem.seqs lhs).length : Int))
    (he : e.Ahead lhs x) (hv : pyComp s.vars s.mem.seqs e [⟨x, .range (.num 0) b (.num 1), []⟩] = some vs) :
    (∃ s', compF t lhs e [⟨x, .range (.num 0) b (.num 1), []⟩] size junk s = some s' ∧ s'.mem.seqs lhs = vs) ∧
    ∃ f, ∀ fuel, f ≤ fuel →
      ∃ s', compC t lhs e [⟨x, .range (.num 0) b (.num 1), []⟩] size junk fuel s = some s' ∧ s'.mem.seqs lhs = vs := by
  have hacc : accepted t [⟨x, .range (.num 0) b (.num 1), []⟩] = true := by simp [accepted]
  have hst : start t lhs size junk s.mem = { s.mem with cnt := 0 } := by simp [start, prep, hk, hkn, hsh]
  have hlen : rangeLen 0 ((s.mem.seqs lhs).length : Int) 1 = (s.mem.seqs lhs).length := by
    simp only [rangeLen]; rw [if_pos (by omega), Int.ediv_one]; omega
  have hvv : elemVals s.mem.seqs e (inner s.vars [⟨x, .range (.num 0) b (.num 1), []⟩]) x
      (steps (s.mem.seqs lhs).length ((0 : Nat) : Int) 1) = some vs := by
    obtain ⟨ys, hys, hj⟩ := bind_some hv
    simp only [iterVals, hbv, eval, Option.bind_eq_bind, Option.bind_some] at hys
    rw [if_neg (by decide)] at hys
    simp only [Option.some.injEq] at hys
    subst hys
    rw [pyRange, hlen] at hj
    exact hj
  have henv : ∀ y v, inner s.vars [⟨x, .range (.num 0) b (.num 1), []⟩] y = some v → s.vars y = v := by
    intro y v h
    simp only [inner] at h
    split at h
    · cases h
    · exact Option.some.inj h
  have hmid : Mid lhs x s.mem.seqs s.vars 0 [] ((⟨s.vars, { s.mem with cnt := 0 }⟩ : St).put x 0) :=
    ⟨fun y hy => by simp only [St.put]; exact upd_ne _ _ _ hy, by simp [St.put], fun _ _ => rfl, by simp [St.put], rfl, rfl⟩
  constructor
  · have := fRange_inplace (body := guardF [] (runF .array lhs e [])) he henv (fun s => rfl) _ 0 (by omega) [] vs hvv _ hmid
    obtain ⟨s', h1, h2⟩ := this
    refine ⟨s', ?_, by simpa using h2⟩
    simp only [compF, hacc, if_true, hst, runF, hk]
    have hx : x ∉ targets [] := by simp [targets]
    rw [if_neg hx]
    have hb' : ev (⟨s.vars, { s.mem with cnt := 0 }⟩ : St) b = some ((s.mem.seqs lhs).length : Int) := hbv
    have hz : ¬ (1 : Int) = 0 := by decide
    simp only [ev, eval, Option.bind_eq_bind, Option.bind_some, if_neg hz] at hb' ⊢
    rw [hb']
    simp only [Option.bind_some, hlen]
    exact h1
  · refine ⟨(s.mem.seqs lhs).length + 1, fun fuel hfu => ?_⟩
    have := cRange_inplace (body := guardC [] (runC .array lhs e fuel [])) (b := b) he henv (fun s => rfl) ?_ _ 0 (by omega) [] vs hvv _ hmid
      fuel hfu
    · obtain ⟨s', h1, h2⟩ := this
      refine ⟨s', ?_, by simpa using h2⟩
      simp only [compC, hacc, if_true, hst, runC, hk, ev, eval, Option.bind_eq_bind, Option.bind_some]
      exact h1
    · intro s1 hvars hoff hl
      rcases hb2 with hb2 | hb2
      · have h1 : eval (inner s.vars [⟨x, .range (.num 0) b (.num 1), []⟩]) s.mem.seqs b = some ((s.mem.seqs lhs).length : Int) := by
          rw [eval_inner (cs := [⟨x, .range (.num 0) b (.num 1), []⟩]) hb]; exact hbv
        refine eval_mono (fun y v hy => ?_) hoff hb2 h1
        simp only [inner, targets, List.map_cons, List.map_nil, List.mem_singleton] at hy
        split at hy
        · cases hy
        · next hyx => rw [hvars y hyx]; exact hy
      · subst hb2
        simp only [ev, eval, hl]

/-! The conditions are needed -/

/-- C165 fails: a list that is iterated over by its own comprehension, `x = [e for v in x]`, is empty afterwards, whatever the
element is: the list is cleared before the loop. -/
theorem C165_violated_self (e : Expr) (lhs v size : Nat) (inLoop same : Bool) (junk : Nat → Int) (s : St) (fuel : Nat) :
    (∃ s', compC ⟨.list, true, inLoop, same⟩ lhs e [⟨v, .seq lhs, []⟩] size junk (fuel + 1) s = some s' ∧ s'.mem.seqs lhs = []) ∧
    ∃ s', compF ⟨.list, true, inLoop, same⟩ lhs e [⟨v, .seq lhs, []⟩] size junk s = some s' ∧ s'.mem.seqs lhs = [] := by
  constructor
  · refine ⟨⟨s.vars, ⟨upd s.mem.seqs lhs [], 0⟩⟩, ?_, by simp⟩
    simp [compC, accepted, start, prep, runC, cSeq]
  · refine ⟨⟨s.vars, ⟨upd s.mem.seqs lhs [], 0⟩⟩, ?_, by simp⟩
    simp [compF, accepted, start, prep, runF, fSeq, targets]

/-- Sequence 0 is `[1, 2, 3]`; variable 0 is 3. -/
def s0 : St := ⟨fun _ => 3, ⟨fun t => if t = 0 then [1, 2, 3] else [], 0⟩⟩

def j0 : Nat → Int := fun _ => 99

/-- `x = [2 * v for v in x]` is `[2, 4, 6]` in Python. -/
example : pyComp s0.vars s0.mem.seqs (.mul (.num 2) (.var 0)) [⟨0, .seq 0, []⟩] = some [2, 4, 6] := by decide

/-- C165 fails: `x = [x[i] for i in range(3)]` reads the list after it was cleared. -/
theorem C165_violated_read :
    pyComp s0.vars s0.mem.seqs (.elt 0 (.var 0)) [⟨0, .range (.num 0) (.num 3) (.num 1), []⟩] = some [1, 2, 3] ∧
    (∀ fuel, compC ⟨.list, true, false, false⟩ 0 (.elt 0 (.var 0)) [⟨0, .range (.num 0) (.num 3) (.num 1), []⟩] 3 j0 fuel s0 = none) ∧
    compF ⟨.list, true, false, false⟩ 0 (.elt 0 (.var 0)) [⟨0, .range (.num 0) (.num 3) (.num 1), []⟩] 3 j0 s0 = none := by
  refine ⟨by decide, fun fuel => ?_, by rfl⟩
  cases fuel <;> rfl

/-- C165 fails: with `x = np.array([1, 2, 3])` the statement `x = np.array([x[2 - i] for i in range(3)])` gives `[3, 2, 3]`: the
array is changed in place. -/
theorem C165_violated_inplace :
    pyComp s0.vars s0.mem.seqs (.elt 0 (.sub (.num 2) (.var 0))) [⟨0, .range (.num 0) (.num 3) (.num 1), []⟩] = some [3, 2, 1] ∧
    (∀ fuel, 4 ≤ fuel → (compC ⟨.array, true, false, true⟩ 0 (.elt 0 (.sub (.num 2) (.var 0)))
      [⟨0, .range (.num 0) (.num 3) (.num 1), []⟩] 3 j0 fuel s0).map (·.mem.seqs 0) = some [3, 2, 3]) ∧
    (compF ⟨.array, true, false, true⟩ 0 (.elt 0 (.sub (.num 2) (.var 0)))
      [⟨0, .range (.num 0) (.num 3) (.num 1), []⟩] 3 j0 s0).map (·.mem.seqs 0) = some [3, 2, 3] := by
  refine ⟨by decide, fun fuel hf => ?_, by decide⟩
  obtain ⟨n, rfl⟩ : ∃ n, fuel = n + 4 := ⟨fuel - 4, by omega⟩
  rfl

/-- C165 fails in C: `i = 3; x = [i for i in range(i)]` is empty, since the bound is read after `i` is set to 0. -/
theorem C165_violated_bound :
    pyComp s0.vars s0.mem.seqs (.var 0) [⟨0, .range (.num 0) (.var 0) (.num 1), []⟩] = some [0, 1, 2] ∧
    (∀ fuel, 1 ≤ fuel → (compC ⟨.list, false, false, false⟩ 1 (.var 0)
      [⟨0, .range (.num 0) (.var 0) (.num 1), []⟩] 3 j0 fuel s0).map (·.mem.seqs 1) = some []) ∧
    (compF ⟨.list, false, false, false⟩ 1 (.var 0)
      [⟨0, .range (.num 0) (.var 0) (.num 1), []⟩] 3 j0 s0).map (·.mem.seqs 1) = some [0, 1, 2] := by
  refine ⟨by decide, fun fuel hf => ?_, by decide⟩
  obtain ⟨n, rfl⟩ : ∃ n, fuel = n + 1 := ⟨fuel - 1, by omega⟩
  rfl

/-- C165 fails: `[i for i in range(3) for i in range(2)]` has two elements instead of six in C, and is not allowed in Fortran. -/
theorem C165_violated_same_variable :
    pyComp s0.vars s0.mem.seqs (.var 0) [⟨0, .range (.num 0) (.num 3) (.num 1), []⟩, ⟨0, .range (.num 0) (.num 2) (.num 1), []⟩] =
      some [0, 1, 0, 1, 0, 1] ∧
    (∀ fuel, 3 ≤ fuel → (compC ⟨.list, false, false, false⟩ 1 (.var 0)
      [⟨0, .range (.num 0) (.num 3) (.num 1), []⟩, ⟨0, .range (.num 0) (.num 2) (.num 1), []⟩] 6 j0 fuel s0).map (·.mem.seqs 1) =
      some [0, 1]) ∧
    compF ⟨.list, false, false, false⟩ 1 (.var 0)
      [⟨0, .range (.num 0) (.num 3) (.num 1), []⟩, ⟨0, .range (.num 0) (.num 2) (.num 1), []⟩] 6 j0 s0 = none := by
  refine ⟨by decide, fun fuel hf => ?_, by rfl⟩
  obtain ⟨n, rfl⟩ : ∃ n, fuel = n + 3 := ⟨fuel - 3, by omega⟩
  rfl

/-! C166 -/

/-- C166 in C: whatever the comprehension, only its target and the variables of its clauses change. -/
theorem C166_c_partial (t : Target) (lhs : Nat) (e : Expr) (cs : List Clause) (size : Nat) (junk : Nat → Int) (fuel : Nat)
    (s s' : St) (h : compC t lhs e cs size junk fuel s = some s') :
    (∀ y, y ∉ targets cs → s'.vars y = s.vars y) ∧ ∀ u, u ≠ lhs → s'.mem.seqs u = s.mem.seqs u := by
  simp only [compC] at h
  split at h
  · have := runC_frame _ _ _ _ _ _ _ h
    exact ⟨this.1, fun u hu => by rw [this.2 u hu]; exact start_seqs t lhs size junk s.mem u hu⟩
  · cases h

/-- C166 in Fortran. -/
theorem C166_fortran_partial (t : Target) (lhs : Nat) (e : Expr) (cs : List Clause) (size : Nat) (junk : Nat → Int)
    (s s' : St) (h : compF t lhs e cs size junk s = some s') :
    (∀ y, y ∉ targets cs → s'.vars y = s.vars y) ∧ ∀ u, u ≠ lhs → s'.mem.seqs u = s.mem.seqs u := by
  simp only [compF] at h
  split at h
  · have := runF_frame _ _ _ _ _ _ h
    exact ⟨this.1, fun u hu => by rw [this.2 u hu]; exact start_seqs t lhs size junk s.mem u hu⟩
  · cases h

/-- C166 fails: after `x = [e for i in range(n) …]` the variable `i` of the function is the number of iterations in Fortran and
not less than the bound in C, so that it is never what it was before if that was less than `n`. In Python it keeps its value. -/
theorem C166_violated_variable (t : Target) (lhs : Nat) (e : Expr) (i : Nat) (n : Nat) (conds : List Expr) (cs : List Clause)
    (size : Nat) (junk : Nat → Int) (s s' : St) (hi : i ∉ targets cs) (hlt : s.vars i < n) :
    (compF t lhs e (⟨i, .range (.num 0) (.num n) (.num 1), conds⟩ :: cs) size junk s = some s' → s'.vars i = n ∧ s'.vars i ≠ s.vars i) ∧
    ∀ fuel, compC t lhs e (⟨i, .range (.num 0) (.num n) (.num 1), conds⟩ :: cs) size junk fuel s = some s' →
      n ≤ s'.vars i ∧ s'.vars i ≠ s.vars i := by
  constructor
  · intro h
    simp only [compF] at h
    split at h
    · simp only [runF, if_neg hi] at h
      obtain ⟨a, ha, h⟩ := bind_some h
      obtain ⟨b, hb, h⟩ := bind_some h
      obtain ⟨d, hd, h⟩ := bind_some h
      simp only [ev, eval, Option.some.injEq] at ha hb hd
      subst ha; subst hb; subst hd
      rw [if_neg (by decide)] at h
      have := fRange_end (fun s1 s2 hb => (guardF_frame (fun s s' h => runF_frame _ _ _ _ s s' h) s1 s2 hb).1 i hi) _ _ _ h
      have hl : rangeLen 0 (n : Int) 1 = n := by
        simp only [rangeLen]; rw [if_pos (by omega), Int.ediv_one]; omega
      rw [hl] at this
      simp only [St.put, upd_same] at this
      constructor <;> omega
    · cases h
  · intro fuel h
    simp only [compC] at h
    split at h
    · simp only [runC] at h
      obtain ⟨a, ha, h⟩ := bind_some h
      have := cRange_end _ _ _ h
      simp only [more, ev, eval] at this
      have h2 : (decide (s'.vars i < (n : Int))) = false := by
        simpa using this
      simp only [decide_eq_false_iff_not] at h2
      constructor <;> omega
    · cases h

/-- The hypotheses of the theorems are met: `z = [i * y[j] for i in range(n) if i for j in range(i)]`, and for arrays
`y = np.array([y[i] + y[i + 0] for i in range(len(y))])`. -/
def nested : List Clause := [⟨1, .range (.num 0) (.var 0) (.num 1), [.var 1]⟩, ⟨2, .range (.num 0) (.var 1) (.num 1), []⟩]

example : pyComp s0.vars s0.mem.seqs (.mul (.var 1) (.elt 0 (.var 2))) nested = some [1, 2, 4] := by decide

example : ∃ f, ∀ fuel, f ≤ fuel → ∃ s', compC ⟨.list, true, false, false⟩ 5 (.mul (.var 1) (.elt 0 (.var 2))) nested 3 j0 fuel s0 =
    some s' ∧ s'.mem.seqs 5 = [1, 2, 4] := by
  refine C165_list_c_partial _ _ _ _ _ _ _ _ rfl (by intro h; cases h) (by simp [Expr.Free]) ?_ (by decide) ?_ (by decide)
  · simp [nested, Clause.Free, Iter.Free, Expr.Free]
  · simp [nested, Iter.Without, Expr.Without, targets]

example : ∃ s', compF ⟨.list, true, false, false⟩ 5 (.mul (.var 1) (.elt 0 (.var 2))) nested 3 j0 s0 =
    some s' ∧ s'.mem.seqs 5 = [1, 2, 4] := by
  refine C165_list_fortran_partial _ _ _ _ _ _ _ _ rfl (by intro h; cases h) (by simp [Expr.Free]) ?_ (by decide) ?_ (by decide)
  · simp [nested, Clause.Free, Iter.Free, Expr.Free]
  · simp [nested]

example : (∃ s', compF ⟨.array, false, false, false⟩ 5 (.add (.var 1) (.num 7)) [⟨1, .seq 0, []⟩] 3 j0 s0 = some s' ∧
    s'.mem.seqs 5 = [8, 9, 10]) :=
  ((C165_array_fortran_partial ⟨.array, false, false, false⟩ 5 _ [⟨1, .seq 0, []⟩] 3 j0 s0 [8, 9, 10] rfl (by simp) (by intro h; cases h)
    (by simp [Expr.Free]) (by simp [Clause.Free, Iter.Free]) (by decide) (by decide)).1).2 rfl

example : ∃ f, ∀ fuel, f ≤ fuel → (∃ s', compC ⟨.array, false, false, false⟩ 5 (.add (.var 1) (.num 7)) [⟨1, .seq 0, []⟩] 3 j0 fuel s0 = some s' ∧
    s'.mem.seqs 5 = [8, 9, 10]) := by
  obtain ⟨f, h⟩ := C165_array_c_partial ⟨.array, false, false, false⟩ 5 (.add (.var 1) (.num 7)) [⟨1, .seq 0, []⟩] 3 j0 s0 [8, 9, 10] rfl (by simp)
    (by intro h; cases h) (by simp [Expr.Free]) (by simp [Clause.Free, Iter.Free]) (by decide) (by simp [Iter.Without]) (by decide)
  exact ⟨f, fun fuel hf => (h fuel hf).1.2 rfl⟩

example : ∃ s', compF ⟨.array, true, false, true⟩ 0 (.mul (.elt 0 (.var 1)) (.elt 0 (.add (.var 1) (.num (0 : Nat)))))
    [⟨1, .range (.num 0) (.len 0) (.num 1), []⟩] 3 j0 s0 = some s' ∧ s'.mem.seqs 0 = [1, 4, 9] :=
  (C165_inplace_partial _ _ _ _ _ _ _ _ _ rfl rfl rfl (by simp [Expr.Without]) (Or.inr rfl) rfl (by simp [Expr.Ahead]; exact ⟨0, rfl⟩) (by decide)).1

end Verif.Comps.Props
