import Verif.Loops.Lemmas
/-!
Property theorems C08–C12 (loops).
-/
namespace Verif.Loops
open Spec Verif.IntMath Verif.IntMath.Spec

/-! ## C08 — C `for` loops over `range` -/

/-- C08: the C loop generated for `for v in range(start, stop, step): body` terminates and
leaves the state Python leaves, up to the value of the loop variable itself, for every
non-zero step (literal or run-time), every body (with `break`), provided that
* the invariant `P` holds initially and is preserved by the body and by assignments to the
  loop variable, fixes the values of `stop` and `step` (they are not modified in the loop),
  and the body does not modify the loop variable;
* the loop variable does not overflow when stepped past an element of the range. -/
theorem C08_range_loop_c {σ : Type} (v : Var σ) (r : Range σ) (body : σ → σ × Ctl) (s : σ)
    (hk : r.step.val s ≠ 0) (P : σ → Prop) (hs : P s)
    (hP : ∀ t, P t → r.stop t = r.stop s ∧ r.step.val t = r.step.val s)
    (hPset : ∀ t x, P t → P (v.set t x))
    (hPbody : ∀ t, P t → P (body t).1 ∧ v.get (body t).1 = v.get t)
    (l : List Int) (hl : IsRange (r.start s) (r.stop s) (r.step.val s) l)
    (hov : ∀ x ∈ l, InRange 64 (x + r.step.val s)) :
    ∃ N s', (∀ fuel ≥ N, cFor v r body fuel s = .fin s') ∧
      (s' = pyFor v body l s ∨ ∃ x, s' = v.set (pyFor v body l s) x) := by
  obtain ⟨N, s', h, rfl⟩ := cLoop_range v r body _ _ hk P hP hPset hPbody l _ hl hov s hs
  exact ⟨N, _, h, afterLoop_or v body l s _⟩

/-- Every range has a list of elements, so `IsRange` in the theorems is satisfiable. -/
theorem C08_range_exists (a b s : Int) (hs : s ≠ 0) : ∃ l, IsRange a b s l := by
  obtain ⟨n, hn⟩ : ∃ n, n = doCount a (if 0 < s then b - 1 else b + 1) s := ⟨_, rfl⟩
  induction n generalizing a with
  | zero =>
    refine ⟨[], ?_⟩
    have hni : ¬ inR b s a := by
      intro h; rw [doCount_succ hs h] at hn; omega
    intro k w
    constructor
    · intro h; simp at h
    · rintro ⟨rfl, hw⟩
      exfalso; apply hni
      unfold inR
      have hkk : 0 ≤ (k : Int) := by omega
      rcases hw with ⟨h1, h2⟩ | ⟨h1, h2⟩
      · left; have : 0 ≤ s * (k : Int) := Int.mul_nonneg (by omega) hkk
        exact ⟨h1, by omega⟩
      · right
        have : s * (k : Int) ≤ 0 := Int.mul_nonpos_of_nonpos_of_nonneg (by omega) hkk
        exact ⟨h1, by omega⟩
  | succ n ih =>
    by_cases hin : inR b s a
    · rw [doCount_succ hs hin] at hn
      obtain ⟨l, hl⟩ := ih (a + s) (by omega)
      refine ⟨a :: l, ?_⟩
      intro k w
      cases k with
      | zero =>
        simp only [List.getElem?_cons_zero, Option.some.injEq]
        constructor
        · rintro rfl; exact ⟨by simp, hin⟩
        · rintro ⟨rfl, _⟩; simp
      | succ k =>
        simp only [List.getElem?_cons_succ]
        rw [hl k w]
        have e : a + s * ((k + 1 : Nat) : Int) = a + s + s * (k : Int) := by push_cast; ring
        rw [e]
    · rw [doCount_zero hs hin] at hn; omega

/-- A program state with a loop variable `i`, a bound `n` and an accumulator. -/
structure St where
  i : Int
  n : Int
  acc : List Int
deriving DecidableEq, Repr

def iVar : Var St := ⟨St.i, fun s x => { s with i := x }, by intros; rfl, by intros; rfl⟩

/-- Non-vacuity of C08: `for i in range(1, n, 2): acc.append(i)` with `n = 6`. -/
example :
    let r : Range St := ⟨fun _ => 1, St.n, .lit 2⟩
    let body : St → St × Ctl := fun s => ({ s with acc := s.acc ++ [s.i] }, .next)
    let s0 : St := ⟨0, 6, []⟩
    r.step.val s0 ≠ 0 ∧ (∀ t : St, t.n = 6 → r.stop t = r.stop s0 ∧ r.step.val t = r.step.val s0) ∧
    (∀ t x, t.n = 6 → (iVar.set t x).n = 6) ∧
    (∀ t : St, t.n = 6 → (body t).1.n = 6 ∧ iVar.get (body t).1 = iVar.get t) ∧
    pyFor iVar body [1, 3, 5] s0 = ⟨5, 6, [1, 3, 5]⟩ ∧
    cFor iVar r body 10 s0 = .fin ⟨7, 6, [1, 3, 5]⟩ := by
  refine ⟨by decide, ?_, ?_, ?_, by decide, by rfl⟩
  · intro t ht; exact ⟨ht, rfl⟩
  · intro t x ht; exact ht
  · intro t ht; exact ⟨ht, rfl⟩

/-! ## C09 — bounds evaluated once -/

/-- C09: the unchanged code violates the property in C.  `i = 3; for i in range(i): acc += [i]`
appends 0, 1, 2 in Python; the generated C loop `for (i = 0; i < i; i += 1)` runs zero times.
-/
theorem C09_bounds_reevaluated_violated :
    let r : Range St := Range.of1 St.i
    let body : St → St × Ctl := fun s => ({ s with acc := s.acc ++ [s.i] }, .next)
    let s0 : St := ⟨3, 0, []⟩
    IsRange (r.start s0) (r.stop s0) (r.step.val s0) [0, 1, 2] ∧
    (pyFor iVar body [0, 1, 2] s0).acc = [0, 1, 2] ∧
    (∀ fuel ≥ 1, cFor iVar r body fuel s0 = .fin ⟨0, 0, []⟩) := by
  refine ⟨?_, by decide, ?_⟩
  · intro k v
    show _ ↔ v = (0 : Int) + 1 * k ∧ ((0 < (1 : Int) ∧ v < 3) ∨ ((1 : Int) < 0 ∧ 3 < v))
    rcases k with _ | _ | _ | k <;> simp <;> omega
  · intro fuel hf
    obtain ⟨n, rfl⟩ : ∃ n, fuel = n + 1 := ⟨fuel - 1, by omega⟩
    rfl

/-- C09, second violation: the body shortens the range it iterates over
(`n = 3; for i in range(n): n = 0`): Python runs three iterations, the C loop one. -/
theorem C09_bounds_modified_violated :
    let r : Range St := Range.of1 St.n
    let body : St → St × Ctl := fun s => ({ s with n := 0, acc := s.acc ++ [s.i] }, .next)
    let s0 : St := ⟨0, 3, []⟩
    (pyFor iVar body [0, 1, 2] s0).acc = [0, 1, 2] ∧
    (∀ fuel ≥ 2, cFor iVar r body fuel s0 = .fin ⟨1, 0, [0]⟩) := by
  refine ⟨by decide, ?_⟩
  intro fuel hf
  obtain ⟨n, rfl⟩ : ∃ n, fuel = n + 2 := ⟨fuel - 2, by omega⟩
  rfl

/-! ## C10 — Fortran DO loops -/

/-- C10: the DO loop generated for `for v in range(start, stop, step): body` runs the body for
exactly the elements of Python's range, in order, and leaves Python's state up to the loop
variable, for every non-zero step and every body that does not assign the loop variable
(assigning a DO variable is illegal in Fortran). -/
theorem C10_range_loop_fortran {σ : Type} (v : Var σ) (r : Range σ) (body : σ → σ × Ctl) (s : σ)
    (hk : r.step.val s ≠ 0) (hbody : ∀ t, v.get (body t).1 = v.get t)
    (l : List Int) (hl : IsRange (r.start s) (r.stop s) (r.step.val s) l) :
    fFor v r body s = pyFor v body l s ∨ ∃ x, fFor v r body s = v.set (pyFor v body l s) x := by
  unfold fFor
  simp only [fStop_eq r s hk, ← isRange_length hk hl]
  rw [doLoop_range v body _ _ hbody l _ hl s]
  exact afterLoop_or v body l s _

/-- C09 holds in generated Fortran: the theorem above has no hypothesis on what the body does to
the variables of the bounds; this instance overwrites the bound in every iteration. -/
theorem C09_bounds_once_fortran (n : Int) (l : List Int) (hl : IsRange 0 n 1 l) (s : St)
    (hn : s.n = n) :
    let r : Range St := Range.of1 St.n
    let body : St → St × Ctl := fun s => ({ s with n := 0, acc := s.acc ++ [s.i] }, .next)
    (fFor iVar r body s).acc = s.acc ++ l := by
  intro r body
  subst hn
  have h := C10_range_loop_fortran iVar r body s (by simp [r, Range.of1, Step.val]) (fun t => rfl) l hl
  have hacc : ∀ (l : List Int) (s : St), (pyFor iVar body l s).acc = s.acc ++ l := by
    intro l
    induction l with
    | nil => intro s; simp [pyFor]
    | cons x xs ih => intro s; simp only [pyFor, body]; rw [ih]; simp [iVar]
  rcases h with h | ⟨x, h⟩
  · rw [h, hacc]
  · rw [h]; exact hacc l s

example : fFor iVar ⟨fun _ => 10, fun _ => 0, .expr St.n⟩
    (fun s => ({ s with acc := s.acc ++ [s.i] }, .next)) ⟨0, -3, []⟩ = ⟨-2, -3, [10, 7, 4, 1]⟩ := by
  decide

/-! ## C105 — the loop variable after the loop -/

/-- C105: after a loop over `range` in C (conditions as for C08) the state is Python's exactly if the loop
ends by `break`, or if the range is empty and the loop variable had the value of `start` before. -/
theorem C105_c_iff {σ : Type} (v : Var σ) (r : Range σ) (body : σ → σ × Ctl) (s : σ)
    (hk : r.step.val s ≠ 0) (P : σ → Prop) (hs : P s)
    (hP : ∀ t, P t → r.stop t = r.stop s ∧ r.step.val t = r.step.val s)
    (hPset : ∀ t x, P t → P (v.set t x))
    (hbody : ∀ t, v.get (body t).1 = v.get t) (hPbody : ∀ t, P t → P (body t).1)
    (hset : ∀ t, v.set t (v.get t) = t)
    (l : List Int) (hl : IsRange (r.start s) (r.stop s) (r.step.val s) l)
    (hov : ∀ x ∈ l, InRange 64 (x + r.step.val s)) :
    ∃ N, ∀ fuel ≥ N, cFor v r body fuel s = .fin (pyFor v body l s) ↔
      (breaks v body l s = true ∨ (l = [] ∧ v.get s = r.start s)) := by
  obtain ⟨N, s', h, rfl⟩ := cLoop_range v r body _ _ hk P hP hPset
    (fun t ht => ⟨hPbody t ht, hbody t⟩) l _ hl hov s hs
  refine ⟨N, fun fuel hf => ?_⟩
  unfold cFor
  rw [h fuel hf, Res.fin.injEq]
  exact afterLoop_iff v body hbody hset _ _ hk l _ hl s

/-- C105: the same in Fortran. -/
theorem C105_fortran_iff {σ : Type} (v : Var σ) (r : Range σ) (body : σ → σ × Ctl) (s : σ)
    (hk : r.step.val s ≠ 0) (hbody : ∀ t, v.get (body t).1 = v.get t) (hset : ∀ t, v.set t (v.get t) = t)
    (l : List Int) (hl : IsRange (r.start s) (r.stop s) (r.step.val s) l) :
    fFor v r body s = pyFor v body l s ↔
      (breaks v body l s = true ∨ (l = [] ∧ v.get s = r.start s)) := by
  unfold fFor
  simp only [fStop_eq r s hk, ← isRange_length hk hl]
  rw [doLoop_range v body _ _ hbody l _ hl s]
  exact afterLoop_iff v body hbody hset _ _ hk l _ hl s

/-- The part that holds: a loop that is left by `break` leaves exactly Python's state. -/
theorem C105_break_partial {σ : Type} (v : Var σ) (r : Range σ) (body : σ → σ × Ctl) (s : σ)
    (hk : r.step.val s ≠ 0) (P : σ → Prop) (hs : P s)
    (hP : ∀ t, P t → r.stop t = r.stop s ∧ r.step.val t = r.step.val s)
    (hPset : ∀ t x, P t → P (v.set t x))
    (hPbody : ∀ t, P t → P (body t).1 ∧ v.get (body t).1 = v.get t)
    (l : List Int) (hl : IsRange (r.start s) (r.stop s) (r.step.val s) l)
    (hov : ∀ x ∈ l, InRange 64 (x + r.step.val s)) (hb : breaks v body l s = true) :
    ∃ N, ∀ fuel ≥ N, cFor v r body fuel s = .fin (pyFor v body l s) := by
  obtain ⟨N, s', h, rfl⟩ := cLoop_range v r body _ _ hk P hP hPset hPbody l _ hl hov s hs
  refine ⟨N, fun fuel hf => ?_⟩
  have := h fuel hf
  rwa [afterLoop, if_pos hb] at this

example : breaks iVar (fun s => (s, if s.i = 3 then .brk else .next)) [1, 3, 5] ⟨0, 6, []⟩ = true := by decide

/-- C105 fails: after `for i in range(1, 6, 2): …` in Python `i` is 5; in C and in Fortran it is 7. -/
theorem C105_violated_last :
    let r : Range St := ⟨fun _ => 1, St.n, .lit 2⟩
    let body : St → St × Ctl := fun s => (s, .next)
    let s0 : St := ⟨0, 6, []⟩
    (pyFor iVar body [1, 3, 5] s0).i = 5 ∧ (fFor iVar r body s0).i = 7 ∧
    ∀ fuel ≥ 4, cFor iVar r body fuel s0 = .fin ⟨7, 6, []⟩ := by
  refine ⟨by decide, by decide, ?_⟩
  intro fuel hf
  obtain ⟨n, rfl⟩ : ∃ n, fuel = n + 4 := ⟨fuel - 4, by omega⟩
  rfl

/-- C105 fails: a loop over an empty range leaves the variable alone in Python; in C and in Fortran it gets
the value of `start`. -/
theorem C105_violated_empty :
    let r : Range St := ⟨fun _ => 0, St.n, .lit 1⟩
    let body : St → St × Ctl := fun s => (s, .next)
    let s0 : St := ⟨9, 0, []⟩
    (pyFor iVar body [] s0).i = 9 ∧ (fFor iVar r body s0).i = 0 ∧
    ∀ fuel ≥ 1, cFor iVar r body fuel s0 = .fin ⟨0, 0, []⟩ := by
  refine ⟨by decide, by decide, ?_⟩
  intro fuel hf
  obtain ⟨n, rfl⟩ : ∃ n, fuel = n + 1 := ⟨fuel - 1, by omega⟩
  rfl

/-! ## C11 — size of a comprehension over a range -/

/-- C11 (one loop), the part that holds: if the step is not a negative literal and the range
runs in the direction of its step (`start ≤ stop` for a positive step, `stop ≤ start` for a
negative one), the size computed for a comprehension is the number of elements of the range.
Missing: literal negative steps (`C11_negative_step_violated`) and ranges that are empty because
the bounds are in the wrong order (`C11_empty_range_violated`). -/
theorem C11_comprehension_size_partial (c : CLoop) (env : List Int) (hs : c.step env ≠ 0)
    (hkn : c.known = true → 0 < c.step env)
    (hdir : (0 < c.step env ∧ c.start env ≤ c.stop env) ∨
            (c.step env < 0 ∧ c.stop env ≤ c.start env))
    (l : List Int) (hl : IsRange (c.start env) (c.stop env) (c.step env) l) :
    c.size env = (l.length : Int) := by
  rw [isRange_length hs hl]
  have hb : c.bounds env = (c.start env, c.stop env) := by
    unfold CLoop.bounds
    rw [if_neg]; rintro ⟨h1, h2⟩; have := hkn h1; omega
  unfold CLoop.size; rw [hb]
  have key := ceilDiv_eq_doCount (c.start env) (c.stop env) (c.step env) hs hdir
  simp only
  split
  · rename_i h; rw [← key, h.2]; simp [ceilDiv]
  · exact key

example : (⟨fun _ => 1, fun _ => 10, fun _ => 4, true⟩ : CLoop).size [] = 3 ∧
    (⟨fun _ => 10, fun _ => 1, fun _ => -4, false⟩ : CLoop).size [] = 3 ∧
    IsRange 1 10 4 [1, 5, 9] := by
  refine ⟨by decide, by decide, ?_⟩
  intro k v; rcases k with _ | _ | _ | k <;> simp <;> omega

/-- C11 (nested loops): the total size computed by summing over the outer indices is the number
of times the innermost body runs, provided that every loop, for every value of the outer
indices, satisfies the conditions of `C11_comprehension_size_partial`. -/
theorem C11_nested_size_partial (cs : List CLoop) (env : List Int) (vs : List (List Int))
    (hok : ∀ c ∈ cs, ∀ env, c.step env ≠ 0 ∧ (c.known = true → 0 < c.step env) ∧
      ((0 < c.step env ∧ c.start env ≤ c.stop env) ∨
       (c.step env < 0 ∧ c.stop env ≤ c.start env)))
    (hv : Visits (cs.map fun c env => (c.start env, c.stop env, c.step env)) env vs) :
    nestDim cs env = some (vs.length : Int) := by
  induction cs generalizing env vs with
  | nil => cases hv; simp [nestDim]
  | cons c cs ih =>
    simp only [List.map_cons] at hv
    cases hv with
    | cons l hl f hf =>
      obtain ⟨h1, h2, h3⟩ := hok c (by simp) env
      have hsz := C11_comprehension_size_partial c env h1 h2 h3 l hl
      have hb : c.bounds env = (c.start env, c.stop env) := by
        unfold CLoop.bounds
        rw [if_neg]; rintro ⟨g1, g2⟩; have := h2 g1; omega
      have hmap : (List.range (c.size env).toNat).map (fun (j : Nat) =>
          nestDim cs (env ++ [(c.bounds env).1 + c.step env * j]))
          = l.map fun x => some ((f x).length : Int) := by
        rw [hsz, Int.toNat_natCast]
        apply List.ext_getElem?
        intro k
        simp only [List.getElem?_map]
        by_cases hk : k < l.length
        · have hx := (hl k l[k]).1 (by simp [hk])
          have hm : l[k] ∈ l := List.getElem_mem hk
          rw [List.getElem?_range hk, List.getElem?_eq_getElem hk]
          simp only [Option.map_some, hb]
          have := ih (env ++ [l[k]]) (f l[k])
            (fun c hc => hok c (by simp [hc])) (hf _ hm)
          rw [← this]
          congr 3
          simp [hx.1]
        · rw [List.getElem?_eq_none (by simpa using hk), List.getElem?_eq_none (by omega)]
          rfl
      unfold nestDim
      have hn : ¬ (c.size env < 0) := by omega
      simp only [hn, if_false, hmap]
      exact foldr_sum l f

example : nestDim [⟨fun _ => 0, fun _ => 4, fun _ => 1, true⟩,
    ⟨fun _ => 0, fun env => env.getD 0 0, fun _ => 1, true⟩] [] = some 6 := by decide

/-- C11: the unchanged code violates the property for a literal negative step.
`range(3, 0, -5)` has one element but the allocated size is 0 (accepted); the generated loop
then writes past the end of the array. -/
theorem C11_negative_step_violated :
    (⟨fun _ => 3, fun _ => 0, fun _ => -5, true⟩ : CLoop).accepted = some 0 ∧
    IsRange 3 0 (-5) [3] := by
  refine ⟨by decide, ?_⟩
  intro k v; rcases k with _ | k <;> simp <;> omega

/-- C11: with a literal negative step and a non-empty range the computed size is never
positive, hence always wrong: the comprehension is rejected or under-allocated. -/
theorem C11_negative_step_wrong (a b s : Int) (hs : s < 0) (hab : b < a) :
    (⟨fun _ => a, fun _ => b, fun _ => s, true⟩ : CLoop).size [] ≤ 0 := by
  have h1 : ¬ (s = 1) := by omega
  have h2 : ¬ (0 < s) := by omega
  simp only [CLoop.size, CLoop.bounds, hs, and_self, if_true, h1, and_false, if_false, ceilDiv, h2]
  have := Int.ediv_nonneg (a := a - b) (b := -s) (by omega) (by omega)
  omega

/-- C11: bounds in the wrong order: `range(n, 3)` with `n = 5` is empty, but the run-time size
computed is `3 - n = -2`. -/
theorem C11_empty_range_violated :
    (⟨fun _ => 5, fun _ => 3, fun _ => 1, true⟩ : CLoop).size [] = -2 ∧ IsRange 5 3 1 [] := by
  refine ⟨by decide, ?_⟩
  intro k v; simp; omega

/-! ## C12 — zip, enumerate, product -/

/-- C12 (`zip`), the part that holds: if the lengths of the arguments are all known at compile
time, or all unknown, the loop assigns the targets exactly the tuples of Python's `zip`.
Missing: a mixture of literal and run-time lengths (`C12_zip_violated`). -/
theorem C12_zip_partial {α : Type} (args : List (ZArg α)) (hne : args ≠ [])
    (hall : (∀ a ∈ args, a.isLit = true) ∨ (∀ a ∈ args, a.isLit = false)) (fuel : Nat)
    (hf : ∀ a ∈ args, a.elems.length ≤ fuel) :
    zipIterations args = (pyZip fuel (args.map ZArg.elems)).map some := by
  have hlen : zipLength (args.map ZArg.len) = minList (args.map fun a => a.elems.length) := by
    unfold zipLength
    rcases hall with h | h
    · have e : (args.map ZArg.len).filterMap Len.lit? = args.map fun a => a.elems.length := by
        clear hf hne
        induction args with
        | nil => rfl
        | cons a as ih =>
          have ha := h a (by simp)
          simp only [List.map_cons, List.filterMap_cons, ZArg.len, ha, if_true, Len.lit?]
          exact congrArg _ (ih (fun b hb => h b (by simp [hb])))
      simp only [e]
      rw [if_neg (by simpa using hne)]
    · have e : (args.map ZArg.len).filterMap Len.lit? = [] := by
        rw [List.filterMap_map, List.filterMap_eq_nil_iff]
        intro a ha; simp [ZArg.len, h a ha, Len.lit?]
      simp only [e, List.isEmpty_nil, if_true, List.map_map]
      congr 1
      apply List.map_congr_left
      intro a ha; simp [ZArg.len, h a ha, Len.val]
  unfold zipIterations
  rw [hlen]
  have := zip_aux fuel (args.map ZArg.elems) (by simpa using hne) (by simpa using hf)
  simp only [List.map_map] at this
  have e2 : (List.length ∘ ZArg.elems : ZArg α → Nat) = fun a => a.elems.length := rfl
  rw [e2] at this
  rw [← this]
  apply List.map_congr_left
  intro k _
  induction args with
  | nil => rfl
  | cons a as _ => simp [List.mapM_map]; rfl

/-- C12: the unchanged code violates the property when literal and run-time lengths are mixed:
zip of an array of literal length 3 with one of run-time length 2 reads out of bounds. -/
theorem C12_zip_violated :
    zipIterations [⟨[1, 2, 3], true⟩, ⟨[4, 5], false⟩] = [some [1, 4], some [2, 5], none] ∧
    pyZip 3 [[1, 2, 3], [4, 5]] = [[1, 4], [2, 5]] := by decide

/-- C12 (`enumerate`): the loop assigns the pairs of Python's `enumerate(l, start)`. -/
theorem C12_enumerate {α : Type} (start : Int) (l : List α) :
    enumIterations start l = (pyEnumerate start l).map some := by
  unfold enumIterations
  induction l generalizing start with
  | nil => rfl
  | cons x xs ih =>
    rw [List.length_cons, List.range_succ_eq_map]
    simp only [List.map_cons, List.map_map, pyEnumerate, ← ih (start + 1)]
    refine congrArg₂ _ (by simp) ?_
    apply List.map_congr_left
    intro k _
    simp only [Function.comp, List.getElem?_cons_succ]
    congr 1; funext y; congr 1; push_cast; ring

/-- C12 (`itertools.product`): the generated loop nest runs the body for the tuples of Python's
product, in Python's order. -/
theorem C12_product {α : Type} (args : List (List α)) :
    (buildNest args).visits = pyProduct args := by
  have h : ∀ (args : List (List α)), buildNest args
      = args.foldr (fun xs acc => .loop xs acc) .body := by
    intro args; unfold buildNest; rw [List.foldl_reverse]
  rw [h]
  induction args with
  | nil => rfl
  | cons l ls ih => simp only [List.foldr_cons, Nest.visits, pyProduct, ih]

example : (buildNest [[1, 2], [3, 4]]).visits = [[1, 3], [1, 4], [2, 3], [2, 4]] := by decide

/-! ## C55 — reductions over generator expressions -/

/-- C55, the part that holds: if neither the expression, the condition nor the index depends on
the variable being assigned, the generated code computes the left fold of the values of the
generator.  Missing: targets occurring in the expression (`C55_target_clobbered_violated`),
`min`/`max` of an empty generator (`C55_min_empty_violated`). -/
theorem C55_reduce_partial {σ α : Type} (red : Red) (lhs : Var σ) (setIdx : σ → α → σ)
    (c : σ → Bool) (e : σ → Int) (xs : List α) (s : σ)
    (hset : ∀ t x y, setIdx (lhs.set t y) x = lhs.set (setIdx t x) y)
    (hidx : ∀ t x y, setIdx (setIdx t x) y = setIdx t y)
    (hc : ∀ t y, c (lhs.set t y) = c t) (he : ∀ t y, e (lhs.set t y) = e t) :
    lhs.get (genReduce red lhs setIdx c e xs s)
      = (genValues setIdx c e xs s).foldl red.op red.init := by
  unfold genReduce genValues
  generalize red.init = z
  suffices h : ∀ (xs : List α) (t : σ) (z : Int), (∀ x, c (setIdx t x) = c (setIdx s x)) →
      (∀ x, e (setIdx t x) = e (setIdx s x)) →
      lhs.get (xs.foldl (fun t x =>
        let t := setIdx t x
        if c t then lhs.set t (red.op (lhs.get t) (e t)) else t) (lhs.set t z))
      = (xs.filterMap fun x => if c (setIdx s x) then some (e (setIdx s x)) else none).foldl
          red.op z by
    exact h xs s z (fun _ => rfl) (fun _ => rfl)
  intro xs
  induction xs with
  | nil => intro t z _ _; simp [lhs.get_set]
  | cons x xs ih =>
    intro t z h1 h2
    simp only [List.foldl_cons, hset, hc, he, h1, h2, lhs.get_set, lhs.set_set]
    by_cases hcx : c (setIdx s x) = true
    · simp only [hcx, if_true]
      rw [ih _ _ (fun y => by rw [hidx, h1]) (fun y => by rw [hidx, h2])]
      simp [hcx]
    · simp only [Bool.not_eq_true] at hcx
      simp only [hcx, Bool.false_eq_true, if_false]
      rw [ih _ _ (fun y => by rw [hidx, h1]) (fun y => by rw [hidx, h2])]
      simp [hcx]

/-- C55 (`sum`): the fold above is the sum of the values. -/
theorem C55_sum_value (l : List Int) : l.foldl Red.sum.op Red.sum.init = l.sum := by
  have : ∀ (l : List Int) (z : Int), l.foldl Red.sum.op z = z + l.sum := by
    intro l; induction l with
    | nil => simp
    | cons x xs ih => intro z; simp only [List.foldl_cons, ih, List.sum_cons, Red.op]; ring
  rw [this]; simp [Red.init]

/-- C55 (`min`): for a non-empty generator of 64-bit integers the fold is the minimum. -/
theorem C55_min_value (l : List Int) (hne : l ≠ []) (hr : ∀ x ∈ l, InRange 64 x) :
    IsMin (l.foldl Red.min.op Red.min.init) l := by
  obtain ⟨h1, h2⟩ := foldl_min l Red.min.init
  refine ⟨?_, h2.2⟩
  rcases h1 with h1 | h1
  · exact h1
  · obtain ⟨x, hx⟩ := List.exists_mem_of_ne_nil l hne
    have := h2.2 x hx
    have hr := hr x hx
    unfold InRange at hr
    rw [h1] at this ⊢
    simp only [Red.init] at *
    have : x = 2 ^ 63 - 1 := by omega
    rw [← this]; exact hx

/-- C55 (`max`). -/
theorem C55_max_value (l : List Int) (hne : l ≠ []) (hr : ∀ x ∈ l, InRange 64 x) :
    IsMax (l.foldl Red.max.op Red.max.init) l := by
  obtain ⟨h1, h2⟩ := foldl_max l Red.max.init
  refine ⟨?_, h2.2⟩
  rcases h1 with h1 | h1
  · exact h1
  · obtain ⟨x, hx⟩ := List.exists_mem_of_ne_nil l hne
    have := h2.2 x hx
    have hr := hr x hx
    unfold InRange at hr
    rw [h1] at this ⊢
    simp only [Red.init] at *
    have : x = -2 ^ 63 := by omega
    rw [← this]; exact hx

example : IsMin ([5, -3, 7].foldl Red.min.op Red.min.init) [5, -3, 7] :=
  C55_min_value _ (by decide) (by decide)

def nVar : Var St := ⟨St.n, fun s x => { s with n := x }, by intros; rfl, by intros; rfl⟩

/-- Non-vacuity of `C55_reduce_partial`: `n = sum(2*i for i in range(4) if i != 1)`. -/
example : (∀ t x y, iVar.set (nVar.set t y) x = nVar.set (iVar.set t x) y) ∧
    (∀ t x y, iVar.set (iVar.set t x) y = iVar.set t y) ∧
    nVar.get (genReduce .sum nVar iVar.set (fun s => s.i != 1) (fun s => 2 * s.i) [0, 1, 2, 3]
      ⟨0, 100, []⟩) = 10 := by
  refine ⟨by intros; rfl, by intros; rfl, by decide⟩

/-- C55: the unchanged code violates the property when the target occurs in the generator:
`n = 10; n = sum(n for i in range(3))` gives 30 in Python and 0 in the generated code. -/
theorem C55_target_clobbered_violated :
    let s0 : St := ⟨0, 10, []⟩
    (genValues iVar.set (fun _ => true) St.n [0, 1, 2] s0).sum = 30 ∧
    nVar.get (genReduce .sum nVar iVar.set (fun _ => true) St.n [0, 1, 2] s0) = 0 := by decide

/-- C55: `min` of an empty generator raises `ValueError` in Python (there is no minimum); the
generated code returns the largest 64-bit integer. -/
theorem C55_min_empty_violated (s : St) :
    (¬ ∃ m, IsMin m (genValues iVar.set (fun _ => true) St.i [] s)) ∧
    nVar.get (genReduce .min nVar iVar.set (fun _ => true) St.i [] s) = 2 ^ 63 - 1 := by
  refine ⟨?_, rfl⟩
  rintro ⟨m, hm, _⟩
  simp [genValues] at hm

end Verif.Loops
