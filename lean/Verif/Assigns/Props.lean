import Verif.Assigns.Lemmas3

/-!
# Assignments with several targets: theorems
-/

namespace Verif.Assigns
open Spec Model Lemmas

/-- If all targets are safe (`Asgs.Good`: in short, a variable that is needed later is needed outside of
indices, and an element that is assigned is, when it is needed later, written with the same variable or
literal as index), and the translation does not report an error, the assignments that are generated leave
every variable and every array as Python does.  `N` bounds the names of the program, so that the
temporaries are new.  Missing: the cases below. -/
theorem C71_partial (as : Asgs) (N : Nat) (s p : St) (cs : List Line)
    (hu : ∀ x ∈ as.leaves, x.1.under N ∧ x.2.under N) (hg : as.Good s [])
    (hp : python s as = some p) (hl : lower N as = some cs) :
    ∃ t, run s cs = some t ∧ ∀ x, x < N → t.v x = p.v x ∧ t.a x = p.a x := by
  unfold lower at hl
  split at hl
  · cases hl
  · cases hx : lowerAs N [] as with
    | none => rw [hx] at hl; cases hl
    | some x =>
    rw [hx] at hl
    simp only [Option.map_some, Option.some.injEq] at hl
    subst hl
    unfold python at hp
    cases hz : as.leaves.mapM (fun x => eval s x.2) with
    | none => rw [hz] at hp; cases hp
    | some zs =>
    rw [hz] at hp
    obtain ⟨_, t, h1, h2, _⟩ := main (N := N) as [] N s p [] zs x.1 x.2 (Nat.le_refl _) hu
      (by rw [show substs [] = fun e => e from rfl, mapAs_id]; exact hg) hz hp hx
    exact ⟨t, h1, fun y hy => ⟨h2.1 y hy, h2.2 y hy⟩⟩

/-- `a[i], a[j], (x,), i = a[j], a[i], (5,), i + a[i]` with `a = 0`, `x = 1`, `i = 2`, `j = 3`. -/
def exSwap : Asgs :=
  .cons (.leaf (.el 0 (.var 2)) (.el 0 (.var 3))) (.cons (.leaf (.el 0 (.var 3)) (.el 0 (.var 2)))
    (.cons (.node (.cons (.leaf (.var 1) (.lit 5)) .nil))
    (.cons (.leaf (.var 2) (.bin (· + ·) (.var 2) (.el 0 (.var 2)))) .nil)))

/-- A state with `a = [10, 20, 30]`, `i = 0`, `j = 2`. -/
def exState : St := ⟨fun x => if x = 3 then 2 else 0, fun _ => [10, 20, 30]⟩

example : exSwap.Good exState [] := by
  simp [exSwap, Asgs.Good, Asg.Good, Safe, Asgs.leaves, Asg.leaves, Reads, Displays, Ex.plain, Ex.uses,
    Ex.array, Stable, Apart, Ex.depends]
  intro p q hp hq
  have h1 : locate exState 0 (.var 3) = some 2 := rfl
  have h2 : locate exState 0 (.var 2) = some 0 := rfl
  rw [h1] at hp
  rw [h2] at hq
  cases hp
  cases hq
  decide

example : (∀ x ∈ exSwap.leaves, x.1.under 4 ∧ x.2.under 4) ∧
    (python exState exSwap).map (fun p => (p.a 0, p.v 1, p.v 2)) = some ([30, 20, 10], 5, 10) ∧
    ((lower 4 exSwap).map List.length) = some 5 := by
  refine ⟨?_, rfl, rfl⟩
  simp [exSwap, Asgs.leaves, Asg.leaves, Target.under, Ex.under]

/-- The assignment of expressions to variables. -/
def scalars : List (Name × Ex) → Asgs
  | [] => .nil
  | (x, e) :: xs => .cons (.leaf (.var x) e) (scalars xs)

theorem leaves_scalars (xs : List (Name × Ex)) :
    (scalars xs).leaves = xs.map fun x => (.var x.1, x.2) := by
  induction xs with
  | nil => rfl
  | cons x xs ih =>
    obtain ⟨y, e⟩ := x
    simp only [scalars, Asgs.leaves, Asg.leaves, List.singleton_append, ih, List.map_cons]

theorem scalars_lower (n : Nat) (σ : List (Target × Name)) (xs : List (Name × Ex)) :
    (lowerAs n σ (scalars xs)).isSome := by
  induction xs generalizing n σ with
  | nil => rfl
  | cons x xs ih =>
    obtain ⟨y, e⟩ := x
    simp only [scalars, lowerAs, lowerA, Option.bind_eq_bind, Option.bind_some, Option.pure_def]
    obtain ⟨z, hz⟩ := Option.isSome_iff_exists.1 (ih (lowerLeaf n σ
      ((scalars xs).leaves.map (·.2)) (.var y) e).2.2 (lowerLeaf n σ
      ((scalars xs).leaves.map (·.2)) (.var y) e).2.1)
    rw [hz]
    rfl

theorem shows_of_uses {x : Name} {e : Ex} (h : ∀ a, ¬ e.array a) (hu : e.uses x) : e.shows x := by
  induction e with
  | lit z => exact hu
  | var y => exact hu
  | el a ix ih => exact absurd ⟨ix, .inl ⟨rfl, rfl⟩⟩ (h a)
  | un f e ih => exact ih h hu
  | bin f a b iha ihb =>
    exact hu.imp (iha fun c ⟨i, hi⟩ => h c ⟨i, .inl hi⟩) (ihb fun c ⟨i, hi⟩ => h c ⟨i, .inr hi⟩)

/-- Assignments of several scalar variables, where no element of an array is read, are always
translated, and always rightly: permutations of variables, `a, b = b, a + b` and the like.  The only
part of the property that is missing here is elements and groups. -/
theorem C71_scalars_partial (xs : List (Name × Ex)) (N : Nat) (s p : St)
    (hu : ∀ x ∈ xs, x.1 < N ∧ x.2.under N) (ha : ∀ x ∈ xs, ∀ a, ¬ x.2.array a)
    (hp : python s (scalars xs) = some p) :
    ∃ cs t, lower N (scalars xs) = some cs ∧ run s cs = some t ∧
      ∀ x, x < N → t.v x = p.v x ∧ t.a x = p.a x := by
  have hl : ∃ cs, lower N (scalars xs) = some cs := by
    unfold lower
    rw [if_neg]
    · obtain ⟨z, hz⟩ := Option.isSome_iff_exists.1 (scalars_lower N [] xs)
      exact ⟨z.1, by rw [hz]; rfl⟩
    · rw [leaves_scalars]
      simp [rejected]
  obtain ⟨cs, hl⟩ := hl
  have hg : ∀ done, (scalars xs).Good s done := by
    have : ∀ ys : List (Name × Ex), (∀ x ∈ ys, ∀ a, ¬ x.2.array a) → ∀ done,
        (scalars ys).Good s done := by
      intro ys
      induction ys with
      | nil => intros; trivial
      | cons y ys ih =>
        intro h done
        obtain ⟨y, e⟩ := y
        refine ⟨?_, ih (fun x hx => h x (by simp [hx])) _⟩
        rintro ⟨r, hr, hu⟩
        refine ⟨r, hr, ?_⟩
        rw [leaves_scalars] at hr
        simp only [List.map_map, List.mem_map, Function.comp_apply] at hr
        obtain ⟨x, hx, rfl⟩ := hr
        exact shows_of_uses (h x (by simp [hx])) hu
    exact this xs ha
  obtain ⟨t, h1, h2⟩ := C71_partial (scalars xs) N s p cs (by
    intro x hx
    rw [leaves_scalars] at hx
    obtain ⟨y, hy, rfl⟩ := List.mem_map.1 hx
    exact hu y hy) (hg []) hp hl
  exact ⟨cs, t, hl, h1, h2⟩

/-- The assignment of expressions to variables and elements, without groups. -/
def flat : List (Target × Ex) → Asgs
  | [] => .nil
  | (l, e) :: xs => .cons (.leaf l e) (flat xs)

theorem leaves_flat (xs : List (Target × Ex)) : (flat xs).leaves = xs := by
  induction xs with
  | nil => rfl
  | cons x xs ih =>
    obtain ⟨y, e⟩ := x
    simp only [flat, Asgs.leaves, Asg.leaves, List.singleton_append, ih]

theorem flat_lower (n : Nat) (σ : List (Target × Name)) (xs : List (Target × Ex)) :
    (lowerAs n σ (flat xs)).isSome := by
  induction xs generalizing n σ with
  | nil => rfl
  | cons x xs ih =>
    obtain ⟨y, e⟩ := x
    simp only [flat, lowerAs, lowerA, Option.bind_eq_bind, Option.bind_some, Option.pure_def]
    obtain ⟨z, hz⟩ := Option.isSome_iff_exists.1 (ih (lowerLeaf n σ
      ((flat xs).leaves.map (·.2)) y e).2.2 (lowerLeaf n σ
      ((flat xs).leaves.map (·.2)) y e).2.1)
    rw [hz]
    rfl

/-- "Assign statement is too complex" is never reported if the index of each element that is assigned is
a variable or a literal: `a[i], a[j] = a[j], a[i]` is always translated. -/
theorem C71_accepted (xs : List (Target × Ex)) (N : Nat)
    (h : ∀ a ix e, (Target.el a ix, e) ∈ xs → (∃ z, ix = .lit z) ∨ ∃ y, ix = .var y) :
    (lower N (flat xs)).isSome = true := by
  unfold lower
  rw [if_neg]
  · obtain ⟨z, hz⟩ := Option.isSome_iff_exists.1 (flat_lower N [] xs)
    rw [hz]; rfl
  · rw [leaves_flat]
    intro hr
    unfold rejected at hr
    rw [Bool.and_eq_true, List.any_eq_true, List.any_eq_true] at hr
    obtain ⟨_, l, hl, hc⟩ := hr
    obtain ⟨⟨l', e⟩, hm, he⟩ := List.mem_map.1 hl
    simp only at he
    subst he
    cases l' with
    | var x => simp at hc
    | el a ix =>
      rcases h a ix e hm with ⟨z, hz⟩ | ⟨y, hy⟩
      · subst hz; simp [simple] at hc
      · subst hy; simp [simple] at hc

/-- `a[i], a[0] = a[0], a[i]` -/
example : (lower 3 (flat [(.el 0 (.var 1), .el 0 (.lit 0)), (.el 0 (.lit 0), .el 0 (.var 1))])).isSome =
    true := C71_accepted _ _ (by
  intro a ix e h
  simp only [List.mem_cons, Prod.mk.injEq, Target.el.injEq, List.not_mem_nil, or_false] at h
  rcases h with h | h
  · exact Or.inr ⟨1, h.1.2⟩
  · exact Or.inl ⟨0, h.1.2⟩)

/-- `a, b, c = b, a + b, a`. -/
def exScalars : List (Name × Ex) := [(0, .var 1), (1, .bin (· + ·) (.var 0) (.var 1)), (2, .var 0)]

example : (∀ x ∈ exScalars, x.1 < 3 ∧ x.2.under 3) ∧ (∀ x ∈ exScalars, ∀ a, ¬ x.2.array a) ∧
    (python ⟨fun x => x + 3, fun _ => []⟩ (scalars exScalars)).map (fun p => (p.v 0, p.v 1, p.v 2)) =
      some (4, 7, 3) := by
  refine ⟨?_, ?_, rfl⟩
  · simp [exScalars, Ex.under]
  · simp [exScalars, Ex.array, Reads]

/-- C71 fails: `i, x = 1, a[i]`: the search for variables that are still needed does not look into
indices, and `x` becomes `a[1]`. -/
theorem C71_index_violated : ∃ (as : Asgs) (N : Nat) (s : St) (cs : List Line) (p t : St),
    (∀ x ∈ as.leaves, x.1.under N ∧ x.2.under N) ∧ lower N as = some cs ∧ python s as = some p ∧
    run s cs = some t ∧ p.v 1 = 10 ∧ t.v 1 = 20 :=
  ⟨.cons (.leaf (.var 0) (.lit 1)) (.cons (.leaf (.var 1) (.el 2 (.var 0))) .nil), 3,
    ⟨fun _ => 0, fun _ => [10, 20]⟩, _, _, _,
    by simp [Asgs.leaves, Asg.leaves, Target.under, Ex.under], rfl, rfl, rfl, rfl, rfl⟩

/-- C71 fails: `a[i + 1], a[j + 1] = a[j + 1], a[i + 1]`: indices that are not names or literals are never
found to be equal, and there is no swap and no error. -/
theorem C71_swap_violated : ∃ (as : Asgs) (N : Nat) (s : St) (cs : List Line) (p t : St),
    (∀ x ∈ as.leaves, x.1.under N ∧ x.2.under N) ∧ lower N as = some cs ∧ python s as = some p ∧
    run s cs = some t ∧ p.a 2 = [10, 30, 20] ∧ t.a 2 = [10, 30, 30] :=
  ⟨.cons (.leaf (.el 2 (.un (· + 1) (.var 0))) (.el 2 (.un (· + 1) (.var 1))))
      (.cons (.leaf (.el 2 (.un (· + 1) (.var 1))) (.el 2 (.un (· + 1) (.var 0)))) .nil), 3,
    ⟨fun x => x, fun _ => [10, 20, 30]⟩, _, _, _,
    by simp [Asgs.leaves, Asg.leaves, Target.under, Ex.under], rfl, rfl, rfl, rfl, rfl⟩

/-- C71 fails: `a[i], x = 1, a[j]` when `i` and `j` are equal. -/
theorem C71_alias_violated : ∃ (as : Asgs) (N : Nat) (s : St) (cs : List Line) (p t : St),
    (∀ x ∈ as.leaves, x.1.under N ∧ x.2.under N) ∧ lower N as = some cs ∧ python s as = some p ∧
    run s cs = some t ∧ p.v 3 = 10 ∧ t.v 3 = 1 :=
  ⟨.cons (.leaf (.el 2 (.var 0)) (.lit 1)) (.cons (.leaf (.var 3) (.el 2 (.var 1))) .nil), 4,
    ⟨fun _ => 0, fun _ => [10, 20]⟩, _, _, _,
    by simp [Asgs.leaves, Asg.leaves, Target.under, Ex.under], rfl, rfl, rfl, rfl, rfl⟩

/-- C71 fails: `(x, y), z = (1, 2), x`: variables in parentheses are never saved, and `z` becomes `1`. -/
theorem C71_group_violated : ∃ (as : Asgs) (N : Nat) (s : St) (cs : List Line) (p t : St),
    (∀ x ∈ as.leaves, x.1.under N ∧ x.2.under N) ∧ lower N as = some cs ∧ python s as = some p ∧
    run s cs = some t ∧ p.v 2 = 7 ∧ t.v 2 = 1 :=
  ⟨.cons (.node (.cons (.leaf (.var 0) (.lit 1)) (.cons (.leaf (.var 1) (.lit 2)) .nil)))
      (.cons (.leaf (.var 2) (.var 0)) .nil), 3,
    ⟨fun _ => 7, fun _ => []⟩, _, _, _,
    by simp [Asgs.leaves, Asg.leaves, Target.under, Ex.under], rfl, rfl, rfl, rfl, rfl⟩

/-! ## Unpacking -/

/-- `t₁, …, tₙ = a` is right if no target is an element of `a`.  Missing: the case below. -/
theorem C72_unpack_partial (s p : St) (a : Name) (ls : List Target)
    (h : ∀ l ∈ ls, ∀ ix, l ≠ .el a ix) (hp : unpack s a ls = some p) :
    run s (lowerUnpack a 0 ls) = some p := by
  have key : ∀ (ls : List Target) (j : Nat) (s : St), (∀ l ∈ ls, ∀ ix, l ≠ .el a ix) →
      (s.a a).length = j + ls.length → assigns s (ls.zip ((s.a a).drop j)) = some p →
      run s (lowerUnpack a j ls) = some p := by
    intro ls
    induction ls with
    | nil => exact fun j s _ _ h => h
    | cons l ls ih =>
      intro j s h hlen hp
      have hj : j < (s.a a).length := by simp only [List.length_cons] at hlen; omega
      rw [List.drop_eq_getElem_cons hj, List.zip_cons_cons, assigns] at hp
      have he : eval s (.el a (.lit j)) = some (s.a a)[j] := by
        simp only [eval, Option.bind_eq_bind, Option.bind_some, position]
        rw [if_pos ⟨Int.natCast_nonneg _, by omega⟩]
        simp [List.getElem?_eq_getElem hj]
      simp only [lowerUnpack, run, he, Option.bind_eq_bind, Option.bind_some]
      cases hu : assign s l (s.a a)[j] with
      | none => rw [hu] at hp; cases hp
      | some u =>
        rw [hu] at hp
        have hf := (assign_frame hu).2 a (h l (by simp))
        exact ih (j + 1) u (fun k hk => h k (by simp [hk])) (by rw [hf, hlen, List.length_cons]; omega)
          (by rw [hf]; exact hp)
  unfold unpack at hp
  split at hp
  · rename_i hlen
    exact key ls 0 s h (by omega) hp
  · cases hp

/-- `i, b[i], x = a`. -/
example : ∃ (s p : St) (ls : List Target), (∀ l ∈ ls, ∀ ix, l ≠ .el 0 ix) ∧ unpack s 0 ls = some p ∧
    (p.a 1, p.v 3) = ([5, 6, 20], 30) :=
  ⟨⟨fun _ => 0, fun x => if x = 0 then [2, 20, 30] else [5, 6, 7]⟩, _,
    [.var 2, .el 1 (.var 2), .var 3], by simp, rfl, rfl⟩

/-- C72 fails: `a[1], x = a`: `x` becomes the new `a[1]`. -/
theorem C72_unpack_violated : ∃ (s p t : St) (ls : List Target), unpack s 0 ls = some p ∧
    run s (lowerUnpack 0 0 ls) = some t ∧ p.v 1 = 20 ∧ t.v 1 = 10 :=
  ⟨⟨fun _ => 0, fun _ => [10, 20]⟩, _, _, [.el 0 (.lit 1), .var 1], rfl, rfl, rfl, rfl⟩

/-- A tuple with elements of different types can be built anew from expressions of which at most the
first reads the tuple.  Missing: the case below. -/
theorem C72_rebuild_partial (s p : St) (a : Name) (es : List Ex)
    (hn : (s.a a).length = es.length) (h : ∀ e ∈ es.tail, ¬ e.array a)
    (hp : rebuild s a es = some p) : ∃ t, run s (lowerRebuild a 0 es) = some t ∧
      (∀ x, t.v x = p.v x) ∧ ∀ b, t.a b = p.a b := by
  have key : ∀ (es : List Ex) (j : Nat) (u : St) (zs : List Int), (∀ e ∈ es.tail, ¬ e.array a) →
      (∀ e ∈ es, eval u e = eval s e) → (u.a a).length = j + es.length →
      es.mapM (eval s) = some zs → ∃ t, run u (lowerRebuild a j es) = some t ∧
        (∀ x, t.v x = u.v x) ∧ (∀ b, b ≠ a → t.a b = u.a b) ∧ t.a a = (u.a a).take j ++ zs := by
    intro es
    induction es with
    | nil =>
      intro j u zs _ _ hlen hz
      cases hz
      refine ⟨u, rfl, fun _ => rfl, fun _ _ => rfl, ?_⟩
      simp only [List.reverse_nil, List.append_nil]
      rw [List.take_of_length_le (by simp at hlen; omega)]
    | cons e es ih =>
      intro j u zs h he hlen hz
      simp only [List.mapM_cons, Option.bind_eq_bind, Option.pure_def] at hz
      cases h1 : eval s e with
      | none => rw [h1] at hz; cases hz
      | some z =>
      rw [h1] at hz
      simp only [Option.bind_some] at hz
      cases h2 : es.mapM (eval s) with
      | none => rw [h2] at hz; cases hz
      | some w =>
      rw [h2] at hz
      simp only [Option.bind_some, Option.some.injEq] at hz
      subst hz
      have hj : j < (u.a a).length := by simp only [List.length_cons] at hlen; omega
      have hp : position (u.a a).length j = some j := by
        unfold position
        rw [if_pos ⟨Int.natCast_nonneg _, by omega⟩]
        simp
      have ha : assign u (.el a (.lit j)) z =
          some { u with a := fun b => if b = a then (u.a a).set j z else u.a b } := by
        simp only [assign, locate, eval, Option.bind_eq_bind, Option.bind_some, hp, Option.pure_def]
      simp only [lowerRebuild, run, he e (by simp), h1, Option.bind_eq_bind, Option.bind_some, ha]
      obtain ⟨t, i1, i2, i3, i4⟩ := ih (j + 1)
        { u with a := fun b => if b = a then (u.a a).set j z else u.a b } w
        (fun d hd => h d (by simpa using List.mem_of_mem_tail hd))
        (fun d hd => by
          rw [← he d (by simp [hd])]
          refine eval_frame (fun _ _ => rfl) (fun b hb => ?_)
          simp only
          rw [if_neg]
          rintro rfl
          exact h d (by simpa using hd) hb)
        (by simp only [↓reduceIte, List.length_set, hlen, List.length_cons]; omega) h2
      refine ⟨t, i1, i2, fun b hb => ?_, ?_⟩
      · rw [i3 b hb]; simp [hb]
      · rw [i4]
        simp only [↓reduceIte]
        rw [List.take_add_one, List.getElem?_set_self hj, List.take_set, List.set_eq_of_length_le
          (by simp only [List.length_take]; omega)]
        simp
  unfold rebuild at hp
  cases hz : es.mapM (eval s) with
  | none => rw [hz] at hp; cases hp
  | some zs =>
  rw [hz] at hp
  simp only [Option.bind_eq_bind, Option.bind_some, Option.pure_def, Option.some.injEq] at hp
  obtain ⟨t, h1, h2, h3, h4⟩ := key es 0 s zs h (fun _ _ => rfl) (by omega) hz
  subst hp
  refine ⟨t, h1, h2, fun b => ?_⟩
  simp only
  split
  · rename_i hb; subst hb; simpa using h4
  · rename_i hb; exact h3 b hb

/-- `t = (t[0] + 1, x)`. -/
example : ∃ (s p : St) (es : List Ex), (s.a 0).length = es.length ∧ (∀ e ∈ es.tail, ¬ e.array 0) ∧
    rebuild s 0 es = some p ∧ p.a 0 = [11, 7] :=
  ⟨⟨fun _ => 7, fun _ => [10, 20]⟩, _, [.un (· + 1) (.el 0 (.lit 0)), .var 1], rfl,
    by simp [Ex.array, Reads], rfl, rfl⟩

/-- C72 fails: `t = (t[1], t[0], x)`: the elements are assigned one after the other. -/
theorem C72_rebuild_violated : ∃ (s p t : St) (es : List Ex), (s.a 0).length = es.length ∧
    rebuild s 0 es = some p ∧ run s (lowerRebuild 0 0 es) = some t ∧ p.a 0 = [20, 10, 7] ∧
    t.a 0 = [20, 20, 7] :=
  ⟨⟨fun _ => 7, fun _ => [10, 20, 30]⟩, _, _, [.el 0 (.lit 1), .el 0 (.lit 0), .var 1], rfl, rfl, rfl,
    rfl, rfl⟩

/-! ## Chains -/

theorem go_other (env : Name → Option Val) (xs : List Name) (zs : List Int) {y : Name} (hy : y ∉ xs) :
    lowerChain.go env xs zs y = env y := by
  induction xs generalizing env zs with
  | nil => cases zs <;> rfl
  | cons x xs ih =>
    cases zs with
    | nil => rfl
    | cons z zs =>
      rw [lowerChain.go, ih _ _ (fun h => hy (by simp [h]))]
      simp only [List.mem_cons, not_or] at hy
      simp [hy.1]

theorem go_num (env : Name → Option Val) (xs : List Name) (zs : List Int) {y : Name} (hy : y ∈ xs)
    (hl : xs.length ≤ zs.length) : ∃ z, lowerChain.go env xs zs y = some (.num z) := by
  induction xs generalizing env zs with
  | nil => cases hy
  | cons x xs ih =>
    cases zs with
    | nil => simp at hl
    | cons z zs =>
      rw [lowerChain.go]
      by_cases h : y ∈ xs
      · exact ih _ _ h (by simpa using hl)
      · rw [go_other _ _ _ h]
        rcases List.mem_cons.1 hy with rfl | h'
        · exact ⟨z, by simp⟩
        · exact absurd h' h

theorem lowerChain_several (env : Name → Option Val) (xs : List Name) (v : Val) (h : 2 ≤ xs.length) :
    lowerChain env xs v = match v with
      | .num _ => none
      | .seq zs => if xs.length ≤ zs.length then some (lowerChain.go env xs zs) else none := by
  match xs, v, h with
  | _ :: _ :: _, .num _, _ => rfl
  | _ :: _ :: _, .seq _, _ => rfl

/-- One target gets the value; and other variables keep theirs, however many targets there are.
Missing: the value of several targets, see below. -/
theorem C73_partial (env env' : Name → Option Val) (xs : List Name) (v : Val)
    (h : lowerChain env xs v = some env') :
    (xs.length = 1 → env' = chain env xs v) ∧ ∀ y, y ∉ xs → env' y = chain env xs v y := by
  have h1 : xs.length = 1 → env' = chain env xs v := by
    intro hl
    match xs, hl with
    | [x], _ =>
      simp only [lowerChain, Option.some.injEq] at h
      subst h
      funext y
      simp [chain]
  refine ⟨h1, fun y hy => ?_⟩
  by_cases hl : xs.length = 1
  · rw [h1 hl]
  · by_cases h0 : xs = []
    · subst h0
      cases v <;> simp [lowerChain, lowerChain.go] at h
      subst h
      simp [chain]
    · rw [lowerChain_several _ _ _ (by
        have := List.length_pos_iff.2 h0
        omega)] at h
      cases v with
      | num z => cases h
      | seq zs =>
        simp only at h
        split at h
        · cases h
          rw [go_other _ _ _ hy]
          simp [chain, hy]
        · cases h

example : ∃ env', lowerChain (fun _ => some (.num 3)) [0, 1] (.seq [1, 2]) = some env' ∧
    env' 2 = some (.num 3) ∧ ∃ e₁, lowerChain (fun _ => none) [0] (.seq [1, 2]) = some e₁ ∧
    e₁ 0 = some (.seq [1, 2]) := ⟨_, rfl, rfl, _, rfl, rfl⟩

/-- C73 fails: whenever `x₁ = … = xₙ = e` with several targets is translated, every target gets another
value than in Python: `x = y = (1, 2)` makes `x` `1` and `y` `2`.  (`x = y = 1` stops with an
exception.) -/
theorem C73_violated : (∀ env xs v env', 2 ≤ xs.length → lowerChain env xs v = some env' →
      ∀ x ∈ xs, env' x ≠ chain env xs v x) ∧
    ∃ env', lowerChain (fun _ => none) [0, 1] (.seq [1, 2]) = some env' := by
  refine ⟨?_, ⟨_, rfl⟩⟩
  intro env xs v env' h2 h x hx
  rw [lowerChain_several _ _ _ h2] at h
  cases v with
  | num z => cases h
  | seq zs =>
    simp only at h
    split at h
    · rename_i hl
      simp only [Option.some.injEq] at h
      subst h
      obtain ⟨z, hz⟩ := go_num env xs zs hx hl
      rw [hz]
      simp [chain, hx]
    · cases h

end Verif.Assigns
