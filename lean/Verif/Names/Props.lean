import Verif.Names.Lemmas
/-
Properties C28–C32 and C58.
-/
namespace Verif.Names
open Spec

/-! ### C28: generated names are fresh -/

/-- **C28**.  For every suggested name, symbol set, prefix and context, in each language, the
search ends with a name that is the same (for the target compiler) as none of the given symbols
and none of the reserved words of the checker. -/
theorem C28_fresh (l : Language) (name : Name) (symbols : List Name) (pre : Name) (ctx : Ctx)
    (parent : Kind) :
    ∃ v, getCollisionless l name symbols pre ctx parent = some v ∧
      (∀ s ∈ symbols, ¬ Same l s v) ∧ ∀ k ∈ keywords l, ¬ Same l k v := by
  obtain ⟨v, h1, h2, _⟩ := collisionless_spec l (mangle l name pre ctx parent) symbols
  rw [hasClash_false] at h2
  refine ⟨v, h1, fun s hs => fun h => h2.2 s hs (same_iff_fold.1 h), fun k hk h => ?_⟩
  have hlow : fold l k = k := by
    cases l with
    | c => rfl
    | python => rfl
    | fortran =>
      have : ∀ x ∈ keywords .fortran, fold .fortran x = x := by decide +kernel
      exact this k hk
  rw [same_iff_fold, hlow] at h
  exact h2.1 (h ▸ hk)

/-- `X` clashes with the Fortran symbol `x` and `x_0001` is taken. -/
example : getCollisionless .fortran "X".toList ["x".toList, "X_0001".toList] [] .variable .function
    = some "X_0002".toList := by decide +kernel

/-- **C28** (incremented strings).  `create_incremented_string` always ends, and returns the first
free name: `prefix_NNNN` for the least counter from the given one on that is not forbidden. -/
theorem C28_incremented (l : Language) (forbidden : List Name) (pre : Name) (counter : Nat) :
    ∃ k, createIncremented l forbidden pre counter = some (numbered pre k, k + 1) ∧ counter ≤ k ∧
      hasClash l (numbered pre k) forbidden = false ∧
      ∀ j, counter ≤ j → j < k → hasClash l (numbered pre j) forbidden = true := by
  obtain ⟨⟨n, c⟩, h⟩ := createIncremented_total l forbidden pre counter
  obtain ⟨h1, k, h2, h3, h4, h5⟩ := incrLoop_some h
  exact ⟨k, by rw [h, h3, h4], h2, by rw [← h3]; exact h1, h5⟩

example : numbered "x".toList 7 = "x_0007".toList ∧ numbered "x".toList 12345 = "x_12345".toList := by
  decide +kernel

/-- **C28** (C keywords).  The name generated for C is never one of the keywords of C11, unless
the suggested name is `while` (which is no Python identifier): the prefix of a scope is empty or
ends with an underscore (pyccel/parser/scope.py:127). -/
theorem C28_c_keywords (name : Name) (symbols : List Name) (pre : Name) (ctx : Ctx)
    (parent : Kind) (v : Name) (hname : name ≠ "while".toList)
    (hpre : pre = [] ∨ ∃ q, pre = q ++ ['_'])
    (h : getCollisionless .c name symbols pre ctx parent = some v) :
    v ∉ c11Keywords.map String.toList := by
  intro hv
  obtain ⟨w, h1, h2, h3⟩ := collisionless_spec .c (mangle .c name pre ctx parent) symbols
  rw [getCollisionless, h1] at h
  obtain rfl : w = v := by simpa using h
  have hk := (hasClash_false.1 h2).1
  have hsub : ∀ x ∈ c11Keywords.map String.toList, x ∈ keywords .c ∨ x = "while".toList := by
    decide +kernel
  have hw : w = "while".toList := (hsub w hv).resolve_left hk
  have ew : "while".toList = ['w', 'h', 'i', 'l', 'e'] := by decide
  have ep : "private".toList = ['p', 'r', 'i', 'v', 'a', 't', 'e'] := by decide
  have eo : "operator".toList = ['o', 'p', 'e', 'r', 'a', 't', 'o', 'r'] := by decide
  have hno : ∀ a b : Name, "while".toList ≠ a ++ '_' :: b := by
    intro a b hab
    have : '_' ∈ "while".toList := by rw [hab]; simp
    exact absurd this (by decide)
  rcases h3 with h3 | ⟨_, k, h3⟩
  · rw [hw] at h3
    have hpriv : ∀ n : Name, "while".toList = privateName n → n = "while".toList := by
      intro n hn
      unfold privateName at hn
      split at hn
      · rw [ew, ep] at hn; simp at hn
      · exact hn.symm
    have hdun : ∀ n : Name, "while".toList = dunder n → n = "while".toList := by
      intro n hn
      unfold dunder at hn
      split at hn
      · rw [ew, eo] at hn; simp at hn
      · exact hn.symm
    have hcore : ∀ n : Name, "while".toList = privateName (dunder
        (if (if n = "__init__".toList then "init".toList else n) = "__del__".toList
          then "drop".toList else (if n = "__init__".toList then "init".toList else n))) →
        n = "while".toList := by
      intro n hn
      have := hdun _ (hpriv _ hn).symm
      split at this
      · exact absurd this (by decide)
      · split at this
        · exact absurd this (by decide)
        · exact this
    simp only [mangle, mangleC] at h3
    split at h3
    · exact hname h3.symm
    · split at h3
      · rcases hpre with rfl | ⟨q, rfl⟩
        · rw [List.nil_append] at h3; exact hname (hcore name h3)
        · rw [List.append_assoc] at h3; exact hno q _ h3
      · exact hname (hcore name h3)
  · rw [hw] at h3
    exact hno _ _ h3

example : getCollisionless .c "int".toList [] "f__".toList .variable .function
    = some "int_0001".toList := by decide +kernel

/-- **C28 fails** for the C keyword `while`, misspelt `whie` in the list of reserved words. -/
theorem C28_c_while_violated :
    "while".toList ∈ c11Keywords.map String.toList ∧
    getCollisionless .c "while".toList [] [] .variable .function = some "while".toList := by
  decide +kernel

/-! ### C58: intrinsics called by the generated Fortran code -/

/-- Fortran intrinsic procedures that the Fortran printer calls for Python operators and
built-ins (`a % b`, conditional expressions, `len`/`.size`, `<<`, `^`, reductions):
pyccel/codegen/printing/fcode.py:3630, 3554, 2076-2096, 3653, 3659. -/
def printedIntrinsics : List String := ["modulo", "merge", "size", "lshift", "ieor"]

/-- **C58 fails**: a Python variable named after one of these intrinsics keeps its name, so that
in its scope the generated call refers to the variable. -/
theorem C58_intrinsic_captured_violated (n : String) (h : n ∈ printedIntrinsics) (symbols : List Name)
    (hs : ∀ s ∈ symbols, ¬ Same .fortran s n.toList) :
    getCollisionless .fortran n.toList symbols [] .variable .function = some n.toList := by
  have key : ∀ m ∈ printedIntrinsics, mangle .fortran m.toList [] .variable .function = m.toList ∧
      fold .fortran m.toList ∉ keywords .fortran := by decide +kernel
  obtain ⟨h1, h2⟩ := key n h
  have : hasClash .fortran n.toList symbols = false :=
    hasClash_false.2 ⟨h2, fun s hs' h3 => hs s hs' (same_iff_fold.2 h3)⟩
  simp [getCollisionless, h1, collisionless, this]

example : ∀ s ∈ ["x".toList], ¬ Same .fortran s "modulo".toList := by simp [Same]

/-! ### C29: a name without a clash is kept -/

/-- **C29**.  A name that does not start with an underscore, and (in C) is neither that of a
function nor inserted in a module, is used unchanged unless it clashes. -/
theorem C29_kept (l : Language) (name : Name) (symbols : List Name) (pre : Name) (ctx : Ctx)
    (parent : Kind) (h0 : name[0]? ≠ some '_') (hc : l = .c → ctx = .variable ∧ parent ≠ .module)
    (hk : ∀ k ∈ keywords l, k ≠ fold l name) (hs : ∀ s ∈ symbols, ¬ Same l s name) :
    getCollisionless l name symbols pre ctx parent = some name := by
  have hcl : hasClash l name symbols = false :=
    hasClash_false.2 ⟨fun h => hk _ h rfl, fun s h1 h2 => hs s h1 (same_iff_fold.2 h2)⟩
  have hm : mangle l name pre ctx parent = name := by
    have hi : name ≠ "__init__".toList := by rintro rfl; exact h0 rfl
    have hd : name ≠ "__del__".toList := by rintro rfl; exact h0 rfl
    have hpd : privateName (dunder name) = name := by simp [dunder, privateName, h0]
    cases l with
    | python => rfl
    | fortran => simp only [mangle, mangleF, if_neg hi, if_neg hd, hpd, ite_self]
    | c =>
      obtain ⟨rfl, h2⟩ := hc rfl
      simp only [mangle, mangleC, if_neg hi, if_neg hd, hpd, h2, reduceCtorEq, false_and, or_self, if_false]
  simp [getCollisionless, hm, collisionless, hcl]

example : getCollisionless .c "value".toList ["x".toList] "m__".toList .variable .function
    = some "value".toList := by decide +kernel

/-- **C29** (functions and module variables in C).  There the name is the prefix of the scope
followed by the Python name, unless that clashes. -/
theorem C29_prefixed (name : Name) (symbols : List Name) (pre : Name) (ctx : Ctx) (parent : Kind)
    (h0 : name[0]? ≠ some '_')
    (hc : ctx = .function ∨ (parent = .module ∧ (ctx = .variable ∨ ctx = .class_)))
    (hk : ∀ k ∈ keywords .c, k ≠ pre ++ name) (hs : pre ++ name ∉ symbols) :
    getCollisionless .c name symbols pre ctx parent = some (pre ++ name) := by
  have hcl : hasClash .c (pre ++ name) symbols = false :=
    hasClash_false.2 ⟨fun h => hk _ h rfl, fun s h1 h2 => hs (by
      have h3 : s = pre ++ name := h2
      exact h3 ▸ h1)⟩
  have hm : mangle .c name pre ctx parent = pre ++ name := by
    have hi : name ≠ "__init__".toList := by rintro rfl; exact h0 rfl
    have hd : name ≠ "__del__".toList := by rintro rfl; exact h0 rfl
    have hpd : privateName (dunder name) = name := by simp [dunder, privateName, h0]
    rcases hc with rfl | ⟨rfl, rfl | rfl⟩ <;>
      simp only [mangle, mangleC, if_neg hi, if_neg hd, hpd, reduceCtorEq, ne_eq, not_false_eq_true,
        and_self, or_true, true_or, if_true, if_false]
  simp [getCollisionless, hm, collisionless, hcl]

example : getCollisionless .c "f".toList [] "m__".toList .function .module = some "m__f".toList := by
  decide +kernel

/-- **C29** (modules in C, and symbols of the wrapper in every language).  The name of a C
module is kept unless it clashes; so is every name used in the wrapper, underscores or not. -/
theorem C29_module_wrapper_kept (l : Language) (name : Name) (symbols : List Name) (pre : Name)
    (ctx : Ctx) (parent : Kind)
    (hc : ctx = .wrapper ∨ (l = .c ∧ ctx = .module ∧ name[0]? ≠ some '_'))
    (hk : ∀ k ∈ keywords l, k ≠ fold l name) (hs : ∀ s ∈ symbols, ¬ Same l s name) :
    getCollisionless l name symbols pre ctx parent = some name := by
  have hcl : hasClash l name symbols = false :=
    hasClash_false.2 ⟨fun h => hk _ h rfl, fun s h1 h2 => hs s h1 (same_iff_fold.2 h2)⟩
  have hm : mangle l name pre ctx parent = name := by
    rcases hc with rfl | ⟨rfl, rfl, h0⟩
    · cases l with
      | python => rfl
      | fortran => simp only [mangle, mangleF, if_true]
      | c => simp only [mangle, mangleC, if_true]
    · have hi : name ≠ "__init__".toList := by rintro rfl; exact h0 rfl
      have hd : name ≠ "__del__".toList := by rintro rfl; exact h0 rfl
      have hpd : privateName (dunder name) = name := by simp [dunder, privateName, h0]
      simp only [mangle, mangleC, if_neg hi, if_neg hd, hpd, reduceCtorEq, ne_eq, not_true_eq_false,
        and_false, or_self, if_false]
  simp [getCollisionless, hm, collisionless, hcl]

example : getCollisionless .c "_x".toList [] "m__".toList .wrapper .module = some "_x".toList := by
  decide +kernel
example : getCollisionless .c "mod".toList [] "p__".toList .module .module
    = some "mod".toList := by decide +kernel

/-- **C29** (private local variables in C).  A local name starting with an underscore which is
not of the form `__…__` is prefixed by `private`, and otherwise kept, unless that clashes.  A name
of at most four characters is never of the form `__…__`. -/
theorem C29_private (name : Name) (symbols : List Name) (pre : Name) (parent : Kind)
    (h0 : name[0]? = some '_')
    (hd : name.length ≤ 4 ∨ name[1]? ≠ some '_' ∨ name[name.length - 1]? ≠ some '_' ∨
      name[name.length - 2]? ≠ some '_')
    (hp : parent ≠ .module)
    (hk : ∀ k ∈ keywords .c, k ≠ "private".toList ++ name)
    (hs : "private".toList ++ name ∉ symbols) :
    getCollisionless .c name symbols pre .variable parent = some ("private".toList ++ name) := by
  have hcl : hasClash .c ("private".toList ++ name) symbols = false :=
    hasClash_false.2 ⟨fun h => hk _ h rfl, fun s h1 h2 => hs (by
      have h3 : s = "private".toList ++ name := h2
      exact h3 ▸ h1)⟩
  have hi : name ≠ "__init__".toList := by rintro rfl; revert hd; decide
  have hdd : name ≠ "__del__".toList := by rintro rfl; revert hd; decide
  have hdu : dunder name = name := by
    unfold dunder
    apply if_neg
    rintro ⟨a, b, c, d, e⟩
    rcases hd with h | h | h | h
    · omega
    · exact h c
    · exact h d
    · exact h e
  have hpr : privateName name = "private".toList ++ name := by unfold privateName; exact if_pos h0
  have hm : mangle .c name pre .variable parent = "private".toList ++ name := by
    simp only [mangle, mangleC, if_neg hi, if_neg hdd, hdu, hpr, hp, reduceCtorEq, false_and,
      or_self, if_false]
  generalize "private".toList ++ name = n at *
  simp [getCollisionless, hm, collisionless, hcl]

example : getCollisionless .c "____".toList [] "m__".toList .variable .function
    = some "private____".toList := by decide +kernel

/-! ### C30: distinct symbols have distinct names -/

/-- **C30** (within a scope).  After any history of insertions, new-name requests, scope
creations, removals and low-level names, two different symbols of a scope have names which the
target compiler distinguishes. -/
theorem C30_distinct_in_scope (t : Tree) (ops : List Op) (s : St)
    (h : run t St.init ops = some s) (i : Nat) (k₁ k₂ v₁ v₂ : Name)
    (h₁ : (s.used i).get k₁ = some v₁) (h₂ : (s.used i).get k₂ = some v₂) (hne : k₁ ≠ k₂) :
    ¬ Same t.lang v₁ v₂ := by
  intro hs
  have hok := (ok_run h (ok_init t)).1 i
  have := hok.key_eq (mem_of_get h₁) (mem_of_get h₂) (same_iff_fold.1 hs)
  exact hne (congrArg Prod.fst this)

/-- **C30** (freshness).  `insert_symbol` and `get_new_name` never fail, and a name newly chosen
for a symbol differs from every name in use in the scope it is stored in and in all the scopes
around that one. -/
theorem C30_new_name_fresh (t : Tree) (hl : ∀ i, t.isLoop i = true → (t.par i).isSome) (s : St)
    (i : Nat) (k : Name) (ctx : Ctx) :
    ∃ s' v, insertSymbol t s i k ctx = some (s', v) ∧
      ∃ j ∈ t.chain i, (s'.used j).get k = some v ∧
        ((s.used j).get k = some v ∨ ∀ a ∈ t.chain j, ∀ k' v', (k', v') ∈ s.used a →
          ¬ Same t.lang v' v) := by
  obtain ⟨⟨s', v⟩, h⟩ := insertSymbol_total t hl s i k ctx
  refine ⟨s', v, h, ?_⟩
  obtain ⟨j, hj, _, ⟨rfl, hg⟩ | ⟨rfl, _, hf⟩⟩ := insertSymbol_cases h
  · exact ⟨j, hj, hg, Or.inl hg⟩
  · refine ⟨j, hj, by rw [used_put]; simp [get_set_self], Or.inr ?_⟩
    intro a ha k' v' hm hs
    exact (hasClash_false.1 hf).2 v' (mem_allUsed ha hm) (same_iff_fold.1 hs)

/-- **C30** (visible symbols), partial.  If no operation on an outer scope produces a name that a
nested scope already uses for another symbol, then two different symbols visible from a scope
have distinguishable names.

Missing: outer scopes do not look at the names chosen in nested scopes; see
`C30_late_outer_name_violated`. -/
theorem C30_distinct_visible_partial (t : Tree) (ops : List Op) (s : St)
    (h : RunSafe t St.init ops s) (i : Nat) (k₁ k₂ v₁ v₂ : Name)
    (h₁ : expectedName t s i k₁ = some v₁) (h₂ : expectedName t s i k₂ = some v₂)
    (hne : k₁ ≠ k₂) : ¬ Same t.lang v₁ v₂ := by
  have hv : Vis t s := vis_run h fun _ _ _ e he => by simp [St.init] at he
  intro hs
  obtain ⟨a, ha, hma⟩ := expected_mem h₁
  obtain ⟨b, hb, hmb⟩ := expected_mem h₂
  exact hne (hv.any ha hb hma hmb (same_iff_fold.1 hs))

example : demoNames .fortran [.insert 0 "x".toList .variable, .insert 1 "X".toList .variable]
    ["x", "X"] = [some "x", some "X_0001"] := by decide +kernel

/-- The hypotheses of `C30_distinct_visible_partial` hold for a history with a clash. -/
example : ∃ s, RunSafe (demoTree .fortran) St.init
    [.insert 0 "x".toList .variable, .insert 0 "X".toList .variable] s := by
  have hch : (demoTree .fortran).chain 0 = [0] := by rw [chain_eq]; rfl
  have h1 : step (demoTree .fortran) St.init (.insert 0 "x".toList .variable) =
      some (put St.init 0 "x".toList "x".toList) :=
    step_insert_eq rfl rfl (by simp only [allUsed, hch]; decide +kernel)
  have h2 : step (demoTree .fortran) (put St.init 0 "x".toList "x".toList)
      (.insert 0 "X".toList .variable) =
      some (put (put St.init 0 "x".toList "x".toList) 0 "X".toList "X_0001".toList) :=
    step_insert_eq rfl (by decide +kernel) (by simp only [allUsed, hch]; decide +kernel)
  refine ⟨_, .cons h1 ?_ (.cons h2 ?_ (.nil _))⟩
  all_goals
    intro j k v _ _ d hd hne k' v' h3
    have : d ≠ 0 := by
      rintro rfl
      have := chain_le _ hd
      omega
    rw [put_used_ne _ _ _ this] at h3
    try rw [put_used_ne _ _ _ this] at h3
    simp [St.init] at h3

/-- **C30 fails** when an outer symbol is inserted after a clash was resolved in a nested scope:
in Fortran, with a global `x` and a local `X` (renamed `X_0001`), a global `x_0001` defined after
the function gets the same name as the local. -/
theorem C30_late_outer_name_violated :
    demoNames .fortran [.insert 0 "x".toList .variable, .insert 1 "X".toList .variable,
      .insert 0 "x_0001".toList .variable] ["X", "x_0001"] = [some "X_0001", some "x_0001"] ∧
    Same .fortran "X_0001".toList "x_0001".toList := by
  refine ⟨by decide +kernel, by decide⟩

/-- The same failure in C, without any renaming: a local variable `m__x` of a function of module
`m`, and a global `x` defined after the function. -/
theorem C30_late_outer_prefix_violated :
    demoNames .c [.insert 0 "f".toList .function, .enter 1 "f".toList,
      .insert 1 "m__x".toList .variable, .insert 0 "x".toList .variable] ["m__x", "x"] =
      [some "m__x", some "m__x"] := by
  decide +kernel

/-- **C30** (stability), partial.  No operation other than removing it changes the name of a
symbol, except that `get_new_name` may return a name equal to an existing symbol, which then gets
that name. -/
theorem C30_stable_partial (t : Tree) (s s' : St) (op : Op) (h : step t s op = some s')
    (hop : ∀ i k, op ≠ .remove i k) (i : Nat) (k v : Name) (hk : (s.used i).get k = some v) :
    (s'.used i).get k = some v ∨
      (∃ cur ctx, op = .newName i cur ctx) ∧ (s'.used i).get k = some k := by
  have hput : ∀ (s0 : St) (j : Nat) (k' v' : Name), (s0.used j).get k' = none →
      (s0.used i).get k = some v → ((put s0 j k' v').used i).get k = some v := by
    intro s0 j k' v' hg hk
    rw [used_put]
    split
    next hj =>
      have : k ≠ k' := by rintro rfl; rw [← hj, hk] at hg; simp at hg
      rw [get_set_ne _ _ this, ← hj]; exact hk
    next => exact hk
  have hins : ∀ {s0 s1 : St} {j : Nat} {k' w : Name} {ctx : Ctx} {v0 : Name},
      insertSymbol t s0 j k' ctx = some (s1, w) → (s0.used i).get k = some v0 →
      (s1.used i).get k = some v0 := by
    intro s0 s1 j k' w ctx v0 h1 hk
    obtain ⟨j', _, _, ⟨rfl, _⟩ | ⟨rfl, hg, _⟩⟩ := insertSymbol_cases h1
    · exact hk
    · rw [used_put]
      split
      next hj =>
        have : k ≠ k' := by rintro rfl; rw [← hj, hk] at hg; simp at hg
        rw [get_set_ne _ _ this, ← hj]; exact hk
      next => exact hk
  cases op with
  | insert j k' ctx =>
    simp only [step, Option.map_eq_some_iff] at h
    obtain ⟨⟨s1, w⟩, h1, rfl⟩ := h
    exact Or.inl (hins h1 hk)
  | newName j cur ctx =>
    simp only [step, Option.map_eq_some_iff] at h
    obtain ⟨⟨s1, n⟩, h1, rfl⟩ := h
    rcases getNewName_cases h1 with ⟨k', _, h2⟩ | ⟨c, w, h2, h3⟩
    · exact Or.inl (hins h2 hk)
    · by_cases hij : i = j
      · subst hij
        by_cases hkw : k = w
        · subst hkw
          refine Or.inr ⟨⟨_, _, rfl⟩, hins h3 ?_⟩
          rw [used_put]; simp [get_set_self]
        · refine Or.inl (hins h3 ?_)
          rw [used_put]; simp only [if_true]
          rw [get_set_ne _ _ hkw]; exact hk
      · refine Or.inl (hins h3 ?_)
        rw [put_used_ne _ _ _ hij]; exact hk
  | enter j k' =>
    simp only [step] at h
    cases hp : t.par j with
    | none => simp [hp] at h
    | some p =>
      simp only [hp] at h
      cases hv : (s.used p).get k' with
      | none => simp [hv] at h
      | some w =>
        simp only [hv] at h
        split at h
        next he =>
          cases h
          exact Or.inl (hput s j k' w (by simp [he, Dict.get]) hk)
        next => simp at h
  | remove j k' => exact absurd rfl (hop j k')
  | lowLevel j k' w =>
    simp only [step] at h
    split at h
    next => simp at h
    next hc =>
      cases h
      simp only [Bool.or_eq_true, not_or, Bool.not_eq_true] at hc
      exact Or.inl (hput s j k' w (by have := hc.1.2; simpa using this) hk)

/-- **C30 fails** (stability): in C, a function `Dummy_0000` nested in a function is called
`m__f__Dummy_0000`, until a temporary is requested: then the symbol `Dummy_0000` refers to the
temporary. -/
theorem C30_renamed_violated :
    demoNames .c [.insert 1 "Dummy_0000".toList .function] ["Dummy_0000"] =
      [some "m__f__Dummy_0000"] ∧
    demoNames .c [.insert 1 "Dummy_0000".toList .function, .newName 1 none .variable]
      ["Dummy_0000"] = [some "Dummy_0000"] := by
  decide +kernel

/-! ### C31: lookup of objects -/

/-- **C31** (innermost definition).  `find` returns the object defined under the name (in the
wanted categories) by the innermost enclosing scope defining it; it returns nothing iff no
enclosing scope defines it. -/
theorem C31_innermost (t : Tree) (o : Objs) (i : Nat) (k : Name) (cat : Option Cat) (x : Nat) :
    find t o i k cat false = some x ↔
      ∃ inner j outer, t.chain i = inner ++ j :: outer ∧
        findHere o j k (catList cat) = some x ∧
        ∀ a ∈ inner, findHere o a k (catList cat) = none := by
  rw [find_eq, List.findSome?_eq_some_iff]

/-- What a scope itself defines in one category: its own definition before an imported one. -/
theorem C31_local_first (o : Objs) (i : Nat) (k : Name) (c : Cat) (x : Nat) :
    findHere o i k [c] = some x ↔
      olookup (o.locals i c) k = some x ∨
        olookup (o.locals i c) k = none ∧ olookup (o.imports i c) k = some x := by
  simp only [findHere, List.findSome?_cons, List.findSome?_nil]
  cases h : olookup (o.locals i c) k with
  | some y => simp
  | none =>
    cases olookup (o.imports i c) k <;> simp

/-- **C31** (locality).  Defining a variable changes a lookup only for that name, and only from
the scope that stores it and the scopes nested in it; the new definition is found there. -/
theorem C31_insert_local (t : Tree) (o o' : Objs) (i : Nat) (k : Name) (x : Nat)
    (h : insertVariable t o i k x = some o') :
    ∃ j ∈ t.chain i, t.isLoop j = false ∧ find t o' j k (some .variables) false = some x ∧
      ∀ d k' cat, (k' ≠ k ∨ j ∉ t.chain d) → find t o' d k' cat false = find t o d k' cat false := by
  induction i using Nat.strong_induction_on with
  | _ i ih =>
    rw [insertVariable] at h
    split at h
    next hl =>
      split at h
      next p hp =>
        obtain ⟨j, hj, hr⟩ := ih p (t.par_lt i p hp) h
        exact ⟨j, by rw [chain_eq, hp]; exact List.mem_cons_of_mem _ hj, hr⟩
      next => simp at h
    next hl =>
      split at h
      next => simp at h
      next hn =>
        cases h
        refine ⟨i, self_mem_chain t i, by simpa using hl, ?_, ?_⟩
        · rw [find_eq, chain_eq, List.findSome?_cons]
          have : findHere { o with locals := upd o.locals i (fun c =>
              if c = .variables then (k, x) :: o.locals i c else o.locals i c) } i k
              (catList (some .variables)) = some x := by
            simp [findHere, catList, upd, olookup]
          rw [this]
        · intro d k' cat hor
          rw [find_eq, find_eq]
          have hkey : ∀ j ∈ t.chain d, findHere { o with locals := upd o.locals i (fun c =>
              if c = .variables then (k, x) :: o.locals i c else o.locals i c) } j k'
              (catList cat) = findHere o j k' (catList cat) := by
            intro j hj
            unfold findHere
            congr 1
            funext c
            by_cases hji : j = i
            · have hk : k' ≠ k := hor.resolve_right (by rw [← hji]; exact fun h => h hj)
              have hb : (k == k') = false := by simp; exact fun e => hk e.symm
              subst hji
              simp only [upd, if_true]
              congr 1
              split
              · simp [olookup, List.find?_cons, hb]
              · rfl
            · simp [upd, hji]
          generalize t.chain d = L at hkey
          induction L with
          | nil => rfl
          | cons a L ihL =>
            rw [List.findSome?_cons, List.findSome?_cons, hkey a (by simp),
              ihL fun j hj => hkey j (by simp [hj])]

example : (insertVariable (demoTree .c) ⟨fun _ _ => [], fun _ _ => []⟩ 1 "a".toList 7).isSome := by
  decide +kernel

/-- **C31 fails** for `find_all`: a name both defined and imported in a scope is found by `find`
as its definition, by `find_all` as the import. -/
theorem C31_find_all_violated :
    let o : Objs := ⟨fun i _ => if i = 0 then [("a".toList, 1)] else [],
      fun i _ => if i = 0 then [("a".toList, 2)] else []⟩
    find (demoTree .c) o 1 "a".toList (some .functions) false = some 1 ∧
    olookup (findAll (demoTree .c) o 1 .functions) "a".toList = some 2 := by
  decide +kernel

/-- **C31** (`find_all`), partial: the entry of `find_all` for a name is what `find` returns, if no
scope both defines and imports the name. -/
theorem C31_find_all_partial (t : Tree) (o : Objs) (i : Nat) (k : Name) (c : Cat)
    (h : ∀ j ∈ t.chain i, olookup (o.locals j c) k = none ∨ olookup (o.imports j c) k = none) :
    olookup (findAll t o i c) k = find t o i k (some c) false := by
  have happ : ∀ (d e : List (Name × Nat)), olookup (oupdate d e) k = (olookup e k).or (olookup d k) := by
    intro d e
    simp only [olookup, oupdate, List.find?_append]
    cases List.find? (fun e => e.1 == k) e <;> rfl
  induction i using Nat.strong_induction_on with
  | _ i ih =>
    have hi := h i (self_mem_chain t i)
    rw [find_eq, chain_eq, List.findSome?_cons, findAll]
    simp only [catList, findHere, List.findSome?_cons, List.findSome?_nil]
    split
    next p hp =>
      have ihp := ih p (t.par_lt i p hp) fun j hj => h j (by
        rw [chain_eq, hp]; exact List.mem_cons_of_mem _ hj)
      rw [find_eq] at ihp
      rw [happ, happ, ihp]
      simp only [hp, catList, findHere, List.findSome?_cons, List.findSome?_nil]
      rcases hi with hi | hi <;> rw [hi]
      · cases olookup (o.imports i c) k <;> simp
      · cases olookup (o.locals i c) k <;> simp
    next hp =>
      rw [happ, happ]
      simp only [hp]
      rcases hi with hi | hi <;> rw [hi]
      · cases olookup (o.imports i c) k <;> simp [olookup]
      · cases olookup (o.locals i c) k <;> simp [olookup]

/-! ### C32: Python names and target names -/

/-- **C32** (within a scope).  After any history, the Python name recorded by a scope for the
target name of one of its symbols is that symbol. -/
theorem C32_inverse_in_scope (t : Tree) (ops : List Op) (s : St) (h : run t St.init ops = some s)
    (i : Nat) (k v : Name) (hk : (s.used i).get k = some v) : (s.orig i).get v = some k :=
  (ok_run h (ok_init t)).2 i k v (mem_of_get hk)

/-- **C32** (visible symbols), partial.  In such histories, `get_python_name` applied to the result
of `get_expected_name` gives back the symbol, from every scope and for every visible symbol. -/
theorem C32_inverse_visible_partial (t : Tree) (ops : List Op) (s : St)
    (h : RunSafe' t St.init ops s) (i : Nat) (k v : Name) (hk : expectedName t s i k = some v) :
    pythonName t s i v = some k := by
  have hinv : Vis t s ∧ NoStale s ∧ Ok t s := all_run h
    ⟨fun _ _ _ e he => by simp [St.init] at he, fun i v k h => by simp [St.init, Dict.get] at h,
      ok_init t⟩
  obtain ⟨hv, hst, hok⟩ := hinv
  obtain ⟨inner, a, outer, hc, ha, hin⟩ := List.findSome?_eq_some_iff.1 hk
  refine List.findSome?_eq_some_iff.2 ⟨inner, a, outer, hc, hok.2 a k v (mem_of_get ha), ?_⟩
  intro b hb
  cases ho : (s.orig b).get v with
  | none => rfl
  | some k' =>
    exfalso
    have hu := hst b v k' ho
    have hbc : b ∈ t.chain i := by rw [hc]; exact List.mem_append_left _ hb
    have hac : a ∈ t.chain i := by rw [hc]; simp
    have := hv.any hbc hac (mem_of_get hu) (mem_of_get ha) rfl
    simp only at this
    subst this
    rw [hin b hb] at hu
    simp at hu

/-- **C32 fails** without that restriction: after the history of `C30_late_outer_prefix_violated`
the name of the global `x`, seen from the function, is taken back to the local `m__x`. -/
theorem C32_captured_violated :
    ((run (demoTree .c) St.init [.insert 1 "m__x".toList .variable,
      .insert 0 "x".toList .variable]).bind fun s =>
        (expectedName (demoTree .c) s 1 "x".toList).bind fun v =>
          (pythonName (demoTree .c) s 1 v).map String.ofList) = some "m__x" := by
  decide +kernel

end Verif.Names
