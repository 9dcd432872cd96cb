import Verif.ConfigCheck.Lemmas

/-!
# C198: `pyccel config check`
-/

namespace Verif.ConfigCheck
open Spec Model

/-- C198 (partial: this direction).  Every configuration that can be used is accepted by `pyccel config check`. -/
theorem C198_usable_partial {env : Env} {v : J} (hd : AllDistinct v) (h : Usable env v) : check env v = true := by
  obtain ⟨l, rfl, hne, hl⟩ := h
  have hlang : ∀ kv ∈ l, kv.1 ∈ [Key.c, .fortran] := fun kv hkv => by simpa using (hl kv hkv).1
  have h1 : (l.all fun kv => !(kv.1 ∈ [Key.c, .fortran])) = false := by
    cases l with
    | nil => exact absurd rfl hne
    | cons kv l =>
      have := hlang kv (by simp)
      rw [List.all_cons, decide_eq_true this]
      rfl
  have h2 : (l.any fun kv => !(kv.1 ∈ [Key.c, .fortran])) = false := by
    rw [List.any_eq_false]
    intro kv hkv
    rw [decide_eq_true (hlang kv hkv)]
    decide
  simp only [check]
  rw [h1, h2]
  simp only [Bool.false_eq_true, if_false, List.all_eq_true]
  intro kv hkv
  obtain ⟨_, m, hm, ok⟩ := hl kv hkv
  rw [hm]
  obtain ⟨hdm, hdn⟩ := hd l rfl kv hkv m hm
  simp only [checkLang, Bool.and_eq_true, List.all_eq_true]
  refine ⟨⟨?_, paths_check ok.paths⟩, ?_⟩
  · rintro ⟨k, w⟩ hkw
    have hlk := mem_lookup hdm hkw
    dsimp only
    constructor
    · rw [Bool.or_eq_true]
      by_cases hk : k ∈ strKeys (kv.1 == .fortran)
      · right
        have : ∃ s, w = .str s := by
          simp only [strKeys, List.mem_append, List.mem_cons, List.not_mem_nil, or_false] at hk
          rcases hk with (rfl | rfl) | hk
          · obtain ⟨s, hs⟩ := ok.exec
            rw [hlk] at hs
            injection hs with hs
            exact ⟨s, hs⟩
          · exact ok.mpiExec w hlk
          · split at hk
            · next hf =>
              have : k = .moduleOutputFlag := by simpa using hk
              subst this
              exact ok.moduleFlag hf w hlk
            · cases hk
        obtain ⟨s, rfl⟩ := this
        rfl
      · left; simp [hk]
    · rw [Bool.or_eq_true]
      by_cases hk : k ∈ listKeys
      · right
        simp only [listKeys, List.mem_cons, List.not_mem_nil, or_false] at hk
        rcases hk with rfl | rfl | rfl | rfl | rfl
        · exact strings_isList (ok.flags _ (by simp) w hlk)
        · exact strings_isList (ok.flags _ (by simp) w hlk)
        · exact strings_isList (ok.flags _ (by simp) w hlk)
        · exact strings_isList (ok.flags _ (by simp) w hlk)
        · exact strings_isList (ok.paths.libs w hlk)
      · left; simp [hk]
  · rintro ⟨k, w⟩ hkw
    dsimp only
    rw [Bool.or_eq_true]
    by_cases hk : k ∈ [Key.mpi, .openmp, .openacc, .python]
    · right
      exact tool_check (fun n hn => hdn _ hkw n hn) (ok.tools k hk w (mem_lookup hdm hkw))
    · left; simp [hk]

/-- C198 (partial: the other direction, for the types of the keys that are checked, and paths that are written as lists; the
letters of a string are taken for a list).  In a configuration that is accepted, only C and Fortran are set, names of programs are strings, flags are
lists, and all folders, files and libraries of the languages and of the tools exist and have absolute paths. -/
theorem C198_accepted_partial {env : Env} {v : J} (h : check env v = true) :
    ∃ l, v = .obj l ∧ l ≠ [] ∧ ∀ kv ∈ l, (kv.1 = .c ∨ kv.1 = .fortran) ∧ ∃ m, kv.2 = .obj m ∧
      (∀ k ∈ [Key.exec, .mpiExec], ∀ w, lookup k m = some w → ∃ s, w = .str s) ∧
      (kv.1 = .fortran → ∀ w, lookup .moduleOutputFlag m = some w → ∃ s, w = .str s) ∧
      (∀ k ∈ [Key.debugFlags, .releaseFlags, .generalFlags, .standardFlags], ∀ w, lookup k m = some w → ∃ x, w = .list x) ∧
      (∀ k ∈ [Key.incl, .libdir, .dependencies], ∀ w, lookup k m = some w → Strings w (PathOk env) ∨
        (∃ s, w = .str s ∧ ∀ x ∈ env.chars s, PathOk env x) ∨ w = .obj []) ∧
      (∀ w, lookup .libs m = some w → Strings w fun s => env.bare s = true ∨ PathOk env s) ∧
      (∀ k ∈ [Key.mpi, .openmp, .openacc, .python], ∀ w, lookup k m = some w → ∃ n, w = .obj n ∧ PathsOk env n ∧
        (∀ x, lookup .flags n = some x → ∃ f, x = .list f ∧ ∀ y, f.head? = some y → ∃ s, y = .str s) ∧
        (k = .python → ∀ x, lookup .sharedSuffix n = some x → ∃ s, x = .str s)) := by
  cases v with
  | str => cases h
  | num => cases h
  | list => cases h
  | obj l =>
    simp only [check] at h
    split at h
    · cases h
    · next hne =>
      split at h
      · cases h
      · next hany =>
        refine ⟨l, rfl, ?_, ?_⟩
        · rintro rfl; exact hne rfl
        · intro kv hkv
          rw [List.all_eq_true] at h
          have hk := h kv hkv
          constructor
          · have hm : kv.1 ∈ [Key.c, .fortran] := by
              refine Decidable.byContradiction fun hc => hany (List.any_eq_true.2 ⟨kv, hkv, ?_⟩)
              rw [decide_eq_false hc]
              rfl
            simpa using hm
          · cases hv : kv.2 with
            | str => rw [hv] at hk; cases hk
            | num => rw [hv] at hk; cases hk
            | list => rw [hv] at hk; cases hk
            | obj m =>
              rw [hv] at hk
              simp only [checkLang, Bool.and_eq_true, List.all_eq_true] at hk
              obtain ⟨⟨ht, hp⟩, hc⟩ := hk
              have typed : ∀ k w, lookup k m = some w → k ∈ listKeys → isList w = true := by
                intro k w hw hkl
                have := (ht _ (lookup_mem hw)).2
                simpa [hkl] using this
              have aslist : ∀ w, isList w = true → ∃ x, w = .list x := by
                intro w hw
                cases w with
                | list x => exact ⟨x, rfl⟩
                | str => cases hw
                | num => cases hw
                | obj => cases hw
              simp only [checkPaths, Bool.and_eq_true] at hp
              obtain ⟨⟨⟨p1, p2⟩, p3⟩, p4⟩ := hp
              refine ⟨m, rfl, ?_, ?_, ?_, ?_, ?_, ?_⟩
              · intro k hk w hw
                have := (ht _ (lookup_mem hw)).1
                have hks : k ∈ strKeys (kv.1 == .fortran) := List.mem_append_left _ hk
                exact isStr_str (by simpa [hks] using this)
              · intro hf w hw
                have := (ht _ (lookup_mem hw)).1
                have hks : Key.moduleOutputFlag ∈ strKeys (kv.1 == .fortran) := by rw [hf]; decide
                exact isStr_str (by simpa [hks] using this)
              · intro k hkl w hw
                refine aslist w (typed k w hw ?_)
                simp only [List.mem_cons, List.not_mem_nil, or_false] at hkl
                rcases hkl with rfl | rfl | rfl | rfl <;> decide
              · intro k hkl w hw
                simp only [List.mem_cons, List.not_mem_nil, or_false] at hkl
                rcases hkl with rfl | rfl | rfl
                · exact checkItems_paths p1 hw
                · exact checkItems_paths p2 hw
                · exact checkItems_paths p4 hw
              · intro w hw
                exact checkItems_strings (fun _ => libOk_str) p3 hw (typed _ w hw (by decide))
              · intro k hkl w hw
                have h1 := hc _ (lookup_mem hw)
                simp only [Bool.or_eq_true, Bool.not_eq_true', decide_eq_false_iff_not] at h1
                have h1 := h1.resolve_left (fun hc => hc hkl)
                cases w with
                | str => cases h1
                | num => cases h1
                | list => cases h1
                | obj n =>
                  refine ⟨n, rfl, ?_, ?_, ?_⟩
                  rotate_left
                  · intro x hx
                    simp only [checkTool, List.all_eq_true, Bool.and_eq_true] at h1
                    have := (h1 _ (lookup_mem hx)).1
                    rw [if_pos (by decide : Key.flags ∈ toolKeys)] at this
                    cases x with
                    | str => cases this
                    | num => cases this
                    | obj => cases this
                    | list f =>
                      refine ⟨f, rfl, ?_⟩
                      cases f with
                      | nil => intro y hy; cases hy
                      | cons z f =>
                        intro y hy
                        injection hy with hy
                        subst hy
                        exact isStr_str this
                  · intro hp x hx
                    simp only [checkTool, List.all_eq_true, Bool.and_eq_true] at h1
                    have := (h1 _ (lookup_mem hx)).1
                    subst hp
                    exact isStr_str this
                  simp only [checkTool, List.all_eq_true, Bool.and_eq_true] at h1
                  have lst : ∀ k ∈ toolKeys, ∀ w, lookup k n = some w → isList w = true := by
                    intro k hk w hw
                    have := (h1 _ (lookup_mem hw)).1
                    rw [if_pos hk] at this
                    cases w with
                    | list => rfl
                    | str => cases this
                    | num => cases this
                    | obj => cases this
                  have pth : ∀ {k w}, lookup k n = some w → checkPaths env n = true := fun hw => (h1 _ (lookup_mem hw)).2
                  simp only [checkPaths, Bool.and_eq_true] at pth
                  exact ⟨fun w hw => checkItems_strings (fun _ => pathOk_str) (pth hw).1.1.1 hw (lst _ (by decide) w hw),
                    fun w hw => checkItems_strings (fun _ => pathOk_str) (pth hw).1.1.2 hw (lst _ (by decide) w hw),
                    fun w hw => checkItems_strings (fun _ => pathOk_str) (pth hw).2 hw (lst _ (by decide) w hw),
                    fun w hw => checkItems_strings (fun _ => libOk_str) (pth hw).1.2 hw (lst _ (by decide) w hw)⟩

/-! ### A concrete configuration -/

/-- String 0 is a folder that exists, string 1 is a name. -/
def env1 : Env := ⟨fun s => s == 0, fun s => s == 0, fun s => s == 1, fun _ => []⟩

def gnu : J := .obj [(.c, .obj [(.exec, .str 1), (.generalFlags, .list [.str 1]), (.libs, .list [.str 1]),
  (.openmp, .obj [(.flags, .list [.str 1]), (.incl, .list [.str 0])])])]

example : AllDistinct gnu := by
  intro l hl kv hkv m hm
  injection hl with hl
  subst hl
  simp only [List.mem_cons, List.not_mem_nil, or_false] at hkv
  subst hkv
  injection hm with hm
  subst hm
  refine ⟨by unfold Distinct; decide, ?_⟩
  intro kw hkw n hn
  simp only [List.mem_cons, List.not_mem_nil, or_false] at hkw
  rcases hkw with rfl | rfl | rfl | rfl
  · cases hn
  · cases hn
  · cases hn
  injection hn with hn
  subst hn
  unfold Distinct
  decide

example : check env1 gnu = true := by decide

/-- C198 fails: a configuration without a compiler (`{"c": {}}`) is accepted, but cannot be used. -/
theorem C198_exec_violated (env : Env) : check env (.obj [(.c, .obj [])]) = true ∧ ¬ Usable env (.obj [(.c, .obj [])]) := by
  refine ⟨by simp [check, checkLang, checkPaths, checkItems, lookup], ?_⟩
  rintro ⟨l, e, _, h⟩
  injection e with e
  subst e
  obtain ⟨_, m, hm, ok⟩ := h (.c, .obj []) (by simp)
  injection hm with hm
  subst hm
  obtain ⟨s, hs⟩ := ok.exec
  cases hs

/-- C198 fails: flags that are not strings are accepted (`"general_flags": [5]`). -/
theorem C198_flags_violated (env : Env) :
    check env (.obj [(.c, .obj [(.exec, .str 1), (.generalFlags, .list [.num])])]) = true ∧
      ¬ Usable env (.obj [(.c, .obj [(.exec, .str 1), (.generalFlags, .list [.num])])]) := by
  refine ⟨by simp [check, checkLang, checkPaths, checkItems, lookup, strKeys, listKeys, isStr, isList], ?_⟩
  rintro ⟨l, e, _, h⟩
  injection e with e
  subst e
  obtain ⟨_, m, hm, ok⟩ := h _ (List.mem_singleton.2 rfl)
  injection hm with hm
  subst hm
  obtain ⟨l', e, _⟩ := ok.flags .generalFlags (by simp) (.list [.num]) rfl
  injection e with e
  cases l' with
  | nil => cases e
  | cons s l' =>
    injection e with e _
    cases e

/-- C198 fails: of the flags of a tool only the first is looked at. -/
theorem C198_tool_violated (env : Env) :
    check env (.obj [(.c, .obj [(.exec, .str 1), (.openmp, .obj [(.flags, .list [.str 1, .num])])])]) = true ∧
      ¬ Usable env (.obj [(.c, .obj [(.exec, .str 1), (.openmp, .obj [(.flags, .list [.str 1, .num])])])]) := by
  refine ⟨by simp [check, checkLang, checkTool, toolKeys, listOfStr, checkPaths, checkItems, lookup, strKeys, listKeys, isStr], ?_⟩
  rintro ⟨l, e, _, h⟩
  injection e with e
  subst e
  obtain ⟨_, m, hm, ok⟩ := h _ (List.mem_singleton.2 rfl)
  injection hm with hm
  subst hm
  obtain ⟨n, e, _, hf, _⟩ := (ok.tools .openmp (by simp) (.obj [(.flags, .list [.str 1, .num])]) rfl).obj
  injection e with e
  subst e
  obtain ⟨l', e, _⟩ := hf (.list [.str 1, .num]) rfl
  injection e with e
  cases l' with
  | nil => cases e
  | cons s l' =>
    injection e with _ e
    cases l' with
    | nil => cases e
    | cons s l' =>
      injection e with e _
      cases e

/-- C198 fails: what `pyccel config export` writes for a registered family is never accepted, so that it cannot be
changed and registered under another name: the version that `register` has put in is taken for a language. -/
theorem C198_export_violated (env : Env) (version : Nat) (v : J) : check env (exported version v) = false := by
  cases v with
  | str => rfl
  | num => rfl
  | list => rfl
  | obj l =>
    simp only [exported, saved, check]
    split
    · rfl
    · rw [if_pos]
      rw [List.any_eq_true]
      exact ⟨(.pyccelVersion, .str version), by simp, rfl⟩

end Verif.ConfigCheck
