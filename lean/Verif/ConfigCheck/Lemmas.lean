import Verif.ConfigCheck.Model

/-!
# Lemmas
-/

namespace Verif.ConfigCheck
open Spec Model

theorem lookup_mem : ∀ {l : List (Key × J)} {k : Key} {v : J}, lookup k l = some v → (k, v) ∈ l
  | (k', v') :: l, k, v, h => by
    unfold lookup at h
    split at h
    · next e => injection h with h; subst e; subst h; simp
    · exact List.mem_cons_of_mem _ (lookup_mem h)

theorem mem_lookup : ∀ {l : List (Key × J)} {k : Key} {v : J}, Distinct l → (k, v) ∈ l → lookup k l = some v
  | (k', v') :: l, k, v, hd, h => by
    unfold Distinct at hd
    rw [List.map_cons, List.nodup_cons] at hd
    rcases List.mem_cons.1 h with h | h
    · injection h with h1 h2; subst h1; subst h2; simp [lookup]
    · have : k' ≠ k := fun e => hd.1 (List.mem_map.2 ⟨(k, v), h, e.symm⟩)
      simp only [lookup, if_neg this]
      exact mem_lookup hd.2 h

theorem strings_of_all {p : J → Bool} {P : Nat → Prop} (hp : ∀ v, p v = true → ∃ s, v = .str s ∧ P s) :
    ∀ {l : List J}, l.all p = true → Strings (.list l) P
  | [], _ => ⟨[], rfl, by simp⟩
  | v :: l, h => by
    rw [List.all_cons, Bool.and_eq_true] at h
    obtain ⟨s, rfl, hs⟩ := hp v h.1
    obtain ⟨l', e, h'⟩ := strings_of_all hp h.2
    injection e with e
    subst e
    exact ⟨s :: l', rfl, by simpa using ⟨hs, h'⟩⟩

theorem pathOk_str {env : Env} {v : J} (h : pathOk env v = true) : ∃ s, v = .str s ∧ PathOk env s := by
  cases v with
  | str s => exact ⟨s, rfl, by simpa [pathOk, PathOk] using h⟩
  | num => cases h
  | list => cases h
  | obj => cases h

theorem libOk_str {env : Env} {v : J} (h : libOk env v = true) :
    ∃ s, v = .str s ∧ (env.bare s = true ∨ PathOk env s) := by
  cases v with
  | str s => exact ⟨s, rfl, by simpa [libOk, PathOk] using h⟩
  | num => cases h
  | list => cases h
  | obj => cases h

theorem checkItems_strings {env : Env} {p : J → Bool} {P : Nat → Prop}
    (hp : ∀ v, p v = true → ∃ s, v = .str s ∧ P s) {o : Option J} (h : checkItems env p o = true) {v : J}
    (hv : o = some v) (hl : isList v = true) : Strings v P := by
  subst hv
  cases v with
  | list l => exact strings_of_all hp h
  | str => cases hl
  | num => cases hl
  | obj => cases hl

theorem checkItems_paths {env : Env} {o : Option J} (h : checkItems env (pathOk env) o = true) {v : J} (hv : o = some v) :
    Strings v (PathOk env) ∨ (∃ s, v = .str s ∧ ∀ x ∈ env.chars s, PathOk env x) ∨ v = .obj [] := by
  cases v with
  | list l => exact .inl (checkItems_strings (fun _ => pathOk_str) h hv rfl)
  | str s =>
    subst hv
    refine .inr (.inl ⟨s, rfl, ?_⟩)
    simp only [checkItems, items, List.all_map, List.all_eq_true, Function.comp] at h
    intro x hx
    simpa [pathOk, PathOk] using h x hx
  | num => subst hv; cases h
  | obj l =>
    cases l with
    | nil => exact .inr (.inr rfl)
    | cons _ _ => subst hv; cases h

theorem strings_checkItems {env : Env} {p : J → Bool} {P : Nat → Prop} (hp : ∀ s, P s → p (.str s) = true)
    {o : Option J} (h : ∀ v, o = some v → Strings v P) : checkItems env p o = true := by
  cases o with
  | none => rfl
  | some v =>
    obtain ⟨l, rfl, hl⟩ := h v rfl
    simp only [checkItems, items, List.all_map, List.all_eq_true, Function.comp]
    exact fun s hs => hp s (hl s hs)

theorem paths_check {env : Env} {l : List (Key × J)} (h : PathsOk env l) : checkPaths env l = true := by
  have hp : ∀ s, PathOk env s → pathOk env (.str s) = true := fun s hs => by simpa [pathOk, PathOk] using hs
  simp only [checkPaths, Bool.and_eq_true]
  refine ⟨⟨⟨strings_checkItems hp h.incl, strings_checkItems hp h.libdir⟩, strings_checkItems ?_ h.libs⟩,
    strings_checkItems hp h.dependencies⟩
  intro s hs
  simpa [libOk, PathOk] using hs

theorem strings_isList {v : J} {P : Nat → Prop} : Strings v P → isList v = true := by
  rintro ⟨l, rfl, _⟩; rfl

theorem strings_listOfStr {v : J} {P : Nat → Prop} : Strings v P → listOfStr v = true := by
  rintro ⟨l, rfl, _⟩; cases l <;> rfl

theorem tool_check {env : Env} {v : J} {python : Bool} (hd : ∀ l, v = .obj l → Distinct l) (h : ToolOk env v python) :
    checkTool env python v = true := by
  obtain ⟨l, rfl, hp, hf, hs⟩ := h.obj
  simp only [checkTool, List.all_eq_true, Bool.and_eq_true]
  rintro ⟨k, w⟩ hkw
  have hl := mem_lookup (hd l rfl) hkw
  refine ⟨?_, paths_check hp⟩
  dsimp only
  split
  · next hk =>
    simp only [toolKeys, List.mem_cons, List.not_mem_nil, or_false] at hk
    rcases hk with rfl | rfl | rfl | rfl | rfl
    · exact strings_listOfStr (hf w hl)
    · exact strings_listOfStr (hp.libs w hl)
    · exact strings_listOfStr (hp.libdir w hl)
    · exact strings_listOfStr (hp.incl w hl)
    · exact strings_listOfStr (hp.dependencies w hl)
  · split
    · next hk =>
      simp only [Bool.and_eq_true, beq_iff_eq] at hk
      obtain ⟨rfl, rfl⟩ := hk
      obtain ⟨s, rfl⟩ := hs rfl w hl
      rfl
    · rfl

theorem isStr_str {v : J} (h : isStr v = true) : ∃ s, v = .str s := by
  cases v with
  | str s => exact ⟨s, rfl⟩
  | num => cases h
  | list => cases h
  | obj => cases h

end Verif.ConfigCheck
