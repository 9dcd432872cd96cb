import Verif.CTypes.Lemmas

/-!
# C201: container types in C are declared before they are used, once, and under a name of their own
-/

namespace Verif.CTypes
open Spec Model

/-- Whatever types a program uses and in whatever order, and however the names are compared: if the file is printed, there are
names such that
* the printer calls the type of each Python type by its name, and only equal C types have equal names;
* every container that is used is declared;
* every declaration mentions only types that were declared (or whose header file was included) before;
* no name is declared twice. -/
theorem C201_declarations (cmp : Name → Name → Bool) (used : List PyType) (hu : ∀ t ∈ used, InPython t)
    (items : List (Item Name)) (h : fileHead cmp used = some items) :
    ∃ name : CType → Name,
      (∀ t s, (getC t s).2 = name (.val t)) ∧ (∀ T U, name T = name U ↔ Same T U) ∧
      (∀ t ∈ used, Known name items (.val t)) ∧ Ordered name items ∧ (declared items).Nodup := by
  obtain ⟨hi, hh⟩ := collect_spec used hu
  simp only [fileHead, Option.map_eq_some_iff] at h
  obtain ⟨ds, hds, rfl⟩ := h
  have hmem : ∀ x, x ∈ sort cmp (collect used).targets ↔ x ∈ (collect used).targets :=
    fun x => (sort_perm cmp _).mem_iff
  have hname : ∀ τ ∈ sort cmp (collect used).targets, τ.alias = nmC τ.type :=
    fun τ hτ => hi.name τ ((hmem τ).mp hτ)
  refine ⟨nmC, fun t s => getC_name t s, fun T U => ⟨nmC_inj, same_name⟩, ?_, ?_, ?_⟩
  · intro t ht
    rcases hh t ht with ⟨hB, t', e, h1⟩ | ⟨τ, hτ, _, h2⟩
    · exact .inl ⟨hB, t', e, fun h hh => by simp [h1 h hh]⟩
    · right
      have hsame : Same τ.type (.val t) := nmC_inj ((hi.name τ hτ).symm.trans h2)
      obtain ⟨i, hi', hpr⟩ := printAll_mem hds τ ((hmem τ).mpr hτ)
      obtain ⟨⟨k, hk1, hk2⟩, _⟩ := print_some (hi.name τ hτ) hpr
      exact ⟨i, by simp [hi'], k, (same_kind hsame).symm.trans hk1, by rw [hk2, same_name hsame, same_needs hsame]⟩
  · intro b i a e
    rw [List.append_eq_append_iff] at e
    rcases e with ⟨l, rfl, e⟩ | ⟨l, hl, e⟩
    · right
      rw [e] at hds
      obtain ⟨tb, τ, ta, h1, h2, h3⟩ := printAll_split hds
      have hτ : τ ∈ (collect used).targets := (hmem τ).mp (by rw [h1]; simp)
      obtain ⟨h4, h5⟩ := print_some (hi.name τ hτ) h3
      exact ⟨τ.type, h4, fun U hU => has_known hi cmp h1 h2 h5 hU⟩
    · cases l with
      | nil =>
        right
        simp only [List.nil_append] at e
        simp only [List.append_nil] at hl
        subst hl
        have hds' : printAll (collect used) (sort cmp (collect used).targets) = some ([] ++ i :: a) := by
          rw [hds, ← e]; rfl
        obtain ⟨tb, τ, ta, h1, h2, h3⟩ := printAll_split hds'
        have hτ : τ ∈ (collect used).targets := (hmem τ).mp (by rw [h1]; simp)
        obtain ⟨h4, h5⟩ := print_some (hi.name τ hτ) h3
        refine ⟨τ.type, h4, fun U hU => ?_⟩
        have := has_known hi cmp h1 h2 h5 hU
        simpa using this
      | cons x l =>
        left
        simp only [List.cons_append, List.cons.injEq] at e
        obtain ⟨rfl, _⟩ := e
        have : i ∈ (collect used).headers.map Item.incl := by rw [hl]; simp
        simp only [List.mem_map] at this
        obtain ⟨h, _, rfl⟩ := this
        exact ⟨h, rfl⟩
  · have hd : ∀ l : List Header, declared (l.map .incl ++ ds) = declared ds := by
      intro l
      induction l with
      | nil => rfl
      | cons x l ih => exact ih
    rw [hd, printAll_declared hname hds]
    exact ((sort_perm cmp _).map _).nodup_iff.mpr hi.nodup

/-- The file is printed for all programs whose lists, sets and dictionaries hold no arrays or tuples. -/
theorem C201_printed (cmp : Name → Name → Bool) (used : List PyType) (hs : ∀ t ∈ used, Supported t) :
    ∃ items, fileHead cmp used = some items := by
  have key := collect_direct used hs
  obtain ⟨is, h⟩ := printAll_isSome (s := collect used) (ts := sort cmp (collect used).targets)
    fun τ hτ => print_isSome (key τ ((sort_perm cmp _).mem_iff.mp hτ)).1 (key τ ((sort_perm cmp _).mem_iff.mp hτ)).2
  exact ⟨_, by simp [fileHead, h]; rfl⟩

/-- `list[dict[str, set[complex]]]`, used before `list[int]` and `float[:, :]`. -/
def demo : List PyType :=
  [.list (.dict .str (.set (.cplx .double))), .list (.num .int64), .array .double false 2 1]

example : (∀ t ∈ demo, InPython t) ∧ ∀ t ∈ demo, Supported t := by
  simp [demo, InPython, Supported, isHashable, isArray]

/-- `hset_double_complex`, `vec_int64_t`, `hset_double_complex_mem`, `array_double_2d`, `hmap_cstr_hset_double_complex_mem`,
the pointer to it and the list of these (with the number of words of the names). -/
example : (fileHead (fun _ _ => true) demo).map (fun l => (declared l).map List.length) = some [3, 2, 4, 3, 6, 7, 8] := by
  decide

end Verif.CTypes
