import Verif.Locate.Lemmas

/-!
# C199: the file of an import statement
-/

namespace Verif.Locate
open Spec Model

theorem locate_py {fs : Fs} {own : Path → Bool} {sys : List Path} {dir : Path} {dots : Nat} {names : List Nat} {p : Path}
    (h : locate fs own sys dir dots names = some (p, .py)) : stem fs sys dir dots names = some p ∧ fs.py p = true := by
  unfold locate at h
  split at h
  · cases h
  · next q hq =>
    split at h
    · injection h with h; injection h with _ h; cases h
    · split at h
      · next hp =>
        injection h with h; injection h with h _; subst h; exact ⟨hq, hp⟩
      · split at h
        · injection h with h; injection h with _ h; cases h
        · cases h

theorem py_locate {fs : Fs} {own : Path → Bool} {sys : List Path} {dir : Path} {dots : Nat} {names : List Nat} {p : Path}
    (ho : own p = false) (hs : stem fs sys dir dots names = some p) (hp : fs.py p = true) :
    locate fs own sys dir dots names = some (p, .py) := by
  unfold locate
  rw [hs]
  simp [ho, hp]

theorem pyFind_mod {fs : Fs} {path : List Path} {names : List Nat} {p : Path} :
    pyFind fs path names = some (p, false) ↔ pyImport fs path names = .mod p := by
  unfold pyFind
  cases pyImport fs path names <;> simp

/-- C199 (partial: imports with dots in front, if no folder has a module and a folder of the same name).  For
`from ..a.b import f` pyccel takes a Python file exactly if Python loads it.  (`own`: the stub files of pyccel itself.) -/
theorem C199_relative_partial {fs : Fs} {own : Path → Bool} {sys sys' : List Path} {dir : Path} {n : Nat}
    {names : List Nat} {p : Path} (t : Tidy fs) (hn : names ≠ []) (hd : n ≤ dir.length) (ho : own p = false) :
    locate fs own sys' dir (n + 1) names = some (p, .py) ↔ pyLoads fs sys dir (n + 1) names = some (p, false) := by
  have hst : stem fs sys' dir (n + 1) names = some (above n dir ++ names) := by
    simp only [stem]; rw [if_neg (by omega)]
  constructor
  · intro h
    obtain ⟨h1, h2⟩ := locate_py h
    rw [hst] at h1
    injection h1 with h1
    subst h1
    exact pyFind_mod.2 (import_tidy t hn h2)
  · intro h
    obtain ⟨d, hd', rfl, h2, _⟩ := import_mod (pyFind_mod.1 h)
    rw [List.mem_singleton] at hd'
    subst hd'
    exact py_locate ho hst h2

/-- C199 (partial: files in the folder of the script, which is the first of `sys.path`, and in packages with `__init__.py`
below it).  For `from a.b import f` pyccel takes the file that Python loads. -/
theorem C199_script_partial {fs : Fs} {own : Path → Bool} {sys' rest : List Path} {dir : Path} {names : List Nat}
    {p : Path} (t : Tidy fs) (hP : Packages fs dir names) (hn : names ≠ []) (hf : fs.py (dir ++ names) = true)
    (ho : own (dir ++ names) = false) :
    locate fs own sys' dir 0 names = some (p, .py) ↔ pyLoads fs (dir :: rest) dir 0 names = some (p, false) := by
  have hst : stem fs sys' dir 0 names = some (dir ++ names) := by
    simp only [stem, hf, if_true]
    split <;> rfl
  have hi : fs.init (dir ++ names) = false := by
    cases hi : fs.init (dir ++ names) with
    | false => rfl
    | true => have := t.init _ hi; rw [t.one _ hf] at this; cases this
  have h1 : locate fs own sys' dir 0 names = some (dir ++ names, .py) := py_locate ho hst hf
  have h2 : pyLoads fs (dir :: rest) dir 0 names = some (dir ++ names, false) :=
    pyFind_mod.2 (import_packages hn hf hi hP)
  rw [h1, h2]
  simp

/-- C199 (partial: modules in packages that are installed, and are not in the folder of the file, if pyccel has the same
`sys.path` as the program).  pyccel takes the file that Python loads. -/
theorem C199_installed_partial {fs : Fs} {own : Path → Bool} {sys : List Path} {dir : Path} {names : List Nat} {p : Path}
    (hn : 2 ≤ names.length) (hf : fs.py (dir ++ names) = false) (ho : own p = false)
    (h : pyLoads fs sys dir 0 names = some (p, false)) : locate fs own sys dir 0 names = some (p, .py) := by
  have h := pyFind_mod.1 h
  obtain ⟨d, _, e, hp, _⟩ := import_mod h
  refine py_locate ho ?_ hp
  have hne : names ≠ [] := by rintro rfl; simp at hn
  obtain ⟨k, hk⟩ : ∃ k, names.length = k + 1 := ⟨names.length - 1, by omega⟩
  have hpk : package fs sys names names.length = .mod p := by
    conv => lhs; rw [hk]
    simp only [package]
    rw [← hk, List.take_length, h]
  simp only [stem]
  rw [if_neg (by omega), if_neg (by rw [hf]; decide), hpk]
  dsimp only
  rw [e]
  congr 1
  have hl : names.getLastD 0 = names.getLast hne := by
    rw [List.getLastD_eq_getLast?, List.getLast?_eq_getLast hne]; rfl
  rw [hl, List.dropLast_append_of_ne_nil hne, List.append_assoc, List.dropLast_concat_getLast]

/-! ### Concrete file systems -/

/-- Files, packages and other folders. -/
def fsOf (py init folders : List Path) : Fs :=
  ⟨fun p => py.contains p, fun _ => false, fun p => init.contains p || folders.contains p, fun p => init.contains p⟩

/-- The folder 0 of the script has a package 1 with a module 2, and the package 1 has a package 3 with a module 4. -/
def fs1 : Fs := fsOf [[0, 1, 2], [0, 1, 3, 4]] [[0, 1], [0, 1, 3]] [[], [0]]

theorem fs1_tidy : Tidy fs1 := by
  have mem : ∀ {l : List Path} {q : Path → Bool}, (∀ p ∈ l, q p = true) → ∀ p, l.contains p = true → q p = true :=
    fun h p hp => h p (by simpa using hp)
  refine ⟨?_, ?_, ?_, ?_⟩
  · intro p h
    have := mem (q := fun p => !fs1.folder p) (by decide) p h
    simpa using this
  · exact mem (by decide)
  · exact mem (q := fun p => fs1.folder p.dropLast) (by decide)
  · intro p h
    have h : ([[0, 1], [0, 1, 3]].contains p || [[], [0]].contains p) = true := h
    rw [Bool.or_eq_true] at h
    rcases h with h | h
    · exact mem (q := fun p => fs1.folder p.dropLast) (by decide) p h
    · exact mem (q := fun p => fs1.folder p.dropLast) (by decide) p h

/-- `from ..3.4 import f` in a file of the folder `0/1/3`, with the folder of pyccel elsewhere. -/
example : Tidy fs1 ∧ 1 ≤ [0, 1, 3].length ∧
    locate fs1 (fun _ => false) [] [0, 1, 3] 2 [3, 4] = some ([0, 1, 3, 4], .py) := ⟨fs1_tidy, by decide, by decide⟩

example : Tidy fs1 ∧ Packages fs1 [0] [1, 3, 4] ∧ fs1.py ([0] ++ [1, 3, 4]) = true := by
  refine ⟨fs1_tidy, ?_, by decide⟩
  intro a b h ha hb
  rcases a with _ | ⟨x, _ | ⟨y, _ | ⟨z, a⟩⟩⟩
  · exact absurd rfl ha
  · simp only [List.cons_append, List.cons.injEq] at h
    rw [← h.1]; decide
  · simp only [List.cons_append, List.cons.injEq] at h
    rw [← h.1, ← h.2.1]; decide
  · simp only [List.cons_append, List.cons.injEq] at h
    obtain ⟨_, _, _, h⟩ := h
    exact absurd (List.append_eq_nil_iff.1 h.symm).2 hb

example : pyLoads fs1 [[7], [0]] [5] 0 [1, 3, 4] = some ([0, 1, 3, 4], false) ∧ fs1.py ([5] ++ [1, 3, 4]) = false := by
  decide

/-! ### Where pyccel takes another file -/

/-- C199 fails: the package 1 has a module 5, and there is a module 5 in the folder of the script.  In a file of the
package, `from 5 import f` means the second for Python, and the first for pyccel. -/
theorem C199_sibling_violated :
    let fs := fsOf [[0, 5], [0, 1, 5]] [[0, 1]] [[], [0]]
    pyLoads fs [[0]] [0, 1] 0 [5] = some ([0, 5], false) ∧
      locate fs (fun _ => false) [[0]] [0, 1] 0 [5] = some ([0, 1, 5], .py) := by decide

/-- C199 fails: `from 1.2 import f`, where `1.2` is an installed package with a module `1.2.2`: Python loads the package,
pyccel the module. -/
theorem C199_package_violated :
    let fs := fsOf [[9, 1, 2, 2]] [[9, 1], [9, 1, 2]] [[], [9], [0]]
    pyLoads fs [[9]] [0] 0 [1, 2] = some ([9, 1, 2], true) ∧
      locate fs (fun _ => false) [[9]] [0] 0 [1, 2] = some ([9, 1, 2, 2], .py) := by decide

/-- C199 fails: `from 1.2.3 import f`, where the installed package 1 has a module 3, but no package 2: Python raises an
exception, pyccel takes `1.3`. -/
theorem C199_skip_violated :
    let fs := fsOf [[9, 1, 3]] [[9, 1]] [[], [9], [0]]
    pyLoads fs [[9]] [0] 0 [1, 2, 3] = none ∧
      locate fs (fun _ => false) [[9]] [0] 0 [1, 2, 3] = some ([9, 1, 3], .py) := by decide

/-- C199 fails: a package and a module of the same name: Python loads the package, pyccel the module. -/
theorem C199_clash_violated :
    let fs := fsOf [[0, 1]] [[0, 1]] [[], [0]]
    pyLoads fs [[0]] [0] 1 [1] = some ([0, 1], true) ∧
      locate fs (fun _ => false) [[0]] [0] 1 [1] = some ([0, 1], .py) := by decide

/-- C199 fails: the folder 1 next to the script has no `__init__.py`, and an installed package has the same name: Python
loads the module of the installed package, pyccel that of the folder. -/
theorem C199_space_violated :
    let fs := fsOf [[0, 1, 2], [9, 1, 2]] [[9, 1]] [[], [9], [0], [0, 1]]
    pyLoads fs [[0], [9]] [0] 0 [1, 2] = some ([9, 1, 2], false) ∧
      locate fs (fun _ => false) [[0], [9]] [0] 0 [1, 2] = some ([0, 1, 2], .py) := by decide

/-- C199 fails: a package next to the script is not found (Python loads its `__init__.py`). -/
theorem C199_init_violated :
    let fs := fsOf [] [[0, 1]] [[], [0]]
    pyLoads fs [[0]] [0] 0 [1] = some ([0, 1], true) ∧
      locate fs (fun _ => false) [[0]] [0] 0 [1] = none := by decide

end Verif.Locate
