import Verif.Locate.Model

/-!
# Lemmas
-/

namespace Verif.Locate
open Spec Model

theorem step_first {fs : Fs} {d : Path} {x : Nat} (rest : List Path)
    (h : (fs.init (d ++ [x]) || fs.py (d ++ [x])) = true) :
    step fs (d :: rest) x = if fs.init (d ++ [x]) then .pkg (d ++ [x]) else .mod (d ++ [x]) := by
  unfold step
  rw [List.find?_cons_of_pos (p := fun d => fs.init (d ++ [x]) || fs.py (d ++ [x])) h]

theorem step_one {fs : Fs} {d : Path} {x : Nat} (h : (fs.init (d ++ [x]) || fs.py (d ++ [x])) = false) :
    step fs [d] x = if fs.folder (d ++ [x]) then .space [d ++ [x]] else .no := by
  unfold step
  rw [List.find?_cons_of_neg (by rw [h]; decide), List.find?_nil]
  cases hf : fs.folder (d ++ [x]) <;> simp [hf]

/-- What the search gives is in one of the folders. -/
theorem step_mod {fs : Fs} {path : List Path} {x : Nat} {p : Path} (h : step fs path x = .mod p) :
    ∃ d ∈ path, p = d ++ [x] ∧ fs.py p = true ∧ fs.init p = false := by
  unfold step at h
  split at h
  · next d hd =>
    have h1 := List.find?_some hd
    have h2 := List.mem_of_find?_eq_some hd
    split at h
    · cases h
    · next hi =>
      injection h with h
      subst h
      have hi : fs.init (d ++ [x]) = false := by simpa using hi
      rw [hi, Bool.false_or] at h1
      exact ⟨d, h2, rfl, h1, hi⟩
  · split at h <;> cases h

theorem step_pkg {fs : Fs} {path : List Path} {x : Nat} {p : Path} (h : step fs path x = .pkg p) :
    ∃ d ∈ path, p = d ++ [x] := by
  unfold step at h
  split at h
  · next d hd =>
    split at h
    · injection h with h; exact ⟨d, List.mem_of_find?_eq_some hd, h.symm⟩
    · cases h
  · split at h <;> cases h

theorem step_space {fs : Fs} {path : List Path} {x : Nat} {ps : List Path} (h : step fs path x = .space ps) :
    ∀ p ∈ ps, ∃ d ∈ path, p = d ++ [x] := by
  unfold step at h
  split at h
  · split at h <;> cases h
  · split at h
    · cases h
    · injection h with h
      subst h
      intro p hp
      obtain ⟨d, hd, rfl⟩ := List.mem_map.1 hp
      exact ⟨d, (List.mem_filter.1 hd).1, rfl⟩

/-- A module that is found is a file below one of the folders. -/
theorem import_mod {fs : Fs} : ∀ {names : List Nat} {path : List Path} {p : Path},
    pyImport fs path names = .mod p → ∃ d ∈ path, p = d ++ names ∧ fs.py p = true ∧ fs.init p = false
  | [], _, _, h => by cases h
  | [x], path, p, h => step_mod h
  | x :: y :: xs, path, p, h => by
    simp only [pyImport] at h
    split at h
    · next q hq =>
      obtain ⟨d, hd, rfl, h'⟩ := import_mod h
      obtain ⟨e, he, rfl⟩ := step_pkg hq
      rw [List.mem_singleton] at hd
      subst hd
      exact ⟨e, he, by simp, h'⟩
    · next ps hq =>
      obtain ⟨d, hd, rfl, h'⟩ := import_mod h
      obtain ⟨e, he, rfl⟩ := step_space hq d hd
      exact ⟨e, he, by simp, h'⟩
    · cases h

theorem folder_of_py {fs : Fs} (t : Tidy fs) : ∀ (b : List Nat) (a : Path), b ≠ [] → fs.py (a ++ b) = true →
    fs.folder a = true := by
  have up : ∀ (b : List Nat) (a : Path), fs.folder (a ++ b) = true → fs.folder a = true := by
    intro b
    induction b with
    | nil => intro a h; simpa using h
    | cons x b ih =>
      intro a h
      have : a ++ x :: b = (a ++ [x]) ++ b := by simp
      rw [this] at h
      have h' := t.up _ (ih _ h)
      rwa [List.dropLast_concat] at h'
  intro b a hb h
  have e : b = b.dropLast ++ [b.getLast hb] := (List.dropLast_concat_getLast hb).symm
  rw [e, ← List.append_assoc] at h
  have h' := t.inside _ h
  rw [List.dropLast_concat] at h'
  exact up b.dropLast a h'

/-- In a tidy file system, a module file below a folder is found from this folder. -/
theorem import_tidy {fs : Fs} (t : Tidy fs) : ∀ {names : List Nat} {d : Path}, names ≠ [] → fs.py (d ++ names) = true →
    pyImport fs [d] names = .mod (d ++ names)
  | [], _, h, _ => absurd rfl h
  | [x], d, _, h => by
    have hi : fs.init (d ++ [x]) = false := by
      cases hi : fs.init (d ++ [x]) with
      | false => rfl
      | true => have := t.init _ hi; rw [t.one _ h] at this; cases this
    simp only [pyImport]
    rw [step_first [] (by simp [h]), hi]
    rfl
  | x :: y :: xs, d, _, h => by
    have e : d ++ x :: y :: xs = (d ++ [x]) ++ (y :: xs) := by simp
    rw [e] at h ⊢
    have hf := folder_of_py t (y :: xs) (d ++ [x]) (by simp) h
    have hp : fs.py (d ++ [x]) = false := by
      cases hp : fs.py (d ++ [x]) with
      | false => rfl
      | true => rw [t.one _ hp] at hf; cases hf
    simp only [pyImport]
    cases hi : fs.init (d ++ [x]) with
    | true =>
      rw [step_first [] (by simp [hi]), hi]
      exact import_tidy t (by simp) h
    | false =>
      rw [step_one (by simp [hi, hp]), hf]
      exact import_tidy t (by simp) h

/-- Behind packages with `__init__.py` in the first folder, other folders do not matter. -/
theorem import_packages {fs : Fs} : ∀ {names : List Nat} {d : Path} {rest : List Path}, names ≠ [] →
    fs.py (d ++ names) = true → fs.init (d ++ names) = false → Packages fs d names →
    pyImport fs (d :: rest) names = .mod (d ++ names)
  | [], _, _, h, _, _, _ => absurd rfl h
  | [x], d, rest, _, h, hi, _ => by
    simp only [pyImport]
    rw [step_first rest (by simp [h]), hi]
    rfl
  | x :: y :: xs, d, rest, _, h, hi, hP => by
    have e : d ++ x :: y :: xs = (d ++ [x]) ++ (y :: xs) := by simp
    rw [e] at h hi ⊢
    have hx : fs.init (d ++ [x]) = true := hP [x] (y :: xs) rfl (by simp) (by simp)
    simp only [pyImport]
    rw [step_first rest (by simp [hx]), hx]
    refine import_packages (by simp) h hi ?_
    intro a b hab ha hb
    have := hP (x :: a) b (by rw [hab]; rfl) (by simp) hb
    simpa using this

end Verif.Locate
