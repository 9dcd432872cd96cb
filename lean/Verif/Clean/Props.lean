import Verif.Clean.Lemmas3

/-!
# Properties C138-C140
-/

namespace Verif.Clean

open Verif.Clean.Spec

/-! ## A file system for the examples -/

/-- `__pyccel__`, `a.py`, `lib.so`, `run`, `x.pyccel`, `__pyccel__gw0`. -/
def nPy : Name := ['a', '.', 'p', 'y']
@[inherit_doc nPy] def nLib : Name := ['l', 'i', 'b', '.', 's', 'o']
@[inherit_doc nPy] def nRun : Name := ['r', 'u', 'n']
@[inherit_doc nPy] def nDot : Name := 'x' :: dotPyccel
@[inherit_doc nPy] def nGen : Name := pyccel ++ ['g', 'w', '0']
@[inherit_doc nPy] def nSub : Name := ['s', 'u', 'b']
@[inherit_doc nPy] def nHome : Name := ['h']
@[inherit_doc nPy] def so : Name := ['.', 's', 'o']

/-- A folder `h` with a source, a library, a program, a file of pyccel, a folder of pyccel, and a
folder with another source and another folder of pyccel. -/
def disk : Node :=
  .dir [(nHome, .dir [(nPy, .file false 1), (nLib, .file false 2), (nRun, .file true 3),
    (nDot, .file false 4), (nGen, .dir [(nPy, .file false 5)]),
    (nSub, .dir [(nPy, .file false 6), (pyccel, .dir [])])])]

/-! ## C138 -/

/-- A call of `pyccel clean`, however it ends, leaves every file, link and folder as it was except for
what the user asked to remove: the folders that pyccel makes, the files `.pyccel`, with `-s` the
libraries, with `-p` the programs.  It needs `-p` not to be used together with `-n`. -/
theorem C138_kept_partial (o : Opts) (ho : o.recursive = true ∨ o.programs = false) (k : Nat) (r : Node)
    (p : Path) (r' : Node) (h : (clean o k r p).after = some r') (q : Path) (n : Node)
    (hq : look r q = some n) (ha : ¬Asked o r q) : ∃ n', look r' q = some n' ∧ Same n' n :=
  (clean_rel (Kept o) (kept_refl o) (fun _ _ _ => kept_trans) o
    (fun r p d f n h1 h2 h3 => erase_kept o ho r p d f n h1 h2 h3) k r p r' h).2 q n hq ha

/-- The same for a list of folders. -/
theorem C138_all_partial (o : Opts) (ho : o.recursive = true ∨ o.programs = false) (k : Nat)
    (ps : List Path) (r r' : Node) (h : (cleanAll o k ps r).after = some r') (q : Path) (n : Node)
    (hq : look r q = some n) (ha : ¬Asked o r q) : ∃ n', look r' q = some n' ∧ Same n' n := by
  have key : ∀ (ps : List Path) (r : Node), (cleanAll o k ps r).after = some r' → Kept o r r' := by
    intro ps
    induction ps with
    | nil =>
      intro r h
      simp only [cleanAll, Res.after, Option.some.injEq] at h
      exact h ▸ kept_refl o r
    | cons p ps ih =>
      intro r h
      have one := clean_rel (Kept o) (kept_refl o) (fun _ _ _ => kept_trans) o
        (fun r p d f n h1 h2 h3 => erase_kept o ho r p d f n h1 h2 h3) k r p
      simp only [cleanAll] at h
      cases hc : clean o k r p with
      | ok r1 =>
        rw [hc] at h one
        exact kept_trans (one r1 rfl) (ih r1 h)
      | fail r1 =>
        rw [hc] at h one
        exact one r' h
      | fuel => simp [hc, Res.after] at h
  exact (key ps r h).2 q n hq ha

/-- Nothing new appears: whatever is there after the call was there before. -/
theorem C138_nothing_new (o : Opts) (k : Nat) (r : Node) (p : Path) (r' : Node)
    (h : (clean o k r p).after = some r') (q : Path) (n' : Node) (hq : look r' q = some n') :
    ∃ n, look r q = some n ∧ Same n' n :=
  clean_shrink o k r p r' h q n' hq

/-- The two sources of the example are no folders of pyccel and no such files. -/
example : ¬Asked { ext := so } disk [nHome, nSub, nPy] := by
  rintro (⟨f, hf, h⟩ | ⟨d, f, h1, h2 | h2 | h2⟩)
  · simp only [List.mem_cons, List.not_mem_nil, or_false] at hf
    rcases hf with rfl | rfl | rfl <;> rcases h with h | h <;> revert h <;> decide
  · have : [nHome, nSub] ++ [nPy] = d ++ [f] := h1
    obtain ⟨rfl, h3⟩ := List.append_inj' this rfl
    simp only [List.cons.injEq, and_true] at h3
    subst h3
    revert h2; decide
  · simp at h2
  · simp at h2

/-- The example after `pyccel clean`: the two folders and the file of pyccel are gone. -/
example : clean { ext := so } 9 disk [nHome] =
    .ok (.dir [(nHome, .dir [(nPy, .file false 1), (nLib, .file false 2), (nRun, .file true 3),
      (nSub, .dir [(nPy, .file false 6)])])]) := by rfl

/-- The example after `pyccel clean -s -p`. -/
example : clean { libs := true, programs := true, ext := so } 9 disk [nHome] =
    .ok (.dir [(nHome, .dir [(nPy, .file false 1), (nSub, .dir [(nPy, .file false 6)])])]) := by rfl

/-- C138 fails: `pyccel clean -n -p` removes symbolic links to folders, which are no programs: for
`os.access` a folder counts as something that can be executed. -/
theorem C138_violated_link :
    let o : Opts := { recursive := false, programs := true, ext := so }
    let r : Node := .dir [(nHome, .dir [(nSub, .link [nLib])]), (nLib, .dir [])]
    (∃ r', clean o 1 r [nHome] = .ok r' ∧ look r' [nHome, nSub] = none) ∧
      look r [nHome, nSub] = some (.link [nLib]) ∧ ¬Asked o r [nHome, nSub] := by
  refine ⟨⟨_, rfl, rfl⟩, rfl, ?_⟩
  rintro (⟨f, hf, h⟩ | ⟨d, f, h1, h2 | h2 | ⟨_, data, h2⟩⟩)
  · simp only [List.mem_cons, List.not_mem_nil, or_false] at hf
    rcases hf with rfl | rfl <;> rcases h with h | h <;> revert h <;> decide
  · have : [nHome] ++ [nSub] = d ++ [f] := h1
    obtain ⟨rfl, h3⟩ := List.append_inj' this rfl
    simp only [List.cons.injEq, and_true] at h3
    subst h3
    revert h2; decide
  · simp at h2
  · have : follow (.dir [(nHome, .dir [(nSub, .link [nLib])]), (nLib, .dir [])]) [nHome, nSub] =
        some (.dir []) := rfl
    rw [this] at h2
    simp at h2

/-! ## C139 -/

/-- A call of `pyccel clean` changes nothing outside the folder (whose path without links is `d`)
if there are no symbolic links in the folder. -/
theorem C139_outside_partial (o : Opts) (k : Nat) (r : Node) (p d : Path) (r' : Node)
    (hp : walk r limit p = some d) (hn : NoLinks r d) (h : (clean o k r p).after = some r') (q : Path)
    (n : Node) (hq : look r q = some n) (hout : ∀ f, ¬(d ++ [f]) <+: q) :
    ∃ n', look r' q = some n' ∧ Same n' n :=
  clean_out o k r p d r' hp hn h q n hq hout

/-- Without recursion nothing below the folders in the folder changes, but for the folders of pyccel. -/
theorem C139_flat (o : Opts) (ho : o.recursive = false) (k : Nat) (r : Node) (p d : Path) (r' : Node)
    (hp : walk r limit p = some d) (h : (clean o k r p).after = some r') (q : Path)
    (n : Node) (hq : look r q = some n)
    (hout : ∀ f, q ≠ d ++ [f] ∧ (Generated f → ¬(d ++ [f]) <+: q)) :
    ∃ n', look r' q = some n' ∧ Same n' n := by
  have hrem : ∀ r f r', walk r limit p = none ∨ walk r limit p = some d →
      (remove r p f).after = some r' → ∀ n, look r q = some n → ∃ n', look r' q = some n' ∧ Same n' n := by
    intro r f r' hw e n hq
    unfold remove at e
    rcases hw with hw | hw
    · simp only [hw, Res.after, Option.some.injEq] at e
      exact e ▸ ⟨n, hq, same_refl n⟩
    · simp only [hw] at e
      cases hl : look r (d ++ [f]) with
      | none => simp only [hl, Res.after, Option.some.injEq] at e; exact e ▸ ⟨n, hq, same_refl n⟩
      | some m =>
        have keep : (∀ es, m ≠ .dir es) → ∃ n', look (erase r d f) q = some n' ∧ Same n' n := by
          intro hm
          refine look_erase_keep d f r q n hq fun hp => (hout f).1 ?_
          exact prefix_leaf hl hm hq hp
        cases m with
        | dir es => simp only [hl, Res.after, Option.some.injEq] at e; exact e ▸ ⟨n, hq, same_refl n⟩
        | file a b => simp only [hl, Res.after, Option.some.injEq] at e; exact e ▸ keep (by simp)
        | other => simp only [hl, Res.after, Option.some.injEq] at e; exact e ▸ keep (by simp)
        | link t => simp only [hl, Res.after, Option.some.injEq] at e; exact e ▸ keep (by simp)
  have hone : ∀ rec f r r', walk r limit p = none ∨ walk r limit p = some d →
      (one rec o p f r).after = some r' → ∀ n, look r q = some n → ∃ n', look r' q = some n' ∧ Same n' n := by
    intro rec f r r' hw e n hq
    unfold one at e
    simp only [ho, Bool.and_false, Bool.false_eq_true, if_false] at e
    split at e
    · rename_i hg
      simp only [Res.after, Option.some.injEq] at e
      subst e
      unfold rmtree
      rcases hw with hw | hw
      · simp only [hw]; exact ⟨n, hq, same_refl n⟩
      · simp only [hw]
        cases hl : look r (d ++ [f]) with
        | none => exact ⟨n, hq, same_refl n⟩
        | some m =>
          cases m with
          | dir es => exact look_erase_keep d f r q n hq ((hout f).2 ((generated_iff f).1 hg))
          | file a b => exact ⟨n, hq, same_refl n⟩
          | other => exact ⟨n, hq, same_refl n⟩
          | link t => exact ⟨n, hq, same_refl n⟩
    · split at e
      · exact hrem r f r' hw e n hq
      · split at e
        · exact hrem r f r' hw e n hq
        · split at e
          · exact hrem r f r' hw e n hq
          · simp only [Res.after, Option.some.injEq] at e
            exact e ▸ ⟨n, hq, same_refl n⟩
  have hloop : ∀ k (fs : List Name) r r', walk r limit p = none ∨ walk r limit p = some d →
      (loop (clean o k) o p fs r).after = some r' → ∀ n, look r q = some n →
      ∃ n', look r' q = some n' ∧ Same n' n := by
    intro k fs
    induction fs with
    | nil =>
      intro r r' _ e n hq
      simp only [loop, Res.after, Option.some.injEq] at e
      exact e ▸ ⟨n, hq, same_refl n⟩
    | cons f fs ih =>
      intro r r' hw e n hq
      simp only [loop] at e
      have h1 := hone (clean o k) f r
      cases hh : one (clean o k) o p f r with
      | ok r1 =>
        rw [hh] at e h1
        obtain ⟨n1, hn1, s1⟩ := h1 r1 hw rfl n hq
        have hs := clean_one_shrink o k r p f r1 (by rw [hh]; rfl)
        have hw1 : walk r1 limit p = none ∨ walk r1 limit p = some d := by
          cases hx : walk r1 limit p with
          | none => exact Or.inl rfl
          | some y =>
            have hy := walk_shrink hs _ _ _ hx
            rcases hw with hw | hw
            · rw [hw] at hy; contradiction
            · rw [hw] at hy; exact Or.inr hy.symm
        obtain ⟨n2, hn2, s2⟩ := ih r1 r' hw1 e n1 hn1
        exact ⟨n2, hn2, same_trans s2 s1⟩
      | fail r1 =>
        rw [hh] at e h1
        exact h1 r' hw e n hq
      | fuel => simp [hh, Res.after] at e
  cases k with
  | zero => simp [clean, Res.after] at h
  | succ k =>
    simp only [clean] at h
    split at h
    · exact hloop k _ r r' (Or.inr hp) h n hq
    · simp only [Res.after, Option.some.injEq] at h
      exact h ▸ ⟨n, hq, same_refl n⟩

/-- The example has no links. -/
example : walk disk limit [nHome] = some [nHome] := by rfl

/-- C139 fails: with a symbolic link in the folder, the folder of another project is cleaned. -/
theorem C139_violated :
    let r : Node := .dir [(nHome, .dir [(nSub, .link [nLib])]),
      (nLib, .dir [(pyccel, .dir [(nPy, .file false 1)])])]
    ∃ r', clean { ext := so } 9 r [nHome] = .ok r' ∧ look r' [nLib, pyccel, nPy] = none ∧
      look r [nLib, pyccel, nPy] = some (.file false 1) :=
  ⟨_, rfl, rfl, rfl⟩

/-! ## C140 -/

/-- After a call that ended without an exception, below a folder without symbolic links there is no
folder of pyccel and none of the files that the user asked to remove. -/
theorem C140_clean_partial (o : Opts) (ho : o.recursive = true) (k : Nat) (r : Node) (p d : Path) (r' : Node)
    (hp : walk r limit p = some d) (hn : NoLinks r d) (h : clean o k r p = .ok r') (q : Path) (f : Name)
    (n : Node) (hq : look r' (d ++ q ++ [f]) = some n) : ¬Junk o f n := by
  intro hj
  cases q with
  | nil =>
    exact clean_clean o ho k r p d r' hp hn h f _ (List.prefix_refl _)
      ⟨d, f, n, rfl, by simpa using hq, hj⟩
  | cons g q =>
    exact clean_clean o ho k r p d r' hp hn h g (d ++ (g :: q) ++ [f]) ⟨q ++ [f], by simp⟩
      ⟨d ++ (g :: q), f, n, rfl, hq, hj⟩

/-- In a folder with files and folders only, the call ends without an exception exactly if it need not
treat a folder as a file: it is recursive, or no folder in it has a name that ends with `.pyccel` (or
like a library, with `-s`), and with `-p` there is no folder at all but those of pyccel. -/
theorem C140_succeeds_iff_partial (o : Opts) (r : Node) (p d : Path) (es : List (Name × Node))
    (hp : walk r limit p = some d) (hl : look r d = some (.dir es)) (hP : Plain r d) :
    (∃ k r', clean o k r p = .ok r') ↔
      (o.recursive = true ∨ ∀ f es', look r (d ++ [f]) = some (.dir es') → ¬Generated f →
        ¬dotPyccel <:+ f ∧ (o.libs = true → ¬o.ext <:+ f) ∧ o.programs = false) := by
  constructor
  · rintro ⟨k, r', h⟩
    cases ho : o.recursive with
    | true => exact Or.inl rfl
    | false =>
      refine Or.inr fun f es' hf hg => ?_
      cases k with
      | zero => simp [clean] at h
      | succ k =>
        simp only [clean, follow, hp, hl] at h
        have hm : f ∈ es.map Prod.fst := by
          rw [look_child hl] at hf
          exact List.mem_map.2 ⟨_, entry_mem hf, rfl⟩
        have no : ¬Refuses o f := fun hr =>
          loop_refuses o k p d f hr _ r hp hP (hP [] _ (by simpa using hl)) hm es' hf r' h
        refine ⟨fun hh => no ⟨ho, hg, Or.inl hh⟩, fun h1 h2 => no ⟨ho, hg, Or.inr (Or.inl ⟨h1, h2⟩)⟩, ?_⟩
        cases hpr : o.programs with
        | false => rfl
        | true => exact absurd ⟨ho, hg, Or.inr (Or.inr hpr)⟩ no
  · intro h
    refine ⟨sizeOf r, clean_ok o (sizeOf r) r p d es hp hl hP ?_ ?_⟩
    · intro q n hq
      have := look_size (d ++ q) r n hq
      simp only [List.length_append] at this
      omega
    · rintro f es' he ⟨h1, h2, h3⟩
      rcases h with h | h
      · simp [h] at h1
      · obtain ⟨g1, g2, g3⟩ := h f es' (by rw [look_child hl]; exact he) h2
        rcases h3 with h3 | h3 | h3
        · exact g1 h3
        · exact g2 h3.1 h3.2
        · simp [h3] at g3

/-- The example is such a folder. -/
example : Plain disk [nHome] := by
  have file : ∀ a b, Plain (.file a b) [] := plain_file
  have empty : Plain (.dir []) [] := plain_dir [] (by simp) (by simp)
  have gen : Plain (.dir [(nPy, .file false 5)]) [] := plain_dir _ (by decide) (by simp [file])
  have sub : Plain (.dir [(nPy, .file false 6), (pyccel, .dir [])]) [] :=
    plain_dir _ (by decide) (by simp [file, empty])
  exact plain_at (show look disk [nHome] = some _ from rfl)
    (plain_dir _ (by decide) (by simp [file, gen, sub]))

/-- C140 fails: a symbolic link whose target does not exist ends the call with an exception, and the
folders that come after it are not removed. -/
theorem C140_violated_dangling :
    let r : Node := .dir [(nHome, .dir [(nSub, .link [nLib]), (pyccel, .dir [])])]
    clean { ext := so } 9 r [nHome] = .fail r := rfl

/-- C140 fails: so does a pipe or a socket, which is taken for a folder. -/
theorem C140_violated_pipe :
    let r : Node := .dir [(nHome, .dir [(nSub, .other), (pyccel, .dir [])])]
    clean { ext := so } 9 r [nHome] = .fail r := rfl

/-- C140 fails: `pyccel clean -n -p` ends with an exception if there is a folder. -/
theorem C140_violated_folder :
    let r : Node := .dir [(nHome, .dir [(nSub, .dir []), (pyccel, .dir [])])]
    clean { recursive := false, programs := true, ext := so } 9 r [nHome] = .fail r := rfl

end Verif.Clean
