import Verif.Imports.LemmasTop
import Verif.Imports.LemmasDir

/-!
# Programs of several files: properties

C91 statements of modules run as in Python, C92 memory of module variables, C93 order of the build,
C94 circular imports, C95 the file that a name means, C96 names of build targets.
-/

namespace Verif.Imports
open Spec Model

variable {W : Type}

/-! ## C91 -/

/-- A program that starts with file `F` does the same in the generated code as in Python: modules that it imports, directly or not,
are run once, at the same moment.

Missing: imports after other statements, and statements after the block of the main program (both are moved); two modules imported with the same
local name; names that mean different files in different directories. -/
theorem C91_partial {P : Project W} {D : Nat} {F : File} {c : CFile W} (hM : compile P D F = some c)
    (hc : Consistent P) (ht : ∀ g, Reaches P F g → (P.src g).Tidy) (ha : (P.src F).after = []) {n : Nat} {w : W}
    {st : Py W} (H : pyRun P n F w = some st) :
    (∃ k ct, run (compile P D) k F w = some ct) ∧ ∀ k ct, run (compile P D) k F w = some ct → ct.w = st.w :=
  run_sim hM hc ht ha H

/-! Worlds in the examples: what was printed. -/

def say (k : Nat) : Stmt (List Nat) := .act (· ++ [k])

/-- All files are in one directory. -/
def flat (src : File → Source W) (n : Nat) : Project W := ⟨src, fun _ x => if x < n then some x else none⟩

theorem flat_consistent (src : File → Source W) (n : Nat) : Consistent (flat src n) := by
  intro f g x a b h1 h2
  have h1 : (if x < n then some x else none) = some a := h1
  have h2 : (if x < n then some x else none) = some b := h2
  rw [h1] at h2
  exact Option.some.inj h2

/-- 0 imports 1 and 2; 2 imports 1, and a function of 1 is called. -/
def diamond : Project (List Nat) := flat (fun f =>
  if f = 0 then { body := [.imp 1 1, .imp 2 2, say 0, .call 2 0], main := [say 10] }
  else if f = 1 then { body := [say 1], funcs := [[say 11]], allocs := [(0, true), (1, false)] }
  else { body := [.imp 1 1, say 2, .call 1 0], funcs := [[.imp 1 1, say 12, .call 1 0]], allocs := [(0, false)] }) 3

theorem diamond_tidy (g : File) : (diamond.src g).Tidy := by
  unfold diamond flat
  dsimp only
  split
  · refine ⟨⟨rfl, ?_⟩, ⟨rfl, by simp [OneName, imports, say]⟩, by simp⟩
    intro x y a h1 h2
    simp [imports, say] at h1 h2
    rcases h1 with ⟨rfl, rfl⟩ | ⟨rfl, rfl⟩ <;> rcases h2 with ⟨rfl, h2⟩ | ⟨rfl, h2⟩ <;> first | rfl | cases h2
  · split
    · exact ⟨⟨rfl, by simp [OneName, imports, say]⟩, ⟨rfl, by simp [OneName, imports]⟩, by
        simp [OneName, imports, importsFirst, say, Stmt.isImport]⟩
    · exact ⟨⟨rfl, by simp [OneName, imports, say]⟩, ⟨rfl, by simp [OneName, imports]⟩, by
        simp [OneName, imports, importsFirst, say, Stmt.isImport]⟩

example : (compile diamond 3 0).isSome = true ∧ Consistent diamond ∧ (∀ g, Reaches diamond 0 g → (diamond.src g).Tidy) ∧
    (diamond.src 0).after = [] ∧ (pyRun diamond 20 0 []).map (·.w) = some [1, 2, 11, 0, 12, 11, 10] :=
  ⟨rfl, flat_consistent _ _, fun g _ => diamond_tidy g, rfl, rfl⟩

/-- C91 fails: an import is done before the statements above it.  `print(0); import m` with `print(1)` in `m` prints 1 first. -/
theorem C91_hoisted_violated :
    let P : Project (List Nat) := flat (fun f => if f = 0 then { body := [say 0, .imp 1 1] } else { body := [say 1] }) 2
    (pyRun P 9 0 []).map (·.w) = some [0, 1] ∧ (run (compile P 3) 9 0 []).map (·.w) = some [1, 0] := ⟨rfl, rfl⟩

/-- C91 fails: what follows the block `if __name__ == "__main__":` runs before it. -/
theorem C91_after_main_violated :
    let P : Project (List Nat) := flat (fun _ => { body := [say 0], main := [say 1], after := [say 2] }) 1
    (pyRun P 9 0 []).map (·.w) = some [0, 1, 2] ∧ (run (compile P 3) 9 0 []).map (·.w) = some [0, 2, 1] := ⟨rfl, rfl⟩

/-- C91 fails: an import in a function is done at its start. -/
theorem C91_local_violated :
    let P : Project (List Nat) := flat (fun f =>
      if f = 0 then { body := [.own 0], funcs := [[say 0, .imp 1 1]] } else { body := [say 1] }) 2
    (pyRun P 9 0 []).map (·.w) = some [0, 1] ∧ (run (compile P 3) 12 0 []).map (·.w) = some [1, 0] := ⟨rfl, rfl⟩

/-- C91 fails: after `import a as k; import b as k`, the statements of `b` are never run. -/
theorem C91_same_name_violated :
    let P : Project (List Nat) := flat (fun f =>
      if f = 0 then { body := [.imp 1 9, .imp 2 9] } else if f = 1 then { body := [say 1] } else { body := [say 2] }) 3
    (pyRun P 9 0 []).map (·.w) = some [1, 2] ∧ (run (compile P 3) 9 0 []).map (·.w) = some [1] := ⟨rfl, rfl⟩

/-- C91 fails: if Python imports two compiled modules that both import a third one, the statements of the third one are run twice. -/
theorem C91_extensions_violated :
    let P : Project (List Nat) := flat (fun f =>
      if f = 0 then { body := [.imp 1 1, .imp 2 2] } else if f = 3 then { body := [say 3] } else { body := [.imp 3 3] }) 4
    (pyRun P 9 0 []).map (·.w) = some [3] ∧ runExts (compile P 4) 9 [1, 2] [] = some [3, 3] := ⟨rfl, rfl⟩

/-! ## C92 -/

/-- No memory of a module variable is freed twice, in any program that is accepted: the names of the variables of a file differ. -/
theorem C92_once {P : Project W} {D : Nat} {F : File} {c : CFile W} (hM : compile P D F = some c)
    (hn : ∀ g, ((P.src g).allocs.map (·.1)).Nodup) {n : Nat} {w : W} {ct : CSt W}
    (H : run (compile P D) n F w = some ct) : ct.freed.Nodup := by
  obtain ⟨ct0, _, h, _⟩ := run_finv hM hn H
  exact h.nodup

example : (compile diamond 3 0).isSome = true ∧ (∀ g, ((diamond.src g).allocs.map (·.1)).Nodup) ∧
    (run (compile diamond 3) 20 0 []).map (·.freed) = some [(1, 0), (1, 1), (2, 0)] := by
  refine ⟨rfl, fun g => ?_, rfl⟩
  unfold diamond flat
  dsimp only
  split
  · simp
  · split <;> simp

/-- At the end of the program, the memory of all variables has been freed: those of the program itself and of
the modules that are imported at the top, without `as`, by it or by such modules.

Missing: modules that are imported with `as`, or in a function or the block of the main program: their memory is never freed. -/
theorem C92_partial {P : Project W} {D : Nat} {F : File} {c : CFile W} (hM : compile P D F = some c)
    (hc : Consistent P) (hn : ∀ g, (P.src g).AllocsOk)
    (hone : ∀ g, Reaches P F g → OneName (Spec.imports ((P.src g).body ++ (P.src g).after))) {n : Nat} {w : W} {ct : CSt W}
    (H : run (compile P D) n F w = some ct) {g : File} (hg : PlainReaches P F g) {v : Nat}
    (hv : v ∈ (P.src g).allocs.map (·.1)) : (g, v) ∈ ct.freed := by
  have hn' : ∀ g, ((P.src g).allocs.map (·.1)).Nodup := fun g => (hn g).1
  obtain ⟨ct0, h1, hf, hF⟩ := run_finv hM hn' H
  obtain ⟨_, hi, hcl⟩ := runMain_inv hM hn' h1
  obtain ⟨cg, hcg⟩ := compile_reaches (plain_reaches hg) hM
  have hne : (P.src g).allocs ≠ [] := by
    intro h
    rw [h] at hv
    cases hv
  obtain ⟨h2, h3, h4⟩ := allocs_init hcg (hn g) hne
  have hI : ∀ g, PlainReaches P F g → ∀ c, compile P D g = some c → c.init.isSome = true → g ∈ ct0.ini := fun g hg =>
    plain_ini hc ⟨c, hM⟩ hone (hcl hc hone) (fun c' h5 => by rw [hM] at h5; cases h5; exact hi) hg
  rw [hf.freed]
  refine ⟨hI g hg cg hcg h2, ?_⟩
  rcases List.mem_append.mp (h3.mem_iff.mpr hv) with h5 | h5
  · exact Or.inl h5
  · refine Or.inr ⟨?_, h5⟩
    exact plain_freed hc ⟨c, hM⟩ hone hI hf (fun c' h5 => by rw [hM] at h5; cases h5; exact hF) hg cg hcg
      (h4 (List.ne_nil_of_mem h5))

example : (∀ g, (diamond.src g).AllocsOk) ∧ PlainReaches diamond 0 1 ∧ 1 ∈ (diamond.src 1).allocs.map (·.1) := by
  refine ⟨fun g => ?_, PlainReaches.step PlainReaches.refl ⟨1, by simp [diamond, flat, imports, say], rfl⟩, by
    simp [diamond, flat]⟩
  unfold diamond flat Source.AllocsOk
  dsimp only
  split
  · simp
  · split <;> simp [say, Stmt.isImport, Stmt.isSkip]

/-- Only the memory of modules that have run is freed, and of variables that they have. -/
theorem C92_loaded_partial {P : Project W} {D : Nat} {F : File} {c : CFile W} (hM : compile P D F = some c)
    (hc : Consistent P) (ht : ∀ g, Reaches P F g → (P.src g).Tidy) (ha : (P.src F).after = [])
    (hn : ∀ g, (P.src g).AllocsOk) {n m : Nat} {w : W} {st : Py W} {ct : CSt W} (H : pyRun P n F w = some st)
    (H' : run (compile P D) m F w = some ct) {g : File} {v : Nat} (hv : (g, v) ∈ ct.freed) :
    g ∈ st.loaded ∧ v ∈ (P.src g).allocs.map (·.1) := by
  have hn' : ∀ g, ((P.src g).allocs.map (·.1)).Nodup := fun g => (hn g).1
  obtain ⟨ct0, h1, hf, _⟩ := run_finv hM hn' H'
  obtain ⟨k, ct1, h2, hs⟩ := runMain_sim hM hc ht ha H
  have := runMain_det h1 h2
  subst this
  obtain ⟨h3, h4⟩ := (hf.freed g v).mp hv
  have hva : v ∈ (P.src g).allocs.map (·.1) := by
    have : v ∈ temps P g ++ rest P g := by
      rcases h4 with h4 | ⟨_, h4⟩
      · exact List.mem_append_left _ h4
      · exact List.mem_append_right _ h4
    unfold temps rest at this
    cases hsp : split (P.src g).allocs with
    | none => rw [hsp] at this; cases this
    | some q =>
      rw [hsp] at this
      exact (split_perm hsp).mem_iff.mp this
  refine ⟨?_, hva⟩
  have hini : ∃ cg, compile P D g = some cg ∧ cg.init.isSome = true := runMain_ini hM h1 g h3
  obtain ⟨cg, h5, h6⟩ := hini
  exact (hs.ini g cg h5 h6).mpr (Or.inl h3)

example : ∃ st ct, pyRun diamond 20 0 [] = some st ∧ run (compile diamond 3) 20 0 [] = some ct ∧ (2, 0) ∈ ct.freed :=
  ⟨_, _, rfl, rfl, by decide⟩

/-- If a file has at most one variable for intermediate results, only that one is freed before the end of the program.

Missing: files with two or more. -/
theorem C92_early_partial {P : Project W} {D : Nat} {F : File} {c : CFile W} (hM : compile P D F = some c)
    (hn : ∀ g, (P.src g).AllocsOk) (h1 : ∀ g, ((P.src g).allocs.filter (·.2)).length ≤ 1) {n : Nat} {w : W} {ct : CSt W}
    (H : runMain (compile P D) n F w = some ct) {g : File} {v : Nat} (hv : (g, v) ∈ ct.freed) :
    (v, true) ∈ (P.src g).allocs := by
  obtain ⟨hi, _, _⟩ := runMain_inv hM (fun g => (hn g).1) H
  have := ((hi.freed g v).mp hv).2
  unfold temps at this
  rw [split_one (h1 g)] at this
  obtain ⟨⟨u, b⟩, h2, h3⟩ := List.mem_map.mp this
  obtain ⟨h4, h5⟩ := List.mem_filter.mp h2
  cases h3
  cases h5
  exact h4

example : (∀ g, ((diamond.src g).allocs.filter (·.2)).length ≤ 1) ∧
    (runMain (compile diamond 3) 20 0 []).map (·.freed) = some [(1, 0)] := by
  refine ⟨fun g => ?_, rfl⟩
  unfold diamond flat
  dsimp only
  split
  · simp
  · split <;> simp

/-- C92 fails: with two variables for intermediate results, 0 and 1, the first is freed, and then variable 2, that the program still uses. -/
theorem C92_early_violated :
    let P : Project (List Nat) := flat (fun _ =>
      { body := [say 0], allocs := [(0, true), (1, true), (2, false), (3, false)] }) 1
    (runMain (compile P 3) 9 0 []).map (·.freed) = some [(0, 0), (0, 2)] := rfl

/-- C92 fails: with the second of them at the end, the translation stops with an `IndexError`. -/
theorem C92_crash_violated :
    let P : Project (List Nat) := flat (fun _ => { body := [say 0], allocs := [(0, true), (1, false), (2, true)] }) 1
    (pyRun P 9 0 []).map (·.w) = some [0] ∧ ∀ n, (compile P n 0).isNone = true := by
  refine ⟨rfl, fun n => ?_⟩
  cases n with
  | zero => rfl
  | succ n => rfl

/-- C92 fails: the memory of a module that is imported with `as` is never freed. -/
theorem C92_alias_violated :
    let P : Project (List Nat) := flat (fun f =>
      if f = 0 then { body := [.imp 1 9] } else { body := [say 1], allocs := [(0, false)] }) 2
    (run (compile P 3) 9 0 []).map (fun ct => (ct.w, ct.freed)) = some ([1], []) := rfl

/-- C92 fails: so is that of a module that is imported in a function or in the block of the main program. -/
theorem C92_local_violated :
    let P : Project (List Nat) := flat (fun f =>
      if f = 0 then { body := [say 0], main := [.imp 1 1] } else { body := [say 1], allocs := [(0, false)] }) 2
    (run (compile P 3) 9 0 []).map (fun ct => (ct.w, ct.freed)) = some ([0, 1], []) := rfl

/-! ## C93 -/

/-- The order of a build contains each file once, after all files that it imports. -/
theorem C93_order {l r : List Src} (hc : Closed l) (H : buildOrder l = some r) : r.Perm l ∧ Sorted r := by
  obtain ⟨h1, h2⟩ := dirOrder_some H fun _ _ => List.nil_prefix
  refine ⟨h1, fun pre s post h d hd => ?_⟩
  refine h2 pre s post h d hd List.nil_prefix (hc s (h1.mem_iff.mp ?_) d hd)
  rw [h]
  exact List.mem_append_right _ List.mem_cons_self

def twoDirs : List Src := [⟨[], 0, [([1], 1), ([2], 3)]⟩, ⟨[1], 1, [([1], 2)]⟩, ⟨[1], 2, [([2], 3)]⟩, ⟨[2], 3, []⟩]

example : Closed twoDirs ∧ (buildOrder twoDirs).map (·.map (·.name)) = some [3, 2, 1, 0] :=
  ⟨by
    intro s hs d hd
    simp [twoDirs] at hs
    rcases hs with rfl | rfl | rfl | rfl <;> simp at hd
    · rcases hd with rfl | rfl
      · exact ⟨⟨[1], 1, [([1], 2)]⟩, by simp [twoDirs], rfl⟩
      · exact ⟨⟨[2], 3, []⟩, by simp [twoDirs], rfl⟩
    · subst hd; exact ⟨⟨[1], 2, [([2], 3)]⟩, by simp [twoDirs], rfl⟩
    · subst hd; exact ⟨⟨[2], 3, []⟩, by simp [twoDirs], rfl⟩, by decide⟩

/-- If no order is found, there is a directory in which some files and subdirectories depend on each other in a circle. -/
theorem C93_error {l : List Src} (hc : Closed l) (H : buildOrder l = none) :
    ∃ folder R, R ≠ [] ∧ ∀ k ∈ R, ∃ k' ∈ R, Needs l folder k k' := by
  refine dirOrder_none H (fun _ _ => List.nil_prefix) (fun s hs => ?_) (Or.inr (Nat.succ_pos _))
    (fun s hs d hd _ => hc s hs d hd)
  have : s.dirs.length ≤ depth l := by
    unfold depth
    clear H hc
    induction l with
    | nil => cases hs
    | cons t l ih =>
      rw [List.map_cons, List.foldr_cons]
      rcases List.mem_cons.mp hs with rfl | hs
      · exact Nat.le_max_left _ _
      · exact Nat.le_trans (ih hs) (Nat.le_max_right _ _)
  rw [List.length_nil]
  omega

example : Closed [⟨[], 0, [([], 1)]⟩, ⟨[], 1, [([], 0)]⟩] ∧ buildOrder [⟨[], 0, [([], 1)]⟩, ⟨[], 1, [([], 0)]⟩] = none :=
  ⟨by simp [Closed, Src.path], by decide⟩

/-- An order is found if in each directory the files and subdirectories can be numbered such that each only needs smaller ones.

Missing: projects where files do not depend on each other in a circle, but directories do. -/
theorem C93_partial {l : List Src} (hc : Closed l) (rank : List Nat → Key → Nat)
    (hr : ∀ folder k k', Needs l folder k k' → rank folder k' < rank folder k) :
    ∃ r, buildOrder l = some r ∧ r.Perm l ∧ Sorted r := by
  cases H : buildOrder l with
  | some r => exact ⟨r, rfl, C93_order hc H⟩
  | none =>
    obtain ⟨folder, R, h1, h2⟩ := C93_error hc H
    exfalso
    -- there is one with the smallest number
    have key : ∀ n, ∀ k ∈ R, rank folder k < n → False := by
      intro n
      induction n with
      | zero => exact fun k _ h => absurd h (Nat.not_lt_zero _)
      | succ n ih =>
        intro k hk hlt
        obtain ⟨k', hk', hN⟩ := h2 k hk
        have := hr folder k k' hN
        exact ih k' hk' (by omega)
    cases R with
    | nil => exact h1 rfl
    | cons k R => exact key _ k List.mem_cons_self (Nat.lt_succ_self _)

/-- In a single directory, the files themselves are numbered. -/
theorem C93_flat {l : List Src} (hc : Closed l) (hd : ∀ s ∈ l, s.dirs = []) (rank : List Nat × Nat → Nat)
    (hr : ∀ s ∈ l, ∀ d ∈ s.deps, rank d < rank s.path) : ∃ r, buildOrder l = some r ∧ r.Perm l ∧ Sorted r := by
  have hdir : ∀ s ∈ l, ∀ d ∈ s.deps, d.1 = [] := by
    intro s hs d hd'
    obtain ⟨t, h1, h2⟩ := hc s hs d hd'
    rw [← h2]
    exact hd t h1
  refine C93_partial hc (fun _ k => match k with | .file p => rank p | .dir _ => 0) ?_
  rintro folder k k' ⟨s, hs, d, hd', h1, h2, _⟩
  have hsd := hd s hs
  have hdd := hdir s hs d hd'
  cases k with
  | dir c =>
    obtain ⟨t, h1⟩ := h1
    have : s.dirs = folder ++ c :: t := h1
    rw [hsd] at this
    simp at this
  | file p =>
    cases k' with
    | dir c =>
      obtain ⟨t, h2⟩ := h2
      rw [hdd] at h2
      simp at h2
    | file q =>
      obtain ⟨h1, _⟩ := h1
      obtain ⟨h2, _⟩ := h2
      dsimp only
      rw [← h1, ← h2]
      exact hr s hs d hd'

example : ∃ r, buildOrder [⟨[], 0, [([], 1)]⟩, ⟨[], 1, [([], 2)]⟩, ⟨[], 2, []⟩] = some r ∧
    r.Perm [⟨[], 0, [([], 1)]⟩, ⟨[], 1, [([], 2)]⟩, ⟨[], 2, []⟩] ∧ Sorted r :=
  C93_flat (by simp [Closed, Src.path]) (by simp) (fun p => 3 - p.2) (by simp [Src.path])

/-- C93 fails: `a/x` imports `b/y`, which imports `a/z`.  There is an order of the files, but none of the directories, and the build
is refused. -/
theorem C93_violated :
    let l : List Src := [⟨[1], 1, [([2], 2)]⟩, ⟨[2], 2, [([1], 3)]⟩, ⟨[1], 3, []⟩]
    Closed l ∧ (∃ r, r.Perm l ∧ Sorted r) ∧ buildOrder l = none := by
  refine ⟨by simp [Closed, Src.path], ⟨[⟨[1], 3, []⟩, ⟨[2], 2, [([1], 3)]⟩, ⟨[1], 1, [([2], 2)]⟩], by decide, ?_⟩, by decide⟩
  intro pre s post h d hd
  match pre, h with
  | [], h => cases h; cases hd
  | [_], h =>
    cases h
    cases hd with
    | head => exact ⟨_, List.mem_cons_self, rfl⟩
    | tail _ h => cases h
  | [_, _], h =>
    cases h
    cases hd with
    | head => exact ⟨_, List.mem_cons_of_mem _ List.mem_cons_self, rfl⟩
    | tail _ h => cases h
  | _ :: _ :: _ :: pre, h => cases pre <;> cases h

/-! ## C94 -/

/-- The search for the files of a program ends if all files exist and none imports itself, directly or not. -/
theorem C94_partial {P : Project W} {F : File} {rank : File → Nat}
    (h : ∀ g, Reaches P F g → (∀ x a, (x, a) ∈ (P.src g).imports → ∃ h, P.find g x = some h) ∧
      ∀ h, Imports P g h → rank h < rank g) : ∃ n d, parse P n F = some d := by
  obtain ⟨d, hd⟩ := parse_rank (rank F + 1) F (Nat.lt_succ_self _) h
  exact ⟨_, d, hd⟩

example : ∀ g, Reaches diamond 0 g → (∀ x a, (x, a) ∈ (diamond.src g).imports → ∃ h, diamond.find g x = some h) ∧
    ∀ h, Imports diamond g h → (fun f => if f = 0 then 2 else if f = 1 then 0 else 1) h <
      (fun f => if f = 0 then 2 else if f = 1 then 0 else 1) g := by
  intro g _
  have h1 : ∀ x a, (x, a) ∈ (diamond.src g).imports → (g = 0 ∧ (x = 1 ∨ x = 2)) ∨ (g ≠ 0 ∧ g ≠ 1 ∧ x = 1) := by
    intro x a h
    by_cases h0 : g = 0
    · subst h0
      simp [diamond, flat, Source.imports, imports, say] at h
      left
      exact ⟨rfl, by rcases h with ⟨h, _⟩ | ⟨h, _⟩ <;> simp [h]⟩
    · by_cases h1 : g = 1
      · subst h1
        simp [diamond, flat, Source.imports, imports, say] at h
      · simp [diamond, flat, Source.imports, imports, say, h0, h1] at h
        right
        exact ⟨h0, h1, h.1⟩
  refine ⟨fun x a h => ?_, fun h ⟨x, a, h2, h3⟩ => ?_⟩
  · rcases h1 x a h with ⟨_, rfl | rfl⟩ | ⟨_, _, rfl⟩ <;> exact ⟨_, rfl⟩
  · rcases h1 x a h2 with ⟨rfl, rfl | rfl⟩ | ⟨h0, h01, rfl⟩ <;> cases h3
    · decide
    · decide
    · simp [h0, h01]

/-- C94 fails: if some file imports itself, directly or not, the search never ends; no error is reported. -/
theorem C94_circle_violated {P : Project W} {F : File} (h : Circle P F) : ∀ n, parse P n F = none := by
  obtain ⟨g, h, h1, h2, h3⟩ := h
  intro n
  cases H : parse P n F with
  | none => rfl
  | some d =>
    obtain ⟨e, he⟩ := parse_reaches h1 H
    rw [parse_circle h2 h3 n] at he
    cases he

/-- C94 fails: Python runs such programs. -/
theorem C94_python_violated :
    let P : Project (List Nat) := flat (fun f =>
      if f = 0 then { body := [.imp 1 1, say 0] } else if f = 1 then { body := [.imp 2 2, say 1] }
      else { body := [.imp 1 1, say 2] }) 3
    (pyRun P 9 0 []).map (·.w) = some [2, 1, 0] ∧ Circle P 0 :=
  ⟨rfl, 1, 2, .step ⟨1, 1, by simp [flat, Source.imports, imports], rfl⟩ (.refl _),
    ⟨2, 2, by simp [flat, Source.imports, imports], rfl⟩,
    .step ⟨1, 1, by simp [flat, Source.imports, imports], rfl⟩ (.refl _)⟩

/-! ## C95 -/

/-- An import refers to the file that Python loads for it.

Missing: names that mean different files in different directories (`from .m import f`). -/
theorem C95_partial {P : Project W} (hc : Consistent P) {n : Nat} {f : File} {d : Dict} (H : parse P n f = some d)
    {x a : Name} (h : (x, a) ∈ (P.src f).imports) : d.lookup x = P.find f x := parse_lookup hc H h

example : ∃ d, parse diamond 3 0 = some d ∧ (2, 2) ∈ (diamond.src 0).imports :=
  ⟨_, rfl, by simp [diamond, flat, Source.imports, imports, say]⟩

/-- C95 fails: `main` has `from .m import f` and `from .sub.s import g`; `sub/s` has `from .m import h`, which is
`sub/m`.  Afterwards, calls of `f` in `main` go to `sub/m`.  (Files: 0 `main`, 1 `m`, 2 `sub/s`, 3 `sub/m`.  Names: 1 `.m`, 2 `.sub.s`.) -/
theorem C95_violated :
    let P : Project (List Nat) := ⟨fun f =>
      if f = 0 then { body := [.imp 1 1, .imp 2 2, .call 1 0] } else if f = 1 then { body := [], funcs := [[say 1]] }
      else if f = 2 then { body := [.imp 1 1, say 2] } else { body := [], funcs := [[say 3]] },
      fun f x => if x = 2 then some 2 else if f = 0 then some 1 else some 3⟩
    P.find 0 1 = some 1 ∧ (parse P 3 0).map (·.lookup 1) = some (some 3) ∧
      (pyRun P 9 0 []).map (·.w) = some [2, 1] ∧ (run (compile P 3) 9 0 []).map (·.w) = some [2, 3] := ⟨rfl, rfl, rfl, rfl⟩

/-! ## C96 -/

/-- Different files have different names of build targets.

Missing: files and directories with two underscores one after the other, or with one at the end. -/
theorem C96_partial {l : List (List (List Char))} (hd : l.Nodup) (hne : ∀ p ∈ l, p ≠ [])
    (hc : ∀ p ∈ l, ∀ c ∈ p, Clean c) : (targetNames l).Nodup := by
  unfold targetNames
  dsimp only
  by_cases h : ((l.map (·.getLastD [])).eraseDups.length != l.length) = true
  · rw [h]
    refine nodup_map_inj hd fun a ha b hb hab => ?_
    unfold targetName at hab
    rw [if_pos rfl, if_pos rfl] at hab
    exact join_inj (hne a ha) (hne b hb) (hc a ha) (hc b hb) hab
  · have h : ((l.map (·.getLastD [])).eraseDups.length != l.length) = false := by simpa using h
    rw [h]
    have h' : (l.map (·.getLastD [])).eraseDups.length = l.length := by simpa using h
    have : l.map (targetName false) = l.map (·.getLastD []) := by
      refine List.map_congr_left fun p _ => ?_
      unfold targetName
      rfl
    rw [this]
    exact nodup_of_length (by rw [h', List.length_map])

example : (let l := [["a".toList, "m".toList], ["b_c".toList, "m".toList]]
    l.Nodup ∧ (∀ p ∈ l, p ≠ []) ∧ ∀ p ∈ l, ∀ c ∈ p, Clean c) := by
  have hcl : ∀ c : List Char, (∀ i, c[i]? = some '_' → c[i+1]? ≠ some '_' ∧ i + 1 ≠ c.length) → Clean c := by
    intro c h
    refine ⟨fun a b he => ?_, fun a he => ?_⟩
    · exact (h a.length (by rw [he]; simp)).1 (by rw [he]; simp)
    · exact (h a.length (by rw [he]; simp)).2 (by rw [he]; simp)
  refine ⟨by decide, by decide, ?_⟩
  intro p hp c hc
  have : c = ['a'] ∨ c = ['m'] ∨ c = ['b', '_', 'c'] := by
    simp at hp
    rcases hp with rfl | rfl <;> simp at hc <;> rcases hc with rfl | rfl <;> simp
  rcases this with rfl | rfl | rfl
  all_goals
    refine hcl _ fun i hi => ?_
    match i with
    | 0 => simp at hi ⊢
    | 1 => simp at hi ⊢
    | 2 => simp at hi ⊢
    | i + 3 => simp at hi

/-- C96 fails: if two other files have the same name, `a/b__c.py` and `a__b/c.py` both become `a__b__c`. -/
theorem C96_violated :
    let l := [["a".toList, "b__c".toList], ["a__b".toList, "c".toList], ["m".toList], ["a".toList, "m".toList]]
    l.Nodup ∧ ¬ (targetNames l).Nodup := by decide

end Verif.Imports
