import Verif.Imports.LemmasCompile

/-! # Programs of several files: the generated code does the same as Python -/

namespace Verif.Imports.Model
open Spec

variable {W : Type}

theorem cx_mono {M : File → Option (CFile W)} : ∀ {n : Nat} {f : File} {s : CStmt W} {st st' : CSt W},
    cx M n f s st = some st' → cx M (n + 1) f s st = some st'
  | 0, _, _, _, _, H => by cases H
  | n + 1, f, s, st, st', H => by
    cases s with
    | skip => exact H
    | act g => exact H
    | free v => exact H
    | init g =>
      unfold cx at H ⊢
      cases hg : M g with
      | none => rw [hg] at H; cases H
      | some c =>
        rw [hg] at H
        dsimp only at H ⊢
        cases hi : c.init with
        | none => rw [hi] at H; cases H
        | some b =>
          rw [hi] at H
          dsimp only at H ⊢
          by_cases h : g ∈ st.ini
          · rw [if_pos h] at H ⊢; exact H
          · rw [if_neg h] at H ⊢
            cases hr : cx M n g b st with
            | none => rw [hr] at H; cases H
            | some r => rw [hr] at H; rw [cx_mono hr]; exact H
    | call g k =>
      unfold cx at H ⊢
      cases hg : M g with
      | none => rw [hg] at H; cases H
      | some c =>
        rw [hg] at H
        dsimp only at H ⊢
        cases hi : c.funcs[k]? with
        | none => rw [hi] at H; cases H
        | some b =>
          rw [hi] at H
          dsimp only at H ⊢
          exact cx_mono H
    | seq s t =>
      unfold cx at H ⊢
      cases hr : cx M n f s st with
      | none => rw [hr] at H; cases H
      | some r => rw [hr] at H; rw [cx_mono hr]; exact cx_mono H
    | ite c s t =>
      unfold cx at H ⊢
      by_cases h : c st.w = true
      · rw [if_pos h] at H ⊢; exact cx_mono H
      · rw [if_neg h] at H ⊢; exact cx_mono H
    | loop c s =>
      unfold cx at H ⊢
      by_cases h : c st.w = true
      · rw [if_pos h] at H ⊢
        cases hr : cx M n f s st with
        | none => rw [hr] at H; cases H
        | some r => rw [hr] at H; rw [cx_mono hr]; exact cx_mono H
      · rw [if_neg h] at H ⊢; exact H

theorem cx_le {M : File → Option (CFile W)} {n m : Nat} {f : File} {s : CStmt W} {st st' : CSt W}
    (H : cx M n f s st = some st') (h : n ≤ m) : cx M m f s st = some st' := by
  induction h with
  | refl => exact H
  | step _ ih => exact cx_mono ih

theorem cx_det {M : File → Option (CFile W)} {n m : Nat} {f : File} {s : CStmt W} {st a b : CSt W}
    (H : cx M n f s st = some a) (H' : cx M m f s st = some b) : a = b := by
  have h1 := cx_le H (Nat.le_max_left n m)
  have h2 := cx_le H' (Nat.le_max_right n m)
  rw [h1] at h2
  exact Option.some.inj h2

/-- The statement ends in this state. -/
def Runs (M : File → Option (CFile W)) (f : File) (s : CStmt W) (st st' : CSt W) : Prop :=
  ∃ n, cx M n f s st = some st'

theorem Runs.seq {M : File → Option (CFile W)} {f : File} {s t : CStmt W} {a b c : CSt W} (h1 : Runs M f s a b)
    (h2 : Runs M f t b c) : Runs M f (.seq s t) a c := by
  obtain ⟨n, h1⟩ := h1
  obtain ⟨m, h2⟩ := h2
  refine ⟨max n m + 1, ?_⟩
  unfold cx
  rw [cx_le h1 (Nat.le_max_left n m)]
  exact cx_le h2 (Nat.le_max_right n m)

theorem Runs.nil {M : File → Option (CFile W)} {f : File} {a : CSt W} : Runs M f (cblock []) a a := ⟨1, rfl⟩

theorem Runs.cons {M : File → Option (CFile W)} {f : File} {s : CStmt W} {ss : List (CStmt W)} {a b c : CSt W}
    (h1 : Runs M f s a b) (h2 : Runs M f (cblock ss) b c) : Runs M f (cblock (s :: ss)) a c := h1.seq h2

theorem Runs.append {M : File → Option (CFile W)} {f : File} {t : List (CStmt W)} {b c : CSt W}
    (h2 : Runs M f (cblock t) b c) : ∀ {s : List (CStmt W)} {a : CSt W}, Runs M f (cblock s) a b →
      Runs M f (cblock (s ++ t)) a c
  | [], a, ⟨n, h1⟩ => by
    cases n with
    | zero => cases h1
    | succ n => cases h1; exact h2
  | x :: s, a, ⟨n, h1⟩ => by
    cases n with
    | zero => cases h1
    | succ n =>
      unfold cblock cx at h1
      cases hr : cx M n f x a with
      | none => rw [hr] at h1; cases h1
      | some r => rw [hr] at h1; exact Runs.cons ⟨n, hr⟩ (Runs.append h2 ⟨n, h1⟩)

theorem Runs.frees {M : File → Option (CFile W)} {f : File} : ∀ (vs : List Nat) (a : CSt W),
    Runs M f (cblock (vs.map .free)) a { a with freed := a.freed ++ vs.map fun v => (f, v) }
  | [], a => by
    rw [List.map_nil, List.map_nil, List.append_nil]
    exact Runs.nil
  | v :: vs, a => by
    refine Runs.cons (b := { a with freed := a.freed ++ [(f, v)] }) ⟨1, rfl⟩ ?_
    have := Runs.frees (M := M) (f := f) vs { a with freed := a.freed ++ [(f, v)] }
    simpa using this

theorem cx_skips {M : File → Option (CFile W)} {f : File} : ∀ {b : List (CStmt W)} {n : Nat} {st st' : CSt W},
    b.all isSkip = true → cx M n f (cblock b) st = some st' → st' = st
  | _, 0, _, _, _, H => by cases H
  | [], n + 1, _, _, _, H => by cases H; rfl
  | s :: b, n + 1, st, st', h, H => by
    rw [List.all_cons, Bool.and_eq_true] at h
    cases s <;> first | cases h.1 | skip
    unfold cblock cx at H
    cases n with
    | zero => cases H
    | succ n => exact cx_skips h.2 H

theorem py_loaded {P : Project W} : ∀ {n : Nat} {f : File} {s : Stmt W} {st st' : Py W}, py P n f s st = some st' →
    ∀ g ∈ st.loaded, g ∈ st'.loaded
  | 0, _, _, _, _, H, _, _ => by cases H
  | n + 1, f, s, st, st', H, g, hg => by
    cases s with
    | skip => cases H; exact hg
    | act a => cases H; exact hg
    | imp x a =>
      unfold py at H
      cases hx : P.find f x with
      | none => rw [hx] at H; cases H
      | some k =>
        rw [hx] at H
        dsimp only at H
        by_cases h : k ∈ st.loaded
        · rw [if_pos h] at H; cases H; exact hg
        · rw [if_neg h] at H
          exact py_loaded H g (List.mem_cons_of_mem _ hg)
    | call x k =>
      unfold py at H
      cases hx : P.find f x with
      | none => rw [hx] at H; cases H
      | some h =>
        rw [hx] at H
        dsimp only at H
        cases hb : (P.src h).funcs[k]? with
        | none => rw [hb] at H; cases H
        | some b =>
          rw [hb] at H
          dsimp only at H
          by_cases hl : h ∈ st.loaded
          · rw [if_pos hl] at H; exact py_loaded H g hg
          · rw [if_neg hl] at H; cases H
    | own k =>
      unfold py at H
      cases hb : (P.src f).funcs[k]? with
      | none => rw [hb] at H; cases H
      | some b => rw [hb] at H; exact py_loaded H g hg
    | seq s t =>
      unfold py at H
      cases hr : py P n f s st with
      | none => rw [hr] at H; cases H
      | some r => rw [hr] at H; exact py_loaded H g (py_loaded hr g hg)
    | ite c s t =>
      unfold py at H
      split at H
      · exact py_loaded H g hg
      · exact py_loaded H g hg
    | loop c s =>
      unfold py at H
      split at H
      · cases hr : py P n f s st with
        | none => rw [hr] at H; cases H
        | some r => rw [hr] at H; exact py_loaded H g (py_loaded hr g hg)
      · cases H; exact hg

theorem trFuncs_get {d : Dict} {M : File → Option (CFile W)} {f : File} {sc : List Name} :
    ∀ {bs : List (List (Stmt W))} {fs : List (CStmt W)}, trFuncs d M f sc bs = some fs →
      ∀ {k : Nat} {b : List (Stmt W)}, bs[k]? = some b → ∃ b', trBlock d M f sc b = some b' ∧ fs[k]? = some (cblock b')
  | [], _, _, _, _, h => by simp at h
  | b0 :: bs, fs, H, k, b, h => by
    unfold trFuncs at H
    cases hb : trBlock d M f sc b0 with
    | none => rw [hb] at H; cases H
    | some b' =>
      rw [hb] at H
      dsimp only at H
      cases hr : trFuncs d M f sc bs with
      | none => rw [hr] at H; cases H
      | some q =>
        rw [hr] at H
        cases H
        cases k with
        | zero =>
          rw [List.getElem?_cons_zero] at h
          cases h
          exact ⟨b', hb, rfl⟩
        | succ k =>
          rw [List.getElem?_cons_succ] at h
          obtain ⟨b2, h1, h2⟩ := trFuncs_get hr h
          exact ⟨b2, h1, by rw [List.getElem?_cons_succ]; exact h2⟩

/-! ## Simulation -/

/-- The same world; the modules that are loaded are initialised, or this is in progress (`S`). -/
structure Sim (M : File → Option (CFile W)) (S : List File) (st : Py W) (ct : CSt W) : Prop where
  w : ct.w = st.w
  ini : ∀ g c, M g = some c → c.init.isSome = true → (g ∈ st.loaded ↔ g ∈ ct.ini ∨ g ∈ S)

theorem imports_nil {ss : List (Stmt W)} (h : ss.all (fun t => !t.isImport) = true) : imports ss = [] := by
  induction ss with
  | nil => rfl
  | cons s ss ih =>
    rw [List.all_cons, Bool.and_eq_true] at h
    cases s <;> first | (exact ih h.2) | (cases h.1)

theorem imports_body {s : Source W} {x a : Name} (h : (x, a) ∈ imports (s.body ++ s.after)) : (x, a) ∈ s.imports := by
  unfold Source.imports
  rw [List.mem_append, List.mem_append]
  exact Or.inl (Or.inl h)

theorem imports_main {s : Source W} {x a : Name} (h : (x, a) ∈ imports s.main) : (x, a) ∈ s.imports := by
  unfold Source.imports
  rw [List.mem_append, List.mem_append]
  exact Or.inl (Or.inr h)

theorem imports_func {s : Source W} {b : List (Stmt W)} (hb : b ∈ s.funcs) {x a : Name} (h : (x, a) ∈ imports b) :
    (x, a) ∈ s.imports := by
  unfold Source.imports
  rw [List.mem_append]
  exact Or.inr (List.mem_flatten.mpr ⟨_, List.mem_map.mpr ⟨b, hb, rfl⟩, h⟩)

theorem importsFirst_all {ss : List (Stmt W)} (h : ss.all (fun t => !t.isImport) = true) : importsFirst ss = true := by
  cases ss with
  | nil => rfl
  | cons s ss =>
    rw [List.all_cons, Bool.and_eq_true] at h
    unfold importsFirst
    have : s.isImport = false := by simpa using h.1
    rw [this]
    simpa using h.2

section
variable {P : Project W} {D : Nat} {F : File}

def SimS (P : Project W) (D : Nat) (F : File) (n : Nat) : Prop :=
  ∀ (cur : File) (d : Dict) (S : List File) (s : Stmt W) (c : CStmt W) (sc : List Name) (st st' : Py W) (ct : CSt W),
    Reaches P F cur → parse P D cur = some d → (∀ x ∈ sc, ∃ a, (x, a) ∈ (P.src cur).imports) →
    (∀ g ∈ S, rk P D cur ≤ rk P D g) → tr d cur sc s = some c → Sim (compile P D) S st ct →
    py P n cur s st = some st' → ∃ ct', Runs (compile P D) cur c ct ct' ∧ Sim (compile P D) S st' ct'

def SimB (P : Project W) (D : Nat) (F : File) (n : Nat) : Prop :=
  ∀ (cur : File) (d : Dict) (S : List File) (seen : List Name) (ss : List (Stmt W)) (r cs : List (CStmt W)) (sc : List Name)
    (st st' : Py W) (ct : CSt W),
    Reaches P F cur → parse P D cur = some d → (∀ x ∈ sc, ∃ a, (x, a) ∈ (P.src cur).imports) →
    (∀ x a, (x, a) ∈ imports ss → (x, a) ∈ (P.src cur).imports) →
    (∀ g ∈ S, rk P D cur ≤ rk P D g) → inits d (compile P D) seen (imports ss) = some r →
    trs d cur sc ss = some cs → importsFirst ss = true → OneName (imports ss) →
    (∀ x a g, (x, a) ∈ imports ss → a ∈ seen → P.find cur x = some g → g ∈ st.loaded) →
    Sim (compile P D) S st ct →
    py P n cur (block ss) st = some st' →
    ∃ ct', Runs (compile P D) cur (cblock (r ++ cs)) ct ct' ∧ Sim (compile P D) S st' ct'

/-- A function is called. -/
theorem sim_func (hM : ∃ c, compile P D F = some c) (ht : ∀ g, Reaches P F g → (P.src g).Tidy)
    {n : Nat} (IH : SimB P D F n) {g : File} {k : Nat} {b : List (Stmt W)} {S : List File} {st st' : Py W} {ct : CSt W}
    {cur : File} (hg : Reaches P F g) (hb : (P.src g).funcs[k]? = some b) (hS : ∀ h ∈ S, rk P D g ≤ rk P D h)
    (hsim : Sim (compile P D) S st ct) (H : py P n g (block b) st = some st') :
    ∃ ct', Runs (compile P D) cur (.call g k) ct ct' ∧ Sim (compile P D) S st' ct' := by
  obtain ⟨c0, hM⟩ := hM
  obtain ⟨c, hc⟩ := compile_reaches hg hM
  obtain ⟨d, hd, ha⟩ := compile_fix hc
  obtain ⟨_, _, _, _, h3, _, _⟩ := assemble_parts ha
  obtain ⟨b', h4, h5⟩ := trFuncs_get h3 hb
  have hbm : b ∈ (P.src g).funcs := List.mem_of_getElem? hb
  unfold trBlock at h4
  cases hi : inits d (compile P D) [] (imports b) with
  | none => rw [hi] at h4; cases h4
  | some r =>
    rw [hi] at h4
    dsimp only at h4
    cases htr : trs d g ((imports ((P.src g).body ++ (P.src g).after)).map (·.1) ++ (imports b).map (·.1)) b with
    | none => rw [htr] at h4; cases h4
    | some cs =>
      rw [htr] at h4
      cases h4
      obtain ⟨ct', ⟨m, hm⟩, hs'⟩ := IH g d S [] b r cs _ st st' ct hg hd (by
        intro x hx
        rcases List.mem_append.mp hx with hx | hx
        · obtain ⟨⟨y, a⟩, h6, rfl⟩ := List.mem_map.mp hx
          exact ⟨a, imports_body h6⟩
        · obtain ⟨⟨y, a⟩, h6, rfl⟩ := List.mem_map.mp hx
          exact ⟨a, imports_func hbm h6⟩) (fun x a h6 => imports_func hbm h6) hS hi htr ((ht g hg).2.2 b hbm).1
        ((ht g hg).2.2 b hbm).2 (fun _ _ _ _ h => absurd h List.not_mem_nil) hsim H
      refine ⟨ct', ⟨m + 1, ?_⟩, hs'⟩
      unfold cx
      rw [hc]
      dsimp only
      rw [h5]
      exact hm

theorem _root_.Verif.Imports.Spec.Reaches.tail {f g h : File} (h1 : Reaches P f g) (h2 : Imports P g h) : Reaches P f h := by
  induction h1 with
  | refl => exact .step h2 (.refl _)
  | step a _ ih => exact .step a (ih h2)

theorem simS (hM : ∃ c, compile P D F = some c) (hc : Consistent P) (ht : ∀ g, Reaches P F g → (P.src g).Tidy) :
    ∀ n, (∀ m, m < n → SimS P D F m ∧ SimB P D F m) → SimS P D F n := by
  intro n IH cur d S s c sc st st' ct hcur hd hsc hS htr hsim H
  cases n with
  | zero => cases H
  | succ n =>
    obtain ⟨IS, IB⟩ := IH n (Nat.lt_succ_self n)
    cases s with
    | skip => cases htr; cases H; exact ⟨ct, ⟨1, rfl⟩, hsim⟩
    | act g =>
      cases htr; cases H
      exact ⟨{ ct with w := g ct.w }, ⟨1, rfl⟩, ⟨by simp only [hsim.w], hsim.ini⟩⟩
    | imp x a => cases htr
    | call x k =>
      unfold tr at htr
      by_cases hx : x ∈ sc
      · rw [if_pos hx] at htr
        obtain ⟨a, ha⟩ := hsc x hx
        rw [parse_lookup hc hd ha] at htr
        unfold py at H
        cases hf : P.find cur x with
        | none => rw [hf] at htr; cases htr
        | some g =>
          rw [hf] at htr H
          cases htr
          dsimp only at H
          cases hb : (P.src g).funcs[k]? with
          | none => rw [hb] at H; cases H
          | some b =>
            rw [hb] at H
            dsimp only at H
            by_cases hl : g ∈ st.loaded
            · rw [if_pos hl] at H
              have hi : Imports P cur g := ⟨x, a, ha, hf⟩
              have := rk_lt hd hi
              exact sim_func hM ht IB (hcur.tail hi) hb (fun h hh => by have := hS h hh; omega) hsim H
            · rw [if_neg hl] at H; cases H
      · rw [if_neg hx] at htr; cases htr
    | own k =>
      cases htr
      unfold py at H
      cases hb : (P.src cur).funcs[k]? with
      | none => rw [hb] at H; cases H
      | some b =>
        rw [hb] at H
        exact sim_func hM ht IB hcur hb hS hsim H
    | seq s t =>
      unfold tr at htr
      unfold py at H
      cases h1 : tr d cur sc s with
      | none => rw [h1] at htr; cases htr
      | some s' =>
        rw [h1] at htr
        dsimp only at htr
        cases h2 : tr d cur sc t with
        | none => rw [h2] at htr; cases htr
        | some t' =>
          rw [h2] at htr
          cases htr
          cases hr : py P n cur s st with
          | none => rw [hr] at H; cases H
          | some st1 =>
            rw [hr] at H
            obtain ⟨ct1, h3, h4⟩ := IS cur d S s s' sc st st1 ct hcur hd hsc hS h1 hsim hr
            obtain ⟨ct2, h5, h6⟩ := IS cur d S t t' sc st1 st' ct1 hcur hd hsc hS h2 h4 H
            exact ⟨ct2, h3.seq h5, h6⟩
    | ite cnd s t =>
      unfold tr at htr
      unfold py at H
      cases h1 : tr d cur sc s with
      | none => rw [h1] at htr; cases htr
      | some s' =>
        rw [h1] at htr
        dsimp only at htr
        cases h2 : tr d cur sc t with
        | none => rw [h2] at htr; cases htr
        | some t' =>
          rw [h2] at htr
          cases htr
          by_cases hcnd : cnd st.w = true
          · rw [if_pos hcnd] at H
            obtain ⟨ct1, ⟨m, h3⟩, h4⟩ := IS cur d S s s' sc st st' ct hcur hd hsc hS h1 hsim H
            exact ⟨ct1, ⟨m + 1, by unfold cx; rw [hsim.w, if_pos hcnd]; exact h3⟩, h4⟩
          · rw [if_neg hcnd] at H
            obtain ⟨ct1, ⟨m, h3⟩, h4⟩ := IS cur d S t t' sc st st' ct hcur hd hsc hS h2 hsim H
            exact ⟨ct1, ⟨m + 1, by unfold cx; rw [hsim.w, if_neg hcnd]; exact h3⟩, h4⟩
    | loop cnd s =>
      have htr0 := htr
      unfold tr at htr
      unfold py at H
      cases h1 : tr d cur sc s with
      | none => rw [h1] at htr; cases htr
      | some s' =>
        rw [h1] at htr
        cases htr
        by_cases hcnd : cnd st.w = true
        · rw [if_pos hcnd] at H
          cases hr : py P n cur s st with
          | none => rw [hr] at H; cases H
          | some st1 =>
            rw [hr] at H
            obtain ⟨ct1, ⟨m1, h3⟩, h4⟩ := IS cur d S s s' sc st st1 ct hcur hd hsc hS h1 hsim hr
            obtain ⟨ct2, ⟨m2, h5⟩, h6⟩ := IS cur d S (.loop cnd s) (.loop cnd s') sc st1 st' ct1 hcur hd hsc hS htr0 h4 H
            refine ⟨ct2, ⟨max m1 m2 + 1, ?_⟩, h6⟩
            unfold cx
            rw [hsim.w, if_pos hcnd, cx_le h3 (Nat.le_max_left m1 m2)]
            exact cx_le h5 (Nat.le_max_right m1 m2)
        · rw [if_neg hcnd] at H
          cases H
          exact ⟨ct, ⟨1, by unfold cx; rw [hsim.w, if_neg hcnd]⟩, hsim⟩

/-- A file is loaded for the first time. -/
theorem sim_load (hM : ∃ c, compile P D F = some c) (ht : ∀ g, Reaches P F g → (P.src g).Tidy)
    {n : Nat} (IH : SimB P D F n) {g : File} {S : List File} {st st' : Py W} {ct : CSt W} {c : CFile W}
    (hg : Reaches P F g) (hS : ∀ h ∈ S, rk P D g ≤ rk P D h) (hc : compile P D g = some c)
    (hsim : Sim (compile P D) S st ct) (hl : g ∉ st.loaded)
    (H : py P n g (block ((P.src g).body ++ (P.src g).after)) { st with loaded := g :: st.loaded } = some st') :
    (∃ cur, ∃ ct', c.init.isSome = true ∧ Runs (compile P D) cur (.init g) ct ct' ∧ Sim (compile P D) S st' ct') ∨
      (c.init.isSome = false ∧ Sim (compile P D) S st' ct) := by
  obtain ⟨d, hd, ha⟩ := compile_fix hc
  obtain ⟨b, _, h1, _, _, _, h2⟩ := assemble_parts ha
  unfold trBlock at h1
  cases hi : inits d (compile P D) [] (imports ((P.src g).body ++ (P.src g).after)) with
  | none => rw [hi] at h1; cases h1
  | some r =>
    rw [hi] at h1
    dsimp only at h1
    cases htr : trs d g ((imports ((P.src g).body ++ (P.src g).after)).map (·.1) ++
        (imports ((P.src g).body ++ (P.src g).after)).map (·.1)) ((P.src g).body ++ (P.src g).after) with
    | none => rw [htr] at h1; cases h1
    | some cs =>
      rw [htr] at h1
      cases h1
      have key := fun S' hS' ct0 hs0 => IH g d S' [] _ r cs _ { st with loaded := g :: st.loaded } st' ct0 hg hd (by
        intro x hx
        rcases List.mem_append.mp hx with hx | hx <;>
        · obtain ⟨⟨y, a⟩, h6, rfl⟩ := List.mem_map.mp hx
          exact ⟨a, imports_body h6⟩) (fun x a h6 => imports_body h6) hS' hi htr (ht g hg).1.1 (ht g hg).1.2
        (fun _ _ _ _ h => absurd h List.not_mem_nil) hs0 H
      rcases h2 with ⟨hk, hin, _⟩ | ⟨_, temps, rest, _, hin, _⟩
      · right
        refine ⟨by rw [hin]; rfl, ?_⟩
        obtain ⟨ct', ⟨m, hm⟩, hs'⟩ := key S hS ct ⟨hsim.w, fun g' c' h3 h4 => by
          rw [← hsim.ini g' c' h3 h4]
          have hne : g' ≠ g := by
            intro he
            subst he
            rw [hc] at h3; cases h3
            rw [hin] at h4; cases h4
          simp [hne]⟩
        rw [cx_skips hk hm] at hs'
        exact hs'
      · left
        obtain ⟨ct', hm, hs'⟩ := key (g :: S) (fun h hh => by
          rcases List.mem_cons.mp hh with rfl | hh
          · exact Nat.le_refl _
          · exact hS h hh) ct ⟨hsim.w, fun g' c' h3 h4 => by
            simp only [List.mem_cons, hsim.ini g' c' h3 h4]
            constructor
            · rintro (h | h | h)
              · exact Or.inr (Or.inl h)
              · exact Or.inl h
              · exact Or.inr (Or.inr h)
            · rintro (h | h | h)
              · exact Or.inr (Or.inl h)
              · exact Or.inl h
              · exact Or.inr (Or.inr h)⟩
        obtain ⟨m, hm⟩ := Runs.append (Runs.frees temps ct') hm
        refine ⟨g, { ct' with ini := g :: ct'.ini, freed := ct'.freed ++ temps.map fun v => (g, v) }, by rw [hin]; rfl,
          ⟨m + 1, ?_⟩, hs'.w, fun g' c' h3 h4 => ?_⟩
        · unfold cx
          rw [hc]
          dsimp only
          rw [hin]
          dsimp only
          have : g ∉ ct.ini := by
            intro hgi
            exact hl ((hsim.ini g c hc (by rw [hin]; rfl)).mpr (Or.inl hgi))
          rw [if_neg this, hm]
          rfl
        · rw [hs'.ini g' c' h3 h4]
          simp only [List.mem_cons]
          constructor
          · rintro (h | h | h)
            · exact Or.inl (Or.inr h)
            · exact Or.inl (Or.inl h)
            · exact Or.inr h
          · rintro ((h | h) | h)
            · exact Or.inr (Or.inl h)
            · exact Or.inl h
            · exact Or.inr (Or.inr h)

theorem Runs.init_cur {M : File → Option (CFile W)} {f f' g : File} {a b : CSt W} (h : Runs M f (.init g) a b) :
    Runs M f' (.init g) a b := by
  obtain ⟨n, h⟩ := h
  cases n with
  | zero => cases h
  | succ n => exact ⟨n + 1, h⟩

theorem simB (hM : ∃ c, compile P D F = some c) (hc : Consistent P) (ht : ∀ g, Reaches P F g → (P.src g).Tidy) :
    ∀ n, (∀ m, m < n → SimS P D F m ∧ SimB P D F m) → SimB P D F n := by
  intro n IH cur d S seen ss r cs sc st st' ct hcur hd hsc himp hS hin htr hfirst hone hseen hsim H
  cases n with
  | zero => cases H
  | succ n =>
    obtain ⟨IS, IB⟩ := IH n (Nat.lt_succ_self n)
    cases ss with
    | nil => cases hin; cases htr; cases H; exact ⟨ct, Runs.nil, hsim⟩
    | cons s ss =>
      unfold block py at H
      cases hr : py P n cur s st with
      | none => rw [hr] at H; cases H
      | some st1 =>
      rw [hr] at H
      dsimp only at H
      by_cases hs : s.isImport = true
      · cases s with
        | imp x a =>
          unfold importsFirst at hfirst
          rw [if_pos hs] at hfirst
          have hxi : (x, a) ∈ (P.src cur).imports := himp x a List.mem_cons_self
          unfold imports inits at hin
          rw [parse_lookup hc hd hxi] at hin
          cases n with
          | zero => cases hr
          | succ n =>
          have hld := fun g hg => py_loaded hr g hg
          unfold py at hr
          cases hf : P.find cur x with
          | none => rw [hf] at hin; cases hin
          | some g =>
          rw [hf] at hin hr
          dsimp only at hin hr
          cases hg : compile P D g with
          | none => rw [hg] at hin; cases hin
          | some c =>
          rw [hg] at hin
          dsimp only at hin
          unfold trs at htr
          rw [if_pos hs] at htr
          have hi : Imports P cur g := ⟨x, a, hxi, hf⟩
          have hrk := rk_lt hd hi
          have hone' : OneName (imports ss) := fun u v w h1 h2 =>
            hone u v w (List.mem_cons_of_mem _ h1) (List.mem_cons_of_mem _ h2)
          have himp' := fun u v h => himp u v (List.mem_cons_of_mem _ h)
          by_cases hl : g ∈ st.loaded
          · rw [if_pos hl] at hr
            cases hr
            by_cases ha : a ∈ seen
            · rw [if_pos ha] at hin
              exact IB cur d S seen ss r cs sc st st' ct hcur hd hsc himp' hS hin htr hfirst hone'
                (fun u v w h1 h2 h3 => hseen u v w (List.mem_cons_of_mem _ h1) h2 h3) hsim H
            · rw [if_neg ha] at hin
              cases hq : inits d (compile P D) (a :: seen) (imports ss) with
              | none => rw [hq] at hin; cases hin
              | some q =>
                rw [hq] at hin
                obtain ⟨ct', h1, h2⟩ := IB cur d S (a :: seen) ss q cs sc st st' ct hcur hd hsc himp' hS hq htr hfirst hone'
                  (fun u v w h1 h2 h3 => by
                    rcases List.mem_cons.mp h2 with h2 | h2
                    · subst h2
                      have := hone u x v (List.mem_cons_of_mem _ h1) List.mem_cons_self
                      subst this
                      rw [hf] at h3; cases h3
                      exact hl
                    · exact hseen u v w (List.mem_cons_of_mem _ h1) h2 h3) hsim H
                cases hci : c.init.isSome with
                | false =>
                  rw [hci] at hin
                  cases hin
                  exact ⟨ct', h1, h2⟩
                | true =>
                  rw [hci] at hin
                  cases hin
                  refine ⟨ct', Runs.cons (b := ct) ⟨1, ?_⟩ h1, h2⟩
                  obtain ⟨b, hb⟩ := Option.isSome_iff_exists.mp hci
                  unfold cx
                  rw [hg]
                  dsimp only
                  rw [hb]
                  dsimp only
                  rcases (hsim.ini g c hg hci).mp hl with h | h
                  · rw [if_pos h]
                  · have := hS g h
                    omega
          · rw [if_neg hl] at hr
            have ha : a ∉ seen := fun ha => hl (hseen x a g List.mem_cons_self ha hf)
            rw [if_neg ha] at hin
            cases hq : inits d (compile P D) (a :: seen) (imports ss) with
            | none => rw [hq] at hin; cases hin
            | some q =>
              rw [hq] at hin
              have hseen' : ∀ u v w, (u, v) ∈ imports ss → v ∈ a :: seen → P.find cur u = some w → w ∈ st1.loaded := by
                intro u v w h1 h2 h3
                rcases List.mem_cons.mp h2 with h2 | h2
                · subst h2
                  have := hone u x v (List.mem_cons_of_mem _ h1) List.mem_cons_self
                  subst this
                  rw [hf] at h3; cases h3
                  exact py_loaded hr g List.mem_cons_self
                · exact hld w (hseen u v w (List.mem_cons_of_mem _ h1) h2 h3)
              have hB := (IH n (by omega)).2
              rcases sim_load hM ht hB (hcur.tail hi) (fun h hh => by have := hS h hh; omega) hg hsim hl hr with
                ⟨_, ct1, hci, h1, h2⟩ | ⟨hci, h2⟩
              · obtain ⟨ct', h3, h4⟩ := IB cur d S (a :: seen) ss q cs sc st1 st' ct1 hcur hd hsc himp' hS hq htr hfirst
                  hone' hseen' h2 H
                rw [hci] at hin
                cases hin
                exact ⟨ct', Runs.cons h1.init_cur h3, h4⟩
              · obtain ⟨ct', h3, h4⟩ := IB cur d S (a :: seen) ss q cs sc st1 st' ct hcur hd hsc himp' hS hq htr hfirst
                  hone' hseen' h2 H
                rw [hci] at hin
                cases hin
                exact ⟨ct', h3, h4⟩
        | _ => cases hs
      · unfold importsFirst at hfirst
        rw [if_neg hs] at hfirst
        have hnil := imports_nil hfirst
        have hnil' : imports (s :: ss) = [] := by
          cases s <;> first | exact hnil | exact absurd rfl hs
        rw [hnil'] at hin
        cases hin
        unfold trs at htr
        rw [if_neg hs] at htr
        cases h1 : tr d cur sc s with
        | none => rw [h1] at htr; cases htr
        | some s' =>
          rw [h1] at htr
          dsimp only at htr
          cases h2 : trs d cur sc ss with
          | none => rw [h2] at htr; cases htr
          | some cs' =>
            rw [h2] at htr
            cases htr
            obtain ⟨ct1, h3, h4⟩ := IS cur d S s s' sc st st1 ct hcur hd hsc hS h1 hsim hr
            obtain ⟨ct2, h5, h6⟩ := IB cur d S [] ss [] cs' sc st1 st' ct1 hcur hd hsc
              (fun u v h => by rw [hnil] at h; cases h) hS (by rw [hnil]; rfl) h2 (importsFirst_all hfirst)
              (fun u v w h => by rw [hnil] at h; cases h) (fun u v w h => by rw [hnil] at h; cases h) h4 H
            exact ⟨ct2, Runs.cons h3 h5, h6⟩

theorem sim_all (hM : ∃ c, compile P D F = some c) (hc : Consistent P) (ht : ∀ g, Reaches P F g → (P.src g).Tidy) :
    ∀ n, ∀ m, m < n → SimS P D F m ∧ SimB P D F m
  | 0, _, h => absurd h (Nat.not_lt_zero _)
  | n + 1, m, h => by
    have ih := sim_all hM hc ht n
    rcases Nat.lt_succ_iff_lt_or_eq.mp h with h | rfl
    · exact ih m h
    · exact ⟨simS hM hc ht m ih, simB hM hc ht m ih⟩

end

end Verif.Imports.Model
