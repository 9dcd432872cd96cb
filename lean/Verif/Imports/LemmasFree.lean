import Verif.Imports.LemmasSim

/-! # Programs of several files: which memory is freed -/

namespace Verif.Imports.Model
open Spec

variable {W : Type}

/-! ## Variables for intermediate results -/

theorem perm_pop {α : Type} : ∀ {l : List α} {i : Nat} {v : α}, l[i]? = some v → (v :: l.eraseIdx i).Perm l
  | [], _, _, h => by simp at h
  | x :: l, 0, v, h => by
    rw [List.getElem?_cons_zero] at h
    cases h
    exact List.Perm.refl _
  | x :: l, i + 1, v, h => by
    rw [List.getElem?_cons_succ] at h
    rw [List.eraseIdx_cons_succ]
    exact (List.Perm.swap _ _ _).trans ((perm_pop h).cons x)

theorem popLoop_perm : ∀ {vs : List (Nat × Bool)} {i : Nat} {rest out o r : List Nat},
    popLoop vs i rest out = some (o, r) → (o ++ r).Perm (out ++ rest)
  | [], _, _, _, _, _, H => by cases H; exact List.Perm.refl _
  | (v, tmp) :: vs, i, rest, out, o, r, H => by
    unfold popLoop at H
    cases tmp with
    | false => exact popLoop_perm H
    | true =>
      rw [if_pos rfl] at H
      cases hv : rest[i]? with
      | none => rw [hv] at H; cases H
      | some u =>
        rw [hv] at H
        refine (popLoop_perm H).trans ?_
        rw [List.append_assoc]
        exact (perm_pop hv).append_left out

theorem split_perm {l : List (Nat × Bool)} {o r : List Nat} (H : split l = some (o, r)) :
    (o ++ r).Perm (l.map (·.1)) := popLoop_perm H

theorem popLoop_none : ∀ {vs : List (Nat × Bool)} {i : Nat} {rest out : List Nat}, (∀ q ∈ vs, q.2 = false) →
    popLoop vs i rest out = some (out, rest)
  | [], _, _, _, _ => rfl
  | (v, tmp) :: vs, i, rest, out, h => by
    unfold popLoop
    rw [if_neg (by have : tmp = false := h _ List.mem_cons_self; simp [this])]
    exact popLoop_none fun q hq => h q (List.mem_cons_of_mem _ hq)

theorem popLoop_one : ∀ {vs : List (Nat × Bool)} {front out : List Nat}, (vs.filter (·.2)).length ≤ 1 →
    popLoop vs front.length (front ++ vs.map (·.1)) out =
      some (out ++ (vs.filter (·.2)).map (·.1), front ++ (vs.filter (fun q => !q.2)).map (·.1))
  | [], front, out, _ => by simp [popLoop]
  | (v, false) :: vs, front, out, h => by
    have := popLoop_one (vs := vs) (front := front ++ [v]) (out := out) (by simpa using h)
    unfold popLoop
    rw [if_neg (by simp)]
    rw [List.length_append] at this
    simpa using this
  | (v, true) :: vs, front, out, h => by
    have hn : ∀ q ∈ vs, q.2 = false := by
      intro q hq
      cases hq2 : q.2 with
      | false => rfl
      | true =>
        have : q ∈ vs.filter (·.2) := List.mem_filter.mpr ⟨hq, hq2⟩
        rw [List.filter_cons_of_pos rfl, List.length_cons] at h
        rw [List.eq_nil_of_length_eq_zero (by omega : (vs.filter (·.2)).length = 0)] at this
        cases this
    unfold popLoop
    rw [if_pos rfl]
    have hget : (front ++ ((v, true) :: vs).map (·.1))[front.length]? = some v := by simp
    rw [hget]
    dsimp only
    rw [popLoop_none hn]
    have h1 : vs.filter (·.2) = [] := List.filter_eq_nil_iff.mpr fun q hq => by simp [hn q hq]
    have h2 : vs.filter (fun q => !q.2) = vs := List.filter_eq_self.mpr fun q hq => by simp [hn q hq]
    have h3 : (front ++ ((v, true) :: vs).map (·.1)).eraseIdx front.length = front ++ vs.map (·.1) := by
      rw [List.eraseIdx_append_of_length_le (Nat.le_refl _)]
      simp
    rw [h3]
    simp [h1, h2]

theorem split_one {l : List (Nat × Bool)} (h : (l.filter (·.2)).length ≤ 1) :
    split l = some ((l.filter (·.2)).map (·.1), (l.filter (fun q => !q.2)).map (·.1)) := by
  have := popLoop_one (vs := l) (front := []) (out := []) h
  unfold split
  simpa using this

/-! ## Calls go to files further down -/

section
variable {P : Project W} {D : Nat}

theorem rk_reaches {f g : File} (h : Reaches P f g) : ∀ {d : Dict}, parse P D f = some d → rk P D g ≤ rk P D f := by
  induction h with
  | refl => exact fun _ => Nat.le_refl _
  | @step f g _ hi hr ih =>
    intro d H
    have h1 := rk_lt H hi
    cases D with
    | zero => cases H
    | succ D =>
      obtain ⟨e, he⟩ := parse_import H hi
      have := ih (parse_mono he)
      omega

theorem reaches_trans {f g h : File} (h1 : Reaches P f g) (h2 : Reaches P g h) : Reaches P f h := by
  induction h1 with
  | refl => exact h2
  | step a _ ih => exact .step a (ih h2)

theorem lookup_below {f g : File} {d : Dict} {x : Name} (H : parse P D f = some d) (h : d.lookup x = some g) :
    Reaches P f g ∧ rk P D g < rk P D f := by
  obtain ⟨f', a, h1, h2, h3⟩ := parse_sound H x g (lookup_mem h)
  have hi : Imports P f' g := ⟨x, a, h2, h3⟩
  refine ⟨h1.tail hi, ?_⟩
  obtain ⟨e, he⟩ := parse_reaches h1 H
  have := rk_lt he hi
  have := rk_reaches h1 H
  omega

/-- Generated code of file `cur`, without what is freed. -/
def Gen (P : Project W) (D : Nat) (cur : File) : CStmt W → Prop
  | .skip => True
  | .act _ => True
  | .init g => Reaches P cur g ∧ rk P D g < rk P D cur
  | .call g _ => Reaches P cur g ∧ rk P D g ≤ rk P D cur
  | .free _ => False
  | .seq s t => Gen P D cur s ∧ Gen P D cur t
  | .ite _ s t => Gen P D cur s ∧ Gen P D cur t
  | .loop _ s => Gen P D cur s

theorem gen_tr {cur : File} {d : Dict} (H : parse P D cur = some d) {sc : List Name} :
    ∀ {s : Stmt W} {c : CStmt W}, tr d cur sc s = some c → Gen P D cur c
  | .skip, c, h => by cases h; exact trivial
  | .act _, c, h => by cases h; exact trivial
  | .imp _ _, c, h => by cases h
  | .call x k, c, h => by
    unfold tr at h
    split at h
    · cases hl : d.lookup x with
      | none => rw [hl] at h; cases h
      | some g =>
        rw [hl] at h; cases h
        exact ⟨(lookup_below H hl).1, Nat.le_of_lt (lookup_below H hl).2⟩
    · cases h
  | .own k, c, h => by cases h; exact ⟨.refl _, Nat.le_refl _⟩
  | .seq s t, c, h => by
    unfold tr at h
    cases h1 : tr d cur sc s with
    | none => rw [h1] at h; cases h
    | some s' =>
      rw [h1] at h
      dsimp only at h
      cases h2 : tr d cur sc t with
      | none => rw [h2] at h; cases h
      | some t' => rw [h2] at h; cases h; exact ⟨gen_tr H h1, gen_tr H h2⟩
  | .ite _ s t, c, h => by
    unfold tr at h
    cases h1 : tr d cur sc s with
    | none => rw [h1] at h; cases h
    | some s' =>
      rw [h1] at h
      dsimp only at h
      cases h2 : tr d cur sc t with
      | none => rw [h2] at h; cases h
      | some t' => rw [h2] at h; cases h; exact ⟨gen_tr H h1, gen_tr H h2⟩
  | .loop _ s, c, h => by
    unfold tr at h
    cases h1 : tr d cur sc s with
    | none => rw [h1] at h; cases h
    | some s' => rw [h1] at h; cases h; exact (gen_tr H h1 : Gen P D cur s')

theorem gen_cblock {cur : File} : ∀ {b : List (CStmt W)}, (∀ s ∈ b, Gen P D cur s) → Gen P D cur (cblock b)
  | [], _ => trivial
  | s :: b, h => ⟨h s List.mem_cons_self, gen_cblock fun t ht => h t (List.mem_cons_of_mem _ ht)⟩

theorem gen_trs {cur : File} {d : Dict} (H : parse P D cur = some d) {sc : List Name} :
    ∀ {ss : List (Stmt W)} {cs : List (CStmt W)}, trs d cur sc ss = some cs → ∀ c ∈ cs, Gen P D cur c
  | [], _, h, _, hc => by cases h; cases hc
  | s :: ss, cs, h, c, hc => by
    unfold trs at h
    split at h
    · exact gen_trs H h c hc
    · cases h1 : tr d cur sc s with
      | none => rw [h1] at h; cases h
      | some s' =>
        rw [h1] at h
        dsimp only at h
        cases h2 : trs d cur sc ss with
        | none => rw [h2] at h; cases h
        | some q =>
          rw [h2] at h
          cases h
          rcases List.mem_cons.mp hc with rfl | hc
          · exact gen_tr H h1
          · exact gen_trs H h2 c hc

theorem gen_inits {cur : File} {d : Dict} (H : parse P D cur = some d) {M : File → Option (CFile W)} :
    ∀ {is : List (Name × Name)} {seen : List Name} {r : List (CStmt W)}, inits d M seen is = some r →
      ∀ c ∈ r, Gen P D cur c
  | [], _, _, h, _, hc => by cases h; cases hc
  | (x, a) :: is, seen, r, h, c, hc => by
    unfold inits at h
    cases hx : d.lookup x with
    | none => rw [hx] at h; cases h
    | some g =>
      rw [hx] at h
      dsimp only at h
      cases hg : M g with
      | none => rw [hg] at h; cases h
      | some cf =>
        rw [hg] at h
        dsimp only at h
        split at h
        · exact gen_inits H h c hc
        · cases hr : inits d M (a :: seen) is with
          | none => rw [hr] at h; cases h
          | some q =>
            rw [hr] at h
            simp only [Option.map_some, Option.some.injEq] at h
            subst h
            split at hc
            · rcases List.mem_cons.mp hc with rfl | hc
              · exact lookup_below H hx
              · exact gen_inits H hr c hc
            · exact gen_inits H hr c hc

theorem gen_trBlock {cur : File} {d : Dict} (H : parse P D cur = some d) {M : File → Option (CFile W)} {sc : List Name}
    {ss : List (Stmt W)} {b : List (CStmt W)} (h : trBlock d M cur sc ss = some b) : ∀ c ∈ b, Gen P D cur c := by
  unfold trBlock at h
  cases hi : inits d M [] (imports ss) with
  | none => rw [hi] at h; cases h
  | some r =>
    rw [hi] at h
    dsimp only at h
    cases ht : trs d cur (sc ++ (imports ss).map (·.1)) ss with
    | none => rw [ht] at h; cases h
    | some cs =>
      rw [ht] at h
      cases h
      intro c hc
      rcases List.mem_append.mp hc with hc | hc
      · exact gen_inits H hi c hc
      · exact gen_trs H ht c hc

theorem gen_trFuncs {cur : File} {d : Dict} (H : parse P D cur = some d) {M : File → Option (CFile W)} {sc : List Name} :
    ∀ {bs : List (List (Stmt W))} {fs : List (CStmt W)}, trFuncs d M cur sc bs = some fs → ∀ c ∈ fs, Gen P D cur c
  | [], _, h, _, hc => by cases h; cases hc
  | b :: bs, fs, h, c, hc => by
    unfold trFuncs at h
    cases hb : trBlock d M cur sc b with
    | none => rw [hb] at h; cases h
    | some b' =>
      rw [hb] at h
      dsimp only at h
      cases hr : trFuncs d M cur sc bs with
      | none => rw [hr] at h; cases h
      | some q =>
        rw [hr] at h
        cases h
        rcases List.mem_cons.mp hc with rfl | hc
        · exact gen_cblock (gen_trBlock H hb)
        · exact gen_trFuncs H hr c hc

/-! ## While the program runs -/

/-- What is freed at the end of the initialisation. -/
def temps (P : Project W) (g : File) : List Nat := ((split (P.src g).allocs).map (·.1)).getD []

/-- What is freed at the end of the program. -/
def rest (P : Project W) (g : File) : List Nat := ((split (P.src g).allocs).map (·.2)).getD []

/-- Variables for intermediate results are freed in the files that are initialised, once. -/
structure Inv (P : Project W) (ct : CSt W) : Prop where
  freed : ∀ g v, (g, v) ∈ ct.freed ↔ g ∈ ct.ini ∧ v ∈ temps P g
  nodup : ct.freed.Nodup

theorem cx_append {M : File → Option (CFile W)} {f : File} {t : List (CStmt W)} : ∀ {s : List (CStmt W)} {n : Nat}
    {a c : CSt W}, cx M n f (cblock (s ++ t)) a = some c →
    ∃ b m, cx M n f (cblock s) a = some b ∧ cx M m f (cblock t) b = some c ∧ m ≤ n
  | _, 0, _, _, H => by cases H
  | [], n + 1, a, c, H => ⟨a, n + 1, rfl, H, Nat.le_refl _⟩
  | x :: s, n + 1, a, c, H => by
    rw [List.cons_append] at H
    unfold cblock cx at H
    cases hx : cx M n f x a with
    | none => rw [hx] at H; cases H
    | some a1 =>
      rw [hx] at H
      obtain ⟨b, m, h1, h2, h3⟩ := cx_append H
      refine ⟨b, m, ?_, h2, by omega⟩
      unfold cblock cx
      rw [hx]
      exact h1

theorem cx_frees {M : File → Option (CFile W)} {f : File} {vs : List Nat} {n : Nat} {a c : CSt W}
    (H : cx M n f (cblock (vs.map .free)) a = some c) : c = { a with freed := a.freed ++ vs.map fun v => (f, v) } := by
  obtain ⟨m, hm⟩ := Runs.frees (M := M) (f := f) vs a
  exact cx_det H hm

theorem nodup_frees {ct : CSt W} {g : File} (hi : Inv P ct) (hg : g ∉ ct.ini) (hn : (temps P g).Nodup) :
    Inv P { ct with ini := g :: ct.ini, freed := ct.freed ++ (temps P g).map fun v => (g, v) } := by
  constructor
  · intro h v
    simp only [List.mem_append, List.mem_map, Prod.mk.injEq, List.mem_cons]
    constructor
    · rintro (h1 | ⟨u, h1, rfl, rfl⟩)
      · exact ⟨Or.inr ((hi.freed h v).mp h1).1, ((hi.freed h v).mp h1).2⟩
      · exact ⟨Or.inl rfl, h1⟩
    · rintro ⟨h1 | h1, h2⟩
      · subst h1; exact Or.inr ⟨v, h2, rfl, rfl⟩
      · exact Or.inl ((hi.freed h v).mpr ⟨h1, h2⟩)
  · show (ct.freed ++ (temps P g).map fun v => (g, v)).Nodup
    rw [List.nodup_append]
    refine ⟨hi.nodup, ?_, ?_⟩
    · unfold List.Nodup
      rw [List.pairwise_map]
      exact hn.imp fun h1 h2 => h1 (Prod.mk.inj h2).2
    · rintro ⟨h, v⟩ h1 b hb heq
      obtain ⟨u, _, rfl⟩ := List.mem_map.mp hb
      cases heq
      exact hg ((hi.freed _ _).mp h1).1

theorem cx_inv (hn : ∀ g, ((P.src g).allocs.map (·.1)).Nodup) : ∀ {n : Nat} {cur : File} {c : CStmt W} {ct ct' : CSt W},
    (∃ cf, compile P D cur = some cf) → Gen P D cur c → Inv P ct →
    cx (compile P D) n cur c ct = some ct' →
    Inv P ct' ∧ (∀ g ∈ ct.ini, g ∈ ct'.ini) ∧ ∀ g ∈ ct'.ini, g ∈ ct.ini ∨ rk P D g < rk P D cur
  | 0, _, _, _, _, _, _, _, H => by cases H
  | n + 1, cur, c, ct, ct', hcur, hgen, hinv, H => by
    cases c with
    | skip => cases H; exact ⟨hinv, fun _ h => h, fun _ h => Or.inl h⟩
    | act f => cases H; exact ⟨⟨hinv.freed, hinv.nodup⟩, fun _ h => h, fun _ h => Or.inl h⟩
    | free v => exact absurd hgen id
    | init g =>
      obtain ⟨hr, hrk⟩ := hgen
      unfold cx at H
      cases hg : compile P D g with
      | none => rw [hg] at H; cases H
      | some cf =>
        rw [hg] at H
        dsimp only at H
        cases hi : cf.init with
        | none => rw [hi] at H; cases H
        | some b =>
          rw [hi] at H
          dsimp only at H
          by_cases hin : g ∈ ct.ini
          · rw [if_pos hin] at H
            cases H
            exact ⟨hinv, fun _ h => h, fun _ h => Or.inl h⟩
          · rw [if_neg hin] at H
            obtain ⟨d, hd, ha⟩ := compile_fix hg
            obtain ⟨bb, _, h1, _, _, _, h2⟩ := assemble_parts ha
            rcases h2 with ⟨_, h2, _⟩ | ⟨_, ts, rs, hsp, h2, _⟩
            · rw [hi] at h2; cases h2
            · rw [hi] at h2
              cases h2
              cases hrun : cx (compile P D) n g (cblock (bb ++ ts.map .free)) ct with
              | none => rw [hrun] at H; cases H
              | some r =>
                rw [hrun] at H
                cases H
                obtain ⟨ct1, m, h3, h4, h5⟩ := cx_append hrun
                obtain ⟨i1, i2, i3⟩ := cx_inv hn ⟨cf, hg⟩ (gen_cblock (gen_trBlock hd h1)) hinv h3
                have hts : ts = temps P g := by unfold temps; rw [hsp]; rfl
                have hg1 : g ∉ ct1.ini := by
                  intro h
                  rcases i3 g h with h | h
                  · exact hin h
                  · omega
                have htn : (temps P g).Nodup := by
                  have := (split_perm hsp).nodup_iff.mpr (hn g)
                  rw [← hts]
                  exact (List.nodup_append.mp this).1
                rw [cx_frees h4, hts]
                refine ⟨nodup_frees i1 hg1 htn, fun h hh => List.mem_cons_of_mem _ (i2 h hh), fun h hh => ?_⟩
                rcases List.mem_cons.mp hh with rfl | hh
                · exact Or.inr hrk
                · rcases i3 h hh with h6 | h6
                  · exact Or.inl h6
                  · exact Or.inr (by omega)
    | call g k =>
      obtain ⟨hr, hrk⟩ := hgen
      unfold cx at H
      cases hg : compile P D g with
      | none => rw [hg] at H; cases H
      | some cf =>
        rw [hg] at H
        dsimp only at H
        cases hi : cf.funcs[k]? with
        | none => rw [hi] at H; cases H
        | some b =>
          rw [hi] at H
          dsimp only at H
          obtain ⟨d, hd, ha⟩ := compile_fix hg
          obtain ⟨_, _, _, _, h3, _, _⟩ := assemble_parts ha
          obtain ⟨i1, i2, i3⟩ := cx_inv hn ⟨cf, hg⟩ (gen_trFuncs hd h3 b (List.mem_of_getElem? hi)) hinv H
          refine ⟨i1, i2, fun h hh => ?_⟩
          rcases i3 h hh with h6 | h6
          · exact Or.inl h6
          · exact Or.inr (by omega)
    | seq s t =>
      unfold cx at H
      cases hs : cx (compile P D) n cur s ct with
      | none => rw [hs] at H; cases H
      | some r =>
        rw [hs] at H
        obtain ⟨i1, i2, i3⟩ := cx_inv hn hcur hgen.1 hinv hs
        obtain ⟨j1, j2, j3⟩ := cx_inv hn hcur hgen.2 i1 H
        refine ⟨j1, fun h hh => j2 h (i2 h hh), fun h hh => ?_⟩
        rcases j3 h hh with h6 | h6
        · exact i3 h h6
        · exact Or.inr h6
    | ite cnd s t =>
      unfold cx at H
      split at H
      · exact cx_inv hn hcur hgen.1 hinv H
      · exact cx_inv hn hcur hgen.2 hinv H
    | loop cnd s =>
      have hgen' := hgen
      unfold cx at H
      split at H
      · cases hs : cx (compile P D) n cur s ct with
        | none => rw [hs] at H; cases H
        | some r =>
          rw [hs] at H
          obtain ⟨i1, i2, i3⟩ := cx_inv hn hcur (c := s) hgen hinv hs
          obtain ⟨j1, j2, j3⟩ := cx_inv hn hcur (c := .loop cnd s) hgen' i1 H
          refine ⟨j1, fun h hh => j2 h (i2 h hh), fun h hh => ?_⟩
          rcases j3 h hh with h6 | h6
          · exact i3 h h6
          · exact Or.inr h6
      · cases H
        exact ⟨hinv, fun _ h => h, fun _ h => Or.inl h⟩

end

end Verif.Imports.Model
