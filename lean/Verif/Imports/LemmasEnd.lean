import Verif.Imports.LemmasFree

/-! # Programs of several files: what is freed at the end -/

namespace Verif.Imports.Model
open Spec

variable {W : Type} {P : Project W} {D : Nat} {F : File}

/-- `f` imports `g` at its top. -/
def Top (P : Project W) (f g : File) : Prop :=
  ∃ x a, (x, a) ∈ imports ((P.src f).body ++ (P.src f).after) ∧ P.find f x = some g

theorem Top.imports {f g : File} (h : Top P f g) : Imports P f g := by
  obtain ⟨x, a, h1, h2⟩ := h
  exact ⟨x, a, imports_body h1, h2⟩

theorem inits_mem {d : Dict} {M : File → Option (CFile W)} {x a : Name} {h : File} {c : CFile W}
    (hx : d.lookup x = some h) (hM : M h = some c) (hc : c.init.isSome = true) :
    ∀ {is : List (Name × Name)} {seen : List Name} {r : List (CStmt W)}, inits d M seen is = some r → OneName is →
      (x, a) ∈ is → a ∉ seen → .init h ∈ r
  | [], _, _, _, _, hm, _ => by cases hm
  | (y, b) :: is, seen, r, H, hone, hm, ha => by
    unfold inits at H
    have hone' : OneName is := fun u v w h1 h2 => hone u v w (List.mem_cons_of_mem _ h1) (List.mem_cons_of_mem _ h2)
    cases hy : d.lookup y with
    | none => rw [hy] at H; cases H
    | some g =>
      rw [hy] at H
      dsimp only at H
      cases hg : M g with
      | none => rw [hg] at H; cases H
      | some cf =>
        rw [hg] at H
        dsimp only at H
        by_cases hb : b ∈ seen
        · rw [if_pos hb] at H
          rcases List.mem_cons.mp hm with hm | hm
          · cases hm; exact absurd hb ha
          · exact inits_mem hx hM hc H hone' hm ha
        · rw [if_neg hb] at H
          cases hr : inits d M (b :: seen) is with
          | none => rw [hr] at H; cases H
          | some q =>
            rw [hr] at H
            simp only [Option.map_some, Option.some.injEq] at H
            by_cases hab : a = b
            · subst hab
              have := hone x y a hm List.mem_cons_self
              subst this
              rw [hx] at hy; cases hy
              rw [hM] at hg; cases hg
              rw [if_pos hc] at H
              rw [← H]
              exact List.mem_cons_self
            · have hm' : (x, a) ∈ is := by
                rcases List.mem_cons.mp hm with hm | hm
                · cases hm; exact absurd rfl hab
                · exact hm
              have := inits_mem hx hM hc hr hone' hm' (by
                intro h'
                rcases List.mem_cons.mp h' with h' | h'
                · exact hab h'
                · exact ha h')
              rw [← H]
              split
              · exact List.mem_cons_of_mem _ this
              · exact this

/-- The calls for the modules that are imported at the top. -/
theorem top_init (hc : Consistent P) {g h : File} {d : Dict} {c ch : CFile W} {b : List (CStmt W)} {sc : List Name}
    (hd : parse P D g = some d)
    (hb : trBlock d (compile P D) g sc ((P.src g).body ++ (P.src g).after) = some b)
    (hone : OneName (imports ((P.src g).body ++ (P.src g).after))) (ht : Top P g h)
    (hh : compile P D h = some ch) (hi : ch.init.isSome = true) : .init h ∈ b := by
  obtain ⟨x, a, h1, h2⟩ := ht
  unfold trBlock at hb
  cases hin : inits d (compile P D) [] (imports ((P.src g).body ++ (P.src g).after)) with
  | none => rw [hin] at hb; cases hb
  | some r =>
    rw [hin] at hb
    dsimp only at hb
    cases htr : trs d g (sc ++ (imports ((P.src g).body ++ (P.src g).after)).map (·.1))
        ((P.src g).body ++ (P.src g).after) with
    | none => rw [htr] at hb; cases hb
    | some cs =>
      rw [htr] at hb
      cases hb
      refine List.mem_append_left _ (inits_mem ?_ hh hi hin hone h1 List.not_mem_nil)
      rw [parse_lookup hc hd (imports_body h1), h2]

theorem cx_init_mem {M : File → Option (CFile W)} {n : Nat} {f h : File} {a b : CSt W}
    (H : cx M n f (.init h) a = some b) : h ∈ b.ini := by
  cases n with
  | zero => cases H
  | succ n =>
    unfold cx at H
    cases hM : M h with
    | none => rw [hM] at H; cases H
    | some c =>
      rw [hM] at H
      dsimp only at H
      cases hi : c.init with
      | none => rw [hi] at H; cases H
      | some s =>
        rw [hi] at H
        dsimp only at H
        by_cases hin : h ∈ a.ini
        · rw [if_pos hin] at H; cases H; exact hin
        · rw [if_neg hin] at H
          cases hr : cx M n h s a with
          | none => rw [hr] at H; cases H
          | some r => rw [hr] at H; cases H; exact List.mem_cons_self

theorem block_init (hn : ∀ g, ((P.src g).allocs.map (·.1)).Nodup) {cur h : File} {cf : CFile W}
    (hcur : compile P D cur = some cf) : ∀ {b : List (CStmt W)} {n : Nat} {ct ct' : CSt W},
    (∀ s ∈ b, Gen P D cur s) → Inv P ct → .init h ∈ b → cx (compile P D) n cur (cblock b) ct = some ct' → h ∈ ct'.ini
  | [], _, _, _, _, _, hm, _ => by cases hm
  | _, 0, _, _, _, _, _, H => by cases H
  | s :: b, n + 1, ct, ct', hgen, hinv, hm, H => by
    unfold cblock cx at H
    cases hs : cx (compile P D) n cur s ct with
    | none => rw [hs] at H; cases H
    | some r =>
      rw [hs] at H
      dsimp only at H
      obtain ⟨i1, _, _⟩ := cx_inv hn ⟨cf, hcur⟩ (hgen s List.mem_cons_self) hinv hs
      have hgen' := fun t ht => hgen t (List.mem_cons_of_mem _ ht)
      rcases List.mem_cons.mp hm with hm | hm
      · subst hm
        exact (cx_inv hn ⟨cf, hcur⟩ (gen_cblock hgen') i1 H).2.1 h (cx_init_mem hs)
      · exact block_init hn hcur hgen' i1 hm H

/-- Files imported at the top of an initialised file are initialised. -/
def Cl (P : Project W) (D : Nat) (ct : CSt W) : Prop :=
  ∀ g ∈ ct.ini, ∀ h c, Top P g h → compile P D h = some c → c.init.isSome = true → h ∈ ct.ini

theorem cx_closed (hc : Consistent P) (hn : ∀ g, ((P.src g).allocs.map (·.1)).Nodup)
    (hone : ∀ g, Reaches P F g → OneName (imports ((P.src g).body ++ (P.src g).after))) :
    ∀ {n : Nat} {cur : File} {c : CStmt W} {ct ct' : CSt W}, Reaches P F cur →
    (∃ cf, compile P D cur = some cf) → Gen P D cur c → Inv P ct → Cl P D ct →
    cx (compile P D) n cur c ct = some ct' → Cl P D ct'
  | 0, _, _, _, _, _, _, _, _, _, H => by cases H
  | n + 1, cur, c, ct, ct', hreach, hcur, hgen, hinv, hcl, H => by
    cases c with
    | skip => cases H; exact hcl
    | act f => cases H; exact hcl
    | free v => exact absurd hgen id
    | init g =>
      obtain ⟨hr, hrk⟩ := hgen
      unfold cx at H
      cases hg : compile P D g with
      | none => rw [hg] at H; cases H
      | some cf =>
        rw [hg] at H
        dsimp only at H
        cases hi : cf.init with
        | none => rw [hi] at H; cases H
        | some b =>
          rw [hi] at H
          dsimp only at H
          by_cases hin : g ∈ ct.ini
          · rw [if_pos hin] at H
            cases H
            exact hcl
          · rw [if_neg hin] at H
            obtain ⟨d, hd, ha⟩ := compile_fix hg
            obtain ⟨bb, _, h1, _, _, _, h2⟩ := assemble_parts ha
            rcases h2 with ⟨_, h2, _⟩ | ⟨_, ts, rs, hsp, h2, _⟩
            · rw [hi] at h2; cases h2
            · rw [hi] at h2
              cases h2
              cases hrun : cx (compile P D) n g (cblock (bb ++ ts.map .free)) ct with
              | none => rw [hrun] at H; cases H
              | some r =>
                rw [hrun] at H
                cases H
                obtain ⟨ct1, m, h3, h4, h5⟩ := cx_append hrun
                have hgb := gen_trBlock hd h1
                have hrg : Reaches P F g := reaches_trans hreach hr
                have hcl1 := cx_closed hc hn hone hrg ⟨cf, hg⟩ (gen_cblock hgb) hinv hcl h3
                rw [cx_frees h4]
                intro k hk h c' ht hh hci
                rcases List.mem_cons.mp hk with rfl | hk
                · have := block_init hn hg hgb hinv (top_init (c := cf) hc hd h1 (hone _ hrg) ht hh hci) h3
                  exact List.mem_cons_of_mem _ this
                · exact List.mem_cons_of_mem _ (hcl1 k hk h c' ht hh hci)
    | call g k =>
      obtain ⟨hr, hrk⟩ := hgen
      unfold cx at H
      cases hg : compile P D g with
      | none => rw [hg] at H; cases H
      | some cf =>
        rw [hg] at H
        dsimp only at H
        cases hi : cf.funcs[k]? with
        | none => rw [hi] at H; cases H
        | some b =>
          rw [hi] at H
          dsimp only at H
          obtain ⟨d, hd, ha⟩ := compile_fix hg
          obtain ⟨_, _, _, _, h3, _, _⟩ := assemble_parts ha
          exact cx_closed hc hn hone (reaches_trans hreach hr) ⟨cf, hg⟩ (gen_trFuncs hd h3 b (List.mem_of_getElem? hi))
            hinv hcl H
    | seq s t =>
      unfold cx at H
      cases hs : cx (compile P D) n cur s ct with
      | none => rw [hs] at H; cases H
      | some r =>
        rw [hs] at H
        exact cx_closed hc hn hone hreach hcur hgen.2 (cx_inv hn hcur hgen.1 hinv hs).1
          (cx_closed hc hn hone hreach hcur hgen.1 hinv hcl hs) H
    | ite cnd s t =>
      unfold cx at H
      split at H
      · exact cx_closed hc hn hone hreach hcur hgen.1 hinv hcl H
      · exact cx_closed hc hn hone hreach hcur hgen.2 hinv hcl H
    | loop cnd s =>
      have hgen' := hgen
      unfold cx at H
      split at H
      · cases hs : cx (compile P D) n cur s ct with
        | none => rw [hs] at H; cases H
        | some r =>
          rw [hs] at H
          exact cx_closed hc hn hone hreach hcur (c := .loop cnd s) hgen' (cx_inv hn hcur (c := s) hgen hinv hs).1
            (cx_closed hc hn hone hreach hcur (c := s) hgen hinv hcl hs) H
      · cases H
        exact hcl

/-! ## The free functions -/

/-- The files whose memory is freed by a file. -/
def freesOf (P : Project W) (D : Nat) (g : File) : List File :=
  match compile P D g with
  | some c => (c.free.map (·.1)).getD []
  | none => []

theorem frees_below {d : Dict} {f : File} (hd : parse P D f = some d) {M : File → Option (CFile W)} :
    ∀ {is : List (Name × Name)} {g : File}, g ∈ frees d M is →
      Reaches P f g ∧ rk P D g < rk P D f ∧ ∃ c, M g = some c ∧ c.free.isSome = true
  | [], _, h => by cases h
  | (x, a) :: is, g, h => by
    unfold frees at h
    split at h
    · cases hx : d.lookup x with
      | none => rw [hx] at h; exact frees_below hd h
      | some k =>
        rw [hx] at h
        dsimp only at h
        cases hk : M k with
        | none => rw [hk] at h; exact frees_below hd h
        | some c =>
          rw [hk] at h
          dsimp only at h
          split at h
          · rename_i hcf
            rcases List.mem_cons.mp h with rfl | h
            · exact ⟨(lookup_below hd hx).1, (lookup_below hd hx).2, c, hk, hcf⟩
            · exact frees_below hd h
          · exact frees_below hd h
    · exact frees_below hd h

theorem free_parts {f : File} {c : CFile W} {gs : List File} {vs : List Nat} (H : compile P D f = some c)
    (h : c.free = some (gs, vs)) : vs = rest P f ∧ gs = freesOf P D f ∧
      ∀ g ∈ gs, Reaches P f g ∧ rk P D g < rk P D f ∧ ∃ c, compile P D g = some c ∧ c.free.isSome = true := by
  refine ⟨?_, ?_, ?_⟩
  · obtain ⟨d, hd, ha⟩ := compile_fix H
    obtain ⟨b, _, _, _, _, _, h2⟩ := assemble_parts ha
    rcases h2 with ⟨_, _, h2⟩ | ⟨_, ts, rs, hsp, _, h2⟩
    · rw [h] at h2; cases h2
    · rw [h] at h2
      split at h2
      · cases h2
      · cases h2
        unfold rest
        rw [hsp]
        rfl
  · unfold freesOf
    rw [H]
    dsimp only
    rw [h]
    rfl
  · obtain ⟨d, hd, ha⟩ := compile_fix H
    obtain ⟨b, _, _, _, _, _, h2⟩ := assemble_parts ha
    rcases h2 with ⟨_, _, h2⟩ | ⟨_, ts, rs, hsp, _, h2⟩
    · rw [h] at h2; cases h2
    · rw [h] at h2
      split at h2
      · cases h2
      · cases h2
        exact fun g hg => frees_below hd hg

/-- While memory is freed; `I` are the files that were initialised before. -/
structure FInv (P : Project W) (D : Nat) (I : List File) (ct : CSt W) : Prop where
  nodup : ct.freed.Nodup
  freed : ∀ g v, (g, v) ∈ ct.freed ↔ g ∈ I ∧ (v ∈ temps P g ∨ (g ∉ ct.ini ∧ v ∈ rest P g))
  sub : ∀ g ∈ ct.ini, g ∈ I
  down : ∀ g ∈ I, g ∉ ct.ini → ∀ h ∈ freesOf P D g, h ∉ ct.ini

theorem allocs_split (hn : ∀ g, ((P.src g).allocs.map (·.1)).Nodup) (g : File) :
    (rest P g).Nodup ∧ ∀ v ∈ temps P g, v ∉ rest P g := by
  unfold temps rest
  cases hs : split (P.src g).allocs with
  | none => exact ⟨List.nodup_nil, fun _ _ h => by cases h⟩
  | some q =>
    obtain ⟨o, r⟩ := q
    have := (split_perm hs).nodup_iff.mpr (hn g)
    rw [List.nodup_append] at this
    exact ⟨this.2.1, fun v hv hv' => this.2.2 v hv v hv' rfl⟩

mutual
theorem fr_inv (hn : ∀ g, ((P.src g).allocs.map (·.1)).Nodup) {I : List File} : ∀ {n : Nat} {f : File} {ct ct' : CSt W},
    FInv P D I ct → fr (compile P D) n f ct = some ct' →
    FInv P D I ct' ∧ (∀ g ∈ ct'.ini, g ∈ ct.ini) ∧ f ∉ ct'.ini ∧
      (∀ g ∈ ct.ini, g ∉ ct'.ini → rk P D g ≤ rk P D f) ∧ ct'.w = ct.w
  | 0, _, _, _, _, H => by unfold fr at H; cases H
  | n + 1, f, ct, ct', hi, H => by
    unfold fr at H
    cases hf : compile P D f with
    | none => rw [hf] at H; cases H
    | some c =>
      rw [hf] at H
      dsimp only at H
      cases hfr : c.free with
      | none => rw [hfr] at H; cases H
      | some q =>
        obtain ⟨gs, vs⟩ := q
        rw [hfr] at H
        dsimp only at H
        obtain ⟨hvs, hgs, hdown⟩ := free_parts hf hfr
        by_cases hin : f ∈ ct.ini
        · rw [if_pos hin] at H
          cases hr : frs (compile P D) n gs ct with
          | none => rw [hr] at H; cases H
          | some r =>
            rw [hr] at H
            cases H
            obtain ⟨i1, i2, i3, i4, i5⟩ := frs_inv hn (b := rk P D f) (fun g hg => (hdown g hg).2.1) hi hr
            have hfr1 : f ∈ r.ini := by
              apply Classical.byContradiction
              intro h
              have := i4 f hin h
              omega
            have hfI : f ∈ I := hi.sub f hin
            obtain ⟨hrn, hdis⟩ := allocs_split hn f
            subst hvs
            refine ⟨⟨?_, ?_, ?_, ?_⟩, ?_, ?_, ?_, i5⟩
            · show (r.freed ++ _).Nodup
              rw [List.nodup_append]
              refine ⟨i1.nodup, ?_, ?_⟩
              · unfold List.Nodup
                rw [List.pairwise_map]
                exact hrn.imp fun h1 h2 => h1 (Prod.mk.inj h2).2
              · rintro ⟨h, v⟩ h1 b hb heq
                obtain ⟨u, hu, rfl⟩ := List.mem_map.mp hb
                cases heq
                rcases ((i1.freed _ _).mp h1).2 with h2 | ⟨h2, _⟩
                · exact hdis _ h2 hu
                · exact h2 hfr1
            · intro g v
              simp only [List.mem_append, List.mem_map, Prod.mk.injEq, List.mem_filter, bne_iff_ne, ne_eq]
              rw [i1.freed g v]
              constructor
              · rintro (⟨h1, h2 | ⟨h2, h3⟩⟩ | ⟨u, h1, rfl, rfl⟩)
                · exact ⟨h1, Or.inl h2⟩
                · exact ⟨h1, Or.inr ⟨fun h4 => h2 h4.1, h3⟩⟩
                · exact ⟨hfI, Or.inr ⟨fun h4 => h4.2 rfl, h1⟩⟩
              · rintro ⟨h1, h2 | ⟨h2, h3⟩⟩
                · exact Or.inl ⟨h1, Or.inl h2⟩
                · by_cases hgf : g = f
                  · subst hgf
                    exact Or.inr ⟨v, h3, rfl, rfl⟩
                  · exact Or.inl ⟨h1, Or.inr ⟨fun h4 => h2 ⟨h4, hgf⟩, h3⟩⟩
            · intro g hg
              exact i1.sub g (List.mem_filter.mp hg).1
            · intro g hg hng h hh hc
              have hc1 := (List.mem_filter.mp hc).1
              by_cases hgf : g = f
              · subst hgf
                rw [← hgs] at hh
                exact i3 h hh hc1
              · refine i1.down g hg (fun h4 => hng (List.mem_filter.mpr ⟨h4, ?_⟩)) h hh hc1
                simpa using hgf
            · intro g hg
              exact i2 g (List.mem_filter.mp hg).1
            · intro h
              have := (List.mem_filter.mp h).2
              simp at this
            · intro g hg hng
              by_cases hgf : g = f
              · subst hgf; exact Nat.le_refl _
              · exact Nat.le_of_lt (i4 g hg fun h4 => hng (List.mem_filter.mpr ⟨h4, by simpa using hgf⟩))
        · rw [if_neg hin] at H
          cases H
          exact ⟨hi, fun _ h => h, hin, fun g h1 h2 => absurd h1 h2, rfl⟩
theorem frs_inv (hn : ∀ g, ((P.src g).allocs.map (·.1)).Nodup) {I : List File} {b : Nat} : ∀ {n : Nat} {gs : List File}
    {ct ct' : CSt W}, (∀ g ∈ gs, rk P D g < b) → FInv P D I ct → frs (compile P D) n gs ct = some ct' →
    FInv P D I ct' ∧ (∀ g ∈ ct'.ini, g ∈ ct.ini) ∧ (∀ g ∈ gs, g ∉ ct'.ini) ∧
      (∀ g ∈ ct.ini, g ∉ ct'.ini → rk P D g < b) ∧ ct'.w = ct.w
  | 0, _, _, _, _, _, H => by unfold frs at H; cases H
  | n + 1, [], ct, ct', _, hi, H => by
    unfold frs at H
    cases H
    exact ⟨hi, fun _ h => h, fun _ h => by (cases h), fun g h1 h2 => absurd h1 h2, rfl⟩
  | n + 1, g :: gs, ct, ct', hb, hi, H => by
    unfold frs at H
    cases hr : fr (compile P D) n g ct with
    | none => rw [hr] at H; cases H
    | some r =>
      rw [hr] at H
      dsimp only at H
      obtain ⟨i1, i2, i3, i4, i5⟩ := fr_inv hn hi hr
      obtain ⟨j1, j2, j3, j4, j5⟩ := frs_inv hn (fun k hk => hb k (List.mem_cons_of_mem _ hk)) i1 H
      refine ⟨j1, fun k hk => i2 k (j2 k hk), fun k hk => ?_, fun k hk hk' => ?_, j5.trans i5⟩
      · rcases List.mem_cons.mp hk with rfl | hk
        · exact fun h => i3 (j2 _ h)
        · exact j3 k hk
      · by_cases h : k ∈ r.ini
        · exact j4 k h hk'
        · have h1 := i4 k hk h
          have h2 := hb g List.mem_cons_self
          omega
end

theorem fr_mono_aux {M : File → Option (CFile W)} : ∀ (n : Nat),
    (∀ f st st', fr M n f st = some st' → fr M (n + 1) f st = some st') ∧
    (∀ gs st st', frs M n gs st = some st' → frs M (n + 1) gs st = some st')
  | 0 => by
    constructor
    · intro f st st' H; unfold fr at H; cases H
    · intro f st st' H; unfold frs at H; cases H
  | n + 1 => by
    obtain ⟨ih1, ih2⟩ := fr_mono_aux (M := M) n
    constructor
    · intro f st st' H
      unfold fr at H ⊢
      cases hf : M f with
      | none => rw [hf] at H; cases H
      | some c =>
        rw [hf] at H
        dsimp only at H ⊢
        cases hfr : c.free with
        | none => rw [hfr] at H; cases H
        | some q =>
          rw [hfr] at H
          dsimp only at H ⊢
          by_cases hin : f ∈ st.ini
          · rw [if_pos hin] at H ⊢
            cases hr : frs M n q.1 st with
            | none => rw [hr] at H; cases H
            | some r => rw [hr] at H; rw [ih2 _ _ _ hr]; exact H
          · rw [if_neg hin] at H ⊢; exact H
    · intro gs st st' H
      cases gs with
      | nil => unfold frs at H ⊢; exact H
      | cons g gs =>
        unfold frs at H ⊢
        cases hr : fr M n g st with
        | none => rw [hr] at H; cases H
        | some r => rw [hr] at H; rw [ih1 _ _ _ hr]; exact ih2 _ _ _ H

theorem fr_le {M : File → Option (CFile W)} {n m : Nat} {f : File} {st st' : CSt W} (H : fr M n f st = some st')
    (h : n ≤ m) : fr M m f st = some st' := by
  induction h with
  | refl => exact H
  | step _ ih => exact (fr_mono_aux _).1 _ _ _ ih

theorem frs_le {M : File → Option (CFile W)} {n m : Nat} {f : List File} {st st' : CSt W} (H : frs M n f st = some st')
    (h : n ≤ m) : frs M m f st = some st' := by
  induction h with
  | refl => exact H
  | step _ ih => exact (fr_mono_aux _).2 _ _ _ ih

/-- Freeing memory ends. -/
theorem fr_total : ∀ (b : Nat) {f : File} {c : CFile W}, rk P D f < b → compile P D f = some c → c.free.isSome = true →
    ∀ st : CSt W, ∃ n st', fr (compile P D) n f st = some st' ∧ st'.w = st.w
  | 0, _, _, h, _, _, _ => absurd h (Nat.not_lt_zero _)
  | b + 1, f, c, hb, hc, hfree, st => by
    obtain ⟨⟨gs, vs⟩, hfr⟩ := Option.isSome_iff_exists.mp hfree
    obtain ⟨_, _, hdown⟩ := free_parts hc hfr
    have key : ∀ (gs : List File), (∀ g ∈ gs, Reaches P f g ∧ rk P D g < rk P D f ∧
        ∃ c, compile P D g = some c ∧ c.free.isSome = true) → ∀ st : CSt W, ∃ n st', frs (compile P D) n gs st = some st' ∧
        st'.w = st.w := by
      intro gs
      induction gs with
      | nil => exact fun _ st => ⟨1, st, by unfold frs; rfl, rfl⟩
      | cons g gs ih =>
        intro h st
        obtain ⟨_, h2, c', h3, h4⟩ := h g List.mem_cons_self
        obtain ⟨n1, st1, h5, h6⟩ := fr_total b (by omega) h3 h4 st
        obtain ⟨n2, st2, h7, h8⟩ := ih (fun k hk => h k (List.mem_cons_of_mem _ hk)) st1
        refine ⟨max n1 n2 + 1, st2, ?_, h8.trans h6⟩
        unfold frs
        rw [fr_le h5 (Nat.le_max_left n1 n2)]
        exact frs_le h7 (Nat.le_max_right n1 n2)
    by_cases hin : f ∈ st.ini
    · obtain ⟨n, st1, h1, h2⟩ := key gs hdown st
      refine ⟨n + 1, { st1 with ini := st1.ini.filter (· != f), freed := st1.freed ++ vs.map fun v => (f, v) }, ?_, h2⟩
      unfold fr
      rw [hc]
      dsimp only
      rw [hfr]
      dsimp only
      rw [if_pos hin, h1]
      rfl
    · refine ⟨1, st, ?_, rfl⟩
      unfold fr
      rw [hc]
      dsimp only
      rw [hfr]
      dsimp only
      rw [if_neg hin]

end Verif.Imports.Model
