import Verif.Imports.LemmasParse

/-! # Programs of several files: translation at a depth that is large enough -/

namespace Verif.Imports.Model
open Spec

variable {W : Type}

/-- `M'` has all results of `M`. -/
def Ext (M M' : File → Option (CFile W)) : Prop := ∀ g c, M g = some c → M' g = some c

theorem inits_mono {d : Dict} {M M' : File → Option (CFile W)} (h : Ext M M') :
    ∀ {is : List (Name × Name)} {seen : List Name} {r : List (CStmt W)},
      inits d M seen is = some r → inits d M' seen is = some r
  | [], _, _, H => H
  | (x, a) :: is, seen, r, H => by
    unfold inits at H ⊢
    cases hx : d.lookup x with
    | none => rw [hx] at H; cases H
    | some g =>
      rw [hx] at H
      cases hg : M g with
      | none => simp only [hg] at H; cases H
      | some c =>
        simp only [hg] at H
        simp only [h g c hg]
        by_cases ha : a ∈ seen
        · rw [if_pos ha] at H ⊢
          exact inits_mono h H
        · rw [if_neg ha] at H ⊢
          cases hr : inits d M (a :: seen) is with
          | none => rw [hr] at H; cases H
          | some q => rw [hr] at H; rw [inits_mono h hr]; exact H

theorem trBlock_mono {d : Dict} {M M' : File → Option (CFile W)} (h : Ext M M') {f : File} {sc : List Name}
    {ss : List (Stmt W)} {r : List (CStmt W)} (H : trBlock d M f sc ss = some r) : trBlock d M' f sc ss = some r := by
  unfold trBlock at H ⊢
  cases hr : inits d M [] (imports ss) with
  | none => rw [hr] at H; cases H
  | some q => rw [hr] at H; rw [inits_mono h hr]; exact H

theorem trFuncs_mono {d : Dict} {M M' : File → Option (CFile W)} (h : Ext M M') {f : File} {sc : List Name} :
    ∀ {bs : List (List (Stmt W))} {r : List (CStmt W)}, trFuncs d M f sc bs = some r → trFuncs d M' f sc bs = some r
  | [], _, H => H
  | b :: bs, r, H => by
    unfold trFuncs at H ⊢
    cases hb : trBlock d M f sc b with
    | none => rw [hb] at H; cases H
    | some b' =>
      rw [hb] at H; rw [trBlock_mono h hb]
      dsimp only at H ⊢
      cases hr : trFuncs d M f sc bs with
      | none => rw [hr] at H; cases H
      | some q => rw [hr] at H; rw [trFuncs_mono h hr]; exact H

theorem frees_mono {d : Dict} {M M' : File → Option (CFile W)} (h : Ext M M') :
    ∀ {is : List (Name × Name)}, (∀ x a g, (x, a) ∈ is → d.lookup x = some g → (M g).isSome) →
      frees d M' is = frees d M is
  | [], _ => rfl
  | (x, a) :: is, hs => by
    have ih := frees_mono (d := d) h (is := is) fun y b g hy => hs y b g (List.mem_cons_of_mem _ hy)
    unfold frees
    by_cases ha : (d.lookup a).isSome
    · rw [if_pos ha, if_pos ha]
      cases hx : d.lookup x with
      | none => exact ih
      | some g =>
        have := hs x a g List.mem_cons_self hx
        cases hg : M g with
        | none => rw [hg] at this; cases this
        | some c =>
          dsimp only
          rw [h g c hg, hg]
          simp only [ih]
    · rw [if_neg ha, if_neg ha]
      exact ih

theorem inits_some {d : Dict} {M : File → Option (CFile W)} :
    ∀ {is : List (Name × Name)} {seen : List Name} {r : List (CStmt W)}, inits d M seen is = some r →
      ∀ x a, (x, a) ∈ is → ∃ g c, d.lookup x = some g ∧ M g = some c
  | [], _, _, _, _, _, h => by cases h
  | (y, b) :: is, seen, r, H, x, a, h => by
    unfold inits at H
    cases hx : d.lookup y with
    | none => rw [hx] at H; cases H
    | some g =>
      rw [hx] at H
      cases hg : M g with
      | none => simp only [hg] at H; cases H
      | some c =>
        simp only [hg] at H
        cases h with
        | head => exact ⟨g, c, hx, hg⟩
        | tail _ h =>
          by_cases ha : b ∈ seen
          · rw [if_pos ha] at H
            exact inits_some H x a h
          · rw [if_neg ha] at H
            cases hr : inits d M (b :: seen) is with
            | none => rw [hr] at H; cases H
            | some q => exact inits_some hr x a h

theorem insertImp_mem {x a : Name} : ∀ {l : List (Name × Name)} {q : Name × Name}, q ∈ insertImp x a l →
    q = (x, a) ∨ q ∈ l
  | [], q, h => by
    unfold insertImp at h
    exact Or.inl (List.mem_singleton.mp h)
  | (y, b) :: l, q, h => by
    unfold insertImp at h
    split at h
    · rcases List.mem_cons.mp h with h | h
      · exact Or.inl h
      · exact Or.inr (List.mem_cons_of_mem _ h)
    · rcases List.mem_cons.mp h with h | h
      · exact Or.inr (h ▸ List.mem_cons_self)
      · rcases insertImp_mem h with h | h
        · exact Or.inl h
        · exact Or.inr (List.mem_cons_of_mem _ h)

theorem foldl_insertImp_mem : ∀ {is l : List (Name × Name)} {q : Name × Name},
    q ∈ is.foldl (fun c i => insertImp i.1 i.2 c) l → q ∈ l ∨ q ∈ is
  | [], _, _, h => Or.inl h
  | (x, a) :: is, l, q, h => by
    rcases foldl_insertImp_mem (is := is) h with h | h
    · rcases insertImp_mem h with h | h
      · exact Or.inr (h ▸ List.mem_cons_self)
      · exact Or.inl h
    · exact Or.inr (List.mem_cons_of_mem _ h)

theorem container_mem {is : List (Name × Name)} {q : Name × Name} (h : q ∈ container is) : q ∈ is := by
  rcases foldl_insertImp_mem h with h | h
  · cases h
  · exact h

theorem sons_mono {P : Project W} {M M' : File → Option (CFile W)} (h : Ext M M') {f : File} (H : sons P M f = true) :
    sons P M' f = true := by
  unfold sons at H ⊢
  rw [List.all_eq_true] at H ⊢
  intro i hi
  have := H i hi
  cases hx : P.find f i.1 with
  | none => rw [hx] at this; cases this
  | some g =>
    simp only [hx] at this
    cases hg : M g with
    | none => rw [hg] at this; cases this
    | some c => simp only [h g c hg, Option.isSome_some]

theorem assemble_mono {P : Project W} {d : Dict} {M M' : File → Option (CFile W)} (h : Ext M M') {f : File}
    {c : CFile W} (H : assemble P d M f = some c) : assemble P d M' f = some c := by
  unfold assemble at H ⊢
  dsimp only at H ⊢
  by_cases hs : sons P M f = true
  · rw [if_pos hs] at H
    rw [if_pos (sons_mono h hs)]
    cases hb : trBlock d M f ((imports ((P.src f).body ++ (P.src f).after)).map (·.1))
        ((P.src f).body ++ (P.src f).after) with
    | none => rw [hb] at H; cases H
    | some b =>
    cases hm : trBlock d M f ((imports ((P.src f).body ++ (P.src f).after)).map (·.1)) (P.src f).main with
    | none => rw [hb, hm] at H; cases H
    | some m =>
    cases hf : trFuncs d M f ((imports ((P.src f).body ++ (P.src f).after)).map (·.1)) (P.src f).funcs with
    | none => rw [hb, hm, hf] at H; cases H
    | some fs =>
      rw [hb, hm, hf] at H
      rw [trBlock_mono h hb, trBlock_mono h hm, trFuncs_mono h hf]
      have hfr : frees d M' (container (imports ((P.src f).body ++ (P.src f).after))) =
          frees d M (container (imports ((P.src f).body ++ (P.src f).after))) := by
        refine frees_mono h fun x a g hx hg => ?_
        unfold trBlock at hb
        cases hi : inits d M [] (imports ((P.src f).body ++ (P.src f).after)) with
        | none => rw [hi] at hb; cases hb
        | some q =>
          obtain ⟨g', c', h1, h2⟩ := inits_some hi x a (container_mem hx)
          rw [hg] at h1; cases h1
          rw [h2]; rfl
      dsimp only
      rw [hfr]
      exact H
  · rw [if_neg hs] at H
    cases H

theorem compile_mono {P : Project W} : ∀ {n : Nat}, Ext (compile P n) (compile P (n + 1))
  | 0, _, _, H => by cases H
  | n + 1, f, c, H => by
    unfold compile at H ⊢
    cases hp : parse P (n + 1) f with
    | none => rw [hp] at H; cases H
    | some d =>
      rw [hp] at H
      rw [parse_mono hp]
      exact assemble_mono compile_mono H

/-- The result for a file is computed from the results for the others. -/
theorem compile_fix {P : Project W} {D : Nat} {f : File} {c : CFile W} (H : compile P D f = some c) :
    ∃ d, parse P D f = some d ∧ assemble P d (compile P D) f = some c := by
  cases D with
  | zero => cases H
  | succ n =>
    unfold compile at H
    cases hp : parse P (n + 1) f with
    | none => rw [hp] at H; cases H
    | some d =>
      rw [hp] at H
      exact ⟨d, rfl, assemble_mono compile_mono H⟩

theorem compile_import {P : Project W} {D : Nat} {f g : File} {c : CFile W} (H : compile P D f = some c)
    (h : Imports P f g) : ∃ c', compile P D g = some c' := by
  obtain ⟨d, _, h2⟩ := compile_fix H
  unfold assemble at h2
  dsimp only at h2
  by_cases hs : sons P (compile P D) f = true
  · unfold sons at hs
    rw [List.all_eq_true] at hs
    obtain ⟨x, a, h3, h4⟩ := h
    have := hs (x, a) h3
    simp only [h4] at this
    exact Option.isSome_iff_exists.mp this
  · rw [if_neg hs] at h2
    cases h2

theorem compile_reaches {P : Project W} {f g : File} (h : Reaches P f g) :
    ∀ {D : Nat} {c : CFile W}, compile P D f = some c → ∃ c', compile P D g = some c' := by
  induction h with
  | refl => exact fun H => ⟨_, H⟩
  | step hi _ ih =>
    intro D c H
    obtain ⟨c', h'⟩ := compile_import H hi
    exact ih h'

/-- The parts of the result. -/
theorem assemble_parts {P : Project W} {d : Dict} {M : File → Option (CFile W)} {f : File} {c : CFile W}
    (H : assemble P d M f = some c) :
    ∃ b m, trBlock d M f ((imports ((P.src f).body ++ (P.src f).after)).map (·.1))
        ((P.src f).body ++ (P.src f).after) = some b ∧
      trBlock d M f ((imports ((P.src f).body ++ (P.src f).after)).map (·.1)) (P.src f).main = some m ∧
      trFuncs d M f ((imports ((P.src f).body ++ (P.src f).after)).map (·.1)) (P.src f).funcs = some c.funcs ∧
      c.main = cblock m ∧
      ((b.all isSkip = true ∧ c.init = none ∧ c.free = none) ∨
       (b.all isSkip = false ∧ ∃ temps rest, split (P.src f).allocs = some (temps, rest) ∧
         c.init = some (cblock (b ++ temps.map .free)) ∧
         c.free = if rest.isEmpty && (frees d M (container (imports ((P.src f).body ++ (P.src f).after)))).isEmpty then none
           else some (frees d M (container (imports ((P.src f).body ++ (P.src f).after))), rest))) := by
  unfold assemble at H
  dsimp only at H
  by_cases hs : sons P M f = true
  · rw [if_pos hs] at H
    cases hb : trBlock d M f ((imports ((P.src f).body ++ (P.src f).after)).map (·.1))
        ((P.src f).body ++ (P.src f).after) with
    | none => rw [hb] at H; cases H
    | some b =>
    cases hm : trBlock d M f ((imports ((P.src f).body ++ (P.src f).after)).map (·.1)) (P.src f).main with
    | none => rw [hb, hm] at H; cases H
    | some m =>
    cases hf : trFuncs d M f ((imports ((P.src f).body ++ (P.src f).after)).map (·.1)) (P.src f).funcs with
    | none => rw [hb, hm, hf] at H; cases H
    | some fs =>
      rw [hb, hm, hf] at H
      dsimp only at H
      cases hk : b.all isSkip with
      | true =>
        rw [hk, if_pos rfl] at H
        cases H
        exact ⟨b, m, rfl, rfl, rfl, rfl, Or.inl ⟨hk, rfl, rfl⟩⟩
      | false =>
        rw [hk, if_neg (by simp)] at H
        cases hsp : split (P.src f).allocs with
        | none => rw [hsp] at H; cases H
        | some q =>
          obtain ⟨temps, rest⟩ := q
          rw [hsp] at H
          cases H
          exact ⟨b, m, rfl, rfl, rfl, rfl, Or.inr ⟨hk, temps, rest, rfl, rfl, rfl⟩⟩
  · rw [if_neg hs] at H
    cases H

end Verif.Imports.Model
