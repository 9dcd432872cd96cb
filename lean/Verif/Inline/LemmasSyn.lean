import Verif.Inline.LemmasSem

/-! # The names in generated code -/

namespace Verif.Inline.Lemmas
open Spec Model

theorem le_foldr_max {x : Nat} : ∀ {U : List Nat}, x ∈ U → x ≤ U.foldr max 0
  | [], h => by simp at h
  | y :: U, h => by
    simp at h
    simp only [List.foldr]
    rcases h with h | h
    · omega
    · have := le_foldr_max h; omega

theorem fresh_not_mem (U : List Name) : fresh U ∉ U := by
  intro h
  have := le_foldr_max h
  unfold fresh at this
  exact absurd this (by simp)

/-- Variables are names in use. -/
def Ok (sc : Sc) : Prop := ∀ x ∈ sc.decl, x ∈ sc.used

/-- Names are only added. -/
structure Mono (sc sc' : Sc) : Prop where
  used : ∀ x ∈ sc.used, x ∈ sc'.used
  decl : ∀ x ∈ sc.decl, x ∈ sc'.decl
  new : ∀ x ∈ sc'.decl, x ∈ sc.decl ∨ (x ∉ sc.used ∧ x ∈ sc'.used)

theorem Mono.rfl {sc : Sc} : Mono sc sc := ⟨fun _ h => h, fun _ h => h, fun _ h => .inl h⟩

theorem Mono.trans {a b c : Sc} (h1 : Mono a b) (h2 : Mono b c) : Mono a c :=
  ⟨fun x h => h2.used x (h1.used x h), fun x h => h2.decl x (h1.decl x h), fun x h => by
    rcases h2.new x h with h | ⟨h, h'⟩
    · rcases h1.new x h with h | ⟨h, h'⟩
      · exact .inl h
      · exact .inr ⟨h, h2.used x h'⟩
    · exact .inr ⟨fun hx => h (h1.used x hx), h'⟩⟩

theorem Mono.ok {a b : Sc} (h : Mono a b) (ha : Ok a) : Ok b := fun x hx => by
  rcases h.new x hx with h1 | h1
  · exact h.used x (ha x h1)
  · exact h1.2

structure IMono (I : Inl) : Prop where
  s : ∀ {sc d f as out sc'}, Ok sc → I.s sc d f as = some (out, sc') → Mono sc sc'
  e : ∀ {sc f as out e sc'}, Ok sc → I.e sc f as = some (out, e, sc') → Mono sc sc'

mutual
theorem visitE_mono {I : Inl} (hI : IMono I) {m : Name → Expr} :
    (e : Expr) → ∀ {sc p e' sc'}, Ok sc → visitE I m e sc = some (p, e', sc') → Mono sc sc'
  | .lit _, _, _, _, _, _, h => by simp [visitE] at h; rw [h.2.2]; exact .rfl
  | .name _, _, _, _, _, _, h => by simp [visitE] at h; rw [h.2.2]; exact .rfl
  | .glob _ _, _, _, _, _, _, h => by simp [visitE] at h; rw [h.2.2]; exact .rfl
  | .load _, _, _, _, _, _, h => by simp [visitE] at h; rw [h.2.2]; exact .rfl
  | .bin _ a b, sc, _, _, _, ho, h => by
    simp only [visitE] at h
    cases ha : visitE I m a sc with
    | none => simp [ha] at h
    | some r =>
      obtain ⟨p, a', sc1⟩ := r
      have h1 := visitE_mono hI a ho ha
      cases hb : visitE I m b sc1 with
      | none => simp [ha, hb] at h
      | some r =>
        obtain ⟨q, b', sc2⟩ := r
        simp [ha, hb] at h
        rw [← h.2.2]
        exact h1.trans (visitE_mono hI b (h1.ok ho) hb)
  | .cond c a b, sc, _, _, _, ho, h => by
    simp only [visitE] at h
    cases ha : visitE I m a sc with
    | none => simp [ha] at h
    | some r =>
      obtain ⟨p, a', sc1⟩ := r
      have h1 := visitE_mono hI a ho ha
      cases hc : visitE I m c sc1 with
      | none => simp [ha, hc] at h
      | some r =>
        obtain ⟨q, c', sc2⟩ := r
        have h2 := h1.trans (visitE_mono hI c (h1.ok ho) hc)
        cases hb : visitE I m b sc2 with
        | none => simp [ha, hc, hb] at h
        | some r =>
          obtain ⟨u, b', sc3⟩ := r
          simp [ha, hc, hb] at h
          rw [← h.2.2]
          exact h2.trans (visitE_mono hI b (h2.ok ho) hb)
  | .ext _ e, sc, _, _, _, ho, h => by
    simp only [visitE] at h
    cases he : visitE I m e sc with
    | none => simp [he] at h
    | some r =>
      obtain ⟨p, e', sc1⟩ := r
      simp [he] at h
      rw [← h.2.2]
      exact visitE_mono hI e ho he
  | .call f args, sc, _, _, _, ho, h => by
    simp only [visitE] at h
    cases ha : visitArgs I m args sc with
    | none => simp [ha] at h
    | some r =>
      obtain ⟨p, as, sc1⟩ := r
      have h1 := visitArgs_mono hI args ho ha
      cases hb : I.e sc1 f as with
      | none => simp [ha, hb] at h
      | some r =>
        obtain ⟨q, b', sc2⟩ := r
        simp [ha, hb] at h
        rw [← h.2.2]
        exact h1.trans (hI.e (h1.ok ho) hb)
theorem visitArgs_mono {I : Inl} (hI : IMono I) {m : Name → Expr} :
    (es : Exprs) → ∀ {sc p es' sc'}, Ok sc → visitArgs I m es sc = some (p, es', sc') → Mono sc sc'
  | .nil, _, _, _, _, _, h => by simp [visitArgs] at h; rw [h.2.2]; exact .rfl
  | .cons a b, sc, _, _, _, ho, h => by
    simp only [visitArgs] at h
    cases ha : visitE I m a sc with
    | none => simp [ha] at h
    | some r =>
      obtain ⟨p, a', sc1⟩ := r
      have h1 := visitE_mono hI a ho ha
      cases hb : visitArgs I m b sc1 with
      | none => simp [ha, hb] at h
      | some r =>
        obtain ⟨q, b', sc2⟩ := r
        simp [ha, hb] at h
        rw [← h.2.2]
        exact h1.trans (visitArgs_mono hI b (h1.ok ho) hb)
end

theorem Mono.fresh {sc : Sc} : Mono sc ⟨Model.fresh sc.used :: sc.used, Model.fresh sc.used :: sc.decl⟩ :=
  ⟨fun _ h => by simp [h], fun _ h => by simp [h], fun x h => by
    simp at h
    rcases h with h | h
    · right; rw [h]; exact ⟨fresh_not_mem _, by simp⟩
    · exact .inl h⟩

theorem visitS_mono {I : Inl} (hI : IMono I) {m : Name → Expr} {d : Option Dest} :
    (s : Stmt) → ∀ {sc out sc'}, Ok sc → visitS I m d s sc = some (out, sc') → Mono sc sc'
  | .skip, _, _, _, _, h => by simp [visitS] at h; rw [h.2]; exact .rfl
  | .assign x e, sc, _, _, ho, h => by
    simp only [visitS] at h
    cases he : visitE I m e sc with
    | none => simp [he] at h
    | some r =>
      obtain ⟨p, e', sc1⟩ := r
      cases hy : asVar (m x) with
      | none => simp [he, hy] at h
      | some y =>
        simp [he, hy] at h
        rw [← h.2]
        exact visitE_mono hI e ho he
  | .store x e, sc, _, _, ho, h => by
    simp only [visitS] at h
    cases he : visitE I m e sc with
    | none => simp [he] at h
    | some r =>
      obtain ⟨p, e', sc1⟩ := r
      simp [he] at h
      rw [← h.2]
      exact visitE_mono hI e ho he
  | .call l f args, sc, out, sc', ho, h => by
    simp only [visitS] at h
    cases ha : visitArgs I m args sc with
    | none => simp [ha] at h
    | some r =>
      obtain ⟨p, as, sc1⟩ := r
      have h1 := visitArgs_mono hI args ho ha
      simp only [ha] at h
      cases l with
      | var x =>
        cases hy : asVar (m x) with
        | none => simp [hy] at h
        | some y =>
          simp [hy] at h
          obtain ⟨q, h2, _⟩ := h
          exact h1.trans (hI.s (h1.ok ho) h2)
      | cell c =>
        simp at h
        obtain ⟨q, h2, _⟩ := h
        exact h1.trans (hI.s (h1.ok ho) h2)
      | drop =>
        simp at h
        obtain ⟨q, h2, _⟩ := h
        exact (h1.trans Mono.fresh).trans (hI.s ((h1.trans Mono.fresh).ok ho) h2)
  | .seq s t, sc, out, sc', ho, h => by
    simp only [visitS] at h
    cases hs : visitS I m d s sc with
    | none => simp [hs] at h
    | some r =>
      obtain ⟨p, sc1⟩ := r
      have h1 := visitS_mono hI s ho hs
      simp [hs] at h
      obtain ⟨q, h2, _⟩ := h
      exact h1.trans (visitS_mono hI t (h1.ok ho) h2)
  | .ite c s t, sc, out, sc', ho, h => by
    simp only [visitS] at h
    cases hc : visitE I m c sc with
    | none => simp [hc] at h
    | some r =>
      obtain ⟨p, c', sc1⟩ := r
      have h1 := visitE_mono hI c ho hc
      cases hs : visitS I m d s sc1 with
      | none => simp [hc, hs] at h
      | some r =>
        obtain ⟨s', sc2⟩ := r
        have h2 := h1.trans (visitS_mono hI s (h1.ok ho) hs)
        cases ht : visitS I m d t sc2 with
        | none => simp [hc, hs, ht] at h
        | some r =>
          obtain ⟨t', sc3⟩ := r
          simp [hc, hs, ht] at h
          rw [← h.2]
          exact h2.trans (visitS_mono hI t (h2.ok ho) ht)
  | .loop c s, sc, out, sc', ho, h => by
    simp only [visitS] at h
    cases hc : visitE I m c sc with
    | none => simp [hc] at h
    | some r =>
      obtain ⟨p, c', sc1⟩ := r
      have h1 := visitE_mono hI c ho hc
      cases hs : visitS I m d s sc1 with
      | none => simp [hc, hs] at h
      | some r =>
        obtain ⟨s', sc2⟩ := r
        simp [hc, hs] at h
        rw [← h.2]
        exact h1.trans (visitS_mono hI s (h1.ok ho) hs)
  | .ret e, sc, out, sc', ho, h => by
    simp only [visitS] at h
    split at h
    · simp at h
    · split at h
      · simp at h; rw [h.2]; exact .rfl
      · simp at h
        obtain ⟨p, e', h2, _⟩ := h
        exact visitE_mono hI e ho h2
    · simp at h
      obtain ⟨p, e', h2, _⟩ := h
      exact visitE_mono hI e ho h2
  | .retCall f args, sc, out, sc', ho, h => by
    simp only [visitS] at h
    split at h
    · simp at h
    · cases ha : visitArgs I m args sc with
      | none => simp [ha] at h
      | some r =>
        obtain ⟨p, as, sc1⟩ := r
        have h1 := visitArgs_mono hI args ho ha
        simp [ha] at h
        obtain ⟨q, h2, _⟩ := h
        exact h1.trans (hI.s (h1.ok ho) h2)

/-- The new names are different from each other and from those in use. -/
theorem rename_spec : ∀ (vs U : List Name),
    (∀ x ∈ U, x ∈ (rename vs U).2) ∧
    (∀ p ∈ (rename vs U).1, p.2 ∉ U ∧ p.2 ∈ (rename vs U).2) ∧
    (rename vs U).1.map (·.1) = vs ∧
    ((rename vs U).1.map (·.2)).Nodup
  | [], U => by simp [rename]
  | v :: vs, U => by
    obtain ⟨h1, h2, h3, h4⟩ := rename_spec vs ((if v ∈ U then fresh U else v) :: U)
    simp only [rename]
    have hv : (if v ∈ U then fresh U else v) ∉ U := by
      split
      · exact fresh_not_mem U
      · assumption
    refine ⟨fun x hx => h1 x (by simp [hx]), ?_, by simp [h3], ?_⟩
    · intro p hp
      simp only [List.mem_cons] at hp
      rcases hp with rfl | hp
      · exact ⟨hv, h1 _ (by simp)⟩
      · have := h2 p hp
        simp at this
        exact ⟨this.1.2, this.2⟩
    · simp only [List.map_cons, List.nodup_cons]
      refine ⟨?_, h4⟩
      intro hm
      rw [List.mem_map] at hm
      obtain ⟨p, hp, he⟩ := hm
      have := (h2 p hp).1
      simp [he] at this

theorem expand_mono {funs : List Func} {I : Inl} (hI : IMono I) {sc sc' : Sc} {d : Dest} {f : Nat} {as : List Expr}
    {out : List Stmt} (ho : Ok sc) (h : expand funs I sc d f as = some (out, sc')) : Mono sc sc' := by
  unfold expand at h
  split at h
  · simp at h
  · rename_i F _
    split at h
    · obtain ⟨h1, h2, _⟩ := rename_spec (toRename F d) sc.used
      have hm : Mono sc ⟨(rename (toRename F d) sc.used).2, (rename (toRename F d) sc.used).1.map (·.2) ++ sc.decl⟩ := by
        refine ⟨h1, fun x hx => by simp [hx], fun x hx => ?_⟩
        simp only [List.mem_append, List.mem_map] at hx
        rcases hx with ⟨p, hp, rfl⟩ | hx
        · exact .inr (h2 p hp)
        · exact .inl hx
      exact hm.trans (visitS_mono hI _ (hm.ok ho) h)
    · simp at h

theorem embed_cases {funs : List Func} {I : Inl} {sc sc' : Sc} {f : Nat} {as : List Expr}
    {out : List Stmt} {e : Expr} (h : embed funs I sc f as = some (out, e, sc')) :
    ∃ F out' sc1, funs[f]? = some F ∧
      expand funs I ⟨fresh sc.used :: sc.used, fresh sc.used :: sc.decl⟩ (.var (fresh sc.used)) f as =
        some (out', sc1) ∧ fresh sc.used ∈ targets out' ∧
      ((rets F.body = 1 ∧ ∃ y, out' = out ++ [.assign y e] ∧ sc' = { sc1 with decl := sc1.decl.erase (fresh sc.used) }) ∨
       ((rets F.body ≠ 1 ∨ ∀ y e', out'.getLast? ≠ some (.assign y e')) ∧
         out = out' ∧ e = .name (fresh sc.used) ∧ sc' = sc1)) := by
  unfold embed at h
  simp only at h
  split at h
  · rename_i F out' sc1 hF he
    refine ⟨F, out', sc1, hF, he, ?_⟩
    split at h
    · rename_i ht
      refine ⟨ht, ?_⟩
      split at h
      · rename_i y e' hl
        split at h
        · rename_i hr
          simp at h
          left
          refine ⟨hr, y, ?_, h.2.2.symm⟩
          rw [← h.1, ← h.2.1]
          obtain ⟨ss, hs⟩ := List.getLast?_eq_some_iff.mp hl
          simp [hs]
        · rename_i hr
          simp at h
          exact .inr ⟨.inl hr, h.1.symm, h.2.1.symm, h.2.2.symm⟩
      · rename_i hl
        simp at h
        exact .inr ⟨.inr fun y e' hc => hl y e' hc, h.1.symm, h.2.1.symm, h.2.2.symm⟩
    · simp at h
  · simp at h

theorem embed_mono {funs : List Func} {I : Inl} (hI : IMono I) {sc sc' : Sc} {f : Nat} {as : List Expr}
    {out : List Stmt} {e : Expr} (ho : Ok sc) (h : embed funs I sc f as = some (out, e, sc')) : Mono sc sc' := by
  obtain ⟨F, out', sc1, _, h1, _, h2⟩ := embed_cases h
  have hm := expand_mono hI (Mono.fresh.ok ho) h1
  have hm' := Mono.fresh.trans hm
  rcases h2 with ⟨_, y, _, rfl⟩ | ⟨_, _, _, rfl⟩
  · refine ⟨hm'.used, fun x hx => ?_, fun x hx => ?_⟩
    · have : x ≠ fresh sc.used := fun he => fresh_not_mem sc.used (he ▸ ho x hx)
      simp only
      rw [List.mem_erase_of_ne this]
      exact hm'.decl x hx
    · exact hm'.new x (List.mem_of_mem_erase hx)
  · exact hm'

theorem inl_mono (funs : List Func) : ∀ n, IMono (inl funs n)
  | 0 => ⟨fun _ h => by simp [inl] at h, fun _ h => by simp [inl] at h⟩
  | n + 1 => ⟨fun ho h => expand_mono (inl_mono funs n) ho h, fun ho h => embed_mono (inl_mono funs n) ho h⟩

end Verif.Inline.Lemmas
