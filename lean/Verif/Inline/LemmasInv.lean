import Verif.Inline.LemmasSyn

/-! # The parts of what is generated -/

namespace Verif.Inline.Lemmas
open Spec Model

variable {I : Inl} {m : Name → Expr} {d : Option Dest} {sc sc' : Sc} {p out : List Stmt} {e' : Expr}

theorem visitE_bin {op : Nat} {a b : Expr} (h : visitE I m (.bin op a b) sc = some (p, e', sc')) :
    ∃ p1 a' sc1 p2 b', visitE I m a sc = some (p1, a', sc1) ∧ visitE I m b sc1 = some (p2, b', sc') ∧
      p = p1 ++ p2 ∧ e' = .bin op a' b' := by
  simp only [visitE] at h
  cases ha : visitE I m a sc with
  | none => simp [ha] at h
  | some r =>
    obtain ⟨p1, a', sc1⟩ := r
    cases hb : visitE I m b sc1 with
    | none => simp [ha, hb] at h
    | some r =>
      obtain ⟨p2, b', sc2⟩ := r
      simp [ha, hb] at h
      obtain ⟨rfl, rfl, rfl⟩ := h
      exact ⟨p1, a', sc1, p2, b', rfl, hb, rfl, rfl⟩

theorem visitE_cond {c a b : Expr} (h : visitE I m (.cond c a b) sc = some (p, e', sc')) :
    ∃ p1 a' sc1 p2 c' sc2 p3 b', visitE I m a sc = some (p1, a', sc1) ∧ visitE I m c sc1 = some (p2, c', sc2) ∧
      visitE I m b sc2 = some (p3, b', sc') ∧ p = p1 ++ (p2 ++ p3) ∧ e' = .cond c' a' b' := by
  simp only [visitE] at h
  cases ha : visitE I m a sc with
  | none => simp [ha] at h
  | some r =>
    obtain ⟨p1, a', sc1⟩ := r
    cases hc : visitE I m c sc1 with
    | none => simp [ha, hc] at h
    | some r =>
      obtain ⟨p2, c', sc2⟩ := r
      cases hb : visitE I m b sc2 with
      | none => simp [ha, hc, hb] at h
      | some r =>
        obtain ⟨p3, b', sc3⟩ := r
        simp [ha, hc, hb] at h
        obtain ⟨rfl, rfl, rfl⟩ := h
        exact ⟨p1, a', sc1, p2, c', sc2, p3, b', rfl, hc, hb, rfl, rfl⟩

theorem visitE_ext {k : Nat} {e : Expr} (h : visitE I m (.ext k e) sc = some (p, e', sc')) :
    ∃ e1, visitE I m e sc = some (p, e1, sc') ∧ e' = .ext k e1 := by
  simp only [visitE] at h
  cases he : visitE I m e sc with
  | none => simp [he] at h
  | some r =>
    obtain ⟨p1, a', sc1⟩ := r
    simp [he] at h
    obtain ⟨rfl, rfl, rfl⟩ := h
    exact ⟨a', rfl, rfl⟩

theorem visitE_call {f : Nat} {args : Exprs} (h : visitE I m (.call f args) sc = some (p, e', sc')) :
    ∃ p1 as sc1 p2, visitArgs I m args sc = some (p1, as, sc1) ∧ I.e sc1 f as = some (p2, e', sc') ∧
      p = p1 ++ p2 := by
  simp only [visitE] at h
  cases ha : visitArgs I m args sc with
  | none => simp [ha] at h
  | some r =>
    obtain ⟨p1, a', sc1⟩ := r
    cases hb : I.e sc1 f a' with
    | none => simp [ha, hb] at h
    | some r =>
      obtain ⟨p2, b', sc2⟩ := r
      simp [ha, hb] at h
      obtain ⟨rfl, rfl, rfl⟩ := h
      exact ⟨p1, a', sc1, p2, rfl, hb, rfl⟩

theorem visitArgs_cons {a : Expr} {b : Exprs} {es : List Expr} (h : visitArgs I m (.cons a b) sc = some (p, es, sc')) :
    ∃ p1 a' sc1 p2 b', visitE I m a sc = some (p1, a', sc1) ∧ visitArgs I m b sc1 = some (p2, b', sc') ∧
      p = p1 ++ p2 ∧ es = a' :: b' := by
  simp only [visitArgs] at h
  cases ha : visitE I m a sc with
  | none => simp [ha] at h
  | some r =>
    obtain ⟨p1, a', sc1⟩ := r
    cases hb : visitArgs I m b sc1 with
    | none => simp [ha, hb] at h
    | some r =>
      obtain ⟨p2, b', sc2⟩ := r
      simp [ha, hb] at h
      obtain ⟨rfl, rfl, rfl⟩ := h
      exact ⟨p1, a', sc1, p2, b', rfl, hb, rfl, rfl⟩

theorem asVar_some {e : Expr} {y : Name} : asVar e = some y ↔ e = .name y := by
  cases e <;> simp [asVar]

theorem visitS_assign {x : Name} {e : Expr} (h : visitS I m d (.assign x e) sc = some (out, sc')) :
    ∃ p e' y, visitE I m e sc = some (p, e', sc') ∧ m x = .name y ∧ out = p ++ [.assign y e'] := by
  simp only [visitS] at h
  cases he : visitE I m e sc with
  | none => simp [he] at h
  | some r =>
    obtain ⟨p, e', sc1⟩ := r
    cases hy : asVar (m x) with
    | none => simp [he, hy] at h
    | some y =>
      simp [he, hy] at h
      obtain ⟨rfl, rfl⟩ := h
      exact ⟨p, e', y, rfl, asVar_some.mp hy, rfl⟩

theorem visitS_store {c : Nat} {e : Expr} (h : visitS I m d (.store c e) sc = some (out, sc')) :
    ∃ p e', visitE I m e sc = some (p, e', sc') ∧ out = p ++ [.store c e'] := by
  simp only [visitS] at h
  cases he : visitE I m e sc with
  | none => simp [he] at h
  | some r =>
    obtain ⟨p, e', sc1⟩ := r
    simp [he] at h
    obtain ⟨rfl, rfl⟩ := h
    exact ⟨p, e', rfl, rfl⟩

theorem visitS_callVar {x f : Nat} {args : Exprs} (h : visitS I m d (.call (.var x) f args) sc = some (out, sc')) :
    ∃ p as sc1 y o, visitArgs I m args sc = some (p, as, sc1) ∧ m x = .name y ∧
      I.s sc1 (.var y) f as = some (o, sc') ∧ out = p ++ o := by
  simp only [visitS] at h
  cases ha : visitArgs I m args sc with
  | none => simp [ha] at h
  | some r =>
    obtain ⟨p, as, sc1⟩ := r
    simp only [ha] at h
    cases hy : asVar (m x) with
    | none => simp [hy] at h
    | some y =>
      simp [hy] at h
      obtain ⟨q, h2, h3⟩ := h
      exact ⟨p, as, sc1, y, q, rfl, asVar_some.mp hy, h2, h3.symm⟩

theorem visitS_callCell {c f : Nat} {args : Exprs} (h : visitS I m d (.call (.cell c) f args) sc = some (out, sc')) :
    ∃ p as sc1 o, visitArgs I m args sc = some (p, as, sc1) ∧
      I.s sc1 (.cell c) f as = some (o, sc') ∧ out = p ++ o := by
  simp only [visitS] at h
  cases ha : visitArgs I m args sc with
  | none => simp [ha] at h
  | some r =>
    obtain ⟨p, as, sc1⟩ := r
    simp [ha] at h
    obtain ⟨q, h2, h3⟩ := h
    exact ⟨p, as, sc1, q, rfl, h2, h3.symm⟩

theorem visitS_callDrop {f : Nat} {args : Exprs} (h : visitS I m d (.call .drop f args) sc = some (out, sc')) :
    ∃ p as sc1 o, visitArgs I m args sc = some (p, as, sc1) ∧
      I.s ⟨fresh sc1.used :: sc1.used, fresh sc1.used :: sc1.decl⟩ (.var (fresh sc1.used)) f as = some (o, sc') ∧
      out = p ++ o := by
  simp only [visitS] at h
  cases ha : visitArgs I m args sc with
  | none => simp [ha] at h
  | some r =>
    obtain ⟨p, as, sc1⟩ := r
    simp [ha] at h
    obtain ⟨q, h2, h3⟩ := h
    exact ⟨p, as, sc1, q, rfl, h2, h3.symm⟩

theorem visitS_seq {s t : Stmt} (h : visitS I m d (.seq s t) sc = some (out, sc')) :
    ∃ o1 sc1 o2, visitS I m d s sc = some (o1, sc1) ∧ visitS I m d t sc1 = some (o2, sc') ∧ out = o1 ++ o2 := by
  simp only [visitS] at h
  cases hs : visitS I m d s sc with
  | none => simp [hs] at h
  | some r =>
    obtain ⟨p, sc1⟩ := r
    simp [hs] at h
    obtain ⟨q, h2, h3⟩ := h
    exact ⟨p, sc1, q, rfl, h2, h3.symm⟩

theorem visitS_ite {c : Expr} {s t : Stmt} (h : visitS I m d (.ite c s t) sc = some (out, sc')) :
    ∃ p c' sc1 s' sc2 t', visitE I m c sc = some (p, c', sc1) ∧ visitS I m d s sc1 = some (s', sc2) ∧
      visitS I m d t sc2 = some (t', sc') ∧ out = p ++ [.ite c' (seqs s') (seqs t')] := by
  simp only [visitS] at h
  cases hc : visitE I m c sc with
  | none => simp [hc] at h
  | some r =>
    obtain ⟨p, c', sc1⟩ := r
    cases hs : visitS I m d s sc1 with
    | none => simp [hc, hs] at h
    | some r =>
      obtain ⟨s', sc2⟩ := r
      cases ht : visitS I m d t sc2 with
      | none => simp [hc, hs, ht] at h
      | some r =>
        obtain ⟨t', sc3⟩ := r
        simp [hc, hs, ht] at h
        obtain ⟨rfl, rfl⟩ := h
        exact ⟨p, c', sc1, s', sc2, t', rfl, hs, ht, rfl⟩

theorem visitS_loop {c : Expr} {s : Stmt} (h : visitS I m d (.loop c s) sc = some (out, sc')) :
    ∃ p c' sc1 s', visitE I m c sc = some (p, c', sc1) ∧ visitS I m d s sc1 = some (s', sc') ∧
      out = p ++ [.loop c' (seqs s')] := by
  simp only [visitS] at h
  cases hc : visitE I m c sc with
  | none => simp [hc] at h
  | some r =>
    obtain ⟨p, c', sc1⟩ := r
    cases hs : visitS I m d s sc1 with
    | none => simp [hc, hs] at h
    | some r =>
      obtain ⟨s', sc2⟩ := r
      simp [hc, hs] at h
      obtain ⟨rfl, rfl⟩ := h
      exact ⟨p, c', sc1, s', rfl, hs, rfl⟩

/-- Either a name is returned to a name and nothing is generated, or the value is put to its destination. -/
theorem visitS_ret {e : Expr} (h : visitS I m d (.ret e) sc = some (out, sc')) :
    ∃ d', d = some d' ∧ ((Expr.isName e ∧ (∃ y, d' = .var y) ∧ out = [] ∧ sc' = sc) ∨
      ((Expr.isName e → ∃ c, d' = .cell c) ∧ ∃ p e', visitE I m e sc = some (p, e', sc') ∧ out = p ++ [d'.put e'])) := by
  simp only [visitS] at h
  split at h
  · simp at h
  · rename_i y
    split at h
    · rename_i hn
      simp at h
      exact ⟨_, rfl, .inl ⟨hn, ⟨y, rfl⟩, h.1, h.2.symm⟩⟩
    · rename_i hn
      simp at h
      obtain ⟨p, e', h2, h3⟩ := h
      exact ⟨_, rfl, .inr ⟨fun h => absurd h hn, p, e', h2, h3.symm⟩⟩
  · rename_i c
    simp at h
    obtain ⟨p, e', h2, h3⟩ := h
    exact ⟨_, rfl, .inr ⟨fun _ => ⟨c, rfl⟩, p, e', h2, h3.symm⟩⟩

theorem visitS_retCall {f : Nat} {args : Exprs} (h : visitS I m d (.retCall f args) sc = some (out, sc')) :
    ∃ d' p as sc1 o, d = some d' ∧ visitArgs I m args sc = some (p, as, sc1) ∧
      I.s sc1 d' f as = some (o, sc') ∧ out = p ++ o := by
  simp only [visitS] at h
  split at h
  · simp at h
  · rename_i d'
    cases ha : visitArgs I m args sc with
    | none => simp [ha] at h
    | some r =>
      obtain ⟨p, as, sc1⟩ := r
      simp [ha] at h
      obtain ⟨q, h2, h3⟩ := h
      exact ⟨d', p, as, sc1, q, rfl, rfl, h2, h3.symm⟩

theorem expand_some {funs : List Func} {dd : Dest} {f : Nat} {as : List Expr}
    (h : expand funs I sc dd f as = some (out, sc')) :
    ∃ F, funs[f]? = some F ∧ F.params.length = as.length ∧
      visitS I (mapOf F dd as (rename (toRename F dd) sc.used).1) (some dd) F.body
        ⟨(rename (toRename F dd) sc.used).2, (rename (toRename F dd) sc.used).1.map (·.2) ++ sc.decl⟩ =
        some (out, sc') := by
  unfold expand at h
  split at h
  · simp at h
  · rename_i F hF
    split at h
    · rename_i hl
      exact ⟨F, hF, hl, h⟩
    · simp at h

theorem lookup_none {α : Type} {x : Name} : ∀ {l : List (Name × α)}, l.lookup x = none ↔ ∀ p ∈ l, p.1 ≠ x
  | [] => by simp
  | (y, a) :: l => by
    simp only [List.lookup]
    by_cases h : x = y
    · subst h; simp
    · have : (x == y) = false := by simpa using h
      simp only [this, List.mem_cons]
      rw [lookup_none]
      constructor
      · intro hh p hp
        rcases hp with rfl | hp
        · exact fun e => h e.symm
        · exact hh p hp
      · intro hh p hp; exact hh p (.inr hp)

theorem lookup_mem {α : Type} {x : Name} {a : α} : ∀ {l : List (Name × α)}, l.lookup x = some a → (x, a) ∈ l
  | [], h => by simp at h
  | (y, b) :: l, h => by
    simp only [List.lookup] at h
    by_cases e : x = y
    · subst e; simp at h; simp [h]
    · have : (x == y) = false := by simpa using e
      simp only [this] at h
      exact List.mem_cons_of_mem _ (lookup_mem h)

/-- The kinds of names in a body and what becomes of them. -/
theorem mapOf_cases (F : Func) (dd : Dest) (as : List Expr) (U : List Name) (x : Name)
    (hl : F.params.length = as.length) :
    (x ∈ F.params ∧ ∃ a ∈ as, (F.params.zip as).lookup x = some a ∧ mapOf F dd as (rename (toRename F dd) U).1 x = a) ∨
    (x ∉ F.params ∧ resName F = some x ∧ ∃ y, dd = .var y ∧ mapOf F dd as (rename (toRename F dd) U).1 x = .name y) ∨
    (x ∉ F.params ∧ x ∈ F.body.assigned ∧ resDest F dd x = none ∧
      ∃ y, (rename (toRename F dd) U).1.lookup x = some y ∧ (x, y) ∈ (rename (toRename F dd) U).1 ∧
        mapOf F dd as (rename (toRename F dd) U).1 x = .name y) ∨
    (x ∉ F.locals ∧ mapOf F dd as (rename (toRename F dd) U).1 x = if F.mod = 0 then .name x else .glob F.mod x) := by
  unfold mapOf
  cases h1 : (F.params.zip as).lookup x with
  | some a =>
    left
    have := lookup_mem h1
    exact ⟨(List.of_mem_zip this).1, a, (List.of_mem_zip this).2, rfl, rfl⟩
  | none =>
    right
    have hp : x ∉ F.params := by
      intro hx
      rw [lookup_none] at h1
      obtain ⟨i, hi, rfl⟩ := List.getElem_of_mem hx
      have hi' : i < as.length := by omega
      refine h1 (F.params[i], as[i]) ?_ rfl
      rw [List.mem_iff_getElem]
      exact ⟨i, by simp; omega, by simp⟩
    simp only
    cases hr : resDest F dd x with
    | some y =>
      left
      unfold resDest at hr
      cases dd with
      | cell c => simp at hr
      | var z =>
        simp only at hr
        split at hr
        · rename_i h2
          simp at hr
          exact ⟨hp, h2, y, by rw [hr], rfl⟩
        · simp at hr
    | none =>
      right
      obtain ⟨_, _, h3, _⟩ := rename_spec (toRename F dd) U
      have key : ((rename (toRename F dd) U).1.lookup x ≠ none) ↔ x ∈ toRename F dd := by
        have hm : x ∈ (rename (toRename F dd) U).1.map (·.1) ↔ x ∈ toRename F dd := by rw [h3]
        rw [← hm, ne_eq, lookup_none, List.mem_map]
        constructor
        · intro h
          apply Classical.byContradiction
          intro hc
          exact h fun p hp he => hc ⟨p, hp, he⟩
        · rintro ⟨p, hp, he⟩ h
          exact h p hp he
      have hmem : x ∈ toRename F dd ↔ x ∈ F.body.assigned := by
        unfold toRename
        simp [hp, hr, List.mem_eraseDups]
      cases hk : (rename (toRename F dd) U).1.lookup x with
      | some y =>
        left
        exact ⟨hp, hmem.mp (key.mp (by simp [hk])), rfl, y, rfl, lookup_mem hk, rfl⟩
      | none =>
        right
        refine ⟨?_, rfl⟩
        unfold Func.locals
        simp only [List.mem_append, not_or]
        refine ⟨hp, fun hx => ?_⟩
        exact key.mpr (hmem.mpr hx) hk

end Verif.Inline.Lemmas
