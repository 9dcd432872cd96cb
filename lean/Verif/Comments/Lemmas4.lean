import Verif.Comments.Lemmas3

namespace Verif.Comments
open Spec Model

theorem hashCol_eq (l : List Char) : hashCol l = hashAt l := by
  induction l with
  | nil => rfl
  | cons c r ih =>
    unfold hashAt
    by_cases hc : c = '#'
    · subst hc
      rfl
    · by_cases hw : c.isWhitespace = true
      · rw [if_neg hc, if_pos hw, ← ih]
        unfold hashCol
        rw [List.dropWhile_cons, if_pos hw, List.takeWhile_cons, if_pos hw]
        cases hd : List.dropWhile Char.isWhitespace r with
        | nil => rfl
        | cons d t =>
          by_cases hh : d = '#'
          · subst hh; rfl
          · simp [hh]
      · rw [if_neg hc, if_neg hw]
        unfold hashCol
        rw [List.dropWhile_cons, if_neg hw]
        simp [hc]

theorem comments_ge (ls : List (Lex × List Char)) (i : Nat) : ∀ x ∈ comments i ls, i ≤ x.line := by
  induction ls generalizing i with
  | nil => simp [comments]
  | cons p r ih =>
    obtain ⟨x, l⟩ := p
    intro y hy
    unfold comments at hy
    split at hy
    · rcases List.mem_cons.1 hy with rfl | h
      · exact Nat.le_refl _
      · have := ih (i + 1) y h; omega
    · have := ih (i + 1) y hy; omega

theorem getComments_iff (x : Lex) (i : Nat) (ls : List (List Char)) :
    getComments i ls = comments i (starts x ls) ↔
      ∀ p ∈ starts x ls, p.1 ≠ .code → hashAt p.2 = none := by
  induction ls generalizing x i with
  | nil => simp [getComments, comments, starts]
  | cons l r ih =>
    have ih' := ih (scan x l) (i + 1)
    simp only [starts, List.mem_cons, forall_eq_or_imp, ← ih']
    cases hh : hashAt l with
    | none => cases x <;> simp [getComments, comments, hashCol_eq, hh]
    | some k =>
      cases x with
      | code => simp [getComments, comments, hashCol_eq, hh]
      | tri q =>
        simp only [getComments, comments, hashCol_eq, hh, ne_eq, reduceCtorEq, not_false_eq_true,
          forall_const, false_and, iff_false]
        intro h
        have := comments_ge (starts (scan (.tri q) l) r) (i + 1) ⟨i, k⟩ (by rw [← h]; simp)
        simp at this
        omega
      | one q =>
        simp only [getComments, comments, hashCol_eq, hh, ne_eq, reduceCtorEq, not_false_eq_true,
          forall_const, false_and, iff_false]
        intro h
        have := comments_ge (starts (scan (.one q) l) r) (i + 1) ⟨i, k⟩ (by rw [← h]; simp)
        simp at this
        omega

theorem group_ne (cs : List Com) : ∀ g ∈ group cs, g ≠ [] := by
  induction cs with
  | nil => simp [group]
  | cons a r ih =>
    unfold group
    split
    · rename_i b g gs hg
      split <;> · intro x hx; rw [hg] at ih; simp at hx ih; grind
    · intro x hx; simp at hx; grind

theorem group_flatten (cs : List Com) : (group cs).flatten = cs := by
  induction cs with
  | nil => rfl
  | cons a r ih =>
    unfold group
    split
    · rename_i b g gs hg
      rw [hg] at ih
      split <;> simpa using ih
    · simpa using ih

/-- Consecutive lines, one column. -/
theorem group_consecutive (cs : List Com) : ∀ g ∈ group cs, ∀ a b (p q : List Com), g = p ++ a :: b :: q →
    b.line = a.line + 1 ∧ b.col = a.col := by
  induction cs with
  | nil => simp [group]
  | cons a r ih =>
    intro g hg x y p q hpq
    unfold group at hg
    split at hg
    · rename_i b g' gs hgr
      rw [hgr] at ih
      split at hg
      · rename_i hb
        rcases List.mem_cons.1 hg with h | h
        · subst h
          cases p with
          | nil =>
            simp only [List.nil_append, List.cons.injEq] at hpq
            obtain ⟨rfl, rfl, _⟩ := hpq
            exact hb
          | cons p0 p =>
            simp only [List.cons_append, List.cons.injEq] at hpq
            exact ih _ (by simp) x y p q hpq.2
        · exact ih g (by simp [h]) x y p q hpq
      · rcases List.mem_cons.1 hg with h | h
        · subst h
          exfalso
          cases p with
          | nil => simp at hpq
          | cons p0 p => simp at hpq
        · exact ih g h x y p q hpq
    · rcases List.mem_cons.1 hg with h | h
      · subst h
        exfalso
        cases p with
        | nil => simp at hpq
        | cons p0 p => simp at hpq
      · exact ih g h x y p q hpq

end Verif.Comments
