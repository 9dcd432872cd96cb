import Verif.Comments.Model

namespace Verif.Comments
open Spec Model

/-! ## Lists -/

theorem tw_append {α : Type} (p : α → Bool) (a r : List α) (ha : ∀ x ∈ a, p x = true)
    (hr : ∀ x, r.head? = some x → p x = false) : (a ++ r).takeWhile p = a := by
  induction a with
  | nil =>
    cases r with
    | nil => rfl
    | cons x r => simp [hr x rfl]
  | cons x a ih =>
    simp [ha x (by simp), ih fun y hy => ha y (by simp [hy])]

theorem getLast_of_max (l : List Nat) (hs : l.Pairwise (· < ·)) (L : Nat) (hm : L ∈ l)
    (hx : ∀ x ∈ l, x ≤ L) : l.getLast? = some L := by
  induction l with
  | nil => simp at hm
  | cons a r ih =>
    cases r with
    | nil => simp_all
    | cons b r =>
      rw [List.getLast?_cons_cons]
      apply ih (List.pairwise_cons.1 hs).2
      · rcases List.mem_cons.1 hm with rfl | h
        · have h1 := (List.pairwise_cons.1 hs).1 b (by simp)
          have h2 := hx b (by simp)
          omega
        · exact h
      · intro x h; exact hx x (by simp [h])

/-! ## Trees -/

theorem stripAll_append (a b : List Node) : stripAll (a ++ b) = stripAll a ++ stripAll b := by
  induction a with
  | nil => rfl
  | cons x a ih => simp [stripAll, ih]

theorem comsAll_append (a b : List Node) : comsAll (a ++ b) = comsAll a ++ comsAll b := by
  induction a with
  | nil => rfl
  | cons x a ih => simp [comsAll, ih]

theorem linesAll_append (a b : List Node) : linesAll (a ++ b) = linesAll a ++ linesAll b := by
  induction a with
  | nil => rfl
  | cons x a ih => simp [linesAll, ih]

theorem stripAll_com (ds : List Com) : stripAll (ds.map .com) = [] := by
  induction ds with
  | nil => rfl
  | cons x a ih => simp [stripAll, strip, ih]

theorem comsAll_com (ds : List Com) : comsAll (ds.map .com) = ds := by
  induction ds with
  | nil => rfl
  | cons x a ih => simp [comsAll, coms, ih]

theorem linesAll_com (ds : List Com) : linesAll (ds.map .com) = ds.map (·.line) := by
  induction ds with
  | nil => rfl
  | cons x a ih => simp [linesAll, lines, ih]

theorem formattedAll_append (els : List Nat) (c : Nat) (a b : List Node) :
    formattedAll els c (a ++ b) ↔ formattedAll els c a ∧ formattedAll els c b := by
  induction a with
  | nil => simp [formattedAll]
  | cons x a ih => simp [formattedAll, ih, and_assoc]

theorem carefulAll_tail (a b : List Node) (h : carefulAll (a ++ b)) : carefulAll b := by
  induction a with
  | nil => exact h
  | cons x a ih => exact ih h.2.1

mutual
theorem strip_noCom : ∀ n : Node, coms n = [] → strip n = [n]
  | .leaf _ _, _ => rfl
  | .com c, h => by simp [coms] at h
  | .block l c i b e, h => by
    simp only [coms, List.append_eq_nil_iff] at h
    simp [strip, stripAll_noCom b h.1, stripAll_noCom e h.2]

theorem stripAll_noCom : ∀ l : List Node, comsAll l = [] → stripAll l = l
  | [], _ => rfl
  | n :: r, h => by
    simp only [comsAll, List.append_eq_nil_iff] at h
    simp [stripAll, strip_noCom n h.1, stripAll_noCom r h.2]
end

theorem split_com (l : List Node) : ∃ (ds : List Com) (tail : List Node), l = ds.map .com ++ tail ∧
    (tail = [] ∨ ∃ s r, tail = s :: r ∧ isCom s = false) := by
  induction l with
  | nil => exact ⟨[], [], rfl, .inl rfl⟩
  | cons n l ih =>
    cases n with
    | leaf a b => exact ⟨[], _, (List.nil_append _).symm, .inr ⟨_, _, rfl, rfl⟩⟩
    | block a b c d e => exact ⟨[], _, (List.nil_append _).symm, .inr ⟨_, _, rfl, rfl⟩⟩
    | com c =>
      obtain ⟨ds, tail, rfl, h⟩ := ih
      exact ⟨c :: ds, tail, rfl, h⟩

theorem first_com (ds : List Com) (t : List Node) : firstStmt (ds.map .com ++ t) = firstStmt t := by
  induction ds with
  | nil => rfl
  | cons x a ih => simpa [firstStmt, isCom] using ih

theorem first_split (l : List Node) (s : Node) (h : firstStmt l = some s) :
    ∃ (ds : List Com) (r : List Node), l = ds.map .com ++ s :: r ∧ isCom s = false := by
  obtain ⟨ds, tail, rfl, ht⟩ := split_com l
  rw [first_com] at h
  rcases ht with rfl | ⟨s', r, rfl, hs⟩
  · simp [firstStmt] at h
  · simp [firstStmt, hs] at h
    subst h
    exact ⟨ds, r, rfl, hs⟩

/-- A statement stripped. -/
theorem strip_stmt (s : Node) (h : isCom s = false) :
    ∃ s', strip s = [s'] ∧ line s' = line s ∧ isIf s' = isIf s := by
  cases s with
  | leaf a b => exact ⟨_, rfl, rfl, rfl⟩
  | block a b c d e => exact ⟨_, rfl, rfl, rfl⟩
  | com c => simp [isCom] at h

mutual
theorem coms_lines : ∀ (n : Node), ∀ x ∈ coms n, x.line ∈ lines n
  | .leaf _ _, x, h => by simp [coms] at h
  | .com c, x, h => by simp [coms] at h; simp [lines, h]
  | .block l c i b e, x, h => by
    simp only [coms, List.mem_append] at h
    simp only [lines, List.mem_cons, List.mem_append]
    rcases h with h | h
    · exact .inr (.inl (comsAll_lines b x h))
    · exact .inr (.inr (comsAll_lines e x h))

theorem comsAll_lines : ∀ (l : List Node), ∀ x ∈ comsAll l, x.line ∈ linesAll l
  | [], x, h => by simp [comsAll] at h
  | n :: r, x, h => by
    simp only [comsAll, List.mem_append] at h
    simp only [linesAll, List.mem_append]
    rcases h with h | h
    · exact .inl (coms_lines n x h)
    · exact .inr (comsAll_lines r x h)
end

mutual
theorem coms_col (els : List Nat) (c : Nat) : ∀ (n : Node), formatted els c n →
    (∀ x ∈ coms n, c ≤ x.col) ∧ (isCom n = false → ∀ x ∈ coms n, c < x.col)
  | .leaf _ _, _ => by simp [coms]
  | .com k, h => by
    simp only [formatted] at h
    simp [coms, isCom, h]
  | .block l k i b e, h => by
    obtain ⟨_, ⟨c', hc, hb⟩, _, he⟩ := h
    have key : ∀ x ∈ comsAll b ++ comsAll e, c < x.col := by
      intro x hx
      rcases List.mem_append.1 hx with hx | hx
      · have := (comsAll_col els c' b hb).1 x hx
        omega
      · rcases he with rfl | ⟨⟨n, hn, hi⟩, hf⟩ | ⟨⟨c2, hc2, hf⟩, _⟩
        · simp [comsAll] at hx
        · refine (comsAll_col els c e hf).2 ?_ x hx
          intro m hm
          rw [hn] at hm
          simp only [List.mem_singleton] at hm
          subst hm
          cases m <;> simp_all [isIf, isCom]
        · have := (comsAll_col els c2 e hf).1 x hx
          omega
    exact ⟨fun x hx => Nat.le_of_lt (key x hx), fun _ x hx => key x hx⟩

theorem comsAll_col (els : List Nat) (c : Nat) : ∀ (l : List Node), formattedAll els c l →
    (∀ x ∈ comsAll l, c ≤ x.col) ∧ ((∀ n ∈ l, isCom n = false) → ∀ x ∈ comsAll l, c < x.col)
  | [], _ => by simp [comsAll]
  | n :: r, h => by
    have h1 := coms_col els c n h.1
    have h2 := comsAll_col els c r h.2
    constructor
    · intro x hx
      rcases List.mem_append.1 hx with hx | hx
      · exact h1.1 x hx
      · exact h2.1 x hx
    · intro hn x hx
      rcases List.mem_append.1 hx with hx | hx
      · exact h1.2 (hn n (by simp)) x hx
      · exact h2.2 (fun m hm => hn m (by simp [hm])) x hx
end

theorem stripAll_ne (l : List Node) (h : firstStmt l ≠ none) : stripAll l ≠ [] := by
  obtain ⟨s, hs⟩ := Option.ne_none_iff_exists'.1 h
  obtain ⟨ds, r, rfl, hc⟩ := first_split l s hs
  obtain ⟨s', h1, _⟩ := strip_stmt s hc
  simp [stripAll_append, stripAll, h1]

mutual
theorem lastLine_mem (els : List Nat) (c : Nat) : ∀ (n n' : Node), formatted els c n → strip n = [n'] →
    lastLine n' ∈ lines n
  | .leaf l _, n', _, h => by simp [strip] at h; subst h; simp [lastLine, lines]
  | .com k, n', _, h => by simp [strip] at h
  | .block l k i b e, n', hf, h => by
    obtain ⟨_, ⟨c', hc, hb⟩, hfb, he⟩ := hf
    simp only [strip, List.cons.injEq, and_true] at h
    subst h
    simp only [lines, List.mem_cons, List.mem_append]
    cases hs : stripAll e with
    | nil =>
      simp only [lastLine]
      exact .inr (.inl (lastLineAll_mem els c' b hb (stripAll_ne b hfb)))
    | cons x r =>
      simp only [lastLine]
      rw [← hs]
      refine .inr (.inr ?_)
      rcases he with rfl | ⟨_, hf⟩ | ⟨⟨c2, hc2, hf⟩, _⟩
      · simp [stripAll] at hs
      · exact lastLineAll_mem els c e hf (by simp [hs])
      · exact lastLineAll_mem els c2 e hf (by simp [hs])

theorem lastLineAll_mem (els : List Nat) (c : Nat) : ∀ (l : List Node), formattedAll els c l →
    stripAll l ≠ [] → lastLineAll (stripAll l) ∈ linesAll l
  | [], _, h => by simp [stripAll] at h
  | n :: r, hf, h => by
    simp only [linesAll, List.mem_append]
    cases hr : stripAll r with
    | nil =>
      cases hn : isCom n with
      | true =>
        exfalso
        cases n <;> simp [isCom] at hn
        simp [stripAll, strip, hr] at h
      | false =>
        obtain ⟨n', h1, _⟩ := strip_stmt n hn
        simp only [stripAll, hr, h1, List.append_nil, lastLineAll]
        exact .inl (lastLine_mem els c n n' hf.1 h1)
    | cons x y =>
      have ih := lastLineAll_mem els c r hf.2 (by simp [hr])
      refine .inr ?_
      have : lastLineAll (strip n ++ stripAll r) = lastLineAll (stripAll r) := by
        rw [hr]
        cases n <;> simp [strip, lastLineAll]
      rw [stripAll, this]
      exact ih
end

/-! ## Cutting -/

theorem bodyComs_noElse (els : List Nat) (c : Nat) (next : Option Nat) (b : List Node) (cb rest : List Com)
    (h1 : ∀ x ∈ cb, c < x.col) (h2 : ∀ n, next = some n → ∀ x ∈ cb, x.line < n)
    (h3 : ∀ x, rest.head? = some x → lastLineAll b < x.line ∧
      (x.col ≤ c ∨ ∃ n, next = some n ∧ n < x.line)) :
    bodyComs els c next b [] (cb ++ rest) = cb := by
  simp only [bodyComs, List.isEmpty_nil, if_true, Bool.not_true, Bool.false_and, Bool.and_true,
    Bool.false_or, Bool.false_eq_true, if_false]
  apply tw_append
  · intro x hx
    have a := h1 x hx
    have : ¬ x.col ≤ c := by omega
    cases next with
    | none => simp [this, past]
    | some n =>
      have b := h2 n rfl x hx
      have : ¬ n < x.line := by omega
      simp [*, past]
  · intro x hx
    obtain ⟨a, b⟩ := h3 x hx
    rcases b with b | ⟨n, rfl, b⟩ <;> simp [a, b, past]

theorem bodyComs_elif (els : List Nat) (c : Nat) (next : Option Nat) (b : List Node) (n : Node)
    (hn : isIf n = true) (cb rest : List Com) (h1 : ∀ x ∈ cb, x.line ≤ line n)
    (h3 : ∀ x, rest.head? = some x → line n < x.line) :
    bodyComs els c next b [n] (cb ++ rest) = cb := by
  simp only [bodyComs, List.isEmpty_cons, Bool.false_eq_true, if_false, Bool.not_false, elifOrelse, hn,
    lineOf, Bool.true_and, Bool.true_or, Bool.and_true, Bool.not_true]
  apply tw_append
  · intro x hx
    have := h1 x hx
    simp
    omega
  · intro x hx
    have := h3 x hx
    simp
    omega

theorem bodyComs_else (els : List Nat) (hels : els.Pairwise (· < ·)) (c : Nat) (next : Option Nat)
    (b e : List Node) (he : e ≠ []) (hi : elifOrelse e = false) (cb mid fut : List Com) (L : Nat)
    (h1 : L ∈ els) (h2 : L ≤ lineOf e) (h3 : ∀ L' ∈ els, L' ≤ lineOf e → L' ≤ L)
    (h4 : ∀ x ∈ cb, x.line < L) (h5 : ∀ x ∈ mid, L < x.line) (h6 : cb = [] ∨ mid ≠ [])
    (h7 : ∀ n, next = some n → ∀ x ∈ cb ++ mid, x.line ≤ n)
    (h8 : ∀ x, fut.head? = some x → lineOf e < x.line ∧ ∃ n, next = some n ∧ n < x.line) :
    bodyComs els c next b e (cb ++ (mid ++ fut)) = cb := by
  have hee : e.isEmpty = false := by cases e <;> simp_all
  simp only [bodyComs, hee, Bool.false_eq_true, if_false, Bool.not_false, hi, Bool.and_false,
    Bool.false_or, Bool.and_self, if_true]
  have ht : ((cb ++ (mid ++ fut)).takeWhile fun x => !(decide (lineOf e < x.line) && past next x)) = cb ++ mid := by
    rw [← List.append_assoc]
    apply tw_append
    · intro x hx
      cases next with
      | none => simp [past]
      | some n =>
        have := h7 n rfl x hx
        simp [past]
        omega
    · intro x hx
      obtain ⟨a, n, rfl, b⟩ := h8 x hx
      simp [a, b, past]
  rw [ht]
  by_cases hm : mid = []
  · have hcb : cb = [] := h6.resolve_right (fun h => h hm)
    simp [hm, hcb]
  · have hg : ∃ z ∈ mid, (cb ++ mid).getLast? = some z := by
      refine ⟨mid.getLast hm, List.getLast_mem hm, ?_⟩
      rw [List.getLast?_append, List.getLast?_eq_some_getLast hm]
      rfl
    obtain ⟨z, hz, hz'⟩ := hg
    have hzL := h5 z hz
    rw [hz']
    have hf : (els.filter fun l => decide (l ≤ z.line) && decide (l ≤ lineOf e)).getLast? = some L := by
      apply getLast_of_max _ (hels.filter _)
      · simp [h1, h2]; omega
      · intro x hx
        simp only [List.mem_filter, Bool.and_eq_true, decide_eq_true_eq] at hx
        exact h3 x hx.1 hx.2.2
    simp only [hf]
    apply tw_append
    · intro x hx; simpa using h4 x hx
    · intro x hx
      have := h5 x (List.mem_of_head? hx)
      simp
      omega

theorem elseComs_eq (c : Nat) (e : List Node) (he : e ≠ []) (ce rest : List Com) (h1 : ∀ x ∈ ce, c < x.col)
    (h2 : ∀ x, rest.head? = some x → lastLineAll e < x.line ∧ x.col ≤ c) :
    elseComs c e (ce ++ rest) = ce := by
  have hee : e.isEmpty = false := by cases e <;> simp_all
  simp only [elseComs, hee, Bool.false_eq_true, if_false]
  apply tw_append
  · intro x hx
    have := h1 x hx
    simp
    omega
  · intro x hx
    have := h2 x hx
    simp
    omega

end Verif.Comments
