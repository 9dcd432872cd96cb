import Verif.Comments.Lemmas4

/-!
# Comments and annotations: the properties
-/

namespace Verif.Comments
open Spec Model

/-! ## C158: annotations stay where they stand -/

/-- C158: no statement and no comment is lost or added, and each of both keeps its order. -/
theorem C158_kept (els : List Nat) (body : List Node) (cs : List Com) (h : comsAll body = []) :
    stripAll (extendTree els body cs) = body ∧ comsAll (extendTree els body cs) = cs := by
  unfold extendTree
  split
  · rename_i hb
    have : body = [] := by cases body <;> simp_all
    subst this
    exact ⟨stripAll_com cs, comsAll_com cs⟩
  · exact top_keep els _ body cs h

/-- Hypotheses of C158_kept. -/
example : comsAll [.block 1 0 true [.leaf 3 4] []] = [] := by simp [comsAll, coms]

/-- C158: every comment is put back where it stands, in formatted programs in which the comments near
`else` are as stated by `careful`. -/
theorem C158_place_partial (els : List Nat) (hels : els.Pairwise (· < ·)) (l : List Node)
    (c : Nat) (hf : formattedAll els c l) (hs : (linesAll l).Pairwise (· < ·)) (hl : firstStmt l ≠ none)
    (hc : carefulAll l) : extendTree els (stripAll l) (comsAll l) = l := by
  unfold extendTree
  have h1 := stripAll_ne l hl
  have h2 : (stripAll l).isEmpty = false := by cases h : stripAll l <;> simp_all
  rw [h2]
  simp only [Bool.false_eq_true, if_false]
  exact claim els hels (sizeAll l + 1) l (by omega) _ c hf hc hl hs (.inl (colOf_strip els c l hf hl))

mutual
theorem careful_of_noElse : ∀ n, noElse n → careful n
  | .leaf _ _, _ => trivial
  | .com _, _ => trivial
  | .block l k i b e, h => by
    obtain ⟨hb, rfl⟩ := h
    refine ⟨carefulAll_of_noElse b hb, trivial, ?_, ?_⟩
    · simp
    · simp

theorem carefulAll_of_noElse : ∀ l, noElseAll l → carefulAll l
  | [], _ => trivial
  | n :: r, h => by
    refine ⟨careful_of_noElse n h.1, carefulAll_of_noElse r h.2, ?_⟩
    cases n with
    | block l k i b e =>
      intro he
      exact absurd h.1.2 he
    | _ => trivial
end

/-- C158: in programs without `else` and `elif` (with loops, functions, classes and tests, of any depth)
every comment is put back where it stands. -/
theorem C158_noElse_partial (els : List Nat) (hels : els.Pairwise (· < ·)) (l : List Node)
    (c : Nat) (hf : formattedAll els c l) (hs : (linesAll l).Pairwise (· < ·)) (hl : firstStmt l ≠ none)
    (hn : noElseAll l) : extendTree els (stripAll l) (comsAll l) = l :=
  C158_place_partial els hels l c hf hs hl (carefulAll_of_noElse l hn)

/-- Hypotheses of C158_noElse_partial: a loop with a loop in it, and comments everywhere. -/
example : let l : List Node := [.com ⟨1, 0⟩, .block 2 0 false
      [.com ⟨3, 4⟩, .block 4 4 false [.leaf 5 8, .com ⟨6, 8⟩] [], .com ⟨7, 4⟩] [], .com ⟨8, 0⟩]
    formattedAll [] 0 l ∧ (linesAll l).Pairwise (· < ·) ∧ firstStmt l ≠ none ∧ noElseAll l := by
  refine ⟨?_, by decide, by decide, ?_⟩
  · exact ⟨rfl, ⟨rfl, ⟨4, by decide, rfl, ⟨rfl, ⟨8, by decide, rfl, rfl, trivial⟩, by decide, .inl rfl⟩, rfl,
      trivial⟩, by decide, .inl rfl⟩, rfl, trivial⟩
  · simp [noElseAll, noElse]

/-- Hypotheses of C158_place_partial: comments in both branches of a test.
```
if p:
    # 2
    x = 1
else:
    # 5
    x = 2
# 7
y = 1
``` -/
example : let l : List Node := [.block 1 0 true [.com ⟨2, 4⟩, .leaf 3 4] [.com ⟨5, 4⟩, .leaf 6 4],
      .com ⟨7, 0⟩, .leaf 8 0]
    formattedAll [4] 0 l ∧ (linesAll l).Pairwise (· < ·) ∧ firstStmt l ≠ none ∧ carefulAll l := by
  refine ⟨?_, by decide, by decide, ?_⟩
  · refine ⟨⟨rfl, ⟨4, by decide, rfl, rfl, trivial⟩, by decide, .inr (.inr ⟨⟨4, by decide, rfl, rfl, trivial⟩,
      by decide, 4, by decide, by decide, by decide, ?_⟩)⟩, rfl, rfl, trivial⟩
    intro s _ L' hL _
    simp at hL
    omega
  · simp [carefulAll, careful, comsAll, coms, firstStmt, isCom, isIf]

/-- C158 fails: a comment in the first branch of a test is moved to the second if an `else` stands
anywhere before in the file.
```
if p:
    x = 1
else:
    x = 2
if p:
    #$ omp barrier
    x = 3
else:
    x = 4
``` -/
theorem C158_violated_earlier_else :
    extendTree [3, 8]
      [.block 1 0 true [.leaf 2 4] [.leaf 4 4], .block 5 0 true [.leaf 7 4] [.leaf 9 4]] [⟨6, 4⟩] =
      [.block 1 0 true [.leaf 2 4] [.leaf 4 4], .block 5 0 true [.leaf 7 4] [.com ⟨6, 4⟩, .leaf 9 4]] := by
  rfl

/-- C158 fails: a comment in a loop that follows a test is moved to the second branch of the test.
```
if p:
    x = 1
else:
    # comment
    x = 2
for i in range(n):
    #$ omp barrier
    x = 3
``` -/
theorem C158_violated_next :
    extendTree [3]
      [.block 1 0 true [.leaf 2 4] [.leaf 5 4], .block 6 0 false [.leaf 8 4] []] [⟨4, 4⟩, ⟨7, 4⟩] =
      [.block 1 0 true [.leaf 2 4] [.com ⟨4, 4⟩, .leaf 5 4, .com ⟨7, 4⟩], .block 6 0 false [.leaf 8 4] []] := by
  rfl

/-- C158 fails: a comment between `else:` and a test is moved to the first branch.
```
if p:
    x = 1
else:
    #$ omp barrier
    if q:
        x = 2
``` -/
theorem C158_violated_else_if :
    extendTree [3] [.block 1 0 true [.leaf 2 4] [.block 5 4 true [.leaf 6 8] []]] [⟨4, 4⟩] =
      [.block 1 0 true [.leaf 2 4, .com ⟨4, 4⟩] [.block 5 4 true [.leaf 6 8] []]] := by
  rfl

/-- C158 fails: a comment after a test, in the second branch of another test, is moved into the test.
```
if p:
    x = 1
else:
    if q:
        x = 2
    #$ omp barrier
    x = 3
``` -/
theorem C158_violated_inner :
    extendTree [3] [.block 1 0 true [.leaf 2 4] [.block 4 4 true [.leaf 5 8] [], .leaf 7 4]] [⟨6, 4⟩] =
      [.block 1 0 true [.leaf 2 4] [.block 4 4 true [.leaf 5 8, .com ⟨6, 4⟩] [], .leaf 7 4]] := by
  rfl

/-! ## C159: which lines are comments -/

/-- C159: the comments that are found are those of Python if and only if no line that begins in a string
has `#` as its first character that is not blank. -/
theorem C159_comments_iff (ls : List (List Char)) :
    getComments 1 ls = comments 1 (starts .code ls) ↔
      ∀ p ∈ starts .code ls, p.1 ≠ .code → hashAt p.2 = none := getComments_iff .code 1 ls

/-- C159, programs in which no line begins in a string. -/
theorem C159_comments_partial (ls : List (List Char)) (h : ∀ p ∈ starts .code ls, p.1 = .code) :
    getComments 1 ls = comments 1 (starts .code ls) :=
  (C159_comments_iff ls).2 fun p hp hc => absurd (h p hp) hc

/-- Hypotheses of C159_comments_partial: `x = "#"`, `# y`. -/
example : ∀ p ∈ starts .code [['x', '=', '"', '#', '"'], ['#', 'y']], p.1 = .code := by
  simp [starts, scan]

/-- C159: comments in consecutive lines are taken together, and none is lost. -/
theorem C159_groups (cs : List Com) : (group cs).flatten = cs ∧ (∀ g ∈ group cs, g ≠ []) ∧
    ∀ g ∈ group cs, ∀ a b (p q : List Com), g = p ++ a :: b :: q → b.line = a.line + 1 ∧ b.col = a.col :=
  ⟨group_flatten cs, group_ne cs, group_consecutive cs⟩

/-- C159: comments that stand in consecutive lines with one column are in one group. -/
theorem C159_groups_joined (a b : Com) (r : List Com) (h : b.line = a.line + 1 ∧ b.col = a.col) :
    ∃ g gs, group (a :: b :: r) = (a :: b :: g) :: gs := by
  have hb : ∃ g gs, group (b :: r) = (b :: g) :: gs := by
    rw [group]
    split
    · split
      · exact ⟨_, _, rfl⟩
      · exact ⟨_, _, rfl⟩
    · exact ⟨_, _, rfl⟩
  obtain ⟨g, gs, hg⟩ := hb
  refine ⟨g, gs, ?_⟩
  rw [group, hg]
  simp [h]

/-- C159 fails: a line of a docstring that begins with `#` is taken for a comment, and thus for an
annotation if it is one.
```
\"\"\"
#$ omp barrier
\"\"\"
``` -/
theorem C159_violated :
    getComments 1 [['"', '"', '"'], ['#', '$', ' ', 'o', 'm', 'p'], ['"', '"', '"']] = [⟨2, 0⟩] ∧
    comments 1 (starts .code [['"', '"', '"'], ['#', '$', ' ', 'o', 'm', 'p'], ['"', '"', '"']]) = [] := by
  constructor
  · rfl
  · simp [starts, scan, comments, hashAt]

end Verif.Comments
