import Verif.Comments.Lemmas

namespace Verif.Comments
open Spec Model

/-! ## Nothing is lost -/

theorem take_len_of_prefix {α : Type} (p : α → Bool) (l : List α) :
    l.takeWhile p ++ l.drop (l.takeWhile p).length = l := by
  induction l with
  | nil => rfl
  | cons x l ih =>
    simp only [List.takeWhile_cons]
    split
    · simp [ih]
    · simp

theorem prefix_drop {α : Type} (a l : List α) (h : a <+: l) : a ++ l.drop a.length = l := by
  obtain ⟨t, rfl⟩ := h
  simp

theorem bodyComs_prefix (els : List Nat) (c : Nat) (next : Option Nat) (b e : List Node) (cs : List Com) :
    bodyComs els c next b e cs <+: cs := by
  unfold bodyComs
  simp only
  split
  · split
    · exact List.takeWhile_prefix _
    · split
      · exact List.takeWhile_prefix _
      · exact (List.takeWhile_prefix _).trans (List.takeWhile_prefix _)
  · exact List.takeWhile_prefix _

theorem elseComs_prefix (c : Nat) (e : List Node) (cs : List Com) : elseComs c e cs <+: cs := by
  unfold elseComs
  split
  · exact List.nil_prefix
  · exact List.takeWhile_prefix _

mutual
theorem into_keep (els : List Nat) (c : Nat) : ∀ (n : Node) (x y : List Com), coms n = [] →
    strip (into els c n x y) = [n] ∧
      ∀ l k i b e, n = .block l k i b e → coms (into els c n x y) = x ++ y
  | .leaf l k, x, y, _ => by simp [into, strip]
  | .com k, x, y, h => by simp [coms] at h
  | .block l k i b e, x, y, h => by
    simp only [coms, List.append_eq_nil_iff] at h
    have hb := go_keep els (colOf b) b (x.drop (before b x).length) h.1
    have he := go_keep els (if headIf e then c else colOf e) e (y.drop (before e y).length) h.2
    have kb := stripAll_noCom b h.1
    have ke := stripAll_noCom e h.2
    have px : before b x ++ x.drop (before b x).length = x := take_len_of_prefix _ _
    have py : before e y ++ y.drop (before e y).length = y := take_len_of_prefix _ _
    constructor
    · simp only [into, strip, List.cons.injEq, Node.block.injEq, true_and, and_true]
      constructor
      · split
        · exact kb
        · rw [stripAll_append, stripAll_com, hb.1]; rfl
      · split
        · exact ke
        · rw [stripAll_append, stripAll_com, he.1]; rfl
    · intro _ _ _ _ _ _
      simp only [into, coms]
      congr 1
      · split
        · rename_i hx; rw [hx, h.1]
        · rw [comsAll_append, comsAll_com, hb.2, px]
      · split
        · rename_i hx; rw [hx, h.2]
        · rw [comsAll_append, comsAll_com, he.2, py]

theorem go_keep (els : List Nat) (c : Nat) : ∀ (b : List Node) (cs : List Com), comsAll b = [] →
    stripAll (go els c b cs) = b ∧ comsAll (go els c b cs) = cs
  | [], cs, _ => by simp [go, stripAll_com, comsAll_com]
  | [.leaf l k], cs, _ => by simp [go, stripAll, comsAll, strip, coms, stripAll_com, comsAll_com]
  | [.com x], cs, h => by simp [comsAll, coms] at h
  | [.block l k i b e], cs, h => by
    simp only [comsAll, List.append_nil] at h
    have p1 := bodyComs_prefix els c none b e cs
    have p2 := elseComs_prefix c e (cs.drop (bodyComs els c none b e cs).length)
    have hi := into_keep els c (.block l k i b e) (bodyComs els c none b e cs)
      (elseComs c e (cs.drop (bodyComs els c none b e cs).length)) h
    have hi2 := hi.2 _ _ _ _ _ rfl
    simp only [go, stripAll, comsAll, hi.1, hi2, stripAll_com, comsAll_com, List.append_nil]
    refine ⟨trivial, ?_⟩
    rw [List.append_assoc, prefix_drop _ _ p2, prefix_drop _ _ p1]
  | s :: s2 :: r, cs, h => by
    have h0 : coms s = [] ∧ comsAll (s2 :: r) = [] := by
      rw [comsAll, List.append_eq_nil_iff] at h
      exact h
    have hs := stripAll_noCom _ h
    cases cs with
    | nil => cases s <;> simp only [go] <;> exact ⟨hs, h⟩
    | cons c0 cs =>
      have hk : strip s = [s] := strip_noCom s h0.1
      by_cases hl : line s2 < c0.line
      · have ih := go_keep els c (s2 :: r) (c0 :: cs) h0.2
        have : go els c (s :: s2 :: r) (c0 :: cs) = s :: go els c (s2 :: r) (c0 :: cs) := by
          cases s <;> simp only [go, hl, if_true]
        rw [this, stripAll, comsAll, ih.1, ih.2, h0.1, hk]
        simp
      · cases s with
        | com x => simp [coms] at h0
        | leaf l k =>
          simp only [go, hl, if_false]
          have ih := go_keep els c (s2 :: r)
            ((c0 :: cs).drop ((c0 :: cs).takeWhile fun x => decide (x.line ≤ line s2)).length) h0.2
          simp only [stripAll, comsAll, stripAll_append, comsAll_append, stripAll_com, comsAll_com, strip,
            coms, ih.1, ih.2]
          refine ⟨rfl, ?_⟩
          rw [List.nil_append, take_len_of_prefix]
        | block l k i b e =>
          simp only [go, hl, if_false]
          have p1 := bodyComs_prefix els c (some (line s2)) b e (c0 :: cs)
          have p2 := elseComs_prefix c e
            ((c0 :: cs).drop (bodyComs els c (some (line s2)) b e (c0 :: cs)).length)
          have hi := into_keep els c (.block l k i b e) (bodyComs els c (some (line s2)) b e (c0 :: cs))
            (elseComs c e ((c0 :: cs).drop (bodyComs els c (some (line s2)) b e (c0 :: cs)).length)) h0.1
          have hi2 := hi.2 _ _ _ _ _ rfl
          have ih := fun q => go_keep els c (s2 :: r) q h0.2
          simp only [stripAll, comsAll, stripAll_append, comsAll_append, stripAll_com, comsAll_com, hi.1, hi2,
            (ih _).1, (ih _).2]
          refine ⟨rfl, ?_⟩
          rw [take_len_of_prefix, List.append_assoc, prefix_drop _ _ p2, prefix_drop _ _ p1]
end

theorem top_keep (els : List Nat) (c : Nat) (b : List Node) (cs : List Com) (h : comsAll b = []) :
    stripAll (top els c b cs) = b ∧ comsAll (top els c b cs) = cs := by
  unfold top
  split
  · rename_i hx
    exact ⟨stripAll_noCom b h, by rw [hx, h]⟩
  · have := go_keep els c b (cs.drop (before b cs).length) h
    rw [stripAll_append, comsAll_append, stripAll_com, comsAll_com, this.1, this.2]
    exact ⟨rfl, take_len_of_prefix _ _⟩

/-! ## Everything in its place -/

mutual
/-- The number of nodes. -/
def size : Node → Nat
  | .leaf _ _ => 1
  | .com _ => 1
  | .block _ _ _ b e => 1 + sizeAll b + sizeAll e

def sizeAll : List Node → Nat
  | [] => 0
  | n :: r => size n + sizeAll r
end

theorem sizeAll_append (a b : List Node) : sizeAll (a ++ b) = sizeAll a + sizeAll b := by
  induction a with
  | nil => simp [sizeAll]
  | cons x a ih => simp only [List.cons_append, sizeAll, ih]; omega

/-- The columns and the direct comments of a block. -/
def ColOk (c0 c : Nat) (l : List Node) : Prop := c0 = c ∨ (c0 ≤ c ∧ ∀ n ∈ l, isCom n = false)

/-- The claim for a block. -/
def Claim (els : List Nat) (l : List Node) : Prop :=
  ∀ c0 c, formattedAll els c l → carefulAll l → firstStmt l ≠ none → (linesAll l).Pairwise (· < ·) →
    ColOk c0 c l → top els c0 (stripAll l) (comsAll l) = l

theorem colOf_strip (els : List Nat) (c : Nat) (l : List Node) (hf : formattedAll els c l)
    (h : firstStmt l ≠ none) : colOf (stripAll l) = c := by
  obtain ⟨s, hs⟩ := Option.ne_none_iff_exists'.1 h
  obtain ⟨ds, r, rfl, hc⟩ := first_split l s hs
  have hf' := ((formattedAll_append els c _ _).1 hf).2.1
  cases s with
  | com x => simp [isCom] at hc
  | leaf a b => simpa [stripAll_append, stripAll_com, stripAll, strip, colOf, formatted] using hf'
  | block a b i x y => simpa [stripAll_append, stripAll_com, stripAll, strip, colOf] using hf'.1

theorem into_ok (els : List Nat) (c0 c : Nat) (hcc : c0 ≤ c) (l k : Nat) (i : Bool) (b e : List Node)
    (hf : formatted els c (.block l k i b e)) (hc : careful (.block l k i b e))
    (hs : (lines (.block l k i b e)).Pairwise (· < ·)) (ib : Claim els b) (ie : Claim els e) :
    into els c0 (.block l k i (stripAll b) (stripAll e)) (comsAll b) (comsAll e) = .block l k i b e := by
  obtain ⟨_, ⟨c', hcl, hb⟩, hfb, he⟩ := hf
  simp only [lines] at hs
  have hs' := (List.pairwise_cons.1 hs).2
  have hsb := (List.pairwise_append.1 hs').1
  have hse := (List.pairwise_append.1 hs').2.1
  have e1 := ib (colOf (stripAll b)) c' hb hc.1 hfb hsb (.inl (colOf_strip els c' b hb hfb))
  have e2 : top els (if headIf (stripAll e) then c0 else colOf (stripAll e)) (stripAll e) (comsAll e) = e := by
    have key : ∀ c2, c ≤ c2 → formattedAll els c2 e → firstStmt e ≠ none →
        top els (if headIf (stripAll e) then c0 else colOf (stripAll e)) (stripAll e) (comsAll e) = e := by
      intro c2 hc2 hfe hfs
      refine ie _ c2 hfe hc.2.1 hfs hse ?_
      split
      · rename_i hh
        refine .inr ⟨by omega, hc.2.2.1 ?_⟩
        obtain ⟨s, hs⟩ := Option.ne_none_iff_exists'.1 hfs
        refine ⟨s, hs, ?_⟩
        obtain ⟨ds, r, rfl, hcm⟩ := first_split e s hs
        obtain ⟨s', h1, _, h3⟩ := strip_stmt s hcm
        simp only [stripAll_append, stripAll_com, stripAll, h1, List.nil_append, List.cons_append,
          headIf] at hh
        rw [← h3, hh]
      · exact .inl (colOf_strip els c2 e hfe hfs)
    rcases he with rfl | ⟨⟨n, hn, hi⟩, hfe⟩ | ⟨⟨c2, hc2, hfe⟩, hfs, _⟩
    · simp [stripAll, comsAll, top]
    · refine key c (Nat.le_refl _) hfe ?_
      rw [hn]
      cases n <;> simp_all [firstStmt, isCom, isIf]
    · exact key c2 (by omega) hfe hfs
  simp only [into, Node.block.injEq, true_and]
  exact ⟨e1, e2⟩

end Verif.Comments
