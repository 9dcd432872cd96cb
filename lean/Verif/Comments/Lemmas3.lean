import Verif.Comments.Lemmas2

namespace Verif.Comments
open Spec Model

theorem coms_after (s : Node) (h : isCom s = false) (hs : (lines s).Pairwise (· < ·)) :
    line s ∈ lines s ∧ ∀ x ∈ coms s, line s < x.line := by
  cases s with
  | com x => simp [isCom] at h
  | leaf a b => simp [lines, line, coms]
  | block l k i b e =>
    refine ⟨by simp [lines, line], fun x hx => ?_⟩
    have h1 := comsAll_lines (b ++ e) x (by rw [comsAll_append]; exact hx)
    rw [linesAll_append] at h1
    simp only [lines] at hs
    exact (List.pairwise_cons.1 hs).1 _ h1

/-- The cut at a statement with blocks: `ds` are the comments up to the next statement, `fut` those that
follow. -/
theorem cut_ok (els : List Nat) (hels : els.Pairwise (· < ·)) (c0 c : Nat) (hcc : c0 ≤ c) (next : Option Nat)
    (l k : Nat) (i : Bool) (b e : List Node) (ds fut : List Com)
    (hf : formatted els c (.block l k i b e)) (hc : careful (.block l k i b e))
    (hs : (lines (.block l k i b e)).Pairwise (· < ·))
    (hafter : ∀ x ∈ ds ++ fut, ∀ y ∈ lines (.block l k i b e), y < x.line)
    (hds : ∀ x ∈ ds, x.col ≤ c0)
    (hnext : ∀ n, next = some n → (∀ y ∈ lines (.block l k i b e), y < n) ∧ (∀ x ∈ ds, x.line ≤ n) ∧
      ∀ x ∈ fut, n < x.line)
    (hnone : next = none → fut = [])
    (hhead : e ≠ [] → ∀ x, (ds ++ fut).head? = some x → x.col ≤ c0) :
    bodyComs els c0 next (stripAll b) (stripAll e) (comsAll b ++ (comsAll e ++ (ds ++ fut))) = comsAll b ∧
    elseComs c0 (stripAll e) (comsAll e ++ (ds ++ fut)) = comsAll e := by
  have hcol := (coms_col els c _ hf).2 rfl
  simp only [coms] at hcol
  have hlines : ∀ x ∈ comsAll b ++ comsAll e, x.line ∈ lines (.block l k i b e) :=
    fun x hx => coms_lines (.block l k i b e) x hx
  have hf0 := hf
  obtain ⟨_, ⟨c', hcl, hb⟩, hfb, he⟩ := hf
  have hmb : ∀ y ∈ linesAll b, y ∈ lines (.block l k i b e) := by intro y hy; simp [lines, hy]
  have hme : ∀ y ∈ linesAll e, y ∈ lines (.block l k i b e) := by intro y hy; simp [lines, hy]
  simp only [lines] at hs
  have hs' := List.pairwise_append.1 (List.pairwise_cons.1 hs).2
  by_cases hee : e = []
  · subst hee
    refine ⟨?_, by simp [comsAll, elseComs, stripAll]⟩
    simp only [comsAll, List.nil_append, stripAll]
    apply bodyComs_noElse
    · intro x hx
      have := hcol x (by simp [hx])
      omega
    · intro n hn x hx
      exact (hnext n hn).1 _ (hlines x (by simp [hx]))
    · intro x hx
      have hx' := List.mem_of_head? hx
      refine ⟨hafter x hx' _ (hmb _ (lastLineAll_mem els c' b hb (stripAll_ne b hfb))), ?_⟩
      rcases List.mem_append.1 hx' with h | h
      · exact .inl (hds x h)
      · cases next with
        | none => simp [hnone rfl] at h
        | some n => exact .inr ⟨n, rfl, (hnext n rfl).2.2 x h⟩
  · obtain ⟨c2, hc2, hfe, hfs⟩ : ∃ c2, c ≤ c2 ∧ formattedAll els c2 e ∧ firstStmt e ≠ none := by
      rcases he with he | ⟨⟨n, hn, hi⟩, hfe⟩ | ⟨⟨c2, hc2, hfe⟩, hfs, _⟩
      · exact absurd he hee
      · refine ⟨c, Nat.le_refl _, hfe, ?_⟩
        rw [hn]
        cases n <;> simp_all [firstStmt, isCom, isIf]
      · exact ⟨c2, by omega, hfe, hfs⟩
    have hse := stripAll_ne e hfs
    have hll := lastLineAll_mem els c2 e hfe hse
    obtain ⟨s, hss⟩ := Option.ne_none_iff_exists'.1 hfs
    have hsplit := first_split e s hss
    have helse : elseComs c0 (stripAll e) (comsAll e ++ (ds ++ fut)) = comsAll e := by
      apply elseComs_eq _ _ hse
      · intro x hx
        have := hcol x (by simp [hx])
        omega
      · intro x hx
        exact ⟨hafter x (List.mem_of_head? hx) _ (hme _ hll), hhead hee x hx⟩
    refine ⟨?_, helse⟩
    obtain ⟨dse, re, heq, hcm⟩ := hsplit
    obtain ⟨s', hs1, hs2, hs3⟩ := strip_stmt s hcm
    have hst : stripAll e = s' :: stripAll re := by
      rw [heq, stripAll_append, stripAll_com, stripAll, hs1]; rfl
    have hline : lineOf (stripAll e) = line s := by rw [hst]; simp [lineOf, hs2]
    have hmem : line s ∈ linesAll e := by
      have : line s ∈ lines s := by cases s <;> simp [line, lines]
      rw [heq, linesAll_append]
      simp [linesAll, this]
    cases hel : elifOrelse (stripAll e) with
    | true =>
      rw [hst] at hel
      have hre : stripAll re = [] := by
        cases h : stripAll re with
        | nil => rfl
        | cons a t => rw [h] at hel; simp [elifOrelse] at hel
      rw [hre] at hel
      simp only [elifOrelse] at hel
      have hnd := hc.2.2.1 ⟨s, hss, by rw [← hs3, hel]⟩
      rw [hst, hre]
      apply bodyComs_elif _ _ _ _ _ hel
      · intro x hx
        rw [hs2]
        exact Nat.le_of_lt (hs'.2.2 _ (comsAll_lines b x hx) _ hmem)
      · intro x hx
        rw [hs2]
        rcases List.mem_append.1 (List.mem_of_head? hx) with h | h
        · -- the comments of the second block follow its first statement
          have hd : dse = [] := by
            cases dse with
            | nil => rfl
            | cons d t =>
              have := hnd (.com d) (by simp [heq])
              simp [isCom] at this
          subst hd
          simp only [List.map_nil, List.nil_append] at heq
          rw [heq, comsAll] at h
          have hp : (linesAll e).Pairwise (· < ·) := hs'.2.1
          rw [heq, linesAll] at hp
          have hp' := List.pairwise_append.1 hp
          rcases List.mem_append.1 h with h | h
          · exact (coms_after s hcm hp'.1).2 x h
          · exact hp'.2.2 _ (by cases s <;> simp [line, lines]) _ (comsAll_lines re x h)
        · exact hafter x h _ (hme _ hmem)
    | false =>
      have hsingle : ∀ n, e = [n] → isIf n = false := by
        intro n hn
        subst hn
        cases hcn : isCom n with
        | true => cases n <;> simp_all [isCom, isIf]
        | false =>
          obtain ⟨n', h1, _, h3⟩ := strip_stmt n hcn
          simp only [stripAll, h1, List.append_nil, elifOrelse] at hel
          rw [← h3, hel]
      rcases he with he | ⟨⟨n, hn, hi⟩, _⟩ | ⟨_, _, L, hL1, hL2, hL3, hL4⟩
      · exact absurd he hee
      · rw [hsingle n hn] at hi; simp at hi
      · have hcb := hc.2.2.2 hsingle hee
        rw [show comsAll b ++ (comsAll e ++ (ds ++ fut)) = comsAll b ++ ((comsAll e ++ ds) ++ fut) by simp]
        apply bodyComs_else els hels c0 next (stripAll b) (stripAll e) hse hel _ _ _ L hL1
        · rw [hline]; exact Nat.le_of_lt (hL3 _ hmem)
        · rw [hline]; exact hL4 s hss
        · intro x hx; exact hL2 _ (comsAll_lines b x hx)
        · intro x hx
          rcases List.mem_append.1 hx with h | h
          · exact hL3 _ (comsAll_lines e x h)
          · have h1 := hafter x (by simp [h]) _ (hme _ hmem)
            have h2 := hL3 _ hmem
            omega
        · rcases hcb with h | h
          · exact .inl h
          · exact .inr (by simp [h])
        · intro n hn x hx
          obtain ⟨g1, g2, _⟩ := hnext n hn
          rw [← List.append_assoc] at hx
          rcases List.mem_append.1 hx with h | h
          · exact Nat.le_of_lt (g1 _ (hlines x h))
          · exact g2 x h
        · intro x hx
          have hx' := List.mem_of_head? hx
          rw [hline]
          refine ⟨hafter x (by simp [hx']) _ (hme _ hmem), ?_⟩
          cases next with
          | none => rw [hnone rfl] at hx; simp at hx
          | some n => exact ⟨n, rfl, (hnext n rfl).2.2 x hx'⟩

theorem go_ok (els : List Nat) (hels : els.Pairwise (· < ·)) (N : Nat)
    (ih : ∀ l, sizeAll l < N → Claim els l) (m : Nat) : ∀ (s : Node) (rest : List Node), rest.length ≤ m →
    sizeAll (s :: rest) ≤ N → isCom s = false → ∀ c0 c, formattedAll els c (s :: rest) →
    carefulAll (s :: rest) → (linesAll (s :: rest)).Pairwise (· < ·) → ColOk c0 c (s :: rest) →
    go els c0 (stripAll (s :: rest)) (comsAll (s :: rest)) = s :: rest := by
  induction m with
  | zero =>
    intro s rest hm
    have : rest = [] := List.length_eq_zero_iff.1 (by omega)
    subst this
    intro hN hcs c0 c hf hc hs hk
    have hcc : c0 ≤ c := by rcases hk with h | h <;> omega
    cases s with
    | com x => simp [isCom] at hcs
    | leaf a b => simp [stripAll, strip, comsAll, coms, go]
    | block l k i b e =>
      simp only [sizeAll, size] at hN
      have hs1 : (lines (.block l k i b e)).Pairwise (· < ·) := by simpa [linesAll] using hs
      have hcut := cut_ok els hels c0 c hcc none l k i b e [] [] hf.1 hc.1 hs1 (by simp) (by simp) (by simp)
        (by simp) (by simp)
      have hin := into_ok els c0 c hcc l k i b e hf.1 hc.1 hs1 (ih b (by omega)) (ih e (by omega))
      simp only [List.append_nil] at hcut
      simp only [stripAll, strip, comsAll, coms, List.append_nil, go, hcut.1, List.drop_left, hcut.2, hin]
      simp
  | succ m ihm =>
    intro s rest hm hN hcs c0 c hf hc hs hk
    have hcc : c0 ≤ c := by rcases hk with h | h <;> omega
    obtain ⟨ds, tail, rfl, ht⟩ := split_com rest
    have hs0 : (lines s ++ (ds.map (·.line) ++ linesAll tail)).Pairwise (· < ·) := by
      simpa [linesAll, linesAll_append, linesAll_com] using hs
    have hp := List.pairwise_append.1 hs0
    have hp2 := List.pairwise_append.1 hp.2.1
    have hdirect : ∀ x : Com, x ∈ ds → x.col = c ∧ c0 = c := by
      intro x hx
      have h1 := ((formattedAll_append els c _ _).1 hf.2).1
      have hmem : Node.com x ∈ (ds.map Node.com) := List.mem_map.2 ⟨x, hx, rfl⟩
      have h2 : ∀ l : List Node, formattedAll els c l → Node.com x ∈ l → x.col = c := by
        intro l
        induction l with
        | nil => simp
        | cons a l ihl =>
          intro hfl hml
          rcases List.mem_cons.1 hml with h | h
          · subst h; simpa [formatted] using hfl.1
          · exact ihl hfl.2 h
      refine ⟨h2 _ h1 hmem, ?_⟩
      rcases hk with h | ⟨_, h⟩
      · exact h
      · have := h (.com x) (by simp [hx])
        simp [isCom] at this
    have hcut0 : comsAll (s :: (ds.map .com ++ tail)) = coms s ++ (ds ++ comsAll tail) := by
      simp [comsAll, comsAll_append, comsAll_com]
    have hst0 : stripAll (s :: (ds.map .com ++ tail)) = strip s ++ stripAll tail := by
      simp [stripAll, stripAll_append, stripAll_com]
    have hhead0 : ∀ l k i b e, s = .block l k i b e → e ≠ [] → comsAll b ++ comsAll e ++ ds ≠ [] →
        ∀ x, (ds ++ comsAll tail).head? = some x → x.col ≤ c0 := by
      intro l k i b e hsb he hne x hx
      cases ds with
      | cons d t =>
        simp only [List.cons_append, List.head?_cons, Option.some.injEq] at hx
        subst hx
        have := hdirect d (by simp)
        omega
      | nil =>
        subst hsb
        have h3 := hc.2.2 he (by simpa using hne) x (by simpa using hx)
        have hkc : k = c := hf.1.1
        rcases hk with h | ⟨h4, h5⟩
        · omega
        · have h6 := (comsAll_col els c _ hf).2 h5 x (by
            rw [comsAll]; exact List.mem_append_right _ (List.mem_of_head? (by simpa using hx)))
          omega
    rw [hcut0, hst0]
    rcases ht with rfl | ⟨s2, r, rfl, hc2⟩
    · -- the last statement
      cases s with
      | com x => simp [isCom] at hcs
      | leaf a b => simp [stripAll, strip, comsAll, coms, go]
      | block l k i b e =>
        simp only [sizeAll, size] at hN
        have hcut := cut_ok els hels c0 c hcc none l k i b e ds [] hf.1 hc.1 hp.1
          (by
            intro x hx y hy
            exact hp.2.2 y hy _ (by simp at hx; simp [linesAll]; exact ⟨x, hx, rfl⟩))
          (by intro x hx; have := hdirect x hx; omega) (by simp) (by simp)
          (by
            intro he x hx
            refine hhead0 l k i b e rfl he ?_ x (by simpa [comsAll] using hx)
            intro h0
            simp only [List.append_eq_nil_iff] at h0
            rw [h0.2] at hx
            simp at hx)
        have hin := into_ok els c0 c hcc l k i b e hf.1 hc.1 hp.1 (ih b (by omega)) (ih e (by omega))
        simp only [List.append_nil] at hcut
        simp only [stripAll, strip, comsAll, coms, List.append_nil, go, List.append_assoc, hcut.1,
          List.drop_left, hcut.2, hin]
    · -- another statement follows
      obtain ⟨s2', hs21, hs22, _⟩ := strip_stmt s2 hc2
      have hst : stripAll (s2 :: r) = s2' :: stripAll r := by simp [stripAll, hs21]
      have hs2m : line s2 ∈ linesAll (s2 :: r) := by
        have : line s2 ∈ lines s2 := by cases s2 <;> simp [line, lines]
        simp [linesAll, this]
      have hlt1 : ∀ y ∈ lines s, y < line s2 := fun y hy => hp.2.2 y hy _ (by simp [hs2m])
      have hlt2 : ∀ x ∈ ds, x.line < line s2 :=
        fun x hx => hp2.2.2 _ (List.mem_map.2 ⟨x, hx, rfl⟩) _ hs2m
      have hfut : ∀ x ∈ comsAll (s2 :: r), line s2 < x.line := by
        intro x hx
        have hq := hp2.2.1
        rw [linesAll] at hq
        have hq' := List.pairwise_append.1 hq
        rw [comsAll] at hx
        rcases List.mem_append.1 hx with h | h
        · exact (coms_after s2 hc2 hq'.1).2 x h
        · exact hq'.2.2 _ (coms_after s2 hc2 hq'.1).1 _ (comsAll_lines r x h)
      have hgo := ihm s2 r (by simp at hm; omega) (by
          have : sizeAll (s :: (ds.map .com ++ s2 :: r)) = size s + sizeAll (ds.map .com) + sizeAll (s2 :: r) := by
            rw [sizeAll, sizeAll_append]; omega
          omega) hc2 c0 c ((formattedAll_append els c _ _).1 hf.2).2
        (carefulAll_tail _ _ hc.2.1) hp2.2.1 (by
          rcases hk with h | ⟨h, h'⟩
          · exact .inl h
          · exact .inr ⟨h, fun n hn => h' n (by
              rcases List.mem_cons.1 hn with rfl | hn
              · simp
              · simp [hn])⟩)
      rw [hst] at hgo
      rw [hst]
      by_cases hnil : coms s ++ (ds ++ comsAll (s2 :: r)) = []
      · rw [hnil]
        have h1 : comsAll (s :: (ds.map .com ++ s2 :: r)) = [] := by rw [hcut0, hnil]
        have h2 := stripAll_noCom _ h1
        rw [hst0, hst] at h2
        obtain ⟨s', hs1, _⟩ := strip_stmt s hcs
        rw [← h2, hs1]
        cases s' <;> simp only [List.cons_append, List.nil_append, go]
      · by_cases hshort : coms s ++ ds = []
        · -- all comments follow the next statement
          have h1 := List.append_eq_nil_iff.1 hshort
          rw [h1.1, h1.2, List.nil_append, List.nil_append, strip_noCom s h1.1]
          rw [h1.1, h1.2, List.nil_append, List.nil_append] at hnil
          cases hq : comsAll (s2 :: r) with
          | nil => exact absurd hq hnil
          | cons x t =>
            have hx := hfut x (by simp [hq])
            rw [hq] at hgo
            have : go els c0 (s :: s2' :: stripAll r) (x :: t) = s :: go els c0 (s2' :: stripAll r) (x :: t) := by
              rw [← hs22] at hx
              cases s <;> simp only [go, hx, if_true]
            simp only [List.cons_append, List.nil_append, List.map_nil]
            rw [this, hgo]
        · -- a comment before the next statement
          obtain ⟨x, t, hxt⟩ : ∃ x t, coms s ++ (ds ++ comsAll (s2 :: r)) = x :: t := by
            cases h : coms s ++ (ds ++ comsAll (s2 :: r)) with
            | nil => exact absurd h hnil
            | cons x t => exact ⟨x, t, rfl⟩
          have hx : x ∈ coms s ++ ds := by
            have : (coms s ++ ds ++ comsAll (s2 :: r)).head? = some x := by
              rw [List.append_assoc, hxt]; rfl
            cases h : coms s ++ ds with
            | nil => exact absurd h hshort
            | cons y u => rw [h] at this; simp at this; simp [this]
          have hxl : ¬ line s2' < x.line := by
            rw [hs22]
            rcases List.mem_append.1 hx with h | h
            · have := hlt1 _ (coms_lines s x h); omega
            · have := hlt2 x h; omega
          have hz : ((ds ++ comsAll (s2 :: r)).takeWhile fun x => decide (x.line ≤ line s2')) = ds := by
            rw [hs22]
            apply tw_append
            · intro y hy
              have := hlt2 y hy
              simp
              omega
            · intro y hy
              have := hfut y (List.mem_of_head? hy)
              simp
              omega
          cases s with
          | com x => simp [isCom] at hcs
          | leaf a b =>
            simp only [coms, List.nil_append] at hxt
            have hgoe : go els c0 (.leaf a b :: s2' :: stripAll r) (ds ++ comsAll (s2 :: r)) =
                .leaf a b :: (ds.map .com ++ go els c0 (s2' :: stripAll r) (comsAll (s2 :: r))) := by
              have h3 : (ds ++ comsAll (s2 :: r)).drop ds.length = comsAll (s2 :: r) := List.drop_left ..
              rw [hxt] at hz h3 ⊢
              simp only [go, hxl, if_false, hz, h3]
            simp only [strip, coms, List.nil_append, List.cons_append]
            rw [hgoe, hgo]
          | block l k i b e =>
            simp only [coms] at hxt hshort
            have hcut := cut_ok els hels c0 c hcc (some (line s2')) l k i b e ds (comsAll (s2 :: r)) hf.1 hc.1
              hp.1
              (by
                intro x hx y hy
                refine hp.2.2 y hy _ ?_
                rcases List.mem_append.1 hx with h | h
                · exact List.mem_append_left _ (List.mem_map.2 ⟨x, h, rfl⟩)
                · exact List.mem_append_right _ (comsAll_lines _ x h))
              (by intro x hx; have := hdirect x hx; omega)
              (by
                intro n hn
                simp only [Option.some.injEq] at hn
                subst hn
                rw [hs22]
                exact ⟨hlt1, fun x hx => Nat.le_of_lt (hlt2 x hx), hfut⟩)
              (by simp)
              (by
                intro he x hx
                exact hhead0 l k i b e rfl he hshort x hx)
            simp only [sizeAll, size] at hN
            have hin := into_ok els c0 c hcc l k i b e hf.1 hc.1 hp.1 (ih b (by omega)) (ih e (by omega))
            have hgoe : go els c0 (.block l k i (stripAll b) (stripAll e) :: s2' :: stripAll r)
                (comsAll b ++ comsAll e ++ (ds ++ comsAll (s2 :: r))) =
                .block l k i b e :: (ds.map .com ++ go els c0 (s2' :: stripAll r) (comsAll (s2 :: r))) := by
              have h1 := hcut.1
              have h2 : (comsAll b ++ comsAll e ++ (ds ++ comsAll (s2 :: r))).drop (comsAll b).length =
                  comsAll e ++ (ds ++ comsAll (s2 :: r)) := by
                rw [List.append_assoc]; exact List.drop_left ..
              have h3 : (comsAll e ++ (ds ++ comsAll (s2 :: r))).drop (comsAll e).length =
                  ds ++ comsAll (s2 :: r) := List.drop_left ..
              have h4 : (ds ++ comsAll (s2 :: r)).drop ds.length = comsAll (s2 :: r) := List.drop_left ..
              rw [← List.append_assoc] at h1
              rw [hxt] at h1 h2 ⊢
              simp only [go, hxl, if_false, h1, h2, hcut.2, h3, hz, h4, hin]
            simp only [strip, coms, List.nil_append, List.cons_append]
            rw [hgoe, hgo]

theorem claim (els : List Nat) (hels : els.Pairwise (· < ·)) (N : Nat) :
    ∀ l, sizeAll l < N → Claim els l := by
  induction N with
  | zero => intro l h; omega
  | succ N ih =>
    intro l hl c0 c hf hc hfs hs hk
    unfold top
    split
    · rename_i h; exact stripAll_noCom l h
    · obtain ⟨s, hss⟩ := Option.ne_none_iff_exists'.1 hfs
      obtain ⟨ds, r, rfl, hcs⟩ := first_split l s hss
      have hs0 : (ds.map (·.line) ++ linesAll (s :: r)).Pairwise (· < ·) := by
        simpa [linesAll_append, linesAll_com] using hs
      have hp := List.pairwise_append.1 hs0
      have hgo := go_ok els hels N ih r.length s r (Nat.le_refl _) (by
          rw [sizeAll_append] at hl; omega) hcs c0 c ((formattedAll_append els c _ _).1 hf).2
        (carefulAll_tail _ _ hc) hp.2.1 (by
          rcases hk with h | ⟨h, h'⟩
          · exact .inl h
          · exact .inr ⟨h, fun n hn => h' n (List.mem_append_right _ hn)⟩)
      obtain ⟨s', hs1, hs2, _⟩ := strip_stmt s hcs
      have hst : stripAll (ds.map .com ++ s :: r) = stripAll (s :: r) := by
        simp [stripAll_append, stripAll_com]
      have hlo : lineOf (stripAll (s :: r)) = line s := by simp [stripAll, hs1, lineOf, hs2]
      have hcm : comsAll (ds.map .com ++ s :: r) = ds ++ comsAll (s :: r) := by
        rw [comsAll_append, comsAll_com]
      have hsm : line s ∈ lines s := by cases s <;> simp [line, lines]
      have hq := List.pairwise_append.1 (show (lines s ++ linesAll r).Pairwise (· < ·) from hp.2.1)
      have hb : before (stripAll (s :: r)) (ds ++ comsAll (s :: r)) = ds := by
        unfold before
        rw [hlo]
        apply tw_append
        · intro x hx
          have := hp.2.2 _ (List.mem_map.2 ⟨x, hx, rfl⟩) (line s) (by simp [linesAll, hsm])
          simpa using this
        · intro x hx
          have hx' := List.mem_of_head? hx
          rw [comsAll] at hx'
          have : line s < x.line := by
            rcases List.mem_append.1 hx' with h | h
            · exact (coms_after s hcs hq.1).2 x h
            · exact hq.2.2 _ hsm _ (comsAll_lines r x h)
          simp
          omega
      rw [hst, hcm, hb, List.drop_left, hgo]

end Verif.Comments
