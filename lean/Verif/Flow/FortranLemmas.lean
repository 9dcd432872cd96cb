import Verif.Flow.StmtLemmas

/-! Fortran: operands may be evaluated although Python would not. -/

namespace Verif.Flow.Lemmas
open Verif.Flow.Spec Verif.Flow.Model

variable {D : Dom}

mutual
theorem fevalE_eq (lc : Cond D → Cond D → Env D → Bool)
    (le : Cond D → Expr D → Expr D → Env D → Bool) (s : Env D) :
    ∀ (e : Expr D), StrictSafeE e → fevalE lc le s e = evalE s e
  | .lit v, _ => by rw [fevalE, evalE]
  | .var x, _ => by rw [fevalE, evalE]
  | .bin o a b, h => by
    rw [StrictSafeE] at h
    rw [fevalE, evalE, fevalE_eq lc le s a h.1, fevalE_eq lc le s b h.2]; rfl
  | .min a b, h => by
    rw [StrictSafeE] at h
    rw [fevalE, evalE, fevalE_eq lc le s a h.1, fevalE_eq lc le s b h.2]; rfl
  | .max a b, h => by
    rw [StrictSafeE] at h
    rw [fevalE, evalE, fevalE_eq lc le s a h.1, fevalE_eq lc le s b h.2]; rfl
  | .tern c a b, h => by
    rw [StrictSafeE] at h
    have ha := fevalE_eq lc le s a h.2.1.1
    have hb := fevalE_eq lc le s b h.2.2.1
    have hc := fevalC_eq lc le s c h.1
    obtain ⟨u, hu⟩ := h.2.1.2 s
    obtain ⟨v, hv⟩ := h.2.2.2 s
    rw [fevalE, evalE, ha, hb, hc, hu, hv]
    split
    · cases evalC s c with
      | none => rfl
      | some t => cases t <;> rfl
    · cases evalC s c with
      | none => rfl
      | some t => cases t <;> rfl
theorem fevalC_eq (lc : Cond D → Cond D → Env D → Bool)
    (le : Cond D → Expr D → Expr D → Env D → Bool) (s : Env D) :
    ∀ (c : Cond D), StrictSafeC c → fevalC lc le s c = evalC s c
  | .lit b, _ => by rw [fevalC, evalC]
  | .cmp o a b, h => by
    rw [StrictSafeC] at h
    rw [fevalC, evalC, fevalE_eq lc le s a h.1, fevalE_eq lc le s b h.2]; rfl
  | .truth a, h => by
    rw [StrictSafeC] at h
    rw [fevalC, evalC, fevalE_eq lc le s a h]
  | .not c, h => by
    rw [StrictSafeC] at h
    rw [fevalC, evalC, fevalC_eq lc le s c h]
  | .and c d, h => by
    rw [StrictSafeC] at h
    have hc := fevalC_eq lc le s c h.1
    have hd := fevalC_eq lc le s d h.2.1
    obtain ⟨v, hv⟩ := h.2.2 s
    rw [fevalC, evalC, hc, hd, hv]
    split
    · cases evalC s c with
      | none => rfl
      | some t => cases t <;> rfl
    · cases evalC s c with
      | none => rfl
      | some t => cases t <;> rfl
  | .or c d, h => by
    rw [StrictSafeC] at h
    have hc := fevalC_eq lc le s c h.1
    have hd := fevalC_eq lc le s d h.2.1
    obtain ⟨v, hv⟩ := h.2.2 s
    rw [fevalC, evalC, hc, hd, hv]
    split
    · cases evalC s c with
      | none => rfl
      | some t => cases t <;> rfl
    · cases evalC s c with
      | none => rfl
      | some t => cases t <;> rfl
end

mutual
def Stmt.Strict : Stmt D → Prop
  | .assign _ e => StrictSafeE e
  | .ifs secs => Secs.Strict secs
  | .while c body => StrictSafeC c ∧ Block.Strict body
  | .brk => True
  | .cont => True
  | .ret e => StrictSafeE e
def Secs.Strict : Secs D → Prop
  | .nil => True
  | .cons c body rest => StrictSafeC c ∧ Block.Strict body ∧ Secs.Strict rest
def Block.Strict : Block D → Prop
  | .nil => True
  | .cons s r => Stmt.Strict s ∧ Block.Strict r
end

theorem Block.Strict.append : ∀ {a b : Block D}, Block.Strict a → Block.Strict b →
    Block.Strict (a.append b)
  | .nil, b, _, hb => by rw [Block.append]; exact hb
  | .cons s r, b, ha, hb => by
    rw [Block.Strict] at ha; rw [Block.append, Block.Strict]
    exact ⟨ha.1, Block.Strict.append ha.2 hb⟩

theorem Block.Strict.single {s : Stmt D} (h : Stmt.Strict s) : Block.Strict (.cons s .nil) := by
  rw [Block.Strict, Block.Strict]; exact ⟨h, trivial⟩

mutual
theorem visitStmt_strict : ∀ (p : PStmt D), p.StrictSafe → Stmt.Strict (visitStmt p)
  | .assign x e, h => by rw [PStmt.StrictSafe] at h; rw [visitStmt, Stmt.Strict]; exact h
  | .ite c body orelse, h => by
    rw [PStmt.StrictSafe] at h
    have hb := visitBlock_strict body h.2.1
    have ho := visitBlock_strict orelse h.2.2
    rw [visitStmt]
    revert ho
    generalize visitBlock orelse = o
    intro ho
    split
    · rw [Block.Strict, Stmt.Strict] at ho
      rw [Stmt.Strict, Secs.Strict]; exact ⟨h.1, hb, ho.1⟩
    · rw [Stmt.Strict, Secs.Strict, Secs.Strict]; exact ⟨h.1, hb, trivial⟩
    · rw [Stmt.Strict, Secs.Strict, Secs.Strict, StrictSafeC, Secs.Strict]
      exact ⟨h.1, hb, trivial, ho, trivial⟩
  | .while c body, h => by
    rw [PStmt.StrictSafe] at h; rw [visitStmt, Stmt.Strict]
    exact ⟨h.1, visitBlock_strict body h.2⟩
  | .brk, _ => by rw [visitStmt, Stmt.Strict]; trivial
  | .cont, _ => by rw [visitStmt, Stmt.Strict]; trivial
  | .ret e, h => by rw [PStmt.StrictSafe] at h; rw [visitStmt, Stmt.Strict]; exact h
theorem visitBlock_strict : ∀ (p : PBlock D), p.StrictSafe → Block.Strict (visitBlock p)
  | .nil, _ => by rw [visitBlock, Block.Strict]; trivial
  | .cons s r, h => by
    rw [PBlock.StrictSafe] at h; rw [visitBlock, Block.Strict]
    exact ⟨visitStmt_strict s h.1, visitBlock_strict r h.2⟩
end

theorem pruneE_total {e : Expr D} (h : TotalE e) : TotalE (pruneE e) := fun s => by
  rw [pruneE_eval]; exact h s

theorem pruneC_total {c : Cond D} (h : TotalC c) : TotalC (pruneC c) := fun s => by
  rw [pruneC_eval]; exact h s

mutual
theorem pruneE_strict : ∀ (e : Expr D), StrictSafeE e → StrictSafeE (pruneE e)
  | .lit _, h => by rw [pruneE]; exact h
  | .var _, h => by rw [pruneE]; exact h
  | .bin o a b, h => by
    rw [StrictSafeE] at h; rw [pruneE, StrictSafeE]
    exact ⟨pruneE_strict a h.1, pruneE_strict b h.2⟩
  | .min a b, h => by
    rw [StrictSafeE] at h; rw [pruneE, StrictSafeE]
    exact ⟨pruneE_strict a h.1, pruneE_strict b h.2⟩
  | .max a b, h => by
    rw [StrictSafeE] at h; rw [pruneE, StrictSafeE]
    exact ⟨pruneE_strict a h.1, pruneE_strict b h.2⟩
  | .tern c a b, h => by
    rw [StrictSafeE] at h
    have hc := pruneC_strict c h.1
    have ha := pruneE_strict a h.2.1.1
    have hb := pruneE_strict b h.2.2.1
    rw [pruneE]
    revert hc
    generalize pruneC c = c'
    intro hc
    split
    · exact ha
    · exact hb
    · rw [StrictSafeE]; exact ⟨hc, ⟨ha, pruneE_total h.2.1.2⟩, hb, pruneE_total h.2.2.2⟩
theorem pruneC_strict : ∀ (c : Cond D), StrictSafeC c → StrictSafeC (pruneC c)
  | .lit _, h => by rw [pruneC]; exact h
  | .cmp o a b, h => by
    rw [StrictSafeC] at h; rw [pruneC, StrictSafeC]
    exact ⟨pruneE_strict a h.1, pruneE_strict b h.2⟩
  | .truth a, h => by rw [StrictSafeC] at h; rw [pruneC, StrictSafeC]; exact pruneE_strict a h
  | .not c, h => by rw [StrictSafeC] at h; rw [pruneC, StrictSafeC]; exact pruneC_strict c h
  | .and c d, h => by
    rw [StrictSafeC] at h; rw [pruneC, StrictSafeC]
    exact ⟨pruneC_strict c h.1, pruneC_strict d h.2.1, pruneC_total h.2.2⟩
  | .or c d, h => by
    rw [StrictSafeC] at h; rw [pruneC, StrictSafeC]
    exact ⟨pruneC_strict c h.1, pruneC_strict d h.2.1, pruneC_total h.2.2⟩
end

theorem foldCond_strict (oracle : Cond D → Option Bool) {c : Cond D} (h : StrictSafeC c) :
    StrictSafeC (foldCond oracle c) := by
  rw [foldCond]; split
  · rw [StrictSafeC]; trivial
  · exact pruneC_strict c h

mutual
theorem pruneStmt_strict (oracle : Cond D → Option Bool) :
    ∀ (st : Stmt D), Stmt.Strict st → Block.Strict (pruneStmt oracle st)
  | .assign x e, h => by
    rw [Stmt.Strict] at h; rw [pruneStmt]; apply Block.Strict.single
    rw [Stmt.Strict]; exact pruneE_strict e h
  | .ifs secs, h => by
    rw [Stmt.Strict] at h
    have hs := pruneSecs_strict oracle secs h
    rw [pruneStmt]
    revert hs
    generalize pruneSecs oracle secs = t
    intro hs
    split
    · rw [Secs.Strict] at hs; exact hs.2.1
    · apply Block.Strict.single; rw [Stmt.Strict]; exact hs
  | .while c body, h => by
    rw [Stmt.Strict] at h; rw [pruneStmt]; apply Block.Strict.single
    rw [Stmt.Strict]; exact ⟨pruneC_strict c h.1, pruneBlock_strict oracle body h.2⟩
  | .brk, h => by rw [pruneStmt]; exact Block.Strict.single h
  | .cont, h => by rw [pruneStmt]; exact Block.Strict.single h
  | .ret e, h => by
    rw [Stmt.Strict] at h; rw [pruneStmt]; apply Block.Strict.single
    rw [Stmt.Strict]; exact pruneE_strict e h
theorem pruneSecs_strict (oracle : Cond D → Option Bool) :
    ∀ (secs : Secs D), Secs.Strict secs → Secs.Strict (pruneSecs oracle secs)
  | .nil, h => by rw [pruneSecs]; exact h
  | .cons c body rest, h => by
    rw [Secs.Strict] at h
    have hb := pruneBlock_strict oracle body h.2.1
    have hr := pruneSecs_strict oracle rest h.2.2
    have hc := foldCond_strict oracle h.1
    rw [pruneSecs]
    revert hc
    generalize foldCond oracle c = c'
    intro hc
    split
    · exact hr
    · rw [Secs.Strict]; exact ⟨hc, hb, by rw [Secs.Strict]; trivial⟩
    · rw [Secs.Strict]; exact ⟨hc, hb, hr⟩
theorem pruneBlock_strict (oracle : Cond D → Option Bool) :
    ∀ (b : Block D), Block.Strict b → Block.Strict (pruneBlock oracle b)
  | .nil, h => by rw [pruneBlock]; exact h
  | .cons s r, h => by
    rw [Block.Strict] at h; rw [pruneBlock]
    exact Block.Strict.append (pruneStmt_strict oracle s h.1) (pruneBlock_strict oracle r h.2)
end

theorem forIfs (secs : Secs D) (h : ∀ body, secs ≠ .cons (.lit true) body .nil) :
    forStmt (.ifs secs) = .cons (.ifs (forSecs secs)) .nil := by
  rw [forStmt]
  exact h

theorem forSecs_cons (c : Cond D) (body : Block D) (rest : Secs D)
    (h : ¬ (c = .lit true ∧ rest = .nil)) :
    forSecs (.cons c body rest) = .cons c (forBlock body) (forSecs rest) := by
  rw [forSecs]
  exact fun h1 h2 => h ⟨h1, h2⟩

section
variable (lc : Cond D → Cond D → Env D → Bool) (le : Cond D → Expr D → Expr D → Env D → Bool)

mutual
theorem forStmt_run (n : Nat) : ∀ (st : Stmt D), Stmt.Strict st → ∀ (s : TState D),
    forget ((forStmt st).run (fun s => fevalE lc le s.1) (fun s => fevalC lc le s.1) n s) =
      st.run n s.1
  | .assign x e, h, s => by
    rw [Stmt.Strict] at h
    rw [forStmt, tsingle_run, TStmt.run, Stmt.run, fevalE_eq lc le s.1 e h]
    cases evalE s.1 e <;> rfl
  | .ifs secs, h, s => by
    rw [Stmt.Strict] at h
    have hs := forSecs_run n secs h s
    by_cases hc : ∃ body, secs = .cons (.lit true) body .nil
    · obtain ⟨body, rfl⟩ := hc
      rw [Stmt.run, ← hs, forStmt, forSecs, TSecs.run]
    · rw [forIfs secs (fun b hb => hc ⟨b, hb⟩), tsingle_run, TStmt.run, Stmt.run]
      exact hs
  | .while c body, h, s => by
    rw [Stmt.Strict] at h
    rw [forStmt, tsingle_run, TStmt.run, Stmt.run]
    exact forget_loop (fun s => fevalC_eq lc le s.1 c h.1) (forBlock_run n body h.2) n s
  | .brk, _, s => by rw [forStmt, tsingle_run, TStmt.run, Stmt.run]; rfl
  | .cont, _, s => by rw [forStmt, tsingle_run, TStmt.run, Stmt.run]; rfl
  | .ret e, h, s => by
    rw [Stmt.Strict] at h
    rw [forStmt, tsingle_run, TStmt.run, Stmt.run, fevalE_eq lc le s.1 e h]
    cases evalE s.1 e <;> rfl
theorem forSecs_run (n : Nat) : ∀ (secs : Secs D), Secs.Strict secs → ∀ (s : TState D),
    forget ((forSecs secs).run (fun s => fevalE lc le s.1) (fun s => fevalC lc le s.1) n s) =
      secs.run n s.1
  | .nil, _, s => by rw [forSecs, TSecs.run, Secs.run]; rfl
  | .cons c body rest, h, s => by
    rw [Secs.Strict] at h
    have hb := forBlock_run n body h.2.1 s
    have hr := forSecs_run n rest h.2.2 s
    by_cases hc : c = .lit true ∧ rest = .nil
    · obtain ⟨rfl, rfl⟩ := hc
      rw [forSecs, TSecs.run, hb, Secs.run, evalC]
    · rw [forSecs_cons _ _ _ hc, TSecs.run, Secs.run, fevalC_eq lc le s.1 c h.1, ← hb, ← hr]
      cases evalC s.1 c with
      | none => rfl
      | some b => cases b <;> rfl
theorem forBlock_run (n : Nat) : ∀ (b : Block D), Block.Strict b → ∀ (s : TState D),
    forget ((forBlock b).run (fun s => fevalE lc le s.1) (fun s => fevalC lc le s.1) n s) =
      b.run n s.1
  | .nil, _, s => by rw [forBlock, TBlock.run, Block.run]; rfl
  | .cons st r, h, s => by
    rw [Block.Strict] at h
    have h1 := forStmt_run n st h.1 s
    have h2 := forBlock_run n r h.2
    rw [forBlock, Block.run, ← h1, tappend_run]
    exact forget_andThen _ _ _ h2
end
end

/-! ### Chained comparisons -/

theorem compareLoop_some {σ V : Type} (cmp : Cmp → V → V → Bool) :
    ∀ (rest : List (Cmp × Operand σ V)) (first : Operand σ V) (c : Conj σ V),
      ∃ d, visitCompareLoop first (some c) rest = some d ∧
        ∀ s, d.eval cmp s =
          match c.eval cmp s with
          | none => none
          | some (false, s') => some (false, s')
          | some (true, s') =>
            match visitCompareLoop first none rest with
            | none => some (true, s')
            | some e => e.eval cmp s'
  | [], first, c => ⟨c, rfl, fun s => by
      simp only [visitCompareLoop]
      cases c.eval cmp s with
      | none => rfl
      | some p => obtain ⟨b, s'⟩ := p; cases b <;> rfl⟩
  | (o, second) :: rest, first, c => by
    obtain ⟨d, hd, he⟩ := compareLoop_some cmp rest second (.and c (.cmp o first second))
    obtain ⟨d', hd', he'⟩ := compareLoop_some cmp rest second (.cmp o first second)
    refine ⟨d, hd, fun s => ?_⟩
    have hv : visitCompareLoop first none ((o, second) :: rest) = some d' := hd'
    rw [he s, hv]
    simp only [Conj.eval]
    cases hc : c.eval cmp s with
    | none => rfl
    | some p =>
      obtain ⟨b, s'⟩ := p
      cases b with
      | false => rfl
      | true => simp only; rw [he' s']; rfl

theorem compareLoop_eval {σ V : Type} (cmp : Cmp → V → V → Bool) :
    ∀ (rest : List (Cmp × Operand σ V)) (first : Operand σ V),
      (∀ p ∈ rest.dropLast, Quiet p.2) → rest ≠ [] →
      ∃ d, visitCompareLoop first none rest = some d ∧ ∀ s, d.eval cmp s = chain cmp first rest s
  | [], _, _, h => absurd rfl h
  | [(o, second)], first, _, _ => by
    refine ⟨.cmp o first second, rfl, fun s => ?_⟩
    simp only [Conj.eval, chain, chainFrom]
    cases first s with
    | none => rfl
    | some p =>
      simp only
      cases second p.2 with
      | none => rfl
      | some q => obtain ⟨v, s'⟩ := q; simp only; cases cmp o p.1 v <;> rfl
  | (o, second) :: q :: rest, first, hq, _ => by
    have hs : Quiet second := hq (o, second) (by simp)
    obtain ⟨e, hv, he⟩ := compareLoop_eval cmp (q :: rest) second
      (fun p hp => hq p (by simp [hp])) (by simp)
    obtain ⟨d, hd, hde⟩ := compareLoop_some cmp (q :: rest) second (.cmp o first second)
    refine ⟨d, hd, fun s => ?_⟩
    rw [hde s, hv]
    simp only [Conj.eval, chain]
    cases h1 : first s with
    | none => rfl
    | some p =>
      obtain ⟨u, s1⟩ := p
      simp only [chainFrom]
      cases h2 : second s1 with
      | none => rfl
      | some p2 =>
        obtain ⟨v, s2⟩ := p2
        simp only
        cases cmp o u v with
        | false => rfl
        | true =>
          simp only [if_true, he]
          have hs2 : s2 = s1 := hs s1 v s2 h2
          rw [chain, hs2, h2, hs2]
          rfl

theorem forget_eq (o : Out (TState D) D.V) : o.map Prod.fst = forget o := by cases o <;> rfl

theorem int_pick (u v : Int) :
    (if decide (v < u) = true then v else u) = if decide (u < v) = true then u else v := by
  by_cases h1 : v < u <;> by_cases h2 : u < v <;> simp [h1, h2] <;> omega

theorem int_pick' (u v : Int) :
    (if decide (v > u) = true then v else u) = if decide (u > v) = true then u else v := by
  by_cases h1 : v < u <;> by_cases h2 : u < v <;> simp [h1, h2] <;> omega

theorem intDom_minMax : MinMax intDom := ⟨int_pick, int_pick'⟩

end Verif.Flow.Lemmas
