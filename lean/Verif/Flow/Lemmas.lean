import Verif.Flow.Model

namespace Verif.Flow.Lemmas
open Verif.Flow.Spec Verif.Flow.Model

variable {D : Dom}

/-! ### Syntactic stage -/

mutual
theorem visitStmt_run (n : Nat) : ∀ (p : PStmt D) (s : Env D), (visitStmt p).run n s = p.run n s
  | .assign x e, s => by rw [visitStmt, Stmt.run, PStmt.run]; rfl
  | .ite c body orelse, s => by
    have hb := visitBlock_run n body
    have ho := visitBlock_run n orelse s
    rw [PStmt.run, ← ho, ← hb s, visitStmt]
    generalize visitBlock orelse = o
    split
    · next secs =>
      simp only [Stmt.run, Secs.run, Block.run]
      cases evalC s c with
      | none => rfl
      | some b =>
        cases b
        · simp only
          generalize Secs.run n secs s = r
          cases r <;> rfl
        · rfl
    · simp only [Stmt.run, Secs.run, Block.run]
      cases evalC s c with
      | none => rfl
      | some b => cases b <;> rfl
    · simp only [Stmt.run, Secs.run]
      cases evalC s c with
      | none => rfl
      | some b => cases b <;> simp only [evalC]
  | .while c body, s => by
    have hb : (fun s => (visitBlock body).run n s) = fun s => body.run n s :=
      funext fun s => visitBlock_run n body s
    rw [visitStmt, Stmt.run, PStmt.run, hb]
  | .brk, s => by rw [visitStmt, Stmt.run, PStmt.run]
  | .cont, s => by rw [visitStmt, Stmt.run, PStmt.run]
  | .ret e, s => by rw [visitStmt, Stmt.run, PStmt.run]; rfl
theorem visitBlock_run (n : Nat) : ∀ (p : PBlock D) (s : Env D),
    (visitBlock p).run n s = p.run n s
  | .nil, s => by rw [visitBlock, Block.run, PBlock.run]
  | .cons st r, s => by
    have h1 := visitStmt_run n st s
    have h2 : (visitBlock r).run n = r.run n := funext fun s => visitBlock_run n r s
    rw [visitBlock, Block.run, PBlock.run, h1, h2]
end

/-! ### Semantic stage -/

mutual
theorem pruneE_eval (s : Env D) : ∀ e : Expr D, evalE s (pruneE e) = evalE s e
  | .lit v => by rw [pruneE]
  | .var x => by rw [pruneE]
  | .bin o a b => by simp only [pruneE, evalE, pruneE_eval s a, pruneE_eval s b]
  | .min a b => by simp only [pruneE, evalE, pruneE_eval s a, pruneE_eval s b]
  | .max a b => by simp only [pruneE, evalE, pruneE_eval s a, pruneE_eval s b]
  | .tern c a b => by
    have hc := pruneC_eval s c
    have ha := pruneE_eval s a
    have hb := pruneE_eval s b
    rw [pruneE, evalE, ← hc]
    generalize pruneC c = c'
    split <;> simp only [evalE, evalC, ha, hb]
theorem pruneC_eval (s : Env D) : ∀ c : Cond D, evalC s (pruneC c) = evalC s c
  | .lit v => by rw [pruneC]
  | .cmp o a b => by simp only [pruneC, evalC, pruneE_eval s a, pruneE_eval s b]
  | .truth a => by simp only [pruneC, evalC, pruneE_eval s a]
  | .not c => by simp only [pruneC, evalC, pruneC_eval s c]
  | .and c d => by simp only [pruneC, evalC, pruneC_eval s c, pruneC_eval s d]
  | .or c d => by simp only [pruneC, evalC, pruneC_eval s c, pruneC_eval s d]
end

theorem foldCond_eval {oracle : Cond D → Option Bool}
    (h : ∀ c b, oracle c = some b → ∀ s, evalC s c = some b) (s : Env D) (c : Cond D) :
    evalC s (foldCond oracle c) = evalC s c := by
  rw [foldCond, ← pruneC_eval s c]
  split
  · next b hb => rw [h _ _ hb, evalC]
  · rfl

theorem andThen_assoc {S V : Type} (o : Out S V) (f g : S → Out S V) :
    (o.andThen f).andThen g = o.andThen fun s => (f s).andThen g := by
  cases o <;> rfl

theorem andThen_norm {S V : Type} (o : Out S V) : o.andThen Out.norm = o := by cases o <;> rfl

theorem append_run (n : Nat) : ∀ (a b : Block D) (s : Env D),
    (a.append b).run n s = (a.run n s).andThen (b.run n)
  | .nil, b, s => by rw [Block.append, Block.run]; rfl
  | .cons st r, b, s => by
    have h : (r.append b).run n = fun s => (r.run n s).andThen (b.run n) :=
      funext fun s => append_run n r b s
    rw [Block.append, Block.run, Block.run, h, andThen_assoc]

theorem single_run (n : Nat) (st : Stmt D) (s : Env D) :
    (Block.cons st .nil).run n s = st.run n s := by
  rw [Block.run]
  exact (congrArg _ (funext fun s => by rw [Block.run])).trans (andThen_norm _)

mutual
theorem pruneStmt_run {oracle : Cond D → Option Bool}
    (h : ∀ c b, oracle c = some b → ∀ s, evalC s c = some b) (n : Nat) :
    ∀ (st : Stmt D) (s : Env D), (pruneStmt oracle st).run n s = st.run n s
  | .assign x e, s => by rw [pruneStmt, single_run, Stmt.run, Stmt.run, pruneE_eval]
  | .ifs secs, s => by
    have hs := pruneSecs_run h n secs s
    rw [pruneStmt, Stmt.run, ← hs]
    generalize pruneSecs oracle secs = t
    split
    · simp only [Secs.run, evalC]
    · rw [single_run, Stmt.run]
  | .while c body, s => by
    have hb : (fun s => (pruneBlock oracle body).run n s) = fun s => body.run n s :=
      funext fun s => pruneBlock_run h n body s
    have hc : (fun s => evalC s (pruneC c)) = fun s => evalC s c :=
      funext fun s => pruneC_eval s c
    rw [pruneStmt, single_run, Stmt.run, Stmt.run, hb, hc]
  | .brk, s => by rw [pruneStmt, single_run]
  | .cont, s => by rw [pruneStmt, single_run]
  | .ret e, s => by rw [pruneStmt, single_run, Stmt.run, Stmt.run, pruneE_eval]
theorem pruneSecs_run {oracle : Cond D → Option Bool}
    (h : ∀ c b, oracle c = some b → ∀ s, evalC s c = some b) (n : Nat) :
    ∀ (secs : Secs D) (s : Env D), (pruneSecs oracle secs).run n s = secs.run n s
  | .nil, s => by rw [pruneSecs]
  | .cons c body rest, s => by
    have hb := pruneBlock_run h n body s
    have hr := pruneSecs_run h n rest s
    rw [pruneSecs, Secs.run, ← foldCond_eval h s c]
    generalize foldCond oracle c = c'
    split
    · simp only [evalC, hr]
    · simp only [Secs.run, evalC, hb]
    · simp only [Secs.run, hb, hr]
theorem pruneBlock_run {oracle : Cond D → Option Bool}
    (h : ∀ c b, oracle c = some b → ∀ s, evalC s c = some b) (n : Nat) :
    ∀ (b : Block D) (s : Env D), (pruneBlock oracle b).run n s = b.run n s
  | .nil, s => by rw [pruneBlock]
  | .cons st r, s => by
    have h1 := pruneStmt_run h n st s
    have h2 : (pruneBlock oracle r).run n = r.run n := funext fun s => pruneBlock_run h n r s
    rw [pruneBlock, append_run, Block.run, h1, h2]
end

end Verif.Flow.Lemmas
