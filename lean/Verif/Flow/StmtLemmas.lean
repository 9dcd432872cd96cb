import Verif.Flow.LowerLemmas

/-! Whole programs: C and Fortran. -/

namespace Verif.Flow.Lemmas
open Verif.Flow.Spec Verif.Flow.Model

variable {D : Dom}

/-! ### Conditions on pyccel's tree -/

mutual
def Stmt.Ok : Stmt D → Prop
  | .assign _ e => LazySafeE e
  | .ifs .nil => True
  | .ifs (.cons c body rest) => LazySafeC c ∧ Block.Ok body ∧ Secs.Ok rest
  | .while c body => PlainC c ∧ Block.Ok body
  | .brk => True
  | .cont => True
  | .ret e => LazySafeE e
def Secs.Ok : Secs D → Prop
  | .nil => True
  | .cons c body rest => SafeC c ∧ Block.Ok body ∧ Secs.Ok rest
def Block.Ok : Block D → Prop
  | .nil => True
  | .cons s r => Stmt.Ok s ∧ Block.Ok r
end

theorem Secs.Ok.first {secs : Secs D} (h : Secs.Ok secs) : Stmt.Ok (.ifs secs) := by
  cases secs with
  | nil => rw [Stmt.Ok]; trivial
  | cons c body rest =>
    rw [Secs.Ok] at h; rw [Stmt.Ok]
    exact ⟨SafeC.lazySafe c h.1, h.2⟩

theorem Block.Ok.append : ∀ {a b : Block D}, Block.Ok a → Block.Ok b → Block.Ok (a.append b)
  | .nil, b, _, hb => by rw [Block.append]; exact hb
  | .cons s r, b, ha, hb => by
    rw [Block.Ok] at ha; rw [Block.append, Block.Ok]
    exact ⟨ha.1, Block.Ok.append ha.2 hb⟩

theorem Block.Ok.single {s : Stmt D} (h : Stmt.Ok s) : Block.Ok (.cons s .nil) := by
  rw [Block.Ok, Block.Ok]; exact ⟨h, trivial⟩

/-! ### The syntactic stage keeps the conditions -/

mutual
theorem visitStmt_ok : ∀ (p : PStmt D), p.Hoistable → Stmt.Ok (visitStmt p)
  | .assign x e, h => by rw [PStmt.Hoistable] at h; rw [visitStmt, Stmt.Ok]; exact h
  | .ite c body orelse, h => by
    rw [PStmt.Hoistable] at h
    have hb := visitBlock_ok body h.2.1
    obtain ⟨secs, hs, hv⟩ := visitElse_ok orelse h.2.2 c (visitBlock body)
    have hv' : visitStmt (.ite c body orelse) = .ifs (.cons c (visitBlock body) secs) := by
      rw [visitStmt]; exact hv
    rw [hv', Stmt.Ok]
    exact ⟨h.1, hb, hs⟩
  | .while c body, h => by
    rw [PStmt.Hoistable] at h; rw [visitStmt, Stmt.Ok]
    exact ⟨h.1, visitBlock_ok body h.2⟩
  | .brk, _ => by rw [visitStmt, Stmt.Ok]; trivial
  | .cont, _ => by rw [visitStmt, Stmt.Ok]; trivial
  | .ret e, h => by rw [PStmt.Hoistable] at h; rw [visitStmt, Stmt.Ok]; exact h
theorem visitElse_ok : ∀ (p : PBlock D), p.HoistableElse → ∀ (c : Cond D) (b : Block D),
    ∃ secs, Secs.Ok secs ∧
      (match visitBlock p with
        | .cons (.ifs secs) .nil => Stmt.ifs (.cons c b secs)
        | .nil => .ifs (.cons c b .nil)
        | o => .ifs (.cons c b (.cons (.lit true) o .nil))) = .ifs (.cons c b secs)
  | .nil, _, c, b => ⟨.nil, by rw [Secs.Ok]; trivial, by rw [visitBlock]⟩
  | .cons (.ite c' body orelse) .nil, h, c, b => by
    rw [PBlock.HoistableElse] at h
    have hb := visitBlock_ok body h.2.1
    obtain ⟨secs, hs, hv⟩ := visitElse_ok orelse h.2.2 c' (visitBlock body)
    refine ⟨.cons c' (visitBlock body) secs, ?_, ?_⟩
    · rw [Secs.Ok]; exact ⟨h.1, hb, hs⟩
    · have hv' : visitStmt (.ite c' body orelse) = .ifs (.cons c' (visitBlock body) secs) := by
        rw [visitStmt]; exact hv
      rw [visitBlock, visitBlock, hv']
  | .cons (.ite c' body orelse) (.cons s r), h, c, b => by
    have h : PStmt.Hoistable (.ite c' body orelse) ∧ PBlock.Hoistable (.cons s r) := by
      simpa [PBlock.HoistableElse] using h
    have h1 := visitStmt_ok _ h.1
    have h2 := visitBlock_ok _ h.2
    refine ⟨.cons (.lit true) (visitBlock (.cons (.ite c' body orelse) (.cons s r))) .nil, ?_, ?_⟩
    · rw [Secs.Ok, Secs.Ok, SafeC, visitBlock, Block.Ok]; exact ⟨trivial, ⟨h1, h2⟩, trivial⟩
    · rw [visitBlock, visitBlock]
      generalize visitStmt (.ite c' body orelse) = v
      cases v <;> rfl
  | .cons (.assign x e) r, h, c, b => by
    rw [PBlock.HoistableElse] at h
    have h1 := visitStmt_ok _ h.1
    have h2 := visitBlock_ok _ h.2
    refine ⟨.cons (.lit true) (visitBlock (.cons (.assign x e) r)) .nil, ?_, ?_⟩
    · rw [Secs.Ok, Secs.Ok, SafeC, visitBlock, Block.Ok]; exact ⟨trivial, ⟨h1, h2⟩, trivial⟩
    · rw [visitBlock, visitStmt]
    · simp
  | .cons (.while x e) r, h, c, b => by
    rw [PBlock.HoistableElse] at h
    have h1 := visitStmt_ok _ h.1
    have h2 := visitBlock_ok _ h.2
    refine ⟨.cons (.lit true) (visitBlock (.cons (.while x e) r)) .nil, ?_, ?_⟩
    · rw [Secs.Ok, Secs.Ok, SafeC, visitBlock, Block.Ok]; exact ⟨trivial, ⟨h1, h2⟩, trivial⟩
    · rw [visitBlock, visitStmt]
    · simp
  | .cons .brk r, h, c, b => by
    rw [PBlock.HoistableElse] at h
    have h1 := visitStmt_ok _ h.1
    have h2 := visitBlock_ok _ h.2
    refine ⟨.cons (.lit true) (visitBlock (.cons .brk r)) .nil, ?_, ?_⟩
    · rw [Secs.Ok, Secs.Ok, SafeC, visitBlock, Block.Ok]; exact ⟨trivial, ⟨h1, h2⟩, trivial⟩
    · rw [visitBlock, visitStmt]
    · simp
  | .cons .cont r, h, c, b => by
    rw [PBlock.HoistableElse] at h
    have h1 := visitStmt_ok _ h.1
    have h2 := visitBlock_ok _ h.2
    refine ⟨.cons (.lit true) (visitBlock (.cons .cont r)) .nil, ?_, ?_⟩
    · rw [Secs.Ok, Secs.Ok, SafeC, visitBlock, Block.Ok]; exact ⟨trivial, ⟨h1, h2⟩, trivial⟩
    · rw [visitBlock, visitStmt]
    · simp
  | .cons (.ret e) r, h, c, b => by
    rw [PBlock.HoistableElse] at h
    have h1 := visitStmt_ok _ h.1
    have h2 := visitBlock_ok _ h.2
    refine ⟨.cons (.lit true) (visitBlock (.cons (.ret e) r)) .nil, ?_, ?_⟩
    · rw [Secs.Ok, Secs.Ok, SafeC, visitBlock, Block.Ok]; exact ⟨trivial, ⟨h1, h2⟩, trivial⟩
    · rw [visitBlock, visitStmt]
    · simp
theorem visitBlock_ok : ∀ (p : PBlock D), p.Hoistable → Block.Ok (visitBlock p)
  | .nil, _ => by rw [visitBlock, Block.Ok]; trivial
  | .cons s r, h => by
    rw [PBlock.Hoistable] at h; rw [visitBlock, Block.Ok]
    exact ⟨visitStmt_ok s h.1, visitBlock_ok r h.2⟩
end

/-! ### The semantic stage keeps the conditions -/

theorem prune_simple {e : Expr D} (h : e.compound = false) : pruneE e = e := by
  cases e with
  | lit v => rw [pruneE]
  | var v => rw [pruneE]
  | _ => exact absurd h (by simp [Expr.compound])

theorem prune_total {e : Expr D} (h : e.compound = true → TotalE e) :
    (pruneE e).compound = true → TotalE (pruneE e) := by
  intro hc
  by_cases hs : e.compound = false
  · rw [prune_simple hs] at hc; rw [hs] at hc; cases hc
  · intro s
    rw [pruneE_eval]
    exact h (by simpa using hs) s

mutual
theorem pruneE_plain : ∀ (e : Expr D), PlainE e → PlainE (pruneE e)
  | .lit _, h => by rw [pruneE]; exact h
  | .var _, h => by rw [pruneE]; exact h
  | .bin o a b, h => by
    rw [PlainE] at h; rw [pruneE, PlainE]; exact ⟨pruneE_plain a h.1, pruneE_plain b h.2⟩
  | .min a b, h => by
    rw [PlainE] at h; rw [pruneE, PlainE, prune_simple h.1, prune_simple h.2]; exact h
  | .max a b, h => by
    rw [PlainE] at h; rw [pruneE, PlainE, prune_simple h.1, prune_simple h.2]; exact h
  | .tern c a b, h => by
    rw [PlainE] at h
    have hc := pruneC_plain c h.1
    have ha := pruneE_plain a h.2.1
    have hb := pruneE_plain b h.2.2
    rw [pruneE]
    revert hc
    generalize pruneC c = c'
    intro hc
    split
    · exact ha
    · exact hb
    · rw [PlainE]; exact ⟨hc, ha, hb⟩
theorem pruneC_plain : ∀ (c : Cond D), PlainC c → PlainC (pruneC c)
  | .lit _, h => by rw [pruneC]; exact h
  | .cmp o a b, h => by
    rw [PlainC] at h; rw [pruneC, PlainC]; exact ⟨pruneE_plain a h.1, pruneE_plain b h.2⟩
  | .truth a, h => by rw [PlainC] at h; rw [pruneC, PlainC]; exact pruneE_plain a h
  | .not c, h => by rw [PlainC] at h; rw [pruneC, PlainC]; exact pruneC_plain c h
  | .and c d, h => by
    rw [PlainC] at h; rw [pruneC, PlainC]; exact ⟨pruneC_plain c h.1, pruneC_plain d h.2⟩
  | .or c d, h => by
    rw [PlainC] at h; rw [pruneC, PlainC]; exact ⟨pruneC_plain c h.1, pruneC_plain d h.2⟩
end

mutual
theorem pruneE_safe : ∀ (e : Expr D), SafeE e → SafeE (pruneE e)
  | .lit _, h => by rw [pruneE]; exact h
  | .var _, h => by rw [pruneE]; exact h
  | .bin o a b, h => by
    rw [SafeE] at h; rw [pruneE, SafeE]; exact ⟨pruneE_safe a h.1, pruneE_safe b h.2⟩
  | .min a b, h => by
    rw [SafeE] at h; rw [pruneE, SafeE]
    exact ⟨pruneE_safe a h.1, pruneE_safe b h.2.1, prune_total h.2.2.1, prune_total h.2.2.2⟩
  | .max a b, h => by
    rw [SafeE] at h; rw [pruneE, SafeE]
    exact ⟨pruneE_safe a h.1, pruneE_safe b h.2.1, prune_total h.2.2.1, prune_total h.2.2.2⟩
  | .tern c a b, h => by
    rw [SafeE] at h
    have hc := pruneC_safe c h.1
    have ha := pruneE_safe a h.2.1
    have hb := pruneE_safe b h.2.2
    rw [pruneE]
    revert hc
    generalize pruneC c = c'
    intro hc
    split
    · exact ha
    · exact hb
    · rw [SafeE]; exact ⟨hc, ha, hb⟩
theorem pruneC_safe : ∀ (c : Cond D), SafeC c → SafeC (pruneC c)
  | .lit _, h => by rw [pruneC]; exact h
  | .cmp o a b, h => by
    rw [SafeC] at h; rw [pruneC, SafeC]; exact ⟨pruneE_safe a h.1, pruneE_safe b h.2⟩
  | .truth a, h => by rw [SafeC] at h; rw [pruneC, SafeC]; exact pruneE_safe a h
  | .not c, h => by rw [SafeC] at h; rw [pruneC, SafeC]; exact pruneC_safe c h
  | .and c d, h => by
    rw [SafeC] at h; rw [pruneC, SafeC]; exact ⟨pruneC_safe c h.1, pruneC_safe d h.2⟩
  | .or c d, h => by
    rw [SafeC] at h; rw [pruneC, SafeC]; exact ⟨pruneC_safe c h.1, pruneC_safe d h.2⟩
end

mutual
theorem pruneE_lazySafe : ∀ (e : Expr D), LazySafeE e → LazySafeE (pruneE e)
  | .lit _, h => by rw [pruneE]; exact h
  | .var _, h => by rw [pruneE]; exact h
  | .bin o a b, h => by
    rw [LazySafeE] at h; rw [pruneE, LazySafeE]
    exact ⟨pruneE_lazySafe a h.1, pruneE_lazySafe b h.2⟩
  | .min a b, h => by
    rw [LazySafeE] at h; rw [pruneE, LazySafeE]
    exact ⟨pruneE_lazySafe a h.1, pruneE_lazySafe b h.2⟩
  | .max a b, h => by
    rw [LazySafeE] at h; rw [pruneE, LazySafeE]
    exact ⟨pruneE_lazySafe a h.1, pruneE_lazySafe b h.2⟩
  | .tern c a b, h => by
    rw [LazySafeE] at h
    have hc := pruneC_lazySafe c h.1
    have ha := pruneE_safe a h.2.1
    have hb := pruneE_safe b h.2.2
    rw [pruneE]
    revert hc
    generalize pruneC c = c'
    intro hc
    split
    · exact SafeE.lazySafe _ ha
    · exact SafeE.lazySafe _ hb
    · rw [LazySafeE]; exact ⟨hc, ha, hb⟩
theorem pruneC_lazySafe : ∀ (c : Cond D), LazySafeC c → LazySafeC (pruneC c)
  | .lit _, h => by rw [pruneC]; exact h
  | .cmp o a b, h => by
    rw [LazySafeC] at h; rw [pruneC, LazySafeC]
    exact ⟨pruneE_lazySafe a h.1, pruneE_lazySafe b h.2⟩
  | .truth a, h => by rw [LazySafeC] at h; rw [pruneC, LazySafeC]; exact pruneE_lazySafe a h
  | .not c, h => by rw [LazySafeC] at h; rw [pruneC, LazySafeC]; exact pruneC_lazySafe c h
  | .and c d, h => by
    rw [LazySafeC] at h; rw [pruneC, LazySafeC]; exact ⟨pruneC_lazySafe c h.1, pruneC_safe d h.2⟩
  | .or c d, h => by
    rw [LazySafeC] at h; rw [pruneC, LazySafeC]; exact ⟨pruneC_lazySafe c h.1, pruneC_safe d h.2⟩
end

theorem foldCond_safe (oracle : Cond D → Option Bool) {c : Cond D} (h : SafeC c) :
    SafeC (foldCond oracle c) := by
  rw [foldCond]; split
  · rw [SafeC]; trivial
  · exact pruneC_safe c h

theorem foldCond_lazySafe (oracle : Cond D → Option Bool) {c : Cond D} (h : LazySafeC c) :
    LazySafeC (foldCond oracle c) := by
  rw [foldCond]; split
  · rw [LazySafeC]; trivial
  · exact pruneC_lazySafe c h

/-- The chain after pruning, when only its first condition may be evaluated lazily. -/
theorem pruneIfs_ok (oracle : Cond D → Option Bool) {secs : Secs D}
    (h : Stmt.Ok (.ifs (pruneSecs oracle secs))) : Block.Ok (pruneStmt oracle (.ifs secs)) := by
  rw [pruneStmt]
  revert h
  generalize pruneSecs oracle secs = t
  intro h
  split
  · rw [Stmt.Ok] at h; exact h.2.1
  · exact Block.Ok.single h

mutual
theorem pruneStmt_ok (oracle : Cond D → Option Bool) :
    ∀ (st : Stmt D), Stmt.Ok st → Block.Ok (pruneStmt oracle st)
  | .assign x e, h => by
    rw [Stmt.Ok] at h; rw [pruneStmt]; apply Block.Ok.single
    rw [Stmt.Ok]; exact pruneE_lazySafe e h
  | .ifs .nil, _ => by
    apply pruneIfs_ok; rw [pruneSecs, Stmt.Ok]; trivial
  | .ifs (.cons c body rest), h => by
    rw [Stmt.Ok] at h
    have hb := pruneBlock_ok oracle body h.2.1
    have hr := pruneSecs_ok oracle rest h.2.2
    have hc := foldCond_lazySafe oracle h.1
    apply pruneIfs_ok
    rw [pruneSecs]
    revert hc
    generalize foldCond oracle c = c'
    intro hc
    split
    · exact Secs.Ok.first hr
    · rw [Stmt.Ok]; exact ⟨hc, hb, by rw [Secs.Ok]; trivial⟩
    · rw [Stmt.Ok]; exact ⟨hc, hb, hr⟩
  | .while c body, h => by
    rw [Stmt.Ok] at h; rw [pruneStmt]; apply Block.Ok.single
    rw [Stmt.Ok]; exact ⟨pruneC_plain c h.1, pruneBlock_ok oracle body h.2⟩
  | .brk, h => by rw [pruneStmt]; exact Block.Ok.single h
  | .cont, h => by rw [pruneStmt]; exact Block.Ok.single h
  | .ret e, h => by
    rw [Stmt.Ok] at h; rw [pruneStmt]; apply Block.Ok.single
    rw [Stmt.Ok]; exact pruneE_lazySafe e h
theorem pruneSecs_ok (oracle : Cond D → Option Bool) :
    ∀ (secs : Secs D), Secs.Ok secs → Secs.Ok (pruneSecs oracle secs)
  | .nil, h => by rw [pruneSecs]; exact h
  | .cons c body rest, h => by
    rw [Secs.Ok] at h
    have hb := pruneBlock_ok oracle body h.2.1
    have hr := pruneSecs_ok oracle rest h.2.2
    have hc := foldCond_safe oracle h.1
    rw [pruneSecs]
    revert hc
    generalize foldCond oracle c = c'
    intro hc
    split
    · exact hr
    · rw [Secs.Ok]; exact ⟨hc, hb, by rw [Secs.Ok]; trivial⟩
    · rw [Secs.Ok]; exact ⟨hc, hb, hr⟩
theorem pruneBlock_ok (oracle : Cond D → Option Bool) :
    ∀ (b : Block D), Block.Ok b → Block.Ok (pruneBlock oracle b)
  | .nil, h => by rw [pruneBlock]; exact h
  | .cons s r, h => by
    rw [Block.Ok] at h; rw [pruneBlock]
    exact Block.Ok.append (pruneStmt_ok oracle s h.1) (pruneBlock_ok oracle r h.2)
end

/-! ### Lowering to C -/

theorem prepend_good {n : Nat} {st : Setup D} {t : TStmt (CExpr D) (CCond D)} {k k' : Nat}
    {val : Env D → Out (Env D) D.V}
    (h : Good .err k k' st (fun s => forget (t.run cevalE cevalC n s)) val) (s : TState D) :
    forget ((prepend st (.cons t .nil)).run cevalE cevalC n s) = val s.1 := by
  rw [prepend_run]
  rcases h.2 s with ⟨r, e⟩ | ⟨s', r, _, e⟩
  · rw [r, e]; rfl
  · rw [r]; simp only [tsingle_run]; exact e s' (Agree.refl s')

/-- The result of an assignment. -/
def assignOut (x : Nat) (s : Env D) : Option D.V → Out (Env D) D.V
  | none => .err
  | some v => .norm (s.set x v)

/-- The result of `return`. -/
def retOut (s : Env D) : Option D.V → Out (Env D) D.V
  | none => .err
  | some v => .ret v s

theorem good_with_env {R R' : Type} {bad : R} {bad' : R'} {k k' : Nat} {st : Setup D}
    {ev : TState D → R} {val : Env D → R} (f : Env D → R → R') (hf : ∀ s, f s bad = bad')
    (h : Good bad k k' st ev val) :
    Good bad' k k' st (fun s => f s.1 (ev s)) (fun s => f s (val s)) := by
  refine ⟨h.1, fun s => ?_⟩
  rcases h.2 s with ⟨r, e⟩ | ⟨s', r, fr, e⟩
  · exact Or.inl ⟨r, by simp only [e, hf]⟩
  · exact Or.inr ⟨s', r, fr, fun s'' ha => by simp only [e s'' ha, ha.1, fr.1]⟩

theorem choose_run {n : Nat} (c : CCond D) (body : TBlock (CExpr D) (CCond D))
    (rest : TSecs (CExpr D) (CCond D)) (s : TState D) :
    forget ((TSecs.cons c body rest).run cevalE cevalC n s) =
      choose .err (cevalC s c)
        (forget (body.run cevalE cevalC n s), forget (rest.run cevalE cevalC n s)) := by
  rw [TSecs.run]
  cases cevalC s c with
  | none => rfl
  | some b => cases b <;> rfl

theorem choose_run' {n : Nat} (c : Cond D) (body : Block D) (rest : Secs D) (s : Env D) :
    (Secs.cons c body rest).run n s =
      choose .err (evalC s c) (body.run n s, rest.run n s) := by
  rw [Secs.run]
  cases evalC s c with
  | none => rfl
  | some b => cases b <;> rfl

/-- `lowSecs` on a section which is not a final `else`. -/
theorem lowSecs_cons (c : Cond D) (body : Block D) (rest : Secs D) (k : Nat)
    (h : ¬ (c = .lit true ∧ rest = .nil)) :
    lowSecs (.cons c body rest) k =
      ((lowC c (lowBlock body k).2).1 ++ (lowSecs rest (lowC c (lowBlock body k).2).2.2).1,
        .cons (lowC c (lowBlock body k).2).2.1 (lowBlock body k).1
          (lowSecs rest (lowC c (lowBlock body k).2).2.2).2.1,
        (lowSecs rest (lowC c (lowBlock body k).2).2.2).2.2) := by
  rw [lowSecs]
  exact fun h1 h2 => h ⟨h1, h2⟩

theorem lowIfs (secs : Secs D) (k : Nat) (h : ∀ body, secs ≠ .cons (.lit true) body .nil) :
    lowStmt (.ifs secs) k =
      (prepend (lowSecs secs k).1 (.cons (.ifs (lowSecs secs k).2.1) .nil), (lowSecs secs k).2.2) := by
  rw [lowStmt]
  exact h

mutual
theorem lowStmt_le (hm : MinMax D) : ∀ (st : Stmt D) (k : Nat), Stmt.Ok st → k ≤ (lowStmt st k).2
  | .assign x e, k, h => by
    rw [Stmt.Ok] at h; rw [lowStmt]; exact (lowE_good hm e k h).1
  | .ifs .nil, k, _ => by
    rw [lowIfs _ _ (fun _ => by intro h; cases h)]
    show k ≤ (lowSecs (.nil : Secs D) k).2.2
    rw [lowSecs]; exact Nat.le_refl _
  | .ifs (.cons c body rest), k, h => by
    rw [Stmt.Ok] at h
    have hb := lowBlock_le hm body k h.2.1
    by_cases hc : c = .lit true ∧ rest = .nil
    · obtain ⟨rfl, rfl⟩ := hc
      rw [lowStmt]; exact hb
    · rw [lowIfs _ _ (by rintro b hh; cases hh; exact hc ⟨rfl, rfl⟩), lowSecs_cons _ _ _ _ hc]
      have h1 := (lowC_good hm c (lowBlock body k).2 h.1).1
      have h2 := lowSecs_le hm rest (lowC c (lowBlock body k).2).2.2 h.2.2
      exact Nat.le_trans hb (Nat.le_trans h1 h2)
  | .while c body, k, h => by
    rw [Stmt.Ok] at h; rw [lowStmt]
    have hb := lowBlock_le hm body k h.2
    obtain ⟨_, h2, _⟩ := lowC_plain hm c (lowBlock body k).2 h.1
    simp only [h2]; exact hb
  | .brk, k, _ => by rw [lowStmt]; exact Nat.le_refl _
  | .cont, k, _ => by rw [lowStmt]; exact Nat.le_refl _
  | .ret e, k, h => by
    rw [Stmt.Ok] at h; rw [lowStmt]; exact (lowE_good hm e k h).1
theorem lowSecs_le (hm : MinMax D) : ∀ (secs : Secs D) (k : Nat), Secs.Ok secs →
    k ≤ (lowSecs secs k).2.2
  | .nil, k, _ => by rw [lowSecs]; exact Nat.le_refl _
  | .cons c body rest, k, h => by
    rw [Secs.Ok] at h
    have hb := lowBlock_le hm body k h.2.1
    by_cases hc : c = .lit true ∧ rest = .nil
    · obtain ⟨rfl, rfl⟩ := hc
      rw [lowSecs]; exact hb
    · rw [lowSecs_cons _ _ _ _ hc]
      have h1 := (lowC_good0 hm c (lowBlock body k).2 h.1).1
      have h2 := lowSecs_le hm rest (lowC c (lowBlock body k).2).2.2 h.2.2
      exact Nat.le_trans hb (Nat.le_trans h1 h2)
theorem lowBlock_le (hm : MinMax D) : ∀ (b : Block D) (k : Nat), Block.Ok b → k ≤ (lowBlock b k).2
  | .nil, k, _ => by rw [lowBlock]; exact Nat.le_refl _
  | .cons s r, k, h => by
    rw [Block.Ok] at h; rw [lowBlock]
    exact Nat.le_trans (lowStmt_le hm s k h.1) (lowBlock_le hm r _ h.2)
end

mutual
theorem lowStmt_run (hm : MinMax D) (n : Nat) : ∀ (st : Stmt D) (k : Nat), Stmt.Ok st →
    ∀ s, forget ((lowStmt st k).1.run cevalE cevalC n s) = st.run n s.1
  | .assign x e, k, h, s => by
    rw [Stmt.Ok] at h
    have hg := good_with_env (bad' := Out.err) (assignOut x) (fun _ => rfl) (lowE_good hm e k h)
    rw [lowStmt]
    refine (prepend_good (hg.congr (fun s => ?_) (fun s => ?_)) s)
    · rw [TStmt.run]; cases cevalE s (lowE e k).2.1 <;> rfl
    · rw [Stmt.run]; cases evalE s e <;> rfl
  | .ifs .nil, k, _, s => by
    rw [lowIfs _ _ (fun _ => by intro h; cases h), lowSecs]
    simp only [prepend]
    rw [tsingle_run, TStmt.run, TSecs.run, Stmt.run, Secs.run]; rfl
  | .ifs (.cons c body rest), k, h, s => by
    rw [Stmt.Ok] at h
    have hb := lowBlock_run hm n body k h.2.1
    by_cases hc : c = .lit true ∧ rest = .nil
    · obtain ⟨rfl, rfl⟩ := hc
      rw [lowStmt, Stmt.run, Secs.run, evalC, hb s]
    · have hle := lowBlock_le hm body k h.2.1
      have hC := lowC_good hm c (lowBlock body k).2 h.1
      have hR := lowSecs_run hm n rest (lowC c (lowBlock body k).2).2.2 h.2.2
      have hB : Good0 (lowC c (lowBlock body k).2).2.2 (lowC c (lowBlock body k).2).2.2 []
          (fun s => forget ((lowBlock body k).1.run cevalE cevalC n s)) (fun s => body.run n s) :=
        Good0.pure fun s => hb s
      have hg := Good.comb0 (bad := Out.err) (choose Out.err) (fun _ => rfl) hC
        (Good0.comb Prod.mk hB hR)
      rw [lowIfs _ _ (by rintro b hh; cases hh; exact hc ⟨rfl, rfl⟩), lowSecs_cons _ _ _ _ hc]
      refine prepend_good (hg.congr (fun s => ?_) (fun s => ?_)) s
      · rw [TStmt.run]; exact choose_run _ _ _ s
      · rw [Stmt.run]; exact choose_run' _ _ _ s
  | .while c body, k, h, s => by
    rw [Stmt.Ok] at h
    have hb := lowBlock_run hm n body k h.2
    obtain ⟨h1, _, h3⟩ := lowC_plain hm c (lowBlock body k).2 h.1
    rw [lowStmt]
    simp only [h1, prepend]
    rw [tsingle_run, TStmt.run, Stmt.run]
    exact forget_loop h3 hb n s
  | .brk, k, _, s => by rw [lowStmt, tsingle_run, TStmt.run, Stmt.run]; rfl
  | .cont, k, _, s => by rw [lowStmt, tsingle_run, TStmt.run, Stmt.run]; rfl
  | .ret e, k, h, s => by
    rw [Stmt.Ok] at h
    have hg := good_with_env (bad' := Out.err) retOut (fun _ => rfl) (lowE_good hm e k h)
    rw [lowStmt]
    refine (prepend_good (hg.congr (fun s => ?_) (fun s => ?_)) s)
    · rw [TStmt.run]; cases cevalE s (lowE e k).2.1 <;> rfl
    · rw [Stmt.run]; cases evalE s e <;> rfl
theorem lowSecs_run (hm : MinMax D) (n : Nat) : ∀ (secs : Secs D) (k : Nat), Secs.Ok secs →
    Good0 k (lowSecs secs k).2.2 (lowSecs secs k).1
      (fun s => forget ((lowSecs secs k).2.1.run cevalE cevalC n s)) (fun s => secs.run n s)
  | .nil, k, _ => by
    rw [lowSecs]
    exact Good0.pure fun s => by simp only [TSecs.run, Secs.run]; rfl
  | .cons c body rest, k, h => by
    rw [Secs.Ok] at h
    have hb := lowBlock_run hm n body k h.2.1
    have hle := lowBlock_le hm body k h.2.1
    by_cases hc : c = .lit true ∧ rest = .nil
    · obtain ⟨rfl, rfl⟩ := hc
      rw [lowSecs]
      exact Good0.pure' hle fun s => by simp only [TSecs.run, Secs.run, evalC]; exact hb s
    · have hC := lowC_good0 hm c (lowBlock body k).2 h.1
      have hR := lowSecs_run hm n rest (lowC c (lowBlock body k).2).2.2 h.2.2
      have hB : Good0 (lowC c (lowBlock body k).2).2.2 (lowC c (lowBlock body k).2).2.2 []
          (fun s => forget ((lowBlock body k).1.run cevalE cevalC n s)) (fun s => body.run n s) :=
        Good0.pure fun s => hb s
      have h0 : Good0 k (lowBlock body k).2 ([] : Setup D) (fun _ => ()) (fun _ => ()) :=
        Good0.pure' hle fun _ => rfl
      have hg := Good0.comb (fun _ y => y) h0
        (Good0.comb (choose Out.err) hC (Good0.comb Prod.mk hB hR))
      rw [lowSecs_cons _ _ _ _ hc]
      exact hg.congr (fun s => choose_run _ _ _ s) (fun s => choose_run' _ _ _ s)
theorem lowBlock_run (hm : MinMax D) (n : Nat) : ∀ (b : Block D) (k : Nat), Block.Ok b →
    ∀ s, forget ((lowBlock b k).1.run cevalE cevalC n s) = b.run n s.1
  | .nil, k, _, s => by rw [lowBlock, TBlock.run, Block.run]; rfl
  | .cons st r, k, h, s => by
    rw [Block.Ok] at h
    have h1 := lowStmt_run hm n st k h.1 s
    have h2 := lowBlock_run hm n r (lowStmt st k).2 h.2
    rw [lowBlock, Block.run, ← h1]
    show forget (((lowStmt st k).1.append (lowBlock r (lowStmt st k).2).1).run cevalE cevalC n s) = _
    rw [tappend_run]
    exact forget_andThen _ _ _ h2
end

end Verif.Flow.Lemmas
