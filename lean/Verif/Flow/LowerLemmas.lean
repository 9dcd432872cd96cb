import Verif.Flow.Lemmas

/-! Correctness of the setups which the C printer puts in front of a statement. -/

namespace Verif.Flow.Lemmas
open Verif.Flow.Spec Verif.Flow.Model

variable {D : Dom}

def setTmp (s : TState D) (k : Nat) (v : D.V) : TState D := (s.1, fun j => if j = k then v else s.2 j)

def runSetup : Setup D → TState D → Option (TState D)
  | [], s => some s
  | (k, e) :: r, s =>
    match cevalE s e with
    | none => none
    | some v => runSetup r (setTmp s k v)

theorem runSetup_append : ∀ (a b : Setup D) (s : TState D),
    runSetup (a ++ b) s = (runSetup a s).bind (runSetup b)
  | [], b, s => rfl
  | (k, e) :: r, b, s => by
    rw [List.cons_append, runSetup, runSetup]
    cases cevalE s e with
    | none => rfl
    | some v => exact runSetup_append r b _

/-- Forget the temporaries. -/
def forget : Out (TState D) D.V → Out (Env D) D.V
  | .norm s => .norm s.1
  | .brk s => .brk s.1
  | .cont s => .cont s.1
  | .ret v s => .ret v s.1
  | .err => .err
  | .fuel => .fuel

theorem forget_andThen (o : Out (TState D) D.V) (f : TState D → Out (TState D) D.V)
    (g : Env D → Out (Env D) D.V) (h : ∀ s, forget (f s) = g s.1) :
    forget (o.andThen f) = (forget o).andThen g := by
  cases o <;> first | rfl | exact h _

section
variable {E C : Type} (evE : TState D → E → Option D.V) (evC : TState D → C → Option Bool)

theorem tappend_run (n : Nat) : ∀ (a b : TBlock E C) (s : TState D),
    (a.append b).run evE evC n s = (a.run evE evC n s).andThen (b.run evE evC n)
  | .nil, b, s => by rw [TBlock.append, TBlock.run]; rfl
  | .cons st r, b, s => by
    have h : (r.append b).run evE evC n = fun s => (r.run evE evC n s).andThen (b.run evE evC n) :=
      funext fun s => tappend_run n r b s
    rw [TBlock.append, TBlock.run, TBlock.run, h, andThen_assoc]

theorem tsingle_run (n : Nat) (st : TStmt E C) (s : TState D) :
    (TBlock.cons st .nil).run evE evC n s = st.run evE evC n s := by
  rw [TBlock.run]
  exact (congrArg _ (funext fun s => by rw [TBlock.run])).trans (andThen_norm _)
end

theorem prepend_run (n : Nat) (b : TBlock (CExpr D) (CCond D)) :
    ∀ (p : Setup D) (s : TState D), (prepend p b).run cevalE cevalC n s =
      match runSetup p s with
      | none => .err
      | some s' => b.run cevalE cevalC n s'
  | [], s => rfl
  | (k, e) :: r, s => by
    rw [prepend, TBlock.run, TStmt.run, runSetup]
    cases h : cevalE s e with
    | none => rfl
    | some v => exact prepend_run n b r _

theorem forget_loop {test : TState D → Option Bool} {body : TState D → Out (TState D) D.V}
    {test' : Env D → Option Bool} {body' : Env D → Out (Env D) D.V}
    (ht : ∀ s, test s = test' s.1) (hb : ∀ s, forget (body s) = body' s.1) :
    ∀ (n : Nat) (s : TState D), forget (loop test body n s) = loop test' body' n s.1
  | 0, s => rfl
  | n + 1, s => by
    rw [loop, loop, ht s, ← hb s]
    cases test' s.1 with
    | none => rfl
    | some b =>
      cases b with
      | false => rfl
      | true => cases body s <;> first | rfl | exact forget_loop ht hb n _

/-! ### Good setups -/

/-- Only the temporaries in `[k, k')` change. -/
def Frame (k k' : Nat) (s s' : TState D) : Prop :=
  s'.1 = s.1 ∧ ∀ j, (j < k ∨ k' ≤ j) → s'.2 j = s.2 j

/-- The states agree on the user's variables and on the temporaries in `[k, k')`. -/
def Agree (k k' : Nat) (s s' : TState D) : Prop :=
  s'.1 = s.1 ∧ ∀ j, k ≤ j → j < k' → s'.2 j = s.2 j

theorem Agree.refl {k k' : Nat} (s : TState D) : Agree k k' s s := ⟨rfl, fun _ _ _ => rfl⟩

/-- The setup never fails, and afterwards the code has the value of the source. -/
def Good0 {R : Type} (k k' : Nat) (st : Setup D) (ev : TState D → R) (val : Env D → R) : Prop :=
  k ≤ k' ∧ ∀ s, ∃ s', runSetup st s = some s' ∧ Frame k k' s s' ∧
    ∀ s'', Agree k k' s' s'' → ev s'' = val s.1

/-- The setup fails only if the source does, and otherwise the code has the value of the source. -/
def Good {R : Type} (bad : R) (k k' : Nat) (st : Setup D) (ev : TState D → R) (val : Env D → R) :
    Prop :=
  k ≤ k' ∧ ∀ s, (runSetup st s = none ∧ val s.1 = bad) ∨
    ∃ s', runSetup st s = some s' ∧ Frame k k' s s' ∧ ∀ s'', Agree k k' s' s'' → ev s'' = val s.1

theorem Good0.good {R : Type} {bad : R} {k k' : Nat} {st : Setup D} {ev : TState D → R}
    {val : Env D → R} (h : Good0 k k' st ev val) : Good bad k k' st ev val :=
  ⟨h.1, fun s => Or.inr (h.2 s)⟩

theorem Good0.pure {R : Type} {k : Nat} {ev : TState D → R} {val : Env D → R}
    (h : ∀ s, ev s = val s.1) : Good0 k k [] ev val :=
  ⟨Nat.le_refl _, fun s => ⟨s, rfl, ⟨rfl, fun _ _ => rfl⟩, fun s'' ha => by rw [h, ha.1]⟩⟩

theorem Good0.pure' {R : Type} {k k' : Nat} (hk : k ≤ k') {ev : TState D → R} {val : Env D → R}
    (h : ∀ s, ev s = val s.1) : Good0 k k' [] ev val :=
  ⟨hk, fun s => ⟨s, rfl, ⟨rfl, fun _ _ => rfl⟩, fun s'' ha => by rw [h, ha.1]⟩⟩

/-- The two halves of the interval. -/
theorem join {k k1 k2 : Nat} (h1 : k ≤ k1) (h2 : k1 ≤ k2) {s s1 s2 : TState D}
    (f1 : Frame k k1 s s1) (f2 : Frame k1 k2 s1 s2) :
    Frame k k2 s s2 ∧ ∀ s'', Agree k k2 s2 s'' → Agree k k1 s1 s'' ∧ Agree k1 k2 s2 s'' := by
  refine ⟨⟨f2.1.trans f1.1, fun j hj => ?_⟩, fun s'' ha => ⟨⟨?_, fun j a b => ?_⟩, ha.1, fun j a b => ?_⟩⟩
  · rw [f2.2 j (by omega), f1.2 j (by omega)]
  · rw [ha.1, f2.1]
  · rw [ha.2 j a (by omega), f2.2 j (by omega)]
  · exact ha.2 j (by omega) b

theorem Good0.comb {R1 R2 R : Type} {k k1 k2 : Nat} {st1 st2 : Setup D} {ev1 : TState D → R1}
    {val1 : Env D → R1} {ev2 : TState D → R2} {val2 : Env D → R2} (f : R1 → R2 → R)
    (h1 : Good0 k k1 st1 ev1 val1) (h2 : Good0 k1 k2 st2 ev2 val2) :
    Good0 k k2 (st1 ++ st2) (fun s => f (ev1 s) (ev2 s)) (fun s => f (val1 s) (val2 s)) := by
  refine ⟨Nat.le_trans h1.1 h2.1, fun s => ?_⟩
  obtain ⟨s1, r1, f1, e1⟩ := h1.2 s
  obtain ⟨s2, r2, f2, e2⟩ := h2.2 s1
  obtain ⟨fr, ag⟩ := join h1.1 h2.1 f1 f2
  refine ⟨s2, ?_, fr, fun s'' ha => ?_⟩
  · rw [runSetup_append, r1]; exact r2
  · have := ag s'' ha
    simp only [e1 s'' this.1, e2 s'' this.2, f1.1]

theorem Good.comb0 {R1 R2 R : Type} {bad1 : R1} {bad : R} {k k1 k2 : Nat} {st1 st2 : Setup D}
    {ev1 : TState D → R1} {val1 : Env D → R1} {ev2 : TState D → R2} {val2 : Env D → R2}
    (f : R1 → R2 → R) (hf : ∀ y, f bad1 y = bad)
    (h1 : Good bad1 k k1 st1 ev1 val1) (h2 : Good0 k1 k2 st2 ev2 val2) :
    Good bad k k2 (st1 ++ st2) (fun s => f (ev1 s) (ev2 s)) (fun s => f (val1 s) (val2 s)) := by
  refine ⟨Nat.le_trans h1.1 h2.1, fun s => ?_⟩
  rcases h1.2 s with ⟨r1, e1⟩ | ⟨s1, r1, f1, e1⟩
  · left
    refine ⟨by rw [runSetup_append, r1]; rfl, ?_⟩
    simp only [e1, hf]
  · right
    obtain ⟨s2, r2, f2, e2⟩ := h2.2 s1
    obtain ⟨fr, ag⟩ := join h1.1 h2.1 f1 f2
    refine ⟨s2, ?_, fr, fun s'' ha => ?_⟩
    · rw [runSetup_append, r1]; exact r2
    · have := ag s'' ha
      simp only [e1 s'' this.1, e2 s'' this.2, f1.1]

theorem Good.comb {R1 R2 R : Type} {bad1 : R1} {bad2 : R2} {bad : R} {k k1 k2 : Nat}
    {st1 st2 : Setup D}
    {ev1 : TState D → R1} {val1 : Env D → R1} {ev2 : TState D → R2} {val2 : Env D → R2}
    (f : R1 → R2 → R) (hf : ∀ y, f bad1 y = bad) (hf' : ∀ x, f x bad2 = bad)
    (h1 : Good bad1 k k1 st1 ev1 val1) (h2 : Good bad2 k1 k2 st2 ev2 val2) :
    Good bad k k2 (st1 ++ st2) (fun s => f (ev1 s) (ev2 s)) (fun s => f (val1 s) (val2 s)) := by
  refine ⟨Nat.le_trans h1.1 h2.1, fun s => ?_⟩
  rcases h1.2 s with ⟨r1, e1⟩ | ⟨s1, r1, f1, e1⟩
  · left
    refine ⟨by rw [runSetup_append, r1]; rfl, ?_⟩
    simp only [e1, hf]
  · rcases h2.2 s1 with ⟨r2, e2⟩ | ⟨s2, r2, f2, e2⟩
    · left
      refine ⟨by rw [runSetup_append, r1]; exact r2, ?_⟩
      rw [f1.1] at e2
      simp only [e2, hf']
    · right
      obtain ⟨fr, ag⟩ := join h1.1 h2.1 f1 f2
      refine ⟨s2, ?_, fr, fun s'' ha => ?_⟩
      · rw [runSetup_append, r1]; exact r2
      · have := ag s'' ha
        simp only [e1 s'' this.1, e2 s'' this.2, f1.1]

theorem Good.map {R1 R : Type} {bad1 : R1} {bad : R} {k k1 : Nat} {st1 : Setup D}
    {ev1 : TState D → R1} {val1 : Env D → R1} (f : R1 → R) (hf : f bad1 = bad)
    (h1 : Good bad1 k k1 st1 ev1 val1) :
    Good bad k k1 st1 (fun s => f (ev1 s)) (fun s => f (val1 s)) := by
  refine ⟨h1.1, fun s => ?_⟩
  rcases h1.2 s with ⟨r1, e1⟩ | ⟨s1, r1, f1, e1⟩
  · exact Or.inl ⟨r1, by simp only [e1, hf]⟩
  · exact Or.inr ⟨s1, r1, f1, fun s'' ha => by simp only [e1 s'' ha]⟩

theorem Good0.map {R1 R : Type} {k k1 : Nat} {st1 : Setup D}
    {ev1 : TState D → R1} {val1 : Env D → R1} (f : R1 → R)
    (h1 : Good0 k k1 st1 ev1 val1) :
    Good0 k k1 st1 (fun s => f (ev1 s)) (fun s => f (val1 s)) := by
  refine ⟨h1.1, fun s => ?_⟩
  obtain ⟨s1, r1, f1, e1⟩ := h1.2 s
  exact ⟨s1, r1, f1, fun s'' ha => by simp only [e1 s'' ha]⟩

/-- Good setups may be stated with pointwise equal functions. -/
theorem Good.congr {R : Type} {bad : R} {k k' : Nat} {st : Setup D} {ev ev' : TState D → R}
    {val val' : Env D → R} (h : Good bad k k' st ev val) (he : ∀ s, ev' s = ev s)
    (hv : ∀ s, val' s = val s) : Good bad k k' st ev' val' := by
  rw [funext he, funext hv]; exact h

theorem Good0.congr {R : Type} {k k' : Nat} {st : Setup D} {ev ev' : TState D → R}
    {val val' : Env D → R} (h : Good0 k k' st ev val) (he : ∀ s, ev' s = ev s)
    (hv : ∀ s, val' s = val s) : Good0 k k' st ev' val' := by
  rw [funext he, funext hv]; exact h

/-! ### Expressions -/

/-- Good code for an expression. -/
abbrev GoodE (k : Nat) (p : Setup D × CExpr D × Nat) (e : Expr D) : Prop :=
  Good none k p.2.2 p.1 (fun s => cevalE s p.2.1) (fun s => evalE s e)

abbrev GoodE0 (k : Nat) (p : Setup D × CExpr D × Nat) (e : Expr D) : Prop :=
  Good0 k p.2.2 p.1 (fun s => cevalE s p.2.1) (fun s => evalE s e)

abbrev GoodC (k : Nat) (p : Setup D × CCond D × Nat) (c : Cond D) : Prop :=
  Good none k p.2.2 p.1 (fun s => cevalC s p.2.1) (fun s => evalC s c)

abbrev GoodC0 (k : Nat) (p : Setup D × CCond D × Nat) (c : Cond D) : Prop :=
  Good0 k p.2.2 p.1 (fun s => cevalC s p.2.1) (fun s => evalC s c)

theorem simple_compound (a : Expr D) : simple a = !a.compound := by cases a <;> rfl

theorem setTmp_run {st : Setup D} {s s1 : TState D} {ce : CExpr D} {k : Nat} {v : D.V}
    (r : runSetup st s = some s1) (h : cevalE s1 ce = some v) :
    runSetup (st ++ [(k, ce)]) s = some (setTmp s1 k v) := by
  rw [runSetup_append, r]
  simp only [Option.bind, runSetup, h]

theorem setTmp_frame {k k1 : Nat} (h : k ≤ k1) {s s1 : TState D} (f : Frame k k1 s s1) (v : D.V) :
    Frame k (k1 + 1) s (setTmp s1 k1 v) := by
  refine ⟨f.1, fun j hj => ?_⟩
  have : j ≠ k1 := by omega
  show (if j = k1 then v else s1.2 j) = _
  rw [if_neg this, f.2 j (by omega)]

theorem minArg_good {a : Expr D} {k : Nat} {p : Setup D × CExpr D × Nat} (h : GoodE k p a) :
    GoodE k (minArg a p) a := by
  unfold minArg
  split
  · exact h
  · refine ⟨Nat.le_succ_of_le h.1, fun s => ?_⟩
    rcases h.2 s with ⟨r1, e1⟩ | ⟨s1, r1, f1, e1⟩
    · exact Or.inl ⟨by rw [runSetup_append, r1]; rfl, e1⟩
    · have he : cevalE s1 p.2.1 = evalE s.1 a := e1 s1 (Agree.refl s1)
      cases hv : evalE s.1 a with
      | none =>
        left
        refine ⟨?_, hv⟩
        rw [runSetup_append, r1]
        simp only [Option.bind, runSetup]
        rw [he, hv]
      | some v =>
        right
        rw [hv] at he
        refine ⟨setTmp s1 p.2.2 v, setTmp_run r1 he, setTmp_frame h.1 f1 v, fun s'' ha => ?_⟩
        have := ha.2 p.2.2 h.1 (Nat.lt_succ_self _)
        simp only [cevalE, this, setTmp, if_true, hv]

theorem minArg_good0 {a : Expr D} {k : Nat} {p : Setup D × CExpr D × Nat} (h : GoodE0 k p a)
    (ht : a.compound = true → TotalE a) : GoodE0 k (minArg a p) a := by
  unfold minArg
  split
  · exact h
  · next hs =>
    rw [simple_compound] at hs
    have ht := ht (by simpa using hs)
    refine ⟨Nat.le_succ_of_le h.1, fun s => ?_⟩
    obtain ⟨s1, r1, f1, e1⟩ := h.2 s
    have he : cevalE s1 p.2.1 = evalE s.1 a := e1 s1 (Agree.refl s1)
    obtain ⟨v, hv⟩ := ht s.1
    rw [hv] at he
    refine ⟨setTmp s1 p.2.2 v, setTmp_run r1 he, setTmp_frame h.1 f1 v, fun s'' ha => ?_⟩
    have := ha.2 p.2.2 h.1 (Nat.lt_succ_self _)
    simp only [cevalE, this, setTmp, if_true, hv]

/-- A strict combination of two values. -/
def strict {α β γ : Type} (g : α → β → Option γ) : Option α → Option β → Option γ
  | some u, some v => g u v
  | _, _ => none

theorem strict_left {α β γ : Type} (g : α → β → Option γ) (y) : strict g none y = none := rfl
theorem strict_right {α β γ : Type} (g : α → β → Option γ) (x) : strict g x none = none := by
  cases x <;> rfl

/-- Choice between two values by a condition. -/
def choose {R : Type} (bad : R) : Option Bool → R × R → R
  | none, _ => bad
  | some true, p => p.1
  | some false, p => p.2

theorem evalE_bin (s : Env D) (o : Bin) (a b : Expr D) :
    evalE s (.bin o a b) = strict (D.bin o) (evalE s a) (evalE s b) := by
  rw [evalE]; cases evalE s a <;> cases evalE s b <;> rfl

theorem cevalE_bin (s : TState D) (o : Bin) (a b : CExpr D) :
    cevalE s (.bin o a b) = strict (D.bin o) (cevalE s a) (cevalE s b) := by
  rw [cevalE]; cases cevalE s a <;> cases cevalE s b <;> rfl

theorem evalE_min (s : Env D) (a b : Expr D) :
    evalE s (.min a b) =
      strict (fun u v => some (if D.cmp .lt v u then v else u)) (evalE s a) (evalE s b) := by
  rw [evalE]; cases evalE s a <;> cases evalE s b <;> rfl

theorem evalE_max (s : Env D) (a b : Expr D) :
    evalE s (.max a b) =
      strict (fun u v => some (if D.cmp .gt v u then v else u)) (evalE s a) (evalE s b) := by
  rw [evalE]; cases evalE s a <;> cases evalE s b <;> rfl

theorem cevalE_select (s : TState D) (o : Cmp) (a b : CExpr D) :
    cevalE s (.tern (.cmp o a b) a b) =
      strict (fun u v => some (if D.cmp o u v then u else v)) (cevalE s a) (cevalE s b) := by
  rw [cevalE, cevalC]
  cases ha : cevalE s a with
  | none => rfl
  | some u =>
    cases hb : cevalE s b with
    | none => rfl
    | some v => simp only [strict]; cases D.cmp o u v <;> simp

theorem evalC_cmp (s : Env D) (o : Cmp) (a b : Expr D) :
    evalC s (.cmp o a b) = strict (fun u v => some (D.cmp o u v)) (evalE s a) (evalE s b) := by
  rw [evalC]; cases evalE s a <;> cases evalE s b <;> rfl

theorem cevalC_cmp (s : TState D) (o : Cmp) (a b : CExpr D) :
    cevalC s (.cmp o a b) = strict (fun u v => some (D.cmp o u v)) (cevalE s a) (cevalE s b) := by
  rw [cevalC]; cases cevalE s a <;> cases cevalE s b <;> rfl

theorem evalE_tern (s : Env D) (c : Cond D) (a b : Expr D) :
    evalE s (.tern c a b) = choose none (evalC s c) (evalE s a, evalE s b) := by
  rw [evalE]; cases evalC s c with
  | none => rfl
  | some t => cases t <;> rfl

theorem cevalE_tern (s : TState D) (c : CCond D) (a b : CExpr D) :
    cevalE s (.tern c a b) = choose none (cevalC s c) (cevalE s a, cevalE s b) := by
  rw [cevalE]; cases cevalC s c with
  | none => rfl
  | some t => cases t <;> rfl

theorem evalC_and (s : Env D) (c d : Cond D) :
    evalC s (.and c d) = choose none (evalC s c) (evalC s d, some false) := by
  rw [evalC]; cases evalC s c with
  | none => rfl
  | some t => cases t <;> rfl

theorem cevalC_and (s : TState D) (c d : CCond D) :
    cevalC s (.and c d) = choose none (cevalC s c) (cevalC s d, some false) := by
  rw [cevalC]; cases cevalC s c with
  | none => rfl
  | some t => cases t <;> rfl

theorem evalC_or (s : Env D) (c d : Cond D) :
    evalC s (.or c d) = choose none (evalC s c) (some true, evalC s d) := by
  rw [evalC]; cases evalC s c with
  | none => rfl
  | some t => cases t <;> rfl

theorem cevalC_or (s : TState D) (c d : CCond D) :
    cevalC s (.or c d) = choose none (cevalC s c) (some true, cevalC s d) := by
  rw [cevalC]; cases cevalC s c with
  | none => rfl
  | some t => cases t <;> rfl

theorem min_eq (hm : MinMax D) : (fun u v : D.V => some (if D.cmp .lt v u then v else u)) =
    fun u v => some (if D.cmp .lt u v then u else v) :=
  funext fun u => funext fun v => by rw [hm.min]

theorem max_eq (hm : MinMax D) : (fun u v : D.V => some (if D.cmp .gt v u then v else u)) =
    fun u v => some (if D.cmp .gt u v then u else v) :=
  funext fun u => funext fun v => by rw [hm.max]

mutual
theorem lowE_good0 (hm : MinMax D) : ∀ (e : Expr D) (k : Nat), SafeE e → GoodE0 k (lowE e k) e
  | .lit v, k, _ => Good0.pure fun s => by simp only [lowE, cevalE, evalE]
  | .var x, k, _ => Good0.pure fun s => by simp only [lowE, cevalE, evalE]
  | .bin o a b, k, h => by
    rw [SafeE] at h
    have ha := lowE_good0 hm a k h.1
    have hb := lowE_good0 hm b (lowE a k).2.2 h.2
    rw [lowE]
    exact (Good0.comb (strict (D.bin o)) ha hb).congr (fun s => cevalE_bin s o _ _)
      fun s => evalE_bin s o a b
  | .min a b, k, h => by
    rw [SafeE] at h
    have ha := minArg_good0 (lowE_good0 hm a k h.1) h.2.2.1
    have hb := minArg_good0 (lowE_good0 hm b (minArg a (lowE a k)).2.2 h.2.1) h.2.2.2
    rw [lowE]
    exact (Good0.comb (strict _) ha hb).congr (fun s => cevalE_select s .lt _ _)
      fun s => by rw [evalE_min, min_eq hm]
  | .max a b, k, h => by
    rw [SafeE] at h
    have ha := minArg_good0 (lowE_good0 hm a k h.1) h.2.2.1
    have hb := minArg_good0 (lowE_good0 hm b (minArg a (lowE a k)).2.2 h.2.1) h.2.2.2
    rw [lowE]
    exact (Good0.comb (strict _) ha hb).congr (fun s => cevalE_select s .gt _ _)
      fun s => by rw [evalE_max, max_eq hm]
  | .tern c a b, k, h => by
    rw [SafeE] at h
    have hc := lowC_good0 hm c k h.1
    have ha := lowE_good0 hm a (lowC c k).2.2 h.2.1
    have hb := lowE_good0 hm b (lowE a (lowC c k).2.2).2.2 h.2.2
    rw [lowE]
    rw [List.append_assoc]
    exact (Good0.comb (choose none) hc (Good0.comb Prod.mk ha hb)).congr
      (fun s => cevalE_tern s _ _ _) fun s => evalE_tern s c a b
theorem lowC_good0 (hm : MinMax D) : ∀ (c : Cond D) (k : Nat), SafeC c → GoodC0 k (lowC c k) c
  | .lit b, k, _ => Good0.pure fun s => by simp only [lowC, cevalC, evalC]
  | .cmp o a b, k, h => by
    rw [SafeC] at h
    have ha := lowE_good0 hm a k h.1
    have hb := lowE_good0 hm b (lowE a k).2.2 h.2
    rw [lowC]
    exact (Good0.comb (strict _) ha hb).congr (fun s => cevalC_cmp s o _ _)
      fun s => evalC_cmp s o a b
  | .truth a, k, h => by
    rw [SafeC] at h
    have ha := lowE_good0 hm a k h
    rw [lowC]
    exact (Good0.map (Option.map D.truth) ha).congr (fun s => by rw [cevalC])
      fun s => by rw [evalC]
  | .not c, k, h => by
    rw [SafeC] at h
    have hc := lowC_good0 hm c k h
    rw [lowC]
    exact (Good0.map (Option.map (!·)) hc).congr (fun s => by rw [cevalC]) fun s => by rw [evalC]
  | .and c d, k, h => by
    rw [SafeC] at h
    have hc := lowC_good0 hm c k h.1
    have hd := lowC_good0 hm d (lowC c k).2.2 h.2
    rw [lowC]
    exact (Good0.comb (fun x y => choose none x (y, some false)) hc hd).congr
      (fun s => cevalC_and s _ _) fun s => evalC_and s c d
  | .or c d, k, h => by
    rw [SafeC] at h
    have hc := lowC_good0 hm c k h.1
    have hd := lowC_good0 hm d (lowC c k).2.2 h.2
    rw [lowC]
    exact (Good0.comb (fun x y => choose none x (some true, y)) hc hd).congr
      (fun s => cevalC_or s _ _) fun s => evalC_or s c d
end

mutual
theorem lowE_good (hm : MinMax D) : ∀ (e : Expr D) (k : Nat), LazySafeE e → GoodE k (lowE e k) e
  | .lit v, k, _ => (Good0.pure fun s => by simp only [lowE, cevalE, evalE]).good
  | .var x, k, _ => (Good0.pure fun s => by simp only [lowE, cevalE, evalE]).good
  | .bin o a b, k, h => by
    rw [LazySafeE] at h
    have ha := lowE_good hm a k h.1
    have hb := lowE_good hm b (lowE a k).2.2 h.2
    rw [lowE]
    exact (Good.comb (strict (D.bin o)) (strict_left _) (strict_right _) ha hb).congr
      (fun s => cevalE_bin s o _ _) fun s => evalE_bin s o a b
  | .min a b, k, h => by
    rw [LazySafeE] at h
    have ha := minArg_good (lowE_good hm a k h.1)
    have hb := minArg_good (lowE_good hm b (minArg a (lowE a k)).2.2 h.2)
    rw [lowE]
    exact (Good.comb (strict _) (strict_left _) (strict_right _) ha hb).congr
      (fun s => cevalE_select s .lt _ _) fun s => by rw [evalE_min, min_eq hm]
  | .max a b, k, h => by
    rw [LazySafeE] at h
    have ha := minArg_good (lowE_good hm a k h.1)
    have hb := minArg_good (lowE_good hm b (minArg a (lowE a k)).2.2 h.2)
    rw [lowE]
    exact (Good.comb (strict _) (strict_left _) (strict_right _) ha hb).congr
      (fun s => cevalE_select s .gt _ _) fun s => by rw [evalE_max, max_eq hm]
  | .tern c a b, k, h => by
    rw [LazySafeE] at h
    have hc := lowC_good hm c k h.1
    have ha := lowE_good0 hm a (lowC c k).2.2 h.2.1
    have hb := lowE_good0 hm b (lowE a (lowC c k).2.2).2.2 h.2.2
    rw [lowE]
    rw [List.append_assoc]
    exact (Good.comb0 (choose none) (fun _ => rfl) hc (Good0.comb Prod.mk ha hb)).congr
      (fun s => cevalE_tern s _ _ _) fun s => evalE_tern s c a b
theorem lowC_good (hm : MinMax D) : ∀ (c : Cond D) (k : Nat), LazySafeC c → GoodC k (lowC c k) c
  | .lit b, k, _ => (Good0.pure fun s => by simp only [lowC, cevalC, evalC]).good
  | .cmp o a b, k, h => by
    rw [LazySafeC] at h
    have ha := lowE_good hm a k h.1
    have hb := lowE_good hm b (lowE a k).2.2 h.2
    rw [lowC]
    exact (Good.comb (strict _) (strict_left _) (strict_right _) ha hb).congr
      (fun s => cevalC_cmp s o _ _) fun s => evalC_cmp s o a b
  | .truth a, k, h => by
    rw [LazySafeC] at h
    have ha := lowE_good hm a k h
    rw [lowC]
    exact (Good.map (Option.map D.truth) rfl ha).congr (fun s => by rw [cevalC])
      fun s => by rw [evalC]
  | .not c, k, h => by
    rw [LazySafeC] at h
    have hc := lowC_good hm c k h
    rw [lowC]
    exact (Good.map (Option.map (!·)) rfl hc).congr (fun s => by rw [cevalC])
      fun s => by rw [evalC]
  | .and c d, k, h => by
    rw [LazySafeC] at h
    have hc := lowC_good hm c k h.1
    have hd := lowC_good0 hm d (lowC c k).2.2 h.2
    rw [lowC]
    exact (Good.comb0 (fun x y => choose none x (y, some false)) (fun _ => rfl) hc hd).congr
      (fun s => cevalC_and s _ _) fun s => evalC_and s c d
  | .or c d, k, h => by
    rw [LazySafeC] at h
    have hc := lowC_good hm c k h.1
    have hd := lowC_good0 hm d (lowC c k).2.2 h.2
    rw [lowC]
    exact (Good.comb0 (fun x y => choose none x (some true, y)) (fun _ => rfl) hc hd).congr
      (fun s => cevalC_or s _ _) fun s => evalC_or s c d
end

theorem lowE_simple {e : Expr D} (h : e.compound = false) (k : Nat) :
    (lowE e k).1 = [] ∧ (lowE e k).2.2 = k ∧ ∀ s, cevalE s (lowE e k).2.1 = evalE s.1 e := by
  cases e with
  | lit v => exact ⟨rfl, rfl, fun s => by simp only [lowE, cevalE, evalE]⟩
  | var v => exact ⟨rfl, rfl, fun s => by simp only [lowE, cevalE, evalE]⟩
  | _ => exact absurd h (by simp [Expr.compound])

theorem minArg_simple {e : Expr D} (h : e.compound = false) (p : Setup D × CExpr D × Nat) :
    minArg e p = p := by
  rw [minArg, simple_compound, h]; rfl

mutual
theorem lowE_plain (hm : MinMax D) : ∀ (e : Expr D) (k : Nat), PlainE e →
    (lowE e k).1 = [] ∧ (lowE e k).2.2 = k ∧ ∀ s, cevalE s (lowE e k).2.1 = evalE s.1 e
  | .lit v, k, _ => lowE_simple rfl k
  | .var x, k, _ => lowE_simple rfl k
  | .bin o a b, k, h => by
    rw [PlainE] at h
    obtain ⟨a1, a2, a3⟩ := lowE_plain hm a k h.1
    obtain ⟨b1, b2, b3⟩ := lowE_plain hm b k h.2
    refine ⟨by rw [lowE]; simp only [a1, a2, b1, List.append_nil], by rw [lowE]; simp only [a2, b2],
      fun s => ?_⟩
    rw [lowE]; simp only [cevalE_bin, evalE_bin, a2, a3, b3]
  | .min a b, k, h => by
    rw [PlainE] at h
    obtain ⟨a1, a2, a3⟩ := lowE_simple h.1 k
    obtain ⟨b1, b2, b3⟩ := lowE_simple h.2 k
    rw [lowE]
    simp only [minArg_simple h.1, minArg_simple h.2, a2, a1, b1, b2, List.append_nil, true_and]
    intro s
    rw [cevalE_select, evalE_min, min_eq hm, a3]
    rw [b3]
  | .max a b, k, h => by
    rw [PlainE] at h
    obtain ⟨a1, a2, a3⟩ := lowE_simple h.1 k
    obtain ⟨b1, b2, b3⟩ := lowE_simple h.2 k
    rw [lowE]
    simp only [minArg_simple h.1, minArg_simple h.2, a2, a1, b1, b2, List.append_nil, true_and]
    intro s
    rw [cevalE_select, evalE_max, max_eq hm, a3]
    rw [b3]
  | .tern c a b, k, h => by
    rw [PlainE] at h
    obtain ⟨c1, c2, c3⟩ := lowC_plain hm c k h.1
    obtain ⟨a1, a2, a3⟩ := lowE_plain hm a k h.2.1
    obtain ⟨b1, b2, b3⟩ := lowE_plain hm b k h.2.2
    refine ⟨by rw [lowE]; simp only [c1, c2, a1, a2, b1, List.append_nil],
      by rw [lowE]; simp only [b2, a2, c2], fun s => ?_⟩
    rw [lowE, evalE_tern, ← a3, ← b3, ← c3]; simp only [c2, a2, cevalE_tern]
theorem lowC_plain (hm : MinMax D) : ∀ (c : Cond D) (k : Nat), PlainC c →
    (lowC c k).1 = [] ∧ (lowC c k).2.2 = k ∧ ∀ s, cevalC s (lowC c k).2.1 = evalC s.1 c
  | .lit b, k, _ => ⟨by rw [lowC], by rw [lowC], fun s => by simp only [lowC, cevalC, evalC]⟩
  | .cmp o a b, k, h => by
    rw [PlainC] at h
    obtain ⟨a1, a2, a3⟩ := lowE_plain hm a k h.1
    obtain ⟨b1, b2, b3⟩ := lowE_plain hm b k h.2
    refine ⟨by rw [lowC]; simp only [a1, a2, b1, List.append_nil], by rw [lowC]; simp only [a2, b2],
      fun s => ?_⟩
    rw [lowC]; simp only [cevalC_cmp, evalC_cmp, a2, a3, b3]
  | .truth a, k, h => by
    rw [PlainC] at h
    obtain ⟨a1, a2, a3⟩ := lowE_plain hm a k h
    refine ⟨by rw [lowC]; simp only [a1], by rw [lowC]; simp only [a2], fun s => ?_⟩
    rw [lowC]; simp only [cevalC, evalC, a3]
  | .not c, k, h => by
    rw [PlainC] at h
    obtain ⟨a1, a2, a3⟩ := lowC_plain hm c k h
    refine ⟨by rw [lowC]; simp only [a1], by rw [lowC]; simp only [a2], fun s => ?_⟩
    rw [lowC]; simp only [cevalC, evalC, a3]
  | .and c d, k, h => by
    rw [PlainC] at h
    obtain ⟨a1, a2, a3⟩ := lowC_plain hm c k h.1
    obtain ⟨b1, b2, b3⟩ := lowC_plain hm d k h.2
    refine ⟨by rw [lowC]; simp only [a1, a2, b1, List.append_nil], by rw [lowC]; simp only [a2, b2],
      fun s => ?_⟩
    rw [lowC]; simp only [cevalC_and, evalC_and, a2, a3, b3]
  | .or c d, k, h => by
    rw [PlainC] at h
    obtain ⟨a1, a2, a3⟩ := lowC_plain hm c k h.1
    obtain ⟨b1, b2, b3⟩ := lowC_plain hm d k h.2
    refine ⟨by rw [lowC]; simp only [a1, a2, b1, List.append_nil], by rw [lowC]; simp only [a2, b2],
      fun s => ?_⟩
    rw [lowC]; simp only [cevalC_or, evalC_or, a2, a3, b3]
end

mutual
theorem SafeE.lazySafe : ∀ (e : Expr D), SafeE e → LazySafeE e
  | .lit _, _ => by rw [LazySafeE]; trivial
  | .var _, _ => by rw [LazySafeE]; trivial
  | .bin o a b, h => by
    rw [SafeE] at h; rw [LazySafeE]
    exact ⟨SafeE.lazySafe a h.1, SafeE.lazySafe b h.2⟩
  | .min a b, h => by
    rw [SafeE] at h; rw [LazySafeE]
    exact ⟨SafeE.lazySafe a h.1, SafeE.lazySafe b h.2.1⟩
  | .max a b, h => by
    rw [SafeE] at h; rw [LazySafeE]
    exact ⟨SafeE.lazySafe a h.1, SafeE.lazySafe b h.2.1⟩
  | .tern c a b, h => by
    rw [SafeE] at h; rw [LazySafeE]
    exact ⟨SafeC.lazySafe c h.1, h.2.1, h.2.2⟩
theorem SafeC.lazySafe : ∀ (c : Cond D), SafeC c → LazySafeC c
  | .lit _, _ => by rw [LazySafeC]; trivial
  | .cmp o a b, h => by
    rw [SafeC] at h; rw [LazySafeC]
    exact ⟨SafeE.lazySafe a h.1, SafeE.lazySafe b h.2⟩
  | .truth a, h => by rw [SafeC] at h; rw [LazySafeC]; exact SafeE.lazySafe a h
  | .not c, h => by rw [SafeC] at h; rw [LazySafeC]; exact SafeC.lazySafe c h
  | .and c d, h => by
    rw [SafeC] at h; rw [LazySafeC]; exact ⟨SafeC.lazySafe c h.1, h.2⟩
  | .or c d, h => by
    rw [SafeC] at h; rw [LazySafeC]; exact ⟨SafeC.lazySafe c h.1, h.2⟩
end

end Verif.Flow.Lemmas
