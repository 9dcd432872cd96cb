import Verif.Locks.Model
/-!
# Invariants of the lock protocol
-/

namespace Verif.Locks

open Verif.Locks.Spec

/-- The locks of a block are different, and all of them are released. -/
structure Block.Good (b : Block) : Prop where
  nodup : b.acqs.Nodup
  perm : b.rels.Perm b.acqs

/-- Where process `p` is: between blocks, entering a block, leaving a block, or stuck after a
failed acquisition. -/
inductive Phase (f : Prop) (G : Block → Prop) (s : State) (p : Nat) : Prop
  | out (bs : List Block) (hG : ∀ b ∈ bs, G b) (ht : s.todo p = program bs)
      (hh : ∀ l, s.holder l ≠ some p)
  | acq (b : Block) (bs : List Block) (hb : G b) (hG : ∀ b ∈ bs, G b) (A B : List Nat)
      (hAB : b.acqs = A ++ B)
      (ht : s.todo p = B.map .acq ++ .work b.uses b.rels.length :: (b.rels.map .rel ++ program bs))
      (hh : ∀ l, s.holder l = some p ↔ l ∈ A)
  | rel (b : Block) (bs : List Block) (hb : G b) (hG : ∀ b ∈ bs, G b) (Q R : List Nat)
      (hQR : b.rels = Q ++ R) (ht : s.todo p = R.map .rel ++ program bs)
      (hh : ∀ l, s.holder l = some p ↔ l ∈ R)
  | stuck (hf : f) (ht : s.todo p = [])

/-- The processes that have not taken part in a step keep their phase. -/
theorem Phase.other {f : Prop} {G : Block → Prop} {s t : State} {q : Nat} (h : Phase f G s q)
    (ht : t.todo q = s.todo q) (hh : ∀ l, t.holder l = some q ↔ s.holder l = some q) :
    Phase f G t q := by
  cases h with
  | out bs hG h1 h2 => exact .out bs hG (ht.trans h1) fun l h => h2 l ((hh l).1 h)
  | acq b bs hb hG A B hAB h1 h2 =>
    exact .acq b bs hb hG A B hAB (ht.trans h1) fun l => (hh l).trans (h2 l)
  | rel b bs hb hG Q R hQR h1 h2 =>
    exact .rel b bs hb hG Q R hQR (ht.trans h1) fun l => (hh l).trans (h2 l)
  | stuck hf h1 => exact .stuck hf (ht.trans h1)

/-- A process is done, is entering a block, is leaving a block with locks in its hands, or is
stuck. -/
theorem Phase.cases' {f : Prop} {G : Block → Prop} {s : State} {p : Nat} (h : Phase f G s p) :
    (s.todo p = [] ∧ ∀ l, s.holder l ≠ some p) ∨
    (∃ b bs A B, G b ∧ (∀ b ∈ bs, G b) ∧ b.acqs = A ++ B ∧
      s.todo p = B.map .acq ++ .work b.uses b.rels.length :: (b.rels.map .rel ++ program bs) ∧
      ∀ l, s.holder l = some p ↔ l ∈ A) ∨
    (∃ b bs Q l R, G b ∧ (∀ b ∈ bs, G b) ∧ b.rels = Q ++ l :: R ∧
      s.todo p = .rel l :: (R.map .rel ++ program bs) ∧ ∀ k, s.holder k = some p ↔ k ∈ l :: R) ∨
    (f ∧ s.todo p = []) := by
  have hout : ∀ bs : List Block, (∀ b ∈ bs, G b) → s.todo p = program bs →
      (∀ l, s.holder l ≠ some p) →
      (s.todo p = [] ∧ ∀ l, s.holder l ≠ some p) ∨
      (∃ b bs A B, G b ∧ (∀ b ∈ bs, G b) ∧ b.acqs = A ++ B ∧
        s.todo p = B.map .acq ++ .work b.uses b.rels.length :: (b.rels.map .rel ++ program bs) ∧
        ∀ l, s.holder l = some p ↔ l ∈ A) := by
    intro bs hG h1 h2
    cases bs with
    | nil => exact Or.inl ⟨h1, h2⟩
    | cons b bs =>
      refine Or.inr ⟨b, bs, [], b.acqs, hG b (by simp), fun c hc => hG c (by simp [hc]), rfl, ?_, ?_⟩
      · rw [h1, program, List.flatMap_cons, Block.acts, List.append_assoc, List.cons_append]; rfl
      · intro l; simp [h2 l]
  cases h with
  | out bs hG h1 h2 =>
    rcases hout bs hG h1 h2 with h | h
    · exact Or.inl h
    · exact Or.inr (Or.inl h)
  | acq b bs hb hG A B hAB h1 h2 => exact Or.inr (Or.inl ⟨b, bs, A, B, hb, hG, hAB, h1, h2⟩)
  | rel b bs hb hG Q R hQR h1 h2 =>
    cases R with
    | nil =>
      rcases hout bs hG (by simpa using h1) (fun l h => by simpa using (h2 l).1 h) with h | h
      · exact Or.inl h
      · exact Or.inr (Or.inl h)
    | cons l R => exact Or.inr (Or.inr (Or.inl ⟨b, bs, Q, l, R, hb, hG, hQR, by simpa using h1, h2⟩))
  | stuck hf h1 => exact Or.inr (Or.inr (Or.inr ⟨hf, h1⟩))

theorem Phase.step {f : Prop} {G : Block → Prop} (hgood : ∀ b, G b → b.Good) {s t : State}
    {p : Nat} (h : ∀ q, Phase f G s q) (hs : Step p s t) : ∀ q, Phase f G t q := by
  have others : ∀ (q l) (o : Option Nat) (r), q ≠ p →
      ((s.held l o).goesOn p r).todo q = s.todo q := by
    intro q l o r hq; simp [State.goesOn, State.held, hq]
  intro q
  cases hs with
  | acquire l r ht hf =>
    by_cases hq : q = p
    · subst hq
      rcases (h q).cases' with ⟨h1, _⟩ | ⟨b, bs, A, B, hb, hG, hAB, h1, h2⟩ |
        ⟨b, bs, Q, l', R, hb, hG, hQR, h1, h2⟩ | ⟨_, h1⟩
      · rw [h1] at ht; cases ht
      · cases B with
        | nil => rw [h1] at ht; simp at ht
        | cons l' B =>
          rw [h1] at ht
          simp only [List.map_cons, List.cons_append, List.cons.injEq, Act.acq.injEq] at ht
          obtain ⟨rfl, hr⟩ := ht
          refine .acq b bs hb hG (A ++ [l']) B (by simp [hAB]) ?_ ?_
          · simp [State.goesOn, hr]
          · intro m
            simp only [State.goesOn, State.held]
            by_cases hm : m = l'
            · simp [hm]
            · simp [hm, h2 m]
      · rw [h1] at ht; simp at ht
      · rw [h1] at ht; cases ht
    · refine (h q).other (others q l _ r hq) fun m => ?_
      simp only [State.goesOn, State.held]
      by_cases hm : m = l
      · subst hm; simp [hf, Ne.symm hq]
      · simp [hm]
  | release l r ht =>
    have key : s.holder l = some p := by
      rcases (h p).cases' with ⟨h1, _⟩ | ⟨b, bs, A, B, hb, hG, hAB, h1, h2⟩ |
        ⟨b, bs, Q, l', R, hb, hG, hQR, h1, h2⟩ | ⟨_, h1⟩
      · rw [h1] at ht; cases ht
      · rw [h1] at ht; cases B <;> simp at ht
      · rw [h1] at ht
        simp only [List.cons.injEq, Act.rel.injEq] at ht
        rw [h2, ht.1]; simp
      · rw [h1] at ht; cases ht
    by_cases hq : q = p
    · subst hq
      rcases (h q).cases' with ⟨h1, _⟩ | ⟨b, bs, A, B, hb, hG, hAB, h1, h2⟩ |
        ⟨b, bs, Q, l', R, hb, hG, hQR, h1, h2⟩ | ⟨_, h1⟩
      · rw [h1] at ht; cases ht
      · rw [h1] at ht; cases B <;> simp at ht
      · rw [h1] at ht
        simp only [List.cons.injEq, Act.rel.injEq] at ht
        obtain ⟨rfl, hr⟩ := ht
        refine .rel b bs hb hG (Q ++ [l']) R (by simp [hQR]) ?_ ?_
        · simp [State.goesOn, hr]
        · intro m
          simp only [State.goesOn, State.held]
          have hnd : (Q ++ l' :: R).Nodup := hQR ▸ (hgood b hb).perm.nodup_iff.2 (hgood b hb).nodup
          have hn : l' ∉ R := (List.nodup_cons.1 (List.nodup_append.1 hnd).2.1).1
          by_cases hm : m = l'
          · subst hm; simp [hn]
          · simp [hm, h2 m]
      · rw [h1] at ht; cases ht
    · refine (h q).other (others q l _ r hq) fun m => ?_
      simp only [State.goesOn, State.held]
      by_cases hm : m = l
      · subst hm; simp [key, Ne.symm hq]
      · simp [hm]
  | done ls k r ht =>
    by_cases hq : q = p
    · subst hq
      rcases (h q).cases' with ⟨h1, _⟩ | ⟨b, bs, A, B, hb, hG, hAB, h1, h2⟩ |
        ⟨b, bs, Q, l', R, hb, hG, hQR, h1, h2⟩ | ⟨_, h1⟩
      · rw [h1] at ht; cases ht
      · cases B with
        | nil =>
          rw [h1] at ht
          simp only [List.map_nil, List.nil_append, List.cons.injEq] at ht
          refine .rel b bs hb hG [] b.rels rfl (by simp [State.goesOn, ht.2]) ?_
          intro l
          rw [(hgood b hb).perm.mem_iff, hAB, List.append_nil]
          exact h2 l
        | cons l' B => rw [h1] at ht; simp at ht
      · rw [h1] at ht; simp at ht
      · rw [h1] at ht; cases ht
    · exact (h q).other (by simp [State.goesOn, hq]) fun m => Iff.rfl
  | raises ls k r ht =>
    by_cases hq : q = p
    · subst hq
      rcases (h q).cases' with ⟨h1, _⟩ | ⟨b, bs, A, B, hb, hG, hAB, h1, h2⟩ |
        ⟨b, bs, Q, l', R, hb, hG, hQR, h1, h2⟩ | ⟨_, h1⟩
      · rw [h1] at ht; cases ht
      · cases B with
        | nil =>
          rw [h1] at ht
          simp only [List.map_nil, List.nil_append, List.cons.injEq, Act.work.injEq] at ht
          refine .rel b [] hb (by simp) [] b.rels rfl ?_ ?_
          · simp [State.goesOn, ← ht.1.2, ← ht.2, program]
          · intro l
            rw [(hgood b hb).perm.mem_iff, hAB, List.append_nil]
            exact h2 l
        | cons l' B => rw [h1] at ht; simp at ht
      · rw [h1] at ht; simp at ht
      · rw [h1] at ht; cases ht
    · exact (h q).other (by simp [State.goesOn, hq]) fun m => Iff.rfl

/-- Every reachable state is in order. -/
theorem reach_phase {f : Prop} {G : Block → Prop} (hgood : ∀ b, G b → b.Good)
    {prog : Nat → List Block} (hG : ∀ p, ∀ b ∈ prog p, G b) {s : State}
    (h : Reach f (start prog) s) : ∀ p, Phase f G s p := by
  induction h with
  | refl => intro p; exact .out (prog p) (hG p) rfl (by intro l; simp [start])
  | step p _ hs ih => exact Phase.step hgood ih hs
  | kill p _ ih =>
    intro q
    by_cases hq : q = p
    · subst hq
      refine .out [] (by simp) (by simp [State.killed, program]) fun l => ?_
      simp only [State.killed]
      split
      · simp
      · assumption
    · refine (ih q).other (by simp [State.killed, hq]) fun l => ?_
      simp only [State.killed]
      split
      · next hl => simp [hl, Ne.symm hq]
      · exact Iff.rfl
  | fail p hf _ hs ih =>
    intro q
    cases hs with
    | mk l r ht =>
      by_cases hq : q = p
      · subst hq; exact .stuck hf (by simp [State.goesOn])
      · exact (ih q).other (by simp [State.goesOn, hq]) fun m => Iff.rfl

/-- A process at work is in a block, all locks of which it holds. -/
theorem working_holds {f : Prop} {G : Block → Prop} {s : State} {p : Nat} (h : Phase f G s p)
    {ls : List Nat} (hw : s.working p ls) :
    ∃ b, G b ∧ b.uses = ls ∧ ∀ l ∈ b.acqs, s.holder l = some p := by
  obtain ⟨k, r, ht⟩ := hw
  rcases h.cases' with ⟨h1, _⟩ | ⟨b, bs, A, B, hb, hG, hAB, h1, h2⟩ |
    ⟨b, bs, Q, l', R, hb, hG, hQR, h1, h2⟩ | ⟨_, h1⟩
  · rw [h1] at ht; cases ht
  · cases B with
    | nil =>
      rw [h1] at ht
      simp only [List.map_nil, List.nil_append, List.cons.injEq, Act.work.injEq] at ht
      refine ⟨b, hb, ht.1.1, fun l hl => ?_⟩
      rw [h2]
      rw [hAB, List.append_nil] at hl
      exact hl
    | cons l' B => rw [h1] at ht; simp at ht
  · rw [h1] at ht; simp at ht
  · rw [h1] at ht; cases ht

theorem ended_free {G : Block → Prop} {s : State} {p : Nat} (h : Phase False G s p)
    (he : s.ended p) : ∀ l, s.holder l ≠ some p := by
  rcases h.cases' with ⟨_, h2⟩ | ⟨b, bs, A, B, hb, hG, hAB, h1, h2⟩ |
    ⟨b, bs, Q, l', R, hb, hG, hQR, h1, h2⟩ | ⟨hf, _⟩
  · exact h2
  · rw [State.ended, h1] at he; cases B <;> simp at he
  · rw [State.ended, h1] at he; cases he
  · exact hf.elim

/-- A block that takes the lock `g` first and gives it back last. -/
structure Guarded (g : Nat) (b : Block) : Prop extends b.Good where
  first : ∃ r, b.acqs = g :: r
  last : ∃ r, b.rels = r ++ [g]

/-- Whoever holds a lock holds `g`. -/
theorem holds_guard {g : Nat} {s : State} {p : Nat} (h : Phase False (Guarded g) s p) {l : Nat}
    (hl : s.holder l = some p) : s.holder g = some p := by
  rcases h.cases' with ⟨_, h2⟩ | ⟨b, bs, A, B, hb, hG, hAB, h1, h2⟩ |
    ⟨b, bs, Q, l', R, hb, hG, hQR, h1, h2⟩ | ⟨hf, _⟩
  · exact absurd hl (h2 l)
  · rw [h2] at hl ⊢
    obtain ⟨r, hr⟩ := hb.first
    cases A with
    | nil => cases hl
    | cons a A =>
      rw [hr] at hAB
      simp only [List.cons_append, List.cons.injEq] at hAB
      rw [hAB.1]; simp
  · rw [h2]
    obtain ⟨r, hr⟩ := hb.last
    have e : (l' :: R).getLast? = some g := by
      have := congrArg List.getLast? (hr.symm.trans hQR)
      simpa using this.symm
    exact List.mem_of_getLast? e
  · exact hf.elim

theorem guarded_noDeadlock {g : Nat} {s : State} (h : ∀ p, Phase False (Guarded g) s p) :
    s.NoDeadlock := by
  rintro ⟨p, hp⟩
  cases hg : s.holder g with
  | none =>
    have hnone : ∀ q l, s.holder l ≠ some q := fun q l hl => by
      have := holds_guard (h q) hl
      rw [hg] at this; cases this
    rcases (h p).cases' with ⟨h1, _⟩ | ⟨b, bs, A, B, hb, hG, hAB, h1, h2⟩ |
      ⟨b, bs, Q, l', R, hb, hG, hQR, h1, h2⟩ | ⟨hf, _⟩
    · exact absurd h1 hp
    · have hA : A = [] := by
        cases A with
        | nil => rfl
        | cons a A => exact absurd ((h2 a).2 (by simp)) (hnone p a)
      subst hA
      obtain ⟨r, hr⟩ := hb.first
      rw [List.nil_append] at hAB
      rw [← hAB, hr, List.map_cons, List.cons_append] at h1
      exact ⟨p, _, .acquire g _ h1 hg⟩
    · exact absurd ((h2 l').2 (by simp)) (hnone p l')
    · exact hf.elim
  | some q =>
    rcases (h q).cases' with ⟨_, h2⟩ | ⟨b, bs, A, B, hb, hG, hAB, h1, h2⟩ |
      ⟨b, bs, Q, l', R, hb, hG, hQR, h1, h2⟩ | ⟨hf, _⟩
    · exact absurd hg (h2 g)
    · cases B with
      | nil => exact ⟨q, _, .done _ _ _ h1⟩
      | cons l B =>
        refine ⟨q, _, .acquire l _ h1 ?_⟩
        cases hl : s.holder l with
        | none => rfl
        | some r =>
          exfalso
          have h3 := holds_guard (h r) hl
          rw [hg] at h3
          cases h3
          have h4 := (h2 l).1 hl
          have h5 := hb.nodup
          rw [hAB] at h5
          exact (List.nodup_append.1 h5).2.2 l h4 l (by simp) rfl
    · exact ⟨q, _, .release _ _ h1⟩
    · exact hf.elim

/-- A block that takes its locks in increasing order; the locks are less than `m`. -/
structure Ordered (m : Nat) (b : Block) : Prop extends b.Good where
  sorted : b.acqs.Pairwise (· < ·)
  bounded : ∀ l ∈ b.acqs, l < m

theorem ordered_noDeadlock {m : Nat} {s : State} (h : ∀ p, Phase False (Ordered m) s p) :
    s.NoDeadlock := by
  rintro ⟨p, hp⟩
  refine Classical.byContradiction fun hno => ?_
  -- every process that has not ended waits for a lock
  have hwait : ∀ q, ¬ s.ended q → ∃ b A l B r, Ordered m b ∧ b.acqs = A ++ l :: B ∧
      (∀ k, s.holder k = some q ↔ k ∈ A) ∧ s.holder l = some r := by
    intro q hq
    rcases (h q).cases' with ⟨h1, _⟩ | ⟨b, bs, A, B, hb, hG, hAB, h1, h2⟩ |
      ⟨b, bs, Q, l', R, hb, hG, hQR, h1, h2⟩ | ⟨hf, _⟩
    · exact absurd h1 hq
    · cases B with
      | nil => exact absurd ⟨q, _, .done _ _ _ h1⟩ hno
      | cons l B =>
        cases hl : s.holder l with
        | none => exact absurd ⟨q, _, .acquire l _ h1 hl⟩ hno
        | some r => exact ⟨b, A, l, B, r, hb, hAB, h2, hl⟩
    · exact absurd ⟨q, _, .release _ _ h1⟩ hno
    · exact hf.elim
  -- the one that holds it waits for a greater one
  have hgt : ∀ n l q, m - l ≤ n → s.holder l = some q → False := by
    intro n
    induction n with
    | zero =>
      intro l q hn hl
      have hq : ¬ s.ended q := fun he => ended_free (h q) he l hl
      obtain ⟨b, A, l', B, r, hb, hAB, h2, _⟩ := hwait q hq
      have := hb.bounded l (by rw [hAB]; exact List.mem_append_left _ ((h2 l).1 hl))
      omega
    | succ n ih =>
      intro l q hn hl
      have hq : ¬ s.ended q := fun he => ended_free (h q) he l hl
      obtain ⟨b, A, l', B, r, hb, hAB, h2, h3⟩ := hwait q hq
      have h4 := hb.sorted
      rw [hAB] at h4
      have h5 : l < l' := (List.pairwise_append.1 h4).2.2 l ((h2 l).1 hl) l' (by simp)
      have h6 := hb.bounded l' (by rw [hAB]; simp)
      exact ih l' r (by omega) h3
  obtain ⟨b, A, l, B, r, _, _, _, h3⟩ := hwait p hp
  exact hgt _ l r Nat.le.refl h3

/-- The locks of finitely many programs are bounded. -/
theorem bounded_locks (prog : Nat → List Block) (n : Nat) (hn : ∀ p, n ≤ p → prog p = []) :
    ∃ m, ∀ p, ∀ b ∈ prog p, ∀ l ∈ b.acqs, l < m := by
  have hlist : ∀ x : List Nat, ∃ m, ∀ l ∈ x, l < m := by
    intro x
    induction x with
    | nil => exact ⟨0, by simp⟩
    | cons a x ih =>
      obtain ⟨m, hm⟩ := ih
      refine ⟨max m (a + 1), fun l hl => ?_⟩
      rcases List.mem_cons.1 hl with rfl | hl
      · omega
      · have := hm l hl; omega
  have hprog : ∀ k, ∃ m, ∀ p, p < k → ∀ b ∈ prog p, ∀ l ∈ b.acqs, l < m := by
    intro k
    induction k with
    | zero => exact ⟨0, fun p hp => absurd hp (by omega)⟩
    | succ k ih =>
      obtain ⟨m, hm⟩ := ih
      obtain ⟨m', hm'⟩ := hlist ((prog k).flatMap Block.acqs)
      refine ⟨max m m', fun p hp b hb l hl => ?_⟩
      by_cases hpk : p = k
      · subst hpk
        have := hm' l (List.mem_flatMap.2 ⟨b, hb, hl⟩)
        omega
      · have := hm p (by omega) b hb l hl
        omega
  obtain ⟨m, hm⟩ := hprog n
  refine ⟨m, fun p b hb l hl => ?_⟩
  by_cases hp : p < n
  · exact hm p hp b hb l hl
  · rw [hn p (by omega)] at hb; cases hb

/-! ## Reaching the end -/

/-- What the processes `0, …, n - 1` still have to do. -/
def left (s : State) : Nat → Nat
  | 0 => 0
  | n + 1 => left s n + (s.todo n).length

theorem left_congr {s t : State} (n : Nat) (h : ∀ p, p < n → (t.todo p).length = (s.todo p).length) :
    left t n = left s n := by
  induction n with
  | zero => rfl
  | succ n ih =>
    rw [left, left, ih fun p hp => h p (by omega), h n (by omega)]

theorem left_lt {s t : State} (n p : Nat) (hp : p < n) (h1 : (t.todo p).length < (s.todo p).length)
    (h2 : ∀ q, q ≠ p → t.todo q = s.todo q) : left t n < left s n := by
  induction n with
  | zero => omega
  | succ n ih =>
    rw [left, left]
    by_cases hpn : p = n
    · subst hpn
      have := left_congr (s := s) (t := t) p fun q hq => by rw [h2 q (by omega)]
      omega
    · have := ih (by omega)
      rw [h2 n (by omega)]
      omega

theorem Step.todo {p : Nat} {s t : State} (h : Step p s t) :
    (t.todo p).length < (s.todo p).length ∧ ∀ q, q ≠ p → t.todo q = s.todo q := by
  cases h with
  | acquire l r ht hf => exact ⟨by simp [State.goesOn, ht], fun q hq => by simp [State.goesOn, State.held, hq]⟩
  | release l r ht => exact ⟨by simp [State.goesOn, ht], fun q hq => by simp [State.goesOn, State.held, hq]⟩
  | done ls k r ht => exact ⟨by simp [State.goesOn, ht], fun q hq => by simp [State.goesOn, hq]⟩
  | raises ls k r ht =>
    exact ⟨by simp [State.goesOn, ht]; omega, fun q hq => by simp [State.goesOn, hq]⟩

/-- Processes that have nothing to do do not get anything to do. -/
theorem reach_idle {f : Prop} {s0 s : State} (h : Reach f s0 s) {p : Nat} (hp : s0.todo p = []) :
    s.todo p = [] := by
  induction h with
  | refl => exact hp
  | step q _ hs ih =>
    have h1 := Step.todo hs
    by_cases hq : p = q
    · subst hq; rw [ih] at h1; simp at h1
    · rw [h1.2 p hq]; exact ih
  | kill q _ ih => simp only [State.killed]; split <;> simp [ih]
  | fail q _ _ hs ih =>
    cases hs with
    | mk l r ht => simp only [State.goesOn]; split <;> simp [ih]

/-- Whoever goes on comes to an end. -/
theorem reach_end {f : Prop} {s0 : State} (n : Nat) (hn : ∀ p, n ≤ p → s0.todo p = [])
    (hnd : ∀ s, Reach f s0 s → s.NoDeadlock) :
    ∀ k s, Reach f s0 s → left s n ≤ k → ∃ t, Reach f s0 t ∧ (∀ p, t.ended p) ∧
      (∀ P : State → Prop, P s → (∀ u v q, P u → Step q u v → P v) → P t) := by
  intro k
  induction k with
  | zero =>
    intro s hs hk
    refine ⟨s, hs, fun p => ?_, fun P h _ => h⟩
    refine Classical.byContradiction fun hp => ?_
    obtain ⟨q, t, hst⟩ := hnd s hs ⟨p, hp⟩
    have hq : q < n := by
      refine Classical.byContradiction fun h => ?_
      have h1 := (Step.todo hst).1
      rw [reach_idle hs (hn q (by omega))] at h1
      simp at h1
    have := left_lt n q hq (Step.todo hst).1 (Step.todo hst).2
    omega
  | succ k ih =>
    intro s hs hk
    by_cases he : ∀ p, s.ended p
    · exact ⟨s, hs, he, fun P h _ => h⟩
    · have he : ∃ p, ¬ s.ended p := Classical.byContradiction fun h =>
        he fun p => Classical.byContradiction fun hp => h ⟨p, hp⟩
      obtain ⟨q, t, hst⟩ := hnd s hs he
      have hq : q < n := by
        refine Classical.byContradiction fun h => ?_
        have h1 := (Step.todo hst).1
        rw [reach_idle hs (hn q (by omega))] at h1
        simp at h1
      have h1 := left_lt n q hq (Step.todo hst).1 (Step.todo hst).2
      obtain ⟨u, h2, h3, h4⟩ := ih t (.step q hs hst) (by omega)
      exact ⟨u, h2, h3, fun P h hP => h4 P (hP _ _ _ h hst) hP⟩

end Verif.Locks
