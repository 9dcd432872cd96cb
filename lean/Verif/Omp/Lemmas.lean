import Verif.Omp.Model

namespace Verif.Omp
open Spec Model

variable {κ : Type}

/-! ## Loops -/

theorem runAll_append (l l' : List (Mem κ → Mem κ)) (m : Mem κ) :
    runAll (l ++ l') m = runAll l' (runAll l m) := by simp [runAll]

theorem runAll_local (own : κ → Option Nat) (i : Nat) (l : List (Mem κ → Mem κ))
    (h : ∀ f ∈ l, Local own i f) : Local own i (runAll l) := by
  induction l with
  | nil => exact ⟨fun _ _ _ => rfl, fun m m' hm k hk => hm k (.inl hk)⟩
  | cons f l ih =>
    have ih := ih fun g hg => h g (by simp [hg])
    have hf := h f (by simp)
    constructor
    · intro m k hk
      have := ih.1 (f m) k hk
      rw [show runAll (f :: l) m = runAll l (f m) from rfl, this, hf.1 m k hk]
    · intro m m' hm k hk
      rw [show runAll (f :: l) m = runAll l (f m) from rfl, show runAll (f :: l) m' = runAll l (f m') from rfl]
      refine ih.2 _ _ ?_ k hk
      intro k' hk'
      rcases hk' with hk' | hk'
      · exact hf.2 m m' hm k' hk'
      · rw [hf.1 m k' (by simp [hk']), hf.1 m' k' (by simp [hk']), hm k' (.inr hk')]

theorem python_cells (own : κ → Option Nat) (body : Nat → List (Stmt κ)) (h : Independent own body)
    (n : Nat) (m : Mem κ) (k : κ) :
    python body n m k =
      match own k with
      | some i => if i < n then runAll (stores (body i)) m k else m k
      | none => m k := by
  induction n generalizing k with
  | zero => cases own k <;> simp [python]
  | succ n ih =>
    have hl := runAll_local own n _ (h n)
    rw [python]
    cases hk : own k with
    | none =>
      rw [hl.1 _ k (by simp [hk]), ih k, hk]
    | some i =>
      by_cases hi : i = n
      · subst hi
        simp only [Nat.lt_succ_self, if_true]
        refine hl.2 _ _ ?_ k hk
        intro k' hk'
        rw [ih k']
        rcases hk' with hk' | hk' <;> simp [hk']
      · rw [hl.1 _ k (by simp [hk, hi]), ih k, hk]
        simp only
        by_cases h1 : i < n
        · rw [if_pos h1, if_pos (by omega)]
        · rw [if_neg h1, if_neg (by omega)]

/-- The invariant of a schedule. -/
structure Inv (own : κ → Option Nat) (P : Nat → List (Mem κ → Mem κ)) (m0 : Mem κ) (s : FState κ) : Prop where
  loc : ∀ i, ∀ f ∈ s.todo i, Local own i f
  cells : ∀ k i, own k = some i → runAll (s.todo i) s.mem k = runAll (P i) m0 k
  rest : ∀ k, own k = none → s.mem k = m0 k

theorem inv_step (own : κ → Option Nat) (P : Nat → List (Mem κ → Mem κ)) (m0 : Mem κ) (s : FState κ)
    (h : Inv own P m0 s) (i : Nat) : Inv own P m0 (fStep i s) := by
  unfold fStep
  split
  · exact h
  · rename_i f r hi
    have hf : Local own i f := h.loc i f (by simp [hi])
    constructor
    · intro x g hg
      simp only at hg
      split at hg
      · rename_i hx; subst hx; exact h.loc x g (by simp [hi, hg])
      · exact h.loc x g hg
    · intro k x hk
      simp only
      split
      · rename_i hx
        subst hx
        rw [← h.cells k x hk, hi]
        rfl
      · rename_i hx
        rw [← h.cells k x hk]
        refine (runAll_local own x _ (h.loc x)).2 _ _ ?_ k hk
        intro k' hk'
        refine hf.1 _ _ ?_
        rcases hk' with hk' | hk' <;> simp [hk', hx]
    · intro k hk
      rw [← h.rest k hk]
      exact hf.1 _ _ (by simp [hk])

theorem inv_run (own : κ → Option Nat) (P : Nat → List (Mem κ → Mem κ)) (m0 : Mem κ) (sched : List Nat)
    (s : FState κ) (h : Inv own P m0 s) : Inv own P m0 (sched.foldl (fun s i => fStep i s) s) := by
  induction sched generalizing s with
  | nil => exact h
  | cons i r ih => exact ih _ (inv_step own P m0 s h i)

theorem fRun_eq (own : κ → Option Nat) (body : Nat → List (Stmt κ)) (h : Independent own body) (n : Nat)
    (m : Mem κ) (sched : List Nat) (hd : ∀ i, (fRun body n m sched).todo i = []) :
    (fRun body n m sched).mem = python body n m := by
  have hi : Inv own (fun i => if i < n then stores (body i) else []) m (fRun body n m sched) := by
    refine inv_run _ _ _ _ _ ⟨?_, fun k i _ => rfl, fun k _ => rfl⟩
    intro i f hf
    simp only at hf
    split at hf
    · exact h i f hf
    · cases hf
  funext k
  rw [python_cells own body h]
  cases hk : own k with
  | none => exact hi.rest k hk
  | some i =>
    have := hi.cells k i hk
    rw [hd i] at this
    simp only [runAll, List.foldl_nil] at this
    rw [this]
    show _ = if i < n then runAll (stores (body i)) m k else m k
    split <;> rfl

/-- A body without vector statements. -/
def Plain (b : List (Stmt κ)) : Prop := ∀ s ∈ b, ∃ f, s = .store f

/-- The states of C and Fortran correspond. -/
def Rel (s : State κ) (t : FState κ) : Prop :=
  s.mem = t.mem ∧ ∀ i, s.todo i = (t.todo i).map .store

theorem rel_step (s : State κ) (t : FState κ) (h : Rel s t) (i : Nat) : Rel (cStep i s) (fStep i t) := by
  have hi := h.2 i
  unfold fStep
  cases ht : t.todo i with
  | nil =>
    rw [ht] at hi
    simp only [List.map_nil] at hi
    simp only [cStep, hi]
    exact h
  | cons f r =>
    rw [ht] at hi
    simp only [List.map_cons] at hi
    simp only [cStep, hi]
    refine ⟨by simp [h.1], fun x => ?_⟩
    simp only
    split
    · rfl
    · exact h.2 x

theorem rel_run (sched : List Nat) (s : State κ) (t : FState κ) (h : Rel s t) :
    Rel (sched.foldl (fun s i => cStep i s) s) (sched.foldl (fun s i => fStep i s) t) := by
  induction sched generalizing s t with
  | nil => exact h
  | cons i r ih => exact ih _ _ (rel_step s t h i)

theorem plain_map (b : List (Stmt κ)) (h : Plain b) : b.map cWork = (stores b).map .store := by
  induction b with
  | nil => rfl
  | cons s b ih =>
    obtain ⟨f, rfl⟩ := h s (by simp)
    have := ih fun s hs => h s (by simp [hs])
    simp only [stores] at this
    simp [stores, Stmt.stores, cWork, this]

theorem cRun_rel (body : Nat → List (Stmt κ)) (h : ∀ i, Plain (body i)) (n : Nat) (m : Mem κ)
    (sched : List Nat) : Rel (cRun body n m sched) (fRun body n m sched) := by
  refine rel_run _ _ _ ⟨rfl, fun i => ?_⟩
  simp only
  split
  · exact plain_map _ (h i)
  · rfl

/-! ## Barriers -/

/-- The constructs of kind `k` are marked. -/
def marked (ks : List Kind) : List Region → List Node
  | [] => []
  | (k, b) :: r => .opens k b :: .closes k (b || ks.contains k) :: marked (if b then k :: ks else ks) r

/-- A block of which the closing annotations of the kinds `ks` are marked already. -/
def pre (ks : List Kind) (rs : List Region) : List Node :=
  rs.flatMap fun r => [.opens r.1 r.2, .closes r.1 (ks.contains r.1)]

theorem mark_pre (k : Kind) (ks : List Kind) (rs : List Region) :
    mark k (pre ks rs) = pre (k :: ks) rs := by
  induction rs with
  | nil => rfl
  | cons r rs ih =>
    simp only [pre, List.flatMap_cons, List.cons_append, List.nil_append, mark] at ih ⊢
    rw [ih]
    rw [List.contains_cons, Bool.or_comm]

theorem visit_pre (ks : List Kind) (rs : List Region) (n : Nat) (hn : 2 * rs.length ≤ n) :
    visit (pre ks rs) n = marked ks rs := by
  induction rs generalizing ks n with
  | nil => cases n <;> rfl
  | cons r rs ih =>
    obtain ⟨k, b⟩ := r
    obtain ⟨n, rfl⟩ : ∃ n', n = n' + 2 := ⟨n - 2, by simp at hn; omega⟩
    simp only [List.length_cons] at hn
    have e : pre ks ((k, b) :: rs) = .opens k b :: .closes k (ks.contains k) :: pre ks rs := rfl
    rw [e, marked, visit]
    cases b with
    | false =>
      simp only [Bool.false_eq_true, if_false, Bool.false_or]
      rw [visit, ih ks n (by omega)]
    | true =>
      simp only [if_true, Bool.true_or]
      rw [mark, mark_pre, visit, ih (k :: ks) n (by omega)]
      simp

theorem block_pre (rs : List Region) : block rs = pre [] rs := by simp [block, pre]

theorem block_length (rs : List Region) : (block rs).length = 2 * rs.length := by
  induction rs with
  | nil => rfl
  | cons r rs ih => simp only [block, List.flatMap_cons, List.length_append] at ih ⊢; simp at ih ⊢; omega

/-- The barriers of a marked block. -/
def bars (ks : List Kind) : List Region → List Bool
  | [] => []
  | (k, b) :: r => (!(b || ks.contains k)) :: bars (if b then k :: ks else ks) r

theorem fBarriers_eq (rs : List Region) : fBarriers rs = bars [] rs := by
  unfold fBarriers
  rw [block_length, block_pre, visit_pre [] rs _ (Nat.le_refl _)]
  have : ∀ ks, (marked ks rs).filterMap (fun x => match x with
      | .closes _ b => some !b
      | .opens _ _ => none) = bars ks rs := by
    induction rs with
    | nil => intro ks; rfl
    | cons r rs ih =>
      intro ks
      obtain ⟨k, b⟩ := r
      simp only [marked, bars, List.filterMap_cons, ih]
  exact this []

theorem bars_iff (ks : List Kind) (rs : List Region) : bars ks rs = barriers rs ↔
    (∀ r ∈ rs, r.2 = false → ¬ r.1 ∈ ks) ∧
      rs.Pairwise (fun p q => p.1 = q.1 → p.2 = true → q.2 = true) := by
  induction rs generalizing ks with
  | nil => simp [bars, barriers]
  | cons r rs ih =>
    obtain ⟨k, b⟩ := r
    have ih' := ih (if b then k :: ks else ks)
    simp only [barriers] at ih'
    simp only [bars, barriers, List.map_cons, List.cons.injEq, ih', List.mem_cons, List.pairwise_cons]
    cases b with
    | true =>
      simp
      grind
    | false =>
      simp
      grind

theorem cBarriers_eq (rs : List Region) : cBarriers rs = barriers rs := by
  induction rs with
  | nil => rfl
  | cons r rs ih =>
    show (!r.2) :: cBarriers rs = _
    rw [ih]
    rfl

/-! ## Blocks -/

theorem braces (c : Word × List Word) (h : c ∈ constructs) (hm : ¬ (c.1 = .masked ∧ .taskloop ∈ c.2)) :
    opensBrace c = !isLoop c ∧ closesBrace c = !isLoop c := by
  have key : ∀ c ∈ constructs, (c.1 = .masked ∧ Word.taskloop ∈ c.2) ∨
      (opensBrace c = !isLoop c ∧ closesBrace c = !isLoop c) := by decide
  exact (key c h).resolve_left hm

theorem isIn_iff (c s : List Char) : isIn c s = true ↔ c <:+: s := by
  induction s with
  | nil => simp [isIn]
  | cons a r ih => simp [isIn, ih, List.infix_cons_iff, -List.isPrefixOf_cons₂]

theorem closesCritical_iff (name : List Char) :
    closesCritical name = true ↔ ∀ w ∈ loopWords, ¬ w <:+: name := by
  simp only [closesCritical, loopWords, Bool.not_eq_true', List.any_eq_false, isIn_iff]

mutual
theorem print_right : ∀ i : Item, wellFormed (fun c => ¬ (c.1 = .masked ∧ .taskloop ∈ c.2))
    (fun name => ∀ w ∈ loopWords, ¬ w <:+: name) i → print i = right i
  | .stmt n, _ => rfl
  | .loop c n, h => by
    have := braces c h.1 h.2.2
    simp [print, right, this, h.2.1]
  | .region c b, h => by
    have h1 := braces c h.1 h.2.2.1
    have h2 := printAll_right b h.2.2.2
    simp [print, right, h1, h2, h.2.1]
  | .critical name b, h => by
    have h1 := (closesCritical_iff name).2 h.1
    have h2 := printAll_right b h.2
    simp [print, right, h1, h2]

theorem printAll_right : ∀ l : List Item, wellFormedAll (fun c => ¬ (c.1 = .masked ∧ .taskloop ∈ c.2))
    (fun name => ∀ w ∈ loopWords, ¬ w <:+: name) l → printAll l = rightAll l
  | [], _ => rfl
  | i :: r, h => by rw [printAll, rightAll, print_right i h.1, printAll_right r h.2]
end

end Verif.Omp
