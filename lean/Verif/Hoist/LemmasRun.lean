import Verif.Hoist.LemmasCount
/- Runs of the generated program give Python's results. -/
namespace Verif.Hoist

variable {V S : Type}

/-! ### Evaluation from left to right -/

mutual
/-- Evaluating a generated expression from left to right. -/
def ltr (I : Interp V S) (ρ : Nat → V) : Tgt → S → V × S
  | .lit n, s => (I.lit n, s)
  | .elem n, s => (I.elem n s, s)
  | .tmp k, s => (ρ k, s)
  | .call _ f as, s => I.call f (ltrArgs I ρ as s).1 (ltrArgs I ρ as s).2
  | .op arr o a b, s =>
    (if arr then I.opA o (ltr I ρ a s).1 (ltr I ρ b (ltr I ρ a s).2).1 (ltr I ρ b (ltr I ρ a s).2).2
      else I.opS o (ltr I ρ a s).1 (ltr I ρ b (ltr I ρ a s).2).1, (ltr I ρ b (ltr I ρ a s).2).2)
  | .root a, s => (I.root (ltr I ρ a s).1, (ltr I ρ a s).2)
/-- The same for arguments. -/
def ltrArgs (I : Interp V S) (ρ : Nat → V) : TArgs → S → List V × S
  | .nil, s => ([], s)
  | .cons a as, s =>
    ((ltr I ρ a s).1 :: (ltrArgs I ρ as (ltr I ρ a s).2).1, (ltrArgs I ρ as (ltr I ρ a s).2).2)
end

/-- The same for operands. -/
def ltrSlots (I : Interp V S) (ρ : Nat → V) : List (Slot V) → S → List V × S
  | [], s => ([], s)
  | .done v :: l, s => (v :: (ltrSlots I ρ l s).1, (ltrSlots I ρ l s).2)
  | .todo t :: l, s =>
    ((ltr I ρ t s).1 :: (ltrSlots I ρ l (ltr I ρ t s).2).1, (ltrSlots I ρ l (ltr I ρ t s).2).2)

theorem ltrSlots_done (I : Interp V S) (ρ : Nat → V) (vs : List V) (s : S) :
    ltrSlots I ρ (vs.map .done) s = (vs, s) := by
  induction vs with
  | nil => rfl
  | cons v vs ih => simp [ltrSlots, ih]

theorem ltrSlots_todo (I : Interp V S) (ρ : Nat → V) : ∀ (as : TArgs) (s : S),
    ltrSlots I ρ (as.toList.map .todo) s = ltrArgs I ρ as s
  | .nil, _ => rfl
  | .cons a as, s => by simp [TArgs.toList, ltrSlots, ltrArgs, ltrSlots_todo I ρ as]

/-! ### What an expression does to the state -/

mutual
/-- What a generated expression does to the state. -/
def Tgt.kind : Tgt → Kind
  | .lit _ => .none
  | .elem _ => .reads
  | .tmp _ => .none
  | .call _ _ _ => .calls
  | .op arr _ a b => (a.kind.max b.kind).max (if arr then .reads else .none)
  | .root a => a.kind
end

/-- What arguments do to the state. -/
def TArgs.kind : TArgs → Kind
  | .nil => .none
  | .cons a as => a.kind.max as.kind

theorem Kind.max_none {a b : Kind} : a.max b = .none ↔ a = .none ∧ b = .none := by
  cases a <;> cases b <;> simp [Kind.max]

theorem ltr_none (I : Interp V S) (ρ : Nat → V) : ∀ t : Tgt, t.kind = .none →
    ∃ v, ∀ s, ltr I ρ t s = (v, s)
  | .lit n, _ => ⟨I.lit n, fun _ => rfl⟩
  | .elem _, h => by simp [Tgt.kind] at h
  | .tmp k, _ => ⟨ρ k, fun _ => rfl⟩
  | .call _ _ _, h => by simp [Tgt.kind] at h
  | .op true o a b, h => by simp [Tgt.kind, Kind.max_none] at h
  | .op false o a b, h => by
    simp [Tgt.kind, Kind.max_none] at h
    obtain ⟨va, ha⟩ := ltr_none I ρ a h.1
    obtain ⟨vb, hb⟩ := ltr_none I ρ b h.2
    exact ⟨I.opS o va vb, fun s => by simp [ltr, ha, hb]⟩
  | .root a, h => by
    obtain ⟨va, ha⟩ := ltr_none I ρ a (by simpa [Tgt.kind] using h)
    exact ⟨I.root va, fun s => by simp [ltr, ha]⟩

theorem ltr_reads (I : Interp V S) (ρ : Nat → V) : ∀ (t : Tgt) (s : S), t.kind ≠ .calls →
    (ltr I ρ t s).2 = s
  | .lit n, _, _ => rfl
  | .elem _, _, _ => rfl
  | .tmp k, _, _ => rfl
  | .call _ _ _, _, h => by simp [Tgt.kind] at h
  | .op arr o a b, s, h => by
    simp only [Tgt.kind, Kind.max_ne_calls] at h
    simp [ltr, ltr_reads I ρ a s h.1.1, ltr_reads I ρ b s h.1.2]
  | .root a, s, h => by simpa [ltr] using ltr_reads I ρ a s (by simpa [Tgt.kind] using h)

/-! ### Operands which may be evaluated in any order -/

mutual
/-- The operands of every operator and the arguments of every call commute. -/
def Tgt.Solo : Tgt → Prop
  | .lit _ => True
  | .elem _ => True
  | .tmp _ => True
  | .call _ _ as => as.Solo
  | .op _ _ a b => a.Solo ∧ b.Solo ∧ a.kind.Commute b.kind
  | .root a => a.Solo
/-- The same for arguments. -/
def TArgs.Solo : TArgs → Prop
  | .nil => True
  | .cons a as => a.Solo ∧ as.Solo ∧ a.kind.Commute as.kind
end

/-- What an operand does to the state. -/
def Slot.kind : Slot V → Kind
  | .todo t => t.kind
  | .done _ => .none

/-- An operand whose own operands commute. -/
def Slot.Solo : Slot V → Prop
  | .todo t => t.Solo
  | .done _ => True

theorem Kind.commute_symm {k l : Kind} (h : k.Commute l) : l.Commute k := by
  cases k <;> cases l <;> simp_all [Kind.Commute]

theorem Kind.commute_max {k l m : Kind} : k.Commute (l.max m) ↔ k.Commute l ∧ k.Commute m := by
  cases k <;> cases l <;> cases m <;> simp [Kind.Commute, Kind.max]

theorem Kind.commute_none (k : Kind) : k.Commute .none := .inr (.inl rfl)

/-- An operand can be evaluated first if it commutes with those before it. -/
theorem ltrSlots_move (I : Interp V S) (ρ : Nat → V) (t : Tgt) (r : List (Slot V)) :
    ∀ (l : List (Slot V)) (s : S), (∀ x ∈ l, x.kind.Commute t.kind) →
    ltrSlots I ρ (l ++ .todo t :: r) s =
      ltrSlots I ρ (l ++ .done (ltr I ρ t s).1 :: r) (ltr I ρ t s).2
  | [], s, _ => by simp [ltrSlots]
  | .done v :: l, s, h => by
    have := ltrSlots_move I ρ t r l s (fun x hx => h x (by simp [hx]))
    simp [ltrSlots, this]
  | .todo u :: l, s, h => by
    have ih := fun s => ltrSlots_move I ρ t r l s (fun x hx => h x (by simp [hx]))
    have hu : u.kind.Commute t.kind := by simpa [Slot.kind] using h (.todo u) (by simp)
    simp only [List.cons_append, ltrSlots]
    rw [ih]
    rcases hu with hu | ht | ⟨hu, ht⟩
    · obtain ⟨v, hv⟩ := ltr_none I ρ u hu
      simp [hv]
    · obtain ⟨v, hv⟩ := ltr_none I ρ t ht
      simp [hv]
    · simp [ltr_reads I ρ u _ hu, ltr_reads I ρ t _ ht]

theorem pairwise_todo : ∀ as : TArgs, as.Solo →
    (as.toList.map (Slot.todo (V := V))).Pairwise (fun a b => a.kind.Commute b.kind) ∧
    (∀ x ∈ as.toList.map (Slot.todo (V := V)), x.Solo) ∧
    ∀ k : Kind, k.Commute as.kind → ∀ x ∈ as.toList.map (Slot.todo (V := V)), k.Commute x.kind
  | .nil, _ => by simp [TArgs.toList]
  | .cons a as, h => by
    simp only [TArgs.Solo] at h
    obtain ⟨h1, h2, h3⟩ := pairwise_todo as h.2.1
    refine ⟨?_, ?_, ?_⟩
    · simp only [TArgs.toList, List.map_cons, List.pairwise_cons]
      exact ⟨fun x hx => h3 _ h.2.2 x hx, h1⟩
    · intro x hx
      simp only [TArgs.toList, List.map_cons, List.mem_cons] at hx
      rcases hx with rfl | hx
      · exact h.1
      · exact h2 x hx
    · intro k hk x hx
      simp only [TArgs.kind, Kind.commute_max] at hk
      simp only [TArgs.toList, List.map_cons, List.mem_cons] at hx
      rcases hx with rfl | hx
      · exact hk.1
      · exact h3 k hk.2 x hx

theorem run_ltr (I : Interp V S) (ρ : Nat → V) {t s v s'} (h : Run I ρ t s v s') :
    t.Solo → (v, s') = ltr I ρ t s := by
  refine Run.rec (I := I) (ρ := ρ)
    (motive_1 := fun t s v s' _ => t.Solo → (v, s') = ltr I ρ t s)
    (motive_2 := fun l s vs s' _ => l.Pairwise (fun a b => a.kind.Commute b.kind) →
      (∀ x ∈ l, x.Solo) → (vs, s') = ltrSlots I ρ l s)
    ?_ ?_ ?_ ?_ ?_ ?_ ?_ ?_ h
  · intros; rfl
  · intros; rfl
  · intros; rfl
  · intro arr f as s vs s1 _ ih hs
    obtain ⟨h1, h2, _⟩ := pairwise_todo (V := V) as hs
    have := ih h1 h2
    rw [ltrSlots_todo] at this
    simp [ltr, ← this]
  · intro arr o a b s va vb s1 _ ih hs
    simp only [Tgt.Solo] at hs
    have := ih (by simp [Slot.kind, hs.2.2]) (by
      intro x hx
      simp at hx
      rcases hx with rfl | rfl
      · exact hs.1
      · exact hs.2.1)
    simp only [ltrSlots, Prod.mk.injEq, List.cons.injEq, and_true] at this
    obtain ⟨⟨rfl, rfl⟩, rfl⟩ := this
    simp [ltr]
  · intro a s v s1 _ ih hs
    have := ih hs
    simp [ltr, ← this]
  · intro vs s _ _; rw [ltrSlots_done]
  · intro l t r s v s1 vs s' _ _ ih1 ih2 hp hs
    have ht : t.Solo := hs (.todo t) (by simp)
    have e1 := ih1 ht
    rw [List.pairwise_append] at hp
    obtain ⟨p1, p2, p3⟩ := hp
    rw [List.pairwise_cons] at p2
    rw [ltrSlots_move I ρ t r l s (fun x hx => p3 x hx (.todo t) (by simp)), ← e1]
    refine ih2 ?_ ?_
    · rw [List.pairwise_append, List.pairwise_cons]
      refine ⟨p1, ⟨fun x _ => .inl rfl, p2.2⟩, ?_⟩
      intro x hx y hy
      rcases List.mem_cons.1 hy with rfl | hy
      · exact Kind.commute_none _
      · exact p3 x hx y (by simp [hy])
    · intro x hx
      rcases List.mem_append.1 hx with hx | hx
      · exact hs x (by simp [hx])
      · rcases List.mem_cons.1 hx with rfl | hx
        · trivial
        · exact hs x (by simp [hx])

/-! ### Every generated statement can be run -/

mutual
theorem run_exists (I : Interp V S) (ρ : Nat → V) : ∀ (t : Tgt) (s : S),
    Run I ρ t s (ltr I ρ t s).1 (ltr I ρ t s).2
  | .lit n, s => .lit n s
  | .elem n, s => .elem n s
  | .tmp k, s => .tmp k s
  | .call arr f as, s => .call arr f as s _ _ (runAll_exists I ρ as s [])
  | .op arr o a b, s => by
    refine .op arr o a b s _ _ _ ?_
    exact .step [] a [.todo b] s _ _ _ _ (run_exists I ρ a s)
      (.step [.done _] b [] _ _ _ _ _ (run_exists I ρ b _) (.finish [_, _] _))
  | .root a, s => .root a s _ _ (run_exists I ρ a s)
theorem runAll_exists (I : Interp V S) (ρ : Nat → V) : ∀ (as : TArgs) (s : S) (us : List V),
    RunAll I ρ (us.map .done ++ as.toList.map .todo) s (us ++ (ltrArgs I ρ as s).1)
      (ltrArgs I ρ as s).2
  | .nil, s, us => by
    simpa [TArgs.toList, ltrArgs] using RunAll.finish (I := I) (ρ := ρ) us s
  | .cons a as, s, us => by
    refine .step (us.map .done) a _ s _ _ _ _ (run_exists I ρ a s) ?_
    have := runAll_exists I ρ as (ltr I ρ a s).2 (us ++ [(ltr I ρ a s).1])
    simpa [ltrArgs] using this
end

/-- Running statements, each from left to right. -/
def exec (I : Interp V S) : List (Nat × Tgt) → (Nat → V) × S → (Nat → V) × S
  | [], p => p
  | (k, t) :: c, p => exec I c (upd p.1 k (ltr I p.1 t p.2).1, (ltr I p.1 t p.2).2)

theorem exec_append (I : Interp V S) : ∀ (c d : List (Nat × Tgt)) (p : (Nat → V) × S),
    exec I (c ++ d) p = exec I d (exec I c p)
  | [], _, _ => rfl
  | (k, t) :: c, d, p => by simp [exec, exec_append I c d]

theorem runCode_exec (I : Interp V S) {c ρ s ρ' s'} (h : RunCode I c ρ s ρ' s') :
    (∀ p ∈ c, p.2.Solo) → (ρ', s') = exec I c (ρ, s) := by
  induction h with
  | nil => intro _; rfl
  | cons k t c ρ s v s1 ρ' s' h1 _ ih =>
    intro hs
    have e := run_ltr I ρ h1 (hs (k, t) (by simp))
    simp only [exec, ← e]
    exact ih (fun p hp => hs p (by simp [hp]))

theorem runCode_exists (I : Interp V S) : ∀ (c : List (Nat × Tgt)) (ρ : Nat → V) (s : S),
    ∃ ρ' s', RunCode I c ρ s ρ' s'
  | [], ρ, s => ⟨ρ, s, .nil ρ s⟩
  | (k, t) :: c, ρ, s => by
    obtain ⟨ρ', s', h⟩ := runCode_exists I c (upd ρ k (ltr I ρ t s).1) (ltr I ρ t s).2
    exact ⟨ρ', s', .cons k t c ρ s _ _ ρ' s' (run_exists I ρ t s) h⟩

theorem runs_exist (I : Interp V S) (r : Out Tgt) (ρ : Nat → V) (s : S) :
    ∃ v s', Runs I r ρ s v s' := by
  obtain ⟨ρ', s', h⟩ := runCode_exists I r.code ρ s
  exact ⟨_, _, ρ', s', h, run_exists I ρ' r.val s'⟩

/-! ### Temporaries -/

mutual
/-- All temporaries used are below `n`. -/
def Tgt.under (n : Nat) : Tgt → Prop
  | .lit _ => True
  | .elem _ => True
  | .tmp k => k < n
  | .call _ _ as => as.under n
  | .op _ _ a b => a.under n ∧ b.under n
  | .root a => a.under n
/-- The same for arguments. -/
def TArgs.under (n : Nat) : TArgs → Prop
  | .nil => True
  | .cons a as => a.under n ∧ as.under n
end

mutual
theorem below_mono {m n : Nat} (h : m ≤ n) : ∀ t : Tgt, t.under m → t.under n
  | .lit _, _ => trivial
  | .elem _, _ => trivial
  | .tmp k, hk => by simp only [Tgt.under] at hk ⊢; omega
  | .call _ _ as, ht => by
    simp only [Tgt.under] at ht ⊢; exact belowArgs_mono h as ht
  | .op _ _ a b, ht => ⟨below_mono h a ht.1, below_mono h b ht.2⟩
  | .root a, ht => by simp only [Tgt.under] at ht ⊢; exact below_mono h a ht
theorem belowArgs_mono {m n : Nat} (h : m ≤ n) : ∀ t : TArgs, t.under m → t.under n
  | .nil, _ => trivial
  | .cons a as, ht => ⟨below_mono h a ht.1, belowArgs_mono h as ht.2⟩
end

mutual
theorem ltr_below (I : Interp V S) {ρ ρ' : Nat → V} {n : Nat} (h : ∀ i < n, ρ' i = ρ i) :
    ∀ (t : Tgt) (s : S), t.under n → ltr I ρ' t s = ltr I ρ t s
  | .lit _, _, _ => rfl
  | .elem _, _, _ => rfl
  | .tmp k, s, hk => by simp only [ltr]; rw [h k hk]
  | .call _ _ as, s, ht => by
    simp only [ltr]; rw [ltrArgs_below I h as s (by simpa [Tgt.under] using ht)]
  | .op _ _ a b, s, ht => by
    simp only [ltr]; rw [ltr_below I h a s ht.1, ltr_below I h b _ ht.2]
  | .root a, s, ht => by
    simp only [ltr]; rw [ltr_below I h a s (by simpa [Tgt.under] using ht)]
theorem ltrArgs_below (I : Interp V S) {ρ ρ' : Nat → V} {n : Nat} (h : ∀ i < n, ρ' i = ρ i) :
    ∀ (t : TArgs) (s : S), t.under n → ltrArgs I ρ' t s = ltrArgs I ρ t s
  | .nil, _, _ => rfl
  | .cons a as, s, ht => by
    simp only [ltrArgs]; rw [ltr_below I h a s ht.1, ltrArgs_below I h as _ ht.2]
end

/-- Statements write temporaries from `k` on, only. -/
def From (k : Nat) (c : List (Nat × Tgt)) : Prop := ∀ p ∈ c, k ≤ p.1

theorem From.mono {j k : Nat} {c} (h : From k c) (hj : j ≤ k) : From j c :=
  fun p hp => Nat.le_trans hj (h p hp)

theorem From.append {k : Nat} {c d} (hc : From k c) (hd : From k d) : From k (c ++ d) := by
  intro p hp
  rcases List.mem_append.1 hp with h | h
  · exact hc p h
  · exact hd p h

theorem From.single {k n : Nat} {t} (h : k ≤ n) : From k [(n, t)] := by
  intro p hp; simp at hp; subst hp; exact h

theorem From.nil {k : Nat} : From k [] := by intro p hp; simp at hp

theorem exec_from (I : Interp V S) {k : Nat} : ∀ (c : List (Nat × Tgt)) (p : (Nat → V) × S),
    From k c → ∀ i < k, (exec I c p).1 i = p.1 i
  | [], _, _, _, _ => rfl
  | (n, t) :: c, p, h, i, hi => by
    simp only [exec]
    rw [exec_from I c _ (fun q hq => h q (by simp [hq])) i hi]
    have : k ≤ n := h (n, t) (by simp)
    simp only [upd]
    rw [if_neg (by omega)]

/-- Statements which call nothing leave the state alone. -/
theorem exec_reads (I : Interp V S) : ∀ (c : List (Nat × Tgt)) (p : (Nat → V) × S),
    (∀ q ∈ c, q.2.kind ≠ .calls) → (exec I c p).2 = p.2
  | [], _, _ => rfl
  | (n, t) :: c, p, h => by
    simp only [exec]
    rw [exec_reads I c _ (fun q hq => h q (by simp [hq]))]
    exact ltr_reads I _ t _ (h (n, t) (by simp))

theorem runCode_ltr (I : Interp V S) : ∀ (c : List (Nat × Tgt)) (p : (Nat → V) × S),
    RunCode I c p.1 p.2 (exec I c p).1 (exec I c p).2
  | [], p => .nil p.1 p.2
  | (k, t) :: c, p =>
    .cons k t c p.1 p.2 _ _ _ _ (run_exists I p.1 t p.2) (runCode_ltr I c (upd p.1 k _, _))

/-- The run in which all operands are evaluated from left to right. -/
theorem runs_ltr (I : Interp V S) (r : Out Tgt) (ρ : Nat → V) (s : S) :
    Runs I r ρ s (ltr I (exec I r.code (ρ, s)).1 r.val (exec I r.code (ρ, s)).2).1
      (ltr I (exec I r.code (ρ, s)).1 r.val (exec I r.code (ρ, s)).2).2 :=
  ⟨_, _, runCode_ltr I r.code (ρ, s), run_exists I _ _ _⟩

end Verif.Hoist
