import Verif.Hoist.Model
/- How often each function is called. -/
namespace Verif.Hoist

mutual
/-- Calls of `f` in an expression. -/
def Src.times (f : Nat) : Src → Nat
  | .lit _ => 0
  | .elem _ => 0
  | .call _ g as => as.times f + if g = f then 1 else 0
  | .op _ _ a b => a.times f + b.times f
  | .root a => a.times f
/-- Calls of `f` in arguments. -/
def Args.times (f : Nat) : Args → Nat
  | .nil => 0
  | .cons a as => a.times f + as.times f
end

mutual
/-- Calls of `f` in a generated expression. -/
def Tgt.times (f : Nat) : Tgt → Nat
  | .lit _ => 0
  | .elem _ => 0
  | .tmp _ => 0
  | .call _ g as => as.times f + if g = f then 1 else 0
  | .op _ _ a b => a.times f + b.times f
  | .root a => a.times f
/-- Calls of `f` in generated arguments. -/
def TArgs.times (f : Nat) : TArgs → Nat
  | .nil => 0
  | .cons a as => a.times f + as.times f
end

/-- Calls of `f` in statements. -/
def codeT (f : Nat) : List (Nat × Tgt) → Nat
  | [] => 0
  | (_, t) :: c => t.times f + codeT f c

theorem codeT_append (f : Nat) (c d : List (Nat × Tgt)) : codeT f (c ++ d) = codeT f c + codeT f d := by
  induction c with
  | nil => simp [codeT]
  | cons p c ih => obtain ⟨k, t⟩ := p; simp [codeT, ih]; omega

/-- Calls of `f` in operands still to be evaluated. -/
def slotsT (f : Nat) {V : Type} : List (Slot V) → Nat
  | [] => 0
  | .todo t :: l => t.times f + slotsT f l
  | .done _ :: l => slotsT f l

theorem slotsT_append (f : Nat) {V : Type} (c d : List (Slot V)) :
    slotsT f (c ++ d) = slotsT f c + slotsT f d := by
  induction c with
  | nil => simp [slotsT]
  | cons p c ih => cases p <;> simp [slotsT, ih]; omega

theorem slotsT_done (f : Nat) {V : Type} (vs : List V) : slotsT f (vs.map Slot.done) = 0 := by
  induction vs with
  | nil => rfl
  | cons v vs ih => simp [slotsT, ih]

theorem slotsT_todo (f : Nat) {V : Type} : ∀ as : TArgs,
    slotsT f (as.toList.map (Slot.todo (V := V))) = as.times f
  | .nil => rfl
  | .cons a as => by simp [TArgs.toList, slotsT, TArgs.times, slotsT_todo f as]

theorem run_count {V S : Type} (I : Interp V S) (ρ : Nat → V) (f : Nat) {t s v s'}
    (h : Run I.logged ρ t s v s') : s'.2.count f = s.2.count f + t.times f := by
  refine Run.rec (I := I.logged) (ρ := ρ)
    (motive_1 := fun t s _ s' _ => s'.2.count f = s.2.count f + t.times f)
    (motive_2 := fun l s _ s' _ => s'.2.count f = s.2.count f + slotsT f l)
    ?_ ?_ ?_ ?_ ?_ ?_ ?_ ?_ h
  · intros; simp [Tgt.times]
  · intros; simp [Tgt.times]
  · intros; simp [Tgt.times]
  · intro arr g as s vs s1 _ ih
    rw [slotsT_todo] at ih
    simp [Tgt.times, Interp.logged, List.count_append, ih, List.count_singleton]; omega
  · intro arr o a b s va vb s1 _ ih
    simp [slotsT] at ih
    simp [Tgt.times, ih]
  · intro a s v s1 _ ih
    simpa [Tgt.times] using ih
  · intro vs s; rw [slotsT_done]; rfl
  · intro l t r s v s1 vs s' _ _ ih1 ih2
    rw [slotsT_append] at ih2 ⊢
    simp only [slotsT] at ih2 ⊢
    omega

theorem runCode_count {V S : Type} (I : Interp V S) (f : Nat) {c ρ s ρ' s'}
    (h : RunCode I.logged c ρ s ρ' s') : s'.2.count f = s.2.count f + codeT f c := by
  induction h with
  | nil => simp [codeT]
  | cons k t c ρ s v s1 ρ' s' h1 _ ih => have := run_count I ρ f h1; simp only [codeT]; omega

mutual
theorem py_count {V S : Type} (I : Interp V S) (f : Nat) : ∀ (e : Src) (s : S × List Nat),
    (py I.logged e s).2.2.count f = s.2.count f + e.times f
  | .lit _, _ => by simp [py, Src.times]
  | .elem _, _ => by simp [py, Src.times]
  | .call _ g as, s => by
    have := pyArgs_count I f as s
    simp [py, Src.times, Interp.logged, List.count_append, List.count_singleton] at this ⊢
    rw [this]; omega
  | .op _ _ a b, s => by
    simp only [py, Src.times]
    rw [py_count I f b, py_count I f a]; omega
  | .root a, s => by simp only [py, Src.times]; exact py_count I f a s
theorem pyArgs_count {V S : Type} (I : Interp V S) (f : Nat) : ∀ (e : Args) (s : S × List Nat),
    (pyArgs I.logged e s).2.2.count f = s.2.count f + e.times f
  | .nil, _ => by simp [pyArgs, Args.times]
  | .cons a as, s => by
    simp only [pyArgs, Args.times]
    rw [pyArgs_count I f as, py_count I f a]; omega
end

theorem Kind.max_ne_calls {a b : Kind} : a.max b ≠ .calls ↔ a ≠ .calls ∧ b ≠ .calls := by
  cases a <;> cases b <;> simp [Kind.max]

theorem Kind.max_calls {a b : Kind} : a.max b = .calls ↔ a = .calls ∨ b = .calls := by
  cases a <;> cases b <;> simp [Kind.max]

theorem Args.moved_cons (a : Src) (as : Args) :
    (Args.cons a as).moved = a.movedArg.max as.moved := by simp [Args.moved, Src.movedArg]

theorem Src.moved_root (a : Src) : (Src.root a).moved = a.movedArg := by
  simp [Src.moved, Src.movedArg]

mutual
theorem times_hasCall (f : Nat) : ∀ a : Src, a.hasCall = false → a.times f = 0
  | .lit _, _ => rfl
  | .elem _, _ => rfl
  | .call _ _ _, h => by simp [Src.hasCall] at h
  | .op _ _ a b, h => by
    simp [Src.hasCall] at h
    simp [Src.times, times_hasCall f a h.1, times_hasCall f b h.2]
  | .root a, h => by simp [Src.hasCall] at h; simp [Src.times, times_hasCall f a h]
end

theorem hasCall_times : ∀ a : Src, a.hasCall = true → ∃ f, a.times f ≠ 0
  | .lit _, h => by simp [Src.hasCall] at h
  | .elem _, h => by simp [Src.hasCall] at h
  | .call _ g _, _ => ⟨g, by simp [Src.times]⟩
  | .op _ _ a b, h => by
    simp [Src.hasCall] at h
    rcases h with h | h
    · obtain ⟨f, hf⟩ := hasCall_times a h; exact ⟨f, by simp [Src.times]; omega⟩
    · obtain ⟨f, hf⟩ := hasCall_times b h; exact ⟨f, by simp [Src.times]; omega⟩
  | .root a, h => by simpa [Src.hasCall, Src.times] using hasCall_times a (by simpa [Src.hasCall] using h)

theorem movedArg_quiet {a : Src} (h : a.movedArg ≠ .calls) : a.isOp = true → a.hasCall = false := by
  intro ho
  cases hc : a.hasCall with
  | false => rfl
  | true => simp [Src.movedArg, ho, hc] at h

mutual
theorem moved_hasCall : ∀ a : Src, a.hasCall = false → a.moved ≠ .calls
  | .lit _, _ => by simp [Src.moved]
  | .elem _, _ => by simp [Src.moved]
  | .call _ _ _, h => by simp [Src.hasCall] at h
  | .op _ _ a b, h => by
    simp [Src.hasCall] at h
    rw [Src.moved, Kind.max_ne_calls]; exact ⟨moved_hasCall a h.1, moved_hasCall b h.2⟩
  | .root a, h => by
    simp [Src.hasCall] at h
    rw [Src.moved_root, Src.movedArg]
    split
    · simp [h]
    · exact moved_hasCall a h
end

theorem moved_of_movedArg {a : Src} (h : a.movedArg ≠ .calls) : a.moved ≠ .calls := by
  cases ho : a.isOp with
  | false => simpa [Src.movedArg, ho] using h
  | true => exact moved_hasCall a (movedArg_quiet h ho)

/-- All calls of `f` in what a visit returns. -/
def tot (f : Nat) (r : Out Tgt) : Nat := codeT f r.code + r.val.times f
/-- The same for arguments. -/
def totA (f : Nat) (r : Out TArgs) : Nat := codeT f r.code + r.val.times f

theorem tot_asArg (f : Nat) (o : Bool) (v1 v2 : Nat → Out Tgt) (k : Nat) :
    tot f (asArg o v1 v2 k) =
      if o then codeT f (v1 k).code + tot f (v2 (v1 k).next) else tot f (v1 k) := by
  cases o <;> simp [asArg, tot, codeT_append, codeT, Tgt.times]

theorem codeT_asArg (f : Nat) (o : Bool) (v1 v2 : Nat → Out Tgt) (k : Nat) :
    codeT f (asArg o v1 v2 k).code =
      if o then codeT f (v1 k).code + tot f (v2 (v1 k).next) else codeT f (v1 k).code := by
  cases o <;> simp [asArg, tot, codeT_append, codeT]

theorem val_asArg (f : Nat) (o : Bool) (v1 v2 : Nat → Out Tgt) (k : Nat) :
    (asArg o v1 v2 k).val.times f = if o then 0 else (v1 k).val.times f := by
  cases o <;> simp [asArg, Tgt.times]

mutual
theorem again_le (f : Nat) : ∀ (e : Src) (k : Nat), e.times f ≤ tot f (again e k)
  | .lit _, _ => by simp [Src.times]
  | .elem _, _ => by simp [Src.times]
  | .call arr g as, k => by
    have := againArgs_le f as k
    simp only [again, tot, totA, Src.times, Tgt.times] at this ⊢; omega
  | .op arr o a b, k => by
    have h1 := again_le f a k
    have h2 := again_le f b (again a k).next
    simp only [again, tot, Src.times, Tgt.times, codeT_append] at h1 h2 ⊢; omega
  | .root a, k => by
    have h1 := again_le f a (again a k).next
    have h2 := again_le f a (again a (again a k).next).next
    have h3 := tot_asArg f a.isOp (again a) (again a) (again a k).next
    simp only [again, Src.times]
    rw [tot] at h3 ⊢
    simp only [codeT_append, Tgt.times]
    split at h3 <;> omega
theorem againArgs_le (f : Nat) : ∀ (e : Args) (k : Nat), e.times f ≤ totA f (againArgs e k)
  | .nil, _ => by simp [Args.times]
  | .cons a as, k => by
    have h1 := again_le f a k
    have h2 := again_le f a (again a k).next
    have h3 := tot_asArg f a.isOp (again a) (again a) k
    have h4 := againArgs_le f as (asArg a.isOp (again a) (again a) k).next
    simp only [againArgs, totA, Args.times, TArgs.times, codeT_append]
    rw [totA] at h4
    rw [tot] at h3
    split at h3 <;> omega
end

mutual
theorem again_quiet (f : Nat) : ∀ (e : Src) (k : Nat), e.moved ≠ .calls →
    codeT f (again e k).code = 0 ∧ (again e k).val.times f = e.times f
  | .lit _, _, _ => by simp [again, codeT, Tgt.times, Src.times]
  | .elem _, _, _ => by simp [again, codeT, Tgt.times, Src.times]
  | .call true g as, k, h => by simp [Src.moved] at h
  | .call false g as, k, h => by
    have := againArgs_quiet f as k (by simpa [Src.moved] using h)
    simp only [again, Src.times, Tgt.times]; omega
  | .op arr o a b, k, h => by
    rw [Src.moved, Kind.max_ne_calls] at h
    have h1 := again_quiet f a k h.1
    have h2 := again_quiet f b (again a k).next h.2
    simp only [again, Src.times, Tgt.times, codeT_append]; omega
  | .root a, k, h => by
    rw [Src.moved_root] at h
    have hm := moved_of_movedArg h
    have h1 := again_quiet f a k hm
    have h2 := again_quiet f a (again a k).next hm
    have h3 := again_quiet f a (again a (again a k).next).next hm
    have h4 := codeT_asArg f a.isOp (again a) (again a) (again a k).next
    have h5 := val_asArg f a.isOp (again a) (again a) (again a k).next
    simp only [again, Src.times, Tgt.times, codeT_append]
    cases ho : a.isOp with
    | false => simp [ho] at h4 h5 ⊢; omega
    | true =>
      have := times_hasCall f a (movedArg_quiet h ho)
      simp [ho, tot] at h4 h5 ⊢; omega
theorem againArgs_quiet (f : Nat) : ∀ (e : Args) (k : Nat), e.moved ≠ .calls →
    codeT f (againArgs e k).code = 0 ∧ (againArgs e k).val.times f = e.times f
  | .nil, _, _ => by simp [againArgs, codeT, TArgs.times, Args.times]
  | .cons a as, k, h => by
    rw [Args.moved_cons, Kind.max_ne_calls] at h
    have hm := moved_of_movedArg h.1
    have h2 := again_quiet f a k hm
    have h3 := again_quiet f a (again a k).next hm
    have h4 := codeT_asArg f a.isOp (again a) (again a) k
    have h5 := val_asArg f a.isOp (again a) (again a) k
    have h6 := againArgs_quiet f as (asArg a.isOp (again a) (again a) k).next h.2
    simp only [againArgs, Args.times, TArgs.times, codeT_append]
    cases ho : a.isOp with
    | false => simp [ho] at h4 h5 h6 ⊢; omega
    | true =>
      have := times_hasCall f a (movedArg_quiet h.1 ho)
      simp [ho, tot] at h4 h5 h6 ⊢; omega
end

mutual
theorem first_le (f : Nat) : ∀ (e : Src) (k : Nat), e.times f ≤ tot f (first e k)
  | .lit _, _ => by simp [Src.times]
  | .elem _, _ => by simp [Src.times]
  | .call true g as, k => by
    have := againArgs_le f as (firstArgs as k).next
    simp only [first, tot, totA, Src.times, Tgt.times, codeT_append, codeT] at this ⊢; omega
  | .call false g as, k => by
    have := firstArgs_le f as k
    simp only [first, tot, totA, Src.times, Tgt.times] at this ⊢; omega
  | .op arr o a b, k => by
    have h1 := first_le f a k
    have h2 := first_le f b (first a k).next
    simp only [first, tot, Src.times, Tgt.times, codeT_append] at h1 h2 ⊢; omega
  | .root a, k => by
    have h1 := again_le f a (first a k).next
    have h2 := again_le f a (again a (first a k).next).next
    have h3 := tot_asArg f a.isOp (again a) (again a) (first a k).next
    simp only [first, Src.times]
    rw [tot] at h3 ⊢
    simp only [codeT_append, Tgt.times]
    split at h3 <;> omega
theorem firstArgs_le (f : Nat) : ∀ (e : Args) (k : Nat), e.times f ≤ totA f (firstArgs e k)
  | .nil, _ => by simp [Args.times]
  | .cons a as, k => by
    have h1 := first_le f a k
    have h2 := again_le f a (first a k).next
    have h3 := tot_asArg f a.isOp (first a) (again a) k
    have h4 := firstArgs_le f as (asArg a.isOp (first a) (again a) k).next
    simp only [firstArgs, totA, Args.times, TArgs.times, codeT_append]
    rw [totA] at h4
    rw [tot] at h3
    split at h3 <;> omega
end

mutual
theorem first_quiet (f : Nat) : ∀ (e : Src) (k : Nat), e.moved ≠ .calls →
    codeT f (first e k).code = 0 ∧ (first e k).val.times f = e.times f
  | .lit _, _, _ => by simp [first, codeT, Tgt.times, Src.times]
  | .elem _, _, _ => by simp [first, codeT, Tgt.times, Src.times]
  | .call true g as, k, h => by simp [Src.moved] at h
  | .call false g as, k, h => by
    have := firstArgs_quiet f as k (by simpa [Src.moved] using h)
    simp only [first, Src.times, Tgt.times]; omega
  | .op arr o a b, k, h => by
    rw [Src.moved, Kind.max_ne_calls] at h
    have h1 := first_quiet f a k h.1
    have h2 := first_quiet f b (first a k).next h.2
    simp only [first, Src.times, Tgt.times, codeT_append]; omega
  | .root a, k, h => by
    rw [Src.moved_root] at h
    have hm := moved_of_movedArg h
    have h1 := first_quiet f a k hm
    have h2 := again_quiet f a (first a k).next hm
    have h3 := again_quiet f a (again a (first a k).next).next hm
    have h4 := codeT_asArg f a.isOp (again a) (again a) (first a k).next
    have h5 := val_asArg f a.isOp (again a) (again a) (first a k).next
    simp only [first, Src.times, Tgt.times, codeT_append]
    cases ho : a.isOp with
    | false => simp [ho] at h4 h5 ⊢; omega
    | true =>
      have := times_hasCall f a (movedArg_quiet h ho)
      simp [ho, tot] at h4 h5 ⊢; omega
theorem firstArgs_quiet (f : Nat) : ∀ (e : Args) (k : Nat), e.moved ≠ .calls →
    codeT f (firstArgs e k).code = 0 ∧ (firstArgs e k).val.times f = e.times f
  | .nil, _, _ => by simp [firstArgs, codeT, TArgs.times, Args.times]
  | .cons a as, k, h => by
    rw [Args.moved_cons, Kind.max_ne_calls] at h
    have hm := moved_of_movedArg h.1
    have h2 := first_quiet f a k hm
    have h3 := again_quiet f a (first a k).next hm
    have h4 := codeT_asArg f a.isOp (first a) (again a) k
    have h5 := val_asArg f a.isOp (first a) (again a) k
    have h6 := firstArgs_quiet f as (asArg a.isOp (first a) (again a) k).next h.2
    simp only [firstArgs, Args.times, TArgs.times, codeT_append]
    cases ho : a.isOp with
    | false => simp [ho] at h4 h5 h6 ⊢; omega
    | true =>
      have := times_hasCall f a (movedArg_quiet h.1 ho)
      simp [ho, tot] at h4 h5 h6 ⊢; omega
end

mutual
theorem first_loud : ∀ (e : Src) (k : Nat), e.moved = .calls → ∃ f, codeT f (first e k).code ≠ 0
  | .lit _, _, h => by simp [Src.moved] at h
  | .elem _, _, h => by simp [Src.moved] at h
  | .call true g as, k, _ => ⟨g, by simp [first, codeT_append, codeT, Tgt.times]⟩
  | .call false g as, k, h => by
    simpa [first] using firstArgs_loud as k (by simpa [Src.moved] using h)
  | .op arr o a b, k, h => by
    rw [Src.moved, Kind.max_calls] at h
    rcases h with h | h
    · obtain ⟨f, hf⟩ := first_loud a k h
      exact ⟨f, by simp only [first, codeT_append]; omega⟩
    · obtain ⟨f, hf⟩ := first_loud b (first a k).next h
      exact ⟨f, by simp only [first, codeT_append]; omega⟩
  | .root a, k, h => by
    rw [Src.moved_root, Src.movedArg] at h
    cases ho : a.isOp with
    | false =>
      obtain ⟨f, hf⟩ := first_loud a k (by simpa [ho] using h)
      exact ⟨f, by simp only [first, codeT_append]; omega⟩
    | true =>
      have hc : a.hasCall = true := by
        cases hc : a.hasCall <;> simp [ho, hc] at h ⊢
      obtain ⟨f, hf⟩ := hasCall_times a hc
      refine ⟨f, ?_⟩
      have h4 := codeT_asArg f a.isOp (again a) (again a) (first a k).next
      have := again_le f a (again a (first a k).next).next
      simp only [first, codeT_append]
      simp [ho] at h4 ⊢; omega
theorem firstArgs_loud : ∀ (e : Args) (k : Nat), e.moved = .calls →
    ∃ f, codeT f (firstArgs e k).code ≠ 0
  | .nil, _, h => by simp [Args.moved] at h
  | .cons a as, k, h => by
    rw [Args.moved_cons, Kind.max_calls] at h
    rcases h with h | h
    · rw [Src.movedArg] at h
      cases ho : a.isOp with
      | false =>
        obtain ⟨f, hf⟩ := first_loud a k (by simpa [ho] using h)
        have h4 := codeT_asArg f a.isOp (first a) (again a) k
        exact ⟨f, by simp only [firstArgs, codeT_append]; simp [ho] at h4 ⊢; omega⟩
      | true =>
        have hc : a.hasCall = true := by
          cases hc : a.hasCall <;> simp [ho, hc] at h ⊢
        obtain ⟨f, hf⟩ := hasCall_times a hc
        refine ⟨f, ?_⟩
        have h4 := codeT_asArg f a.isOp (first a) (again a) k
        have := again_le f a (first a k).next
        simp only [firstArgs, codeT_append]
        simp [ho] at h4 ⊢; omega
    · obtain ⟨f, hf⟩ := firstArgs_loud as (asArg a.isOp (first a) (again a) k).next h
      exact ⟨f, by simp only [firstArgs, codeT_append]; omega⟩
end

mutual
theorem first_once (f : Nat) : ∀ (e : Src) (k : Nat), e.Once → tot f (first e k) = e.times f
  | .lit _, _, _ => by simp [first, tot, codeT, Tgt.times, Src.times]
  | .elem _, _, _ => by simp [first, tot, codeT, Tgt.times, Src.times]
  | .call true g as, k, h => by
    have h1 := firstArgs_quiet f as k (by simpa [Src.Once] using h)
    have h2 := againArgs_quiet f as (firstArgs as k).next (by simpa [Src.Once] using h)
    simp only [first, tot, Src.times, Tgt.times, codeT_append, codeT]; omega
  | .call false g as, k, h => by
    have := firstArgs_once f as k (by simpa [Src.Once] using h)
    simp only [first, tot, totA, Src.times, Tgt.times] at this ⊢; omega
  | .op arr o a b, k, h => by
    simp only [Src.Once] at h
    have h1 := first_once f a k h.1
    have h2 := first_once f b (first a k).next h.2
    simp only [first, tot, Src.times, Tgt.times, codeT_append] at h1 h2 ⊢; omega
  | .root a, k, h => by
    simp only [Src.Once] at h
    have h1 := first_quiet f a k h
    have h2 := again_quiet f a (first a k).next h
    have h3 := again_quiet f a (again a (first a k).next).next h
    have h4 := tot_asArg f a.isOp (again a) (again a) (first a k).next
    simp only [first, Src.times]
    rw [tot] at h4 ⊢
    simp only [Tgt.times, codeT_append]
    simp only [tot] at h4
    split at h4 <;> omega
theorem firstArgs_once (f : Nat) : ∀ (e : Args) (k : Nat), e.Once → totA f (firstArgs e k) = e.times f
  | .nil, _, _ => by simp [firstArgs, totA, codeT, TArgs.times, Args.times]
  | .cons a as, k, h => by
    simp only [Args.Once] at h
    have h4 := tot_asArg f a.isOp (first a) (again a) k
    have h6 := firstArgs_once f as (asArg a.isOp (first a) (again a) k).next h.2
    simp only [firstArgs, totA, Args.times, TArgs.times, codeT_append]
    rw [tot] at h4
    rw [totA] at h6
    cases ho : a.isOp with
    | false =>
      have h1 := first_once f a k (by simpa [ho] using h.1)
      simp [ho] at h4 h6 ⊢; omega
    | true =>
      have hm : a.moved ≠ .calls := by simpa [ho] using h.1
      have h1 := first_quiet f a k hm
      have h2 := again_quiet f a (first a k).next hm
      simp [ho, tot] at h4 h6 ⊢; omega
end

mutual
theorem once_of_first : ∀ (e : Src) (k : Nat), (∀ f, tot f (first e k) = e.times f) → e.Once
  | .lit _, _, _ => by simp [Src.Once]
  | .elem _, _, _ => by simp [Src.Once]
  | .call true g as, k, h => by
    rw [Src.Once]
    intro hm
    obtain ⟨f, hf⟩ := firstArgs_loud as k hm
    have h1 := againArgs_le f as (firstArgs as k).next
    have := h f
    simp only [first, tot, totA, Src.times, Tgt.times, codeT_append, codeT] at h1 this; omega
  | .call false g as, k, h => by
    rw [Src.Once]
    refine once_of_firstArgs as k (fun f => ?_)
    have := h f
    simp only [first, tot, totA, Src.times, Tgt.times] at this ⊢; omega
  | .op arr o a b, k, h => by
    have H : ∀ f, tot f (first a k) = a.times f ∧ tot f (first b (first a k).next) = b.times f := by
      intro f
      have h1 := first_le f a k
      have h2 := first_le f b (first a k).next
      have := h f
      simp only [first, tot, Src.times, Tgt.times, codeT_append] at h1 h2 this ⊢; omega
    exact ⟨once_of_first a k (fun f => (H f).1), once_of_first b _ (fun f => (H f).2)⟩
  | .root a, k, h => by
    rw [Src.Once]
    intro hm
    obtain ⟨f, hf⟩ := first_loud a k hm
    have h1 := again_le f a (first a k).next
    have h2 := again_le f a (again a (first a k).next).next
    have h3 := tot_asArg f a.isOp (again a) (again a) (first a k).next
    have := h f
    simp only [first, Src.times] at this
    rw [tot] at h3 this
    simp only [codeT_append, Tgt.times] at this
    split at h3 <;> omega
theorem once_of_firstArgs : ∀ (e : Args) (k : Nat), (∀ f, totA f (firstArgs e k) = e.times f) → e.Once
  | .nil, _, _ => by simp [Args.Once]
  | .cons a as, k, h => by
    have H : ∀ f, tot f (asArg a.isOp (first a) (again a) k) = a.times f ∧
        totA f (firstArgs as (asArg a.isOp (first a) (again a) k).next) = as.times f := by
      intro f
      have h1 := first_le f a k
      have h2 := again_le f a (first a k).next
      have h3 := tot_asArg f a.isOp (first a) (again a) k
      have h4 := firstArgs_le f as (asArg a.isOp (first a) (again a) k).next
      have := h f
      simp only [firstArgs, totA, Args.times, TArgs.times, codeT_append] at this h4 ⊢
      rw [tot] at h3 ⊢
      split at h3 <;> omega
    refine ⟨?_, once_of_firstArgs as _ (fun f => (H f).2)⟩
    cases ho : a.isOp with
    | false =>
      simp only [Bool.false_eq_true, if_false]
      refine once_of_first a k (fun f => ?_)
      have := (H f).1
      rwa [tot_asArg, ho] at this
    | true =>
      simp only [if_true]
      intro hm
      obtain ⟨f, hf⟩ := first_loud a k hm
      have h1 := again_le f a (first a k).next
      have := (H f).1
      rw [tot_asArg, ho] at this
      simp at this
      omega
end

theorem translate_once (direct : Bool) (e : Src) :
    (∀ f, tot f (translate direct e) = e.times f) ↔ e.OnceIn direct := by
  have main : ∀ e : Src, (∀ f, tot f (first e 0) = e.times f) ↔ e.Once := fun e =>
    ⟨once_of_first e 0, fun h f => first_once f e 0 h⟩
  match e with
  | .lit _ => exact main _
  | .elem _ => exact main _
  | .op _ _ _ _ => exact main _
  | .root _ => exact main _
  | .call false _ _ => exact main _
  | .call true g as =>
    cases direct with
    | false => exact main _
    | true =>
      simp only [translate, Src.OnceIn, if_true]
      constructor
      · intro h
        refine once_of_firstArgs as 0 (fun f => ?_)
        have := h f
        simp only [tot, totA, Src.times, Tgt.times] at this ⊢; omega
      · intro h f
        have := firstArgs_once f as 0 h
        simp only [tot, totA, Src.times, Tgt.times] at this ⊢; omega

theorem translate_le (direct : Bool) (e : Src) (f : Nat) :
    e.times f ≤ tot f (translate direct e) := by
  match e with
  | .lit _ => exact first_le f _ _
  | .elem _ => exact first_le f _ _
  | .op _ _ _ _ => exact first_le f _ _
  | .root _ => exact first_le f _ _
  | .call false _ _ => exact first_le f _ _
  | .call true g as =>
    cases direct with
    | false => exact first_le f _ _
    | true =>
      have := firstArgs_le f as 0
      simp only [translate, if_true, tot, totA, Src.times, Tgt.times] at this ⊢; omega

theorem runs_count {V S : Type} (I : Interp V S) (f : Nat) {r ρ s v s'}
    (h : Runs I.logged r ρ s v s') : s'.2.count f = s.2.count f + tot f r := by
  obtain ⟨ρ1, s1, h1, h2⟩ := h
  have a := runCode_count I f h1
  have b := run_count I ρ1 f h2
  rw [tot]; omega

end Verif.Hoist
