import Verif.Hoist.LemmasRun
/- The generated statements compute what Python computes. -/
namespace Verif.Hoist

variable {V S : Type}

/-- `k` does no more than `l`. -/
def Kind.Le (k l : Kind) : Prop := (l = .none → k = .none) ∧ (l ≠ .calls → k ≠ .calls)

theorem Kind.Le.refl (k : Kind) : k.Le k := ⟨id, id⟩

theorem Kind.Le.max {a b c d : Kind} (h : a.Le c) (h' : b.Le d) : (a.max b).Le (c.max d) := by
  unfold Kind.Le at *
  revert h h'
  cases a <;> cases b <;> cases c <;> cases d <;> simp [Kind.max]

theorem Kind.commute_le {a b c d : Kind} (h : a.Le c) (h' : b.Le d) (hc : c.Commute d) :
    a.Commute b := by
  unfold Kind.Le Kind.Commute at *
  revert h h' hc
  cases a <;> cases b <;> cases c <;> cases d <;> simp

/-- A visit whose result does what `p` does; `m` bounds what the added statements do, `l` what the
expression does. -/
structure Good (I : Interp V S) (k : Nat) (r : Out Tgt) (m l : Kind) (p : S → V × S) : Prop where
  ge : k ≤ r.next
  frm : From k r.code
  und : r.val.under r.next
  sim : ∀ ρ s, ltr I (exec I r.code (ρ, s)).1 r.val (exec I r.code (ρ, s)).2 = p s
  soloC : ∀ q ∈ r.code, q.2.Solo
  solo : r.val.Solo
  lk : r.val.kind.Le l
  mn : m = .none → r.code = []
  mc : m ≠ .calls → ∀ q ∈ r.code, q.2.kind ≠ .calls

/-- The same for arguments. -/
structure GoodA (I : Interp V S) (k : Nat) (r : Out TArgs) (m l : Kind) (p : S → List V × S) :
    Prop where
  ge : k ≤ r.next
  frm : From k r.code
  und : r.val.under r.next
  sim : ∀ ρ s, ltrArgs I (exec I r.code (ρ, s)).1 r.val (exec I r.code (ρ, s)).2 = p s
  soloC : ∀ q ∈ r.code, q.2.Solo
  solo : r.val.Solo
  lk : r.val.kind.Le l
  mn : m = .none → r.code = []
  mc : m ≠ .calls → ∀ q ∈ r.code, q.2.kind ≠ .calls

theorem forall_append {α} {P : α → Prop} {c d : List α} (hc : ∀ q ∈ c, P q) (hd : ∀ q ∈ d, P q) :
    ∀ q ∈ c ++ d, P q := by
  intro q hq
  rcases List.mem_append.1 hq with h | h
  · exact hc q h
  · exact hd q h

/-- What stays in an operand, evaluated after the statements of a later operand. -/
theorem sim_later (I : Interp V S) {k : Nat} {r1 : Out Tgt} {m l m2 : Kind} {p : S → V × S}
    (h : Good I k r1 m l p) {c : List (Nat × Tgt)} (hf : From r1.next c)
    (hn : m2 = .none → c = []) (hc : m2 ≠ .calls → ∀ q ∈ c, q.2.kind ≠ .calls)
    (hm : l.Commute m2) (ρ : Nat → V) (s : S) :
    let q := exec I r1.code (ρ, s)
    let q' := exec I c q
    ltr I q'.1 r1.val q'.2 = ((p s).1, (exec I c (q.1, (p s).2)).2) ∧
      q'.1 = (exec I c (q.1, (p s).2)).1 := by
  intro q q'
  have e1 : ltr I q.1 r1.val q.2 = p s := h.sim ρ s
  have e2 : ∀ s, ltr I q'.1 r1.val s = ltr I q.1 r1.val s := fun s =>
    ltr_below I (n := r1.next) (fun i hi => exec_from I c q hf i hi) _ s h.und
  rw [e2]
  have h1 : (l = .none → r1.val.kind = .none) := h.lk.1
  have h2 : (l ≠ .calls → r1.val.kind ≠ .calls) := h.lk.2
  rcases hm with hl | hm | ⟨hl, hm⟩
  · obtain ⟨v, hv⟩ := ltr_none I q.1 r1.val (h1 hl)
    rw [hv] at e1
    rw [hv, ← e1]
    exact ⟨rfl, rfl⟩
  · have := hn hm
    subst this
    exact ⟨e1, rfl⟩
  · have hq : (exec I c q).2 = q.2 := exec_reads I c q (hc hm)
    have hp : (p s).2 = q.2 := by
      rw [← e1]; exact ltr_reads I q.1 _ _ (h2 hl)
    show ltr I q.1 r1.val (exec I c q).2 = _ ∧ _
    rw [hq, e1, hp]
    refine ⟨Prod.ext rfl ?_, rfl⟩
    simp only
    rw [hp]
    exact (exec_reads I c (q.1, q.2) (hc hm)).symm

theorem good_op (I : Interp V S) {k : Nat} {arr o a b} {r1 r2 : Out Tgt}
    (h1 : Good I k r1 a.moved a.left (py I a))
    (h2 : Good I r1.next r2 b.moved b.left (py I b))
    (hm : a.left.Commute b.moved) (hl : a.left.Commute b.left) :
    Good I k ⟨r1.code ++ r2.code, .op arr o r1.val r2.val, r2.next⟩ (Src.op arr o a b).moved
      (Src.op arr o a b).left (py I (.op arr o a b)) where
  ge := Nat.le_trans h1.ge h2.ge
  frm := h1.frm.append (h2.frm.mono h1.ge)
  und := ⟨below_mono h2.ge _ h1.und, h2.und⟩
  sim := by
    intro ρ s
    have L := sim_later I h1 h2.frm h2.mn h2.mc hm ρ s
    simp only at L
    have R := h2.sim (exec I r1.code (ρ, s)).1 (py I a s).2
    simp only [exec_append, ltr, py]
    rw [L.1]
    simp only
    rw [L.2, R]
  soloC := forall_append h1.soloC h2.soloC
  solo := ⟨h1.solo, h2.solo, Kind.commute_le h1.lk h2.lk hl⟩
  lk := by
    simp only [Tgt.kind, Src.left]
    exact (h1.lk.max h2.lk).max (Kind.Le.refl _)
  mn := by
    intro h
    rw [Src.moved, Kind.max_none] at h
    simp [h1.mn h.1, h2.mn h.2]
  mc := by
    intro h
    rw [Src.moved, Kind.max_ne_calls] at h
    exact forall_append (h1.mc h.1) (h2.mc h.2)

theorem good_cons (I : Interp V S) {k : Nat} {a as} {r1 : Out Tgt} {r2 : Out TArgs}
    (h1 : Good I k r1 a.movedArg a.leftArg (py I a))
    (h2 : GoodA I r1.next r2 as.moved as.left (pyArgs I as))
    (hm : a.leftArg.Commute as.moved) (hl : a.leftArg.Commute as.left) :
    GoodA I k ⟨r1.code ++ r2.code, .cons r1.val r2.val, r2.next⟩ (Args.cons a as).moved
      (Args.cons a as).left (pyArgs I (.cons a as)) where
  ge := Nat.le_trans h1.ge h2.ge
  frm := h1.frm.append (h2.frm.mono h1.ge)
  und := ⟨below_mono h2.ge _ h1.und, h2.und⟩
  sim := by
    intro ρ s
    have L := sim_later I h1 h2.frm h2.mn h2.mc hm ρ s
    simp only at L
    have R := h2.sim (exec I r1.code (ρ, s)).1 (py I a s).2
    simp only [exec_append, ltrArgs, pyArgs]
    rw [L.1]
    simp only
    rw [L.2, R]
  soloC := forall_append h1.soloC h2.soloC
  solo := ⟨h1.solo, h2.solo, Kind.commute_le h1.lk h2.lk hl⟩
  lk := by
    simp only [TArgs.kind, Args.left]
    exact h1.lk.max h2.lk
  mn := by
    intro h
    rw [Args.moved_cons, Kind.max_none] at h
    simp [h1.mn h.1, h2.mn h.2]
  mc := by
    intro h
    rw [Args.moved_cons, Kind.max_ne_calls] at h
    exact forall_append (h1.mc h.1) (h2.mc h.2)

theorem good_nil (I : Interp V S) (k : Nat) :
    GoodA I k ⟨[], .nil, k⟩ Args.nil.moved Args.nil.left (pyArgs I .nil) where
  ge := Nat.le_refl k
  frm := From.nil
  und := trivial
  sim := by intros; rfl
  soloC := by simp
  solo := trivial
  lk := Kind.Le.refl _
  mn := fun _ => rfl
  mc := by simp

theorem good_lit (I : Interp V S) (k n : Nat) :
    Good I k ⟨[], .lit n, k⟩ (Src.lit n).moved (Src.lit n).left (py I (.lit n)) where
  ge := Nat.le_refl k
  frm := From.nil
  und := trivial
  sim := by intros; rfl
  soloC := by simp
  solo := trivial
  lk := Kind.Le.refl _
  mn := fun _ => rfl
  mc := by simp

theorem good_elem (I : Interp V S) (k n : Nat) :
    Good I k ⟨[], .elem n, k⟩ (Src.elem n).moved (Src.elem n).left (py I (.elem n)) where
  ge := Nat.le_refl k
  frm := From.nil
  und := trivial
  sim := by intros; rfl
  soloC := by simp
  solo := trivial
  lk := Kind.Le.refl _
  mn := fun _ => rfl
  mc := by simp

theorem good_call (I : Interp V S) {k : Nat} {arr f as} {r : Out TArgs} {m l : Kind}
    (h : GoodA I k r m l (pyArgs I as)) :
    Good I k ⟨r.code, .call arr f r.val, r.next⟩ m .calls (py I (.call arr f as)) where
  ge := h.ge
  frm := h.frm
  und := h.und
  sim := by
    intro ρ s
    have := h.sim ρ s
    simp only [ltr, py, this]
  soloC := h.soloC
  solo := h.solo
  lk := by simp [Kind.Le]
  mn := h.mn
  mc := h.mc

mutual
theorem left_hasCall : ∀ a : Src, a.hasCall = false → a.left ≠ .calls
  | .lit _, _ => by simp [Src.left]
  | .elem _, _ => by simp [Src.left]
  | .call _ _ _, h => by simp [Src.hasCall] at h
  | .op arr _ a b, h => by
    simp [Src.hasCall] at h
    rw [Src.left, Kind.max_ne_calls, Kind.max_ne_calls]
    exact ⟨⟨left_hasCall a h.1, left_hasCall b h.2⟩, by cases arr <;> simp⟩
  | .root a, h => by
    simp [Src.hasCall] at h
    rw [Src.left]
    split
    · simp
    · exact left_hasCall a h
end

/-- Something visited and dropped, and then saved in a temporary. -/
theorem exec_saved (I : Interp V S) {c d : List (Nat × Tgt)} {n : Nat} {t : Tgt} {p : S → V × S}
    (hc : ∀ q ∈ c, q.2.kind ≠ .calls)
    (hd : ∀ ρ s, ltr I (exec I d (ρ, s)).1 t (exec I d (ρ, s)).2 = p s) (ρ : Nat → V) (s : S) :
    ltr I (exec I (c ++ d ++ [(n, t)]) (ρ, s)).1 (.tmp n) (exec I (c ++ d ++ [(n, t)]) (ρ, s)).2 = p s := by
  rw [exec_append, exec_append]
  have h1 : (exec I c (ρ, s)).2 = s := exec_reads I c (ρ, s) hc
  have h2 := hd (exec I c (ρ, s)).1 s
  have h3 : exec I c (ρ, s) = ((exec I c (ρ, s)).1, s) := Prod.ext rfl h1
  rw [← h3] at h2
  simp only [exec, ltr, upd, if_true]
  rw [h2]

theorem good_asArg (I : Interp V S) {a : Src} {v1 v2 : Nat → Out Tgt} (k : Nat)
    (h1 : ∀ k, Good I k (v1 k) a.moved a.left (py I a))
    (h2 : a.isOp = true → a.moved ≠ .calls ∧ ∀ k, Good I k (v2 k) a.moved a.left (py I a)) :
    Good I k (asArg a.isOp v1 v2 k) a.movedArg a.leftArg (py I a) := by
  cases ho : a.isOp with
  | false =>
    have := h1 k
    simpa [asArg, Src.movedArg, Src.leftArg, ho] using this
  | true =>
    obtain ⟨hm, h2⟩ := h2 ho
    have g1 := h1 k
    have g2 := h2 (v1 k).next
    simp only [asArg, if_true]
    refine ⟨?_, ?_, ?_, ?_, ?_, trivial, ?_, ?_, ?_⟩
    · have := g1.ge; have := g2.ge; simp only; omega
    · exact (g1.frm.append (g2.frm.mono g1.ge)).append (From.single (Nat.le_trans g1.ge g2.ge))
    · simp [Tgt.under]
    · exact exec_saved I (g1.mc hm) g2.sim
    · exact forall_append (forall_append g1.soloC g2.soloC) (by
        intro q hq; simp at hq; subst hq; exact g2.solo)
    · simp [Tgt.kind, Kind.Le]
    · intro h; simp [Src.movedArg, ho] at h; split at h <;> simp at h
    · intro h
      have hc := movedArg_quiet h ho
      exact forall_append (forall_append (g1.mc hm) (g2.mc hm)) (by
        intro q hq; simp at hq; subst hq; exact g2.lk.2 (left_hasCall a hc))

theorem good_hoist (I : Interp V S) {k : Nat} {f as} {r1 r2 : Out TArgs} {m l m2 l2 : Kind}
    (h1 : GoodA I k r1 m l (pyArgs I as)) (h2 : GoodA I r1.next r2 m2 l2 (pyArgs I as))
    (hm : m ≠ .calls) :
    Good I k ⟨r1.code ++ r2.code ++ [(r2.next, .call true f r2.val)], .tmp r2.next, r2.next + 1⟩
      (Src.call true f as).moved (Src.call true f as).left (py I (.call true f as)) where
  ge := by have := h1.ge; have := h2.ge; simp only; omega
  frm := (h1.frm.append (h2.frm.mono h1.ge)).append (From.single (Nat.le_trans h1.ge h2.ge))
  und := by simp [Tgt.under]
  sim := exec_saved I (h1.mc hm) (good_call I h2).sim
  soloC := forall_append (forall_append h1.soloC h2.soloC) (by
    intro q hq; simp at hq; subst hq; exact h2.solo)
  solo := trivial
  lk := by simp [Tgt.kind, Kind.Le]
  mn := by simp [Src.moved]
  mc := by simp [Src.moved]

theorem good_root (I : Interp V S) {k : Nat} {a : Src} {r1 r2 : Out Tgt}
    (h1 : Good I k r1 a.moved a.left (py I a))
    (h2 : Good I r1.next r2 a.movedArg a.leftArg (py I a)) (hm : a.moved ≠ .calls) :
    Good I k ⟨r1.code ++ r2.code, .root r2.val, r2.next⟩ (Src.root a).moved (Src.root a).left
      (py I (.root a)) where
  ge := Nat.le_trans h1.ge h2.ge
  frm := h1.frm.append (h2.frm.mono h1.ge)
  und := h2.und
  sim := by
    intro ρ s
    have e1 : (exec I r1.code (ρ, s)).2 = s := exec_reads I _ (ρ, s) (h1.mc hm)
    have e2 := h2.sim (exec I r1.code (ρ, s)).1 s
    have e3 : exec I r1.code (ρ, s) = ((exec I r1.code (ρ, s)).1, s) := Prod.ext rfl e1
    rw [← e3] at e2
    simp only [exec_append, ltr, py, e2]
  soloC := forall_append h1.soloC h2.soloC
  solo := h2.solo
  lk := by simpa [Tgt.kind, Src.left, Src.leftArg] using h2.lk
  mn := by
    intro h
    rw [Src.moved_root] at h
    have : a.moved = .none := by
      rw [Src.movedArg] at h
      split at h
      · split at h <;> simp at h
      · exact h
    simp [h1.mn this, h2.mn h]
  mc := by
    intro h
    rw [Src.moved_root] at h
    exact forall_append (h1.mc hm) (h2.mc h)

mutual
theorem again_good (I : Interp V S) : ∀ (e : Src) (k : Nat), e.Ordered → e.moved ≠ .calls →
    Good I k (again e k) e.moved e.left (py I e)
  | .lit n, k, _, _ => good_lit I k n
  | .elem n, k, _, _ => good_elem I k n
  | .call true _ _, _, _, h => by simp [Src.moved] at h
  | .call false f as, k, ho, h => by
    have := againArgs_good I as k (by simpa [Src.Ordered] using ho) (by simpa [Src.moved] using h)
    simpa [again, Src.moved, Src.left] using good_call I (arr := false) (f := f) this
  | .op arr o a b, k, ho, h => by
    rw [Src.moved, Kind.max_ne_calls] at h
    simp only [Src.Ordered] at ho
    exact good_op I (again_good I a k ho.1 h.1) (again_good I b _ ho.2.1 h.2) ho.2.2.1 ho.2.2.2
  | .root a, k, ho, h => by
    rw [Src.moved_root] at h
    have hm := moved_of_movedArg h
    simp only [Src.Ordered] at ho
    have hg := fun k => again_good I a k ho hm
    exact good_root I (hg k) (good_asArg I _ hg (fun _ => ⟨hm, hg⟩)) hm
theorem againArgs_good (I : Interp V S) : ∀ (e : Args) (k : Nat), e.Ordered → e.moved ≠ .calls →
    GoodA I k (againArgs e k) e.moved e.left (pyArgs I e)
  | .nil, k, _, _ => good_nil I k
  | .cons a as, k, ho, h => by
    rw [Args.moved_cons, Kind.max_ne_calls] at h
    have hm := moved_of_movedArg h.1
    simp only [Args.Ordered] at ho
    have hg := fun k => again_good I a k ho.1 hm
    exact good_cons I (good_asArg I k hg (fun _ => ⟨hm, hg⟩)) (againArgs_good I as _ ho.2.1 h.2)
      ho.2.2.1 ho.2.2.2
end

mutual
theorem once_of_quiet : ∀ e : Src, e.moved ≠ .calls → e.Once
  | .lit _, _ => trivial
  | .elem _, _ => trivial
  | .call true _ _, h => by simp [Src.moved] at h
  | .call false _ as, h => by
    rw [Src.Once]; exact onceArgs_of_quiet as (by simpa [Src.moved] using h)
  | .op _ _ a b, h => by
    rw [Src.moved, Kind.max_ne_calls] at h
    exact ⟨once_of_quiet a h.1, once_of_quiet b h.2⟩
  | .root a, h => by
    rw [Src.moved_root] at h
    rw [Src.Once]; exact moved_of_movedArg h
theorem onceArgs_of_quiet : ∀ e : Args, e.moved ≠ .calls → e.Once
  | .nil, _ => trivial
  | .cons a as, h => by
    rw [Args.moved_cons, Kind.max_ne_calls] at h
    have hm := moved_of_movedArg h.1
    refine ⟨?_, onceArgs_of_quiet as h.2⟩
    split
    · exact hm
    · exact once_of_quiet a hm
end

mutual
theorem first_good (I : Interp V S) : ∀ (e : Src) (k : Nat), e.Ordered → e.Once →
    Good I k (first e k) e.moved e.left (py I e)
  | .lit n, k, _, _ => good_lit I k n
  | .elem n, k, _, _ => good_elem I k n
  | .call true f as, k, ho, h => by
    simp only [Src.Ordered] at ho
    rw [Src.Once] at h
    exact good_hoist I (firstArgs_good I as k ho (onceArgs_of_quiet as h))
      (againArgs_good I as _ ho h) h
  | .call false f as, k, ho, h => by
    have := firstArgs_good I as k (by simpa [Src.Ordered] using ho) (by simpa [Src.Once] using h)
    simpa [first, Src.moved, Src.left] using good_call I (arr := false) (f := f) this
  | .op arr o a b, k, ho, h => by
    simp only [Src.Ordered] at ho
    simp only [Src.Once] at h
    exact good_op I (first_good I a k ho.1 h.1) (first_good I b _ ho.2.1 h.2) ho.2.2.1 ho.2.2.2
  | .root a, k, ho, h => by
    simp only [Src.Ordered] at ho
    rw [Src.Once] at h
    have hg := fun k => again_good I a k ho h
    exact good_root I (first_good I a k ho (once_of_quiet a h))
      (good_asArg I _ hg (fun _ => ⟨h, hg⟩)) h
theorem firstArgs_good (I : Interp V S) : ∀ (e : Args) (k : Nat), e.Ordered → e.Once →
    GoodA I k (firstArgs e k) e.moved e.left (pyArgs I e)
  | .nil, k, _, _ => good_nil I k
  | .cons a as, k, ho, h => by
    simp only [Args.Ordered] at ho
    simp only [Args.Once] at h
    have h1 : a.Once := by
      have := h.1
      split at this
      · exact once_of_quiet a this
      · exact this
    refine good_cons I (good_asArg I k (fun k => first_good I a k ho.1 h1) (fun hi => ?_))
      (firstArgs_good I as _ ho.2.1 h.2) ho.2.2.1 ho.2.2.2
    have hm : a.moved ≠ .calls := by simpa [hi] using h.1
    exact ⟨hm, fun k => again_good I a k ho.1 hm⟩
end

theorem good_runs (I : Interp V S) {k r m l p} (h : Good I k r m l p) {ρ s v s'}
    (hr : Runs I r ρ s v s') : (v, s') = p s := by
  obtain ⟨ρ1, s1, h1, h2⟩ := hr
  have e1 := runCode_exec I h1 h.soloC
  have e2 := run_ltr I ρ1 h2 h.solo
  have e3 := h.sim ρ s
  rw [← e1] at e3
  rw [e2]; exact e3

theorem translate_good (I : Interp V S) (direct : Bool) (e : Src) (ho : e.Ordered)
    (h : e.OnceIn direct) {ρ s v s'} (hr : Runs I (translate direct e) ρ s v s') :
    (v, s') = py I e s := by
  match e, ho, h, hr with
  | .lit _, ho, h, hr => exact good_runs I (first_good I _ 0 ho h) hr
  | .elem _, ho, h, hr => exact good_runs I (first_good I _ 0 ho h) hr
  | .op _ _ _ _, ho, h, hr => exact good_runs I (first_good I _ 0 ho h) hr
  | .root _, ho, h, hr => exact good_runs I (first_good I _ 0 ho h) hr
  | .call false _ _, ho, h, hr => exact good_runs I (first_good I _ 0 ho h) hr
  | .call true f as, ho, h, hr =>
    cases direct with
    | false => exact good_runs I (first_good I _ 0 ho h) hr
    | true =>
      simp only [Src.OnceIn, if_true] at h
      simp only [translate, if_true] at hr
      simp only [Src.Ordered] at ho
      exact good_runs I (good_call I (arr := true) (f := f) (firstArgs_good I as 0 ho h)) hr

end Verif.Hoist
