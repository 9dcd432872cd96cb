import Verif.Optional.Lemmas

namespace Verif.Optional

theorem upd_self {V α : Type} [DecidableEq V] (s : V → α) (x : V) (v : α) : upd s x v x = v := by simp [upd]
theorem upd_ne {V α : Type} [DecidableEq V] (s : V → α) {x y : V} (v : α) (h : y ≠ x) : upd s x v y = s y := by simp [upd, h]

/-! ## Sections -/

section
variable (st : Bool) (opts : Nat → List Bool) (tcall : Nat → List (Option Int) → Option (Option Int × List (Option Int))) (n : Nat)

theorem setc_run {s : St} {c : Cond TV} {b : Bool} (k : Nat) (h : tst st s c = some b) :
    tRun st opts tcall n (setc k c) s = some (upd s (.cond k) (some (if b then 1 else 0)), none) := by
  unfold setc
  simp only [tRun, h]
  cases b <;> rfl

theorem flag_test (s : St) (k : Nat) (b : Bool) :
    tst st (upd s (.cond k) (some (if b then 1 else 0))) (.truth (.var (.cond k))) = some b := by
  cases b <;> simp [tst, tx, upd_self]

theorem hoist_run (rem : Cond TV) (hrem : NoTmp (cvars rem)) (ts : List TV) : ∀ (k : Nat) (s : St) (hne : ts ≠ []), NoTmp ts →
    (∀ w, s (ts.getLast hne) = some w → ∃ r, tst st s rem = some r) →
    ∃ s1, tRun st opts tcall n (hoist rem ts k).1 s = some (s1, none) ∧ (∀ t, (∀ j, k ≤ j → t ≠ .cond j) → s1 t = s t) ∧
      tst st s1 (hoist rem ts k).2 = some (ts.all (fun t => (s t).isSome) && (tst st s rem).getD false) := by
  induction ts with
  | nil => intro k s hne; exact absurd rfl hne
  | cons t ts ih =>
    intro k s hne hts h1
    have inner : ∃ s1, tRun st opts tcall n (hoist rem ts (k + 1)).1 s = some (s1, none) ∧
        (∀ t, (∀ j, k + 1 ≤ j → t ≠ .cond j) → s1 t = s t) ∧
        (s t ≠ none → tst st s1 (hoist rem ts (k + 1)).2 = some (ts.all (fun t => (s t).isSome) && (tst st s rem).getD false)) := by
      cases ts with
      | nil =>
        refine ⟨s, rfl, fun _ _ => rfl, fun ht => ?_⟩
        obtain ⟨w, hw⟩ := Option.ne_none_iff_exists'.1 ht
        obtain ⟨r, hr⟩ := h1 w hw
        simp [hoist, hr]
      | cons t' ts' =>
        obtain ⟨s1, a, b, c⟩ := ih (k + 1) s (by simp) (fun x hx => hts x (List.mem_cons_of_mem _ hx)) (by simpa using h1)
        exact ⟨s1, a, b, fun _ => c⟩
    obtain ⟨s1, r1, a1, v1⟩ := inner
    have et : s1 t = s t := a1 t (fun j _ => hts t (by simp) j)
    simp only [hoist, tRun, r1]
    cases hs : s t with
    | none =>
      have e1 : tst st s1 (.notNone t) = some false := by simp [tst, et, hs]
      rw [e1]
      simp only
      rw [setc_run st opts tcall n k (b := false) (by rfl)]
      refine ⟨_, rfl, fun x hx => ?_, ?_⟩
      · rw [upd_ne _ _ (hx k (Nat.le_refl k))]
        exact a1 x (fun j hj => hx j (by omega))
      · rw [flag_test]
        simp [hs]
    | some w =>
      have e1 : tst st s1 (.notNone t) = some true := by simp [tst, et, hs]
      rw [e1]
      simp only
      rw [setc_run st opts tcall n k (v1 (by simp [hs]))]
      refine ⟨_, rfl, fun x hx => ?_, ?_⟩
      · rw [upd_ne _ _ (hx k (Nat.le_refl k))]
        exact a1 x (fun j hj => hx j (by omega))
      · rw [flag_test]
        simp [hs]

theorem nest_all (rem : Cond TV) (body : Code TV) (ts : List TV) (s : St) (h : ∀ v ∈ ts, ∃ w, s v = some w) :
    tRun st opts tcall n (nest rem body ts) s = tRun st opts tcall n (.ite rem body .skip) s := by
  induction ts with
  | nil => rfl
  | cons t ts ih =>
    obtain ⟨w, hw⟩ := h t (by simp)
    have e1 : tst st s (.notNone t) = some true := by simp [tst, hw]
    have := ih (fun v hv => h v (List.mem_cons_of_mem _ hv))
    conv => lhs; simp only [nest, tRun, e1]
    exact this

theorem nest_none (rem : Cond TV) (body : Code TV) (ts : List TV) (s : St) (h : ∃ v ∈ ts, s v = none) :
    tRun st opts tcall n (nest rem body ts) s = some (s, none) := by
  induction ts with
  | nil => obtain ⟨v, hv, _⟩ := h; exact absurd hv List.not_mem_nil
  | cons t ts ih =>
    cases hs : s t with
    | none =>
      have e1 : tst st s (.notNone t) = some false := by simp [tst, hs]
      simp only [nest, tRun, e1]
    | some w =>
      have e1 : tst st s (.notNone t) = some true := by simp [tst, hs]
      simp only [nest, tRun, e1]
      apply ih
      obtain ⟨v, hv, hn⟩ := h
      rcases List.mem_cons.1 hv with rfl | hv
      · rw [hs] at hn; cases hn
      · exact ⟨v, hv, hn⟩

theorem sec_val {s : St} {first last K H c b ts rem} (hk : secOk st first last K H c = true)
    (hs : split ((conjs c).length + 1) (conjs c) = some (ts, rem)) (hne : ts ≠ []) (hK : KOk K s) (hH : KOk H s)
    (ht : tst false s c = some b) :
    ((∀ v ∈ ts, ∃ w, s v = some w) → tst st s (conj rem) = some b) ∧ ((∃ v ∈ ts, s v = none) → b = false) := by
  have ht' := ht
  rw [← conj_conjs] at ht'
  obtain ⟨i1, i2⟩ := split_spec s _ _ b _ _ hs ht'
  refine ⟨fun hall => ?_, i2⟩
  have hr := i1 hall
  unfold secOk at hk
  rw [hs] at hk
  cases ts with
  | nil => exact absurd rfl hne
  | cons t ts =>
    simp only [Bool.and_eq_true] at hk
    have hk := hk.2
    split at hk
    · exact strictOk_tst (hK.append hall) _ b hk hr
    · obtain ⟨r, hr'⟩ := condTot_tst (K := H ++ [(t :: ts).getLast (List.cons_ne_nil t ts)]) (s := s)
        (hH.append (fun x hx => by rw [List.mem_singleton.1 hx]; exact hall _ (List.getLast_mem _))) _ hk
      have := hr' false
      rw [hr] at this
      rw [hr' st]; exact this.symm

theorem sec_h1 {s : St} {first K H c t ts rem} (hk : secOk st first false K H c = true)
    (hs : split ((conjs c).length + 1) (conjs c) = some (t :: ts, rem)) (hH : KOk H s)
    (hf : first = true → KOk K s ∧ ∃ b, tst false s c = some b) :
    ∀ w, s ((t :: ts).getLast (List.cons_ne_nil t ts)) = some w → ∃ r, tst st s (conj rem) = some r := by
  intro w hw
  have hk0 := hk
  unfold secOk at hk
  rw [hs] at hk
  simp only [Bool.and_eq_true, Bool.false_or] at hk
  obtain ⟨_, hk⟩ := hk
  split at hk
  · rename_i hc
    obtain ⟨hc1, hc2⟩ := hc
    obtain ⟨hK, b, hb⟩ := hf hc1
    have : ts = [] := List.isEmpty_iff.1 hc2
    subst this
    have hall : ∀ v ∈ [t], ∃ w, s v = some w := by
      intro v hv
      rw [List.mem_singleton.1 hv]
      exact ⟨w, hw⟩
    exact ⟨b, (sec_val st hk0 hs (by simp) hK hH hb).1 hall⟩
  · obtain ⟨r, hr'⟩ := condTot_tst (K := H ++ [(t :: ts).getLast (List.cons_ne_nil t ts)]) (s := s)
        (hH.append (fun x hx => by rw [List.mem_singleton.1 hx]; exact ⟨w, hw⟩)) _ hk
    exact ⟨r, hr' st⟩
end

theorem section_inv {last c body k rest o} (h : section_ last c body k rest = some o) :
    (∃ rem r, split ((conjs c).length + 1) (conjs c) = some ([], rem) ∧ rest k = some r ∧ o = ⟨r.pre, .ite c body r.code, r.next⟩) ∨
    (∃ t ts rem r, split ((conjs c).length + 1) (conjs c) = some (t :: ts, rem) ∧ last = true ∧ rest k = some r ∧
      o = ⟨r.pre, .ite (.notNone t) (nest (conj rem) body ts) r.code, r.next⟩) ∨
    (∃ t ts rem r, split ((conjs c).length + 1) (conjs c) = some (t :: ts, rem) ∧ last = false ∧ rest (k + (t :: ts).length) = some r ∧
      o = ⟨.seq (hoist (conj rem) (t :: ts) k).1 r.pre, .ite (hoist (conj rem) (t :: ts) k).2 body r.code, r.next⟩) := by
  unfold section_ at h
  split at h
  · cases h
  · rename_i rem hs
    split at h
    · cases h
    · rename_i r hr
      exact .inl ⟨rem, r, hs, hr, (Option.some.inj h).symm⟩
  · rename_i t ts rem hs
    split at h
    · rename_i hl
      split at h
      · cases h
      · rename_i r hr
        exact .inr (.inl ⟨t, ts, rem, r, hs, hl, hr, (Option.some.inj h).symm⟩)
    · rename_i hl
      split at h
      · cases h
      · rename_i r hr
        exact .inr (.inr ⟨t, ts, rem, r, hs, by simpa using hl, hr, (Option.some.inj h).symm⟩)

/-! ## Shape of the translation -/

/-- A condition that is not a literal. -/
def NotConst (c : Cond TV) : Prop := ∀ b, c ≠ .const b

/-- The three kinds of sections. -/
theorem sec_cases (O A c) : (secCond O A c = .const false) ∨ (secCond O A c = .const true) ∨ NotConst (secCond O A c) := by
  cases h : secCond O A c with
  | const b => cases b <;> simp
  | _ => right; right; intro b; simp

theorem aft_sec {O A c} {a b : Code Var} (h : NotConst (secCond O A c)) :
    aft O (.ite c a b) A = aft O b (aft O a A) ∧ aft O (.elif c a b) A = aft O b (aft O a A) := by
  constructor
  · simp only [aft]
    split
    · rename_i e; exact absurd e (h _)
    · rename_i e; exact absurd e (h _)
    · rfl
  · simp only [aft]
    split
    · rename_i e; exact absurd e (h _)
    · rename_i e; exact absurd e (h _)
    · rfl

theorem aft_mono (O) (c : Code Var) : ∀ A x, x ∈ A → x ∈ aft O c A := by
  induction c with
  | skip => intro A x h; exact h
  | seq a b iha ihb => intro A x h; exact ihb _ x (iha _ x h)
  | assign y e => intro A x h; simp only [aft]; split; exact h; exact List.mem_cons_of_mem _ h
  | choose y c a b => intro A x h; exact List.mem_cons_of_mem _ h
  | aug y e => intro A x h; exact h
  | ret e => intro A x h; exact h
  | ite c a b iha ihb =>
    intro A x h
    simp only [aft]
    split
    · exact ihb _ x h
    · exact iha _ x h
    · exact ihb _ x (iha _ x h)
  | elif c a b iha ihb =>
    intro A x h
    simp only [aft]
    split
    · exact ihb _ x h
    · exact iha _ x h
    · exact ihb _ x (iha _ x h)
  | loop c a ih => intro A x h; exact ih _ x h
  | call r f args m => intro A x h; cases r; exact h; exact List.mem_cons_of_mem _ h

/-- The translation of `ite` when the condition is not known. -/
theorem tr_ite {O A k o} {c : Cond Var} {a b : Code Var} (h : NotConst (secCond O A c)) (ht : tr O (.ite c a b) A k = some o) :
    ∃ oa o', tr O a A k = some oa ∧
      section_ (isSkip b) (secCond O A c) oa.all oa.next (fun k => (tr O b (aft O a A) k).map (inRest b)) = some o' ∧
      o = ⟨.skip, o'.all, o'.next⟩ := by
  simp only [tr] at ht
  split at ht
  · rename_i e; exact absurd e (h _)
  · rename_i e; exact absurd e (h _)
  · split at ht
    · cases ht
    · rename_i oa hoa
      split at ht
      · cases ht
      · rename_i o' ho'
        exact ⟨oa, o', hoa, ho', (Option.some.inj ht).symm⟩

theorem tr_elif {O A k o} {c : Cond Var} {a b : Code Var} (h : NotConst (secCond O A c)) (ht : tr O (.elif c a b) A k = some o) :
    ∃ oa, tr O a A k = some oa ∧
      section_ (isSkip b) (secCond O A c) oa.all oa.next (fun k => (tr O b (aft O a A) k).map (inRest b)) = some o := by
  simp only [tr] at ht
  split at ht
  · rename_i e; exact absurd e (h _)
  · rename_i e; exact absurd e (h _)
  · split at ht
    · cases ht
    · rename_i oa hoa
      exact ⟨oa, hoa, ht⟩

theorem inRest_next (b o) : (inRest b o).next = o.next := by
  unfold inRest; split <;> rfl

theorem tr_next (O) (c : Code Var) : ∀ A k o, tr O c A k = some o → k ≤ o.next := by
  have sec : ∀ (last c' body k) (rest : Nat → Option Out) (o), (∀ k o, rest k = some o → k ≤ o.next) →
      section_ last c' body k rest = some o → k ≤ o.next := by
    intro last c' body k rest o hr h
    rcases section_inv h with ⟨rem, r, _, h1, rfl⟩ | ⟨t, ts, rem, r, _, _, h1, rfl⟩ | ⟨t, ts, rem, r, _, _, h1, rfl⟩
    · exact (hr _ _ h1 : k ≤ r.next)
    · exact (hr _ _ h1 : k ≤ r.next)
    · have := hr _ _ h1
      exact Nat.le_trans (Nat.le_add_right _ _) this
  induction c with
  | skip => intro A k o h; cases h; exact Nat.le_refl _
  | seq a b iha ihb =>
    intro A k o h
    simp only [tr] at h
    split at h
    · cases h
    · rename_i o1 h1
      split at h
      · cases h
      · rename_i o2 h2
        cases h
        exact Nat.le_trans (iha _ _ _ h1) (ihb _ _ _ h2 : _ ≤ o2.next)
  | assign y e =>
    intro A k o h
    simp only [tr] at h
    split at h
    · split at h <;> cases h <;> exact Nat.le_refl _
    · cases h; exact Nat.le_refl _
  | choose y c a b =>
    intro A k o h
    simp only [tr] at h
    split at h <;> cases h <;> exact Nat.le_refl _
  | aug y e => intro A k o h; cases h; exact Nat.le_refl _
  | ret e => intro A k o h; cases h; exact Nat.le_refl _
  | ite c a b iha ihb =>
    intro A k o h
    rcases sec_cases O A c with e | e | e
    · simp only [tr, e] at h
      split at h
      · cases h
      · rename_i o' h'; cases h; exact (ihb _ _ _ h' : k ≤ o'.next)
    · simp only [tr, e] at h
      split at h
      · cases h
      · rename_i o' h'; cases h; exact (iha _ _ _ h' : k ≤ o'.next)
    · obtain ⟨oa, o', h1, h2, rfl⟩ := tr_ite e h
      refine Nat.le_trans (iha _ _ _ h1) (?_ : _ ≤ o'.next)
      refine sec _ _ _ _ _ _ ?_ h2
      intro k o hk
      simp only [Option.map_eq_some_iff] at hk
      obtain ⟨q, hq, rfl⟩ := hk
      rw [inRest_next]
      exact ihb _ _ _ hq
  | elif c a b iha ihb =>
    intro A k o h
    rcases sec_cases O A c with e | e | e
    · simp only [tr, e, Option.map_eq_some_iff] at h
      obtain ⟨q, hq, rfl⟩ := h
      rw [inRest_next]
      exact ihb _ _ _ hq
    · simp only [tr, e] at h
      split at h
      · cases h
      · rename_i o' h'; cases h; exact (iha _ _ _ h' : k ≤ o'.next)
    · obtain ⟨oa, h1, h2⟩ := tr_elif e h
      refine Nat.le_trans (iha _ _ _ h1) (?_ : _ ≤ o.next)
      refine sec _ _ _ _ _ _ ?_ h2
      intro k o hk
      simp only [Option.map_eq_some_iff] at hk
      obtain ⟨q, hq, rfl⟩ := hk
      rw [inRest_next]
      exact ihb _ _ _ hq
  | loop c a ih =>
    intro A k o h
    simp only [tr] at h
    split at h
    · cases h
    · rename_i o' h'; cases h; exact (ih _ _ _ h' : k ≤ o'.next)
  | call r f args m => intro A k o h; cases h; exact Nat.le_refl _

theorem both_some {x y r} (h : both x y = some r) : ∃ a b, x = some a ∧ y = some b ∧ r = join a b := by
  unfold both at h
  split at h
  · rename_i a b
    exact ⟨a, b, rfl, rfl, (Option.some.inj h).symm⟩
  · cases h

section
variable {st : Bool} {opts : Nat → List Bool} {rets : Nat → Bool} {O : Var → Bool}

theorem check_ite {A H N r} {c : Cond Var} {a b : Code Var} (hc : check st opts rets O (.ite c a b) A H N = some r) :
    foldOk O A N c = true ∧ condOk false (ks O A N) (guardT O A c (trCond O A c)) = true ∧
    (secCond O A c = .const false → check st opts rets O b A N N = some r) ∧
    (secCond O A c = .const true → check st opts rets O a A N N = some r) ∧
    (NotConst (secCond O A c) → secOk st true (isSkip b) (ks O A N) (ks O A N) (secCond O A c) = true ∧
      ∃ ra rb, check st opts rets O a A (N ++ facts c true) (N ++ facts c true) = some ra ∧
        check st opts rets O b (aft O a A) N (N ++ facts c false) = some rb ∧ r = join ra rb) := by
  simp only [check] at hc
  split at hc
  · rename_i h0
    simp only [Bool.and_eq_true] at h0
    refine ⟨h0.1, h0.2, fun e => ?_, fun e => ?_, fun e => ?_⟩
    · simpa only [e] using hc
    · simpa only [e] using hc
    · split at hc
      · rename_i e'; exact absurd e' (e _)
      · rename_i e'; exact absurd e' (e _)
      · split at hc
        · rename_i h1
          exact ⟨h1, both_some hc⟩
        · cases hc
  · cases hc

theorem check_elif {A H N r} {c : Cond Var} {a b : Code Var} (hc : check st opts rets O (.elif c a b) A H N = some r) :
    foldOk O A N c = true ∧ condOk false (ks O A N) (guardT O A c (trCond O A c)) = true ∧
    (secCond O A c = .const false → check st opts rets O b A H N = some r) ∧
    (secCond O A c = .const true → check st opts rets O a A N N = some r) ∧
    (NotConst (secCond O A c) → secOk st false (isSkip b) (ks O A N) (ks O A H) (secCond O A c) = true ∧
      ∃ ra rb, check st opts rets O a A (N ++ facts c true) (N ++ facts c true) = some ra ∧
        check st opts rets O b (aft O a A) H (N ++ facts c false) = some rb ∧ r = join ra rb) := by
  simp only [check] at hc
  split at hc
  · rename_i h0
    simp only [Bool.and_eq_true] at h0
    refine ⟨h0.1, h0.2, fun e => ?_, fun e => ?_, fun e => ?_⟩
    · simpa only [e] using hc
    · simpa only [e] using hc
    · split at hc
      · rename_i e'; exact absurd e' (e _)
      · rename_i e'; exact absurd e' (e _)
      · split at hc
        · rename_i h1
          exact ⟨h1, both_some hc⟩
        · cases hc
  · cases hc

/-- Only `elif` has statements before it. -/
theorem tr_pre {A k o} (c : Code Var) (h : tr O c A k = some o) (hc : ∀ d a b, c ≠ .elif d a b) : o.pre = .skip := by
  cases c with
  | elif d a b => exact absurd rfl (hc d a b)
  | seq a b =>
    simp only [tr] at h
    split at h
    · cases h
    · split at h <;> cases h
      rfl
  | assign y e =>
    simp only [tr] at h
    split at h
    · split at h <;> cases h <;> rfl
    · cases h; rfl
  | choose y c a b =>
    simp only [tr] at h
    split at h <;> cases h <;> rfl
  | ite c a b =>
    rcases sec_cases O A c with e | e | e
    · simp only [tr, e] at h
      split at h
      · cases h
      · cases h; rfl
    · simp only [tr, e] at h
      split at h
      · cases h
      · cases h; rfl
    · obtain ⟨oa, o', h1, h2, rfl⟩ := tr_ite e h
      rfl
  | loop c a =>
    simp only [tr] at h
    split at h
    · cases h
    · cases h; rfl
  | skip => cases h; rfl
  | aug _ _ => cases h; rfl
  | ret _ => cases h; rfl
  | call _ _ _ _ => cases h; rfl

theorem inRest_pre {A k o} (b : Code Var) (h : tr O b A k = some o) : (inRest b o).pre = o.pre := by
  cases b with
  | elif d a b => rfl
  | _ => rw [tr_pre _ h (by intro d a b; simp)]; rfl

variable {F : List Var} (tcall : Nat → List (Option Int) → Option (Option Int × List (Option Int))) (n : Nat)

/-- Only temporaries from number `k` on differ. -/
def From (k : Nat) (s s1 : St) : Prop := ∀ t, (∀ j, k ≤ j → t ≠ .cond j) → s1 t = s t

theorem From.agree {k s s1} (h : From k s s1) : Agree s s1 := fun t ht => h t (fun j _ => ht j)

theorem From.rel {k A σ s s1} (h : From k s s1) (hr : Rel O F A σ s) : Rel O F A σ s1 := hr.agree h.agree

/-- The statements before an `if` run, whatever section will be taken. -/
theorem pre_ok (c : Code Var) : ∀ A H N k o r σ s, check st opts rets O c A H N = some r → tr O c A k = some o → Rel O F A σ s →
    (∀ x, x ∈ aft O c A → x ∈ F) → Known H σ → ∃ s1, tRun st opts tcall n o.pre s = some (s1, none) ∧ From k s s1 := by
  induction c with
  | elif c a b iha ihb =>
    intro A H N k o r σ s hc ht hr hF hH
    obtain ⟨_, _, c1, c2, c3⟩ := check_elif hc
    rcases sec_cases O A c with e | e | e
    · simp only [tr, e, Option.map_eq_some_iff] at ht
      obtain ⟨q, hq, rfl⟩ := ht
      rw [inRest_pre b hq]
      exact ihb A H N k q r σ s (c1 e) hq hr (by simpa only [aft, e] using hF) hH
    · simp only [tr, e] at ht
      split at ht
      · cases ht
      · cases ht
        exact ⟨s, rfl, fun _ _ => rfl⟩
    · obtain ⟨hk, ra, rb, h1, h2, _⟩ := c3 e
      obtain ⟨oa, ht1, ht2⟩ := tr_elif e ht
      have hF' : ∀ x, x ∈ aft O b (aft O a A) → x ∈ F := by rw [← (aft_sec (a := a) (b := b) e).2]; exact hF
      have hr' : Rel O F (aft O a A) σ s := hr.mono (aft_mono O a A)
      have hAF : ∀ x, x ∈ A → x ∈ F := fun x hx => hF' x (aft_mono O b _ x (aft_mono O a _ x hx))
      have hle := tr_next O a A k oa ht1
      rcases section_inv ht2 with ⟨rem, q, hs, hq, rfl⟩ | ⟨t, ts, rem, q, hs, hl, hq, rfl⟩ | ⟨t, ts, rem, q, hs, hl, hq, rfl⟩
      · simp only [Option.map_eq_some_iff] at hq
        obtain ⟨q, hq, rfl⟩ := hq
        rw [inRest_pre b hq]
        obtain ⟨s1, g1, g2⟩ := ihb _ H _ _ q rb σ s h2 hq hr' hF' hH
        exact ⟨s1, g1, fun t ht => g2 t (fun j hj => ht j (by omega))⟩
      · simp only [Option.map_eq_some_iff] at hq
        obtain ⟨q, hq, rfl⟩ := hq
        rw [inRest_pre b hq]
        obtain ⟨s1, g1, g2⟩ := ihb _ H _ _ q rb σ s h2 hq hr' hF' hH
        exact ⟨s1, g1, fun t ht => g2 t (fun j hj => ht j (by omega))⟩
      · rw [hl] at hk
        obtain ⟨n1, n2⟩ := split_noTmp (secCond_noTmp O A c) hs
        obtain ⟨s1, g1, g2, g3⟩ := hoist_run st opts tcall n (conj rem) n1 (t :: ts) oa.next s (List.cons_ne_nil t ts) n2
          (sec_h1 st hk hs (rel_known hr hAF hH) (by intro h; cases h))
        simp only [Option.map_eq_some_iff] at hq
        obtain ⟨q, hq, rfl⟩ := hq
        rw [inRest_pre b hq]
        obtain ⟨s2, g4, g5⟩ := ihb _ H _ _ q rb σ s1 h2 hq (From.rel g2 hr') hF' hH
        refine ⟨s2, ?_, fun x hx => ?_⟩
        · simp only [tRun, g1, g4]
        · rw [g5 x (fun j hj => hx j (by omega)), g2 x (fun j hj => hx j (by omega))]
  | _ =>
    intro A H N k o r σ s hc ht hr hF hH
    rw [tr_pre _ ht (by intro d a b; simp)]
    exact ⟨s, rfl, fun _ _ => rfl⟩
end

end Verif.Optional
