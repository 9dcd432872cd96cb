import Verif.Optional.Lemmas2

namespace Verif.Optional

def Keeps (σ σ' : PySt) : Prop := ∀ x w, σ x = some (some w) → ∃ w', σ' x = some (some w')

theorem Keeps.known {N : List Var} {σ σ'} (h : Keeps σ σ') (hN : Known N σ) : Known N σ' := by
  intro x hx
  obtain ⟨v, hv⟩ := hN x hx
  exact h x v hv

theorem Keeps.trans {σ σ' σ''} (h : Keeps σ σ') (h' : Keeps σ' σ'') : Keeps σ σ'' := by
  intro x w hx
  obtain ⟨w', hw⟩ := h x w hx
  exact h' x w' hw

theorem Keeps.refl (σ) : Keeps σ σ := fun _ w h => ⟨w, h⟩

theorem keeps_upd (σ : PySt) (x : Var) (v : Int) : Keeps σ (upd σ x (some (some v))) := by
  intro y w hy
  by_cases h : y = x
  · subst h; exact ⟨v, upd_self _ _ _⟩
  · exact ⟨w, by rw [upd_ne _ _ h]; exact hy⟩

theorem known_upd {N : List Var} {σ : PySt} (h : Known N σ) (x : Var) (v : Int) : Known (x :: N) (upd σ x (some (some v))) := by
  intro y hy
  by_cases e : y = x
  · subst e; exact ⟨v, upd_self _ _ _⟩
  · rw [upd_ne _ _ e]
    rcases List.mem_cons.1 hy with h1 | h1
    · exact absurd h1 e
    · exact h y h1

theorem rel_assign {O F A A' σ s} (h : Rel O F A σ s) (x : Var) (v : Int) (hA : ∀ y, y ∈ A → y ∈ A') (hx : O x = true → x ∈ A') :
    Rel O F A' (upd σ x (some (some v))) (upd s (lhs O x) (some v)) := by
  refine ⟨fun y hy => ?_, fun y ho hy => ?_, fun y ho => ?_, fun y ρ ho hF hρ => ?_⟩
  · by_cases e : y = x
    · subst e
      right
      exact ⟨v, upd_self _ _ _, by simp [lhs, hy, upd_self]⟩
    · rw [upd_ne _ _ e, upd_ne]
      · exact h.plain y hy
      · unfold lhs; split <;> simp [e]
  · have e : y ≠ x := by intro e; subst e; exact hy (hx ho)
    rw [upd_ne _ _ e, upd_ne]
    · exact h.arg y ho (fun h1 => hy (hA y h1))
    · unfold lhs; split <;> simp
  · by_cases e : y = x
    · subst e; exact ⟨_, upd_self _ _ _⟩
    · rw [upd_ne _ _ e]; exact h.bound y ho
  · by_cases e : y = x
    · subst e
      rw [upd_self] at hρ
      rw [← Option.some.inj hρ]
      simp [lhs, ho, upd_self]
    · rw [upd_ne _ _ e] at hρ
      rw [upd_ne]
      · exact h.loc y ρ ho hF hρ
      · unfold lhs; split <;> simp [e]

theorem lhs_arg (O x y) : TV.arg y ≠ lhs O x := by
  unfold lhs; split <;> simp

/-- What holds after corresponding statements. -/
def Post (O : Var → Bool) (F A' : List Var) (r : Option (List Var)) (σ σ' : PySt) (s s' : St) (v : Option (Option Int))
    (v' : Option Int) : Prop :=
  v = v'.map some ∧ (∀ x, s' (.arg x) = s (.arg x)) ∧
    (v' = none → Rel O F A' σ' s' ∧ (∃ N', r = some N' ∧ Known N' σ') ∧ Keeps σ σ')

theorem join_left {a b : Option (List Var)} {σ} (h : ∃ N, a = some N ∧ Known N σ) : ∃ N, join a b = some N ∧ Known N σ := by
  obtain ⟨N, rfl, hN⟩ := h
  cases b with
  | none => exact ⟨N, rfl, hN⟩
  | some M => exact ⟨_, rfl, fun x hx => hN x (List.mem_filter.1 hx).1⟩

theorem join_right {a b : Option (List Var)} {σ} (h : ∃ N, b = some N ∧ Known N σ) : ∃ N, join a b = some N ∧ Known N σ := by
  obtain ⟨N, rfl, hN⟩ := h
  cases a with
  | none => exact ⟨N, rfl, hN⟩
  | some M => exact ⟨_, rfl, fun x hx => hN x (by simpa using (List.mem_filter.1 hx).2)⟩

/-! ## Arguments -/

/-- Parameters without default get numbers. -/
def FitB : List Bool → List (Option Int) → Prop
  | [], [] => True
  | o :: os, v :: vs => (o = false → v.isSome) ∧ FitB os vs
  | _, _ => False

theorem passArg_tx {s : St} {e : Expr TV} {v : Int} (o : Bool) (h : tx s e = some v) : passArg s o (some e) = some (some v) := by
  unfold passArg
  cases o <;> cases e <;> first | (simp only [h, Option.map_some]; done) | skip
  rename_i t
  cases t <;> first | (simp only [h, Option.map_some]; done) | skip
  simp only [tx] at h
  simp only [h]

theorem args_sim {O F A σ s K} (h : Rel O F A σ s) (hAF : ∀ x, x ∈ A → x ∈ F) (hK : KOk K s) :
    ∀ (args : List (Option (Expr Var))) (os : List Bool) (vs : List (Option Int)), argsOk O A K os args = true → pyArgs σ args = some vs →
      passArgs s os (trArgs O A args) = some vs ∧ FitB os vs := by
  intro args
  induction args with
  | nil =>
    intro os vs hk hp
    cases os with
    | nil => cases hp; exact ⟨rfl, trivial⟩
    | cons o os => simp [argsOk] at hk
  | cons a args ih =>
    intro os vs hk hp
    cases os with
    | nil => cases a <;> simp [argsOk] at hk
    | cons o os =>
      cases a with
      | none =>
        simp only [argsOk, Bool.and_eq_true] at hk
        simp only [pyArgs] at hp
        cases h1 : pyArgs σ args with
        | none => rw [h1] at hp; cases hp
        | some ws =>
          rw [h1] at hp; cases hp
          obtain ⟨i1, i2⟩ := ih os ws hk.2 h1
          simp only [trArgs] at i1
          refine ⟨?_, ?_, i2⟩
          · simp [trArgs, passArgs, passArg, hk.1, i1]
          · intro h; rw [hk.1] at h; cases h
      | some e =>
        simp only [argsOk, Bool.and_eq_true, Bool.or_eq_true] at hk
        simp only [pyArgs] at hp
        split at hp
        · rename_i v ws he hws
          cases hp
          obtain ⟨i1, i2⟩ := ih os ws hk.2 hws
          simp only [trArgs] at i1
          have : passArg s o (some (trE O A e)) = some v ∧ (o = false → v.isSome) := by
            rcases hk.1 with ⟨ho, ha⟩ | hx
            · cases e with
              | var x =>
                obtain ⟨h1, h2⟩ := isArg_iff.1 ha
                have h3 := h.arg x h1 h2
                have ht : tv O A x = .arg x := by
                  rcases tv_cases O A x with ⟨h3, _⟩ | ⟨_, h3, _⟩ | ⟨_, _, h3⟩
                  · rw [h1] at h3; cases h3
                  · exact absurd h3 h2
                  · exact h3
                simp only [pyExpr] at he
                rw [h3] at he
                cases he
                subst ho
                exact ⟨by simp [trE, ht, passArg], by simp⟩
              | _ => simp [isArgVar] at ha
            · obtain ⟨w, rfl, h2⟩ := tx_sim h hAF hK e v hx he
              exact ⟨passArg_tx o h2, fun _ => rfl⟩
          refine ⟨?_, this.2, i2⟩
          simp [trArgs, passArgs, this.1, i1]
        · cases hp

theorem copyOut_id (s : St) : ∀ (os : List Bool) (as : List (Option (Expr TV))) (vs : List (Option Int)),
    passArgs s os as = some vs → copyOut os as vs s = s := by
  intro os
  induction os with
  | nil => intro as vs _; simp [copyOut]
  | cons o os ih =>
    intro as vs h
    cases as with
    | nil => simp [passArgs] at h
    | cons a as =>
      simp only [passArgs] at h
      split at h
      · rename_i v ws h1 h2
        cases h
        simp only [copyOut]
        split
        · rename_i t
          have : upd s t v = s := by
            funext x
            by_cases e : x = t
            · subst e
              rw [upd_self]
              unfold passArg at h1
              have hx : (tx s (.var x)).map some = some v → v = s x := by
                intro h1
                simp only [tx] at h1
                cases h3 : s x with
                | none => rw [h3] at h1; cases h1
                | some w => rw [h3] at h1; exact (Option.some.inj h1).symm
              cases x with
              | arg y => exact (Option.some.inj h1).symm
              | _ => exact hx h1
            · exact upd_ne _ _ e
          rw [this]
          exact ih as ws h2
        · exact ih as ws h2
      · cases h

theorem fBind_map {α β : Type} (g : α → β) (m : Nat) (l : List (Option α)) :
    fBind m (l.map (Option.map g)) = (fBind m l).map (Option.map g) := by
  have e : ((l.map (Option.map g)).take m).filterMap id = ((l.take m).filterMap id).map g := by
    rw [← List.map_take, List.filterMap_map, List.map_filterMap]
    congr 1
  simp only [fBind, e, List.map_append, List.map_map, List.length_map, List.map_replicate, Option.map_none, List.length_take]
  rw [List.map_drop]
  rfl

/-! ## Sections -/

section
variable {st : Bool} {opts : Nat → List Bool} {rets : Nat → Bool} {O : Var → Bool} {F : List Var}
  {tcall : Nat → List (Option Int) → Option (Option Int × List (Option Int))} {n : Nat}

theorem seq_skip (c : Code TV) (s : St) : tRun st opts tcall n (.seq .skip c) s = tRun st opts tcall n c s := by
  simp only [tRun]

theorem rest_code {A k q} (b : Code Var) (h : tr O b A k = some q) (s : St) :
    tRun st opts tcall n (inRest b q).code s = tRun st opts tcall n q.code s := by
  cases b with
  | elif d a b => rfl
  | _ =>
    have := tr_pre _ h (by intro d a b; simp)
    simp only [inRest, Out.all, this, seq_skip]

theorem all_pre {o : Out} {s s1 : St} (h : tRun st opts tcall n o.pre s = some (s1, none)) :
    tRun st opts tcall n o.all s = tRun st opts tcall n o.code s1 := by
  simp only [Out.all, tRun, h]

/-- The statements before the sections run. -/
theorem sec_pre {first K H c' body k o s0 b A1} (hk : secOk st first (isSkip b) K H c' = true) (hH : KOk H s0)
    (hf : first = true → KOk K s0 ∧ ∃ t, tst false s0 c' = some t) (hc : NoTmp (cvars c'))
    (hs : section_ (isSkip b) c' body k (fun k => (tr O b A1 k).map (inRest b)) = some o)
    (hq : ∀ k' q, tr O b A1 k' = some q → ∀ s, Agree s0 s → ∃ s1, tRun st opts tcall n q.pre s = some (s1, none) ∧ From k' s s1) :
    ∃ s1, tRun st opts tcall n o.pre s0 = some (s1, none) := by
  rcases section_inv hs with ⟨rem, q, e, h1, rfl⟩ | ⟨t, ts, rem, q, e, hl, h1, rfl⟩ | ⟨t, ts, rem, q, e, hl, h1, rfl⟩
  · simp only [Option.map_eq_some_iff] at h1
    obtain ⟨q, h1, rfl⟩ := h1
    rw [inRest_pre b h1]
    obtain ⟨s1, g, _⟩ := hq _ q h1 s0 (fun _ _ => rfl)
    exact ⟨s1, g⟩
  · simp only [Option.map_eq_some_iff] at h1
    obtain ⟨q, h1, rfl⟩ := h1
    rw [inRest_pre b h1]
    obtain ⟨s1, g, _⟩ := hq _ q h1 s0 (fun _ _ => rfl)
    exact ⟨s1, g⟩
  · rw [hl] at hk
    obtain ⟨n1, n2⟩ := split_noTmp hc e
    obtain ⟨sA, g1, g2, g3⟩ := hoist_run st opts tcall n (conj rem) n1 (t :: ts) k s0 (List.cons_ne_nil t ts) n2
      (sec_h1 st hk e hH hf)
    simp only [Option.map_eq_some_iff] at h1
    obtain ⟨q, h1, rfl⟩ := h1
    rw [inRest_pre b h1]
    obtain ⟨s1, g4, _⟩ := hq _ q h1 sA (From.agree g2)
    exact ⟨s1, by simp only [tRun, g1, g4]⟩

/-- Which section is taken. -/
theorem sec_run {first K H c' body k o s0 s1 b A1 t} (hk : secOk st first (isSkip b) K H c' = true) (hK : KOk K s0) (hH : KOk H s0)
    (ht : tst false s0 c' = some t) (hc : NoTmp (cvars c'))
    (hs : section_ (isSkip b) c' body k (fun k => (tr O b A1 k).map (inRest b)) = some o)
    (hq : ∀ k' q, tr O b A1 k' = some q → ∀ s, Agree s0 s → ∃ s1, tRun st opts tcall n q.pre s = some (s1, none) ∧ From k' s s1)
    (hp : tRun st opts tcall n o.pre s0 = some (s1, none)) :
    Agree s0 s1 ∧ (t = true → tRun st opts tcall n o.code s1 = tRun st opts tcall n body s1) ∧
      (t = false → ∃ k' q sA, tr O b A1 k' = some q ∧ Agree s0 sA ∧ tRun st opts tcall n q.pre sA = some (s1, none) ∧
        tRun st opts tcall n o.code s1 = tRun st opts tcall n q.code s1) := by
  rcases section_inv hs with ⟨rem, q, e, h1, rfl⟩ | ⟨t', ts, rem, q, e, hl, h1, rfl⟩ | ⟨t', ts, rem, q, e, hl, h1, rfl⟩
  · simp only [Option.map_eq_some_iff] at h1
    obtain ⟨q, h1, rfl⟩ := h1
    rw [inRest_pre b h1] at hp
    obtain ⟨s1', g, g'⟩ := hq _ q h1 s0 (fun _ _ => rfl)
    have hp' := hp
    rw [g] at hp
    cases hp
    have hval : tst st s1 c' = some t := by
      rw [tst_agree st g'.agree c' hc]
      unfold secOk at hk
      rw [e] at hk
      simp only [Bool.and_eq_true] at hk
      exact strictOk_tst hK c' t hk.2 ht
    refine ⟨g'.agree, fun h => ?_, fun h => ⟨k, q, s0, h1, fun _ _ => rfl, hp', ?_⟩⟩
    · subst h; simp only [tRun, hval]
    · subst h; simp only [tRun, hval]; exact rest_code b h1 s1
  · simp only [Option.map_eq_some_iff] at h1
    obtain ⟨q, h1, rfl⟩ := h1
    rw [inRest_pre b h1] at hp
    obtain ⟨s1', g, g'⟩ := hq _ q h1 s0 (fun _ _ => rfl)
    have hp' := hp
    rw [g] at hp
    cases hp
    obtain ⟨n1, n2⟩ := split_noTmp hc e
    obtain ⟨v1, v2⟩ := sec_val st hk e (List.cons_ne_nil _ _) hK hH ht
    have hb : b = .skip := by
      unfold isSkip at hl
      split at hl
      · rfl
      · cases hl
    have hskip : tRun st opts tcall n (inRest b q).code s1 = some (s1, none) := by
      rw [rest_code b h1]
      subst hb
      cases h1
      rfl
    have ag := g'.agree
    have code : ∀ (hall : ∀ v ∈ t' :: ts, ∃ w, s0 v = some w),
        tRun st opts tcall n (.ite (.notNone t') (nest (conj rem) body ts) (inRest b q).code) s1 =
          tRun st opts tcall n (.ite (conj rem) body .skip) s1 := by
      intro hall
      have hall1 : ∀ v ∈ t' :: ts, ∃ w, s1 v = some w := by
        intro v hv
        rw [ag v (n2 v hv)]
        exact hall v hv
      obtain ⟨w, hw⟩ := hall1 t' (by simp)
      have e1 : tst st s1 (.notNone t') = some true := by simp [tst, hw]
      rw [← nest_all st opts tcall n (conj rem) body ts s1 (fun v hv => hall1 v (List.mem_cons_of_mem _ hv))]
      conv => lhs; simp only [tRun, e1]
    have none_code : ∀ (hn : ∃ v ∈ t' :: ts, s0 v = none),
        tRun st opts tcall n (.ite (.notNone t') (nest (conj rem) body ts) (inRest b q).code) s1 = some (s1, none) := by
      intro ⟨v, hv, hn⟩
      have hn1 : s1 v = none := by rw [ag v (n2 v hv)]; exact hn
      cases h3 : s1 t' with
      | none =>
        have e1 : tst st s1 (.notNone t') = some false := by simp [tst, h3]
        simp only [tRun, e1]
        exact hskip
      | some w =>
        have e1 : tst st s1 (.notNone t') = some true := by simp [tst, h3]
        simp only [tRun, e1]
        apply nest_none
        rcases List.mem_cons.1 hv with rfl | hv
        · rw [h3] at hn1; cases hn1
        · exact ⟨v, hv, hn1⟩
    refine ⟨ag, fun h => ?_, fun h => ⟨k, q, s0, h1, fun _ _ => rfl, hp', ?_⟩⟩
    · subst h
      rcases all_or_none s0 (t' :: ts) with hall | hn
      · have hr : tst st s1 (conj rem) = some true := by rw [tst_agree st ag _ n1]; exact v1 hall
        rw [code hall]
        simp only [tRun, hr]
      · exact absurd (v2 hn) (by simp)
    · subst h
      rw [rest_code b h1] at hskip
      rw [hskip]
      rcases all_or_none s0 (t' :: ts) with hall | hn
      · have hr : tst st s1 (conj rem) = some false := by rw [tst_agree st ag _ n1]; exact v1 hall
        rw [code hall]
        simp only [tRun, hr]
      · exact none_code hn
  · have hk' := hk
    rw [hl] at hk'
    obtain ⟨n1, n2⟩ := split_noTmp hc e
    obtain ⟨sA, g1, g2, g3⟩ := hoist_run st opts tcall n (conj rem) n1 (t' :: ts) k s0 (List.cons_ne_nil t' ts) n2
      (sec_h1 st hk' e hH (fun _ => ⟨hK, t, ht⟩))
    simp only [Option.map_eq_some_iff] at h1
    obtain ⟨q, h1, rfl⟩ := h1
    simp only [tRun, g1, inRest_pre b h1] at hp
    obtain ⟨s1', g4, g5⟩ := hq _ q h1 sA (From.agree g2)
    have hp' := hp
    rw [g4] at hp
    cases hp
    have hcond : tst st s1 (hoist (conj rem) (t' :: ts) k).2 = some t := by
      have e1 : s1 (.cond k) = sA (.cond k) := g5 (.cond k) (by
        intro j hj
        simp only [List.length_cons, ne_eq, TV.cond.injEq] at hj ⊢
        omega)
      have : tst st s1 (hoist (conj rem) (t' :: ts) k).2 = tst st sA (hoist (conj rem) (t' :: ts) k).2 := by
        simp only [hoist, tst, tx, e1]
      rw [this, g3]
      obtain ⟨v1, v2⟩ := sec_val st hk e (List.cons_ne_nil _ _) hK hH ht
      rcases all_or_none s0 (t' :: ts) with hall | hn
      · have : (t' :: ts).all (fun t => (s0 t).isSome) = true := by
          rw [List.all_eq_true]
          intro v hv
          obtain ⟨w, hw⟩ := hall v hv
          rw [hw]; rfl
        rw [this, v1 hall]; rfl
      · have hn' := hn
        obtain ⟨v, hv, hv'⟩ := hn
        have : (t' :: ts).all (fun t => (s0 t).isSome) = false := by
          rw [List.all_eq_false]
          exact ⟨v, hv, by rw [hv']; simp⟩
        rw [this, v2 hn']; rfl
    have ag : Agree s0 s1 := by
      intro x hx
      rw [g5 x (fun j _ => hx j), g2 x (fun j _ => hx j)]
    refine ⟨ag, fun h => ?_, fun h => ⟨_, q, sA, h1, From.agree g2, hp', ?_⟩⟩
    · subst h; simp only [tRun, hcond]
    · subst h; simp only [tRun, hcond]; exact rest_code b h1 s1

/-! ## Simulation -/

variable {pcall : Nat → List (Option Int) → Option (Option Int)}

theorem sim (hcall : ∀ f vs ρ, FitB (opts f) vs → pcall f vs = some ρ → tcall f vs = some (ρ, vs) ∧ (rets f = true → ∃ v, ρ = some v))
    (c : Code Var) : ∀ A H N k o r σ s0 s1 σ' v, check st opts rets O c A H N = some r → tr O c A k = some o → Rel O F A σ s0 →
      Known N σ → Known H σ → (∀ x, x ∈ aft O c A → x ∈ F) → tRun st opts tcall n o.pre s0 = some (s1, none) →
      pyRun pcall n c σ = some (σ', v) →
      ∃ s' v', tRun st opts tcall n o.code s1 = some (s', v') ∧ Post O F (aft O c A) r σ σ' s1 s' v v' := by
  -- the statements before it and the statement
  have all : ∀ c, (∀ A H N k o r σ s0 s1 σ' v, check st opts rets O c A H N = some r → tr O c A k = some o → Rel O F A σ s0 →
      Known N σ → Known H σ → (∀ x, x ∈ aft O c A → x ∈ F) → tRun st opts tcall n o.pre s0 = some (s1, none) →
      pyRun pcall n c σ = some (σ', v) →
      ∃ s' v', tRun st opts tcall n o.code s1 = some (s', v') ∧ Post O F (aft O c A) r σ σ' s1 s' v v') →
      ∀ A N k o r σ s0 σ' v, check st opts rets O c A N N = some r → tr O c A k = some o → Rel O F A σ s0 →
      Known N σ → (∀ x, x ∈ aft O c A → x ∈ F) → pyRun pcall n c σ = some (σ', v) →
      ∃ s' v', tRun st opts tcall n o.all s0 = some (s', v') ∧ Post O F (aft O c A) r σ σ' s0 s' v v' := by
    intro c ih A N k o r σ s0 σ' v hc ht hr hN hF hp
    obtain ⟨s1, g1, g2⟩ := pre_ok tcall n c A N N k o r σ s0 hc ht hr hF hN
    obtain ⟨s', v', g3, g4, g5, g6⟩ := ih A N N k o r σ s0 s1 σ' v hc ht hr hN hN hF g1 hp
    refine ⟨s', v', by rw [all_pre g1, g3], g4, fun x => ?_, g6⟩
    rw [g5 x]; exact g2.agree (.arg x) (by simp)
  induction c with
  | skip =>
    intro A H N k o r σ s0 s1 σ' v hc ht hr hN hH hF hpre hp
    cases ht; cases hpre; cases hp; cases hc
    exact ⟨_, none, rfl, rfl, fun _ => rfl, fun _ => ⟨hr, ⟨N, rfl, hN⟩, Keeps.refl _⟩⟩
  | seq a b iha ihb =>
    intro A H N k o r σ s0 s1 σ' v hc ht hr hN hH hF hpre hp
    simp only [tr] at ht
    split at ht
    · cases ht
    rename_i o1 h1
    split at ht
    · cases ht
    rename_i o2 h2
    cases ht; cases hpre
    have hFa : ∀ x, x ∈ aft O a A → x ∈ F := fun x hx => hF x (aft_mono O b _ x hx)
    simp only [pyRun] at hp
    cases hpa : pyRun pcall n a σ with
    | none => rw [hpa] at hp; cases hp
    | some p =>
      obtain ⟨σ1, va⟩ := p
      rw [hpa] at hp
      simp only [check] at hc
      cases hca : check st opts rets O a A N N with
      | none => rw [hca] at hc; cases hc
      | some ra =>
        obtain ⟨sa, va', g1, g2, g3, g4⟩ := all a iha A N k o1 ra σ _ σ1 va hca h1 hr hN hFa hpa
        cases va' with
        | some w =>
          simp only [Option.map_some] at g2
          subst g2
          cases hp
          refine ⟨sa, some w, by simp only [tRun, g1], rfl, g3, fun h => by cases h⟩
        | none =>
          simp only [Option.map_none] at g2
          subst g2
          obtain ⟨r1, ⟨N1, rfl, k1⟩, kp⟩ := g4 rfl
          rw [hca] at hc
          simp only at hc hp
          obtain ⟨sb, vb', e1, e2, e3, e4⟩ := all b ihb _ N1 _ o2 r σ1 sa σ' v hc h2 r1 k1 hF hp
          refine ⟨sb, vb', by simp only [tRun, g1, e1], e2, fun x => by rw [e3 x, g3 x], fun h => ?_⟩
          obtain ⟨f1, f2, f3⟩ := e4 h
          exact ⟨f1, f2, kp.trans f3⟩
  | assign x e =>
    intro A H N k o r σ s0 s1 σ' v hc ht hr hN hH hF hpre hp
    have hAF : ∀ y, y ∈ A → y ∈ F := fun y hy => hF y (aft_mono O _ _ y hy)
    have hK := rel_known hr hAF hN
    simp only [check] at hc
    simp only [tr] at ht
    simp only [pyRun] at hp
    split at hc
    · rename_i he
      rw [if_pos he] at ht
      subst he
      have haft : aft O (.assign x (.var x)) A = A := by simp [aft]
      rw [haft]
      split at hc
      · rename_i hx
        cases hc
        simp only [pyExpr] at hp
        cases hσ : σ x with
        | none => rw [hσ] at hp; cases hp
        | some ρ =>
          rw [hσ] at hp
          cases hp
          have hid : upd σ x (some ρ) = σ := by
            funext y
            by_cases e : y = x
            · subst e; rw [upd_self, hσ]
            · exact upd_ne _ _ e
          rw [hid]
          split at ht
          · rename_i hl
            cases ht; cases hpre
            simp only [Bool.and_eq_true, List.contains_eq_mem, decide_eq_true_eq] at hl
            have hxN : x ∈ N := by simpa [hl.1, hl.2] using hx
            obtain ⟨w, hw⟩ := hN x hxN
            have hloc := hr.loc x (some w) hl.1 (hAF x hl.2) hw
            have hs : upd s0 (.loc x) (some w) = s0 := by
              funext t
              by_cases e : t = .loc x
              · subst e; rw [upd_self, hloc]
              · exact upd_ne _ _ e
            refine ⟨s0, none, by simp only [tRun, tx, hloc, Option.map_some, hs], rfl, fun _ => rfl,
              fun _ => ⟨hr, ⟨N, rfl, hN⟩, Keeps.refl _⟩⟩
          · cases ht; cases hpre
            exact ⟨s0, none, rfl, rfl, fun _ => rfl, fun _ => ⟨hr, ⟨N, rfl, hN⟩, Keeps.refl _⟩⟩
      · cases hc
    · rename_i he
      rw [if_neg he] at ht
      have haft : aft O (.assign x e) A = x :: A := by simp [aft, he]
      rw [haft]
      split at hc
      · rename_i hk
        cases hc; cases ht; cases hpre
        cases hpe : pyExpr σ e with
        | none => rw [hpe] at hp; cases hp
        | some ρ =>
          rw [hpe] at hp
          cases hp
          obtain ⟨w, rfl, hw⟩ := tx_sim hr hAF hK e ρ hk hpe
          refine ⟨upd s0 (lhs O x) (some w), none, by simp only [tRun, hw, Option.map_some], rfl,
            fun y => upd_ne _ _ (lhs_arg O x y), fun _ => ⟨?_, ⟨_, rfl, known_upd hN x w⟩, keeps_upd σ x w⟩⟩
          exact rel_assign hr x w (fun y hy => List.mem_cons_of_mem _ hy) (fun _ => by simp)
      · cases hc
  | choose x c a b =>
    intro A H N k o r σ s0 s1 σ' v hc ht hr hN hH hF hpre hp
    have hAF : ∀ y, y ∈ A → y ∈ F := fun y hy => hF y (aft_mono O _ _ y hy)
    have hK := rel_known hr hAF hN
    simp only [check] at hc
    split at hc
    · rename_i hk
      cases hc
      simp only [Bool.and_eq_true] at hk
      obtain ⟨⟨⟨k1, k2⟩, k3⟩, k4⟩ := hk
      simp only [pyRun] at hp
      cases hpt : pyTest σ c with
      | none => rw [hpt] at hp; cases hp
      | some t =>
        rw [hpt] at hp
        simp only at hp
        have hl := test_sim hr hAF hN c _ t hK k1 k2 hpt
        have hst := strictOk_tst (st := st) hK _ t k3 hl
        cases hpe : pyExpr σ (if t then a else b) with
        | none => rw [hpe] at hp; cases hp
        | some ρ =>
          rw [hpe] at hp
          cases hp
          have fin : ∀ w : Int, Rel O F (aft O (.choose x c a b) A) (upd σ x (some (some w))) (upd s0 (lhs O x) (some w)) ∧
              (∃ N', some (x :: N) = some N' ∧ Known N' (upd σ x (some (some w)))) ∧ Keeps σ (upd σ x (some (some w))) := by
            intro w
            exact ⟨rel_assign hr x w (fun y hy => List.mem_cons_of_mem _ hy) (fun _ => by simp [aft]), ⟨_, rfl, known_upd hN x w⟩,
              keeps_upd σ x w⟩
          simp only [tr] at ht
          split at ht
          · rename_i t' hct
            rw [hct] at hl k4
            simp only [chooseOk] at k4
            have htt : t' = t := by simpa [tst] using hl
            subst htt
            cases ht; cases hpre
            obtain ⟨w, rfl, hw⟩ := tx_sim hr hAF hK _ ρ k4 hpe
            exact ⟨upd s0 (lhs O x) (some w), none, by simp only [tRun, hw, Option.map_some], rfl,
              fun y => upd_ne _ _ (lhs_arg O x y), fun _ => fin w⟩
          · rename_i hne
            cases ht; cases hpre
            have k4' : (if st = true then exprTot (ks O A N) (trE O A a) && exprTot (ks O A N) (trE O A b)
                else exprOk (ks O A N ++ facts (trCond O A c) true) (trE O A a) &&
                  exprOk (ks O A N ++ facts (trCond O A c) false) (trE O A b)) = true := by
              unfold chooseOk at k4
              split at k4
              · rename_i t' hct
                exact absurd hct (hne t')
              · exact k4
            cases st with
            | true =>
              simp only [if_true, Bool.and_eq_true] at k4'
              obtain ⟨va, ha⟩ := exprTot_tx hK _ k4'.1
              obtain ⟨vb, hb⟩ := exprTot_tx hK _ k4'.2
              have key : ρ = some (if t then va else vb) := by
                cases t with
                | true =>
                  have hex : ∃ w, ρ = some w ∧ tx s0 (trE O A a) = some w := by
                    have : exprOk (ks O A N) (trE O A a) = true := exprTot_ok _ k4'.1
                    exact tx_sim hr hAF hK a ρ this (by simpa using hpe)
                  obtain ⟨w, rfl, hw⟩ := hex
                  rw [ha] at hw; simpa using (Option.some.inj hw).symm
                | false =>
                  have hex : ∃ w, ρ = some w ∧ tx s0 (trE O A b) = some w := by
                    have : exprOk (ks O A N) (trE O A b) = true := exprTot_ok _ k4'.2
                    exact tx_sim hr hAF hK b ρ this (by simpa using hpe)
                  obtain ⟨w, rfl, hw⟩ := hex
                  rw [hb] at hw; simpa using (Option.some.inj hw).symm
              subst key
              exact ⟨upd s0 (lhs O x) (some (if t then va else vb)), none, by simp only [tRun, hst, ha, hb, if_true], rfl,
                fun y => upd_ne _ _ (lhs_arg O x y), fun _ => fin _⟩
            | false =>
              simp only [Bool.false_eq_true, if_false, Bool.and_eq_true] at k4'
              have hf := facts_t false s0 _ t hl
              have hex : ∃ w, ρ = some w ∧ tx s0 (if t then trE O A a else trE O A b) = some w := by
                cases t with
                | true => exact tx_sim hr hAF (hK.append hf) a ρ k4'.1 (by simpa using hpe)
                | false => exact tx_sim hr hAF (hK.append hf) b ρ k4'.2 (by simpa using hpe)
              obtain ⟨w, rfl, hw⟩ := hex
              exact ⟨upd s0 (lhs O x) (some w), none,
                by simp only [tRun, hst, hw, Bool.false_eq_true, if_false, Option.map_some], rfl,
                fun y => upd_ne _ _ (lhs_arg O x y), fun _ => fin w⟩
    · cases hc
  | aug x e =>
    intro A H N k o r σ s0 s1 σ' v hc ht hr hN hH hF hpre hp
    have hAF : ∀ y, y ∈ A → y ∈ F := fun y hy => hF y (aft_mono O _ _ y hy)
    have hK := rel_known hr hAF hN
    simp only [check] at hc
    split at hc
    · rename_i hk
      cases hc; cases ht; cases hpre
      simp only [Bool.and_eq_true, Bool.not_eq_true'] at hk
      have hlhs : tv O A x = lhs O x ∧ (O x = true → x ∈ A) := by
        rcases tv_cases O A x with ⟨ho, e⟩ | ⟨ho, hA, e⟩ | ⟨ho, hA, e⟩
        · exact ⟨by simp [lhs, ho, e], fun h => by rw [ho] at h; cases h⟩
        · exact ⟨by simp [lhs, ho, e], fun _ => hA⟩
        · rw [isArg_iff.2 ⟨ho, hA⟩] at hk; cases hk.1
      simp only [pyRun] at hp
      cases hpe : pyExpr σ (.add (.var x) e) with
      | none => rw [hpe] at hp; cases hp
      | some ρ =>
        rw [hpe] at hp
        cases hp
        obtain ⟨w, rfl, hw⟩ := tx_sim hr hAF hK _ ρ hk.2 hpe
        have hrun : tRun st opts tcall n (.aug (tv O A x) (trE O A e)) s0 = some (upd s0 (lhs O x) (some w), none) := by
          simp only [trE, hlhs.1] at hw
          have : ∀ y, lhs O x ≠ .arg y := fun y h => lhs_arg O x y h.symm
          rw [hlhs.1]
          simp only [tRun]
          split
          · rename_i y hy
            exact absurd hy (this y)
          · simp only [hw, Option.map_some]
        exact ⟨_, none, hrun, rfl, fun y => upd_ne _ _ (lhs_arg O x y),
          fun _ => ⟨rel_assign hr x w (fun _ h => h) hlhs.2, ⟨_, rfl, known_upd hN x w⟩, keeps_upd σ x w⟩⟩
    · cases hc
  | ret e =>
    intro A H N k o r σ s0 s1 σ' v hc ht hr hN hH hF hpre hp
    have hAF : ∀ y, y ∈ A → y ∈ F := fun y hy => hF y (aft_mono O _ _ y hy)
    have hK := rel_known hr hAF hN
    simp only [check] at hc
    split at hc
    · rename_i hk
      cases hc; cases ht; cases hpre
      simp only [pyRun] at hp
      cases hpe : pyExpr σ e with
      | none => rw [hpe] at hp; cases hp
      | some ρ =>
        rw [hpe] at hp
        cases hp
        obtain ⟨w, rfl, hw⟩ := tx_sim hr hAF hK _ ρ hk hpe
        exact ⟨s0, some w, by simp only [tRun, hw, Option.map_some], rfl, fun _ => rfl, fun h => by cases h⟩
    · cases hc
  | ite c a b iha ihb =>
    intro A H N k o r σ s0 s1 σ' v hc ht hr hN hH hF hpre hp
    obtain ⟨c1, c2, c3, c4, c5⟩ := check_ite hc
    have hAF : ∀ y, y ∈ A → y ∈ F := fun y hy => hF y (aft_mono O _ _ y hy)
    simp only [pyRun] at hp
    cases hpt : pyTest σ c with
    | none => rw [hpt] at hp; cases hp
    | some t =>
      rw [hpt] at hp
      have hv := sec_sim hr hAF hN c t c1 c2 hpt
      rcases sec_cases O A c with e | e | e
      · rw [e] at hv
        have : t = false := by simpa [tst] using hv.symm
        subst this
        simp only at hp
        simp only [tr, e] at ht
        split at ht
        · cases ht
        · rename_i q hq
          cases ht; cases hpre
          have haft : aft O (.ite c a b) A = aft O b A := by simp only [aft, e]
          rw [haft] at hF ⊢
          exact all b ihb A N k q r σ _ σ' v (c3 e) hq hr hN hF hp
      · rw [e] at hv
        have : t = true := by simpa [tst] using hv.symm
        subst this
        simp only at hp
        simp only [tr, e] at ht
        split at ht
        · cases ht
        · rename_i q hq
          cases ht; cases hpre
          have haft : aft O (.ite c a b) A = aft O a A := by simp only [aft, e]
          rw [haft] at hF ⊢
          exact all a iha A N k q r σ _ σ' v (c4 e) hq hr hN hF hp
      · obtain ⟨hk, ra, rb, h1, h2, rfl⟩ := c5 e
        obtain ⟨oa, o', ht1, ht2, rfl⟩ := tr_ite e ht
        cases hpre
        have haft := (aft_sec (a := a) (b := b) e).1
        rw [haft] at hF ⊢
        have hFa : ∀ x, x ∈ aft O a A → x ∈ F := fun x hx => hF x (aft_mono O b _ x hx)
        have hr' : Rel O F (aft O a A) σ s0 := hr.mono (aft_mono O a A)
        have hK := rel_known hr hAF hN
        have hq : ∀ k' q, tr O b (aft O a A) k' = some q → ∀ s, Agree s0 s →
            ∃ s1, tRun st opts tcall n q.pre s = some (s1, none) ∧ From k' s s1 :=
          fun k' q hq s hs => pre_ok tcall n b _ N _ k' q rb σ s h2 hq (hr'.agree hs) hF hN
        obtain ⟨s1, hs1⟩ := sec_pre hk hK (fun _ => ⟨hK, t, hv⟩) (secCond_noTmp O A c) ht2 hq
        obtain ⟨ag, z1, z2⟩ := sec_run hk hK hK hv (secCond_noTmp O A c) ht2 hq hs1
        cases t with
        | true =>
          simp only at hp
          obtain ⟨s', v', e1, e2, e3, e4⟩ := all a iha A _ k oa ra σ s1 σ' v h1 ht1 (hr.agree ag)
            (hN.append (facts_py σ c true hpt)) hFa hp
          refine ⟨s', v', by rw [all_pre hs1, z1 rfl, e1], e2, fun x => by rw [e3 x]; exact ag _ (by simp), fun h => ?_⟩
          obtain ⟨f1, f2, f3⟩ := e4 h
          exact ⟨f1.mono (aft_mono O b _), join_left f2, f3⟩
        | false =>
          simp only at hp
          obtain ⟨k', q, sA, z3, z4, z5, z6⟩ := z2 rfl
          obtain ⟨s', v', e1, e2, e3, e4⟩ := ihb _ N _ k' q rb σ sA s1 σ' v h2 z3 (hr'.agree z4)
            (hN.append (facts_py σ c false hpt)) hN hF z5 hp
          refine ⟨s', v', by rw [all_pre hs1, z6, e1], e2, fun x => by rw [e3 x]; exact ag _ (by simp), fun h => ?_⟩
          obtain ⟨f1, f2, f3⟩ := e4 h
          exact ⟨f1, join_right f2, f3⟩
  | elif c a b iha ihb =>
    intro A H N k o r σ s0 s1 σ' v hc ht hr hN hH hF hpre hp
    obtain ⟨c1, c2, c3, c4, c5⟩ := check_elif hc
    have hAF : ∀ y, y ∈ A → y ∈ F := fun y hy => hF y (aft_mono O _ _ y hy)
    simp only [pyRun] at hp
    cases hpt : pyTest σ c with
    | none => rw [hpt] at hp; cases hp
    | some t =>
      rw [hpt] at hp
      have hv := sec_sim hr hAF hN c t c1 c2 hpt
      rcases sec_cases O A c with e | e | e
      · rw [e] at hv
        have : t = false := by simpa [tst] using hv.symm
        subst this
        simp only at hp
        simp only [tr, e, Option.map_eq_some_iff] at ht
        obtain ⟨q, hq, rfl⟩ := ht
        have haft : aft O (.elif c a b) A = aft O b A := by simp only [aft, e]
        rw [haft] at hF ⊢
        rw [inRest_pre b hq] at hpre
        rw [rest_code b hq]
        exact ihb A H N k q r σ s0 s1 σ' v (c3 e) hq hr hN hH hF hpre hp
      · rw [e] at hv
        have : t = true := by simpa [tst] using hv.symm
        subst this
        simp only at hp
        simp only [tr, e] at ht
        split at ht
        · cases ht
        · rename_i q hq
          cases ht; cases hpre
          have haft : aft O (.elif c a b) A = aft O a A := by simp only [aft, e]
          rw [haft] at hF ⊢
          exact all a iha A N k q r σ _ σ' v (c4 e) hq hr hN hF hp
      · obtain ⟨hk, ra, rb, h1, h2, rfl⟩ := c5 e
        obtain ⟨oa, ht1, ht2⟩ := tr_elif e ht
        have haft := (aft_sec (a := a) (b := b) e).2
        rw [haft] at hF ⊢
        have hFa : ∀ x, x ∈ aft O a A → x ∈ F := fun x hx => hF x (aft_mono O b _ x hx)
        have hr' : Rel O F (aft O a A) σ s0 := hr.mono (aft_mono O a A)
        have hK := rel_known hr hAF hN
        have hKH := rel_known hr hAF hH
        have hq : ∀ k' q, tr O b (aft O a A) k' = some q → ∀ s, Agree s0 s →
            ∃ s1, tRun st opts tcall n q.pre s = some (s1, none) ∧ From k' s s1 :=
          fun k' q hq s hs => pre_ok tcall n b _ H _ k' q rb σ s h2 hq (hr'.agree hs) hF hH
        obtain ⟨ag, z1, z2⟩ := sec_run hk hK hKH hv (secCond_noTmp O A c) ht2 hq hpre
        cases t with
        | true =>
          simp only at hp
          obtain ⟨s', v', e1, e2, e3, e4⟩ := all a iha A _ k oa ra σ s1 σ' v h1 ht1 (hr.agree ag)
            (hN.append (facts_py σ c true hpt)) hFa hp
          refine ⟨s', v', by rw [z1 rfl, e1], e2, e3, fun h => ?_⟩
          obtain ⟨f1, f2, f3⟩ := e4 h
          exact ⟨f1.mono (aft_mono O b _), join_left f2, f3⟩
        | false =>
          simp only at hp
          obtain ⟨k', q, sA, z3, z4, z5, z6⟩ := z2 rfl
          obtain ⟨s', v', e1, e2, e3, e4⟩ := ihb _ H _ k' q rb σ sA s1 σ' v h2 z3 (hr'.agree z4)
            (hN.append (facts_py σ c false hpt)) hH hF z5 hp
          refine ⟨s', v', by rw [z6, e1], e2, e3, fun h => ?_⟩
          obtain ⟨f1, f2, f3⟩ := e4 h
          exact ⟨f1, join_right f2, f3⟩
  | loop c a ih =>
    intro A H N k o r σ s0 s1 σ' v hc ht hr hN hH hF hpre hp
    have hAF : ∀ y, y ∈ A → y ∈ F := fun y hy => hF y (aft_mono O _ _ y hy)
    simp only [tr] at ht
    split at ht
    · cases ht
    rename_i q hq
    cases ht; cases hpre
    simp only [check] at hc
    split at hc
    · rename_i hk
      cases hc
      simp only [Bool.and_eq_true] at hk
      obtain ⟨⟨⟨⟨k1, k2⟩, k3⟩, k4⟩, k5⟩ := hk
      obtain ⟨ra, hra⟩ := Option.isSome_iff_exists.1 k5
      have hback : ∀ σ s, Rel O F (aft O a A) σ s → Rel O F A σ s := by
        intro σ s h
        refine ⟨h.plain, fun x ho hx => h.arg x ho (fun hx' => ?_), h.bound, h.loc⟩
        have := List.all_eq_true.1 k1 x hx'
        simp only [ho, Bool.not_true, Bool.false_or, List.contains_eq_mem, decide_eq_true_eq] at this
        exact hx this
      have key : ∀ m σ s σ' v, Rel O F A σ s → Known N σ → loopN (fun σ => pyTest σ c) (pyRun pcall n a) m σ = some (σ', v) →
          ∃ s' v', loopN (fun s => tst st s (trCond O A c)) (tRun st opts tcall n q.all) m s = some (s', v') ∧
            Post O F A (some (N ++ facts c false)) σ σ' s s' v v' := by
        intro m
        induction m with
        | zero => intro σ s σ' v _ _ h; simp [loopN] at h
        | succ m ihm =>
          intro σ s σ' v hr hN hp
          simp only [loopN] at hp ⊢
          cases hpt : pyTest σ c with
          | none => rw [hpt] at hp; cases hp
          | some t =>
            have hK := rel_known hr hAF hN
            have hst := strictOk_tst (st := st) hK _ t k4 (test_sim hr hAF hN c _ t hK k2 k3 hpt)
            rw [hpt] at hp
            rw [hst]
            cases t with
            | false =>
              cases hp
              exact ⟨s, none, rfl, rfl, fun _ => rfl, fun _ => ⟨hr, ⟨_, rfl, hN.append (facts_py σ c false hpt)⟩, Keeps.refl _⟩⟩
            | true =>
              simp only at hp ⊢
              cases hpa : pyRun pcall n a σ with
              | none => rw [hpa] at hp; cases hp
              | some p =>
                obtain ⟨σ1, va⟩ := p
                rw [hpa] at hp
                obtain ⟨sa, va', g1, g2, g3, g4⟩ := all a ih A _ k q ra σ s σ1 va hra hq hr
                  (hN.append (facts_py σ c true hpt)) hF hpa
                rw [g1]
                cases va' with
                | some w =>
                  simp only [Option.map_some] at g2
                  subst g2
                  cases hp
                  exact ⟨sa, some w, rfl, rfl, g3, fun h => by cases h⟩
                | none =>
                  simp only [Option.map_none] at g2
                  subst g2
                  obtain ⟨r1, _, kp⟩ := g4 rfl
                  obtain ⟨s', v', e1, e2, e3, e4⟩ := ihm σ1 sa σ' v (hback _ _ r1) (kp.known hN) hp
                  refine ⟨s', v', e1, e2, fun x => by rw [e3 x, g3 x], fun h => ?_⟩
                  obtain ⟨f1, f2, f3⟩ := e4 h
                  exact ⟨f1, f2, kp.trans f3⟩
      simp only [pyRun] at hp
      obtain ⟨s', v', e1, e2, e3, e4⟩ := key n σ _ σ' v hr hN hp
      refine ⟨s', v', by simp only [tRun, e1], e2, e3, fun h => ?_⟩
      obtain ⟨f1, f2, f3⟩ := e4 h
      exact ⟨f1.mono (aft_mono O a A), f2, f3⟩
    · cases hc
  | call rv f args m =>
    intro A H N k o r σ s0 s1 σ' v hc ht hr hN hH hF hpre hp
    have hAF : ∀ y, y ∈ A → y ∈ F := fun y hy => hF y (aft_mono O _ _ y hy)
    have hK := rel_known hr hAF hN
    cases ht; cases hpre
    simp only [check] at hc
    split at hc
    · rename_i hk
      cases hc
      simp only [Bool.and_eq_true, Bool.or_eq_true] at hk
      obtain ⟨⟨k1, k2⟩, k3⟩ := hk
      simp only [pyRun] at hp
      cases hpa : pyArgs σ args with
      | none => rw [hpa] at hp; cases hp
      | some vs =>
        rw [hpa] at hp
        simp only at hp
        obtain ⟨p1, p2⟩ := args_sim hr hAF hK args _ vs k1 hpa
        have hbind : (if st = true then fBind m (trArgs O A args) else trArgs O A args) = trArgs O A args := by
          cases st with
          | false => rfl
          | true =>
            simp only [if_true]
            have : fBind m args = args := by simpa using k2
            unfold trArgs
            rw [fBind_map, this]
        cases hpc : pcall f vs with
        | none => rw [hpc] at hp; cases hp
        | some ρ =>
          rw [hpc] at hp
          obtain ⟨q1, q2⟩ := hcall f vs ρ p2 hpc
          have hco := copyOut_id _ _ _ _ p1
          cases rv with
          | none =>
            cases hp
            refine ⟨_, none, ?_, rfl, fun _ => rfl, fun _ => ⟨hr, ⟨N, by simp, hN⟩, Keeps.refl _⟩⟩
            simp only [Option.map_none, tRun, hbind, p1, q1, hco]
          | some x =>
            have hret : rets f = true := by simpa using k3
            obtain ⟨w, rfl⟩ := q2 hret
            cases hp
            refine ⟨upd _ (lhs O x) (some w), none, ?_, rfl, fun y => upd_ne _ _ (lhs_arg O x y),
              fun _ => ⟨?_, ⟨x :: N, by simp, known_upd hN x w⟩, keeps_upd σ x w⟩⟩
            · simp only [Option.map_some, tRun, hbind, p1, q1, hco]
            · exact rel_assign hr x w (fun y hy => List.mem_cons_of_mem _ hy) (fun _ => by simp [aft])
    · cases hc
end

/-! ## Functions -/

theorem fits_fitB : ∀ (ps : List (Var × Bool)) (vs : List (Option Int)), Fits ps vs ↔ FitB (ps.map (fun p => p.2)) vs := by
  intro ps
  induction ps with
  | nil => intro vs; cases vs <;> simp [Fits, FitB]
  | cons p ps ih =>
    intro vs
    obtain ⟨x, o⟩ := p
    cases vs with
    | nil => simp [Fits, FitB]
    | cons v vs => simp [Fits, FitB, ih]

theorem optOf_cons (x : Var) (o : Bool) (ps : List (Var × Bool)) (y : Var) :
    optOf ((x, o) :: ps) y = ((o && decide (x = y)) || optOf ps y) := by
  simp [optOf]

theorem optOf_mem {ps : List (Var × Bool)} {x : Var} : optOf ps x = true ↔ (x, true) ∈ ps := by
  simp only [optOf, List.any_eq_true, Bool.and_eq_true, decide_eq_true_eq]
  constructor
  · rintro ⟨⟨y, o⟩, h1, h2, h3⟩
    simp only at h2 h3
    subst h2; subst h3
    exact h1
  · intro h
    exact ⟨(x, true), h, rfl, rfl⟩

/-- The states at the start of a call. -/
theorem init_spec : ∀ (ps : List (Var × Bool)) (vs : List (Option Int)), (ps.map (fun p => p.1)).Nodup → Fits ps vs →
    (∀ x, x ∉ ps.map (fun p => p.1) → pyInit ps vs x = none ∧ tInit ps vs (.arg x) = none ∧ tInit ps vs (.plain x) = none) ∧
    (∀ x, (x, true) ∈ ps → pyInit ps vs x = some (tInit ps vs (.arg x))) ∧
    (∀ x, (x, false) ∈ ps → ∃ v, pyInit ps vs x = some (some v) ∧ tInit ps vs (.plain x) = some v) ∧
    (∀ x, tInit ps vs (.loc x) = none) := by
  intro ps
  induction ps with
  | nil => intro vs _ _; cases vs <;> simp [pyInit, tInit]
  | cons p ps ih =>
    obtain ⟨y, o⟩ := p
    intro vs hnd hf
    cases vs with
    | nil => simp [Fits] at hf
    | cons v vs =>
      simp only [List.map_cons, List.nodup_cons] at hnd
      simp only [Fits] at hf
      obtain ⟨i1, i2, i3, i4⟩ := ih vs hnd.2 hf.2
      have hne : ∀ x o', (x, o') ∈ ps → x ≠ y := by
        intro x o' hx e
        subst e
        exact hnd.1 (List.mem_map.2 ⟨(x, o'), hx, rfl⟩)
      refine ⟨fun x hx => ?_, fun x hx => ?_, fun x hx => ?_, fun x => ?_⟩
      · simp only [List.map_cons, List.mem_cons, not_or] at hx
        obtain ⟨j1, j2, j3⟩ := i1 x hx.2
        refine ⟨?_, ?_, ?_⟩
        · simp only [pyInit]; rw [upd_ne _ _ hx.1]; exact j1
        · simp only [tInit]; rw [upd_ne]; exact j2
          cases o <;> simp [hx.1]
        · simp only [tInit]; rw [upd_ne]; exact j3
          cases o <;> simp [hx.1]
      · simp only [List.mem_cons, Prod.mk.injEq] at hx
        rcases hx with ⟨rfl, rfl⟩ | hx
        · simp [pyInit, tInit, upd_self]
        · have := hne x true hx
          simp only [pyInit, tInit]
          rw [upd_ne _ _ this, upd_ne]
          · exact i2 x hx
          · cases o <;> simp [this]
      · simp only [List.mem_cons, Prod.mk.injEq] at hx
        rcases hx with ⟨rfl, rfl⟩ | hx
        · obtain ⟨w, hw⟩ := Option.isSome_iff_exists.1 (hf.1 rfl)
          subst hw
          exact ⟨w, by simp [pyInit, upd_self], by simp [tInit, upd_self]⟩
        · have := hne x false hx
          obtain ⟨w, j1, j2⟩ := i3 x hx
          refine ⟨w, ?_, ?_⟩
          · simp only [pyInit]; rw [upd_ne _ _ this]; exact j1
          · simp only [tInit]; rw [upd_ne]; exact j2
            cases o <;> simp [this]
      · simp only [tInit]
        rw [upd_ne]
        · exact i4 x
        · cases o <;> simp

/-- The initialisation of the local copies. -/
theorem inits_run (st : Bool) (opts tcall) (n : Nat) (F : List Var) : ∀ (ps : List (Var × Bool)) (s : St),
    ∃ s', tRun st opts tcall n (inits ps F) s = some (s', none) ∧ (∀ x, s' (.arg x) = s (.arg x)) ∧ (∀ x, s' (.plain x) = s (.plain x)) ∧
      (∀ x, (x, true) ∈ ps → x ∈ F → s (.loc x) = none → s' (.loc x) = s (.arg x)) ∧
      (∀ x, s (.loc x) = s (.arg x) → s' (.loc x) = s (.arg x)) := by
  intro ps
  induction ps with
  | nil => intro s; exact ⟨s, rfl, fun _ => rfl, fun _ => rfl, fun x hx => absurd hx List.not_mem_nil, fun _ h => h⟩
  | cons p ps ih =>
    obtain ⟨y, o⟩ := p
    intro s
    simp only [inits]
    split
    · rename_i hc
      simp only [Bool.and_eq_true, List.contains_eq_mem, decide_eq_true_eq] at hc
      cases hy : s (.arg y) with
      | none =>
        obtain ⟨s', g1, g2, g3, g4, g5⟩ := ih s
        refine ⟨s', ?_, g2, g3, fun x hx hF hn => ?_, g5⟩
        · have : tst st s (.notNone (.arg y)) = some false := by simp [tst, hy]
          simp only [tRun, this, g1]
        · by_cases e : x = y
          · subst e
            exact g5 x (by rw [hn, hy])
          · simp only [List.mem_cons, Prod.mk.injEq, e, false_and, false_or] at hx
            exact g4 x hx hF hn
      | some w =>
        obtain ⟨s', g1, g2, g3, g4, g5⟩ := ih (upd s (.loc y) (some w))
        have ea : ∀ x, upd s (.loc y) (some w) (.arg x) = s (.arg x) := fun x => upd_ne _ _ (by simp)
        refine ⟨s', ?_, fun x => by rw [g2, ea], fun x => by rw [g3]; exact upd_ne _ _ (by simp), fun x hx hF hn => ?_, fun x hx => ?_⟩
        · have : tst st s (.notNone (.arg y)) = some true := by simp [tst, hy]
          simp only [tRun, this, tx, hy, Option.map_some, g1]
        · by_cases e : x = y
          · subst e
            rw [← ea x]
            exact g5 x (by rw [upd_self, ea, hy])
          · simp only [List.mem_cons, Prod.mk.injEq, e, false_and, false_or] at hx
            rw [← ea x]
            exact g4 x hx hF (by rw [upd_ne _ _ (by simp [e])]; exact hn)
        · by_cases e : x = y
          · subst e
            rw [← ea x]
            exact g5 x (by rw [upd_self, ea, hy])
          · rw [← ea x]
            exact g5 x (by rw [upd_ne _ _ (by simp [e]), ea]; exact hx)
    · rename_i hc
      simp only [Bool.and_eq_true, List.contains_eq_mem, decide_eq_true_eq, not_and] at hc
      obtain ⟨s', g1, g2, g3, g4, g5⟩ := ih s
      refine ⟨s', g1, g2, g3, fun x hx hF hn => ?_, g5⟩
      simp only [List.mem_cons, Prod.mk.injEq] at hx
      rcases hx with ⟨rfl, rfl⟩ | hx
      · exact absurd hF (hc rfl)
      · exact g4 x hx hF hn

theorem tOut_spec : ∀ (ps : List (Var × Bool)) (vs : List (Option Int)) (s : St), vs.length = ps.length → (ps.map (fun p => p.1)).Nodup →
    (∀ x, (x, true) ∈ ps → s (.arg x) = tInit ps vs (.arg x)) → tOut ps vs s = vs := by
  intro ps
  induction ps with
  | nil => intro vs s h _ _; cases vs; rfl; simp at h
  | cons p ps ih =>
    obtain ⟨y, o⟩ := p
    intro vs s h hnd hs
    cases vs with
    | nil => simp at h
    | cons v vs =>
      simp only [List.map_cons, List.nodup_cons] at hnd
      simp only [tOut]
      congr 1
      · cases o with
        | false => rfl
        | true =>
          have := hs y (by simp)
          simp only [if_true, this, tInit, upd_self]
      · refine ih vs s (by simpa using h) hnd.2 (fun x hx => ?_)
        rw [hs x (List.mem_cons_of_mem _ hx)]
        simp only [tInit]
        rw [upd_ne]
        have : x ≠ y := by
          intro e
          subst e
          exact hnd.1 (List.mem_map.2 ⟨(x, true), hx, rfl⟩)
        cases o <;> simp [this]

theorem fits_length : ∀ (ps : List (Var × Bool)) (vs : List (Option Int)), Fits ps vs → vs.length = ps.length := by
  intro ps
  induction ps with
  | nil => intro vs h; cases vs; rfl; simp [Fits] at h
  | cons p ps ih =>
    obtain ⟨x, o⟩ := p
    intro vs h
    cases vs with
    | nil => simp [Fits] at h
    | cons v vs => simp only [Fits] at h; simp [ih vs h.2]

theorem call_sim (st : Bool) (fs : Nat → Option Func) (hfs : ∀ f fn, fs f = some fn → checkFunc st fs fn = true) (n : Nat) :
    ∀ d f fn vs ρ, fs f = some fn → Fits fn.params vs → pyCall fs n d f vs = some ρ →
      tCall st fs n d f vs = some (ρ, vs) ∧ (fn.returns = true → ∃ v, ρ = some v) := by
  intro d
  induction d with
  | zero => intro f fn vs ρ _ _ h; simp [pyCall] at h
  | succ d ih =>
    intro f fn vs ρ hfn hfit hp
    have hchk := hfs f fn hfn
    simp only [checkFunc, Bool.and_eq_true, decide_eq_true_eq] at hchk
    obtain ⟨⟨hnd, htr⟩, hc⟩ := hchk
    obtain ⟨code, hcode⟩ := Option.isSome_iff_exists.1 htr
    have hlen := fits_length _ _ hfit
    simp only [pyCall, hfn, hlen, if_true] at hp
    simp only [tCall, hfn, hcode, hlen, if_true]
    have htr' := hcode
    unfold trFunc at htr'
    split at htr'
    · cases htr'
    rename_i o ho
    cases htr'
    split at hc
    · cases hc
    rename_i r hr
    have hcall : ∀ g ws ρ, FitB (optsOf fs g) ws → pyCall fs n d g ws = some ρ →
        tCall st fs n d g ws = some (ρ, ws) ∧ (retsOf fs g = true → ∃ v, ρ = some v) := by
      intro g ws ρ hf hg
      cases hgf : fs g with
      | none => cases d <;> simp [pyCall, hgf] at hg
      | some gn =>
        simp only [optsOf, hgf] at hf
        have := ih g gn ws ρ hgf ((fits_fitB _ _).2 hf) hg
        simpa only [retsOf, hgf] using this
    generalize hO : optOf fn.params = O at *
    generalize hF : aft O fn.body [] = F at *
    obtain ⟨i1, i2, i3, i4⟩ := init_spec fn.params vs hnd hfit
    obtain ⟨s0, g1, g2, g3, g4, g5⟩ := inits_run st (optsOf fs) (tCall st fs n d) n F fn.params (tInit fn.params vs)
    have hrel : Rel O F [] (pyInit fn.params vs) s0 := by
      refine ⟨fun x hx => ?_, fun x ho _ => ?_, fun x ho => ?_, fun x ρ ho hxF hρ => ?_⟩
      · by_cases hm : x ∈ fn.params.map (fun p => p.1)
        · obtain ⟨⟨y, b⟩, hm1, rfl⟩ := List.mem_map.1 hm
          cases b with
          | true =>
            have := optOf_mem.2 hm1
            rw [hO] at this
            simp only at hx
            rw [this] at hx; cases hx
          | false =>
            obtain ⟨v, j1, j2⟩ := i3 y hm1
            exact .inr ⟨v, j1, by rw [g3]; exact j2⟩
        · exact .inl (i1 x hm).1
      · rw [← hO] at ho
        rw [g2]; exact i2 x (optOf_mem.1 ho)
      · rw [← hO] at ho
        exact ⟨_, i2 x (optOf_mem.1 ho)⟩
      · rw [← hO] at ho
        have := i2 x (optOf_mem.1 ho)
        rw [hρ] at this
        rw [g4 x (optOf_mem.1 ho) hxF (i4 x)]
        exact (Option.some.inj this).symm
    have hkn : Known (required fn.params) (pyInit fn.params vs) := by
      intro x hx
      simp only [required, List.mem_map, List.mem_filter] at hx
      obtain ⟨⟨y, b⟩, ⟨h1, h2⟩, rfl⟩ := hx
      have : b = false := by simpa using h2
      subst this
      obtain ⟨v, j1, _⟩ := i3 y h1
      exact ⟨v, j1⟩
    cases hrun : pyRun (pyCall fs n d) n fn.body (pyInit fn.params vs) with
    | none => rw [hrun] at hp; cases hp
    | some p =>
      obtain ⟨σ', v⟩ := p
      rw [hrun] at hp
      obtain ⟨s1, p1, p2⟩ := pre_ok (st := st) (opts := optsOf fs) (rets := retsOf fs) (O := O) (F := F) (tCall st fs n d) n fn.body [] _ _ 0 o r
        (pyInit fn.params vs) s0 hr ho hrel (fun x hx => by rw [hF] at hx; exact hx) hkn
      obtain ⟨s', v', e1, e2, e3, e4⟩ := sim hcall fn.body [] _ _ 0 o r (pyInit fn.params vs) s0 s1 σ' v hr ho hrel hkn hkn
        (fun x hx => by rw [hF] at hx; exact hx) p1 hrun
      have hfin : tRun st (optsOf fs) (tCall st fs n d) n (.seq (inits fn.params F) o.all) (tInit fn.params vs) = some (s', v') := by
        simp only [tRun, g1, all_pre p1, e1]
      rw [hfin]
      have hout : tOut fn.params vs s' = vs := by
        refine tOut_spec fn.params vs s' hlen hnd (fun x _ => ?_)
        rw [e3 x, p2.agree (.arg x) (by simp), g2 x]
      simp only [hout]
      cases v' with
      | some w =>
        simp only [Option.map_some] at e2
        subst e2
        cases hp
        exact ⟨rfl, fun _ => ⟨w, rfl⟩⟩
      | none =>
        simp only [Option.map_none] at e2
        subst e2
        cases hp
        refine ⟨rfl, fun hret => ?_⟩
        obtain ⟨_, ⟨N', rfl, _⟩, _⟩ := e4 rfl
        simp [hret] at hc

end Verif.Optional
