import Verif.Inline.LemmasSim

/-! # Replaced calls compute the same as the function -/

namespace Verif.Inline.Lemmas
open Spec Model

theorem bind_none : ∀ {xs : List Name} {vs : List Int} {x : Name}, x ∉ xs → Spec.bind xs vs x = none
  | [], _, _, _ => by simp [Spec.bind]
  | _ :: _, [], _, _ => by simp [Spec.bind]
  | y :: xs, v :: vs, x, h => by
    simp at h
    simp [Spec.bind, h.1, bind_none h.2]

theorem bind_val {G : Lib} {l : Name → Option Int} {h : Nat → Int} : ∀ {xs : List Name} {as : List Expr} {vs : List Int} {x : Name}
    {a : Expr} {v : Int}, Vals G l h as vs → (xs.zip as).lookup x = some a → Spec.bind xs vs x = some v → Val G l a h v
  | [], _, _, _, _, _, _, h, _ => by simp at h
  | _ :: _, [], _, _, _, _, _, h, _ => by simp at h
  | _ :: _, _ :: _, [], _, _, _, hv, _, _ => by simp [Vals] at hv
  | y :: xs, b :: as, u :: vs, x, a, v, hv, hl, hb => by
    simp only [Vals] at hv
    simp only [List.zip_cons_cons, List.lookup] at hl
    simp only [Spec.bind] at hb
    by_cases hx : x = y
    · subst hx
      simp at hl hb
      rw [← hl, ← hb]; exact hv.1
    · have : (x == y) = false := by simpa using hx
      rw [this] at hl
      simp only [hx, if_false] at hb
      exact bind_val hv.2 hl hb

theorem lookup_inj {l : List (Name × Name)} (hn : (l.map (·.2)).Nodup) {x u y : Name} (h1 : (x, y) ∈ l) (h2 : (u, y) ∈ l) :
    x = u := by
  induction l with
  | nil => simp at h1
  | cons p l ih =>
    simp only [List.map_cons, List.nodup_cons, List.mem_map] at hn
    simp only [List.mem_cons] at h1 h2
    rcases h1 with rfl | h1
    · rcases h2 with h2 | h2
      · simp at h2; exact h2.symm
      · exact absurd ⟨(u, y), h2, rfl⟩ hn.1
    · rcases h2 with rfl | h2
      · exact absurd ⟨(x, y), h1, rfl⟩ hn.1
      · exact ih hn.2 h1 h2

theorem resName_spec {F : Func} {r : Name} (h : resName F = some r) : r ∉ F.params ∧ r ∈ F.body.assigned := by
  unfold resName at h
  split at h
  · simp at h
  · split at h
    · rename_i hc
      simp at h; subst h
      exact hc.2
    · simp at h

section
variable {G : Lib} {funs : List Func} {q b : Nat → Bool} {Gl L : List Name} {I : Inl}

theorem expand_sim (st : Static funs q b Gl I) (hI : Corr G funs q Gl I) {n : Nat} {sc sc' : Sc} {d : Dest} {f : Nat}
    {as : List Expr} {out : List Stmt} {vs : List Int} {h : Nat → Int} {tr : List (Nat × Int)} {r : Option Int} {w2 : World} {σ : Env}
    (hnl : ∀ y ∈ Gl, y ∉ L) (ho : Ok sc) (hG : ∀ y ∈ Gl, y ∈ sc.used)
    (hne : ∀ a ∈ as, noExt a = true) (hcov : ∀ a ∈ as, ∀ y ∈ namesE a, y ∈ sc.used)
    (hpl : q f = true ∨ ∀ a ∈ as, plain a = true)
    (hd : ∀ y, d = .var y → y ∈ sc.used ∧ y ∉ Gl ∧ (direct funs f = true ∨ ∀ a ∈ as, y ∉ namesE a))
    (hv : expand funs I sc d f as = some (out, sc')) (ht : ∀ y ∈ targets out, y ∈ L) (hvs : Vals G (look G L 0 σ) h as vs)
    (hcl : callN G funs n f vs ⟨h, tr⟩ = some (r, w2)) :
    ∃ σ' w', Runs G L out σ ⟨h, tr⟩ σ' w' ∧ After G L d r w2 σ' w' := by
  obtain ⟨F, hF, hl, hvs'⟩ := expand_some hv
  obtain ⟨_, hc, _⟩ := st.clean f F hF
  have hFm := List.mem_of_getElem? hF
  have hm := bodySc_mono F d sc
  obtain ⟨_, hr2, _, hr4⟩ := rename_spec (toRename F d) sc.used
  cases n with
  | zero => simp [callN] at hcl
  | succ n =>
    simp only [callN, hF] at hcl
    split at hcl
    · -- what the names become
      have hmc := fun x => mapOf_cases F d as sc.used x hl
      have hasg : ∀ x ∈ F.body.assigned, ∀ y, mapOf F d as (rename (toRename F d) sc.used).1 x = .name y →
          (resName F = some x ∧ d = .var y) ∨ (resDest F d x = none ∧ (x, y) ∈ (rename (toRename F d) sc.used).1) := by
        intro x hx y hy
        have hp : x ∉ F.params := fun hp => st.clean.kept F hFm x hp hx
        rcases hmc x with h1 | ⟨_, h0, z, h1, h2⟩ | ⟨_, _, h0, z, _, h1, h2⟩ | ⟨h1, _⟩
        · exact absurd h1.1 hp
        · rw [hy] at h2; simp at h2; exact .inl ⟨h0, by rw [h1, h2]⟩
        · rw [hy] at h2; simp at h2; exact .inr ⟨h0, h2 ▸ h1⟩
        · simp [Func.locals, hx] at h1
      have hdst : ∀ y, d = .var y → (∀ a ∈ as, y ∉ namesE a) → ∀ u ∈ namesS F.body, resName F ≠ some u →
          y ∉ namesE (mapOf F d as (rename (toRename F d) sc.used).1 u) := by
        intro y hy hs u hu hru hyu
        rcases hmc u with ⟨_, a, ha, _, h2⟩ | ⟨_, h0, _⟩ | ⟨_, _, _, z, _, h1, h2⟩ | ⟨h1, h2⟩
        · rw [h2] at hyu; exact hs a ha hyu
        · exact hru h0
        · rw [h2] at hyu; simp [namesE] at hyu; subst hyu
          exact (hr2 _ h1).1 (hd y hy).1
        · rw [h2] at hyu
          split at hyu
          · rename_i h0
            simp [namesE] at hyu; subst hyu
            exact (hd y hy).2.1 (st.scope F hFm h0 _ hu h1)
          · simp [namesE] at hyu
      have hsep : ∀ x ∈ F.body.assigned, ∀ y, mapOf F d as (rename (toRename F d) sc.used).1 x = .name y →
          ∀ u ∈ namesS F.body, u ≠ x → y ∉ namesE (mapOf F d as (rename (toRename F d) sc.used).1 u) := by
        intro x hx y hy u hu hux
        rcases hasg x hx y hy with ⟨h1, h2⟩ | ⟨h1, h2⟩
        · have hs : ∀ a ∈ as, y ∉ namesE a := by
            rcases (hd y h2).2.2 with h3 | h3
            · simp [direct, hF, h1] at h3
            · exact h3
          exact hdst y h2 hs u hu (by rw [h1]; simp; exact fun hh => hux hh.symm)
        · have hyn := (hr2 _ h2).1
          intro hyu
          rcases hmc u with ⟨_, a, ha, _, h3⟩ | ⟨_, h0, z, h3, h4⟩ | ⟨_, _, _, z, _, h3, h4⟩ | ⟨h3, h4⟩
          · rw [h3] at hyu; exact hyn (hcov a ha y hyu)
          · rw [h4] at hyu; simp [namesE] at hyu; subst hyu
            exact hyn (hd _ h3).1
          · rw [h4] at hyu; simp [namesE] at hyu; subst hyu
            exact hux (lookup_inj hr4 h3 h2)
          · rw [h4] at hyu
            split at hyu
            · rename_i h0
              simp [namesE] at hyu; subst hyu
              exact hyn (hG _ (st.scope F hFm h0 _ hu h3))
            · simp [namesE] at hyu
      have hfr : SFr Gl (namesS F.body) F.body.assigned L (mapOf F d as (rename (toRename F d) sc.used).1) (some d) (resName F) (q f)
          (bodySc F d sc) := by
        refine ⟨⟨hm.ok ho, fun y hy => hm.used y (hG y hy), hnl, fun x _ => mapOf_noExt hl hne x,
          fun x hx => mapOf_cov st.scope hFm hl hG hcov (fun y hy => (hd y hy).1) hx⟩, hsep, ?_, ?_, ?_, ?_⟩
        · intro x hx y hy
          rcases hasg x hx y hy with ⟨h1, h2⟩ | ⟨h1, h2⟩
          · exact (hd y h2).2.1
          · exact fun hg => (hr2 _ h2).1 (hG y hg)
        · rcases hpl with h1 | h1
          · exact .inl h1
          · right
            intro x _
            rcases hmc x with ⟨_, a, ha, _, h3⟩ | ⟨_, h0, z, h3, h4⟩ | ⟨_, _, _, z, _, h3, h4⟩ | ⟨h3, h4⟩
            · rw [h3]; exact h1 a ha
            · rw [h4]; simp [plain]
            · rw [h4]; simp [plain]
            · rw [h4]; split <;> simp [plain]
        · intro y hy
          simp at hy
          exact ⟨hm.used y (hd y hy).1, (hd y hy).2.1⟩
        · intro y r hy hr
          simp at hy; subst hy
          have hrs := resName_spec hr
          rcases hmc r with ⟨h1, _⟩ | ⟨_, h0, z, h3, h4⟩ | ⟨_, _, h1, _⟩ | ⟨h3, h4⟩
          · exact absurd h1 hrs.1
          · simp at h3; subst h3; exact h4
          · simp [resDest, hr] at h1
          · simp [Func.locals, hrs.2] at h3
      have hs0 : Sim G L (mapOf F d as (rename (toRename F d) sc.used).1) (look G F.locals F.mod (Spec.bind F.params vs)) (namesS F.body)
          σ h := by
        intro x hx v hv
        rcases hmc x with ⟨h1, a, ha, hla, h3⟩ | ⟨h1, h0, z, h3, h4⟩ | ⟨h1, h2, _, z, _, h3, h4⟩ | ⟨h3, h4⟩
        · rw [h3]
          simp only [look, Func.locals, List.mem_append, h1, true_or, if_true] at hv
          exact bind_val hvs hla hv
        · simp [look, Func.locals, (resName_spec h0).2, bind_none h1] at hv
        · simp [look, Func.locals, h2, bind_none h1] at hv
        · rw [h4]
          simp [look, h3] at hv
          intro tr
          split
          · rename_i h0
            rw [h0] at hv
            have := hnl x (st.scope F hFm h0 _ hx h3)
            simp [eval, look, this, hv]
          · simp [eval, hv]
      cases hex : exec G (callN G funs n) F.locals F.mod n F.body (Spec.bind F.params vs) ⟨h, tr⟩ with
      | none => simp [hex] at hcl
      | some o =>
        obtain ⟨σ', w', r1, p1⟩ := visitS_sim st hI F.body (w := ⟨h, tr⟩) hfr (fun _ h => h) (fun _ h => h) (by
          intro hn y hy
          simp at hy
          refine hdst y hy ?_
          rcases (hd y hy).2.2 with h3 | h3
          · simp [direct, hF, hn] at h3
          · exact h3) hc hvs' ht hs0 hex
        cases o with
        | norm ρ1 w1 =>
          simp [hex] at hcl
          obtain ⟨rfl, rfl⟩ := hcl
          exact ⟨σ', w', r1, p1.1⟩
        | ret v w1 =>
          simp [hex] at hcl
          obtain ⟨rfl, rfl⟩ := hcl
          obtain ⟨d', hd', p1⟩ := p1
          simp at hd'; subst hd'
          exact ⟨σ', w', r1, p1⟩
    · simp at hcl

/-! ## Calls in expressions -/

theorem exec_decl {t : Name} {m k : Nat} {c : Calls} : (s : Stmt) → t ∉ namesS s → ∀ ρ w,
    exec G c (t :: L) m k s ρ w = exec G c L m k s ρ w
  | .skip, _, _, _ => by simp [exec]
  | .assign x e, h, ρ, w => by
    simp [namesS] at h
    rw [exec, exec, lk h.2]
    simp [Ne.symm h.1]
  | .store x e, h, ρ, w => by
    simp [namesS] at h
    rw [exec, exec, lk h]
  | .call (.var x) f as, h, ρ, w => by
    simp [namesS] at h
    rw [exec, exec, lks h.2]
    cases evals G c (look G L m ρ) as w with
    | none => rfl
    | some r =>
      simp only
      cases c f r.1 r.2 with
      | none => rfl
      | some r2 =>
        obtain ⟨r3, w3⟩ := r2
        cases r3 with
        | none => rfl
        | some v => simp [Ne.symm h.1]
  | .call (.cell x) f as, h, ρ, w => by
    simp [namesS] at h
    rw [exec, exec, lks h]
    cases evals G c (look G L m ρ) as w with
    | none => rfl
    | some r =>
      simp only
      cases c f r.1 r.2 with
      | none => rfl
      | some r2 => obtain ⟨r3, w3⟩ := r2; cases r3 <;> rfl
  | .call .drop f as, h, ρ, w => by
    simp [namesS] at h
    rw [exec, exec, lks h]
    cases evals G c (look G L m ρ) as w with
    | none => rfl
    | some r =>
      simp only
      cases c f r.1 r.2 with
      | none => rfl
      | some r2 => obtain ⟨r3, w3⟩ := r2; cases r3 <;> rfl
  | .seq s u, h, ρ, w => by
    simp [namesS] at h
    rw [exec, exec, exec_decl s h.1]
    cases exec G c L m k s ρ w with
    | none => rfl
    | some o =>
      cases o with
      | norm ρ1 w1 => exact exec_decl u h.2 ρ1 w1
      | ret v w1 => rfl
  | .ite e s u, h, ρ, w => by
    simp [namesS, and_assoc] at h
    rw [exec, exec, lk h.1]
    cases eval G c (look G L m ρ) e w with
    | none => rfl
    | some r => simp only [exec_decl s h.2.1, exec_decl u h.2.2]
  | .loop e s, h, ρ, w => by
    simp [namesS] at h
    rw [exec, exec]
    congr 1
    · funext ρ w; exact lk h.1 ρ w
    · funext ρ w; exact exec_decl s h.2 ρ w
  | .ret e, h, ρ, w => by
    simp [namesS] at h
    rw [exec, exec, lk h]
  | .retCall f as, h, ρ, w => by
    simp [namesS] at h
    rw [exec, exec, lks h]
where
  lk {t : Name} {m : Nat} {c : Calls} {e : Expr} (h : t ∉ namesE e) (ρ : Env) (w : World) :
      eval G c (look G (t :: L) m ρ) e w = eval G c (look G L m ρ) e w :=
    eval_agree G c e (fun x hx => by
      have : x ≠ t := by rintro rfl; exact h hx
      simp [look, this]) w
  lks {t : Name} {m : Nat} {c : Calls} {e : Exprs} (h : t ∉ namesA e) (ρ : Env) (w : World) :
      evals G c (look G (t :: L) m ρ) e w = evals G c (look G L m ρ) e w :=
    evals_agree G c e (fun x hx => by
      have : x ≠ t := by rintro rfl; exact h hx
      simp [look, this]) w

theorem Runs.append_inv {s t : List Stmt} {σ σ2 : Env} {w w2 : World} (h : Runs G L (s ++ t) σ w σ2 w2) :
    ∃ σ1 w1, Runs G L s σ w σ1 w1 ∧ Runs G L t σ1 w1 σ2 w2 := by
  obtain ⟨k, h⟩ := h
  induction s generalizing σ w with
  | nil => exact ⟨σ, w, .nil, k, h⟩
  | cons a s ih =>
    simp only [List.cons_append, seqs, exec] at h
    cases ha : exec G noCall L 0 k a σ w with
    | none => simp [ha] at h
    | some o =>
      rw [ha] at h
      cases o with
      | ret v w1 => simp at h
      | norm σ1 w1 =>
        obtain ⟨σ', w', ⟨k', h1⟩, h2⟩ := ih h
        refine ⟨σ', w', ⟨max k k', ?_⟩, h2⟩
        simp only [seqs, exec, exec_mono (k' := max k k') (by omega) a ha]
        exact exec_mono (by omega) _ h1

theorem embed_sim (st : Static funs q b Gl I) (hI : Corr G funs q Gl I) {n : Nat} {sc sc' : Sc} {f : Nat}
    {as : List Expr} {out : List Stmt} {e : Expr} {vs : List Int} {h : Nat → Int} {tr : List (Nat × Int)} {v : Int} {w2 : World} {σ : Env}
    (hnl : ∀ y ∈ Gl, y ∉ L) (ho : Ok sc) (hG : ∀ y ∈ Gl, y ∈ sc.used)
    (hne : ∀ a ∈ as, noExt a = true) (hcov : ∀ a ∈ as, ∀ y ∈ namesE a, y ∈ sc.used)
    (hq : q f = true) (hem : embeds funs f = true)
    (hv : embed funs I sc f as = some (out, e, sc')) (ht : ∀ y ∈ targets out, y ∈ L) (hvs : Vals G (look G L 0 σ) h as vs)
    (hcl : callN G funs n f vs ⟨h, tr⟩ = some (some v, w2)) :
    w2 = ⟨h, tr⟩ ∧ ∃ σ', (∀ tr', Runs G L out σ ⟨h, tr'⟩ σ' ⟨h, tr'⟩) ∧
      ∀ σ'', (∀ y ∈ sc'.used, σ'' y = σ' y) → Val G (look G L 0 σ'') e h v := by
  have hqu := embed_quiet st.clean st.quiet hv hq hne
  obtain ⟨F, out', sc1, hF, h1, htt, h2⟩ := embed_cases hv
  simp [embeds, hF] at hem
  have hfr := fresh_not_mem sc.used
  have hmo : Mono _ sc1 := expand_mono st.mono (Mono.fresh.ok ho) h1
  have hqu' := expand_quiet st.clean st.quiet h1 hq hne
  have hGt : fresh sc.used ∉ Gl := fun hg => hfr (hG _ hg)
  have key : ∀ {L'}, (∀ y ∈ Gl, y ∉ L') → (∀ y ∈ targets out', y ∈ L') → Vals G (look G L' 0 σ) h as vs →
      ∃ σ' w', Runs G L' out' σ ⟨h, tr⟩ σ' w' ∧ look G L' 0 σ' (fresh sc.used) = some v ∧ w' = w2 := by
    intro L' hnl' ht' hvs'
    exact expand_sim st hI hnl' (Mono.fresh.ok ho) (fun y hy => by simp [hG y hy]) hne
      (fun a h3 y h4 => by simp [hcov a h3 y h4]) (.inl hq) (by
        intro y hy
        simp at hy; subst hy
        exact ⟨by simp, hGt, .inr fun a h3 h4 => hfr (hcov a h3 _ h4)⟩) h1 ht' hvs' hcl
  rcases h2 with ⟨_, z, rfl, rfl⟩ | ⟨_, rfl, rfl, rfl⟩
  · obtain ⟨n1, n2⟩ := embed_removed st ho hF hem hG hcov h1
    have hz : z = fresh sc.used := by
      simp only [targets_append, List.mem_append, targets_single, Stmt.assigned, List.mem_singleton] at htt
      rcases htt with h3 | h3
      · exact absurd (visitS_decl.assigned_names _ _ h3) n1
      · exact h3.symm
    subst hz
    obtain ⟨σ', w', r1, h3, rfl⟩ := key (L' := fresh sc.used :: L)
      (fun y hy => by simp [hnl y hy]; rintro rfl; exact hGt hy)
      (by
        intro y hy
        simp only [targets_append, List.mem_append, targets_single, Stmt.assigned, List.mem_singleton] at hy
        rcases hy with hy | hy
        · simp [ht y hy]
        · simp [hy])
      (by
        have hvv : ∀ {as : List Expr} {vs : List Int}, (∀ a ∈ as, ∀ y ∈ namesE a, y ∈ sc.used) → Vals G (look G L 0 σ) h as vs →
            Vals G (look G (fresh sc.used :: L) 0 σ) h as vs := by
          intro as
          induction as with
          | nil => intro vs _ hv; cases vs <;> simp [Vals] at hv ⊢
          | cons a as ih =>
            intro vs hc hv
            cases vs with
            | nil => simp [Vals] at hv
            | cons v vs =>
              simp only [Vals] at hv ⊢
              refine ⟨fun tr => ?_, ih (fun a ha => hc a (by simp [ha])) hv.2⟩
              rw [exec_decl.lk fun hh => hfr (hc a (by simp) _ hh)]
              exact hv.1 tr
        exact hvv hcov hvs)
    have hw := (r1.quiet hqu').1
    obtain ⟨σ1, w1, r2, r3⟩ := r1.append_inv
    have hw1 : w1 = ⟨h, tr⟩ := (r2.quiet hqu.1).1
    subst hw1
    refine ⟨hw, σ1, ?_, fun σ'' hσ => ?_⟩
    · have r2' : Runs G L out σ ⟨h, tr⟩ σ1 ⟨h, tr⟩ := by
        obtain ⟨k, hk⟩ := r2
        exact ⟨k, by rw [← exec_decl (t := fresh sc.used) _ n1]; exact hk⟩
      exact (r2'.quiet hqu.1).2
    · obtain ⟨k, r3⟩ := r3
      simp only [seqs, exec] at r3
      rw [exec_decl.lk n2] at r3
      cases hev : eval G noCall (look G L 0 σ1) e ⟨h, tr⟩ with
      | none => simp [hev] at r3
      | some r =>
        obtain ⟨u, w3⟩ := r
        simp [hev] at r3
        have hu : u = v := by
          rw [← r3.1] at h3
          simpa [look, Env.set] using h3
        subst hu
        have hcove : ∀ y ∈ namesE e, y ∈ sc1.used := by
          intro y hy
          rcases expand_names st.scope st.mono st.name (Mono.fresh.ok ho) h1 y
            (by simp [names_append, names_single, namesS, hy]) with h4 | ⟨a, h5, h4⟩ | h4 | ⟨_, h4⟩
          · exact hmo.used _ (by simp [hG y h4])
          · exact hmo.used _ (by simp [hcov a h5 y h4])
          · simp at h4; exact hmo.used _ (by simp [h4])
          · exact h4
        exact (eval_noExt G _ e hqu.2.1 hev).2.agree fun y hy => hσ y (hcove y hy)
  · obtain ⟨σ', w', r1, h3, rfl⟩ := key hnl ht hvs
    have hw := (r1.quiet hqu').1
    refine ⟨hw, σ', (r1.quiet hqu').2, fun σ'' hσ tr' => ?_⟩
    have : look G L 0 σ'' (fresh sc.used) = some v := by
      rw [look_agree (hσ _ (hmo.used _ (by simp))), h3]
    simp [eval, this]

end

theorem corr_inl {G : Lib} {funs : List Func} {q b : Nat → Bool} {Gl : List Name} (hC : CleanFuns funs q b) (hS : Scoped funs Gl) :
    ∀ n, Corr G funs q Gl (inl funs n)
  | 0 => ⟨fun _ _ _ _ _ _ _ h => by simp [inl] at h, fun _ _ _ _ _ _ _ h => by simp [inl] at h⟩
  | n + 1 =>
    ⟨fun h1 h2 h3 h4 h5 h6 h7 h8 h9 h10 h11 =>
      expand_sim (static_inl hC hS n) (corr_inl hC hS n) h1 h2 h3 h4 h5 h6 h7 h8 h9 h10 h11,
     fun h1 h2 h3 h4 h5 h6 h7 h8 h9 h10 h11 =>
      embed_sim (static_inl hC hS n) (corr_inl hC hS n) h1 h2 h3 h4 h5 h6 h7 h8 h9 h10 h11⟩

end Verif.Inline.Lemmas
