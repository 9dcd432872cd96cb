import Verif.Inline.LemmasQuiet

/-! # Calls in expressions, and declared variables -/

namespace Verif.Inline.Lemmas
open Spec Model

/-- The left-hand side only matters for `return`. -/
theorem visitS_noRet {I : Inl} {m : Name → Expr} {d : Option Dest} :
    (s : Stmt) → rets s = 0 → ∀ sc, visitS I m d s sc = visitS I m none s sc
  | .skip, _, _ => by simp [visitS]
  | .assign _ _, _, _ => by simp [visitS]
  | .store _ _, _, _ => by simp [visitS]
  | .call _ _ _, _, _ => by simp [visitS]
  | .seq s t, h, sc => by
    simp [rets] at h
    have h1 := visitS_noRet (I := I) (m := m) (d := d) s h.1
    have h2 := visitS_noRet (I := I) (m := m) (d := d) t h.2
    simp only [visitS, h1, h2]
  | .ite c s t, h, sc => by
    simp [rets] at h
    have h1 := visitS_noRet (I := I) (m := m) (d := d) s h.1
    have h2 := visitS_noRet (I := I) (m := m) (d := d) t h.2
    simp only [visitS, h1, h2]
  | .loop c s, h, sc => by
    simp [rets] at h
    have h1 := visitS_noRet (I := I) (m := m) (d := d) s h
    simp only [visitS, h1]
  | .ret _, h, _ => by simp [rets] at h
  | .retCall _ _, h, _ => by simp [rets] at h

/-- `B; return e` and `B; r = e; return r`. -/
theorem splitRet_visit {I : Inl} {m : Name → Expr} {t : Name} : (s : Stmt) → ∀ {B e0 sc out sc'},
    splitRet s = some (B, e0) → visitS I m (some (.var t)) s sc = some (out, sc') →
    ∃ oB sc1 p e' y, visitS I m (some (.var t)) B sc = some (oB, sc1) ∧ visitE I m e0 sc1 = some (p, e', sc') ∧
      out = oB ++ (p ++ [.assign y e']) := by
  intro s
  induction s with
  | ret e =>
    intro B e0 sc out sc' h hv
    simp only [splitRet] at h
    split at h
    · simp at h
    · rename_i hn
      simp at h
      obtain ⟨rfl, rfl⟩ := h
      obtain ⟨d', hd, h1 | ⟨_, p, e', he, rfl⟩⟩ := visitS_ret hv
      · exact absurd h1.1 hn
      · simp at hd; subst hd
        exact ⟨[], sc, p, e', t, by simp [visitS], he, by simp [Dest.put]⟩
  | seq a c ih1 ih2 =>
    intro B e0 sc out sc' h hv
    have gen : (splitRet c).map (fun q => (Stmt.seq a q.1, q.2)) = some (B, e0) → ∃ oB sc1 p e' y,
        visitS I m (some (.var t)) B sc = some (oB, sc1) ∧ visitE I m e0 sc1 = some (p, e', sc') ∧
        out = oB ++ (p ++ [.assign y e']) := by
      intro h
      simp at h
      obtain ⟨B', h1, rfl⟩ := h
      obtain ⟨o1, sc1, o2, hs, ht, rfl⟩ := visitS_seq hv
      obtain ⟨oB, sc2, p, e', y, h2, h3, rfl⟩ := ih2 h1 ht
      exact ⟨o1 ++ oB, sc2, p, e', y, by simp [visitS, hs, h2], h3, by simp⟩
    unfold splitRet at h
    split at h
    · simp at *
    · rename_i r e r' heq
      simp at heq
      obtain ⟨rfl, rfl⟩ := heq
      split at h
      · simp at h
        obtain ⟨rfl, rfl⟩ := h
        obtain ⟨o1, sc1, o2, hs, ht, rfl⟩ := visitS_seq hv
        obtain ⟨p, e', y, he, _, rfl⟩ := visitS_assign hs
        simp [visitS, Expr.isName] at ht
        exact ⟨[], sc, p, e', y, by simp [visitS], by rw [he, ht.2], by simp [ht.1]⟩
      · simp at h
    · rename_i heq
      simp at heq
      obtain ⟨rfl, rfl⟩ := heq
      exact gen h
    · simp at *
  | _ => intro B e0 sc out sc' h; simp [splitRet] at h

theorem splitRet_clean {funs : List Func} {q b : Nat → Bool} {params : List Name} {quiet : Bool} {res : Option Name} :
    (s : Stmt) → ∀ {B e0}, splitRet s = some (B, e0) → cleanS funs q b params quiet res true s = true →
      cleanS funs q b params quiet res false B = true := by
  intro s
  induction s with
  | ret e =>
    intro B e0 h hc
    simp only [splitRet] at h
    split at h
    · simp at h
    · simp at h; rw [← h.1]; simp [cleanS]
  | seq a c ih1 ih2 =>
    intro B e0 h hc
    have gen : (splitRet c).map (fun q => (Stmt.seq a q.1, q.2)) = some (B, e0) →
        cleanS funs q b params quiet res false B = true := by
      intro h
      simp at h
      obtain ⟨B', h1, rfl⟩ := h
      simp [cleanS] at hc
      simp [cleanS, hc.1, ih2 h1 hc.2]
    unfold splitRet at h
    split at h
    · simp at *
    · rename_i r e r' heq
      split at h
      · simp at h; rw [← h.1]; simp [cleanS]
      · simp at h
    · rename_i heq
      simp at heq
      obtain ⟨rfl, rfl⟩ := heq
      exact gen h
    · simp at *
  | _ => intro B e0 h; simp [splitRet] at h

/-- After `if` and `while` the result is kept. -/
theorem kept_last {I : Inl} {m : Name → Expr} {t : Name} : (s : Stmt) → ∀ {sc out sc'}, kept s = true →
    visitS I m (some (.var t)) s sc = some (out, sc') → ∃ l x, out = l ++ [x] ∧ ∀ y e, x ≠ .assign y e := by
  intro s
  induction s with
  | ite c a b _ _ =>
    intro sc out sc' _ hv
    obtain ⟨p, c', sc1, s', sc2, t', hcc, hs, ht, rfl⟩ := visitS_ite hv
    exact ⟨p, _, rfl, by simp⟩
  | seq a c ih1 ih2 =>
    intro sc out sc' h hv
    obtain ⟨o1, sc1, o2, hs, ht, rfl⟩ := visitS_seq hv
    have gen : kept c = true → ∃ l x, o1 ++ o2 = l ++ [x] ∧ ∀ y e, x ≠ .assign y e := by
      intro h
      obtain ⟨l, x, rfl, hx⟩ := ih2 h ht
      exact ⟨o1 ++ l, x, by simp, hx⟩
    unfold kept at h
    split at h
    · simp at *
    · rename_i heq
      simp at heq
      obtain ⟨rfl, rfl⟩ := heq
      obtain ⟨p, c', sc1, s', sc2, t', hcc, hs, ht', rfl⟩ := visitS_ite hs
      simp [visitS, Expr.isName] at ht
      exact ⟨p, _, by simp [ht.1]; rfl, by simp⟩
    · rename_i heq
      simp at heq
      obtain ⟨rfl, rfl⟩ := heq
      obtain ⟨p, c', sc1, s', hcc, hs, rfl⟩ := visitS_loop hs
      simp [visitS, Expr.isName] at ht
      exact ⟨p, _, by simp [ht.1]; rfl, by simp⟩
    · rename_i heq
      simp at heq
      obtain ⟨rfl, rfl⟩ := heq
      exact gen h
    · simp at *
  | _ => intro sc out sc' h; simp [kept] at h

theorem mapOf_cov {funs : List Func} {Gl : List Name} (hS : Scoped funs Gl) {F : Func} (hF : F ∈ funs) {d : Dest} {as : List Expr}
    {sc : Sc} (hl : F.params.length = as.length) (hG : ∀ y ∈ Gl, y ∈ sc.used) (ha : ∀ a ∈ as, ∀ y ∈ namesE a, y ∈ sc.used)
    (hd : ∀ y, d = .var y → y ∈ sc.used) {x : Name} (hx : x ∈ namesS F.body) :
    ∀ y ∈ namesE (mapOf F d as (rename (toRename F d) sc.used).1 x), y ∈ (bodySc F d sc).used := by
  intro y hy
  have hm := (bodySc_mono F d sc).used
  rcases mapOf_cases F d as sc.used x hl with ⟨_, a, h1, _, he⟩ | ⟨_, _, z, h3, he⟩ | ⟨_, _, _, z, _, h3, he⟩ | ⟨h3, he⟩ <;>
    rw [he] at hy
  · exact hm y (ha a h1 y hy)
  · simp [namesE] at hy; subst hy; exact hm _ (hd _ h3)
  · simp [namesE] at hy; subst hy
    exact ((rename_spec (toRename F d) sc.used).2.1 _ h3).2
  · split at hy
    · rename_i h0
      simp [namesE] at hy; subst hy
      exact hm _ (hG _ (hS F hF h0 _ hx h3))
    · simp [namesE] at hy

/-- What is the same for all the ways to replace calls. -/
structure Static (funs : List Func) (q b : Nat → Bool) (Gl : List Name) (I : Inl) : Prop where
  clean : CleanFuns funs q b
  scope : Scoped funs Gl
  mono : IMono I
  targ : ITarg I
  name : IName Gl I
  quiet : IQuiet q b I

theorem static_inl {funs : List Func} {q b : Nat → Bool} {Gl : List Name} (hC : CleanFuns funs q b) (hS : Scoped funs Gl)
    (n : Nat) : Static funs q b Gl (inl funs n) :=
  ⟨hC, hS, inl_mono funs n, inl_targ hC.kept n, inl_name hS n, inl_quiet hC n⟩

/-- If the new name is removed, it does not appear. -/
theorem embed_removed {funs : List Func} {q b : Nat → Bool} {Gl : List Name} {I : Inl} (st : Static funs q b Gl I)
    {sc sc1 : Sc} {f : Nat} {F : Func} {as : List Expr} {out : List Stmt} {e : Expr} {y : Name} (ho : Ok sc)
    (hF : funs[f]? = some F) (he : embeddable F = true)
    (hG : ∀ y ∈ Gl, y ∈ sc.used) (ha : ∀ a ∈ as, ∀ y ∈ namesE a, y ∈ sc.used)
    (h : expand funs I ⟨fresh sc.used :: sc.used, fresh sc.used :: sc.decl⟩ (.var (fresh sc.used)) f as =
        some (out ++ [.assign y e], sc1)) :
    fresh sc.used ∉ namesS (seqs out) ∧ fresh sc.used ∉ namesE e := by
  obtain ⟨F', hF', hl, hv⟩ := expand_some h
  rw [hF] at hF'; simp at hF'; subst hF'
  obtain ⟨_, hc, _⟩ := st.clean f F hF
  have hfr := fresh_not_mem sc.used
  have hmo := bodySc_mono F (.var (fresh sc.used)) ⟨fresh sc.used :: sc.used, fresh sc.used :: sc.decl⟩
  have hok := Mono.ok hmo (Mono.fresh.ok ho)
  unfold embeddable at he
  cases hs : splitRet F.body with
  | none =>
    rw [hs] at he
    obtain ⟨l, x, h1, h2⟩ := kept_last _ he hv
    have := congrArg List.getLast? h1
    simp at this
    exact absurd this.symm (h2 y e)
  | some Be =>
    obtain ⟨B, e0⟩ := Be
    rw [hs] at he
    obtain ⟨oB, sc2, p, e', z, h1, h2, h3⟩ := splitRet_visit _ hs hv
    have hB := clean_noRet _ (splitRet_clean _ hs hc)
    rw [visitS_noRet B hB] at h1
    have h4 := visitS_mono st.mono B hok h1
    have hout : out = oB ++ p ∧ e = e' := by
      rw [← List.append_assoc] at h3
      have := List.append_inj' h3 rfl
      simp at this
      exact ⟨this.1, this.2.2⟩
    have himg : ∀ u, fresh sc.used ∈ namesE (mapOf F (.var (fresh sc.used)) as
        (rename (toRename F (.var (fresh sc.used))) (fresh sc.used :: sc.used)).1 u) → resName F = some u ∨ fresh sc.used ∈ Gl ∨
          (u ∉ F.locals ∧ F.mod = 0 ∧ u = fresh sc.used) := by
      intro u hu
      rcases mapOf_cases F (.var (fresh sc.used)) as (fresh sc.used :: sc.used) u hl with
        ⟨_, a, h1, _, he⟩ | ⟨_, h2, _⟩ | ⟨_, _, _, z, _, h3, he⟩ | ⟨h3, he⟩
      · rw [he] at hu; exact absurd (ha a h1 _ hu) hfr
      · exact .inl h2
      · rw [he] at hu; simp [namesE] at hu
        have := ((rename_spec (toRename F (.var (fresh sc.used))) (fresh sc.used :: sc.used)).2.1 _ h3).1
        rw [← hu] at this; simp at this
      · rw [he] at hu
        split at hu
        · rename_i h0
          simp [namesE] at hu
          exact .inr (.inr ⟨h3, h0, hu.symm⟩)
        · simp [namesE] at hu
    have hGl : fresh sc.used ∉ Gl := fun h => hfr (hG _ h)
    have hsub : ∀ u, u ∈ namesS B ∨ u ∈ namesE e0 → u ∈ namesS F.body := splitRet_names _ hs
    have hused : fresh sc.used ∈ (bodySc F (.var (fresh sc.used)) ⟨fresh sc.used :: sc.used, fresh sc.used :: sc.decl⟩).used :=
      hmo.used _ (by simp)
    have hkey : ∀ u, (u ∈ namesS B ∨ u ∈ namesE e0) → fresh sc.used ∉ namesE (mapOf F (.var (fresh sc.used)) as
        (rename (toRename F (.var (fresh sc.used))) (fresh sc.used :: sc.used)).1 u) := by
      intro u hu hm
      rcases himg u hm with h5 | h5 | ⟨h5, h6, h7⟩
      · rw [h5] at he
        simp at he
        rcases hu with hu | hu
        · exact he.1 hu
        · exact he.2 hu
      · exact hGl h5
      · have := st.scope F (List.mem_of_getElem? hF) h6 u (hsub u hu) h5
        rw [h7] at this
        exact hGl this
    have n1 : fresh sc.used ∉ namesS (seqs oB) := by
      intro hn
      rcases visitS_names st.mono st.name B hok h1 _ hn with h5 | h5
      · rcases h5 with h5 | ⟨u, hu, h5⟩ | ⟨h5, _⟩
        · exact hGl h5
        · exact hkey u (.inl hu) h5
        · exact h5 hused
      · simp at h5
    have n2 : ∀ y, y = fresh sc.used → ¬ (y ∈ namesS (seqs p) ∨ y ∈ namesE e') := by
      rintro _ rfl hn
      rcases visitE_names st.mono st.name e0 (h4.ok hok) h2 _ hn with h5 | ⟨u, hu, h5⟩ | ⟨h5, _⟩
      · exact hGl h5
      · exact hkey u (.inr hu) h5
      · exact h5 (h4.used _ hused)
    have n2 := n2 _ rfl
    rw [hout.1, hout.2, names_append]
    simp only [List.mem_append, not_or] at n2 ⊢
    exact ⟨⟨n1, n2.1⟩, n2.2⟩
where
  splitRet_names : (s : Stmt) → ∀ {B e0}, splitRet s = some (B, e0) → ∀ u, u ∈ namesS B ∨ u ∈ namesE e0 → u ∈ namesS s := by
    intro s
    induction s with
    | ret e =>
      intro B e0 h
      simp only [splitRet] at h
      split at h
      · simp at h
      · simp at h; rw [← h.1, ← h.2]; simp [namesS]
    | seq a c ih1 ih2 =>
      intro B e0 h
      have gen : (splitRet c).map (fun q => (Stmt.seq a q.1, q.2)) = some (B, e0) →
          ∀ u, u ∈ namesS B ∨ u ∈ namesE e0 → u ∈ namesS (.seq a c) := by
        intro h u hu
        simp at h
        obtain ⟨B', h1, rfl⟩ := h
        simp [namesS] at hu ⊢
        rcases hu with (hu | hu) | hu
        · exact .inl hu
        · exact .inr (ih2 h1 u (.inl hu))
        · exact .inr (ih2 h1 u (.inr hu))
      unfold splitRet at h
      split at h
      · simp at *
      · rename_i r e r' heq
        simp at heq
        obtain ⟨rfl, rfl⟩ := heq
        split at h
        · simp at h; rw [← h.1, ← h.2]
          intro u hu
          simp [namesS] at hu ⊢
          simp [hu]
        · simp at h
      · rename_i heq
        simp at heq
        obtain ⟨rfl, rfl⟩ := heq
        exact gen h
      · simp at *
    | _ => intro B e0 h; simp [splitRet] at h

/-! ## Declared variables -/

structure IDecl (funs : List Func) (q b : Nat → Bool) (Gl : List Name) (I : Inl) : Prop where
  s : ∀ {sc d f as out sc'}, Ok sc → (∀ y ∈ Gl, y ∈ sc.used) → (∀ a ∈ as, ∀ y ∈ namesE a, y ∈ sc.used) →
    (∀ y, d = .var y → y ∈ sc.used) → I.s sc d f as = some (out, sc') → ∀ y ∈ targets out, y ∉ sc.used → y ∈ sc'.decl
  e : ∀ {sc f as out e sc'}, Ok sc → (∀ y ∈ Gl, y ∈ sc.used) → (∀ a ∈ as, ∀ y ∈ namesE a, y ∈ sc.used) →
    embeds funs f = true → I.e sc f as = some (out, e, sc') → ∀ y ∈ targets out, y ∈ sc'.decl

theorem not_mem_targets_nil {y : Name} : y ∉ targets [] := by simp [targets, seqs, Stmt.assigned]

theorem cov_args {Gl : List Name} {I : Inl} (hM : IMono I) (hI : IName Gl I) {m : Name → Expr} {es : Exprs} {sc sc' : Sc} {p : List Stmt}
    {as : List Expr} (ho : Ok sc) (hG : ∀ y ∈ Gl, y ∈ sc.used) (hm : ∀ x ∈ namesA es, ∀ y ∈ namesE (m x), y ∈ sc.used)
    (h : visitArgs I m es sc = some (p, as, sc')) : ∀ a ∈ as, ∀ y ∈ namesE a, y ∈ sc'.used := by
  intro a ha y hy
  have h1 := visitArgs_mono hM es ho h
  rcases visitArgs_names hM hI es ho h y (.inr ⟨a, ha, hy⟩) with h2 | ⟨u, hu, h2⟩ | ⟨_, h2⟩
  · exact h1.used _ (hG y h2)
  · exact h1.used _ (hm u hu y h2)
  · exact h2

theorem cov_expr {Gl : List Name} {I : Inl} (hM : IMono I) (hI : IName Gl I) {m : Name → Expr} {e e' : Expr} {sc sc' : Sc} {p : List Stmt}
    (ho : Ok sc) (hG : ∀ y ∈ Gl, y ∈ sc.used) (hm : ∀ x ∈ namesE e, ∀ y ∈ namesE (m x), y ∈ sc.used)
    (h : visitE I m e sc = some (p, e', sc')) : ∀ y ∈ namesE e', y ∈ sc'.used := by
  intro y hy
  have h1 := visitE_mono hM e ho h
  rcases visitE_names hM hI e ho h y (.inr hy) with h2 | ⟨u, hu, h2⟩ | ⟨_, h2⟩
  · exact h1.used _ (hG y h2)
  · exact h1.used _ (hm u hu y h2)
  · exact h2

mutual
theorem visitE_decl {funs : List Func} {q b : Nat → Bool} {Gl : List Name} {I : Inl} (st : Static funs q b Gl I)
    (hI : IDecl funs q b Gl I) {m : Name → Expr} {s : Bool} :
    (e : Expr) → ∀ {sc p e' sc'}, Ok sc → (∀ y ∈ Gl, y ∈ sc.used) → (∀ x ∈ namesE e, ∀ y ∈ namesE (m x), y ∈ sc.used) →
      cleanE funs q b s e = true → visitE I m e sc = some (p, e', sc') → ∀ y ∈ targets p, y ∈ sc'.decl
  | .lit _, _, _, _, _, _, _, _, _, h, y, hy => by simp [visitE] at h; rw [h.1] at hy; exact absurd hy not_mem_targets_nil
  | .name _, _, _, _, _, _, _, _, _, h, y, hy => by simp [visitE] at h; rw [h.1] at hy; exact absurd hy not_mem_targets_nil
  | .glob _ _, _, _, _, _, _, _, _, _, h, y, hy => by
    simp [visitE] at h; rw [h.1] at hy; exact absurd hy not_mem_targets_nil
  | .load _, _, _, _, _, _, _, _, _, h, y, hy => by simp [visitE] at h; rw [h.1] at hy; exact absurd hy not_mem_targets_nil
  | .bin _ a c, sc, _, _, sc', ho, hG, hm, hc, h, y, hy => by
    obtain ⟨p1, a', sc1, p2, b', ha, hb, rfl, rfl⟩ := visitE_bin h
    simp [cleanE] at hc
    have h1 := visitE_mono st.mono a ho ha
    have h2 := visitE_mono st.mono c (h1.ok ho) hb
    simp only [targets_append, List.mem_append] at hy
    rcases hy with hy | hy
    · exact h2.decl _ (visitE_decl st hI a ho hG (fun x hx => hm x (by simp [namesE, hx])) hc.1 ha y hy)
    · exact visitE_decl st hI c (h1.ok ho) (fun y hy => h1.used y (hG y hy))
        (fun x hx y hy => h1.used y (hm x (by simp [namesE, hx]) y hy)) hc.2 hb y hy
  | .cond c a d, sc, _, _, sc', ho, hG, hm, hc, h, y, hy => by
    obtain ⟨p1, a', sc1, p2, c', sc2, p3, b', ha, hcc, hb, rfl, rfl⟩ := visitE_cond h
    simp [cleanE, and_assoc] at hc
    have h1 := visitE_mono st.mono a ho ha
    have h2 := visitE_mono st.mono c (h1.ok ho) hcc
    have h12 := h1.trans h2
    have h3 := visitE_mono st.mono d (h12.ok ho) hb
    simp only [targets_append, List.mem_append] at hy
    rcases hy with hy | hy | hy
    · exact (h2.trans h3).decl _ (visitE_decl st hI a ho hG (fun x hx => hm x (by simp [namesE, hx])) hc.2.1 ha y hy)
    · exact h3.decl _ (visitE_decl st hI c (h1.ok ho) (fun y hy => h1.used y (hG y hy))
        (fun x hx y hy => h1.used y (hm x (by simp [namesE, hx]) y hy)) hc.1 hcc y hy)
    · exact visitE_decl st hI d (h12.ok ho) (fun y hy => h12.used y (hG y hy))
        (fun x hx y hy => h12.used y (hm x (by simp [namesE, hx]) y hy)) hc.2.2 hb y hy
  | .ext _ e, sc, _, _, _, ho, hG, hm, hc, h, y, hy => by
    obtain ⟨e1, he, rfl⟩ := visitE_ext h
    simp [cleanE] at hc
    exact visitE_decl st hI e ho hG (fun x hx => hm x (by simp [namesE, hx])) hc he y hy
  | .call f args, sc, _, e', sc', ho, hG, hm, hc, h, y, hy => by
    obtain ⟨p1, as, sc1, p2, ha, hb, rfl⟩ := visitE_call h
    simp [cleanE, and_assoc] at hc
    have h1 := visitArgs_mono st.mono args ho ha
    have h2 := st.mono.e (h1.ok ho) hb
    have hm' : ∀ x ∈ namesA args, ∀ y ∈ namesE (m x), y ∈ sc.used := fun x hx => hm x (by simp [namesE, hx])
    simp only [targets_append, List.mem_append] at hy
    rcases hy with hy | hy
    · exact h2.decl _ (visitArgs_decl st hI args ho hG hm' hc.2.2.1 ha y hy)
    · exact hI.e (h1.ok ho) (fun y hy => h1.used y (hG y hy)) (cov_args st.mono st.name ho hG hm' ha)
        hc.2.2.2.2.2 hb y hy
theorem visitArgs_decl {funs : List Func} {q b : Nat → Bool} {Gl : List Name} {I : Inl} (st : Static funs q b Gl I)
    (hI : IDecl funs q b Gl I) {m : Name → Expr} {s : Bool} :
    (es : Exprs) → ∀ {sc p es' sc'}, Ok sc → (∀ y ∈ Gl, y ∈ sc.used) → (∀ x ∈ namesA es, ∀ y ∈ namesE (m x), y ∈ sc.used) →
      cleanA funs q b s es = true → visitArgs I m es sc = some (p, es', sc') → ∀ y ∈ targets p, y ∈ sc'.decl
  | .nil, _, _, _, _, _, _, _, _, h, y, hy => by simp [visitArgs] at h; rw [h.1] at hy; exact absurd hy not_mem_targets_nil
  | .cons a c, sc, _, _, _, ho, hG, hm, hc, h, y, hy => by
    obtain ⟨p1, a', sc1, p2, b', ha, hb, rfl, rfl⟩ := visitArgs_cons h
    simp [cleanA] at hc
    have h1 := visitE_mono st.mono a ho ha
    have h2 := visitArgs_mono st.mono c (h1.ok ho) hb
    simp only [targets_append, List.mem_append] at hy
    rcases hy with hy | hy
    · exact h2.decl _ (visitE_decl st hI a ho hG (fun x hx => hm x (by simp [namesA, hx])) hc.1 ha y hy)
    · exact visitArgs_decl st hI c (h1.ok ho) (fun y hy => h1.used y (hG y hy))
        (fun x hx y hy => h1.used y (hm x (by simp [namesA, hx]) y hy)) hc.2 hb y hy
end

theorem visitS_decl {funs : List Func} {q b : Nat → Bool} {Gl : List Name} {I : Inl} (st : Static funs q b Gl I)
    (hI : IDecl funs q b Gl I) {m : Name → Expr} {d : Option Dest} {params : List Name} {quiet : Bool} {res : Option Name}
    {tail : Bool} :
    (s : Stmt) → ∀ {sc out sc'}, Ok sc → (∀ y ∈ Gl, y ∈ sc.used) → (∀ x ∈ namesS s, ∀ y ∈ namesE (m x), y ∈ sc.used) →
      (∀ y, d = some (.var y) → y ∈ sc.used) →
      cleanS funs q b params quiet res tail s = true → visitS I m d s sc = some (out, sc') →
      ∀ y ∈ targets out, y ∉ sc.used → y ∈ sc'.decl
  | .skip, _, _, _, _, _, _, _, _, h, y, hy, _ => by simp [visitS] at h; rw [h.1] at hy; exact absurd hy not_mem_targets_nil
  | .assign x e, sc, _, _, ho, hG, hm, hd, hc, h, y, hy, hu => by
    obtain ⟨p, e', z, he, hz, rfl⟩ := visitS_assign h
    simp [cleanS] at hc
    simp only [targets_append, targets_single, List.mem_append, Stmt.assigned, List.mem_singleton] at hy
    rcases hy with hy | rfl
    · exact visitE_decl st hI e ho hG (fun x hx => hm x (by simp [namesS, hx])) hc.1.2 he y hy
    · exact absurd (hm x (by simp [namesS]) y (by simp [hz, namesE])) hu
  | .store c e, sc, _, _, ho, hG, hm, hd, hc, h, y, hy, hu => by
    obtain ⟨p, e', he, rfl⟩ := visitS_store h
    simp [cleanS] at hc
    simp only [targets_append, targets_single, List.mem_append, Stmt.assigned, List.not_mem_nil, or_false] at hy
    exact visitE_decl st hI e ho hG (fun x hx => hm x (by simp [namesS, hx])) hc.2 he y hy
  | .call (.var x) f args, sc, out, sc', ho, hG, hm, hd, hc, h, y, hy, hu => by
    obtain ⟨p, as, sc1, z, o, ha, hz, hs, rfl⟩ := visitS_callVar h
    simp [cleanS, cleanCall, and_assoc] at hc
    have h1 := visitArgs_mono st.mono args ho ha
    have h2 := st.mono.s (h1.ok ho) hs
    have hm' : ∀ x ∈ namesA args, ∀ y ∈ namesE (m x), y ∈ sc.used := fun x hx => hm x (by simp [namesS, hx])
    have hzu : z ∈ sc.used := hm x (by simp [namesS]) z (by simp [hz, namesE])
    simp only [targets_append, List.mem_append] at hy
    rcases hy with hy | hy
    · exact h2.decl _ (visitArgs_decl st hI args ho hG hm' hc.2.1 ha y hy)
    · by_cases hy1 : y ∈ sc1.used
      · have := st.targ.s (h1.ok ho) hs y hy hy1
        simp at this; subst this
        exact absurd hzu hu
      · exact hI.s (h1.ok ho) (fun y hy => h1.used y (hG y hy)) (cov_args st.mono st.name ho hG hm' ha)
          (by simp; exact h1.used _ hzu) hs y hy hy1
  | .call (.cell c) f args, sc, out, sc', ho, hG, hm, hd, hc, h, y, hy, hu => by
    obtain ⟨p, as, sc1, o, ha, hs, rfl⟩ := visitS_callCell h
    simp [cleanS, cleanCall, and_assoc] at hc
    have h1 := visitArgs_mono st.mono args ho ha
    have h2 := st.mono.s (h1.ok ho) hs
    have hm' : ∀ x ∈ namesA args, ∀ y ∈ namesE (m x), y ∈ sc.used := fun x hx => hm x (by simp [namesS, hx])
    simp only [targets_append, List.mem_append] at hy
    rcases hy with hy | hy
    · exact h2.decl _ (visitArgs_decl st hI args ho hG hm' hc.2.1 ha y hy)
    · by_cases hy1 : y ∈ sc1.used
      · have := st.targ.s (h1.ok ho) hs y hy hy1
        simp at this
      · exact hI.s (h1.ok ho) (fun y hy => h1.used y (hG y hy)) (cov_args st.mono st.name ho hG hm' ha)
          (by simp) hs y hy hy1
  | .call .drop f args, sc, out, sc', ho, hG, hm, hd, hc, h, y, hy, hu => by
    obtain ⟨p, as, sc1, o, ha, hs, rfl⟩ := visitS_callDrop h
    simp [cleanS, cleanCall, and_assoc] at hc
    have h1 := visitArgs_mono st.mono args ho ha
    have h1' := h1.trans Mono.fresh
    have h2 := st.mono.s (h1'.ok ho) hs
    have hm' : ∀ x ∈ namesA args, ∀ y ∈ namesE (m x), y ∈ sc.used := fun x hx => hm x (by simp [namesS, hx])
    simp only [targets_append, List.mem_append] at hy
    rcases hy with hy | hy
    · exact (Mono.fresh.trans h2).decl _ (visitArgs_decl st hI args ho hG hm' hc.1 ha y hy)
    · by_cases hy1 : y ∈ fresh sc1.used :: sc1.used
      · have := st.targ.s (h1'.ok ho) hs y hy hy1
        simp at this; subst this
        exact h2.decl _ (by simp)
      · exact hI.s (h1'.ok ho) (fun y hy => h1'.used y (hG y hy))
          (fun a h3 y h4 => by simp [cov_args st.mono st.name ho hG hm' ha a h3 y h4])
          (by simp) hs y hy hy1
  | .seq s t, sc, out, sc', ho, hG, hm, hd, hc, h, y, hy, hu => by
    obtain ⟨o1, sc1, o2, hs, ht, rfl⟩ := visitS_seq h
    simp [cleanS] at hc
    have h1 := visitS_mono st.mono s ho hs
    have h2 := visitS_mono st.mono t (h1.ok ho) ht
    have hms : ∀ x ∈ namesS s, ∀ y ∈ namesE (m x), y ∈ sc.used := fun x hx => hm x (by simp [namesS, hx])
    have hmt : ∀ x ∈ namesS t, ∀ y ∈ namesE (m x), y ∈ sc.used := fun x hx => hm x (by simp [namesS, hx])
    simp only [targets_append, List.mem_append] at hy
    rcases hy with hy | hy
    · exact h2.decl _ (visitS_decl st hI s ho hG hms hd hc.1 hs y hy hu)
    · exact later st hI t h1 ho hG hmt hd hc.2 ht (visitS_decl st hI t) y hy hu
  | .ite c s t, sc, out, sc', ho, hG, hm, hd, hc, h, y, hy, hu => by
    obtain ⟨p, c', sc1, s', sc2, t', hcc, hs, ht, rfl⟩ := visitS_ite h
    simp [cleanS, and_assoc] at hc
    have h1 := visitE_mono st.mono c ho hcc
    have h2 := visitS_mono st.mono s (h1.ok ho) hs
    have h12 := h1.trans h2
    have h3 := visitS_mono st.mono t (h12.ok ho) ht
    have hmc : ∀ x ∈ namesE c, ∀ y ∈ namesE (m x), y ∈ sc.used := fun x hx => hm x (by simp [namesS, hx])
    have hms : ∀ x ∈ namesS s, ∀ y ∈ namesE (m x), y ∈ sc.used := fun x hx => hm x (by simp [namesS, hx])
    have hmt : ∀ x ∈ namesS t, ∀ y ∈ namesE (m x), y ∈ sc.used := fun x hx => hm x (by simp [namesS, hx])
    simp only [targets_append, targets_single, List.mem_append, Stmt.assigned] at hy
    rcases hy with hy | hy | hy
    · exact (h2.trans h3).decl _ (visitE_decl st hI c ho hG hmc hc.1 hcc y hy)
    · exact h3.decl _ (later st hI s h1 ho hG hms hd hc.2.2.1 hs (visitS_decl st hI s) y hy hu)
    · exact later st hI t h12 ho hG hmt hd hc.2.2.2 ht (visitS_decl st hI t) y hy hu
  | .loop c s, sc, out, sc', ho, hG, hm, hd, hc, h, y, hy, hu => by
    obtain ⟨p, c', sc1, s', hcc, hs, rfl⟩ := visitS_loop h
    simp [cleanS, and_assoc] at hc
    have h1 := visitE_mono st.mono c ho hcc
    have h2 := visitS_mono st.mono s (h1.ok ho) hs
    have hmc : ∀ x ∈ namesE c, ∀ y ∈ namesE (m x), y ∈ sc.used := fun x hx => hm x (by simp [namesS, hx])
    have hms : ∀ x ∈ namesS s, ∀ y ∈ namesE (m x), y ∈ sc.used := fun x hx => hm x (by simp [namesS, hx])
    simp only [targets_append, targets_single, List.mem_append, Stmt.assigned] at hy
    rcases hy with hy | hy
    · exact h2.decl _ (visitE_decl st hI c ho hG hmc hc.1 hcc y hy)
    · exact later st hI s h1 ho hG hms hd hc.2.2 hs (visitS_decl st hI s) y hy hu
  | .ret e, sc, out, sc', ho, hG, hm, hd, hc, h, y, hy, hu => by
    obtain ⟨d', rfl, h1 | ⟨hn, p, e', he, rfl⟩⟩ := visitS_ret h
    · rw [h1.2.2.1] at hy; exact absurd hy not_mem_targets_nil
    · have hc' : cleanE funs q b false e = true := by
        cases e <;> simp [cleanS] at hc <;> first | exact hc.1.2 | simp [cleanE]
      simp only [targets_append, targets_single, List.mem_append] at hy
      rcases hy with hy | hy
      · exact visitE_decl st hI e ho hG (fun x hx => hm x (by simp [namesS, hx])) hc' he y hy
      · cases d' with
        | var z => simp [Dest.put, Stmt.assigned] at hy; subst hy; exact absurd (hd _ rfl) hu
        | cell c => simp [Dest.put, Stmt.assigned] at hy
  | .retCall f args, sc, out, sc', ho, hG, hm, hd, hc, h, y, hy, hu => by
    obtain ⟨d', p, as, sc1, o, rfl, ha, hs, rfl⟩ := visitS_retCall h
    simp [cleanS, cleanCall, and_assoc] at hc
    have h1 := visitArgs_mono st.mono args ho ha
    have h2 := st.mono.s (h1.ok ho) hs
    have hm' : ∀ x ∈ namesA args, ∀ y ∈ namesE (m x), y ∈ sc.used := fun x hx => hm x (by simp [namesS, hx])
    simp only [targets_append, List.mem_append] at hy
    rcases hy with hy | hy
    · exact h2.decl _ (visitArgs_decl st hI args ho hG hm' hc.2.1 ha y hy)
    · by_cases hy1 : y ∈ sc1.used
      · have := st.targ.s (h1.ok ho) hs y hy hy1
        subst this
        exact absurd (hd _ rfl) hu
      · exact hI.s (h1.ok ho) (fun y hy => h1.used y (hG y hy)) (cov_args st.mono st.name ho hG hm' ha)
          (fun z hz => h1.used _ (hd z (by rw [hz]))) hs y hy hy1
where
  later {funs : List Func} {q b : Nat → Bool} {Gl : List Name} {I : Inl} (st : Static funs q b Gl I)
    (_ : IDecl funs q b Gl I) {m : Name → Expr} {d : Option Dest} {params : List Name} {quiet : Bool} {res : Option Name}
    {tail : Bool} (s : Stmt) {sc sc1 sc' : Sc} {out : List Stmt} (h1 : Mono sc sc1) (ho : Ok sc) (hG : ∀ y ∈ Gl, y ∈ sc.used)
    (hm : ∀ x ∈ namesS s, ∀ y ∈ namesE (m x), y ∈ sc.used) (hd : ∀ y, d = some (.var y) → y ∈ sc.used)
    (hc : cleanS funs q b params quiet res tail s = true) (h : visitS I m d s sc1 = some (out, sc'))
    (ih : ∀ {sc out sc'}, Ok sc → (∀ y ∈ Gl, y ∈ sc.used) → (∀ x ∈ namesS s, ∀ y ∈ namesE (m x), y ∈ sc.used) →
      (∀ y, d = some (.var y) → y ∈ sc.used) →
      cleanS funs q b params quiet res tail s = true → visitS I m d s sc = some (out, sc') →
      ∀ y ∈ targets out, y ∉ sc.used → y ∈ sc'.decl) : ∀ y ∈ targets out, y ∉ sc.used → y ∈ sc'.decl := by
    intro y hy hu
    by_cases hy1 : y ∈ sc1.used
    · rcases visitS_targets st.mono st.targ s (h1.ok ho) h y hy hy1 with ⟨x, hx, he⟩ | ⟨h2, _⟩
      · exact absurd (hm x (assigned_names s x hx) y (by simp [he, namesE])) hu
      · exact absurd (hd y h2) hu
    · exact ih (h1.ok ho) (fun y hy => h1.used y (hG y hy)) (fun x hx y hy => h1.used y (hm x hx y hy))
        (fun y hy => h1.used y (hd y hy)) hc h y hy hy1
  assigned_names : (s : Stmt) → ∀ x ∈ s.assigned, x ∈ namesS s
    | .skip, _, h => by simp [Stmt.assigned] at h
    | .assign _ _, _, h => by simp [Stmt.assigned] at h; simp [namesS, h]
    | .store _ _, _, h => by simp [Stmt.assigned] at h
    | .call (.var _) _ _, _, h => by simp [Stmt.assigned] at h; simp [namesS, h]
    | .call (.cell _) _ _, _, h => by simp [Stmt.assigned] at h
    | .call .drop _ _, _, h => by simp [Stmt.assigned] at h
    | .seq s t, x, h => by
      simp [Stmt.assigned] at h
      simp only [namesS, List.mem_append]
      exact h.imp (assigned_names s x) (assigned_names t x)
    | .ite _ s t, x, h => by
      simp [Stmt.assigned] at h
      simp only [namesS, List.mem_append]
      rcases h with h | h
      · exact .inl (.inr (assigned_names s x h))
      · exact .inr (assigned_names t x h)
    | .loop _ s, x, h => by
      simp [Stmt.assigned] at h
      simp only [namesS, List.mem_append]
      exact .inr (assigned_names s x h)
    | .ret _, _, h => by simp [Stmt.assigned] at h
    | .retCall _ _, _, h => by simp [Stmt.assigned] at h

theorem expand_decl {funs : List Func} {q b : Nat → Bool} {Gl : List Name} {I : Inl} (st : Static funs q b Gl I)
    (hI : IDecl funs q b Gl I) {sc sc' : Sc} {d : Dest} {f : Nat} {as : List Expr} {out : List Stmt} (ho : Ok sc)
    (hG : ∀ y ∈ Gl, y ∈ sc.used) (ha : ∀ a ∈ as, ∀ y ∈ namesE a, y ∈ sc.used) (hd : ∀ y, d = .var y → y ∈ sc.used)
    (h : expand funs I sc d f as = some (out, sc')) : ∀ y ∈ targets out, y ∉ sc.used → y ∈ sc'.decl := by
  obtain ⟨F, hF, hl, hv⟩ := expand_some h
  have hFm := List.mem_of_getElem? hF
  have hm := bodySc_mono F d sc
  have h2 := visitS_mono st.mono _ (hm.ok ho) hv
  intro y hy hu
  by_cases hy1 : y ∈ (bodySc F d sc).used
  · rcases visitS_targets st.mono st.targ _ (hm.ok ho) hv y hy hy1 with ⟨x, hx, he⟩ | ⟨h3, _⟩
    · have hp : x ∉ F.params := fun hp => st.clean.kept F hFm x hp hx
      rcases mapOf_cases F d as sc.used x hl with h1 | ⟨_, _, z, h1, h2⟩ | ⟨_, _, _, z, _, h1, h2⟩ | ⟨h1, _⟩
      · exact absurd h1.1 hp
      · rw [he] at h2; simp at h2; exact absurd (hd y (h2 ▸ h1)) hu
      · rw [he] at h2; simp at h2; subst h2
        exact (visitS_mono st.mono _ (hm.ok ho) hv).decl _ (by simp; exact .inl ⟨x, h1⟩)
      · simp [Func.locals, hx] at h1
    · simp at h3; exact absurd (hd y h3) hu
  · exact visitS_decl st hI _ (hm.ok ho) (fun y hy => hm.used y (hG y hy))
      (fun x hx => mapOf_cov st.scope hFm hl hG ha hd hx) (fun y hy => hm.used y (hd y (by simpa using hy)))
      (st.clean f F hF).2.1 hv y hy hy1

theorem embed_decl {funs : List Func} {q b : Nat → Bool} {Gl : List Name} {I : Inl} (st : Static funs q b Gl I)
    (hI : IDecl funs q b Gl I) {sc sc' : Sc} {f : Nat} {as : List Expr} {out : List Stmt} {e : Expr} (ho : Ok sc)
    (hG : ∀ y ∈ Gl, y ∈ sc.used) (ha : ∀ a ∈ as, ∀ y ∈ namesE a, y ∈ sc.used) (he : embeds funs f = true)
    (h : embed funs I sc f as = some (out, e, sc')) : ∀ y ∈ targets out, y ∈ sc'.decl := by
  obtain ⟨F, out', sc1, hF, h1, _, h2⟩ := embed_cases h
  simp [embeds, hF] at he
  have hm : Mono _ sc1 := expand_mono st.mono (Mono.fresh.ok ho) h1
  have key : ∀ y ∈ targets out', y ∈ sc1.decl := by
    intro y hy
    by_cases hy1 : y ∈ fresh sc.used :: sc.used
    · have := expand_targets st.clean.kept st.mono st.targ (Mono.fresh.ok ho) h1 y hy hy1
      simp at this; subst this
      exact hm.decl _ (by simp)
    · exact expand_decl st hI (Mono.fresh.ok ho) (fun y hy => by simp [hG y hy]) (fun a h3 y h4 => by simp [ha a h3 y h4])
        (by simp) h1 y hy hy1
  intro y hy
  rcases h2 with ⟨_, z, rfl, rfl⟩ | ⟨_, rfl, _, rfl⟩
  · have hr := (embed_removed st ho hF he hG ha h1).1
    have hne : y ≠ fresh sc.used := by
      rintro rfl
      exact hr (visitS_decl.assigned_names _ _ hy)
    simp only
    rw [List.mem_erase_of_ne hne]
    exact key y (by simp [targets_append, hy])
  · exact key y hy

theorem inl_decl {funs : List Func} {q b : Nat → Bool} {Gl : List Name} (hC : CleanFuns funs q b) (hS : Scoped funs Gl) :
    ∀ n, IDecl funs q b Gl (inl funs n)
  | 0 => ⟨fun _ _ _ _ h => by simp [inl] at h, fun _ _ _ _ h => by simp [inl] at h⟩
  | n + 1 => ⟨fun ho hG ha hd h => expand_decl (static_inl hC hS n) (inl_decl hC hS n) ho hG ha hd h,
      fun ho hG ha he h => embed_decl (static_inl hC hS n) (inl_decl hC hS n) ho hG ha he h⟩

end Verif.Inline.Lemmas
