import Verif.Globals.Lemmas2

namespace Verif.Globals.Lemmas
open Spec Model

/-! ### The statements of the module -/

theorem touch_mem {fs : List Fun} {G : List Name} : ∀ {n : Nat} {vis : Visited} {g f : Name} {H : List Name},
    (f, H) ∈ touch fs G n vis g → (f, H) ∈ vis ∨ H = G
  | 0, vis, g, f, H, h => .inl (by simpa [touch] using h)
  | n + 1, vis, g, f, H, h => by
    have fold : ∀ (l : List Name) (vis : Visited), (f, H) ∈ l.foldl (touch fs G n) vis →
        (f, H) ∈ vis ∨ H = G := by
      intro l
      induction l with
      | nil => exact fun _ h => .inl h
      | cons a l ih =>
        intro vis h
        exact (ih _ h).elim touch_mem .inr
    rw [touch] at h
    split at h
    · exact .inl h
    · cases hg : getFun fs g with
      | none => rw [hg] at h; exact .inl h
      | some d =>
        rw [hg] at h
        rcases fold _ _ h with h | h
        · rcases List.mem_cons.1 h with h | h
          · exact .inr (by injection h)
          · exact .inl h
        · exact .inr h

/-- What is known when the statements of the module have been resolved. -/
structure MDone (G : List Name) (vis : Visited) (s : Stmt Name) (s' : Stmt Ref) (G' : List Name)
    (vis' : Visited) : Prop where
  eq : s' = mapS (ref fun _ => false) s
  mem : ∀ x, x ∈ G' ↔ x ∈ G ∨ x ∈ assigned s
  known : ∀ x ∈ names s, x ∈ G'
  vis : ∀ f H, (f, H) ∈ vis' → (f, H) ∈ vis ∨ ∀ x ∈ H, x ∈ G'

theorem rExpr_mod {G : List Name} {e : Expr Name} {e' : Expr Ref} (h : rExpr G [] e = some e') :
    e' = mapE (ref fun _ => false) e ∧ ∀ x ∈ vars e, x ∈ G := by
  obtain ⟨r1, _, r3⟩ := rExpr_eq (cls := fun _ => false) h (by simp) (by simp)
  exact ⟨r1, fun x hx => (r3 x hx).resolve_left (by simp)⟩

theorem rExprs_mod {G : List Name} {e : List (Expr Name)} {e' : List (Expr Ref)}
    (h : rExprs G [] e = some e') :
    e' = e.map (mapE (ref fun _ => false)) ∧ ∀ x ∈ e.flatMap vars, x ∈ G := by
  obtain ⟨r1, _, r3⟩ := rExprs_eq (cls := fun _ => false) h (by simp) (by simp)
  exact ⟨r1, fun x hx => (r3 x hx).resolve_left (by simp)⟩

theorem mStmt_eq {fs : List Fun} : ∀ {s : Stmt Name} {G : List Name} {vis : Visited} {s' : Stmt Ref}
    {G' : List Name} {vis' : Visited}, mStmt fs (G, vis) s = some (s', G', vis') →
      MDone G vis s s' G' vis'
  | .skip, G, vis, s', G', vis', h => by
    simp only [mStmt, Option.some.injEq, Prod.mk.injEq] at h
    obtain ⟨rfl, rfl, rfl⟩ := h
    exact ⟨rfl, by simp [assigned], by simp [names], fun _ _ h => .inl h⟩
  | .print e, G, vis, s', G', vis', h => by
    simp only [mStmt, Option.map_eq_some_iff, Prod.mk.injEq] at h
    obtain ⟨e', he, rfl, rfl, rfl⟩ := h
    obtain ⟨r1, r2⟩ := rExpr_mod he
    subst r1
    exact ⟨rfl, by simp [assigned], by simpa [names] using r2, fun _ _ h => .inl h⟩
  | .seq a b, G, vis, s', G', vis', h => by
    simp only [mStmt, Option.bind_eq_some_iff, Option.map_eq_some_iff, Prod.mk.injEq, Prod.exists] at h
    obtain ⟨a', G1, v1, ha, b', G2, v2, hb, rfl, rfl, rfl⟩ := h
    have A := mStmt_eq ha
    have B := mStmt_eq hb
    refine ⟨by rw [mapS, A.eq, B.eq], ?_, ?_, ?_⟩
    · intro x
      rw [B.mem, A.mem]
      simp [assigned, or_assoc]
    · intro x hx
      simp only [names, List.mem_append] at hx
      exact hx.elim (fun h => (B.mem x).2 (.inl (A.known x h))) (B.known x)
    · intro f H h
      rcases B.vis f H h with h | h
      · rcases A.vis f H h with h | h
        · exact .inl h
        · exact .inr fun x hx => (B.mem x).2 (.inl (h x hx))
      · exact .inr h
  | .assign y e, G, vis, s', G', vis', h => by
    simp only [mStmt, Option.map_eq_some_iff, Prod.mk.injEq] at h
    obtain ⟨e', he, rfl, rfl, rfl⟩ := h
    obtain ⟨r1, r2⟩ := rExpr_mod he
    subst r1
    refine ⟨rfl, fun x => by simp [assigned, or_comm], ?_, fun _ _ h => .inl h⟩
    intro x hx
    rcases List.mem_cons.1 hx with rfl | hx
    · simp
    · exact List.mem_cons_of_mem _ (r2 x hx)
  | .ann y e, G, vis, s', G', vis', h => by
    rw [mStmt] at h
    split at h
    · cases h
    · simp only [Option.map_eq_some_iff, Prod.mk.injEq] at h
      obtain ⟨e', he, rfl, rfl, rfl⟩ := h
      obtain ⟨r1, r2⟩ := rExpr_mod he
      subst r1
      refine ⟨rfl, fun x => by simp [assigned, or_comm], ?_, fun _ _ h => .inl h⟩
      intro x hx
      rcases List.mem_cons.1 hx with rfl | hx
      · simp
      · exact r2 x hx
  | .call y f as, G, vis, s', G', vis', h => by
    simp only [mStmt, Option.map_eq_some_iff, Prod.mk.injEq] at h
    obtain ⟨e', he, rfl, rfl, rfl⟩ := h
    obtain ⟨r1, r2⟩ := rExprs_mod he
    subst r1
    refine ⟨rfl, fun x => by simp [assigned, or_comm], ?_, ?_⟩
    · intro x hx
      rcases List.mem_cons.1 hx with rfl | hx
      · simp
      · exact List.mem_cons_of_mem _ (r2 x hx)
    · intro f H h
      rcases touch_mem h with h | rfl
      · exact .inl h
      · exact .inr fun x hx => List.mem_cons_of_mem _ hx
  | .ite c a b, G, vis, s', G', vis', h => by
    simp only [mStmt, Option.bind_eq_some_iff, Option.map_eq_some_iff, Prod.mk.injEq, Prod.exists] at h
    obtain ⟨c', hc, a', G1, v1, ha, b', G2, v2, hb, rfl, rfl, rfl⟩ := h
    obtain ⟨r1, r2⟩ := rExpr_mod hc
    have A := mStmt_eq ha
    have B := mStmt_eq hb
    refine ⟨by rw [mapS, r1, A.eq, B.eq], ?_, ?_, ?_⟩
    · intro x
      rw [B.mem, A.mem]
      simp [assigned, or_assoc]
    · intro x hx
      simp only [names, List.mem_append] at hx
      rcases hx with (hx | hx) | hx
      · exact (B.mem x).2 (.inl ((A.mem x).2 (.inl (r2 x hx))))
      · exact (B.mem x).2 (.inl (A.known x hx))
      · exact B.known x hx
    · intro f H h
      rcases B.vis f H h with h | h
      · rcases A.vis f H h with h | h
        · exact .inl h
        · exact .inr fun x hx => (B.mem x).2 (.inl (h x hx))
      · exact .inr h
  | .while c b, G, vis, s', G', vis', h => by
    simp only [mStmt, Option.bind_eq_some_iff, Option.map_eq_some_iff, Prod.mk.injEq, Prod.exists] at h
    obtain ⟨c', hc, b', G2, v2, hb, rfl, rfl, rfl⟩ := h
    obtain ⟨r1, r2⟩ := rExpr_mod hc
    have B := mStmt_eq hb
    refine ⟨by rw [mapS, r1, B.eq], ?_, ?_, B.vis⟩
    · intro x
      rw [B.mem]
      simp [assigned]
    · intro x hx
      simp only [names, List.mem_append] at hx
      exact hx.elim (fun h => (B.mem x).2 (.inl (r2 x h))) (B.known x)

/-! ### The functions -/

theorem annotated_assigned : ∀ {s : Stmt Name} {x : Name}, x ∈ annotated s → x ∈ assigned s
  | .skip, _, h => by simp [annotated] at h
  | .print _, _, h => by simp [annotated] at h
  | .assign _ _, _, h => by simp [annotated] at h
  | .call _ _ _, _, h => by simp [annotated] at h
  | .seq a b, x, h => by
    simp only [annotated, List.mem_append] at h
    simp only [assigned, List.mem_append]
    exact h.imp annotated_assigned annotated_assigned
  | .ite c a b, x, h => by
    simp only [annotated, List.mem_append] at h
    simp only [assigned, List.mem_append]
    exact h.imp annotated_assigned annotated_assigned
  | .ann y e, x, h => by simpa [annotated, assigned] using h
  | .while c b, x, h => annotated_assigned (s := b) (by simpa [annotated] using h)

theorem result_eq {f : Fun} {x : Name} : x ∈ (result f).toList ↔
    f.retAnn = true ∧ f.ret = .var x ∧ x ∈ assigned f.body ∧ x ∉ f.params := by
  unfold result
  cases h : f.ret with
  | lit v => simp
  | bin op a b => simp
  | var y =>
    by_cases hc : (f.retAnn && (assigned f.body).contains y && !f.params.contains y) = true
    · simp only [hc, if_true, Option.toList_some, List.mem_singleton]
      simp only [Bool.and_eq_true, List.contains_iff_mem, Bool.not_eq_true', ← Bool.not_eq_true] at hc
      constructor
      · rintro rfl
        exact ⟨hc.1.1, rfl, hc.1.2, hc.2⟩
      · rintro ⟨_, h2, _⟩
        injection h2 with h2
        exact h2.symm
    · have hc' : (f.retAnn && (assigned f.body).contains y && !f.params.contains y) = false := by
        simpa using hc
      simp only [hc', Bool.false_eq_true, if_false, Option.toList_none, List.not_mem_nil, false_iff]
      rintro ⟨h1, h2, h3, h4⟩
      injection h2 with h2
      subst h2
      exact hc (by simp [h1, h3, h4])

open Classical in
/-- The names that a function shares with the module, when it is visited. -/
noncomputable def shared (G : List Name) (f : Fun) : List Name :=
  (assigned f.body).filter fun x => decide (x ∈ G ∧ ¬ Own f x)

theorem mem_shared {G : List Name} {f : Fun} {x : Name} :
    x ∈ shared G f ↔ x ∈ assigned f.body ∧ x ∈ G ∧ ¬ Own f x := by simp [shared]

theorem rFun_ok {G M : List Name} {decl : Name → List Name} {f : Fun} {f' : CFun}
    (h : rFun G f = some f') (hd : decl f.name = shared G f) (hM : ∀ x ∈ G, x ∈ M)
    (ht : ∀ x ∈ annotated f.body, x ∈ M → Own f x) : FunOK M decl f f' := by
  simp only [rFun, Option.bind_eq_some_iff, Option.map_eq_some_iff, Prod.exists] at h
  obtain ⟨b, L, hb, r, hr, rfl⟩ := h
  have hcls : ∀ x, isLocal decl f x = true ↔ x ∈ f.params ∨ x ∈ assigned f.body ∧ (x ∈ G → Own f x) := by
    intro x
    simp only [isLocal, Bool.or_eq_true, List.contains_iff_mem, Bool.and_eq_true, Bool.not_eq_true',
      ← Bool.not_eq_true, hd, mem_shared]
    refine or_congr_right (and_congr_right fun h => ?_)
    constructor
    · intro h1 h2
      exact Classical.byContradiction fun hn => h1 ⟨h, h2, hn⟩
    · rintro h1 ⟨_, h2, h3⟩
      exact h3 (h1 h2)
  have D := rStmt_eq (cls := isLocal decl f) hb
    (fun x hx => by
      rw [hcls]
      rcases List.mem_append.1 hx with hx | hx
      · obtain ⟨h1, h2, h3, h4⟩ := result_eq.1 hx
        exact .inr ⟨h3, fun _ => .inr (.inl ⟨h1, h2⟩)⟩
      · exact .inl hx)
    (fun x hx h1 h2 h3 => by
      rw [List.mem_append, not_or] at h3
      rcases (hcls x).1 h1 with h | ⟨ha, ho⟩
      · exact absurd h h3.2
      · rcases ho h2 with h | ⟨p, q⟩ | h
        · exact absurd h h3.2
        · exact absurd (result_eq.2 ⟨p, q, ha, h3.2⟩) h3.1
        · exact h)
    (fun x hx h1 => Decidable.byContradiction fun hn => by
      have := (hcls x).2 (.inr ⟨hx, fun h => absurd h hn⟩)
      rw [h1] at this; cases this)
    (fun x hx => (hcls x).2 (.inr ⟨annotated_assigned hx, fun h => ht x hx (hM x h)⟩))
  obtain ⟨r1, _, r3⟩ := rExpr_eq (cls := isLocal decl f) hr D.isLoc fun x hx h1 _ => by
    rcases (hcls x).1 h1 with h | ⟨h, _⟩
    · exact D.sub x (List.mem_append.2 (.inr h))
    · exact D.mem x (assigned_names h) h1
  exact ⟨rfl, D.eq, r1, fun x hx => (D.known x hx).imp_right (hM x), fun x hx => (r3 x hx).imp_right (hM x)⟩

theorem rFuns_get {vis : Visited} {G : List Name} (n : Name) : ∀ {fs : List Fun} {cs : List CFun},
    rFuns vis G fs = some cs → (getFun fs n = none ∧ getCFun cs n = none) ∨
      ∃ f f', getFun fs n = some f ∧ getCFun cs n = some f' ∧ f.name = n ∧ f ∈ fs ∧
        rFun ((vis.lookup n).getD G) f = some f'
  | [], cs, h => by
    simp only [rFuns, Option.some.injEq] at h
    subst h
    exact .inl ⟨rfl, rfl⟩
  | f :: fs, cs, h => by
    simp only [rFuns, Option.bind_eq_some_iff, Option.map_eq_some_iff] at h
    obtain ⟨f', hf, r', hr, rfl⟩ := h
    have hname : f'.name = f.name := by
      simp only [rFun, Option.bind_eq_some_iff, Option.map_eq_some_iff, Prod.exists] at hf
      obtain ⟨b, L, _, r, _, rfl⟩ := hf
      rfl
    by_cases hn : f.name = n
    · refine .inr ⟨f, f', by simp [getFun, hn], by simp [getCFun, hname, hn], hn, by simp, hn ▸ hf⟩
    · rcases rFuns_get n hr with ⟨h1, h2⟩ | ⟨g, g', h1, h2, h3, h4, h5⟩
      · exact .inl ⟨by simp [getFun, hn, h1], by simp [getCFun, hname, hn, h2]⟩
      · exact .inr ⟨g, g', by simp [getFun, hn, h1], by simp [getCFun, hname, hn, h2], h3, by simp [h4], h5⟩

theorem lookup_mem {vis : Visited} {n : Name} {H : List Name} (h : vis.lookup n = some H) : (n, H) ∈ vis := by
  induction vis with
  | nil => cases h
  | cons a l ih =>
    obtain ⟨k, v⟩ := a
    rw [List.lookup_cons] at h
    by_cases hk : n = k
    · subst hk
      simp at h
      subst h
      simp
    · have : (n == k) = false := by simp [hk]
      rw [this] at h
      exact List.mem_cons_of_mem _ (ih h)

/-- The names that each function shares with the module. -/
noncomputable def declOf (fs : List Fun) (vis : Visited) (G : List Name) (n : Name) : List Name :=
  match getFun fs n with
  | some f => shared ((vis.lookup n).getD G) f
  | none => []

theorem mStmt_vis {fs : List Fun} : ∀ {s : Stmt Name} {G : List Name} {vis : Visited} {s' : Stmt Ref}
    {G' : List Name} {vis' : Visited}, mStmt fs (G, vis) s = some (s', G', vis') → NoCall s → vis' = vis
  | .skip, G, vis, s', G', vis', h, _ => by
    simp only [mStmt, Option.some.injEq, Prod.mk.injEq] at h
    exact h.2.2.symm
  | .print e, G, vis, s', G', vis', h, _ => by
    simp only [mStmt, Option.map_eq_some_iff, Prod.mk.injEq] at h
    obtain ⟨e', he, rfl, rfl, rfl⟩ := h
    rfl
  | .assign y e, G, vis, s', G', vis', h, _ => by
    simp only [mStmt, Option.map_eq_some_iff, Prod.mk.injEq] at h
    obtain ⟨e', he, rfl, rfl, rfl⟩ := h
    rfl
  | .ann y e, G, vis, s', G', vis', h, _ => by
    rw [mStmt] at h
    split at h
    · cases h
    · simp only [Option.map_eq_some_iff, Prod.mk.injEq] at h
      obtain ⟨e', he, rfl, rfl, rfl⟩ := h
      rfl
  | .call y f as, G, vis, s', G', vis', h, hn => hn.elim
  | .seq a b, G, vis, s', G', vis', h, hn => by
    simp only [mStmt, Option.bind_eq_some_iff, Option.map_eq_some_iff, Prod.mk.injEq, Prod.exists] at h
    obtain ⟨a', G1, v1, ha, b', G2, v2, hb, rfl, rfl, rfl⟩ := h
    rw [mStmt_vis hb hn.2, mStmt_vis ha hn.1]
  | .ite c a b, G, vis, s', G', vis', h, hn => by
    simp only [mStmt, Option.bind_eq_some_iff, Option.map_eq_some_iff, Prod.mk.injEq, Prod.exists] at h
    obtain ⟨c', hc, a', G1, v1, ha, b', G2, v2, hb, rfl, rfl, rfl⟩ := h
    rw [mStmt_vis hb hn.2, mStmt_vis ha hn.1]
  | .while c b, G, vis, s', G', vis', h, hn => by
    simp only [mStmt, Option.bind_eq_some_iff, Option.map_eq_some_iff, Prod.mk.injEq, Prod.exists] at h
    obtain ⟨c', hc, b', G2, v2, hb, rfl, rfl, rfl⟩ := h
    exact mStmt_vis hb hn

theorem main_eq {p : Prog} {c : CProg} (ht : Tidy p) (hc : compile p = some c) :
    ∃ decl : Name → List Name,
      (∀ n, ∀ x ∈ decl n, ∃ f ∈ p.funcs, f.name = n ∧ x ∈ assigned f.body ∧ x ∈ assigned p.mod ∧ ¬ Own f x) ∧
      (NoCall p.mod → ∀ n f, getFun p.funcs n = some f →
        ∀ x, x ∈ assigned f.body → x ∈ assigned p.mod → ¬ Own f x → x ∈ decl n) ∧
      ∀ fuel, runC c fuel = runGlobal p decl fuel := by
  simp only [compile, Option.bind_eq_some_iff, Option.map_eq_some_iff, Prod.exists] at hc
  obtain ⟨m, G, vis, hm, main, L, hmain, fs, hfs, rfl⟩ := hc
  have D := mStmt_eq hm
  have hG : ∀ x, x ∈ G ↔ x ∈ assigned p.mod := fun x => by rw [D.mem]; simp
  have hvis : ∀ n, ∀ x ∈ (vis.lookup n).getD G, x ∈ G := by
    intro n x hx
    cases hl : vis.lookup n with
    | none => simpa [hl] using hx
    | some H =>
      rw [hl] at hx
      rcases D.vis n H (lookup_mem hl) with h | h
      · cases h
      · exact h x hx
  refine ⟨declOf p.funcs vis G, ?_, ?_, ?_⟩
  rotate_left
  · intro hn n f hf x h1 h2 h3
    have hv := mStmt_vis hm hn
    subst hv
    rw [declOf, hf]
    exact mem_shared.2 ⟨h1, (hG x).2 h2, h3⟩
  rotate_left
  · intro n x hx
    unfold declOf at hx
    rcases rFuns_get n hfs with ⟨h1, _⟩ | ⟨f, f', h1, _, h3, h4, _⟩
    · rw [h1] at hx; cases hx
    · rw [h1] at hx
      obtain ⟨a, b, d⟩ := mem_shared.1 hx
      exact ⟨f, h4, h3, a, (hG x).1 (hvis n x b), d⟩
  · intro fuel
    have hF : FunsOK G (declOf p.funcs vis G) p.funcs fs := by
      intro n
      rcases rFuns_get n hfs with h | ⟨f, f', h1, h2, h3, h4, h5⟩
      · exact .inl h
      · refine .inr ⟨f, f', h1, h2, rFun_ok h5 ?_ (hvis n) fun x hx hxG => ht.funcs f h4 x hx ((hG x).1 hxG)⟩
        rw [h3, declOf, h1]
    have B := rStmt_eq (cls := fun x => !G.contains x) hmain (by simp)
      (fun x _ h1 h2 => by simp [h2] at h1) (fun x _ h1 => by simpa using h1)
      (fun x hx => by simpa using fun h => ht.main x hx ((hG x).1 h))
    unfold runC runGlobal
    cases fuel with
    | zero => rfl
    | succ n =>
      simp only [execC, exec]
      rw [D.eq, B.eq]
      have g1 : Good G (fun _ => false) (fun _ => false) := ⟨fun _ h => h, fun _ h => by cases h⟩
      have g2 : Good G (fun _ => false) (fun x => !G.contains x) :=
        ⟨fun _ h => (by cases h), fun x h _ => (by simpa using h)⟩
      have s1 := sim hF n p.mod (P := ⟨fun _ => none, fun _ => none, []⟩)
        (C := ⟨fun _ => none, fun _ => none, []⟩) g1
        ⟨rfl, fun _ _ => rfl, fun _ _ _ => rfl, fun _ _ => rfl⟩ fun x hx => .inr (D.known x hx)
      cases e1 : exec p.funcs (declOf p.funcs vis G) n (fun _ => false) p.mod
          ⟨fun _ => none, fun _ => none, []⟩ with
      | none =>
        cases e2 : execC fs n (mapS (ref fun _ => false) p.mod) ⟨fun _ => none, fun _ => none, []⟩ with
        | none => rfl
        | some C1 => rw [e1, e2] at s1; exact s1.elim
      | some P1 =>
        cases e2 : execC fs n (mapS (ref fun _ => false) p.mod) ⟨fun _ => none, fun _ => none, []⟩ with
        | none => rw [e1, e2] at s1; exact s1.elim
        | some C1 =>
          rw [e1, e2] at s1
          obtain ⟨r1, f1⟩ := s1
          simp only [Option.bind_some]
          have r2 : Rel G (fun _ => false) (fun x => !G.contains x) P1 C1 := by
            refine ⟨r1.out, r1.l, fun x h1 _ => ?_, r1.g⟩
            rw [f1.glob x (by simpa using h1) (by simp), f1.loc x rfl]
          have s2 := sim hF n p.main g2 r2 B.known
          cases e3 : exec p.funcs (declOf p.funcs vis G) n (fun _ => false) p.main P1 with
          | none =>
            cases e4 : execC fs n (mapS (ref fun x => !G.contains x) p.main) C1 with
            | none => rfl
            | some _ => rw [e3, e4] at s2; exact s2.elim
          | some P2 =>
            cases e4 : execC fs n (mapS (ref fun x => !G.contains x) p.main) C1 with
            | none => rw [e3, e4] at s2; exact s2.elim
            | some C2 =>
              rw [e3, e4] at s2
              simp [s2.1.out]

end Verif.Globals.Lemmas
