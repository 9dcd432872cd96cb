import Verif.Aliases.LemmasVisit

/-!
# Arrays shared by several variables: calls and results
-/

namespace Verif.Aliases.Lemmas
open Spec Model

variable {args S fr : List Var} {K : Var → Option Kind}

/-! ## The targets of the result -/

/-- The pointers assigned, with what is assigned. -/
def pairs : Stmt → List (Var × Var)
  | .bind p y _ => [(p, y)]
  | .seq a b => pairs a ++ pairs b
  | .ite _ _ a b => pairs a ++ pairs b
  | .loop _ _ b => pairs b
  | _ => []

theorem indicate_has {an an' : An} {p y q t : Var} (h : indicate an p y = some an') (ht : Has an.tg q t) :
    Has an'.tg q t := by
  obtain ⟨_, h⟩ := indicate_cases h
  rcases h with ⟨_, rfl⟩ | ⟨_, _, ⟨_, rfl⟩ | ⟨ts, _, h⟩⟩ | ⟨_, _, _, h⟩
  · exact ht
  · exact ht
  · rw [h]; exact has_extend _ _ _ _ _ ht
  · rw [h]; exact has_extend _ _ _ _ _ ht

theorem visit_has (res : Option Var) : ∀ (st : Stmt) {an an' : An} {co : Code} {q t : Var},
    visit res st an = some (co, an') → (st.returns = false ∨ res = some q) → Has an.tg q t → Has an'.tg q t
  | .skip, an, an', co, q, t, h, _, ht => by simp [visit] at h; rw [← h.2]; exact ht
  | .fresh .., an, an', co, q, t, h, _, ht => by
    rcases visitFresh_cases h with ⟨_, _, _, rfl⟩ | ⟨_, _, _, rfl⟩ | ⟨_, rfl⟩
    · exact ht
    · exact ht
    · exact ht
  | .bind .., an, an', co, q, t, h, _, ht => by
    rcases visitBind_cases h with ⟨_, _, h2⟩ | ⟨_, _, h2⟩ | ⟨_, _, _, _, rfl⟩
    · exact indicate_has h2 ht
    · exact indicate_has h2 ht
    · exact ht
  | .store .., an, an', co, q, t, h, _, ht => by
    simp only [visit] at h
    split at h
    · cases h; exact ht
    · cases h
  | .print .., an, an', co, q, t, h, _, ht => by
    simp only [visit] at h
    split at h
    · cases h; exact ht
    · cases h
  | .del .., an, an', co, q, t, h, _, ht => by
    simp only [visit] at h
    split at h
    · cases h; exact ht
    · cases h
  | .ret, an, an', co, q, t, h, hr, ht => by
    rcases hr with hr | rfl
    · simp [Stmt.returns] at hr
    · exact (checkTargets_has (visit_ret h).1).2 ht
  | .seq a b, an, an', co, q, t, h, hr, ht => by
    obtain ⟨a', an1, b', h1, h2, _⟩ := visit_seq h
    simp only [Stmt.returns, Bool.or_eq_false_iff] at hr
    exact visit_has res b h2 (hr.imp (·.2) id) (visit_has res a h1 (hr.imp (·.1) id) ht)
  | .ite _ _ a b, an, an', co, q, t, h, hr, ht => by
    obtain ⟨a', an1, b', h1, h2, _⟩ := visit_ite h
    simp only [Stmt.returns, Bool.or_eq_false_iff] at hr
    exact visit_has res b h2 (hr.imp (·.2) id) (visit_has res a h1 (hr.imp (·.1) id) ht)
  | .loop _ _ b, an, an', co, q, t, h, hr, ht => by
    obtain ⟨b', h1, _⟩ := visit_loop h
    exact visit_has res b h1 hr ht

theorem visit_pairs (res : Option Var) : ∀ (st : Stmt) {an an' : An} {co : Code} {after : Bool},
    visit res st an = some (co, an') → (∀ y ∈ st.sources, y ∈ S) → (∀ x ∈ st.owners, x ∈ fr) →
    Clean args S fr after st → WA args S fr after an → (∀ v k, an'.kind v = some k → K v = some k) →
    ∀ q t, (q, t) ∈ pairs st → K t ≠ some .alias → (st.returns = false ∨ res = some q) → Has an'.tg q t
  | .skip, _, _, _, _, _, _, _, _, _, _, _, _, hy, _, _ => by simp [pairs] at hy
  | .fresh .., _, _, _, _, _, _, _, _, _, _, _, _, hy, _, _ => by simp [pairs] at hy
  | .store .., _, _, _, _, _, _, _, _, _, _, _, _, hy, _, _ => by simp [pairs] at hy
  | .print .., _, _, _, _, _, _, _, _, _, _, _, _, hy, _, _ => by simp [pairs] at hy
  | .del .., _, _, _, _, _, _, _, _, _, _, _, _, hy, _, _ => by simp [pairs] at hy
  | .ret, _, _, _, _, _, _, _, _, _, _, _, _, hy, _, _ => by simp [pairs] at hy
  | .bind p y idx, an, an', co, after, h, hs, ho, hc, w, hK, q, t, hz, hza, _ => by
    simp only [pairs, List.mem_singleton, Prod.mk.injEq] at hz
    obtain ⟨rfl, rfl⟩ := hz
    have main : ∀ {an1 : An}, an1.kind q = some .alias → indicate an1 q t = some an' → Has an'.tg q t := by
      intro an1 hp hi
      obtain ⟨hk, hi⟩ := indicate_cases hi
      rcases hi with ⟨rfl, _⟩ | ⟨h1, _⟩ | ⟨_, _, _, h1⟩
      · exact (hza (hK _ _ (by rw [hk]; exact hp))).elim
      · exact (hza (hK _ _ (by rw [hk]; exact h1))).elim
      · rw [h1]; exact has_extend_new _ _ _ _ (List.mem_cons_self ..)
    rcases visitBind_cases h with ⟨_, _, h2⟩ | ⟨hp, _, h2⟩ | ⟨h1, h2, h3, h4, _⟩
    · exact main (setEnv_self _ _ _) h2
    · exact main hp h2
    · exact (not_copy hc w ⟨h1, h2, h3, h4⟩).elim
  | .seq a b, an, an', co, after, h, hs, ho, hc, w, hK, q, t, hz, hza, hr => by
    obtain ⟨a', an1, b', h1, h2, _⟩ := visit_seq h
    simp only [Stmt.sources, Stmt.owners, List.mem_append, pairs, Stmt.returns,
      Bool.or_eq_false_iff] at hs ho hz hr
    have g2 := visit_grows res b h2
    have w1 := visit_wa (S := S) (fr := fr) res a h1 (fun y hy => hs y (Or.inl hy))
      (fun y hy => ho y (Or.inl hy)) w
    rcases hz with hz | hz
    · exact visit_has res b h2 (hr.imp (·.2) id) (visit_pairs res a h1 (fun y hy => hs y (Or.inl hy))
        (fun y hy => ho y (Or.inl hy)) hc.1 w (fun v k hv => hK v k (g2.kind v k hv)) q t hz hza
        (hr.imp (·.1) id))
    · exact visit_pairs res b h2 (fun y hy => hs y (Or.inr hy)) (fun y hy => ho y (Or.inr hy))
        hc.2 w1 hK q t hz hza (hr.imp (·.2) id)
  | .ite _ _ a b, an, an', co, after, h, hs, ho, hc, w, hK, q, t, hz, hza, hr => by
    obtain ⟨a', an1, b', h1, h2, _⟩ := visit_ite h
    simp only [Stmt.sources, Stmt.owners, List.mem_append, pairs, Stmt.returns,
      Bool.or_eq_false_iff] at hs ho hz hr
    have g2 := visit_grows res b h2
    have w1 := visit_wa (S := S) (fr := fr) res a h1 (fun y hy => hs y (Or.inl hy))
      (fun y hy => ho y (Or.inl hy)) w
    rcases hz with hz | hz
    · exact visit_has res b h2 (hr.imp (·.2) id) (visit_pairs res a h1 (fun y hy => hs y (Or.inl hy))
        (fun y hy => ho y (Or.inl hy)) hc.1 w (fun v k hv => hK v k (g2.kind v k hv)) q t hz hza
        (hr.imp (·.1) id))
    · exact visit_pairs res b h2 (fun y hy => hs y (Or.inr hy)) (fun y hy => ho y (Or.inr hy))
        hc.2 w1 hK q t hz hza (hr.imp (·.2) id)
  | .loop _ _ b, an, an', co, after, h, hs, ho, hc, w, hK, q, t, hz, hza, hr => by
    obtain ⟨b', h1, _⟩ := visit_loop h
    exact visit_pairs res b h1 hs ho hc.1 w hK q t hz hza hr

/-- The targets in the relation are known. -/
def Prec (res : Option Var) (ind : Bool) (an : An) (P : Rel) : Prop :=
  ∀ p t, P p t → (ind = false ∨ res = some p) → Has an.tg p t

theorem visit_flow (res : Option Var) : ∀ (st : Stmt) {an an' : An} {co : Code} {after ind : Bool} {P : Rel},
    visit res st an = some (co, an') → (∀ y ∈ st.sources, y ∈ S) → (∀ x ∈ st.owners, x ∈ fr) →
    Clean args S fr after st → WA args S fr after an → (∀ v k, an'.kind v = some k → K v = some k) →
    Direct args fr ind st → (∀ y, y ∈ fr ∨ y ∈ args → K y ≠ some .alias) → Prec res ind an P →
    ∃ P', Flow K st P P' ∧ Prec res (ind || st.returns) an' P' ∧
      (ind = true → ∀ p t, P' p t → P p t ∨ ((p, t) ∈ pairs st ∧ K t ≠ some .alias)) := by
  intro st
  have simple : ∀ (st : Stmt), st.sources = [] → ∀ {an an' : An} {co : Code} {ind : Bool} {P : Rel},
      visit res st an = some (co, an') → Prec res ind an P →
      ∃ P', Flow K st P P' ∧ Prec res (ind || st.returns) an' P' ∧
      (ind = true → ∀ p t, P' p t → P p t ∨ ((p, t) ∈ pairs st ∧ K t ≠ some .alias)) := by
    intro st hs an an' co ind P h hp
    refine ⟨P, .other hs (Sub.refl P), fun p t hr hi => ?_, fun _ p t h => Or.inl h⟩
    simp only [Bool.or_eq_false_iff] at hi
    exact visit_has res st h (hi.imp (·.2) id) (hp p t hr (hi.imp (·.1) id))
  induction st with
  | skip => intro an an' co after ind P h _ _ _ _ _ _ _ hp; exact simple _ rfl h hp
  | fresh => intro an an' co after ind P h _ _ _ _ _ _ _ hp; exact simple _ rfl h hp
  | store => intro an an' co after ind P h _ _ _ _ _ _ _ hp; exact simple _ rfl h hp
  | print => intro an an' co after ind P h _ _ _ _ _ _ _ hp; exact simple _ rfl h hp
  | del => intro an an' co after ind P h _ _ _ _ _ _ _ hp; exact simple _ rfl h hp
  | ret => intro an an' co after ind P h _ _ _ _ _ _ _ hp; exact simple _ rfl h hp
  | bind p y idx =>
    intro an an' co after ind P h hs ho hc w hK hd hfr hp
    have hpair : K y ≠ some .alias → Has an'.tg p y := fun hy =>
      visit_pairs (args := args) (S := S) (fr := fr) res (.bind p y idx) h hs ho hc w hK p y
        (by simp [pairs]) hy (Or.inl rfl)
    refine ⟨addBind K P p y, .bind (fun h => Or.inr ⟨rfl, Or.inl ⟨h, rfl⟩⟩)
      (fun h t ht => Or.inr ⟨rfl, Or.inr ⟨h, ht⟩⟩) (fun q t h => Or.inl h), ?_, ?_⟩
    · intro q t hr hi
      simp only [Stmt.returns, Bool.or_false] at hi
      rcases hr with hr | ⟨rfl, ⟨h1, rfl⟩ | ⟨h1, hr⟩⟩
      · exact visit_has res _ h (Or.inl rfl) (hp q t hr hi)
      · exact hpair h1
      · cases hind : ind with
        | true => exact (hfr y (hd hind) h1).elim
        | false =>
          have ht := hp y t hr (Or.inl hind)
          have main : ∀ {an1 : An}, (∀ v k, an1.kind v = some k → K v = some k) → Has an1.tg y t →
              indicate an1 q y = some an' → Has an'.tg q t := by
            intro an1 hk1 ht hi
            obtain ⟨hk, hi⟩ := indicate_cases hi
            rcases hi with ⟨rfl, rfl⟩ | ⟨_, _, ⟨hn, _⟩ | ⟨ts, g1, g2⟩⟩ | ⟨g1, g2, _⟩
            · exact ht
            · exact (hn t ht).elim
            · rw [g2]
              obtain ⟨us, k1, k2⟩ := ht
              have : an1.targets y = some us := k1
              rw [g1] at this
              cases this
              exact has_extend_new _ _ _ _ k2
            · cases hky : an1.kind y with
              | none => exact (g2 hky).elim
              | some k =>
                have := hk1 y k hky
                rw [h1] at this
                cases this
                exact (g1 hky).elim
          rcases visitBind_cases h with ⟨g1, _, g2⟩ | ⟨_, _, g2⟩ | ⟨g1, g2, g3, g4, _⟩
          · exact main (fun v k hv => hK v k ((indicate_grows g2).kind v k hv)) ht g2
          · exact main (fun v k hv => hK v k ((indicate_grows g2).kind v k hv)) ht g2
          · exact (not_copy hc w ⟨g1, g2, g3, g4⟩).elim
    · intro hind q t hr
      rcases hr with hr | ⟨rfl, ⟨h1, rfl⟩ | ⟨h1, hr⟩⟩
      · exact Or.inl hr
      · exact Or.inr ⟨by simp [pairs], h1⟩
      · exact (hfr y (hd hind) h1).elim
  | seq a b iha ihb =>
    intro an an' co after ind P h hs ho hc w hK hd hfr hp
    obtain ⟨a', an1, b', h1, h2, rfl⟩ := visit_seq h
    simp only [Stmt.sources, Stmt.owners, List.mem_append] at hs ho
    have g2 := visit_grows res b h2
    have w1 := visit_wa (S := S) (fr := fr) res a h1 (fun y hy => hs y (Or.inl hy))
      (fun y hy => ho y (Or.inl hy)) w
    obtain ⟨P1, s1, v1, t1⟩ := iha h1 (fun y hy => hs y (Or.inl hy)) (fun y hy => ho y (Or.inl hy))
      hc.1 w (fun v k hv => hK v k (g2.kind v k hv)) hd.1 hfr hp
    obtain ⟨P2, s2, v2, t2⟩ := ihb h2 (fun y hy => hs y (Or.inr hy)) (fun y hy => ho y (Or.inr hy))
      hc.2 w1 hK hd.2 hfr v1
    refine ⟨P2, .seq s1 s2, by simpa [Stmt.returns, Bool.or_assoc] using v2, fun hind p t h => ?_⟩
    simp only [pairs, List.mem_append]
    rcases t2 (by simp [hind]) p t h with h | ⟨h, h'⟩
    · rcases t1 hind p t h with h | ⟨h, h'⟩
      · exact Or.inl h
      · exact Or.inr ⟨Or.inl h, h'⟩
    · exact Or.inr ⟨Or.inr h, h'⟩
  | ite ys c a b iha ihb =>
    intro an an' co after ind P h hs ho hc w hK hd hfr hp
    obtain ⟨a', an1, b', h1, h2, rfl⟩ := visit_ite h
    simp only [Stmt.sources, Stmt.owners, List.mem_append] at hs ho
    have g2 := visit_grows res b h2
    have w1 := visit_wa (S := S) (fr := fr) res a h1 (fun y hy => hs y (Or.inl hy))
      (fun y hy => ho y (Or.inl hy)) w
    obtain ⟨P1, s1, v1, t1⟩ := iha h1 (fun y hy => hs y (Or.inl hy)) (fun y hy => ho y (Or.inl hy))
      hc.1 w (fun v k hv => hK v k (g2.kind v k hv)) hd.1 hfr hp
    obtain ⟨P2, s2, v2, t2⟩ := ihb h2 (fun y hy => hs y (Or.inr hy)) (fun y hy => ho y (Or.inr hy))
      hc.2 w1 hK hd.2 hfr v1
    refine ⟨P2, .ite s1 s2, by simpa [Stmt.returns, Bool.or_assoc] using v2, fun hind p t h => ?_⟩
    simp only [pairs, List.mem_append]
    rcases t2 (by simp [hind]) p t h with h | ⟨h, h'⟩
    · rcases t1 hind p t h with h | ⟨h, h'⟩
      · exact Or.inl h
      · exact Or.inr ⟨Or.inl h, h'⟩
    · exact Or.inr ⟨Or.inr h, h'⟩
  | loop ys n b ih =>
    intro an an' co after ind P h hs ho hc w hK hd hfr hp
    obtain ⟨b', h1, rfl⟩ := visit_loop h
    let T : Rel := fun p t => (p, t) ∈ pairs b ∧ K t ≠ some .alias
    -- the pointers of the body are added to the relation at the start; the result holds at the end only
    have key : ∃ P1, Flow K b P1 P1 ∧ Sub P P1 ∧ ∀ p t, P1 p t → P p t ∨ T p t := by
      have hfl : ∀ (st : Stmt) {A A' : Rel}, (∀ y, (∃ p, (p, y) ∈ pairs st) → K y ≠ some .alias) →
          (∀ p t, (p, t) ∈ pairs st → A p t) → Flow K st A A := by
        intro st
        induction st with
        | bind p y idx =>
          intro A _ h1 h2
          exact .bind (fun _ => h2 p y (by simp [pairs]))
            (fun h => (h1 y ⟨p, by simp [pairs]⟩ h).elim) (Sub.refl _)
        | seq a b iha ihb =>
          intro A A' h1 h2
          simp only [pairs, List.mem_append] at h1 h2
          exact .seq (iha (A' := A') (fun y ⟨p, hp⟩ => h1 y ⟨p, Or.inl hp⟩) (fun p t h => h2 p t (Or.inl h)))
            (ihb (A' := A') (fun y ⟨p, hp⟩ => h1 y ⟨p, Or.inr hp⟩) (fun p t h => h2 p t (Or.inr h)))
        | ite ys c a b iha ihb =>
          intro A A' h1 h2
          simp only [pairs, List.mem_append] at h1 h2
          exact .ite (iha (A' := A') (fun y ⟨p, hp⟩ => h1 y ⟨p, Or.inl hp⟩) (fun p t h => h2 p t (Or.inl h)))
            (ihb (A' := A') (fun y ⟨p, hp⟩ => h1 y ⟨p, Or.inr hp⟩) (fun p t h => h2 p t (Or.inr h)))
        | loop ys n b ih =>
          intro A A' h1 h2
          exact .loop (Sub.refl _) (ih (A' := A') h1 h2) (Sub.refl _)
        | skip => intro A _ _ _; exact .other rfl (Sub.refl _)
        | fresh => intro A _ _ _; exact .other rfl (Sub.refl _)
        | store => intro A _ _ _; exact .other rfl (Sub.refl _)
        | print => intro A _ _ _; exact .other rfl (Sub.refl _)
        | del => intro A _ _ _; exact .other rfl (Sub.refl _)
        | ret => intro A _ _ _; exact .other rfl (Sub.refl _)
      have hdir : ∀ (st : Stmt) {i : Bool}, i = true → Direct args fr i st → ∀ p y, (p, y) ∈ pairs st →
          y ∈ fr ∨ y ∈ args := by
        intro st
        induction st with
        | bind p y idx =>
          intro i hi hd q z hz
          simp only [pairs, List.mem_singleton, Prod.mk.injEq] at hz
          rw [hz.2]; exact hd hi
        | seq a b iha ihb =>
          intro i hi hd q z hz
          simp only [pairs, List.mem_append] at hz
          exact hz.elim (iha hi hd.1 q z) (ihb (by simp [hi]) hd.2 q z)
        | ite ys c a b iha ihb =>
          intro i hi hd q z hz
          simp only [pairs, List.mem_append] at hz
          exact hz.elim (iha hi hd.1 q z) (ihb (by simp [hi]) hd.2 q z)
        | loop ys n b ih => intro i hi hd q z hz; exact ih rfl hd q z hz
        | skip => intro i _ _ q z hz; simp [pairs] at hz
        | fresh => intro i _ _ q z hz; simp [pairs] at hz
        | store => intro i _ _ q z hz; simp [pairs] at hz
        | print => intro i _ _ q z hz; simp [pairs] at hz
        | del => intro i _ _ q z hz; simp [pairs] at hz
        | ret => intro i _ _ q z hz; simp [pairs] at hz
      have hna : ∀ p y, (p, y) ∈ pairs b → K y ≠ some .alias := fun p y h =>
        hfr y (hdir b (i := true) rfl hd p y h)
      exact ⟨fun p t => P p t ∨ T p t, hfl b (A' := P) (fun y ⟨p, hp⟩ => hna p y hp)
        (fun p t h => Or.inr ⟨h, hna p t h⟩), fun p t h => Or.inl h, fun p t h => h⟩
    obtain ⟨P1, hf, hsub, hT⟩ := key
    refine ⟨P1, .loop hsub hf (Sub.refl _), ?_, fun _ p t h => hT p t h⟩
    intro p t hr hi
    simp only [Stmt.returns, Bool.or_eq_false_iff] at hi
    rcases hT p t hr with hr | hr
    · exact visit_has res b h1 (hi.imp (·.2) id) (hp p t hr (hi.imp (·.1) id))
    · exact visit_pairs (args := args) (S := S) (fr := fr) res b h1 hs ho hc.1 w hK p t hr.1 hr.2
        (hi.imp (·.2) id)

/-- Variables that get arrays are no pointers. -/
theorem visit_owners (res : Option Var) : ∀ (st : Stmt) {an an' : An} {co : Code},
    visit res st an = some (co, an') → ∀ x ∈ st.owners, an'.kind x = some .heap ∨ an'.kind x = some .arg
  | .skip, _, _, _, _, x, hx => by simp [Stmt.owners] at hx
  | .bind .., _, _, _, _, x, hx => by simp [Stmt.owners] at hx
  | .store .., _, _, _, _, x, hx => by simp [Stmt.owners] at hx
  | .print .., _, _, _, _, x, hx => by simp [Stmt.owners] at hx
  | .del .., _, _, _, _, x, hx => by simp [Stmt.owners] at hx
  | .ret, _, _, _, _, x, hx => by simp [Stmt.owners] at hx
  | .fresh z ys f same, an, an', co, h, x, hx => by
    simp only [Stmt.owners, List.mem_singleton] at hx
    subst hx
    rcases visitFresh_cases h with ⟨_, _, _, rfl⟩ | ⟨h1, _, _, rfl⟩ | ⟨h1, rfl⟩
    · exact Or.inl (setEnv_self _ _ _)
    · exact Or.inl h1
    · exact Or.inr h1
  | .seq a b, an, an', co, h, x, hx => by
    obtain ⟨a', an1, b', h1, h2, _⟩ := visit_seq h
    have g2 := visit_grows res b h2
    simp only [Stmt.owners, List.mem_append] at hx
    rcases hx with hx | hx
    · exact (visit_owners res a h1 x hx).imp (g2.kind _ _) (g2.kind _ _)
    · exact visit_owners res b h2 x hx
  | .ite _ _ a b, an, an', co, h, x, hx => by
    obtain ⟨a', an1, b', h1, h2, _⟩ := visit_ite h
    have g2 := visit_grows res b h2
    simp only [Stmt.owners, List.mem_append] at hx
    rcases hx with hx | hx
    · exact (visit_owners res a h1 x hx).imp (g2.kind _ _) (g2.kind _ _)
    · exact visit_owners res b h2 x hx
  | .loop _ _ b, an, an', co, h, x, hx => by
    obtain ⟨b', h1, _⟩ := visit_loop h
    exact visit_owners res b h1 x hx

/-! ## The end of the call -/

theorem freeAll_ok : ∀ (xs : List Var) (c : Mach),
    (∀ x ∈ xs, ∀ b, c.env x = some b → ∃ v, c.bufs[b.buf]? = some (some v)) →
    (∀ x ∈ xs, ∀ y ∈ xs, ∀ bx by', x ≠ y → c.env x = some bx → c.env y = some by' → bx.buf ≠ by'.buf) →
    ∃ c', Mach.freeAll xs c = some c' ∧ c'.out = c.out ∧ (∀ v, v ∉ xs → c'.env v = c.env v) ∧
      (∀ i, (∀ x ∈ xs, ∀ b, c.env x = some b → b.buf ≠ i) → c'.bufs[i]? = c.bufs[i]?) ∧
      (∀ x ∈ xs, ∀ b, c.env x = some b → c'.bufs[b.buf]? = some none)
  | [], c, _, _ => ⟨c, rfl, rfl, fun _ _ => rfl, fun _ _ => rfl, fun _ h => by cases h⟩
  | x :: xs, c, ha, hs => by
    cases ex : c.env x with
    | none =>
      obtain ⟨c', h1, h2, h3, h4, h5⟩ := freeAll_ok xs c (fun y hy => ha y (List.mem_cons_of_mem _ hy))
        (fun y hy z hz => hs y (List.mem_cons_of_mem _ hy) z (List.mem_cons_of_mem _ hz))
      refine ⟨c', by simp [Mach.freeAll, Mach.free, ex, h1], h2, fun v hv => h3 v fun h =>
        hv (List.mem_cons_of_mem _ h), fun i hi => h4 i fun y hy => hi y (List.mem_cons_of_mem _ hy), ?_⟩
      intro y hy b hb
      rcases List.mem_cons.1 hy with rfl | hy
      · rw [ex] at hb; cases hb
      · exact h5 y hy b hb
    | some b =>
      obtain ⟨v, hv⟩ := ha x (List.mem_cons_self ..) b ex
      let c1 : Mach := ⟨c.bufs.set b.buf none, setEnv c.env x none, c.out⟩
      have hf : c.free x = some c1 := by simp [Mach.free, ex, hv, c1]
      have e1 : ∀ {y r}, c1.env y = some r → y ≠ x ∧ c.env y = some r := by
        intro y r h
        have h' : setEnv c.env x none y = some r := h
        by_cases e : y = x
        · rw [e, setEnv_self] at h'; cases h'
        · rw [setEnv_ne e] at h'; exact ⟨e, h'⟩
      obtain ⟨c', h1, h2, h3, h4, h5⟩ := freeAll_ok xs c1
        (fun y hy r hr => by
          obtain ⟨hne, hr⟩ := e1 hr
          obtain ⟨u, hu⟩ := ha y (List.mem_cons_of_mem _ hy) r hr
          have := hs x (List.mem_cons_self ..) y (List.mem_cons_of_mem _ hy) b r (Ne.symm hne) ex hr
          exact ⟨u, by rw [← hu]; exact set_get this⟩)
        (fun y hy z hz by' bz hyz h1 h2 => hs y (List.mem_cons_of_mem _ hy) z (List.mem_cons_of_mem _ hz) by' bz
          hyz (e1 h1).2 (e1 h2).2)
      refine ⟨c', by simp [Mach.freeAll, hf, h1], h2, fun w hw => ?_, fun i hi => ?_, ?_⟩
      · rw [h3 w fun h => hw (List.mem_cons_of_mem _ h)]
        exact setEnv_ne fun h => hw (by rw [h]; exact List.mem_cons_self ..)
      · rw [h4 i fun y hy r hr => hi y (List.mem_cons_of_mem _ hy) r (e1 hr).2]
        exact set_get (hi x (List.mem_cons_self ..) b ex)
      · have freed : c'.bufs[b.buf]? = some none := by
          rw [h4 b.buf fun y hy r hr => (hs x (List.mem_cons_self ..) y (List.mem_cons_of_mem _ hy) b r
            (Ne.symm (e1 hr).1) ex (e1 hr).2).symm]
          exact set_get_self hv
        intro y hy r hr
        by_cases e : y = x
        · rw [e, ex] at hr; cases hr; exact freed
        · have hy' : y ∈ xs := (List.mem_cons.1 hy).resolve_left e
          exact h5 y hy' r (by rw [← hr]; exact setEnv_ne e)

theorem bindArgs_mem : ∀ (as : List Var) (rs : List Ref) (v : Var) (r : Ref), bindArgs as rs v = some r →
    v ∈ as ∧ r ∈ rs ∧ rs[as.idxOf v]? = some r
  | [], _, v, r, h => by simp [bindArgs] at h
  | a :: as, [], v, r, h => by simp [bindArgs] at h
  | a :: as, q :: rs, v, r, h => by
    by_cases e : v = a
    · subst e
      rw [bindArgs, setEnv_self] at h
      cases h
      exact ⟨List.mem_cons_self .., List.mem_cons_self .., by simp⟩
    · rw [bindArgs, setEnv_ne e] at h
      obtain ⟨h1, h2, h3⟩ := bindArgs_mem as rs v r h
      refine ⟨List.mem_cons_of_mem _ h1, List.mem_cons_of_mem _ h2, ?_⟩
      have : (a :: as).idxOf v = as.idxOf v + 1 := by
        rw [List.idxOf_cons, show (a == v) = false from by simpa using Ne.symm e]
        rfl
      rw [this]
      simpa using h3

/-- The state at the start. -/
theorem sim_start {K : Var → Option Kind} {as : List Var} {rs : List Ref} {mem : List Vals}
    (hK : ∀ v, K v = some .arg ↔ v ∈ as) (hv : ∀ r ∈ rs, Valid mem r) :
    Sim K mem.length (bindArgs as rs) (fun _ _ => False) ⟨mem, bindArgs as rs, []⟩
      ⟨mem.map some, bindArgs as rs, []⟩ := by
  have harg : ∀ {v r}, bindArgs as rs v = some r → K v = some .arg := fun h =>
    (hK _).2 (bindArgs_mem as rs _ _ h).1
  exact
    { out := rfl
      bound := fun v r h => by
        obtain ⟨u, hu, _⟩ := hv r (bindArgs_mem as rs v r h).2.1
        exact ⟨by rw [harg h]; simp, r.buf, u, h, hu, by simp [hu]⟩
      share := fun v w rv rw bv bw h1 h2 h3 h4 => by
        have h1' : bindArgs as rs v = some rv := h1
        have h2' : bindArgs as rs w = some rw := h2
        have h3' : bindArgs as rs v = some bv := h3
        have h4' : bindArgs as rs w = some bw := h4
        rw [h1'] at h3'
        rw [h2'] at h4'
        cases h3'
        cases h4'
        exact Iff.rfl
      unbound := fun v _ h => h
      point := fun p r b h _ hk => by
        rw [harg h] at hk; cases hk
      sep := fun x w bx bw hx _ _ h _ => by
        rw [harg h] at hx; cases hx
      whole := fun x b v hx h _ => by
        rw [harg h] at hx; cases hx
      old := fun b hb => ⟨mem[b], by simp [hb], by simp [hb]⟩
      ident := fun v r b h1 h2 _ => by
        have h1' : bindArgs as rs v = some r := h1
        have h2' : bindArgs as rs v = some b := h2
        rw [h1'] at h2'
        cases h2'
        rfl
      new := fun x b hx h => by
        rw [harg h] at hx; cases hx
      args := fun a _ => ⟨rfl, rfl⟩
      owned := fun b v hb h => by
        have := lt_of_get h
        simp at this
        omega }

theorem compile_inv {F : Func} {C : Compiled} (h : compile F = some C) : ∃ code an an2 base,
    visit F.res F.body ⟨fun v => if v ∈ F.args then some .arg else none, [], []⟩ = some (code, an) ∧
    checkTargets F.res an = some an2 ∧ resultBase F.args an2 F.res = some base ∧
    C = ⟨code, F.body.owners.filter fun v => an2.kind v = some .heap && some v != F.res, base⟩ := by
  unfold compile at h
  cases h1 : visit F.res F.body ⟨fun v => if v ∈ F.args then some .arg else none, [], []⟩ with
  | none => simp [h1] at h
  | some q =>
    cases h2 : checkTargets F.res q.2 with
    | none => simp [h1, h2] at h
    | some an2 =>
      cases h3 : resultBase F.args an2 F.res with
      | none => simp [h1, h2, h3] at h
      | some base =>
        simp [h1, h2, h3] at h
        refine ⟨q.1, q.2, an2, base, rfl, h2, h3, ?_⟩
        rw [← h]

theorem wa_start (F : Func) : WA F.args F.body.sources F.body.owners false
    ⟨fun v => if v ∈ F.args then some .arg else none, [], []⟩ := by
  refine ⟨fun t ht => absurd ht List.not_mem_nil, fun v hv => ?_, fun v => ?_⟩
  · simp only at hv
    split at hv <;> cases hv
  · simp only
    split
    · rename_i h; simp [h]
    · rename_i h; simp [h]

/-- Everything about a call. -/
theorem call_ok (L : Lang) {F : Func} {C : Compiled} {mem : List Vals} {rs : List Ref} {s : Py}
    (hc : compile F = some C) (hcl : F.clean) (hv : ∀ r ∈ rs, Valid mem r) (hp : Py.call F mem rs = some s) :
    ∃ c', call L F C mem rs = some c' ∧ c'.out = s.out ∧
      (∀ i, i < mem.length → c'.bufs[i]? = (s.objs[i]?).map some) ∧
      (∀ i v, mem.length ≤ i → c'.bufs[i]? = some (some v) →
        ∃ r ref, F.res = some r ∧ c'.env r = some ref ∧ ref.buf = i) ∧
      (F.direct → ∀ r, F.res = some r → ∃ rp ref v, s.env r = some rp ∧ c'.env r = some ref ∧
        ref.pos = rp.pos ∧ s.objs[rp.buf]? = some v ∧ c'.bufs[ref.buf]? = some (some v) ∧
        (match C.base with
        | some i => ∃ ra, rs[i]? = some ra ∧ rp.buf = ra.buf ∧ ref.buf = ra.buf
        | none => mem.length ≤ rp.buf ∧ mem.length ≤ ref.buf)) := by
  obtain ⟨code, an, an2, base, h1, h2, h3, rfl⟩ := compile_inv hc
  have hw0 := wa_start F
  have hw := visit_wa F.res F.body h1 (fun y h => h) (fun x h => h) hw0
  have hk2 : an2.kind = an.kind := by rw [checkTargets_eq h2]
  obtain ⟨R', hsafe, _, _⟩ := visit_safe (K := an.kind) (B := fun _ => False) (R := fun _ _ => False)
    F.res F.body h1 (fun y h => h) (fun x h => h) hcl hw0 (fun v k h => h) (fun x _ h => h)
    (fun p t h => h.elim)
  have hfr : ∀ y, y ∈ F.body.owners ∨ y ∈ F.args → an.kind y ≠ some .alias := by
    intro y hy
    rcases hy with hy | hy
    · rcases visit_owners F.res F.body h1 y hy with h | h
      · rw [h]; simp
      · rw [h]; simp
    · rw [(hw.arg y).2 hy]; simp
  -- the state at the end of the statements
  have hstart := sim_start (K := an.kind) (mem := mem) (rs := rs) hw.arg hv
  unfold Py.call at hp
  cases hx : Py.exec F.body ⟨mem, bindArgs F.args rs, []⟩ with
  | none => simp [hx] at hp
  | some q =>
    obtain ⟨s1, fin⟩ := q
    have hs1 : s1 = s ∧ ∀ r, F.res = some r → ∃ v, s.read r = some v := by
      cases hr : F.res with
      | none => simp [hx, hr] at hp; exact ⟨hp, fun r h => by cases h⟩
      | some r =>
        cases hv : s1.read r with
        | none => simp [hx, hr, hv] at hp
        | some v =>
          simp [hx, hr, hv] at hp
          refine ⟨hp, fun r' h => ?_⟩
          cases h
          exact ⟨v, by rw [← hp]; exact hv⟩
    obtain ⟨rfl, hres⟩ := hs1
    obtain ⟨c, hc1, hsim⟩ := hsafe.sim L hstart hx
    have alive : ∀ x b, an.kind x = some .heap → c.env x = some b → ∃ v, c.bufs[b.buf]? = some (some v) := by
      intro x b hk hb
      cases hr : s1.env x with
      | none => rw [hsim.unbound x (by rw [hk]; simp) hr] at hb; cases hb
      | some r => obtain ⟨_, v, _, h⟩ := hsim.cenv hr hb; exact ⟨v, h⟩
    have hfrees : ∀ x, x ∈ F.body.owners.filter (fun v => an2.kind v = some .heap && some v != F.res) ↔
        (an.kind x = some .heap ∧ F.res ≠ some x) := by
      intro x
      simp only [List.mem_filter, Bool.and_eq_true, decide_eq_true_eq, bne_iff_ne, hk2]
      constructor
      · rintro ⟨_, h1, h2⟩; exact ⟨h1, Ne.symm h2⟩
      · rintro ⟨h1, h2⟩; exact ⟨hw.heap x h1, h1, Ne.symm h2⟩
    obtain ⟨c', g1, g2, g3, g4, g5⟩ := freeAll_ok
      (F.body.owners.filter fun v => an2.kind v = some .heap && some v != F.res) c
      (fun x hx b hb => alive x b ((hfrees x).1 hx).1 hb)
      (fun x hx y hy bx by' hxy h1 h2 => hsim.sep x y bx by' ((hfrees x).1 hx).1
        (by rw [((hfrees y).1 hy).1]; simp) hxy h1 h2)
    have hkeep : ∀ i, i < mem.length → c'.bufs[i]? = c.bufs[i]? := fun i hi =>
      g4 i fun x hx b hb hbi => by
        have := hsim.new x b ((hfrees x).1 hx).1 hb
        omega
    refine ⟨c', ?_, by rw [g2, hsim.out], ?_, ?_, ?_⟩
    · simp only [call, hc1, Option.bind_eq_bind, Option.bind_some]
      exact g1
    · intro i hi
      obtain ⟨v, e1, e2⟩ := hsim.old i hi
      rw [hkeep i hi, e1, e2]; rfl
    · intro i v hi hb
      by_cases hex : ∃ x ∈ F.body.owners.filter (fun v => an2.kind v = some .heap && some v != F.res),
          ∃ b, c.env x = some b ∧ b.buf = i
      · obtain ⟨x, hx, b, hb', rfl⟩ := hex
        rw [g5 x hx b hb'] at hb
        cases hb
      · have hb' : c.bufs[i]? = some (some v) := by
          rw [← hb]
          exact (g4 i fun x hx b hb hbi => hex ⟨x, hx, b, hb, hbi⟩).symm
        obtain ⟨x, bx, k1, k2, k3⟩ := hsim.owned i v hi hb'
        have hxr : F.res = some x := by
          cases hr : decide (F.res = some x) with
          | true => exact of_decide_eq_true hr
          | false => exact (hex ⟨x, (hfrees x).2 ⟨k1, of_decide_eq_false hr⟩, bx, k2, k3⟩).elim
        refine ⟨x, bx, hxr, ?_, k3⟩
        rw [g3 x fun h => ((hfrees x).1 h).2 hxr, k2]
    · intro hd r hr
      obtain ⟨v, hv'⟩ := hres r hr
      have hbound : ∃ rp, s1.env r = some rp := by
        unfold Py.read at hv'
        cases e : s1.env r with
        | none => simp [e] at hv'
        | some rp => exact ⟨rp, rfl⟩
      obtain ⟨rp, hrp⟩ := hbound
      obtain ⟨hkr, b, u, e1, e2, e3⟩ := hsim.bound r rp hrp
      have hnr : r ∉ F.body.owners.filter (fun v => an2.kind v = some .heap && some v != F.res) := fun h =>
        ((hfrees r).1 h).2 hr
      refine ⟨rp, ⟨b, rp.pos⟩, u, hrp, by rw [g3 r hnr, e1], rfl, e2, ?_⟩
      rw [hr] at h3
      unfold resultBase at h3
      rw [hk2] at h3
      cases hk : an.kind r with
      | none => exact (hkr hk).elim
      | some k =>
        cases k with
        | arg => simp [hk] at h3
        | heap =>
          simp [hk] at h3
          subst h3
          have hn : mem.length ≤ b := hsim.new r _ hk e1
          refine ⟨?_, ?_, hn⟩
          · rw [← e3]
            refine g4 b fun x hx bx hbx => ?_
            have hxr : r ≠ x := by rintro rfl; exact ((hfrees r).1 hx).2 hr
            exact (hsim.sep r x ⟨b, rp.pos⟩ bx hk (by rw [((hfrees x).1 hx).1]; simp) hxr e1 hbx).symm
          · cases Nat.lt_or_ge rp.buf mem.length with
            | inr h => exact h
            | inl h =>
              have := hsim.ident r rp ⟨b, rp.pos⟩ hrp e1 (Or.inl h)
              simp only at this
              omega
        | alias =>
          simp only [hk] at h3
          -- the precise relation
          obtain ⟨P', hflow, hprec, _⟩ := visit_flow (K := an.kind) (P := fun _ _ => False) (ind := false)
            F.res F.body h1 (fun y h => h) (fun x h => h) hcl hw0 (fun v k h => h) hd hfr
            (fun p t h => h.elim)
          have hsafe2 := hsafe.both hflow
          have hstart2 : Sim an.kind mem.length (bindArgs F.args rs) (Both (fun _ _ => False) (fun _ _ => False))
              ⟨mem, bindArgs F.args rs, []⟩ ⟨mem.map some, bindArgs F.args rs, []⟩ :=
            hstart.mono fun _ _ h => h.elim
          obtain ⟨c2, hc2, hsim2⟩ := hsafe2.sim L hstart2 hx
          rw [hc1] at hc2
          cases hc2
          obtain ⟨t, rt, bt, k1, k2, k3, k4, k5⟩ := hsim2.point r rp _ hrp e1 hk
          have hhas : Has an2.tg r t := by
            have := hprec r t k1.2 (Or.inr hr)
            rw [hr] at h2
            exact (checkTargets_has h2).2 this
          obtain ⟨ts, q1, q2⟩ := hhas
          have q1' : an2.targets r = some ts := q1
          rw [q1'] at h3
          cases ts with
          | nil => cases q2
          | cons t' ts =>
            cases ts with
            | cons _ _ => simp at h3
            | nil =>
              simp only [List.mem_singleton] at q2
              subst q2
              simp only at h3
              split at h3
              · rename_i hta
                cases h3
                have hka : an.kind t = some .arg := (hw.arg t).2 hta
                have hargs := hsim.args t hka
                rw [hargs.2] at k4
                obtain ⟨_, hmem, hidx⟩ := bindArgs_mem _ _ _ _ k4
                obtain ⟨u', hu', _⟩ := hv bt hmem
                have hlt : bt.buf < mem.length := lt_of_get hu'
                simp only at k5
                have hid := hsim.ident r rp ⟨b, rp.pos⟩ hrp e1 (Or.inr (by simp only; omega))
                simp only at hid
                refine ⟨?_, bt, hidx, by omega, k5.symm⟩
                rw [← e3]
                exact hkeep b (by omega)
              · cases h3

end Verif.Aliases.Lemmas
