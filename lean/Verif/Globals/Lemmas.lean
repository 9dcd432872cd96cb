import Verif.Globals.Model

namespace Verif.Globals.Lemmas
open Spec Model

/-- The variable that a name becomes, if the names with `cls` are local to the scope. -/
def ref (cls : Name → Bool) (x : Name) : Ref := if cls x then .loc x else .glob x

def mapE (g : Name → Ref) : Expr Name → Expr Ref
  | .lit v => .lit v
  | .var x => .var (g x)
  | .bin op a b => .bin op (mapE g a) (mapE g b)

def mapS (g : Name → Ref) : Stmt Name → Stmt Ref
  | .skip => .skip
  | .seq a b => .seq (mapS g a) (mapS g b)
  | .assign x e => .assign (g x) (mapE g e)
  | .ann x e => .ann (g x) (mapE g e)
  | .call x f as => .call (g x) f (as.map (mapE g))
  | .print e => .print (mapE g e)
  | .ite c a b => .ite (mapE g c) (mapS g a) (mapS g b)
  | .while c b => .while (mapE g c) (mapS g b)

theorem find_some {G L : List Name} {x : Name} {r : Ref} (h : find G L x = some r) :
    (x ∈ L ∧ r = .loc x) ∨ (x ∉ L ∧ x ∈ G ∧ r = .glob x) := by
  unfold find at h
  by_cases h1 : x ∈ L
  · simp [h1] at h; exact .inl ⟨h1, h.symm⟩
  · by_cases h2 : x ∈ G
    · simp [h1, h2] at h; exact .inr ⟨h1, h2, h.symm⟩
    · simp [h1, h2] at h

theorem find_none {G L : List Name} {x : Name} (h : find G L x = none) : x ∉ L ∧ x ∉ G := by
  unfold find at h
  by_cases h1 : x ∈ L
  · simp [h1] at h
  · by_cases h2 : x ∈ G
    · simp [h1, h2] at h
    · exact ⟨h1, h2⟩

/-- Expressions: where all names are resolved as by `cls`. -/
theorem rExpr_eq {G L : List Name} {cls : Name → Bool} :
    ∀ {e : Expr Name} {e' : Expr Ref}, rExpr G L e = some e' →
      (∀ x ∈ L, cls x = true) → (∀ x ∈ vars e, cls x = true → x ∈ G → x ∈ L) →
      e' = mapE (ref cls) e ∧ (∀ x ∈ vars e, cls x = true → x ∈ L) ∧
        (∀ x ∈ vars e, cls x = true ∨ x ∈ G)
  | .lit v, e', h, _, _ => by
    simp only [rExpr, Option.some.injEq] at h
    subst h
    exact ⟨rfl, by simp [vars], by simp [vars]⟩
  | .var x, e', h, hL, hb => by
    simp only [rExpr, Option.map_eq_some_iff] at h
    obtain ⟨r, hr, rfl⟩ := h
    rcases find_some hr with ⟨h1, rfl⟩ | ⟨h1, h2, rfl⟩
    · exact ⟨by simp [mapE, ref, hL x h1], by simpa [vars] using fun _ => h1,
        by simp [vars, hL x h1]⟩
    · have hc : cls x = false := by
        cases hc : cls x
        · rfl
        · exact absurd (hb x (by simp [vars]) hc h2) h1
      exact ⟨by simp [mapE, ref, hc], by simp [vars, hc], by simp [vars, h2]⟩
  | .bin op a b, e', h, hL, hb => by
    simp only [rExpr, Option.bind_eq_some_iff, Option.map_eq_some_iff] at h
    obtain ⟨a', ha, b', hb', rfl⟩ := h
    obtain ⟨r1, r2, r3⟩ := rExpr_eq ha hL fun x hx => hb x (by simp [vars, hx])
    obtain ⟨s1, s2, s3⟩ := rExpr_eq hb' hL fun x hx => hb x (by simp [vars, hx])
    subst r1 s1
    refine ⟨rfl, ?_, ?_⟩
    · intro x hx
      simp only [vars, List.mem_append] at hx
      exact hx.elim (r2 x) (s2 x)
    · intro x hx
      simp only [vars, List.mem_append] at hx
      exact hx.elim (r3 x) (s3 x)

theorem rExprs_eq {G L : List Name} {cls : Name → Bool} :
    ∀ {l : List (Expr Name)} {l' : List (Expr Ref)}, rExprs G L l = some l' →
      (∀ x ∈ L, cls x = true) → (∀ x ∈ l.flatMap vars, cls x = true → x ∈ G → x ∈ L) →
      l' = l.map (mapE (ref cls)) ∧ (∀ x ∈ l.flatMap vars, cls x = true → x ∈ L) ∧
        (∀ x ∈ l.flatMap vars, cls x = true ∨ x ∈ G)
  | [], l', h, _, _ => by
    simp only [rExprs, Option.some.injEq] at h
    subst h
    exact ⟨rfl, by simp, by simp⟩
  | e :: l, l', h, hL, hb => by
    simp only [rExprs, Option.bind_eq_some_iff, Option.map_eq_some_iff] at h
    obtain ⟨a', ha, b', hb', rfl⟩ := h
    simp only [List.flatMap_cons, List.mem_append] at hb ⊢
    obtain ⟨r1, r2, r3⟩ := rExpr_eq ha hL fun x hx => hb x (.inl hx)
    obtain ⟨s1, s2, s3⟩ := rExprs_eq hb' hL fun x hx => hb x (.inr hx)
    subst r1 s1
    exact ⟨rfl, fun x hx => hx.elim (r2 x) (s2 x), fun x hx => hx.elim (r3 x) (s3 x)⟩

theorem lhs_cls {G L : List Name} {cls : Name → Bool} {x : Name} (hL : ∀ y ∈ L, cls y = true)
    (hc : cls x = true) (hb : x ∈ G → x ∈ L) :
    (lhs G L x).1 = .loc x ∧ x ∈ (lhs G L x).2 ∧ (∀ y ∈ L, y ∈ (lhs G L x).2) ∧
      ∀ y ∈ (lhs G L x).2, cls y = true := by
  unfold lhs
  cases h : find G L x with
  | none => exact ⟨rfl, by simp, fun y hy => by simp [hy], fun y hy => by
      rcases List.mem_cons.1 hy with rfl | hy
      · exact hc
      · exact hL y hy⟩
  | some r =>
    rcases find_some h with ⟨h1, rfl⟩ | ⟨h1, h2, rfl⟩
    · exact ⟨rfl, h1, fun _ h => h, hL⟩
    · exact absurd (hb h2) h1

theorem lhs_not {G L : List Name} {cls : Name → Bool} {x : Name} (hL : ∀ y ∈ L, cls y = true)
    (hc : cls x = false) (hb : x ∈ G) : lhs G L x = (.glob x, L) := by
  unfold lhs
  cases h : find G L x with
  | none => exact absurd hb (find_none h).2
  | some r =>
    rcases find_some h with ⟨h1, rfl⟩ | ⟨h1, h2, rfl⟩
    · simp [hL x h1] at hc
    · rfl

theorem assigned_names : ∀ {s : Stmt Name} {x : Name}, x ∈ assigned s → x ∈ names s
  | .skip, _, h => by simp [assigned] at h
  | .print _, _, h => by simp [assigned] at h
  | .seq a b, x, h => by
    simp only [assigned, List.mem_append] at h
    simp only [names, List.mem_append]
    exact h.imp assigned_names assigned_names
  | .ite c a b, x, h => by
    simp only [assigned, List.mem_append] at h
    simp only [names, List.mem_append]
    exact h.elim (fun h => .inl (.inr (assigned_names h))) (fun h => .inr (assigned_names h))
  | .assign y e, x, h => by
    simp only [assigned, List.mem_singleton] at h
    simp [names, h]
  | .ann y e, x, h => by
    simp only [assigned, List.mem_singleton] at h
    simp [names, h]
  | .call y f as, x, h => by
    simp only [assigned, List.mem_singleton] at h
    simp [names, h]
  | .while c b, x, h => by
    simp only [names, List.mem_append]
    exact .inr (assigned_names (by simpa [assigned] using h))

/-- What is known when a block has been resolved. -/
structure Done (G : List Name) (cls : Name → Bool) (L : List Name) (s : Stmt Name) (s' : Stmt Ref)
    (L' : List Name) : Prop where
  eq : s' = mapS (ref cls) s
  sub : ∀ x ∈ L, x ∈ L'
  isLoc : ∀ x ∈ L', cls x = true
  mem : ∀ x ∈ names s, cls x = true → x ∈ L'
  known : ∀ x ∈ names s, cls x = true ∨ x ∈ G

/-- Functions and the program: each name is resolved as by `cls`. -/
theorem rStmt_eq {G : List Name} {res : Option Name} {cls : Name → Bool} :
    ∀ {s : Stmt Name} {L : List Name} {s' : Stmt Ref} {L' : List Name},
      rStmt G res L s = some (s', L') → (∀ x ∈ L, cls x = true) →
      (∀ x ∈ names s, cls x = true → x ∈ G → x ∉ L → firstAnn x s) →
      (∀ x ∈ assigned s, cls x = false → x ∈ G) → (∀ x ∈ annotated s, cls x = true) →
      Done G cls L s s' L'
  | .skip, L, s', L', h, hL, hb, hc, hd => by
    simp only [rStmt, Option.some.injEq, Prod.mk.injEq] at h
    obtain ⟨rfl, rfl⟩ := h
    exact ⟨rfl, fun _ h => h, hL, by simp [names], by simp [names]⟩
  | .print e, L, s', L', h, hL, hb, hc, hd => by
    simp only [rStmt, Option.map_eq_some_iff, Prod.mk.injEq] at h
    obtain ⟨e', he, rfl, rfl⟩ := h
    obtain ⟨r1, r2, r3⟩ := rExpr_eq he hL fun x hx h1 h2 => by
      refine Decidable.byContradiction fun hn => ?_
      exact hb x (by simpa [names] using hx) h1 h2 hn
    subst r1
    exact ⟨rfl, fun _ h => h, hL, by simpa [names] using r2, by simpa [names] using r3⟩
  | .seq a b, L, s', L', h, hL, hb, hc, hd => by
    simp only [rStmt, Option.bind_eq_some_iff, Option.map_eq_some_iff, Prod.mk.injEq, Prod.exists] at h
    obtain ⟨a', L1, ha, b', L2, hb', rfl, rfl⟩ := h
    have A := rStmt_eq ha hL
      (fun x hx h1 h2 h3 => by
        have := hb x (by simp [names, hx]) h1 h2 h3
        simpa [firstAnn, hx] using this)
      (fun x hx => hc x (by simp [assigned, hx])) (fun x hx => hd x (by simp [annotated, hx]))
    have B := rStmt_eq hb' A.isLoc
      (fun x hx h1 h2 h3 => by
        have hna : x ∉ names a := fun h => h3 (A.mem x h h1)
        have := hb x (by simp [names, hx]) h1 h2 fun h => h3 (A.sub x h)
        simpa [firstAnn, hna] using this)
      (fun x hx => hc x (by simp [assigned, hx])) (fun x hx => hd x (by simp [annotated, hx]))
    refine ⟨by rw [mapS, A.eq, B.eq], fun x hx => B.sub x (A.sub x hx), B.isLoc, ?_, ?_⟩
    · intro x hx h1
      simp only [names, List.mem_append] at hx
      exact hx.elim (fun h => B.sub x (A.mem x h h1)) fun h => B.mem x h h1
    · intro x hx
      simp only [names, List.mem_append] at hx
      exact hx.elim (A.known x) (B.known x)
  | .assign y e, L, s', L', h, hL, hb, hc, hd => by
    simp only [rStmt, Option.map_eq_some_iff, Prod.mk.injEq] at h
    obtain ⟨e', he, rfl, rfl⟩ := h
    have hb' : ∀ x ∈ names (.assign y e), cls x = true → x ∈ G → x ∈ L := fun x hx h1 h2 =>
      Decidable.byContradiction fun hn => hb x hx h1 h2 hn
    obtain ⟨r1, r2, r3⟩ := rExpr_eq he hL fun x hx => hb' x (by simp [names, hx])
    subst r1
    cases hy : cls y
    · have hG := hc y (by simp [assigned]) hy
      rw [lhs_not hL hy hG]
      refine ⟨by simp [mapS, ref, hy], fun _ h => h, hL, ?_, ?_⟩
      · intro x hx h1
        rcases List.mem_cons.1 hx with rfl | hx
        · rw [hy] at h1; cases h1
        · exact r2 x hx h1
      · intro x hx
        rcases List.mem_cons.1 hx with rfl | hx
        · exact .inr hG
        · exact r3 x hx
    · obtain ⟨p1, p2, p3, p4⟩ := lhs_cls (x := y) hL hy (hb' y (by simp [names]) hy)
      refine ⟨by simp [mapS, ref, hy, p1], p3, p4, ?_, ?_⟩
      · intro x hx h1
        rcases List.mem_cons.1 hx with rfl | hx
        · exact p2
        · exact p3 x (r2 x hx h1)
      · intro x hx
        rcases List.mem_cons.1 hx with rfl | hx
        · exact .inl hy
        · exact r3 x hx
  | .call y f as, L, s', L', h, hL, hb, hc, hd => by
    simp only [rStmt, Option.map_eq_some_iff, Prod.mk.injEq] at h
    obtain ⟨e', he, rfl, rfl⟩ := h
    have hb' : ∀ x ∈ names (.call y f as), cls x = true → x ∈ G → x ∈ L := fun x hx h1 h2 =>
      Decidable.byContradiction fun hn => hb x hx h1 h2 hn
    obtain ⟨r1, r2, r3⟩ := rExprs_eq he hL fun x hx => hb' x (by simp only [names, List.mem_cons]; exact .inr hx)
    subst r1
    cases hy : cls y
    · have hG := hc y (by simp [assigned]) hy
      rw [lhs_not hL hy hG]
      refine ⟨by simp [mapS, ref, hy], fun _ h => h, hL, ?_, ?_⟩
      · intro x hx h1
        rcases List.mem_cons.1 hx with rfl | hx
        · rw [hy] at h1; cases h1
        · exact r2 x hx h1
      · intro x hx
        rcases List.mem_cons.1 hx with rfl | hx
        · exact .inr hG
        · exact r3 x hx
    · obtain ⟨p1, p2, p3, p4⟩ := lhs_cls (x := y) hL hy (hb' y (by simp [names]) hy)
      refine ⟨by simp [mapS, ref, hy, p1], p3, p4, ?_, ?_⟩
      · intro x hx h1
        rcases List.mem_cons.1 hx with rfl | hx
        · exact p2
        · exact p3 x (r2 x hx h1)
      · intro x hx
        rcases List.mem_cons.1 hx with rfl | hx
        · exact .inl hy
        · exact r3 x hx
  | .ann y e, L, s', L', h, hL, hb, hc, hd => by
    have hy := hd y (by simp [annotated])
    rw [rStmt] at h
    split at h
    · cases h
    · simp only [Option.map_eq_some_iff, Prod.mk.injEq] at h
      obtain ⟨e', he, rfl, rfl⟩ := h
      have hL' : ∀ x ∈ y :: L, cls x = true := fun x hx => by
        rcases List.mem_cons.1 hx with rfl | hx
        · exact hy
        · exact hL x hx
      obtain ⟨r1, r2, r3⟩ := rExpr_eq he hL' fun x hx h1 h2 => by
        refine Decidable.byContradiction fun hn => ?_
        have hn' := fun h => hn (List.mem_cons_of_mem y h)
        have : y = x := hb x (by simp [names, hx]) h1 h2 hn'
        exact hn (by simp [this])
      subst r1
      refine ⟨by simp [mapS, ref, hy], fun x hx => List.mem_cons_of_mem y hx, hL', ?_, ?_⟩
      · intro x hx h1
        rcases List.mem_cons.1 hx with rfl | hx
        · simp
        · exact r2 x hx h1
      · intro x hx
        rcases List.mem_cons.1 hx with rfl | hx
        · exact .inl hy
        · exact r3 x hx
  | .ite c a b, L, s', L', h, hL, hb, hc, hd => by
    simp only [rStmt, Option.bind_eq_some_iff, Option.map_eq_some_iff, Prod.mk.injEq, Prod.exists] at h
    obtain ⟨c', hc', a', L1, ha, b', L2, hb', rfl, rfl⟩ := h
    have hbb : ∀ x ∈ names (.ite c a b), cls x = true → x ∈ G → x ∈ L := fun x hx h1 h2 =>
      Decidable.byContradiction fun hn => hb x hx h1 h2 hn
    obtain ⟨r1, r2, r3⟩ := rExpr_eq hc' hL fun x hx => hbb x (by simp [names, hx])
    have A := rStmt_eq ha hL
      (fun x hx h1 h2 h3 => absurd (hbb x (by simp [names, hx]) h1 h2) h3)
      (fun x hx => hc x (by simp [assigned, hx])) (fun x hx => hd x (by simp [annotated, hx]))
    have B := rStmt_eq hb' A.isLoc
      (fun x hx h1 h2 h3 => absurd (A.sub x (hbb x (by simp [names, hx]) h1 h2)) h3)
      (fun x hx => hc x (by simp [assigned, hx])) (fun x hx => hd x (by simp [annotated, hx]))
    refine ⟨by rw [mapS, r1, A.eq, B.eq], fun x hx => B.sub x (A.sub x hx), B.isLoc, ?_, ?_⟩
    · intro x hx h1
      simp only [names, List.mem_append] at hx
      rcases hx with (hx | hx) | hx
      · exact B.sub x (A.sub x (r2 x hx h1))
      · exact B.sub x (A.mem x hx h1)
      · exact B.mem x hx h1
    · intro x hx
      simp only [names, List.mem_append] at hx
      rcases hx with (hx | hx) | hx
      · exact r3 x hx
      · exact A.known x hx
      · exact B.known x hx
  | .while c b, L, s', L', h, hL, hb, hc, hd => by
    simp only [rStmt, Option.bind_eq_some_iff, Option.map_eq_some_iff, Prod.mk.injEq, Prod.exists] at h
    obtain ⟨c', hc', b', L2, hb', rfl, rfl⟩ := h
    have hbb : ∀ x ∈ names (.while c b), cls x = true → x ∈ G → x ∈ L := fun x hx h1 h2 =>
      Decidable.byContradiction fun hn => hb x hx h1 h2 hn
    obtain ⟨r1, r2, r3⟩ := rExpr_eq hc' hL fun x hx => hbb x (by simp [names, hx])
    have B := rStmt_eq hb' hL
      (fun x hx h1 h2 h3 => absurd (hbb x (by simp [names, hx]) h1 h2) h3)
      (fun x hx => hc x (by simpa [assigned] using hx)) (fun x hx => hd x (by simpa [annotated] using hx))
    refine ⟨by rw [mapS, r1, B.eq], B.sub, B.isLoc, ?_, ?_⟩
    · intro x hx h1
      simp only [names, List.mem_append] at hx
      rcases hx with hx | hx
      · exact B.sub x (r2 x hx h1)
      · exact B.mem x hx h1
    · intro x hx
      simp only [names, List.mem_append] at hx
      rcases hx with hx | hx
      · exact r3 x hx
      · exact B.known x hx

end Verif.Globals.Lemmas
