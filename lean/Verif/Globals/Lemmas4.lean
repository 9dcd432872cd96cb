import Verif.Globals.Lemmas3

namespace Verif.Globals.Lemmas
open Spec Model

/-! ### Another file -/

/-- No function changes a variable of the file. -/
theorem exec_glob {fs : List Fun} : ∀ {n : Nat} {s : Stmt Name} {loc : Name → Bool} {P P' : State},
    exec fs (fun _ => []) n loc s P = some P' → (∀ x ∈ assigned s, loc x = true) → P'.glob = P.glob
  | 0, s, loc, P, P', h, _ => by simp [exec] at h
  | n + 1, .skip, loc, P, P', h, _ => by
    simp only [exec, Option.some.injEq] at h; rw [h]
  | n + 1, .seq a b, loc, P, P', h, hx => by
    simp only [exec, Option.bind_eq_some_iff] at h
    obtain ⟨Q, h1, h2⟩ := h
    rw [exec_glob h2 fun x h => hx x (by simp [assigned, h]),
      exec_glob h1 fun x h => hx x (by simp [assigned, h])]
  | n + 1, .assign x e, loc, P, P', h, hx => by
    simp only [exec, Option.map_eq_some_iff] at h
    obtain ⟨v, _, rfl⟩ := h
    simp [State.write, hx x (by simp [assigned])]
  | n + 1, .ann x e, loc, P, P', h, hx => by
    simp only [exec, Option.map_eq_some_iff] at h
    obtain ⟨v, _, rfl⟩ := h
    simp [State.write, hx x (by simp [assigned])]
  | n + 1, .print e, loc, P, P', h, hx => by
    simp only [exec, Option.map_eq_some_iff] at h
    obtain ⟨v, _, rfl⟩ := h
    rfl
  | n + 1, .ite c a b, loc, P, P', h, hx => by
    simp only [exec, Option.bind_eq_some_iff] at h
    obtain ⟨v, _, h⟩ := h
    split at h
    · exact exec_glob h fun x h => hx x (by simp [assigned, h])
    · exact exec_glob h fun x h => hx x (by simp [assigned, h])
  | n + 1, .while c b, loc, P, P', h, hx => by
    simp only [exec, Option.bind_eq_some_iff] at h
    obtain ⟨v, _, h⟩ := h
    split at h
    · simp only [Option.bind_eq_some_iff] at h
      obtain ⟨Q, h1, h2⟩ := h
      rw [exec_glob h2 hx, exec_glob h1 fun x h => hx x (by simpa [assigned] using h)]
    · simp only [Option.some.injEq] at h; rw [h]
  | n + 1, .call x f as, loc, P, P', h, hx => by
    simp only [exec, Option.bind_eq_some_iff, Option.map_eq_some_iff] at h
    obtain ⟨vs, _, d, _, m, _, t, ht, v, _, rfl⟩ := h
    have := exec_glob ht fun x h => by simp [isLocal, h]
    simp [State.write, hx x (by simp [assigned]), this]

/-- In another file, imported variables that are not assigned are those of the file. -/
structure Copy (I : List Name) (g : Name → Option Int) (P Q : State) : Prop where
  out : P.out = Q.out
  gP : P.glob = g
  gQ : Q.glob = g
  imp : ∀ x ∈ I, P.loc x = g x
  own : ∀ x, x ∉ I → P.loc x = Q.loc x

def own (I : List Name) (x : Name) : Bool := !I.contains x

variable {I : List Name} {g : Name → Option Int} {P Q : State}

theorem copy_read (h : Copy I g P Q) (x : Name) : P.read (fun _ => true) x = Q.read (own I) x := by
  by_cases hx : x ∈ I
  · simp [State.read, own, hx, h.imp x hx, h.gQ]
  · simp [State.read, own, hx, h.own x hx]

theorem copy_write (h : Copy I g P Q) {x : Name} (hx : x ∉ I) (v : Int) :
    Copy I g (P.write (fun _ => true) x v) (Q.write (own I) x v) := by
  have ho : own I x = true := by simpa [own] using hx
  simp only [State.write, ho, if_true]
  refine ⟨h.out, h.gP, h.gQ, fun y hy => ?_, fun y hy => ?_⟩
  · have : y ≠ x := fun e => hx (e ▸ hy)
    simp [put, this, h.imp y hy]
  · simp [put, h.own y hy]

def OCopy (I : List Name) (g : Name → Option Int) : Option State → Option State → Prop
  | none, none => True
  | some P, some Q => Copy I g P Q
  | _, _ => False

theorem OCopy.bind {a b : Option State} {f k : State → Option State} (h : OCopy I g a b)
    (hf : ∀ P Q, Copy I g P Q → OCopy I g (f P) (k Q)) : OCopy I g (a.bind f) (b.bind k) := by
  cases a <;> cases b
  · trivial
  · exact h.elim
  · exact h.elim
  · exact hf _ _ h

theorem copy_sim {fs : List Fun} : ∀ (n : Nat) (s : Stmt Name) {P Q : State}, Copy I g P Q →
    (∀ x ∈ assigned s, x ∉ I) →
    OCopy I g (exec fs (fun _ => []) n (fun _ => true) s P) (exec fs (fun _ => []) n (own I) s Q)
  | 0, s, P, Q, h, _ => by simp only [exec]; trivial
  | n + 1, .skip, P, Q, h, _ => by simp only [exec]; exact h
  | n + 1, .seq a b, P, Q, h, hx => by
    simp only [exec]
    exact (copy_sim n a h fun x h => hx x (by simp [assigned, h])).bind fun P' Q' h' =>
      copy_sim n b h' fun x h => hx x (by simp [assigned, h])
  | n + 1, .assign x e, P, Q, h, hx => by
    simp only [exec, funext (copy_read h)]
    cases eval (Q.read (own I)) e with
    | none => trivial
    | some v => exact copy_write h (hx x (by simp [assigned])) v
  | n + 1, .ann x e, P, Q, h, hx => by
    simp only [exec, funext (copy_read h)]
    cases eval (Q.read (own I)) e with
    | none => trivial
    | some v => exact copy_write h (hx x (by simp [assigned])) v
  | n + 1, .print e, P, Q, h, hx => by
    simp only [exec, funext (copy_read h)]
    cases eval (Q.read (own I)) e with
    | none => trivial
    | some v => exact ⟨by simp [h.out], h.gP, h.gQ, h.imp, h.own⟩
  | n + 1, .ite c a b, P, Q, h, hx => by
    simp only [exec, funext (copy_read h)]
    cases eval (Q.read (own I)) c with
    | none => trivial
    | some v =>
      simp only [Option.bind_some]
      split
      · exact copy_sim n a h fun x h => hx x (by simp [assigned, h])
      · exact copy_sim n b h fun x h => hx x (by simp [assigned, h])
  | n + 1, .while c b, P, Q, h, hx => by
    simp only [exec, funext (copy_read h)]
    cases eval (Q.read (own I)) c with
    | none => trivial
    | some v =>
      simp only [Option.bind_some]
      split
      · exact (copy_sim n b h fun x h => hx x (by simpa [assigned] using h)).bind fun P' Q' h' =>
          copy_sim n (.while c b) h' hx
      · exact h
  | n + 1, .call x f as, P, Q, h, hx => by
    simp only [exec, funext (copy_read h)]
    cases evals (Q.read (own I)) as with
    | none => trivial
    | some vs =>
      simp only [Option.bind_some]
      cases getFun fs f with
      | none => trivial
      | some d =>
        simp only [Option.bind_some]
        cases bindParams d.params vs with
        | none => trivial
        | some m =>
          have e : ({ P with loc := m } : State) = { Q with loc := m } := by
            cases P; cases Q
            have h1 := h.gP; have h2 := h.gQ; have h3 := h.out
            simp only at h1 h2 h3
            subst h1 h3
            simp [h2]
          simp only [Option.bind_some, e]
          cases ht : exec fs (fun _ => []) n (isLocal (fun _ => []) d) d.body { Q with loc := m } with
          | none => trivial
          | some t =>
            simp only [Option.bind_some]
            cases eval (t.read (isLocal (fun _ => []) d)) d.ret with
            | none => trivial
            | some v =>
              have hg : t.glob = g := (exec_glob ht fun x h => by simp [isLocal, h]).trans h.gQ
              have hc : Copy I g { t with loc := P.loc } { t with loc := Q.loc } :=
                ⟨rfl, hg, hg, h.imp, h.own⟩
              exact copy_write hc (hx x (by simp [assigned])) v

theorem import_eq {p : Prog} {I : List Name} {use : Stmt Name} {c : CProg} {u : Stmt Ref}
    (ha : Apart p) (hx : ∀ x ∈ assigned use, x ∉ I) (hc : compileImport p I use = some (c, u)) (fuel : Nat) :
    runCImport c u fuel = runImport p I use fuel := by
  have ht : Tidy p := ⟨fun f hf x hx => ha.funcs f hf x (annotated_assigned hx), ha.main⟩
  simp only [compileImport, Option.bind_eq_some_iff, Prod.exists] at hc
  obtain ⟨m, G, vis, hm, hc⟩ := hc
  by_cases hI : I.all G.contains = true
  case neg => rw [if_neg hI] at hc; cases hc
  rw [if_pos hI] at hc
  simp only [Option.bind_eq_some_iff, Option.map_eq_some_iff, Prod.exists, Prod.mk.injEq] at hc
  obtain ⟨u', L, hu, fs, hfs, rfl, rfl⟩ := hc
  have hIG : ∀ x ∈ I, x ∈ G := by simpa using hI
  have D := mStmt_eq hm
  have hG : ∀ x, x ∈ G ↔ x ∈ assigned p.mod := fun x => by rw [D.mem]; simp
  have hvis : ∀ n, ∀ x ∈ (vis.lookup n).getD G, x ∈ G := by
    intro n x hx
    cases hl : vis.lookup n with
    | none => simpa [hl] using hx
    | some H =>
      rw [hl] at hx
      rcases D.vis n H (lookup_mem hl) with h | h
      · cases h
      · exact h x hx
  have hF : FunsOK G (fun _ => []) p.funcs fs := by
    intro n
    rcases rFuns_get n hfs with h | ⟨f, f', h1, h2, h3, h4, h5⟩
    · exact .inl h
    · refine .inr ⟨f, f', h1, h2, rFun_ok h5 ?_ (hvis n) fun x hx hxG => ht.funcs f h4 x hx ((hG x).1 hxG)⟩
      symm
      refine List.eq_nil_iff_forall_not_mem.2 fun x hx => ?_
      obtain ⟨a, b, d⟩ := mem_shared.1 hx
      exact d (ha.funcs f h4 x a ((hG x).1 (hvis n x b)))
  have B := rStmt_eq (cls := own I) hu (by simp)
    (fun x _ h1 h2 => by simp [own, h2] at h1) (fun x _ h1 => by simpa [own] using h1)
    (fun x hx' => by simpa [own] using hx x (annotated_assigned hx'))
  have g1 : Good G (fun _ => false) (fun _ => false) := ⟨fun _ h => h, fun _ h => by cases h⟩
  have s1 := sim hF fuel p.mod (P := ⟨fun _ => none, fun _ => none, []⟩)
    (C := ⟨fun _ => none, fun _ => none, []⟩) g1
    ⟨rfl, fun _ _ => rfl, fun _ _ _ => rfl, fun _ _ => rfl⟩ fun x hx => .inr (D.known x hx)
  unfold runCImport runImport
  simp only [D.eq, B.eq]
  cases e1 : exec p.funcs (fun _ => []) fuel (fun _ => false) p.mod ⟨fun _ => none, fun _ => none, []⟩ with
  | none =>
    cases e2 : execC fs fuel (mapS (ref fun _ => false) p.mod) ⟨fun _ => none, fun _ => none, []⟩ with
    | none => rfl
    | some C1 => rw [e1, e2] at s1; exact s1.elim
  | some P1 =>
    cases e2 : execC fs fuel (mapS (ref fun _ => false) p.mod) ⟨fun _ => none, fun _ => none, []⟩ with
    | none => rw [e1, e2] at s1; exact s1.elim
    | some C1 =>
      rw [e1, e2] at s1
      obtain ⟨r1, _⟩ := s1
      simp only [Option.bind_some]
      have hc : Copy I P1.glob { P1 with loc := fun x => if I.contains x then P1.glob x else none }
          { P1 with loc := fun _ => none } :=
        ⟨rfl, rfl, rfl, fun x hx => by simp [hx], fun x hx => by simp [hx]⟩
      have s2 := copy_sim (fs := p.funcs) fuel use hc hx
      have s3 := sim hF fuel use (loc := own I) (cls := own I) (P := { P1 with loc := fun _ => none })
        (C := { C1 with loc := fun _ => none }) good_self
        ⟨r1.out, fun _ _ => rfl, fun x h1 h2 => (by rw [h1] at h2; cases h2), r1.g⟩
        fun x hx => (B.known x hx).imp_right (hIG x)
      cases e3 : exec p.funcs (fun _ => []) fuel (fun _ => true) use
          { P1 with loc := fun x => if I.contains x then P1.glob x else none } with
      | none =>
        cases e4 : exec p.funcs (fun _ => []) fuel (own I) use { P1 with loc := fun _ => none } with
        | some _ => rw [e3, e4] at s2; exact s2.elim
        | none =>
          cases e5 : execC fs fuel (mapS (ref (own I)) use) { C1 with loc := fun _ => none } with
          | none => rfl
          | some _ => rw [e4, e5] at s3; exact s3.elim
      | some P2 =>
        cases e4 : exec p.funcs (fun _ => []) fuel (own I) use { P1 with loc := fun _ => none } with
        | none => rw [e3, e4] at s2; exact s2.elim
        | some Q2 =>
          cases e5 : execC fs fuel (mapS (ref (own I)) use) { C1 with loc := fun _ => none } with
          | none => rw [e4, e5] at s3; exact s3.elim
          | some C2 =>
            rw [e3, e4] at s2
            rw [e4, e5] at s3
            simp [s2.out, s3.1.out]

end Verif.Globals.Lemmas
