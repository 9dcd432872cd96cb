import Verif.Inline.LemmasDecl

/-! # Generated code computes what the program computes -/

namespace Verif.Inline.Lemmas
open Spec Model

/-- The values of expressions. -/
def Vals (G : Lib) (l : Name → Option Int) (h : Nat → Int) : List Expr → List Int → Prop
  | [], [] => True
  | a :: as, v :: vs => Val G l a h v ∧ Vals G l h as vs
  | _, _ => False

theorem look_agree {G : Lib} {L : List Name} {σ σ' : Env} {y : Name} (h : σ' y = σ y) : look G L 0 σ' y = look G L 0 σ y := by
  simp [look, h]

theorem Val.agree {G : Lib} {L : List Name} {σ σ' : Env} {e : Expr} {h : Nat → Int} {v : Int}
    (ha : ∀ y ∈ namesE e, σ' y = σ y) (hv : Val G (look G L 0 σ) e h v) : Val G (look G L 0 σ') e h v := by
  intro tr
  rw [eval_agree G noCall (l' := look G L 0 σ) e fun y hy => look_agree (ha y hy)]
  exact hv tr

theorem Vals.agree {G : Lib} {L : List Name} {σ σ' : Env} {h : Nat → Int} : ∀ {as : List Expr} {vs : List Int},
    (∀ a ∈ as, ∀ y ∈ namesE a, σ' y = σ y) → Vals G (look G L 0 σ) h as vs → Vals G (look G L 0 σ') h as vs
  | [], [], _, _ => by simp [Vals]
  | a :: as, v :: vs, ha, hv => by
    simp only [Vals] at hv ⊢
    exact ⟨hv.1.agree (ha a (by simp)), hv.2.agree fun b hb => ha b (by simp [hb])⟩
  | [], _ :: _, _, hv => by simp [Vals] at hv
  | _ :: _, [], _, hv => by simp [Vals] at hv

/-- The left-hand side after a call with result `r` that ended in the world `w`. -/
def After (G : Lib) (L : List Name) (d : Dest) (r : Option Int) (w : World) (σ' : Env) (w' : World) : Prop :=
  match r with
  | none => w' = w
  | some v =>
    match d with
    | .var y => look G L 0 σ' y = some v ∧ w' = w
    | .cell c => w' = w.set c v

/-- Replaced calls compute the same as the function. -/
structure Corr (G : Lib) (funs : List Func) (q : Nat → Bool) (Gl : List Name) (I : Inl) : Prop where
  s : ∀ {L n sc d f as out sc' vs h tr r w2 σ}, (∀ y ∈ Gl, y ∉ L) → Ok sc → (∀ y ∈ Gl, y ∈ sc.used) →
    (∀ a ∈ as, noExt a = true) → (∀ a ∈ as, ∀ y ∈ namesE a, y ∈ sc.used) →
    (q f = true ∨ ∀ a ∈ as, plain a = true) →
    (∀ y, d = .var y → y ∈ sc.used ∧ y ∉ Gl ∧ (direct funs f = true ∨ ∀ a ∈ as, y ∉ namesE a)) →
    I.s sc d f as = some (out, sc') → (∀ y ∈ targets out, y ∈ L) → Vals G (look G L 0 σ) h as vs →
    callN G funs n f vs ⟨h, tr⟩ = some (r, w2) →
    ∃ σ' w', Runs G L out σ ⟨h, tr⟩ σ' w' ∧ After G L d r w2 σ' w'
  e : ∀ {L n sc f as out e sc' vs h tr v w2 σ}, (∀ y ∈ Gl, y ∉ L) → Ok sc → (∀ y ∈ Gl, y ∈ sc.used) →
    (∀ a ∈ as, noExt a = true) → (∀ a ∈ as, ∀ y ∈ namesE a, y ∈ sc.used) → q f = true → embeds funs f = true →
    I.e sc f as = some (out, e, sc') → (∀ y ∈ targets out, y ∈ L) → Vals G (look G L 0 σ) h as vs →
    callN G funs n f vs ⟨h, tr⟩ = some (some v, w2) →
    w2 = ⟨h, tr⟩ ∧ ∃ σ', (∀ tr', Runs G L out σ ⟨h, tr'⟩ σ' ⟨h, tr'⟩) ∧
      ∀ σ'', (∀ y ∈ sc'.used, σ'' y = σ' y) → Val G (look G L 0 σ'') e h v

/-- What is known about the names for the variables `V`. -/
structure Fr (Gl V L : List Name) (m : Name → Expr) (sc : Sc) : Prop where
  ok : Ok sc
  gl : ∀ y ∈ Gl, y ∈ sc.used
  nl : ∀ y ∈ Gl, y ∉ L
  ne : ∀ x ∈ V, noExt (m x) = true
  cov : ∀ x ∈ V, ∀ y ∈ namesE (m x), y ∈ sc.used

theorem Fr.mono {Gl V L : List Name} {m : Name → Expr} {sc sc' : Sc} (h : Fr Gl V L m sc) (hm : Mono sc sc') : Fr Gl V L m sc' :=
  ⟨hm.ok h.ok, fun y hy => hm.used y (h.gl y hy), h.nl, h.ne, fun x hx y hy => hm.used y (h.cov x hx y hy)⟩

theorem Fr.sub {Gl V V' L : List Name} {m : Name → Expr} {sc : Sc} (h : Fr Gl V L m sc) (hv : ∀ x ∈ V', x ∈ V) :
    Fr Gl V' L m sc :=
  ⟨h.ok, h.gl, h.nl, fun x hx => h.ne x (hv x hx), fun x hx => h.cov x (hv x hx)⟩

/-- The expressions for the variables `V` have their values. -/
def Sim (G : Lib) (L : List Name) (m : Name → Expr) (l : Name → Option Int) (V : List Name) (σ : Env) (h : Nat → Int) : Prop :=
  ∀ x ∈ V, ∀ v, l x = some v → Val G (look G L 0 σ) (m x) h v

theorem Sim.agree {G : Lib} {Gl V L : List Name} {m : Name → Expr} {sc : Sc} {l : Name → Option Int} {σ σ' : Env}
    {h : Nat → Int} (hs : Sim G L m l V σ h) (hf : Fr Gl V L m sc) (ha : ∀ y ∈ sc.used, σ' y = σ y) : Sim G L m l V σ' h :=
  fun x hx v hv => (hs x hx v hv).agree fun y hy => ha y (hf.cov x hx y hy)

theorem Sim.sub {G : Lib} {L V V' : List Name} {m : Name → Expr} {l : Name → Option Int} {σ : Env}
    {h : Nat → Int} (hs : Sim G L m l V σ h) (hv : ∀ x ∈ V', x ∈ V) : Sim G L m l V' σ h :=
  fun x hx => hs x (hv x hx)

theorem Runs.nil_inv {G : Lib} {L : List Name} {σ σ' : Env} {w w' : World} (h : Runs G L [] σ w σ' w') : σ' = σ ∧ w' = w := by
  obtain ⟨k, h⟩ := h
  simp [seqs, exec] at h
  exact ⟨h.1.symm, h.2.symm⟩

section
variable {G : Lib} {funs : List Func} {q b : Nat → Bool} {Gl L : List Name} {I : Inl}

mutual
theorem visitE_sim (st : Static funs q b Gl I) (hI : Corr G funs q Gl I) {n : Nat} {m : Name → Expr} {l : Name → Option Int}
    {s : Bool} :
    (e : Expr) → ∀ {sc p e' sc' σ h tr v w1}, Fr Gl (namesE e) L m sc → Sim G L m l (namesE e) σ h →
      cleanE funs q b s e = true → visitE I m e sc = some (p, e', sc') → (∀ y ∈ targets p, y ∈ L) →
      eval G (callN G funs n) l e ⟨h, tr⟩ = some (v, w1) →
      ∃ tr1, w1 = ⟨h, tr1⟩ ∧ ∃ σ', (∀ tr', Runs G L p σ ⟨h, tr'⟩ σ' ⟨h, tr'⟩) ∧ (∀ y ∈ sc.used, σ' y = σ y) ∧
        ∀ σ'', (∀ y ∈ sc'.used, σ'' y = σ' y) → eval G noCall (look G L 0 σ'') e' ⟨h, tr⟩ = some (v, ⟨h, tr1⟩)
  | .lit _, sc, p, e', sc', σ, h, tr, v, w1, _, _, _, hv, _, he => by
    simp [visitE] at hv
    obtain ⟨rfl, rfl, rfl⟩ := hv
    simp [eval] at he
    exact ⟨tr, he.2.symm, σ, fun _ => .nil, fun _ _ => rfl, fun _ _ => by simp [eval, he.1]⟩
  | .name x, sc, p, e', sc', σ, h, tr, v, w1, hf, hs, _, hv, _, he => by
    simp [visitE] at hv
    obtain ⟨rfl, rfl, rfl⟩ := hv
    cases hx : l x with
    | none => simp [eval, hx] at he
    | some u =>
      simp [eval, hx] at he
      refine ⟨tr, he.2.symm, σ, fun _ => .nil, fun _ _ => rfl, fun σ'' ha => ?_⟩
      rw [← he.1]
      have hn : x ∈ namesE (.name x) := by simp [namesE]
      exact (hs x hn u hx).agree (fun y hy => ha y (hf.cov x hn y hy)) tr
  | .glob k x, sc, p, e', sc', σ, h, tr, v, w1, _, _, _, hv, _, he => by
    simp [visitE] at hv
    obtain ⟨rfl, rfl, rfl⟩ := hv
    cases hx : G.glob k x <;> simp [eval, hx] at he
    exact ⟨tr, he.2.symm, σ, fun _ => .nil, fun _ _ => rfl, fun _ _ => by simp [eval, hx, he.1]⟩
  | .load c, sc, p, e', sc', σ, h, tr, v, w1, _, _, _, hv, _, he => by
    simp [visitE] at hv
    obtain ⟨rfl, rfl, rfl⟩ := hv
    simp [eval] at he
    exact ⟨tr, he.2.symm, σ, fun _ => .nil, fun _ _ => rfl, fun _ _ => by simp [eval, he.1]⟩
  | .bin op a c, sc, p, e', sc', σ, h, tr, v, w1, hf, hs, hc, hv, ht, he => by
    obtain ⟨p1, a', sc1, p2, b', ha, hb, rfl, rfl⟩ := visitE_bin hv
    simp [cleanE] at hc
    have hfa : Fr Gl (namesE a) L m sc := hf.sub (by intro x hx; simp [namesE, hx])
    have hm := visitE_mono st.mono a hf.ok ha
    have hfc : Fr Gl (namesE c) L m sc1 := (hf.mono hm).sub (by intro x hx; simp [namesE, hx])
    have hm2 := visitE_mono st.mono c hfc.ok hb
    simp only [eval] at he
    cases hea : eval G (callN G funs n) l a ⟨h, tr⟩ with
    | none => simp [hea] at he
    | some r =>
      obtain ⟨u, w2⟩ := r
      simp only [hea] at he
      obtain ⟨tr2, rfl, σ1, r1, g1, v1⟩ := visitE_sim st hI a hfa (hs.sub (by intro x hx; simp [namesE, hx])) hc.1 ha
        (fun y hy => ht y (by simp [targets_append, hy])) hea
      have hs1 : Sim G L m l (namesE c) σ1 h := (hs.agree hf g1).sub (by intro x hx; simp [namesE, hx])
      cases hec : eval G (callN G funs n) l c ⟨h, tr2⟩ with
      | none => simp [hec] at he
      | some r =>
        obtain ⟨u2, w3⟩ := r
        simp only [hec] at he
        obtain ⟨tr3, rfl, σ2, r2, g2, v2⟩ := visitE_sim st hI c hfc hs1 hc.2 hb
          (fun y hy => ht y (by simp [targets_append, hy])) hec
        cases ho : G.op op u u2 with
        | none => simp [ho] at he
        | some z =>
          simp [ho] at he
          refine ⟨tr3, he.2.symm, σ2, fun tr' => (r1 tr').append (r2 tr'),
            fun y hy => by rw [g2 y (hm.used y hy), g1 y hy], fun σ'' hσ => ?_⟩
          have e1 := v1 σ'' fun y hy => by rw [hσ y (hm2.used y hy), g2 y hy]
          have e2 := v2 σ'' hσ
          simp [eval, e1, e2, ho, he.1]
  | .cond c a d, sc, p, e', sc', σ, h, tr, v, w1, hf, hs, hc, hv, ht, he => by
    obtain ⟨p1, a', sc1, p2, c', sc2, p3, b', ha, hcc, hb, rfl, rfl⟩ := visitE_cond hv
    simp [cleanE, and_assoc] at hc
    have hfa : Fr Gl (namesE a) L m sc := hf.sub (by intro x hx; simp [namesE, hx])
    have hm := visitE_mono st.mono a hf.ok ha
    have hfc : Fr Gl (namesE c) L m sc1 := (hf.mono hm).sub (by intro x hx; simp [namesE, hx])
    have hm2 := visitE_mono st.mono c hfc.ok hcc
    have hfd : Fr Gl (namesE d) L m sc2 := (hf.mono (hm.trans hm2)).sub (by intro x hx; simp [namesE, hx])
    have hm3 := visitE_mono st.mono d hfd.ok hb
    have hp1 := (visitE_quiet st.quiet a ha hc.2.1 hfa.ne).2.2 rfl
    have hp3 := (visitE_quiet st.quiet d hb hc.2.2 hfd.ne).2.2 rfl
    subst hp1 hp3
    simp only [List.nil_append, List.append_nil] at ht ⊢
    simp only [eval] at he
    cases hec : eval G (callN G funs n) l c ⟨h, tr⟩ with
    | none => simp [hec] at he
    | some r =>
      obtain ⟨u, w2⟩ := r
      simp only [hec] at he
      obtain ⟨tr2, rfl, σ1, r1, g1, v1⟩ := visitE_sim st hI c hfc (hs.sub (by intro x hx; simp [namesE, hx])) hc.1 hcc ht hec
      have hs1 : Sim G L m l (namesE (.cond c a d)) σ1 h := hs.agree hf fun y hy => g1 y (hm.used y hy)
      have hgg : ∀ y ∈ sc.used, σ1 y = σ y := fun y hy => g1 y (hm.used y hy)
      by_cases hu : u = 0
      · simp only [hu, if_true] at he
        obtain ⟨tr3, rfl, σ2, r2, g2, v2⟩ := visitE_sim st hI d hfd (hs1.sub (by intro x hx; simp [namesE, hx])) hc.2.2 hb
          (fun y hy => absurd hy not_mem_targets_nil) he
        have := ((r2 tr).nil_inv).1
        subst this
        refine ⟨tr3, rfl, σ2, r1, hgg, fun σ'' hσ => ?_⟩
        have e1 := v1 σ'' fun y hy => hσ y (hm3.used y hy)
        simp [eval, e1, hu, v2 σ'' hσ]
      · simp only [hu, if_false] at he
        obtain ⟨tr3, rfl, σ2, r2, g2, v2⟩ := visitE_sim st hI a hfa (hs1.sub (by intro x hx; simp [namesE, hx])) hc.2.1 ha
          (fun y hy => absurd hy not_mem_targets_nil) he
        have := ((r2 tr).nil_inv).1
        subst this
        refine ⟨tr3, rfl, σ2, r1, hgg, fun σ'' hσ => ?_⟩
        have e1 := v1 σ'' fun y hy => hσ y (hm3.used y hy)
        simp [eval, e1, hu, v2 σ'' fun y hy => hσ y (hm3.used y (hm2.used y hy))]
  | .ext k e, sc, p, e', sc', σ, h, tr, v, w1, hf, hs, hc, hv, ht, he => by
    obtain ⟨e1, hve, rfl⟩ := visitE_ext hv
    simp [cleanE] at hc
    simp only [eval] at he
    cases hee : eval G (callN G funs n) l e ⟨h, tr⟩ with
    | none => simp [hee] at he
    | some r =>
      obtain ⟨u, w2⟩ := r
      simp only [hee] at he
      obtain ⟨tr2, rfl, σ1, r1, g1, v1⟩ := visitE_sim st hI e (hf.sub (by intro x hx; simp [namesE, hx]))
        (hs.sub (by intro x hx; simp [namesE, hx])) hc hve ht hee
      simp at he
      exact ⟨_, he.2.symm, σ1, r1, g1, fun σ'' hσ => by simp [eval, v1 σ'' hσ, he.1]⟩
  | .call f args, sc, p, e', sc', σ, h, tr, v, w1, hf, hs, hc, hv, ht, he => by
    obtain ⟨p1, as, sc1, p2, ha, hb, rfl⟩ := visitE_call hv
    simp [cleanE, and_assoc] at hc
    have hfa : Fr Gl (namesA args) L m sc := hf.sub (by intro x hx; simp [namesE, hx])
    have hm := visitArgs_mono st.mono args hf.ok ha
    have hm2 := st.mono.e (hm.ok hf.ok) hb
    simp only [eval] at he
    cases hea : evals G (callN G funs n) l args ⟨h, tr⟩ with
    | none => simp [hea] at he
    | some r =>
      obtain ⟨vs, w2⟩ := r
      simp only [hea] at he
      obtain ⟨rfl, σ1, r1, g1, v1⟩ := visitArgs_sim st hI args hfa (hs.sub (by intro x hx; simp [namesE, hx])) hc.2.2.1
        hc.2.2.2.1 ha (fun y hy => ht y (by simp [targets_append, hy])) hea
      have hne := (visitArgs_quiet st.quiet args ha hc.2.2.1 hfa.ne).2.1 hc.2.2.2.1
      cases hcl : callN G funs n f vs ⟨h, tr⟩ with
      | none => simp [hcl] at he
      | some r =>
        obtain ⟨rr, w3⟩ := r
        cases rr with
        | none => simp [hcl] at he
        | some v' =>
          simp [hcl] at he
          obtain ⟨rfl, rfl⟩ := he
          obtain ⟨rfl, σ2, r2, v2⟩ := hI.e hf.nl (hm.ok hf.ok) (fun y hy => hm.used y (hf.gl y hy)) hne
            (cov_args st.mono st.name hf.ok hf.gl hfa.cov ha) hc.1 hc.2.2.2.2.2 hb
            (fun y hy => ht y (by simp [targets_append, hy])) (v1 σ1 fun _ _ => rfl) hcl
          refine ⟨tr, rfl, σ2, fun tr' => (r1 tr').append (r2 tr'), fun y hy => ?_, fun σ'' hσ => v2 σ'' hσ tr⟩
          rw [(r2 tr).frame fun hy' => st.targ.e (hm.ok hf.ok) hb y hy' (hm.used y hy), g1 y hy]
theorem visitArgs_sim (st : Static funs q b Gl I) (hI : Corr G funs q Gl I) {n : Nat} {m : Name → Expr} {l : Name → Option Int}
    {s : Bool} :
    (es : Exprs) → ∀ {sc p as sc' σ h tr vs w1}, Fr Gl (namesA es) L m sc → Sim G L m l (namesA es) σ h →
      cleanA funs q b s es = true → noExtA es = true → visitArgs I m es sc = some (p, as, sc') → (∀ y ∈ targets p, y ∈ L) →
      evals G (callN G funs n) l es ⟨h, tr⟩ = some (vs, w1) →
      w1 = ⟨h, tr⟩ ∧ ∃ σ', (∀ tr', Runs G L p σ ⟨h, tr'⟩ σ' ⟨h, tr'⟩) ∧ (∀ y ∈ sc.used, σ' y = σ y) ∧
        ∀ σ'', (∀ y ∈ sc'.used, σ'' y = σ' y) → Vals G (look G L 0 σ'') h as vs
  | .nil, sc, p, as, sc', σ, h, tr, vs, w1, _, _, _, _, hv, _, he => by
    simp [visitArgs] at hv
    obtain ⟨rfl, rfl, rfl⟩ := hv
    simp [evals] at he
    exact ⟨he.2.symm, σ, fun _ => .nil, fun _ _ => rfl, fun _ _ => by simp [he.1, Vals]⟩
  | .cons a c, sc, p, as, sc', σ, h, tr, vs, w1, hf, hs, hc, hn, hv, ht, he => by
    obtain ⟨p1, a', sc1, p2, b', ha, hb, rfl, rfl⟩ := visitArgs_cons hv
    simp [cleanA] at hc
    simp [noExtA] at hn
    have hfa : Fr Gl (namesE a) L m sc := hf.sub (by intro x hx; simp [namesA, hx])
    have hm := visitE_mono st.mono a hf.ok ha
    have hfc : Fr Gl (namesA c) L m sc1 := (hf.mono hm).sub (by intro x hx; simp [namesA, hx])
    have hm2 := visitArgs_mono st.mono c hfc.ok hb
    simp only [evals] at he
    cases hea : eval G (callN G funs n) l a ⟨h, tr⟩ with
    | none => simp [hea] at he
    | some r =>
      obtain ⟨u, w2⟩ := r
      simp only [hea] at he
      obtain ⟨tr2, rfl, σ1, r1, g1, v1⟩ := visitE_sim st hI a hfa (hs.sub (by intro x hx; simp [namesA, hx])) hc.1 ha
        (fun y hy => ht y (by simp [targets_append, hy])) hea
      have hne := (visitE_quiet st.quiet a ha hc.1 hfa.ne).2.1 hn.1
      have hq := eval_noExt G _ a' hne (v1 σ1 fun _ _ => rfl)
      have htr : tr2 = tr := by simpa using hq.1
      subst htr
      have hs1 : Sim G L m l (namesA c) σ1 h := (hs.agree hf g1).sub (by intro x hx; simp [namesA, hx])
      cases hec : evals G (callN G funs n) l c ⟨h, tr2⟩ with
      | none => simp [hec] at he
      | some r =>
        obtain ⟨us, w3⟩ := r
        simp [hec] at he
        obtain ⟨rfl, σ2, r2, g2, v2⟩ := visitArgs_sim st hI c hfc hs1 hc.2 hn.2 hb
          (fun y hy => ht y (by simp [targets_append, hy])) hec
        refine ⟨he.2.symm, σ2, fun tr' => (r1 tr').append (r2 tr'),
          fun y hy => by rw [g2 y (hm.used y hy), g1 y hy], fun σ'' hσ => ?_⟩
        rw [← he.1]
        exact ⟨(eval_noExt G _ a' hne (v1 σ'' fun y hy => by rw [hσ y (hm2.used y hy), g2 y hy])).2, v2 σ'' hσ⟩
end

end

/-- What is known about the statements of a body: `V` are its names, `A` are assigned. -/
structure SFr (Gl V A L : List Name) (m : Name → Expr) (d : Option Dest) (res : Option Name) (quiet : Bool) (sc : Sc) : Prop
    extends Fr Gl V L m sc where
  sep : ∀ x ∈ A, ∀ y, m x = .name y → ∀ u ∈ V, u ≠ x → y ∉ namesE (m u)
  agl : ∀ x ∈ A, ∀ y, m x = .name y → y ∉ Gl
  heap : quiet = true ∨ ∀ x ∈ V, plain (m x) = true
  dest : ∀ y, d = some (.var y) → y ∈ sc.used ∧ y ∉ Gl
  res : ∀ y r, d = some (.var y) → res = some r → m r = .name y

theorem SFr.mono {Gl V A L : List Name} {m : Name → Expr} {d : Option Dest} {res : Option Name} {quiet : Bool} {sc sc' : Sc}
    (h : SFr Gl V A L m d res quiet sc) (hm : Mono sc sc') : SFr Gl V A L m d res quiet sc' :=
  ⟨h.toFr.mono hm, h.sep, h.agl, h.heap, fun y hy => ⟨hm.used y (h.dest y hy).1, (h.dest y hy).2⟩, h.res⟩

/-- The end of a statement. -/
def Post (G : Lib) (L Ls : List Name) (md : Nat) (m : Name → Expr) (V : List Name) (d : Option Dest) (o : Out) (σ' : Env) (w' : World) : Prop :=
  match o with
  | .norm ρ' w1 => w' = w1 ∧ Sim G L m (look G Ls md ρ') V σ' w1.heap
  | .ret v w1 => ∃ d', d = some d' ∧ After G L d' (some v) w1 σ' w'

/-- After an assignment. -/
theorem Sim.upd {G : Lib} {Gl V A L Ls : List Name} {md : Nat} {m : Name → Expr} {d : Option Dest} {res : Option Name} {quiet : Bool}
    {sc : Sc} {ρ σ σ' : Env} {h : Nat → Int} {x y : Name} {v : Int} (hf : SFr Gl V A L m d res quiet sc)
    (hs : Sim G L m (look G Ls md ρ) V σ h) (hx : x ∈ A) (hy : m x = .name y) (hL : x ∈ Ls)
    (hv : look G L 0 σ' y = some v) (ha : ∀ z ∈ sc.used, z ≠ y → σ' z = σ z) :
    Sim G L m (look G Ls md (ρ.set x v)) V σ' h := by
  intro u hu v' hv'
  by_cases hux : u = x
  · subst hux
    simp [look, hL, Env.set] at hv'
    subst hv'
    rw [hy]
    intro tr
    simp [eval, hv]
  · have : look G Ls md (ρ.set x v) u = look G Ls md ρ u := by simp [look, Env.set, hux]
    rw [this] at hv'
    refine (hs u hu v' hv').agree fun z hz => ha z (hf.cov u hu z hz) ?_
    rintro rfl
    exact hf.sep x hx _ hy u hu hux hz

/-- After a change of the cells. -/
theorem Sim.heap {G : Lib} {V L : List Name} {m : Name → Expr} {l : Name → Option Int} {σ : Env} {h h' : Nat → Int}
    (hs : Sim G L m l V σ h) (hp : ∀ x ∈ V, plain (m x) = true) : Sim G L m l V σ h' := by
  intro x hx v hv
  exact Val_plain (m x) (hp x hx) (tr := []) (hs x hx v hv [])

section
variable {G : Lib} {funs : List Func} {q b : Nat → Bool} {Gl L : List Name} {I : Inl}

/-- Arguments that were visited. -/
theorem args_sim (st : Static funs q b Gl I) (hI : Corr G funs q Gl I) {n : Nat} {m : Name → Expr} {l : Name → Option Int}
    {V A : List Name} {d : Option Dest} {res : Option Name} {quiet : Bool} {f : Nat} {args : Exprs} {sc sc1 : Sc} {p : List Stmt}
    {as : List Expr} {σ : Env} {h : Nat → Int} {tr : List (Nat × Int)} {vs : List Int} {w1 : World}
    (hf : SFr Gl V A L m d res quiet sc) (hV : ∀ x ∈ namesA args, x ∈ V)
    (hs : Sim G L m l V σ h) (hc : cleanCall funs q b quiet f args = true) (hv : visitArgs I m args sc = some (p, as, sc1))
    (ht : ∀ y ∈ targets p, y ∈ L) (he : evals G (callN G funs n) l args ⟨h, tr⟩ = some (vs, w1)) :
    w1 = ⟨h, tr⟩ ∧ (∀ a ∈ as, noExt a = true) ∧ (∀ a ∈ as, ∀ y ∈ namesE a, y ∈ sc1.used) ∧
    (q f = true ∨ ∀ a ∈ as, plain a = true) ∧ (quiet = true → q f = true) ∧
    ∃ σ', (∀ tr', Runs G L p σ ⟨h, tr'⟩ σ' ⟨h, tr'⟩) ∧ (∀ y ∈ sc.used, σ' y = σ y) ∧ Vals G (look G L 0 σ') h as vs := by
  simp [cleanCall, and_assoc] at hc
  have hfa : Fr Gl (namesA args) L m sc := hf.toFr.sub hV
  obtain ⟨h1, σ1, r1, g1, v1⟩ := visitArgs_sim st hI args hfa (hs.sub hV) hc.1 hc.2.1 hv ht he
  have hq : quiet = true → q f = true := by
    intro h
    rcases hc.2.2.2.2 with h2 | h2
    · rw [h] at h2; simp at h2
    · exact h2
  refine ⟨h1, (visitArgs_quiet st.quiet args hv hc.1 hfa.ne).2.1 hc.2.1, cov_args st.mono st.name hf.ok hf.gl hfa.cov hv,
    ?_, hq, σ1, r1, g1, v1 σ1 fun _ _ => rfl⟩
  by_cases hqf : q f = true
  · exact .inl hqf
  · right
    rcases hf.heap with h2 | h2
    · exact absurd (hq h2) hqf
    · rcases hc.2.2.2.1 with h3 | h3
      · exact visitArgs_plain args hv h3 fun x hx => h2 x (hV x hx)
      · exact absurd h3 hqf

/-- Where the left-hand side does not appear in the arguments. -/
theorem args_sep (st : Static funs q b Gl I) {m : Name → Expr} {args : Exprs} {sc sc1 : Sc} {p : List Stmt} {as : List Expr} {y : Name}
    (ho : Ok sc) (hv : visitArgs I m args sc = some (p, as, sc1)) (hy : y ∈ sc.used) (hG : y ∉ Gl)
    (h : ∀ u ∈ namesA args, y ∉ namesE (m u)) : ∀ a ∈ as, y ∉ namesE a := by
  intro a ha hya
  rcases visitArgs_names st.mono st.name args ho hv y (.inr ⟨a, ha, hya⟩) with h1 | ⟨u, hu, h1⟩ | ⟨h1, _⟩
  · exact hG h1
  · exact h u hu h1
  · exact h1 hy

theorem visitS_sim (st : Static funs q b Gl I) (hI : Corr G funs q Gl I) {n k md : Nat} {Ls V A : List Name} {m : Name → Expr}
    {d : Option Dest} {params : List Name} {res : Option Name} {quiet : Bool} :
    (s : Stmt) → ∀ {tail : Bool} {sc out sc' σ ρ w o}, SFr Gl V A L m d res quiet sc → (∀ x ∈ namesS s, x ∈ V) →
      (∀ x ∈ s.assigned, x ∈ A) →
      (noRetCall s = false → ∀ y, d = some (.var y) → ∀ u ∈ V, res ≠ some u → y ∉ namesE (m u)) →
      cleanS funs q b params quiet res tail s = true → visitS I m d s sc = some (out, sc') → (∀ y ∈ targets out, y ∈ L) →
      Sim G L m (look G Ls md ρ) V σ w.heap → exec G (callN G funs n) Ls md k s ρ w = some o →
      ∃ σ' w', Runs G L out σ w σ' w' ∧ Post G L Ls md m V d o σ' w'
  | .skip, tail, sc, out, sc', σ, ρ, w, o, hf, hV, hA, hR, hc, hv, ht, hs, he => by
    simp [visitS] at hv
    simp [exec] at he
    subst he
    rw [hv.1]
    exact ⟨σ, w, .nil, rfl, hs⟩
  | .assign x e, tail, sc, out, sc', σ, ρ, ⟨h, tr⟩, o, hf, hV, hA, hR, hc, hv, ht, hs, he => by
    obtain ⟨p, e', y, hve, hy, rfl⟩ := visitS_assign hv
    simp [cleanS] at hc
    simp only [exec] at he
    have hVe : ∀ x ∈ namesE e, x ∈ V := fun u hu => hV u (by simp [namesS, hu])
    cases hee : eval G (callN G funs n) (look G Ls md ρ) e ⟨h, tr⟩ with
    | none => simp [hee] at he
    | some r =>
      obtain ⟨v, w1⟩ := r
      simp only [hee] at he
      obtain ⟨tr1, rfl, σ1, r1, g1, v1⟩ := visitE_sim st hI e (hf.toFr.sub hVe) (hs.sub hVe) hc.1.2 hve
        (fun y hy => ht y (by simp [targets_append, hy])) hee
      split at he
      · rename_i hL
        simp at he
        subst he
        have hyL : y ∈ L := ht y (by simp [targets_append, targets_single, Stmt.assigned])
        refine ⟨σ1.set y v, ⟨h, tr1⟩, (r1 tr).append (.single (k := 0) ?_), rfl, ?_⟩
        · simp [exec, v1 σ1 fun _ _ => rfl, hyL]
        · refine hs.upd hf (hA x (by simp [Stmt.assigned])) hy hL (by simp [look, hyL, Env.set]) fun z hz hne => ?_
          simp [Env.set, hne, g1 z hz]
      · simp at he
  | .store c e, tail, sc, out, sc', σ, ρ, ⟨h, tr⟩, o, hf, hV, hA, hR, hc, hv, ht, hs, he => by
    obtain ⟨p, e', hve, rfl⟩ := visitS_store hv
    simp [cleanS] at hc
    simp only [exec] at he
    have hVe : ∀ x ∈ namesE e, x ∈ V := fun u hu => hV u (by simp [namesS, hu])
    cases hee : eval G (callN G funs n) (look G Ls md ρ) e ⟨h, tr⟩ with
    | none => simp [hee] at he
    | some r =>
      obtain ⟨v, w1⟩ := r
      simp only [hee] at he
      obtain ⟨tr1, rfl, σ1, r1, g1, v1⟩ := visitE_sim st hI e (hf.toFr.sub hVe) (hs.sub hVe) hc.2 hve
        (fun y hy => ht y (by simp [targets_append, hy])) hee
      simp at he
      subst he
      refine ⟨σ1, _, (r1 tr).append (.single (k := 0) ?_), rfl, ?_⟩
      · simp [exec, v1 σ1 fun _ _ => rfl]
      · refine (hs.agree hf.toFr g1).heap ?_
        rcases hf.heap with h1 | h1
        · rw [hc.1] at h1; simp at h1
        · exact h1
  | .call (.var x) f args, tail, sc, out, sc', σ, ρ, ⟨h, tr⟩, o, hf, hV, hA, hR, hc, hv, ht, hs, he => by
    obtain ⟨p, as, sc1, y, oo, ha, hy, hv2, rfl⟩ := visitS_callVar hv
    simp [cleanS] at hc
    simp only [exec] at he
    have hm := visitArgs_mono st.mono args hf.ok ha
    have hxV : x ∈ V := hV x (by simp [namesS])
    have hxA : x ∈ A := hA x (by simp [Stmt.assigned])
    have hyu : y ∈ sc.used := hf.cov x hxV y (by simp [hy, namesE])
    have hVe : ∀ x ∈ namesA args, x ∈ V := fun u hu => hV u (by simp [namesS, hu])
    cases hee : evals G (callN G funs n) (look G Ls md ρ) args ⟨h, tr⟩ with
    | none => simp [hee] at he
    | some r =>
      obtain ⟨vs, w1⟩ := r
      simp only [hee] at he
      obtain ⟨rfl, hne, hcov, hpl, hq, σ1, r1, g1, v1⟩ := args_sim st hI hf hVe hs hc.1.2 ha
        (fun y hy => ht y (by simp [targets_append, hy])) hee
      cases hcl : callN G funs n f vs ⟨h, tr⟩ with
      | none => simp [hcl] at he
      | some r =>
        obtain ⟨rr, w2⟩ := r
        cases rr with
        | none => simp [hcl] at he
        | some v =>
          simp only [hcl] at he
          split at he
          · rename_i hL
            simp at he
            subst he
            obtain ⟨σ2, w', r2, h2, rfl⟩ := hI.s (d := .var y) hf.nl (hm.ok hf.ok) (fun y hy => hm.used y (hf.gl y hy)) hne hcov
              hpl (by
                intro z hz
                simp at hz; subst hz
                refine ⟨hm.used _ hyu, hf.agl x hxA _ hy, ?_⟩
                rcases hc.2 with h3 | h3
                · right
                  refine args_sep st hf.ok ha hyu (hf.agl x hxA _ hy) fun u hu => ?_
                  exact hf.sep x hxA _ hy u (hVe u hu) (fun hh => h3 (hh ▸ hu))
                · exact .inl h3) hv2 (fun y hy => ht y (by simp [targets_append, hy])) v1 hcl
            have hsu : Sim G L m (look G Ls md (ρ.set x v)) V σ2 h := by
              refine hs.upd hf hxA hy hL h2 fun z hz hzy => ?_
              rw [r2.frame fun hz' => hzy ?_, g1 z hz]
              have := st.targ.s (hm.ok hf.ok) hv2 z hz' (hm.used z hz)
              simp at this; exact this.symm
            refine ⟨σ2, w', (r1 tr).append r2, rfl, ?_⟩
            rcases hf.heap with h1 | h1
            · have := (r2.quiet (st.quiet.s hv2 (hq h1) hne)).1
              rw [this]; exact hsu
            · exact hsu.heap h1
          · simp at he
  | .call (.cell c) f args, tail, sc, out, sc', σ, ρ, ⟨h, tr⟩, o, hf, hV, hA, hR, hc, hv, ht, hs, he => by
    obtain ⟨p, as, sc1, oo, ha, hv2, rfl⟩ := visitS_callCell hv
    simp [cleanS] at hc
    simp only [exec] at he
    have hm := visitArgs_mono st.mono args hf.ok ha
    have hVe : ∀ x ∈ namesA args, x ∈ V := fun u hu => hV u (by simp [namesS, hu])
    cases hee : evals G (callN G funs n) (look G Ls md ρ) args ⟨h, tr⟩ with
    | none => simp [hee] at he
    | some r =>
      obtain ⟨vs, w1⟩ := r
      simp only [hee] at he
      obtain ⟨rfl, hne, hcov, hpl, hq, σ1, r1, g1, v1⟩ := args_sim st hI hf hVe hs hc.2 ha
        (fun y hy => ht y (by simp [targets_append, hy])) hee
      cases hcl : callN G funs n f vs ⟨h, tr⟩ with
      | none => simp [hcl] at he
      | some r =>
        obtain ⟨rr, w2⟩ := r
        cases rr with
        | none => simp [hcl] at he
        | some v =>
          simp [hcl] at he
          subst he
          obtain ⟨σ2, w', r2, rfl⟩ := hI.s (d := .cell c) hf.nl (hm.ok hf.ok) (fun y hy => hm.used y (hf.gl y hy)) hne hcov
            hpl (by simp) hv2 (fun y hy => ht y (by simp [targets_append, hy])) v1 hcl
          have hsu : Sim G L m (look G Ls md ρ) V σ2 h := by
            refine hs.agree hf.toFr fun z hz => ?_
            rw [r2.frame fun hz' => ?_, g1 z hz]
            have := st.targ.s (hm.ok hf.ok) hv2 z hz' (hm.used z hz)
            simp at this
          refine ⟨σ2, _, (r1 tr).append r2, rfl, ?_⟩
          rcases hf.heap with h1 | h1
          · rw [hc.1] at h1; simp at h1
          · exact hsu.heap h1
  | .call .drop f args, tail, sc, out, sc', σ, ρ, ⟨h, tr⟩, o, hf, hV, hA, hR, hc, hv, ht, hs, he => by
    obtain ⟨p, as, sc1, oo, ha, hv2, rfl⟩ := visitS_callDrop hv
    simp [cleanS] at hc
    simp only [exec] at he
    have hm := visitArgs_mono st.mono args hf.ok ha
    have hm' := hm.trans Mono.fresh
    have hVe : ∀ x ∈ namesA args, x ∈ V := fun u hu => hV u (by simp [namesS, hu])
    cases hee : evals G (callN G funs n) (look G Ls md ρ) args ⟨h, tr⟩ with
    | none => simp [hee] at he
    | some r =>
      obtain ⟨vs, w1⟩ := r
      simp only [hee] at he
      obtain ⟨rfl, hne, hcov, hpl, hq, σ1, r1, g1, v1⟩ := args_sim st hI hf hVe hs hc ha
        (fun y hy => ht y (by simp [targets_append, hy])) hee
      cases hcl : callN G funs n f vs ⟨h, tr⟩ with
      | none => simp [hcl] at he
      | some r =>
        obtain ⟨rr, w2⟩ := r
        have he' : o = .norm ρ w2 := by
          cases rr <;> simp [hcl] at he <;> exact he.symm
        subst he'
        obtain ⟨σ2, w', r2, h2⟩ := hI.s (d := .var (fresh sc1.used)) hf.nl (hm'.ok hf.ok) (fun y hy => hm'.used y (hf.gl y hy)) hne
          (fun a h3 y h4 => by simp [hcov a h3 y h4])
          hpl (by
            intro z hz
            simp at hz; subst hz
            refine ⟨by simp, fun hg => fresh_not_mem sc1.used (hm.used _ (hf.gl _ hg)), .inr fun a h3 h4 => ?_⟩
            exact fresh_not_mem sc1.used (hcov a h3 _ h4)) hv2 (fun y hy => ht y (by simp [targets_append, hy])) v1 hcl
        have hw : w' = w2 := by
          cases rr with
          | none => exact h2
          | some v => exact h2.2
        subst hw
        have hsu : Sim G L m (look G Ls md ρ) V σ2 h := by
          refine hs.agree hf.toFr fun z hz => ?_
          rw [r2.frame fun hz' => ?_, g1 z hz]
          have := st.targ.s (hm'.ok hf.ok) hv2 z hz' (hm'.used z hz)
          simp at this
          exact fresh_not_mem sc1.used (hm.used _ (this ▸ hz))
        refine ⟨σ2, w', (r1 tr).append r2, rfl, ?_⟩
        rcases hf.heap with h1 | h1
        · have := (r2.quiet (st.quiet.s hv2 (hq h1) hne)).1
          rw [this]; exact hsu
        · exact hsu.heap h1
  | .seq s t, tail, sc, out, sc', σ, ρ, w, o, hf, hV, hA, hR, hc, hv, ht, hs, he => by
    obtain ⟨o1, sc1, o2, hv1, hv2, rfl⟩ := visitS_seq hv
    simp [cleanS] at hc
    simp only [exec] at he
    have hm := visitS_mono st.mono s hf.ok hv1
    cases hes : exec G (callN G funs n) Ls md k s ρ w with
    | none => simp [hes] at he
    | some os =>
      obtain ⟨σ1, w1, r1, p1⟩ := visitS_sim st hI s hf (fun x hx => hV x (by simp [namesS, hx]))
        (fun x hx => hA x (by simp [Stmt.assigned, hx])) (fun h => hR (by simp [noRetCall, h])) hc.1 hv1
        (fun y hy => ht y (by simp [targets_append, hy])) hs hes
      rw [hes] at he
      obtain ⟨ρ1, w1', rfl⟩ := noRet_norm s (clean_noRet s hc.1) hes
      obtain ⟨rfl, hs1⟩ := p1
      obtain ⟨σ2, w2, r2, p2⟩ := visitS_sim st hI t (hf.mono hm) (fun x hx => hV x (by simp [namesS, hx]))
        (fun x hx => hA x (by simp [Stmt.assigned, hx])) (fun h => hR (by simp [noRetCall, h])) hc.2 hv2
        (fun y hy => ht y (by simp [targets_append, hy])) hs1 he
      exact ⟨σ2, w2, r1.append r2, p2⟩
  | .ite c s t, tail, sc, out, sc', σ, ρ, ⟨h, tr⟩, o, hf, hV, hA, hR, hc, hv, ht, hs, he => by
    obtain ⟨p, c', sc1, s', sc2, t', hvc, hv1, hv2, rfl⟩ := visitS_ite hv
    simp [cleanS, and_assoc] at hc
    simp only [exec] at he
    have hVe : ∀ x ∈ namesE c, x ∈ V := fun u hu => hV u (by simp [namesS, hu])
    have hm := visitE_mono st.mono c hf.ok hvc
    have hm2 := visitS_mono st.mono s (hm.ok hf.ok) hv1
    have hts : ∀ y ∈ targets s', y ∈ L := fun y hy => ht y (by
      rw [targets_append, targets_single, Stmt.assigned]
      simp only [List.mem_append]; exact .inr (.inl hy))
    have htt : ∀ y ∈ targets t', y ∈ L := fun y hy => ht y (by
      rw [targets_append, targets_single, Stmt.assigned]
      simp only [List.mem_append]; exact .inr (.inr hy))
    cases hee : eval G (callN G funs n) (look G Ls md ρ) c ⟨h, tr⟩ with
    | none => simp [hee] at he
    | some r =>
      obtain ⟨v, w1⟩ := r
      simp only [hee] at he
      obtain ⟨tr1, rfl, σ1, r1, g1, v1⟩ := visitE_sim st hI c (hf.toFr.sub hVe) (hs.sub hVe) hc.1 hvc
        (fun y hy => ht y (by simp [targets_append, hy])) hee
      have hs1 := hs.agree hf.toFr g1
      have hev := v1 σ1 fun _ _ => rfl
      by_cases h0 : v = 0
      · simp only [h0, if_true] at he
        obtain ⟨σ2, w2, r2, p2⟩ := visitS_sim st hI t (hf.mono (hm.trans hm2)) (fun x hx => hV x (by simp [namesS, hx]))
          (fun x hx => hA x (by simp [Stmt.assigned, hx])) (fun h => hR (by simp [noRetCall, h])) hc.2.2.2 hv2 htt
          (w := ⟨h, tr1⟩) hs1 he
        obtain ⟨j, r2⟩ := r2
        exact ⟨σ2, w2, (r1 tr).append (.single (k := j) (by simp [exec, hev, h0, r2])), p2⟩
      · simp only [h0, if_false] at he
        obtain ⟨σ2, w2, r2, p2⟩ := visitS_sim st hI s (hf.mono hm) (fun x hx => hV x (by simp [namesS, hx]))
          (fun x hx => hA x (by simp [Stmt.assigned, hx])) (fun h => hR (by simp [noRetCall, h])) hc.2.2.1 hv1 hts
          (w := ⟨h, tr1⟩) hs1 he
        obtain ⟨j, r2⟩ := r2
        exact ⟨σ2, w2, (r1 tr).append (.single (k := j) (by simp [exec, hev, h0, r2])), p2⟩
  | .loop c s, tail, sc, out, sc', σ, ρ, w, o, hf, hV, hA, hR, hc, hv, ht, hs, he => by
    obtain ⟨p, c', sc1, s', hvc, hv1, rfl⟩ := visitS_loop hv
    simp [cleanS, and_assoc] at hc
    simp only [exec] at he
    have hVe : ∀ x ∈ namesE c, x ∈ V := fun u hu => hV u (by simp [namesS, hu])
    have hp := (visitE_quiet st.quiet c hvc hc.1 (hf.toFr.sub hVe).ne).2.2 rfl
    subst hp
    have hm := visitE_mono st.mono c hf.ok hvc
    have hts : ∀ y ∈ targets s', y ∈ L := fun y hy => ht y (by
      rw [targets_append, targets_single, Stmt.assigned]
      simp only [List.mem_append]; exact .inr hy)
    suffices H : ∀ (i : Nat) (ρ : Env) (σ : Env) (w : World) (o : Out), Sim G L m (look G Ls md ρ) V σ w.heap →
        iter (fun ρ w => eval G (callN G funs n) (look G Ls md ρ) c w) (fun ρ w => exec G (callN G funs n) Ls md k s ρ w) i ρ w =
          some o → ∃ ρ' σ' w', o = .norm ρ' w' ∧ Sim G L m (look G Ls md ρ') V σ' w'.heap ∧
          ∃ j j', iter (fun ρ w => eval G noCall (look G L 0 ρ) c' w) (fun ρ w => exec G noCall L 0 j (seqs s') ρ w) j' σ w =
            some (.norm σ' w') by
      obtain ⟨ρ', σ', w', rfl, h1, j, j', h2⟩ := H k ρ σ w o hs he
      refine ⟨σ', w', .single (k := max j j') ?_, rfl, h1⟩
      simp only [exec]
      exact iter_mono (fun _ _ _ h => exec_mono (by omega) _ h) (by omega) h2
    intro i
    induction i with
    | zero => intro ρ σ w o _ h; simp [iter] at h
    | succ i ih =>
      rintro ρ σ ⟨h, tr⟩ o hs h1
      simp only [iter] at h1
      cases hee : eval G (callN G funs n) (look G Ls md ρ) c ⟨h, tr⟩ with
      | none => simp [hee] at h1
      | some r =>
        obtain ⟨v, w1⟩ := r
        simp only [hee] at h1
        obtain ⟨tr1, rfl, σ1, r1, g1, v1⟩ := visitE_sim st hI c (hf.toFr.sub hVe) (hs.sub hVe) hc.1 hvc
          (fun y hy => absurd hy not_mem_targets_nil) hee
        have := ((r1 tr).nil_inv).1
        subst this
        have hev := v1 σ1 fun _ _ => rfl
        by_cases h0 : v = 0
        · simp [h0] at h1
          exact ⟨ρ, σ1, ⟨h, tr1⟩, h1.symm, hs, 0, 1, by simp [iter, hev, h0]⟩
        · simp only [h0, if_false] at h1
          cases hes : exec G (callN G funs n) Ls md k s ρ ⟨h, tr1⟩ with
          | none => simp [hes] at h1
          | some os =>
            obtain ⟨ρ1, w1', rfl⟩ := noRet_norm s (clean_noRet s hc.2.2) hes
            obtain ⟨σ2, w2, ⟨j1, r2⟩, rfl, hs2⟩ := visitS_sim st hI s (hf.mono hm) (fun x hx => hV x (by simp [namesS, hx]))
              (fun x hx => hA x (by simp [Stmt.assigned, hx])) (fun h => hR (by simp [noRetCall, h])) hc.2.2 hv1 hts
              (w := ⟨h, tr1⟩) hs hes
            simp only [hes] at h1
            obtain ⟨ρ3, σ3, w3, rfl, hs3, j2, j', h3⟩ := ih _ _ _ _ hs2 h1
            refine ⟨ρ3, σ3, w3, rfl, hs3, max j1 j2, j' + 1, ?_⟩
            simp only [iter, hev, h0, if_false, exec_mono (k' := max j1 j2) (by omega) _ r2]
            exact iter_mono (fun _ _ _ h => exec_mono (by omega) _ h) (by omega) h3
  | .ret e, tail, sc, out, sc', σ, ρ, ⟨h, tr⟩, o, hf, hV, hA, hR, hc, hv, ht, hs, he => by
    have hVe : ∀ x ∈ namesE e, x ∈ V := fun u hu => hV u (by simp [namesS, hu])
    simp only [exec] at he
    cases hee : eval G (callN G funs n) (look G Ls md ρ) e ⟨h, tr⟩ with
    | none => simp [hee] at he
    | some r =>
      obtain ⟨v, w1⟩ := r
      simp [hee] at he
      subst he
      obtain ⟨d', rfl, ⟨h1, ⟨y, rfl⟩, rfl, rfl⟩ | ⟨hn, p, e', hve, rfl⟩⟩ := visitS_ret hv
      · cases e <;> simp [Expr.isName] at h1
        rename_i r
        simp [cleanS] at hc
        have hmr := hf.res y r rfl hc.2
        cases hl : look G Ls md ρ r with
        | none => simp [eval, hl] at hee
        | some u =>
          simp [eval, hl] at hee
          obtain ⟨rfl, rfl⟩ := hee
          have := hs r (hVe r (by simp [namesE])) u hl
          rw [hmr] at this
          have := this tr
          refine ⟨σ, ⟨h, tr⟩, .nil, .var y, rfl, ?_, rfl⟩
          cases hl2 : look G L 0 σ y with
          | none => simp [eval, hl2] at this
          | some u2 => simp [eval, hl2] at this; rw [this]
      · have hc' : cleanE funs q b false e = true := by
          cases e <;> simp [cleanS] at hc <;> first | exact hc.1.2 | simp [cleanE]
        obtain ⟨tr1, rfl, σ1, r1, g1, v1⟩ := visitE_sim st hI e (hf.toFr.sub hVe) (hs.sub hVe) hc' hve
          (fun y hy => ht y (by simp [targets_append, hy])) hee
        have hev := v1 σ1 fun _ _ => rfl
        cases d' with
        | var y =>
          have hyL : y ∈ L := ht y (by simp [targets_append, targets_single, Dest.put, Stmt.assigned])
          exact ⟨σ1.set y v, ⟨h, tr1⟩, (r1 tr).append (.single (k := 0) (by simp [exec, Dest.put, hev, hyL])), .var y, rfl,
            by simp [look, hyL, Env.set], rfl⟩
        | cell c =>
          exact ⟨σ1, _, (r1 tr).append (.single (k := 0) (by simp [exec, Dest.put, hev])), .cell c, rfl, rfl⟩
  | .retCall f args, tail, sc, out, sc', σ, ρ, ⟨h, tr⟩, o, hf, hV, hA, hR, hc, hv, ht, hs, he => by
    obtain ⟨d', p, as, sc1, oo, rfl, ha, hv2, rfl⟩ := visitS_retCall hv
    simp [cleanS, and_assoc] at hc
    simp only [exec] at he
    have hm := visitArgs_mono st.mono args hf.ok ha
    have hVe : ∀ x ∈ namesA args, x ∈ V := fun u hu => hV u (by simp [namesS, hu])
    cases hee : evals G (callN G funs n) (look G Ls md ρ) args ⟨h, tr⟩ with
    | none => simp [hee] at he
    | some r =>
      obtain ⟨vs, w1⟩ := r
      simp only [hee] at he
      obtain ⟨rfl, hne, hcov, hpl, hq, σ1, r1, g1, v1⟩ := args_sim st hI hf hVe hs hc.2.1 ha
        (fun y hy => ht y (by simp [targets_append, hy])) hee
      cases hcl : callN G funs n f vs ⟨h, tr⟩ with
      | none => simp [hcl] at he
      | some r =>
        obtain ⟨rr, w2⟩ := r
        cases rr with
        | none => simp [hcl] at he
        | some v =>
          simp [hcl] at he
          subst he
          obtain ⟨σ2, w', r2, h2⟩ := hI.s (d := d') hf.nl (hm.ok hf.ok) (fun y hy => hm.used y (hf.gl y hy)) hne hcov
            hpl (by
              rintro z rfl
              have hd := hf.dest z rfl
              refine ⟨hm.used _ hd.1, hd.2, ?_⟩
              rcases hc.2.2 with h3 | h3
              · right
                refine args_sep st hf.ok ha hd.1 hd.2 fun u hu => ?_
                refine hR (by simp [noRetCall]) z rfl u (hVe u hu) fun hh => ?_
                rw [hh] at h3
                simp at h3
                exact h3 hu
              · exact .inl h3) hv2 (fun y hy => ht y (by simp [targets_append, hy])) v1 hcl
          exact ⟨σ2, w', (r1 tr).append r2, d', rfl, h2⟩
where
  noRet_norm {G : Lib} {c : Calls} {Ls : List Name} {md k : Nat} : (s : Stmt) → rets s = 0 → ∀ {ρ w o},
      exec G c Ls md k s ρ w = some o → ∃ ρ' w', o = .norm ρ' w'
    | .skip, _, _, _, _, h => by simp [exec] at h; exact ⟨_, _, h.symm⟩
    | .assign _ e, _, ρ, w, o, h => by
      simp only [exec] at h
      cases he : eval G c (look G Ls md ρ) e w with
      | none => simp [he] at h
      | some r =>
        simp only [he] at h
        split at h
        · simp at h; exact ⟨_, _, h.symm⟩
        · simp at h
    | .store _ e, _, ρ, w, o, h => by
      simp only [exec] at h
      cases he : eval G c (look G Ls md ρ) e w with
      | none => simp [he] at h
      | some r => simp [he] at h; exact ⟨_, _, h.symm⟩
    | .call _ _ as, _, ρ, w, o, h => by
      simp only [exec] at h
      cases he : evals G c (look G Ls md ρ) as w with
      | none => simp [he] at h
      | some r =>
        simp only [he] at h
        split at h
        · split at h
          · simp at h; exact ⟨_, _, h.symm⟩
          · simp at h
        · simp at h; exact ⟨_, _, h.symm⟩
        · simp at h; exact ⟨_, _, h.symm⟩
        · simp at h
    | .seq s t, hr, ρ, w, o, h => by
      simp [rets] at hr
      simp only [exec] at h
      cases he : exec G c Ls md k s ρ w with
      | none => simp [he] at h
      | some r =>
        obtain ⟨ρ1, w1, rfl⟩ := noRet_norm s hr.1 he
        rw [he] at h
        exact noRet_norm t hr.2 h
    | .ite e s t, hr, ρ, w, o, h => by
      simp [rets] at hr
      simp only [exec] at h
      cases he : eval G c (look G Ls md ρ) e w with
      | none => simp [he] at h
      | some r =>
        simp only [he] at h
        split at h
        · exact noRet_norm t hr.2 h
        · exact noRet_norm s hr.1 h
    | .loop e s, hr, ρ, w, o, h => by
      simp [rets] at hr
      simp only [exec] at h
      suffices H : ∀ (i : Nat) ρ w, iter (fun ρ w => eval G c (look G Ls md ρ) e w) (fun ρ w => exec G c Ls md k s ρ w) i ρ w =
          some o → ∃ ρ' w', o = .norm ρ' w' from H _ _ _ h
      intro i
      induction i with
      | zero => intro ρ w h; simp [iter] at h
      | succ i ih =>
        intro ρ w h
        simp only [iter] at h
        cases he : eval G c (look G Ls md ρ) e w with
        | none => simp [he] at h
        | some r =>
          simp only [he] at h
          split at h
          · simp at h; exact ⟨_, _, h.symm⟩
          · cases hs : exec G c Ls md k s ρ r.2 with
            | none => simp [hs] at h
            | some os =>
              obtain ⟨ρ1, w1, rfl⟩ := noRet_norm s hr hs
              simp only [hs] at h
              exact ih _ _ h
    | .ret _, hr, _, _, _, _ => by simp [rets] at hr
    | .retCall _ _, hr, _, _, _, _ => by simp [rets] at hr

end

end Verif.Inline.Lemmas
