import Verif.Inline.Clean

/-! # How generated code runs -/

namespace Verif.Inline.Lemmas
open Spec Model

/-- Nothing can be called. -/
abbrev noCall : Calls := fun _ _ _ => none

mutual
/-- Only the names in an expression matter. -/
theorem eval_agree (G : Lib) (c : Calls) {l l' : Name → Option Int} :
    (e : Expr) → (∀ x ∈ namesE e, l x = l' x) → ∀ w, eval G c l e w = eval G c l' e w
  | .lit _, _, _ => by simp [eval]
  | .name x, h, _ => by simp [eval, h x (by simp [namesE])]
  | .glob _ _, _, _ => by simp [eval]
  | .load _, _, _ => by simp [eval]
  | .bin _ a b, h, w => by
    have ha := eval_agree G c a fun x hx => h x (by simp [namesE, hx])
    have hb := eval_agree G c b fun x hx => h x (by simp [namesE, hx])
    simp only [eval, ha, hb]
  | .cond d a b, h, w => by
    have hd := eval_agree G c d fun x hx => h x (by simp [namesE, hx])
    have ha := eval_agree G c a fun x hx => h x (by simp [namesE, hx])
    have hb := eval_agree G c b fun x hx => h x (by simp [namesE, hx])
    simp only [eval, hd, ha, hb]
  | .ext _ e, h, w => by
    have he := eval_agree G c e fun x hx => h x (by simp [namesE, hx])
    simp only [eval, he]
  | .call _ as, h, w => by
    have he := evals_agree G c as fun x hx => h x (by simp [namesE, hx])
    simp only [eval, he]
theorem evals_agree (G : Lib) (c : Calls) {l l' : Name → Option Int} :
    (es : Exprs) → (∀ x ∈ namesA es, l x = l' x) → ∀ w, evals G c l es w = evals G c l' es w
  | .nil, _, _ => by simp [evals]
  | .cons e es, h, w => by
    have he := eval_agree G c e fun x hx => h x (by simp [namesA, hx])
    have hes := evals_agree G c es fun x hx => h x (by simp [namesA, hx])
    simp only [evals, he, hes]
end

/-- The value of an expression in all worlds with the same cells. -/
def Val (G : Lib) (l : Name → Option Int) (e : Expr) (h : Nat → Int) (v : Int) : Prop :=
  ∀ tr, eval G noCall l e ⟨h, tr⟩ = some (v, ⟨h, tr⟩)

theorem eval_heap (G : Lib) (l : Name → Option Int) :
    (e : Expr) → ∀ {w v w'}, eval G noCall l e w = some (v, w') → w'.heap = w.heap
  | .lit _, w, v, w', h => by simp [eval] at h; rw [h.2]
  | .name x, w, v, w', h => by
    cases hx : l x <;> simp [eval, hx] at h
    rw [h.2]
  | .glob m x, w, v, w', h => by
    cases hx : G.glob m x <;> simp [eval, hx] at h
    rw [h.2]
  | .load _, w, v, w', h => by simp [eval] at h; rw [h.2]
  | .bin op a b, w, v, w', h => by
    simp only [eval] at h
    cases ha : eval G noCall l a w with
    | none => simp [ha] at h
    | some p =>
      cases hb : eval G noCall l b p.2 with
      | none => simp [ha, hb] at h
      | some r =>
        cases ho : G.op op p.1 r.1 with
        | none => simp [ha, hb, ho] at h
        | some v' =>
          simp [ha, hb, ho] at h
          rw [← h.2, eval_heap G l b hb, eval_heap G l a ha]
  | .cond c a b, w, v, w', h => by
    simp only [eval] at h
    cases hc : eval G noCall l c w with
    | none => simp [hc] at h
    | some p =>
      simp only [hc] at h
      split at h
      · rw [eval_heap G l b h, eval_heap G l c hc]
      · rw [eval_heap G l a h, eval_heap G l c hc]
  | .ext k e, w, v, w', h => by
    simp only [eval] at h
    cases he : eval G noCall l e w with
    | none => simp [he] at h
    | some p =>
      simp [he] at h
      rw [← h.2]
      exact eval_heap G l e (w' := p.2) he
  | .call f as, w, v, w', h => by
    simp only [eval] at h
    cases he : evals G noCall l as w <;> simp [he] at h

/-- An expression without `ext` changes nothing, and does not depend on what was called. -/
theorem eval_noExt (G : Lib) (l : Name → Option Int) :
    (e : Expr) → noExt e → ∀ {h tr v w'}, eval G noCall l e ⟨h, tr⟩ = some (v, w') →
      w' = ⟨h, tr⟩ ∧ Val G l e h v
  | .lit _, _, h, tr, v, w', he => by
    simp [eval] at he; exact ⟨he.2.symm, fun _ => by simp [eval, he.1]⟩
  | .name x, _, h, tr, v, w', he => by
    cases hx : l x <;> simp [eval, hx] at he
    exact ⟨he.2.symm, fun _ => by simp [eval, hx, he.1]⟩
  | .glob m x, _, h, tr, v, w', he => by
    cases hx : G.glob m x <;> simp [eval, hx] at he
    exact ⟨he.2.symm, fun _ => by simp [eval, hx, he.1]⟩
  | .load _, _, h, tr, v, w', he => by
    simp [eval] at he; exact ⟨he.2.symm, fun _ => by simp [eval, he.1]⟩
  | .bin op a b, hn, h, tr, v, w', he => by
    simp [noExt] at hn
    simp only [eval] at he
    cases ha : eval G noCall l a ⟨h, tr⟩ with
    | none => simp [ha] at he
    | some p =>
      obtain ⟨u, w1⟩ := p
      obtain ⟨ha1, ha2⟩ := eval_noExt G l a hn.1 ha
      subst ha1
      cases hb : eval G noCall l b ⟨h, tr⟩ with
      | none => simp [ha, hb] at he
      | some r =>
        obtain ⟨u2, w2⟩ := r
        obtain ⟨hb1, hb2⟩ := eval_noExt G l b hn.2 hb
        subst hb1
        cases ho : G.op op u u2 with
        | none => simp [ha, hb, ho] at he
        | some v' =>
          simp [ha, hb, ho] at he
          refine ⟨he.2.symm, fun tr' => ?_⟩
          simp [eval, ha2 tr', hb2 tr', ho, he.1]
  | .cond c a b, hn, h, tr, v, w', he => by
    simp [noExt, and_assoc] at hn
    simp only [eval] at he
    cases hc : eval G noCall l c ⟨h, tr⟩ with
    | none => simp [hc] at he
    | some p =>
      obtain ⟨u, w1⟩ := p
      obtain ⟨hc1, hc2⟩ := eval_noExt G l c hn.1 hc
      subst hc1
      simp only [hc] at he
      split at he
      · rename_i hu
        obtain ⟨hb1, hb2⟩ := eval_noExt G l b hn.2.2 he
        exact ⟨hb1, fun tr' => by simp [eval, hc2 tr', hu, hb2 tr']⟩
      · rename_i hu
        obtain ⟨hb1, hb2⟩ := eval_noExt G l a hn.2.1 he
        exact ⟨hb1, fun tr' => by simp [eval, hc2 tr', hu, hb2 tr']⟩
  | .ext _ _, hn, _, _, _, _, _ => by simp [noExt] at hn
  | .call f as, _, h, tr, v, w', he => by
    simp only [eval] at he
    cases hs : evals G noCall l as ⟨h, tr⟩ <;> simp [hs] at he

/-- The value of a plain expression does not depend on the cells. -/
theorem Val_plain {G : Lib} {l : Name → Option Int} :
    (e : Expr) → plain e → ∀ {h h' : Nat → Int} {tr v}, eval G noCall l e ⟨h, tr⟩ = some (v, ⟨h, tr⟩) → Val G l e h' v
  | .lit _, _, h, h', tr, v, he => by simp [eval] at he; intro; simp [eval, he]
  | .name x, _, h, h', tr, v, he => by
    cases hx : l x <;> simp [eval, hx] at he
    intro; simp [eval, hx, he]
  | .glob m x, _, h, h', tr, v, he => by
    cases hx : G.glob m x <;> simp [eval, hx] at he
    intro; simp [eval, hx, he]
  | .load _, hn, _, _, _, _, _ => by simp [plain] at hn
  | .bin op a b, hn, h, h', tr, v, he => by
    simp [plain] at hn
    simp only [eval] at he
    cases ha : eval G noCall l a ⟨h, tr⟩ with
    | none => simp [ha] at he
    | some p =>
      obtain ⟨u, w1⟩ := p
      have ha1 := (eval_noExt G l a (noExt_of_plain a hn.1) ha).1
      subst ha1
      cases hb : eval G noCall l b ⟨h, tr⟩ with
      | none => simp [ha, hb] at he
      | some r =>
        obtain ⟨u2, w2⟩ := r
        have hb1 := (eval_noExt G l b (noExt_of_plain b hn.2) hb).1
        subst hb1
        cases ho : G.op op u u2 with
        | none => simp [ha, hb, ho] at he
        | some v' =>
          simp [ha, hb, ho] at he
          intro tr'
          simp [eval, Val_plain a hn.1 ha tr', Val_plain b hn.2 hb tr', ho, he]
  | .cond c a b, hn, h, h', tr, v, he => by
    simp [plain, and_assoc] at hn
    simp only [eval] at he
    cases hc : eval G noCall l c ⟨h, tr⟩ with
    | none => simp [hc] at he
    | some p =>
      obtain ⟨u, w1⟩ := p
      have hc1 := (eval_noExt G l c (noExt_of_plain c hn.1) hc).1
      subst hc1
      simp only [hc] at he
      intro tr'
      split at he
      · rename_i hu
        simp [eval, Val_plain c hn.1 hc tr', hu, Val_plain b hn.2.2 he tr']
      · rename_i hu
        simp [eval, Val_plain c hn.1 hc tr', hu, Val_plain a hn.2.1 he tr']
  | .ext _ _, hn, _, _, _, _, _ => by simp [plain] at hn
  | .call _ _, hn, _, _, _, _, _ => by simp [plain] at hn
where
  noExt_of_plain : (e : Expr) → plain e → noExt e
    | .lit _, _ => by simp [noExt]
    | .name _, _ => by simp [noExt]
    | .glob _ _, _ => by simp [noExt]
    | .load _, _ => by simp [noExt]
    | .bin _ a b, h => by
      simp [plain] at h; simp [noExt, noExt_of_plain a h.1, noExt_of_plain b h.2]
    | .cond c a b, h => by
      simp [plain, and_assoc] at h
      simp [noExt, noExt_of_plain c h.1, noExt_of_plain a h.2.1, noExt_of_plain b h.2.2]
    | .ext _ _, h => by simp [plain] at h
    | .call _ _, h => by simp [plain] at h

theorem iter_mono {c : Env → World → Option (Int × World)} {b b' : Env → World → Option Out}
    (hb : ∀ ρ w o, b ρ w = some o → b' ρ w = some o) :
    ∀ {k k' : Nat}, k ≤ k' → ∀ {ρ w o}, iter c b k ρ w = some o → iter c b' k' ρ w = some o
  | 0, _, _, _, _, _, h => by simp [iter] at h
  | k + 1, 0, hk, _, _, _, _ => by omega
  | k + 1, k' + 1, hk, ρ, w, o, h => by
    simp only [iter] at h ⊢
    cases hc : c ρ w with
    | none => simp [hc] at h
    | some p =>
      simp only [hc] at h ⊢
      split
      · rename_i h0; simpa [h0] using h
      · rename_i h0
        simp only [h0, if_false] at h
        cases hr : b ρ p.2 with
        | none => simp [hr] at h
        | some r =>
          rw [hb _ _ _ hr]
          rw [hr] at h
          cases r with
          | norm ρ2 w2 => exact iter_mono hb (by omega) h
          | ret v w2 => exact h

/-- More rounds do not change the end. -/
theorem exec_mono {G : Lib} {c : Calls} {L : List Name} {m k k' : Nat} (hk : k ≤ k') :
    (s : Stmt) → ∀ {ρ w o}, exec G c L m k s ρ w = some o → exec G c L m k' s ρ w = some o
  | .skip, _, _, _, h => by simpa [exec] using h
  | .assign _ _, _, _, _, h => by simpa [exec] using h
  | .store _ _, _, _, _, h => by simpa [exec] using h
  | .call _ _ _, _, _, _, h => by simpa [exec] using h
  | .seq s t, ρ, w, o, h => by
    simp only [exec] at h ⊢
    cases hs : exec G c L m k s ρ w with
    | none => simp [hs] at h
    | some r =>
      rw [exec_mono hk s hs]
      rw [hs] at h
      cases r with
      | norm ρ1 w1 => exact exec_mono hk t h
      | ret v w1 => exact h
  | .ite e s t, ρ, w, o, h => by
    simp only [exec] at h ⊢
    cases he : eval G c (look G L m ρ) e w with
    | none => simp [he] at h
    | some p =>
      simp only [he] at h ⊢
      split
      · rename_i h0; simp only [h0, if_true] at h; exact exec_mono hk t h
      · rename_i h0; simp only [h0, if_false] at h; exact exec_mono hk s h
  | .loop e s, ρ, w, o, h => by
    simp only [exec] at h ⊢
    exact iter_mono (fun _ _ _ h => exec_mono hk s h) hk h
  | .ret _, _, _, _, h => by simpa [exec] using h
  | .retCall _ _, _, _, _, h => by simpa [exec] using h

theorem iter_frame {c : Env → World → Option (Int × World)} {b : Env → World → Option Out} {x : Name}
    (hb : ∀ ρ w ρ' w', b ρ w = some (.norm ρ' w') → ρ' x = ρ x) :
    ∀ {k : Nat} {ρ w ρ' w'}, iter c b k ρ w = some (.norm ρ' w') → ρ' x = ρ x
  | 0, _, _, _, _, h => by simp [iter] at h
  | k + 1, ρ, w, ρ', w', h => by
    simp only [iter] at h
    cases hc : c ρ w with
    | none => simp [hc] at h
    | some p =>
      simp only [hc] at h
      split at h
      · simp at h; rw [h.1]
      · cases hr : b ρ p.2 with
        | none => simp [hr] at h
        | some r =>
          rw [hr] at h
          cases r with
          | norm ρ2 w2 => rw [iter_frame hb h, hb _ _ _ _ hr]
          | ret v w2 => simp at h

/-- Variables that are not assigned do not change. -/
theorem exec_frame {G : Lib} {c : Calls} {L : List Name} {m k : Nat} {x : Name} :
    (s : Stmt) → x ∉ s.assigned → ∀ {ρ w ρ' w'}, exec G c L m k s ρ w = some (.norm ρ' w') → ρ' x = ρ x
  | .skip, _, _, _, _, _, h => by simp [exec] at h; rw [h.1]
  | .assign y e, hx, ρ, w, ρ', w', h => by
    simp [Stmt.assigned] at hx
    simp only [exec] at h
    cases he : eval G c (look G L m ρ) e w with
    | none => simp [he] at h
    | some p =>
      simp only [he] at h
      split at h
      · simp at h; rw [← h.1]; simp [Env.set, hx]
      · simp at h
  | .store y e, hx, ρ, w, ρ', w', h => by
    simp only [exec] at h
    cases he : eval G c (look G L m ρ) e w with
    | none => simp [he] at h
    | some p => simp [he] at h; rw [h.1]
  | .call l f as, hx, ρ, w, ρ', w', h => by
    simp only [exec] at h
    cases he : evals G c (look G L m ρ) as w with
    | none => simp [he] at h
    | some p =>
      simp only [he] at h
      split at h
      · rename_i y _
        split at h
        · simp at h
          simp [Stmt.assigned] at hx
          rw [← h.1]; simp [Env.set, hx]
        · simp at h
      · simp at h; rw [h.1]
      · simp at h; rw [h.1]
      · simp at h
  | .seq s t, hx, ρ, w, ρ', w', h => by
    simp [Stmt.assigned] at hx
    simp only [exec] at h
    cases hs : exec G c L m k s ρ w with
    | none => simp [hs] at h
    | some r =>
      rw [hs] at h
      cases r with
      | norm ρ1 w1 => rw [exec_frame t hx.2 h, exec_frame s hx.1 hs]
      | ret v w1 => simp at h
  | .ite e s t, hx, ρ, w, ρ', w', h => by
    simp [Stmt.assigned] at hx
    simp only [exec] at h
    cases he : eval G c (look G L m ρ) e w with
    | none => simp [he] at h
    | some p =>
      simp only [he] at h
      split at h
      · exact exec_frame t hx.2 h
      · exact exec_frame s hx.1 h
  | .loop e s, hx, ρ, w, ρ', w', h => by
    simp [Stmt.assigned] at hx
    simp only [exec] at h
    exact iter_frame (fun _ _ _ _ h => exec_frame s hx h) h
  | .ret e, hx, ρ, w, ρ', w', h => by
    simp only [exec] at h
    cases he : eval G c (look G L m ρ) e w <;> simp [he] at h
  | .retCall f as, hx, ρ, w, ρ', w', h => by
    simp only [exec] at h
    cases he : evals G c (look G L m ρ) as w with
    | none => simp [he] at h
    | some p =>
      simp only [he] at h
      split at h <;> simp at h

/-- Statements without effects on the world. -/
def quietS : Stmt → Bool
  | .skip => true
  | .assign _ e => noExt e
  | .seq s t => quietS s && quietS t
  | .ite c s t => noExt c && quietS s && quietS t
  | .loop c s => noExt c && quietS s
  | _ => false

theorem exec_quiet {G : Lib} {L : List Name} {m k : Nat} :
    (s : Stmt) → quietS s → ∀ {ρ h tr o}, exec G noCall L m k s ρ ⟨h, tr⟩ = some o →
      ∃ ρ', o = .norm ρ' ⟨h, tr⟩ ∧ ∀ tr', exec G noCall L m k s ρ ⟨h, tr'⟩ = some (.norm ρ' ⟨h, tr'⟩)
  | .skip, _, ρ, h, tr, o, he => by
    simp [exec] at he; exact ⟨ρ, he.symm, fun _ => by simp [exec]⟩
  | .assign x e, hq, ρ, h, tr, o, he => by
    simp only [exec] at he
    cases hv : eval G noCall (look G L m ρ) e ⟨h, tr⟩ with
    | none => simp [hv] at he
    | some p =>
      obtain ⟨v, w1⟩ := p
      obtain ⟨h1, h2⟩ := eval_noExt G _ e hq hv
      subst h1
      simp only [hv] at he
      split at he
      · rename_i hx
        simp at he
        exact ⟨_, he.symm, fun tr' => by simp [exec, h2 tr', hx]⟩
      · simp at he
  | .seq s t, hq, ρ, h, tr, o, he => by
    simp [quietS] at hq
    simp only [exec] at he
    cases hs : exec G noCall L m k s ρ ⟨h, tr⟩ with
    | none => simp [hs] at he
    | some r =>
      obtain ⟨ρ1, rfl, h2⟩ := exec_quiet s hq.1 hs
      rw [hs] at he
      obtain ⟨ρ2, rfl, h3⟩ := exec_quiet t hq.2 he
      exact ⟨ρ2, rfl, fun tr' => by simp [exec, h2 tr', h3 tr']⟩
  | .ite c s t, hq, ρ, h, tr, o, he => by
    simp [quietS, and_assoc] at hq
    simp only [exec] at he
    cases hv : eval G noCall (look G L m ρ) c ⟨h, tr⟩ with
    | none => simp [hv] at he
    | some p =>
      obtain ⟨v, w1⟩ := p
      obtain ⟨h1, h2⟩ := eval_noExt G _ c hq.1 hv
      subst h1
      simp only [hv] at he
      split at he
      · rename_i hv
        obtain ⟨ρ2, rfl, h3⟩ := exec_quiet t hq.2.2 he
        exact ⟨ρ2, rfl, fun tr' => by simp [exec, h2 tr', hv, h3 tr']⟩
      · rename_i hv
        obtain ⟨ρ2, rfl, h3⟩ := exec_quiet s hq.2.1 he
        exact ⟨ρ2, rfl, fun tr' => by simp [exec, h2 tr', hv, h3 tr']⟩
  | .loop c s, hq, ρ, h, tr, o, he => by
    simp [quietS] at hq
    simp only [exec] at he ⊢
    have hb : ∀ {ρ h tr o}, exec G noCall L m k s ρ ⟨h, tr⟩ = some o →
      ∃ ρ', o = .norm ρ' ⟨h, tr⟩ ∧ ∀ tr', exec G noCall L m k s ρ ⟨h, tr'⟩ = some (.norm ρ' ⟨h, tr'⟩) :=
      exec_quiet s hq.2
    suffices H : ∀ (n : Nat) ρ o, iter (fun ρ w => eval G noCall (look G L m ρ) c w)
        (fun ρ w => exec G noCall L m k s ρ w) n ρ ⟨h, tr⟩ = some o → ∃ ρ', o = .norm ρ' ⟨h, tr⟩ ∧ ∀ tr',
        iter (fun ρ w => eval G noCall (look G L m ρ) c w)
        (fun ρ w => exec G noCall L m k s ρ w) n ρ ⟨h, tr'⟩ = some (.norm ρ' ⟨h, tr'⟩) from H _ _ _ he
    intro n
    induction n with
    | zero => intro ρ o ho; simp [iter] at ho
    | succ n ih =>
      intro ρ o ho
      simp only [iter] at ho
      cases hv : eval G noCall (look G L m ρ) c ⟨h, tr⟩ with
      | none => simp [hv] at ho
      | some p =>
        obtain ⟨v, w1⟩ := p
        obtain ⟨h1, h2⟩ := eval_noExt G _ c hq.1 hv
        subst h1
        simp only [hv] at ho
        split at ho
        · rename_i h0
          simp at ho
          exact ⟨ρ, ho.symm, fun tr' => by simp [iter, h2 tr', h0]⟩
        · rename_i h0
          cases hr : exec G noCall L m k s ρ ⟨h, tr⟩ with
          | none => simp [hr] at ho
          | some r =>
            obtain ⟨ρ1, rfl, h3⟩ := hb hr
            simp only [hr] at ho
            obtain ⟨ρ2, rfl, h4⟩ := ih _ _ ho
            exact ⟨ρ2, rfl, fun tr' => by simp [iter, h2 tr', h0, h3 tr', h4 tr']⟩

/-- Blocks one after the other. -/
theorem exec_append {G : Lib} {c : Calls} {L : List Name} {m k : Nat} {t : List Stmt} :
    ∀ (s : List Stmt) {ρ w ρ1 w1 o}, exec G c L m k (seqs s) ρ w = some (.norm ρ1 w1) →
      exec G c L m k (seqs t) ρ1 w1 = some o → exec G c L m k (seqs (s ++ t)) ρ w = some o
  | [], ρ, w, ρ1, w1, o, h1, h2 => by simp [seqs, exec] at h1; rw [h1.1, h1.2]; exact h2
  | a :: s, ρ, w, ρ1, w1, o, h1, h2 => by
    simp only [seqs, exec, List.cons_append] at h1 ⊢
    cases ha : exec G c L m k a ρ w with
    | none => simp [ha] at h1
    | some r =>
      rw [ha] at h1
      cases r with
      | norm ρ2 w2 => exact exec_append s h1 h2
      | ret v w2 => simp at h1

theorem exec_single {G : Lib} {c : Calls} {L : List Name} {m k : Nat} {s : Stmt} {ρ w ρ1 w1}
    (h : exec G c L m k s ρ w = some (.norm ρ1 w1)) : exec G c L m k (seqs [s]) ρ w = some (.norm ρ1 w1) := by
  simp [seqs, exec, h]

/-- There is a number of rounds for which the statements end with `σ'` and `w'`. -/
def Runs (G : Lib) (L : List Name) (ss : List Stmt) (σ : Env) (w : World) (σ' : Env) (w' : World) : Prop :=
  ∃ k, exec G noCall L 0 k (seqs ss) σ w = some (.norm σ' w')

theorem Runs.nil {G : Lib} {L : List Name} {σ : Env} {w : World} : Runs G L [] σ w σ w := ⟨0, by simp [seqs, exec]⟩

theorem Runs.append {G : Lib} {L : List Name} {s t : List Stmt} {σ σ1 σ2 : Env} {w w1 w2 : World}
    (h1 : Runs G L s σ w σ1 w1) (h2 : Runs G L t σ1 w1 σ2 w2) : Runs G L (s ++ t) σ w σ2 w2 := by
  obtain ⟨k1, h1⟩ := h1
  obtain ⟨k2, h2⟩ := h2
  exact ⟨max k1 k2, exec_append s (exec_mono (by omega) _ h1) (exec_mono (by omega) _ h2)⟩

theorem Runs.single {G : Lib} {L : List Name} {s : Stmt} {k : Nat} {σ σ1 : Env} {w w1 : World}
    (h : exec G noCall L 0 k s σ w = some (.norm σ1 w1)) : Runs G L [s] σ w σ1 w1 := ⟨k, exec_single h⟩

theorem Runs.frame {G : Lib} {L : List Name} {ss : List Stmt} {σ σ' : Env} {w w' : World}
    (h : Runs G L ss σ w σ' w') {x : Name} (hx : x ∉ targets ss) : σ' x = σ x := by
  obtain ⟨k, h⟩ := h
  exact exec_frame _ hx h

theorem Runs.quiet {G : Lib} {L : List Name} {ss : List Stmt} {σ σ' : Env} {h : Nat → Int} {tr : List (Nat × Int)} {w' : World}
    (hq : quietS (seqs ss)) (hr : Runs G L ss σ ⟨h, tr⟩ σ' w') :
    w' = ⟨h, tr⟩ ∧ ∀ tr', Runs G L ss σ ⟨h, tr'⟩ σ' ⟨h, tr'⟩ := by
  obtain ⟨k, hk⟩ := hr
  obtain ⟨ρ', h1, h2⟩ := exec_quiet _ hq hk
  simp at h1
  exact ⟨h1.2, fun tr' => ⟨k, by rw [h1.1]; exact h2 tr'⟩⟩

theorem quiet_append {s t : List Stmt} : quietS (seqs (s ++ t)) = (quietS (seqs s) && quietS (seqs t)) := by
  induction s with
  | nil => simp [seqs, quietS]
  | cons a s ih => simp [seqs, quietS, ih, Bool.and_assoc]

theorem targets_append {s t : List Stmt} : targets (s ++ t) = targets s ++ targets t := by
  induction s with
  | nil => simp [targets, seqs, Stmt.assigned]
  | cons a s ih => simp only [targets, seqs, Stmt.assigned, List.cons_append] at ih ⊢; simp [ih]

theorem targets_single {s : Stmt} : targets [s] = s.assigned := by simp [targets, seqs, Stmt.assigned]

end Verif.Inline.Lemmas
