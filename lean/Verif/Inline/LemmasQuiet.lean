import Verif.Inline.LemmasNames

/-! # When generated code has no effects, and variables are declared -/

namespace Verif.Inline.Lemmas
open Spec Model

/-- The functions meet their conditions. -/
def CleanFuns (funs : List Func) (q b : Nat → Bool) : Prop :=
  ∀ f F, funs[f]? = some F → F.params.Nodup ∧ cleanS funs q b F.params (q f) (resName F) true F.body = true ∧
    (b f = true → bare funs q b F.body = true)

section
variable {funs : List Func} {q b : Nat → Bool} {params : List Name} {quiet : Bool} {res : Option Name}

theorem clean_params {tail : Bool} : (s : Stmt) → cleanS funs q b params quiet res tail s = true → ∀ x ∈ params, x ∉ s.assigned
  | .skip, _, _, _ => by simp [Stmt.assigned]
  | .assign y e, h, x, hx => by
    simp [cleanS] at h
    simp [Stmt.assigned]
    intro he; exact h.1.1 (he ▸ hx)
  | .store _ _, _, _, _ => by simp [Stmt.assigned]
  | .call (.var y) _ _, h, x, hx => by
    simp [cleanS] at h
    simp [Stmt.assigned]
    intro he; exact h.1.1 (he ▸ hx)
  | .call (.cell _) _ _, _, _, _ => by simp [Stmt.assigned]
  | .call .drop _ _, _, _, _ => by simp [Stmt.assigned]
  | .seq s t, h, x, hx => by
    simp [cleanS] at h
    simp [Stmt.assigned, clean_params s h.1 x hx, clean_params t h.2 x hx]
  | .ite c s t, h, x, hx => by
    simp [cleanS, and_assoc] at h
    simp [Stmt.assigned, clean_params s h.2.2.1 x hx, clean_params t h.2.2.2 x hx]
  | .loop c s, h, x, hx => by
    simp [cleanS, and_assoc] at h
    simp [Stmt.assigned, clean_params s h.2.2 x hx]
  | .ret _, _, _, _ => by simp [Stmt.assigned]
  | .retCall _ _, _, _, _ => by simp [Stmt.assigned]

theorem clean_noRet : (s : Stmt) → cleanS funs q b params quiet res false s = true → rets s = 0
  | .skip, _ => by simp [rets]
  | .assign y e, h => by simp [rets]
  | .store _ _, _ => by simp [rets]
  | .call _ _ _, _ => by simp [rets]
  | .seq s t, h => by
    simp [cleanS] at h
    simp [rets, clean_noRet s h.1, clean_noRet t h.2]
  | .ite c s t, h => by
    simp [cleanS, and_assoc] at h
    simp [rets, clean_noRet s h.2.2.1, clean_noRet t h.2.2.2]
  | .loop c s, h => by
    simp [cleanS, and_assoc] at h
    simp [rets, clean_noRet s h.2.2]
  | .ret e, h => by cases e <;> simp [cleanS] at h
  | .retCall _ _, h => by simp [cleanS] at h
end

theorem CleanFuns.kept {funs : List Func} {q b : Nat → Bool} (hC : CleanFuns funs q b) : ParamsKept funs := by
  intro F hF
  obtain ⟨f, hf⟩ := List.getElem?_of_mem hF
  exact clean_params _ (hC f F hf).2.1

structure IQuiet (q b : Nat → Bool) (I : Inl) : Prop where
  s : ∀ {sc y f as out sc'}, I.s sc (.var y) f as = some (out, sc') → q f = true → (∀ a ∈ as, noExt a = true) →
    quietS (seqs out) = true
  e : ∀ {sc f as out e sc'}, I.e sc f as = some (out, e, sc') → q f = true → (∀ a ∈ as, noExt a = true) →
    quietS (seqs out) = true ∧ noExt e = true ∧ (b f = true → out = [])

mutual
theorem visitE_quiet {funs : List Func} {q b : Nat → Bool} {I : Inl} (hI : IQuiet q b I) {m : Name → Expr} {st : Bool} :
    (e : Expr) → ∀ {sc p e' sc'}, visitE I m e sc = some (p, e', sc') → cleanE funs q b st e = true →
      (∀ x ∈ namesE e, noExt (m x) = true) →
      quietS (seqs p) = true ∧ (noExt e = true → noExt e' = true) ∧ (st = true → p = [])
  | .lit _, _, _, _, _, h, _, _ => by
    simp [visitE] at h; rw [h.1, ← h.2.1]; simp [seqs, quietS]
  | .name x, _, _, _, _, h, _, hm => by
    simp [visitE] at h; rw [h.1, ← h.2.1]; simp [seqs, quietS, hm x (by simp [namesE])]
  | .glob _ _, _, _, _, _, h, _, _ => by
    simp [visitE] at h; rw [h.1, ← h.2.1]; simp [seqs, quietS]
  | .load _, _, _, _, _, h, _, _ => by
    simp [visitE] at h; rw [h.1, ← h.2.1]; simp [seqs, quietS]
  | .bin _ a c, sc, _, _, sc', h, hc, hm => by
    obtain ⟨p1, a', sc1, p2, b', ha, hb, rfl, rfl⟩ := visitE_bin h
    simp [cleanE] at hc
    obtain ⟨h1, h2, h3⟩ := visitE_quiet hI a ha hc.1 fun x hx => hm x (by simp [namesE, hx])
    obtain ⟨h4, h5, h6⟩ := visitE_quiet hI c hb hc.2 fun x hx => hm x (by simp [namesE, hx])
    refine ⟨by simp [quiet_append, h1, h4], fun hn => ?_, fun hs => by simp [h3 hs, h6 hs]⟩
    simp [noExt] at hn
    simp [noExt, h2 hn.1, h5 hn.2]
  | .cond c x y, sc, _, _, sc', h, hc, hm => by
    obtain ⟨p1, a', sc1, p2, c', sc2, p3, b', ha, hcc, hb, rfl, rfl⟩ := visitE_cond h
    simp [cleanE, and_assoc] at hc
    obtain ⟨h1, h2, h3⟩ := visitE_quiet hI x ha hc.2.1 fun x hx => hm x (by simp [namesE, hx])
    obtain ⟨h4, h5, h6⟩ := visitE_quiet hI c hcc hc.1 fun x hx => hm x (by simp [namesE, hx])
    obtain ⟨h7, h8, h9⟩ := visitE_quiet hI y hb hc.2.2 fun x hx => hm x (by simp [namesE, hx])
    refine ⟨by simp [quiet_append, h1, h4, h7], fun hn => ?_, fun hs => by simp [h3, h6 hs, h9]⟩
    simp [noExt, and_assoc] at hn
    simp [noExt, h5 hn.1, h2 hn.2.1, h8 hn.2.2]
  | .ext _ e, sc, _, _, _, h, hc, hm => by
    obtain ⟨e1, he, rfl⟩ := visitE_ext h
    simp [cleanE] at hc
    obtain ⟨h1, h2, h3⟩ := visitE_quiet hI e he hc fun x hx => hm x (by simp [namesE, hx])
    exact ⟨h1, by simp [noExt], h3⟩
  | .call f args, sc, _, e', sc', h, hc, hm => by
    obtain ⟨p1, as, sc1, p2, ha, hb, rfl⟩ := visitE_call h
    simp [cleanE, and_assoc] at hc
    obtain ⟨h1, h2, h3⟩ := visitArgs_quiet hI args ha hc.2.2.1 fun x hx => hm x (by simp [namesE, hx])
    obtain ⟨h4, h5, h6⟩ := hI.e hb hc.1 (h2 hc.2.2.2.1)
    refine ⟨by simp [quiet_append, h1, h4], fun _ => h5, fun hs => ?_⟩
    have : b f = true := by
      rcases hc.2.1 with h | h
      · rw [hs] at h; simp at h
      · exact h
    simp [h3 hs, h6 this]
theorem visitArgs_quiet {funs : List Func} {q b : Nat → Bool} {I : Inl} (hI : IQuiet q b I) {m : Name → Expr} {st : Bool} :
    (es : Exprs) → ∀ {sc p es' sc'}, visitArgs I m es sc = some (p, es', sc') → cleanA funs q b st es = true →
      (∀ x ∈ namesA es, noExt (m x) = true) →
      quietS (seqs p) = true ∧ (noExtA es = true → ∀ a ∈ es', noExt a = true) ∧ (st = true → p = [])
  | .nil, _, _, _, _, h, _, _ => by
    simp [visitArgs] at h; rw [h.1, h.2.1]; simp [seqs, quietS]
  | .cons a c, sc, _, _, _, h, hc, hm => by
    obtain ⟨p1, a', sc1, p2, b', ha, hb, rfl, rfl⟩ := visitArgs_cons h
    simp [cleanA] at hc
    obtain ⟨h1, h2, h3⟩ := visitE_quiet hI a ha hc.1 fun x hx => hm x (by simp [namesA, hx])
    obtain ⟨h4, h5, h6⟩ := visitArgs_quiet hI c hb hc.2 fun x hx => hm x (by simp [namesA, hx])
    refine ⟨by simp [quiet_append, h1, h4], fun hn => ?_, fun hs => by simp [h3 hs, h6 hs]⟩
    simp [noExtA] at hn
    simp only [List.mem_cons, forall_eq_or_imp]
    exact ⟨h2 hn.1, h5 hn.2⟩
end

theorem quiet_single {s : Stmt} : quietS (seqs [s]) = quietS s := by simp [seqs, quietS]

theorem visitS_quiet {funs : List Func} {q b : Nat → Bool} {I : Inl} (hI : IQuiet q b I) {m : Name → Expr}
    {d : Option Dest} (hd : ∀ c, d ≠ some (.cell c)) {params : List Name} {res : Option Name} {tail : Bool} :
    (s : Stmt) → ∀ {sc out sc'}, visitS I m d s sc = some (out, sc') → cleanS funs q b params true res tail s = true →
      (∀ x ∈ namesS s, noExt (m x) = true) → quietS (seqs out) = true
  | .skip, _, _, _, h, _, _ => by simp [visitS] at h; rw [h.1]; simp [seqs, quietS]
  | .assign x e, sc, _, _, h, hc, hm => by
    obtain ⟨p, e', z, he, hz, rfl⟩ := visitS_assign h
    simp [cleanS] at hc
    obtain ⟨h1, h2, _⟩ := visitE_quiet hI e he hc.1.2 fun x hx => hm x (by simp [namesS, hx])
    simp [quiet_append, quiet_single, quietS, h1, h2 hc.2]
  | .store c e, sc, _, _, h, hc, hm => by simp [cleanS] at hc
  | .call (.var x) f args, sc, out, sc', h, hc, hm => by
    obtain ⟨p, as, sc1, z, o, ha, hz, hs, rfl⟩ := visitS_callVar h
    simp [cleanS, cleanCall, and_assoc] at hc
    obtain ⟨h1, h2, _⟩ := visitArgs_quiet hI args ha hc.2.1 fun x hx => hm x (by simp [namesS, hx])
    simp [quiet_append, h1, hI.s hs hc.2.2.2.2.2.1 (h2 hc.2.2.1)]
  | .call (.cell c) f args, sc, out, sc', h, hc, hm => by simp [cleanS] at hc
  | .call .drop f args, sc, out, sc', h, hc, hm => by
    obtain ⟨p, as, sc1, o, ha, hs, rfl⟩ := visitS_callDrop h
    simp [cleanS, cleanCall, and_assoc] at hc
    obtain ⟨h1, h2, _⟩ := visitArgs_quiet hI args ha hc.1 fun x hx => hm x (by simp [namesS, hx])
    simp [quiet_append, h1, hI.s hs hc.2.2.2.2 (h2 hc.2.1)]
  | .seq s t, sc, out, sc', h, hc, hm => by
    obtain ⟨o1, sc1, o2, hs, ht, rfl⟩ := visitS_seq h
    simp [cleanS] at hc
    simp [quiet_append, visitS_quiet hI hd s hs hc.1 fun x hx => hm x (by simp [namesS, hx]),
      visitS_quiet hI hd t ht hc.2 fun x hx => hm x (by simp [namesS, hx])]
  | .ite c s t, sc, out, sc', h, hc, hm => by
    obtain ⟨p, c', sc1, s', sc2, t', hcc, hs, ht, rfl⟩ := visitS_ite h
    simp [cleanS, and_assoc] at hc
    obtain ⟨h1, h2, _⟩ := visitE_quiet hI c hcc hc.1 fun x hx => hm x (by simp [namesS, hx])
    simp [quiet_append, quiet_single, quietS, h1, h2 hc.2.1,
      visitS_quiet hI hd s hs hc.2.2.1 fun x hx => hm x (by simp [namesS, hx]),
      visitS_quiet hI hd t ht hc.2.2.2 fun x hx => hm x (by simp [namesS, hx])]
  | .loop c s, sc, out, sc', h, hc, hm => by
    obtain ⟨p, c', sc1, s', hcc, hs, rfl⟩ := visitS_loop h
    simp [cleanS, and_assoc] at hc
    obtain ⟨h1, h2, _⟩ := visitE_quiet hI c hcc hc.1 fun x hx => hm x (by simp [namesS, hx])
    simp [quiet_append, quiet_single, quietS, h1, h2 hc.2.1,
      visitS_quiet hI hd s hs hc.2.2 fun x hx => hm x (by simp [namesS, hx])]
  | .ret e, sc, out, sc', h, hc, hm => by
    obtain ⟨d', rfl, h1 | ⟨hn, p, e', he, rfl⟩⟩ := visitS_ret h
    · rw [h1.2.2.1]; simp [seqs, quietS]
    · have hc' : cleanE funs q b false e = true ∧ noExt e = true := by
        cases e <;> simp [cleanS] at hc <;> first | exact ⟨hc.1.2, hc.2⟩ | skip
        obtain ⟨c, hc⟩ := hn rfl
        exact absurd (by rw [hc]) (hd c)
      obtain ⟨h1, h2, _⟩ := visitE_quiet hI e he hc'.1 fun x hx => hm x (by simp [namesS, hx])
      cases d' with
      | var z => simp [quiet_append, quiet_single, quietS, Dest.put, h1, h2 hc'.2]
      | cell c => exact absurd rfl (hd c)
  | .retCall f args, sc, out, sc', h, hc, hm => by
    obtain ⟨d', p, as, sc1, o, rfl, ha, hs, rfl⟩ := visitS_retCall h
    simp [cleanS, cleanCall, and_assoc] at hc
    obtain ⟨h1, h2, _⟩ := visitArgs_quiet hI args ha hc.2.1 fun x hx => hm x (by simp [namesS, hx])
    cases d' with
    | var z => simp [quiet_append, h1, hI.s hs hc.2.2.2.2.2.1 (h2 hc.2.2.1)]
    | cell c => exact absurd rfl (hd c)

theorem mapOf_noExt {F : Func} {d : Dest} {as : List Expr} {U : List Name} (hl : F.params.length = as.length)
    (ha : ∀ a ∈ as, noExt a = true) (x : Name) : noExt (mapOf F d as (rename (toRename F d) U).1 x) = true := by
  rcases mapOf_cases F d as U x hl with ⟨_, a, h1, _, he⟩ | ⟨_, _, z, h3, he⟩ | ⟨_, _, _, z, _, h3, he⟩ | ⟨h3, he⟩
  · rw [he]; exact ha a h1
  · rw [he]; simp [noExt]
  · rw [he]; simp [noExt]
  · rw [he]; split <;> simp [noExt]

theorem expand_quiet {funs : List Func} {q b : Nat → Bool} (hC : CleanFuns funs q b) {I : Inl} (hI : IQuiet q b I)
    {sc sc' : Sc} {y f : Nat} {as : List Expr} {out : List Stmt}
    (h : expand funs I sc (.var y) f as = some (out, sc')) (hq : q f = true) (ha : ∀ a ∈ as, noExt a = true) :
    quietS (seqs out) = true := by
  obtain ⟨F, hF, hl, hv⟩ := expand_some h
  obtain ⟨_, h1, _⟩ := hC f F hF
  rw [hq] at h1
  exact visitS_quiet hI (by simp) _ hv h1 fun x _ => mapOf_noExt hl ha x

theorem embed_quiet {funs : List Func} {q b : Nat → Bool} (hC : CleanFuns funs q b) {I : Inl} (hI : IQuiet q b I)
    {sc sc' : Sc} {f : Nat} {as : List Expr} {out : List Stmt} {e : Expr}
    (h : embed funs I sc f as = some (out, e, sc')) (hq : q f = true) (ha : ∀ a ∈ as, noExt a = true) :
    quietS (seqs out) = true ∧ noExt e = true ∧ (b f = true → out = []) := by
  obtain ⟨F, out', sc1, hF, h1, _, h2⟩ := embed_cases h
  have hQ := expand_quiet hC hI h1 hq ha
  have hB : b f = true → ∃ e', out' = [.assign (fresh sc.used) e'] ∧ rets F.body = 1 := by
    intro hb
    have h3 := (hC f F hF).2.2 hb
    obtain ⟨F', hF', hl, hv⟩ := expand_some h1
    rw [hF] at hF'; simp at hF'; subst hF'
    cases hB : F.body <;> rw [hB] at h3 <;> simp [bare] at h3
    rename_i e0
    rw [hB] at hv
    obtain ⟨d', hd, h4 | ⟨_, p, e', he, rfl⟩⟩ := visitS_ret hv
    · rw [h3.1] at h4; simp at h4
    · simp at hd; subst hd
      have := (visitE_quiet hI e0 he h3.2 fun x _ => mapOf_noExt hl ha x).2.2 rfl
      exact ⟨e', by simp [this, Dest.put], by simp [rets]⟩
  rcases h2 with ⟨hr, z, rfl, _⟩ | ⟨hr, rfl, rfl, _⟩
  · simp [quiet_append, quiet_single, quietS] at hQ
    refine ⟨hQ.1, hQ.2, fun hb => ?_⟩
    obtain ⟨e', h3, _⟩ := hB hb
    have := congrArg List.length h3
    simp at this
    exact this
  · refine ⟨hQ, by simp [noExt], fun hb => ?_⟩
    obtain ⟨e', h3, h4⟩ := hB hb
    rcases hr with hr | hr
    · exact absurd h4 hr
    · exact absurd (by rw [h3]; simp) (hr (fresh sc.used) e')

theorem inl_quiet {funs : List Func} {q b : Nat → Bool} (hC : CleanFuns funs q b) : ∀ n, IQuiet q b (inl funs n)
  | 0 => ⟨fun h => by simp [inl] at h, fun h => by simp [inl] at h⟩
  | n + 1 => ⟨fun h => expand_quiet hC (inl_quiet hC n) h, fun h => embed_quiet hC (inl_quiet hC n) h⟩

/-! ## Plain expressions -/

theorem visitE_plain {I : Inl} {m : Name → Expr} : (e : Expr) → ∀ {sc p e' sc'}, visitE I m e sc = some (p, e', sc') →
    plain e = true → (∀ x ∈ namesE e, plain (m x) = true) → plain e' = true
  | .lit _, _, _, _, _, h, _, _ => by simp [visitE] at h; rw [← h.2.1]; simp [plain]
  | .name x, _, _, _, _, h, _, hm => by
    simp [visitE] at h; rw [← h.2.1]; exact hm x (by simp [namesE])
  | .glob _ _, _, _, _, _, h, _, _ => by simp [visitE] at h; rw [← h.2.1]; simp [plain]
  | .load _, _, _, _, _, _, hp, _ => by simp [plain] at hp
  | .bin _ a c, sc, _, _, sc', h, hp, hm => by
    obtain ⟨p1, a', sc1, p2, b', ha, hb, rfl, rfl⟩ := visitE_bin h
    simp [plain] at hp
    simp [plain, visitE_plain a ha hp.1 fun x hx => hm x (by simp [namesE, hx]),
      visitE_plain c hb hp.2 fun x hx => hm x (by simp [namesE, hx])]
  | .cond c x y, sc, _, _, sc', h, hp, hm => by
    obtain ⟨p1, a', sc1, p2, c', sc2, p3, b', ha, hcc, hb, rfl, rfl⟩ := visitE_cond h
    simp [plain, and_assoc] at hp
    simp [plain, visitE_plain c hcc hp.1 fun x hx => hm x (by simp [namesE, hx]),
      visitE_plain x ha hp.2.1 fun x hx => hm x (by simp [namesE, hx]),
      visitE_plain y hb hp.2.2 fun x hx => hm x (by simp [namesE, hx])]
  | .ext _ e, _, _, _, _, _, hp, _ => by simp [plain] at hp
  | .call _ _, _, _, _, _, _, hp, _ => by simp [plain] at hp

theorem visitArgs_plain {I : Inl} {m : Name → Expr} : (es : Exprs) → ∀ {sc p es' sc'},
    visitArgs I m es sc = some (p, es', sc') →
    plainA es = true → (∀ x ∈ namesA es, plain (m x) = true) → ∀ a ∈ es', plain a = true
  | .nil, _, _, _, _, h, _, _ => by simp [visitArgs] at h; rw [h.2.1]; simp
  | .cons a c, sc, _, _, _, h, hp, hm => by
    obtain ⟨p1, a', sc1, p2, b', ha, hb, rfl, rfl⟩ := visitArgs_cons h
    simp [plainA] at hp
    simp only [List.mem_cons, forall_eq_or_imp]
    exact ⟨visitE_plain a ha hp.1 fun x hx => hm x (by simp [namesA, hx]),
      visitArgs_plain c hb hp.2 fun x hx => hm x (by simp [namesA, hx])⟩

end Verif.Inline.Lemmas
