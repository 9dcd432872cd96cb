import Verif.Inline.LemmasInv

/-! # What generated code assigns, which names it uses, and when it has no effects -/

namespace Verif.Inline.Lemmas
open Spec Model

/-! ## Assigned variables -/

/-- No function assigns its parameters. -/
def ParamsKept (funs : List Func) : Prop := ∀ F ∈ funs, ∀ x ∈ F.params, x ∉ F.body.assigned

structure ITarg (I : Inl) : Prop where
  s : ∀ {sc d f as out sc'}, Ok sc → I.s sc d f as = some (out, sc') → ∀ y ∈ targets out, y ∈ sc.used → d = .var y
  e : ∀ {sc f as out e sc'}, Ok sc → I.e sc f as = some (out, e, sc') → ∀ y ∈ targets out, y ∉ sc.used

mutual
theorem visitE_targets {I : Inl} (hM : IMono I) (hI : ITarg I) {m : Name → Expr} :
    (e : Expr) → ∀ {sc p e' sc'}, Ok sc → visitE I m e sc = some (p, e', sc') → ∀ y ∈ targets p, y ∉ sc.used
  | .lit _, _, _, _, _, _, h, y, hy => by simp [visitE] at h; rw [h.1] at hy; simp [targets, seqs, Stmt.assigned] at hy
  | .name _, _, _, _, _, _, h, y, hy => by simp [visitE] at h; rw [h.1] at hy; simp [targets, seqs, Stmt.assigned] at hy
  | .glob _ _, _, _, _, _, _, h, y, hy => by
    simp [visitE] at h; rw [h.1] at hy; simp [targets, seqs, Stmt.assigned] at hy
  | .load _, _, _, _, _, _, h, y, hy => by simp [visitE] at h; rw [h.1] at hy; simp [targets, seqs, Stmt.assigned] at hy
  | .bin _ a b, sc, _, _, _, ho, h, y, hy => by
    obtain ⟨p1, a', sc1, p2, b', ha, hb, rfl, _⟩ := visitE_bin h
    have h1 := visitE_mono hM a ho ha
    simp only [targets_append, List.mem_append] at hy
    rcases hy with hy | hy
    · exact visitE_targets hM hI a ho ha y hy
    · exact fun hu => visitE_targets hM hI b (h1.ok ho) hb y hy (h1.used y hu)
  | .cond c a b, sc, _, _, _, ho, h, y, hy => by
    obtain ⟨p1, a', sc1, p2, c', sc2, p3, b', ha, hc, hb, rfl, _⟩ := visitE_cond h
    have h1 := visitE_mono hM a ho ha
    have h2 := h1.trans (visitE_mono hM c (h1.ok ho) hc)
    simp only [targets_append, List.mem_append] at hy
    rcases hy with hy | hy | hy
    · exact visitE_targets hM hI a ho ha y hy
    · exact fun hu => visitE_targets hM hI c (h1.ok ho) hc y hy (h1.used y hu)
    · exact fun hu => visitE_targets hM hI b (h2.ok ho) hb y hy (h2.used y hu)
  | .ext _ e, sc, _, _, _, ho, h, y, hy => by
    obtain ⟨e1, he, _⟩ := visitE_ext h
    exact visitE_targets hM hI e ho he y hy
  | .call f args, sc, _, _, _, ho, h, y, hy => by
    obtain ⟨p1, as, sc1, p2, ha, hb, rfl⟩ := visitE_call h
    have h1 := visitArgs_mono hM args ho ha
    simp only [targets_append, List.mem_append] at hy
    rcases hy with hy | hy
    · exact visitArgs_targets hM hI args ho ha y hy
    · exact fun hu => hI.e (h1.ok ho) hb y hy (h1.used y hu)
theorem visitArgs_targets {I : Inl} (hM : IMono I) (hI : ITarg I) {m : Name → Expr} :
    (es : Exprs) → ∀ {sc p es' sc'}, Ok sc → visitArgs I m es sc = some (p, es', sc') → ∀ y ∈ targets p, y ∉ sc.used
  | .nil, _, _, _, _, _, h, y, hy => by
    simp [visitArgs] at h; rw [h.1] at hy; simp [targets, seqs, Stmt.assigned] at hy
  | .cons a b, sc, _, _, _, ho, h, y, hy => by
    obtain ⟨p1, a', sc1, p2, b', ha, hb, rfl, _⟩ := visitArgs_cons h
    have h1 := visitE_mono hM a ho ha
    simp only [targets_append, List.mem_append] at hy
    rcases hy with hy | hy
    · exact visitE_targets hM hI a ho ha y hy
    · exact fun hu => visitArgs_targets hM hI b (h1.ok ho) hb y hy (h1.used y hu)
end

/-- What a statement assigns are new names, the variables for those it assigned before, and the left-hand side of
the call. -/
theorem visitS_targets {I : Inl} (hM : IMono I) (hI : ITarg I) {m : Name → Expr} {d : Option Dest} :
    (s : Stmt) → ∀ {sc out sc'}, Ok sc → visitS I m d s sc = some (out, sc') →
      ∀ y ∈ targets out, y ∈ sc.used → (∃ x ∈ s.assigned, m x = .name y) ∨ (d = some (.var y) ∧ rets s ≠ 0)
  | .skip, _, _, _, _, h, y, hy, _ => by simp [visitS] at h; rw [h.1] at hy; simp [targets, seqs, Stmt.assigned] at hy
  | .assign x e, sc, _, _, ho, h, y, hy, hu => by
    obtain ⟨p, e', z, he, hz, rfl⟩ := visitS_assign h
    simp only [targets_append, targets_single, List.mem_append, Stmt.assigned, List.mem_singleton] at hy
    rcases hy with hy | rfl
    · exact absurd hu (visitE_targets hM hI e ho he y hy)
    · exact .inl ⟨x, by simp [Stmt.assigned], hz⟩
  | .store c e, sc, _, _, ho, h, y, hy, hu => by
    obtain ⟨p, e', he, rfl⟩ := visitS_store h
    simp only [targets_append, targets_single, List.mem_append, Stmt.assigned, List.not_mem_nil, or_false] at hy
    exact absurd hu (visitE_targets hM hI e ho he y hy)
  | .call (.var x) f args, sc, out, sc', ho, h, y, hy, hu => by
    obtain ⟨p, as, sc1, z, o, ha, hz, hs, rfl⟩ := visitS_callVar h
    have h1 := visitArgs_mono hM args ho ha
    simp only [targets_append, List.mem_append] at hy
    rcases hy with hy | hy
    · exact absurd hu (visitArgs_targets hM hI args ho ha y hy)
    · have := hI.s (h1.ok ho) hs y hy (h1.used y hu)
      simp at this
      subst this
      exact .inl ⟨x, by simp [Stmt.assigned], hz⟩
  | .call (.cell c) f args, sc, out, sc', ho, h, y, hy, hu => by
    obtain ⟨p, as, sc1, o, ha, hs, rfl⟩ := visitS_callCell h
    have h1 := visitArgs_mono hM args ho ha
    simp only [targets_append, List.mem_append] at hy
    rcases hy with hy | hy
    · exact absurd hu (visitArgs_targets hM hI args ho ha y hy)
    · have := hI.s (h1.ok ho) hs y hy (h1.used y hu)
      simp at this
  | .call .drop f args, sc, out, sc', ho, h, y, hy, hu => by
    obtain ⟨p, as, sc1, o, ha, hs, rfl⟩ := visitS_callDrop h
    have h1 := visitArgs_mono hM args ho ha
    simp only [targets_append, List.mem_append] at hy
    rcases hy with hy | hy
    · exact absurd hu (visitArgs_targets hM hI args ho ha y hy)
    · have := hI.s ((h1.trans Mono.fresh).ok ho) hs y hy ((h1.trans Mono.fresh).used y hu)
      simp at this
      rw [← this] at hu
      exact absurd (h1.used _ hu) (fresh_not_mem _)
  | .seq s t, sc, out, sc', ho, h, y, hy, hu => by
    obtain ⟨o1, sc1, o2, hs, ht, rfl⟩ := visitS_seq h
    have h1 := visitS_mono hM s ho hs
    simp only [targets_append, List.mem_append] at hy
    rcases hy with hy | hy
    · rcases visitS_targets hM hI s ho hs y hy hu with ⟨x, hx, hm⟩ | ⟨h2, h3⟩
      · exact .inl ⟨x, by simp [Stmt.assigned, hx], hm⟩
      · exact .inr ⟨h2, by simp only [rets]; omega⟩
    · rcases visitS_targets hM hI t (h1.ok ho) ht y hy (h1.used y hu) with ⟨x, hx, hm⟩ | ⟨h2, h3⟩
      · exact .inl ⟨x, by simp [Stmt.assigned, hx], hm⟩
      · exact .inr ⟨h2, by simp only [rets]; omega⟩
  | .ite c s t, sc, out, sc', ho, h, y, hy, hu => by
    obtain ⟨p, c', sc1, s', sc2, t', hc, hs, ht, rfl⟩ := visitS_ite h
    have h1 := visitE_mono hM c ho hc
    have h2 := h1.trans (visitS_mono hM s (h1.ok ho) hs)
    simp only [targets_append, targets_single, List.mem_append, Stmt.assigned] at hy
    rcases hy with hy | hy | hy
    · exact absurd hu (visitE_targets hM hI c ho hc y hy)
    · rcases visitS_targets hM hI s (h1.ok ho) hs y hy (h1.used y hu) with ⟨x, hx, hm⟩ | ⟨h2, h3⟩
      · exact .inl ⟨x, by simp [Stmt.assigned, hx], hm⟩
      · exact .inr ⟨h2, by simp only [rets]; omega⟩
    · rcases visitS_targets hM hI t (h2.ok ho) ht y hy (h2.used y hu) with ⟨x, hx, hm⟩ | ⟨h2, h3⟩
      · exact .inl ⟨x, by simp [Stmt.assigned, hx], hm⟩
      · exact .inr ⟨h2, by simp only [rets]; omega⟩
  | .loop c s, sc, out, sc', ho, h, y, hy, hu => by
    obtain ⟨p, c', sc1, s', hc, hs, rfl⟩ := visitS_loop h
    have h1 := visitE_mono hM c ho hc
    simp only [targets_append, targets_single, List.mem_append, Stmt.assigned] at hy
    rcases hy with hy | hy
    · exact absurd hu (visitE_targets hM hI c ho hc y hy)
    · rcases visitS_targets hM hI s (h1.ok ho) hs y hy (h1.used y hu) with ⟨x, hx, hm⟩ | ⟨h2, h3⟩
      · exact .inl ⟨x, by simp [Stmt.assigned, hx], hm⟩
      · exact .inr ⟨h2, by simpa only [rets] using h3⟩
  | .ret e, sc, out, sc', ho, h, y, hy, hu => by
    obtain ⟨d', rfl, h1 | ⟨_, p, e', he, rfl⟩⟩ := visitS_ret h
    · rw [h1.2.2.1] at hy; simp [targets, seqs, Stmt.assigned] at hy
    · simp only [targets_append, targets_single, List.mem_append] at hy
      rcases hy with hy | hy
      · exact absurd hu (visitE_targets hM hI e ho he y hy)
      · right
        cases d' with
        | var z => simp [Dest.put, Stmt.assigned] at hy; simp [hy, rets]
        | cell c => simp [Dest.put, Stmt.assigned] at hy
  | .retCall f args, sc, out, sc', ho, h, y, hy, hu => by
    obtain ⟨d', p, as, sc1, o, rfl, ha, hs, rfl⟩ := visitS_retCall h
    have h1 := visitArgs_mono hM args ho ha
    simp only [targets_append, List.mem_append] at hy
    rcases hy with hy | hy
    · exact absurd hu (visitArgs_targets hM hI args ho ha y hy)
    · have := hI.s (h1.ok ho) hs y hy (h1.used y hu)
      exact .inr ⟨by rw [this], by simp [rets]⟩

/-- The scope in which a body is visited. -/
abbrev bodySc (F : Func) (dd : Dest) (sc : Sc) : Sc :=
  ⟨(rename (toRename F dd) sc.used).2, (rename (toRename F dd) sc.used).1.map (·.2) ++ sc.decl⟩

theorem bodySc_mono (F : Func) (dd : Dest) (sc : Sc) : Mono sc (bodySc F dd sc) := by
  obtain ⟨h1, h2, _⟩ := rename_spec (toRename F dd) sc.used
  refine ⟨h1, fun x hx => by simp [hx], fun x hx => ?_⟩
  simp only [List.mem_append, List.mem_map] at hx
  rcases hx with ⟨p, hp, rfl⟩ | hx
  · exact .inr (h2 p hp)
  · exact .inl hx

theorem expand_targets {funs : List Func} (hP : ParamsKept funs) {I : Inl} (hM : IMono I) (hI : ITarg I) {sc sc' : Sc}
    {d : Dest} {f : Nat} {as : List Expr} {out : List Stmt} (ho : Ok sc)
    (h : expand funs I sc d f as = some (out, sc')) : ∀ y ∈ targets out, y ∈ sc.used → d = .var y := by
  obtain ⟨F, hF, hl, hv⟩ := expand_some h
  have hm := bodySc_mono F d sc
  intro y hy hu
  rcases visitS_targets hM hI _ (hm.ok ho) hv y hy (hm.used y hu) with ⟨x, hx, he⟩ | ⟨h2, _⟩
  · have hp : x ∉ F.params := fun hp => hP F (List.mem_of_getElem? hF) x hp hx
    rcases mapOf_cases F d as sc.used x hl with h1 | ⟨_, _, z, h1, h2⟩ | ⟨_, _, _, z, _, h1, h2⟩ | ⟨h1, _⟩
    · exact absurd h1.1 hp
    · rw [he] at h2; simp at h2; rw [h1, h2]
    · rw [he] at h2; simp at h2
      obtain ⟨_, h3, _⟩ := rename_spec (toRename F d) sc.used
      exact absurd hu (h2 ▸ (h3 _ h1).1)
    · simp [Func.locals, hx] at h1
  · simpa using h2

theorem embed_targets {funs : List Func} (hP : ParamsKept funs) {I : Inl} (hM : IMono I) (hI : ITarg I) {sc sc' : Sc}
    {f : Nat} {as : List Expr} {out : List Stmt} {e : Expr} (ho : Ok sc)
    (h : embed funs I sc f as = some (out, e, sc')) : ∀ y ∈ targets out, y ∉ sc.used := by
  obtain ⟨F, out', sc1, _, h1, _, h2⟩ := embed_cases h
  intro y hy hu
  have hy' : y ∈ targets out' := by
    rcases h2 with ⟨_, z, rfl, _⟩ | ⟨_, rfl, _⟩
    · simp [targets_append, hy]
    · exact hy
  have := expand_targets hP hM hI (Mono.fresh.ok ho) h1 y hy' (by simp [hu])
  simp at this
  exact fresh_not_mem sc.used (this ▸ hu)

theorem inl_targ {funs : List Func} (hP : ParamsKept funs) : ∀ n, ITarg (inl funs n)
  | 0 => ⟨fun _ h => by simp [inl] at h, fun _ h => by simp [inl] at h⟩
  | n + 1 => ⟨fun ho h => expand_targets hP (inl_mono funs n) (inl_targ hP n) ho h,
      fun ho h => embed_targets hP (inl_mono funs n) (inl_targ hP n) ho h⟩

/-! ## Names -/

/-- Names of other variables in functions of module 0 are in `Gl`. -/
def Scoped (funs : List Func) (Gl : List Name) : Prop :=
  ∀ F ∈ funs, F.mod = 0 → ∀ x ∈ namesS F.body, x ∉ F.locals → x ∈ Gl

structure IName (Gl : List Name) (I : Inl) : Prop where
  s : ∀ {sc d f as out sc'}, Ok sc → I.s sc d f as = some (out, sc') → ∀ y ∈ namesS (seqs out),
    y ∈ Gl ∨ (∃ a ∈ as, y ∈ namesE a) ∨ d = .var y ∨ (y ∉ sc.used ∧ y ∈ sc'.used)
  e : ∀ {sc f as out e sc'}, Ok sc → I.e sc f as = some (out, e, sc') → ∀ y, (y ∈ namesS (seqs out) ∨ y ∈ namesE e) →
    y ∈ Gl ∨ (∃ a ∈ as, y ∈ namesE a) ∨ (y ∉ sc.used ∧ y ∈ sc'.used)

theorem names_append {s t : List Stmt} : namesS (seqs (s ++ t)) = namesS (seqs s) ++ namesS (seqs t) := by
  induction s with
  | nil => simp [seqs, namesS]
  | cons a s ih => simp [seqs, namesS, ih]

theorem names_single {s : Stmt} : namesS (seqs [s]) = namesS s := by simp [seqs, namesS]

/-- Names that come from `m`, or are new. -/
def From (Gl : List Name) (m : Name → Expr) (xs : List Name) (sc sc' : Sc) (y : Name) : Prop :=
  y ∈ Gl ∨ (∃ u ∈ xs, y ∈ namesE (m u)) ∨ (y ∉ sc.used ∧ y ∈ sc'.used)

theorem From.mono {Gl : List Name} {m : Name → Expr} {xs xs' : List Name} {a b a' b' : Sc} {y : Name}
    (h : From Gl m xs a b y) (hx : ∀ x ∈ xs, x ∈ xs') (h1 : ∀ x ∈ a'.used, x ∈ a.used)
    (h2 : ∀ x ∈ b.used, x ∈ b'.used) : From Gl m xs' a' b' y := by
  rcases h with h | ⟨u, hu, h⟩ | ⟨h, h'⟩
  · exact .inl h
  · exact .inr (.inl ⟨u, hx u hu, h⟩)
  · exact .inr (.inr ⟨fun hh => h (h1 y hh), h2 y h'⟩)

mutual
theorem visitE_names {Gl : List Name} {I : Inl} (hM : IMono I) (hI : IName Gl I) {m : Name → Expr} :
    (e : Expr) → ∀ {sc p e' sc'}, Ok sc → visitE I m e sc = some (p, e', sc') →
      ∀ y, (y ∈ namesS (seqs p) ∨ y ∈ namesE e') → From Gl m (namesE e) sc sc' y
  | .lit _, _, _, _, _, _, h, y, hy => by
    simp [visitE] at h; rw [h.1, ← h.2.1] at hy; simp [seqs, namesS, namesE] at hy
  | .name x, _, _, _, _, _, h, y, hy => by
    simp [visitE] at h; rw [h.1, ← h.2.1] at hy; simp [seqs, namesS] at hy
    exact .inr (.inl ⟨x, by simp [namesE], hy⟩)
  | .glob _ _, _, _, _, _, _, h, y, hy => by
    simp [visitE] at h; rw [h.1, ← h.2.1] at hy; simp [seqs, namesS, namesE] at hy
  | .load _, _, _, _, _, _, h, y, hy => by
    simp [visitE] at h; rw [h.1, ← h.2.1] at hy; simp [seqs, namesS, namesE] at hy
  | .bin _ a b, sc, _, _, sc', ho, h, y, hy => by
    obtain ⟨p1, a', sc1, p2, b', ha, hb, rfl, rfl⟩ := visitE_bin h
    have h1 := visitE_mono hM a ho ha
    have h2 := visitE_mono hM b (h1.ok ho) hb
    have hy' : (y ∈ namesS (seqs p1) ∨ y ∈ namesE a') ∨ (y ∈ namesS (seqs p2) ∨ y ∈ namesE b') := by
      simp only [names_append, namesE, List.mem_append] at hy
      rcases hy with (hy | hy) | hy | hy <;> simp [hy]
    rcases hy' with hy | hy
    · exact (visitE_names hM hI a ho ha y hy).mono (fun x hx => by simp [namesE, hx]) (fun _ h => h) h2.used
    · exact (visitE_names hM hI b (h1.ok ho) hb y hy).mono (fun x hx => by simp [namesE, hx]) h1.used (fun _ h => h)
  | .cond c a b, sc, _, _, sc', ho, h, y, hy => by
    obtain ⟨p1, a', sc1, p2, c', sc2, p3, b', ha, hc, hb, rfl, rfl⟩ := visitE_cond h
    have h1 := visitE_mono hM a ho ha
    have h2 := visitE_mono hM c (h1.ok ho) hc
    have h3 := visitE_mono hM b (h2.ok (h1.ok ho)) hb
    have hy' : (y ∈ namesS (seqs p1) ∨ y ∈ namesE a') ∨ (y ∈ namesS (seqs p2) ∨ y ∈ namesE c') ∨
        (y ∈ namesS (seqs p3) ∨ y ∈ namesE b') := by
      simp only [names_append, namesE, List.mem_append] at hy
      rcases hy with (hy | hy | hy) | ((hy | hy) | hy) <;> simp [hy]
    rcases hy' with hy | hy | hy
    · exact (visitE_names hM hI a ho ha y hy).mono (fun x hx => by simp [namesE, hx]) (fun _ h => h)
        (h2.trans h3).used
    · exact (visitE_names hM hI c (h1.ok ho) hc y hy).mono (fun x hx => by simp [namesE, hx]) h1.used h3.used
    · exact (visitE_names hM hI b (h2.ok (h1.ok ho)) hb y hy).mono (fun x hx => by simp [namesE, hx])
        (h1.trans h2).used (fun _ h => h)
  | .ext _ e, sc, _, _, _, ho, h, y, hy => by
    obtain ⟨e1, he, rfl⟩ := visitE_ext h
    exact (visitE_names hM hI e ho he y (by simpa [namesE] using hy)).mono (fun x hx => by simp [namesE, hx])
      (fun _ h => h) (fun _ h => h)
  | .call f args, sc, _, e', sc', ho, h, y, hy => by
    obtain ⟨p1, as, sc1, p2, ha, hb, rfl⟩ := visitE_call h
    have h1 := visitArgs_mono hM args ho ha
    have h2 := hM.e (h1.ok ho) hb
    have hA := visitArgs_names hM hI args ho ha
    have hy' : y ∈ namesS (seqs p1) ∨ (y ∈ namesS (seqs p2) ∨ y ∈ namesE e') := by
      simp only [names_append, List.mem_append, or_assoc] at hy
      exact hy
    rcases hy' with hy | hy
    · exact (hA y (.inl hy)).mono (fun x hx => by simp [namesE, hx]) (fun _ h => h) h2.used
    · rcases hI.e (h1.ok ho) hb y hy with h | ⟨a, h3, h4⟩ | ⟨h3, h4⟩
      · exact .inl h
      · exact (hA y (.inr ⟨a, h3, h4⟩)).mono (fun x hx => by simp [namesE, hx]) (fun _ h => h) h2.used
      · exact .inr (.inr ⟨fun hh => h3 (h1.used y hh), h4⟩)
theorem visitArgs_names {Gl : List Name} {I : Inl} (hM : IMono I) (hI : IName Gl I) {m : Name → Expr} :
    (es : Exprs) → ∀ {sc p es' sc'}, Ok sc → visitArgs I m es sc = some (p, es', sc') →
      ∀ y, (y ∈ namesS (seqs p) ∨ ∃ a ∈ es', y ∈ namesE a) → From Gl m (namesA es) sc sc' y
  | .nil, _, _, _, _, _, h, y, hy => by
    simp [visitArgs] at h; rw [h.1, h.2.1] at hy; simp [seqs, namesS] at hy
  | .cons a b, sc, _, _, _, ho, h, y, hy => by
    obtain ⟨p1, a', sc1, p2, b', ha, hb, rfl, rfl⟩ := visitArgs_cons h
    have h1 := visitE_mono hM a ho ha
    have h2 := visitArgs_mono hM b (h1.ok ho) hb
    have hy' : (y ∈ namesS (seqs p1) ∨ y ∈ namesE a') ∨ (y ∈ namesS (seqs p2) ∨ ∃ a ∈ b', y ∈ namesE a) := by
      simp only [names_append, List.mem_append, List.mem_cons, exists_eq_or_imp] at hy
      rcases hy with (hy | hy) | hy | hy <;> simp [hy]
    rcases hy' with hy | hy
    · exact (visitE_names hM hI a ho ha y hy).mono (fun x hx => by simp [namesA, hx]) (fun _ h => h) h2.used
    · exact (visitArgs_names hM hI b (h1.ok ho) hb y hy).mono (fun x hx => by simp [namesA, hx]) h1.used (fun _ h => h)
end

/-- The names in generated statements. -/
theorem visitS_names {Gl : List Name} {I : Inl} (hM : IMono I) (hI : IName Gl I) {m : Name → Expr} {d : Option Dest} :
    (s : Stmt) → ∀ {sc out sc'}, Ok sc → visitS I m d s sc = some (out, sc') →
      ∀ y ∈ namesS (seqs out), From Gl m (namesS s) sc sc' y ∨ d = some (.var y)
  | .skip, _, _, _, _, h, y, hy => by simp [visitS] at h; rw [h.1] at hy; simp [seqs, namesS] at hy
  | .assign x e, sc, _, _, ho, h, y, hy => by
    obtain ⟨p, e', z, he, hz, rfl⟩ := visitS_assign h
    left
    simp only [names_append, names_single, List.mem_append, namesS, List.mem_cons] at hy
    have hE := visitE_names hM hI e ho he y
    rcases hy with hy | rfl | hy
    · exact (hE (.inl hy)).mono (fun x hx => by simp [namesS, hx]) (fun _ h => h) (fun _ h => h)
    · exact .inr (.inl ⟨x, by simp [namesS], by simp [hz, namesE]⟩)
    · exact (hE (.inr hy)).mono (fun x hx => by simp [namesS, hx]) (fun _ h => h) (fun _ h => h)
  | .store c e, sc, _, _, ho, h, y, hy => by
    obtain ⟨p, e', he, rfl⟩ := visitS_store h
    simp only [names_append, names_single, List.mem_append, namesS] at hy
    exact .inl (visitE_names hM hI e ho he y hy)
  | .call (.var x) f args, sc, out, sc', ho, h, y, hy => by
    obtain ⟨p, as, sc1, z, o, ha, hz, hs, rfl⟩ := visitS_callVar h
    have h1 := visitArgs_mono hM args ho ha
    have h2 := hM.s (h1.ok ho) hs
    have hA := visitArgs_names hM hI args ho ha y
    simp only [names_append, List.mem_append] at hy
    left
    rcases hy with hy | hy
    · exact (hA (.inl hy)).mono (fun x hx => by simp [namesS, hx]) (fun _ h => h) h2.used
    · rcases hI.s (h1.ok ho) hs y hy with h | h3 | h3 | ⟨h3, h4⟩
      · exact .inl h
      · exact (hA (.inr h3)).mono (fun x hx => by simp [namesS, hx]) (fun _ h => h) h2.used
      · simp at h3; subst h3
        exact .inr (.inl ⟨x, by simp [namesS], by simp [hz, namesE]⟩)
      · exact .inr (.inr ⟨fun hh => h3 (h1.used y hh), h4⟩)
  | .call (.cell c) f args, sc, out, sc', ho, h, y, hy => by
    obtain ⟨p, as, sc1, o, ha, hs, rfl⟩ := visitS_callCell h
    have h1 := visitArgs_mono hM args ho ha
    have h2 := hM.s (h1.ok ho) hs
    have hA := visitArgs_names hM hI args ho ha y
    simp only [names_append, List.mem_append] at hy
    left
    rcases hy with hy | hy
    · exact (hA (.inl hy)).mono (fun x hx => by simp [namesS, hx]) (fun _ h => h) h2.used
    · rcases hI.s (h1.ok ho) hs y hy with h | h3 | h3 | ⟨h3, h4⟩
      · exact .inl h
      · exact (hA (.inr h3)).mono (fun x hx => by simp [namesS, hx]) (fun _ h => h) h2.used
      · simp at h3
      · exact .inr (.inr ⟨fun hh => h3 (h1.used y hh), h4⟩)
  | .call .drop f args, sc, out, sc', ho, h, y, hy => by
    obtain ⟨p, as, sc1, o, ha, hs, rfl⟩ := visitS_callDrop h
    have h1 := visitArgs_mono hM args ho ha
    have h1' := h1.trans Mono.fresh
    have h2 := hM.s (h1'.ok ho) hs
    have hA := visitArgs_names hM hI args ho ha y
    simp only [names_append, List.mem_append] at hy
    left
    rcases hy with hy | hy
    · exact (hA (.inl hy)).mono (fun x hx => by simp [namesS, hx]) (fun _ h => h) (Mono.fresh.trans h2).used
    · rcases hI.s (h1'.ok ho) hs y hy with h | h3 | h3 | ⟨h3, h4⟩
      · exact .inl h
      · exact (hA (.inr h3)).mono (fun x hx => by simp [namesS, hx]) (fun _ h => h) (Mono.fresh.trans h2).used
      · simp at h3; subst h3
        exact .inr (.inr ⟨fun hh => fresh_not_mem _ (h1.used _ hh), h2.used _ (by simp)⟩)
      · exact .inr (.inr ⟨fun hh => h3 (h1'.used y hh), h4⟩)
  | .seq s t, sc, out, sc', ho, h, y, hy => by
    obtain ⟨o1, sc1, o2, hs, ht, rfl⟩ := visitS_seq h
    have h1 := visitS_mono hM s ho hs
    have h2 := visitS_mono hM t (h1.ok ho) ht
    simp only [names_append, List.mem_append] at hy
    rcases hy with hy | hy
    · rcases visitS_names hM hI s ho hs y hy with h | h
      · exact .inl (h.mono (fun x hx => by simp [namesS, hx]) (fun _ h => h) h2.used)
      · exact .inr h
    · rcases visitS_names hM hI t (h1.ok ho) ht y hy with h | h
      · exact .inl (h.mono (fun x hx => by simp [namesS, hx]) h1.used (fun _ h => h))
      · exact .inr h
  | .ite c s t, sc, out, sc', ho, h, y, hy => by
    obtain ⟨p, c', sc1, s', sc2, t', hc, hs, ht, rfl⟩ := visitS_ite h
    have h1 := visitE_mono hM c ho hc
    have h2 := visitS_mono hM s (h1.ok ho) hs
    have h3 := visitS_mono hM t (h2.ok (h1.ok ho)) ht
    have hy' : (y ∈ namesS (seqs p) ∨ y ∈ namesE c') ∨ y ∈ namesS (seqs s') ∨ y ∈ namesS (seqs t') := by
      simp only [names_append, names_single, List.mem_append, namesS] at hy
      rcases hy with hy | (hy | hy) | hy <;> simp [hy]
    rcases hy' with hy | hy | hy
    · exact .inl ((visitE_names hM hI c ho hc y hy).mono (fun x hx => by simp [namesS, hx]) (fun _ h => h)
        (h2.trans h3).used)
    · rcases visitS_names hM hI s (h1.ok ho) hs y hy with h | h
      · exact .inl (h.mono (fun x hx => by simp [namesS, hx]) h1.used h3.used)
      · exact .inr h
    · rcases visitS_names hM hI t (h2.ok (h1.ok ho)) ht y hy with h | h
      · exact .inl (h.mono (fun x hx => by simp [namesS, hx]) (h1.trans h2).used (fun _ h => h))
      · exact .inr h
  | .loop c s, sc, out, sc', ho, h, y, hy => by
    obtain ⟨p, c', sc1, s', hc, hs, rfl⟩ := visitS_loop h
    have h1 := visitE_mono hM c ho hc
    have h2 := visitS_mono hM s (h1.ok ho) hs
    have hy' : (y ∈ namesS (seqs p) ∨ y ∈ namesE c') ∨ y ∈ namesS (seqs s') := by
      simp only [names_append, names_single, List.mem_append, namesS] at hy
      rcases hy with hy | hy | hy <;> simp [hy]
    rcases hy' with hy | hy
    · exact .inl ((visitE_names hM hI c ho hc y hy).mono (fun x hx => by simp [namesS, hx]) (fun _ h => h) h2.used)
    · rcases visitS_names hM hI s (h1.ok ho) hs y hy with h | h
      · exact .inl (h.mono (fun x hx => by simp [namesS, hx]) h1.used (fun _ h => h))
      · exact .inr h
  | .ret e, sc, out, sc', ho, h, y, hy => by
    obtain ⟨d', rfl, h1 | ⟨_, p, e', he, rfl⟩⟩ := visitS_ret h
    · rw [h1.2.2.1] at hy; simp [seqs, namesS] at hy
    · have hE := visitE_names hM hI e ho he y
      cases d' with
      | var z =>
        simp only [names_append, names_single, List.mem_append, namesS, Dest.put, List.mem_cons] at hy
        rcases hy with hy | rfl | hy
        · exact .inl (hE (.inl hy))
        · exact .inr rfl
        · exact .inl (hE (.inr hy))
      | cell c =>
        simp only [names_append, names_single, List.mem_append, namesS, Dest.put] at hy
        exact .inl (hE hy)
  | .retCall f args, sc, out, sc', ho, h, y, hy => by
    obtain ⟨d', p, as, sc1, o, rfl, ha, hs, rfl⟩ := visitS_retCall h
    have h1 := visitArgs_mono hM args ho ha
    have h2 := hM.s (h1.ok ho) hs
    have hA := visitArgs_names hM hI args ho ha y
    simp only [names_append, List.mem_append] at hy
    rcases hy with hy | hy
    · exact .inl ((hA (.inl hy)).mono (fun x hx => by simp [namesS, hx]) (fun _ h => h) h2.used)
    · rcases hI.s (h1.ok ho) hs y hy with h | h3 | h3 | ⟨h3, h4⟩
      · exact .inl (.inl h)
      · exact .inl ((hA (.inr h3)).mono (fun x hx => by simp [namesS, hx]) (fun _ h => h) h2.used)
      · exact .inr (by rw [h3])
      · exact .inl (.inr (.inr ⟨fun hh => h3 (h1.used y hh), h4⟩))

theorem expand_names {funs : List Func} {Gl : List Name} (hS : Scoped funs Gl) {I : Inl} (hM : IMono I) (hI : IName Gl I)
    {sc sc' : Sc} {d : Dest} {f : Nat} {as : List Expr} {out : List Stmt} (ho : Ok sc)
    (h : expand funs I sc d f as = some (out, sc')) : ∀ y ∈ namesS (seqs out),
    y ∈ Gl ∨ (∃ a ∈ as, y ∈ namesE a) ∨ d = .var y ∨ (y ∉ sc.used ∧ y ∈ sc'.used) := by
  obtain ⟨F, hF, hl, hv⟩ := expand_some h
  have hm := bodySc_mono F d sc
  have h2 := visitS_mono hM _ (hm.ok ho) hv
  intro y hy
  rcases visitS_names hM hI _ (hm.ok ho) hv y hy with h | h
  · rcases h with h | ⟨u, hu, h⟩ | ⟨h3, h4⟩
    · exact .inl h
    · rcases mapOf_cases F d as sc.used u hl with ⟨_, a, ha, _, he⟩ | ⟨_, _, z, h3, he⟩ | ⟨_, _, _, z, _, h3, he⟩ | ⟨h3, he⟩
      · rw [he] at h; exact .inr (.inl ⟨a, ha, h⟩)
      · rw [he] at h; simp [namesE] at h; subst h; exact .inr (.inr (.inl h3))
      · rw [he] at h; simp [namesE] at h; subst h
        obtain ⟨_, h5, _⟩ := rename_spec (toRename F d) sc.used
        have := h5 _ h3
        exact .inr (.inr (.inr ⟨this.1, h2.used _ this.2⟩))
      · rw [he] at h
        split at h
        · rename_i h0
          simp [namesE] at h; subst h
          exact .inl (hS F (List.mem_of_getElem? hF) h0 y hu h3)
        · simp [namesE] at h
    · exact .inr (.inr (.inr ⟨fun hh => h3 (hm.used y hh), h4⟩))
  · simp at h; exact .inr (.inr (.inl h))

theorem embed_names {funs : List Func} {Gl : List Name} (hS : Scoped funs Gl) {I : Inl} (hM : IMono I) (hI : IName Gl I)
    {sc sc' : Sc} {f : Nat} {as : List Expr} {out : List Stmt} {e : Expr} (ho : Ok sc)
    (h : embed funs I sc f as = some (out, e, sc')) : ∀ y, (y ∈ namesS (seqs out) ∨ y ∈ namesE e) →
    y ∈ Gl ∨ (∃ a ∈ as, y ∈ namesE a) ∨ (y ∉ sc.used ∧ y ∈ sc'.used) := by
  obtain ⟨F, out', sc1, _, h1, _, h2⟩ := embed_cases h
  have hm := expand_mono hM (Mono.fresh.ok ho) h1
  intro y hy
  have hy' : y ∈ namesS (seqs out') ∨ y = fresh sc.used := by
    rcases h2 with ⟨_, z, rfl, _⟩ | ⟨_, rfl, rfl, _⟩
    · left
      simp only [names_append, names_single, List.mem_append, namesS, List.mem_cons]
      rcases hy with hy | hy <;> simp [hy]
    · rcases hy with hy | hy
      · exact .inl hy
      · simp [namesE] at hy; exact .inr hy
  have hu : ∀ y, y ∈ sc1.used → y ∈ sc'.used := by
    intro y hy
    rcases h2 with ⟨_, z, _, rfl⟩ | ⟨_, _, _, rfl⟩ <;> exact hy
  have hfr : y = fresh sc.used → (y ∉ sc.used ∧ y ∈ sc'.used) := by
    rintro rfl
    exact ⟨fresh_not_mem _, hu _ (hm.used _ (by simp))⟩
  rcases hy' with hy | hy
  · rcases expand_names hS hM hI (Mono.fresh.ok ho) h1 y hy with h | h | h | ⟨h3, h4⟩
    · exact .inl h
    · exact .inr (.inl h)
    · simp at h; exact .inr (.inr (hfr h.symm))
    · exact .inr (.inr ⟨fun hh => h3 (by simp [hh]), hu y h4⟩)
  · exact .inr (.inr (hfr hy))

theorem inl_name {funs : List Func} {Gl : List Name} (hS : Scoped funs Gl) : ∀ n, IName Gl (inl funs n)
  | 0 => ⟨fun _ h => by simp [inl] at h, fun _ h => by simp [inl] at h⟩
  | n + 1 => ⟨fun ho h => expand_names hS (inl_mono funs n) (inl_name hS n) ho h,
      fun ho h => embed_names hS (inl_mono funs n) (inl_name hS n) ho h⟩

end Verif.Inline.Lemmas
