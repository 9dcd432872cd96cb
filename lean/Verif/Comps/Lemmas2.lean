import Verif.Comps.Lemmas
namespace Verif.Comps.Lemmas
open Verif.Comps.Spec Verif.Comps.Model

theorem Done.bind {k : Kind} {lhs : Nat} {xs ys : List Nat} {a b : List Int} {s : St} {r : Option St} {g : St → Option St}
    (h1 : Done k lhs xs a s r) (hx : ∀ y ∈ xs, y ∈ ys)
    (h2 : ∀ s1, r = some s1 → (∀ t, t ≠ lhs → s1.mem.seqs t = s.mem.seqs t) → (∀ y, y ∉ xs → s1.vars y = s.vars y) →
      Done k lhs ys b s1 (g s1)) : Done k lhs ys (a ++ b) s (r.bind g) := by
  unfold Done at h1 ⊢
  rw [emits_append]
  cases h : emits k lhs a s.mem with
  | none => rw [h] at h1; simp only at h1; rw [h1]; rfl
  | some m =>
    rw [h] at h1
    obtain ⟨f, hr, hf⟩ := h1
    have h3 := h2 ⟨f, m⟩ hr (emits_seqs h) hf
    rw [hr]
    simp only [Option.bind_some]
    unfold Done at h3
    simp only at h3
    cases h4 : emits k lhs b m with
    | none => rw [h4] at h3; exact h3
    | some m2 =>
      rw [h4] at h3
      obtain ⟨f2, hr2, hf2⟩ := h3
      exact ⟨f2, hr2, fun y hy => by rw [hf2 y hy]; exact hf y (fun hc => hy (hx y hc))⟩

theorem Done.of_put {k : Kind} {lhs : Nat} {ys : List Nat} {b : List Int} {s : St} {x : Nat} {v : Int} {r : Option St}
    (h : Done k lhs ys b (s.put x v) r) (hx : x ∈ ys) : Done k lhs ys b s r := by
  unfold Done at h ⊢
  simp only [St.put] at h
  cases h4 : emits k lhs b s.mem with
  | none => rw [h4] at h; exact h
  | some m =>
    rw [h4] at h
    obtain ⟨f, hr, hf⟩ := h
    exact ⟨f, hr, fun y hy => by rw [hf y hy, upd_ne _ _ _ (fun h : y = x => hy (by rw [h]; exact hx))]⟩

theorem Done.mono {k : Kind} {lhs : Nat} {xs ys : List Nat} {b : List Int} {s : St} {r : Option St}
    (h : Done k lhs xs b s r) (hx : ∀ y ∈ xs, y ∈ ys) : Done k lhs ys b s r := by
  unfold Done at h ⊢
  cases h4 : emits k lhs b s.mem with
  | none => rw [h4] at h; exact h
  | some m =>
    rw [h4] at h
    obtain ⟨f, hr, hf⟩ := h
    exact ⟨f, hr, fun y hy => hf y (fun hc => hy (hx y hc))⟩

/-- The state is one that Python's scope `env` and sequences `q` describe. -/
def Fits (lhs : Nat) (env : Nat → Option Int) (q : Nat → List Int) (s : St) : Prop :=
  Agree env s.vars ∧ ∀ t, t ≠ lhs → s.mem.seqs t = q t

theorem Fits.ev {lhs : Nat} {env : Nat → Option Int} {q : Nat → List Int} {s : St} (h : Fits lhs env q s)
    {e : Expr} (hf : e.Free lhs) {v : Int} (he : eval env q e = some v) : ev s e = some v :=
  eval_mono h.1.env h.2 hf he

theorem Fits.holds {lhs : Nat} {env : Nat → Option Int} {q : Nat → List Int} {s : St} (h : Fits lhs env q s)
    {cs : List Expr} (hf : ∀ d ∈ cs, d.Free lhs) {b : Bool} (he : Spec.holds env q cs = some b) :
    Spec.holds (fun x => some (s.vars x)) s.mem.seqs cs = some b :=
  holds_mono h.1.env h.2 hf he

theorem Fits.put {lhs : Nat} {env : Nat → Option Int} {q : Nat → List Int} {s : St} (h : Fits lhs env q s) (x : Nat) (v : Int) :
    Fits lhs (upd env x (some v)) q (s.put x v) := ⟨h.1.upd x v, h.2⟩

/-- The variable has the value already. -/
theorem Fits.have {lhs : Nat} {env : Nat → Option Int} {q : Nat → List Int} {s : St} (h : Fits lhs env q s) {x : Nat} {v : Int}
    (hv : s.vars x = v) : Fits lhs (upd env x (some v)) q s := by
  refine ⟨fun y w hy => ?_, h.2⟩
  by_cases hyx : y = x
  · subst hyx; rw [upd_same] at hy; simp only [Option.some.injEq] at hy; omega
  · rw [upd_ne _ _ _ hyx] at hy; exact h.1 y w hy

theorem Fits.forget {lhs : Nat} {env : Nat → Option Int} {q : Nat → List Int} {s : St} {x : Nat} (hx : env x = none) {v : Int}
    (h : Fits lhs (upd env x (some v)) q s) : Fits lhs env q s := by
  refine ⟨fun y w hy => h.1 y w ?_, h.2⟩
  by_cases hyx : y = x
  · subst hyx; rw [hx] at hy; cases hy
  · rw [upd_ne _ _ _ hyx]; exact hy

/-- After statements that changed only variables without a value in Python. -/
theorem Fits.next {lhs : Nat} {env : Nat → Option Int} {q : Nat → List Int} {s s1 : St} (h : Fits lhs env q s) {xs : List Nat}
    (hx : ∀ y ∈ xs, env y = none) (hq : ∀ t, t ≠ lhs → s1.mem.seqs t = s.mem.seqs t) (hv : ∀ y, y ∉ xs → s1.vars y = s.vars y) :
    Fits lhs env q s1 :=
  ⟨h.1.keep hx hv, fun t ht => by rw [hq t ht, h.2 t ht]⟩

theorem joinVals_cons {g : Int → Option (List Int)} {x : Int} {xs vs : List Int} (h : joinVals g (x :: xs) = some vs) :
    ∃ a b, g x = some a ∧ joinVals g xs = some b ∧ vs = a ++ b := by
  simp only [joinVals] at h
  obtain ⟨a, h1, h⟩ := bind_some h
  obtain ⟨b, h2, h⟩ := bind_some h
  exact ⟨a, b, h1, h2, (Option.some.inj h).symm⟩

/-- What the body of a loop does for the value `x` of its variable. -/
def BodyOk (k : Kind) (lhs : Nat) (env : Nat → Option Int) (q : Nat → List Int) (x : Nat) (xs : List Nat)
    (g : Int → Option (List Int)) (body : Nat → St → Option St) : Prop :=
  ∀ v ws, g v = some ws → ∃ f, ∀ fuel, f ≤ fuel → ∀ s, Fits lhs (upd env x (some v)) q s →
    Done k lhs xs ws s (body fuel s)

theorem more_eq {lhs : Nat} {env : Nat → Option Int} {q : Nat → List Int} {s : St} (h : Fits lhs env q s)
    {b st : Expr} (hb : b.Free lhs) (hst : st.Free lhs) {bv d : Int} (h1 : eval env q b = some bv) (h2 : eval env q st = some d)
    (x : Nat) : more x b st s = some (if 0 < d then decide (s.vars x < bv) else decide (s.vars x > bv)) := by
  simp only [more, h.ev hb h1, h.ev hst h2]
  rfl

theorem cRange_ok {k : Kind} {lhs : Nat} {env : Nat → Option Int} {q : Nat → List Int} {x : Nat} {xs : List Nat}
    {g : Int → Option (List Int)} {body : Nat → St → Option St} {b st : Expr} {bv d : Int}
    (hb : b.Free lhs) (hst : st.Free lhs) (h1 : eval env q b = some bv) (h2 : eval env q st = some d) (hd : d ≠ 0)
    (hx : ∀ y ∈ x :: xs, env y = none) (hxs : x ∉ xs) (hbody : BodyOk k lhs env q x xs g body)
    (n : Nat) (a : Int) (vs : List Int) (hn : rangeLen a bv d = n) (hv : joinVals g (steps n a d) = some vs) :
    ∃ f, ∀ fuel, f ≤ fuel → ∀ N, n + 1 ≤ N → ∀ s, Fits lhs env q s → s.vars x = a →
      Done k lhs (x :: xs) vs s (cRange x b st (body fuel) N s) := by
  induction n generalizing a vs with
  | zero =>
    refine ⟨0, fun fuel _ N hN s hs ha => ?_⟩
    obtain ⟨N, rfl⟩ : ∃ M, N = M + 1 := ⟨N - 1, by omega⟩
    have hvs : vs = [] := by
      simp only [steps, joinVals, Option.some.injEq] at hv; exact hv.symm
    rw [hvs]
    have hm := more_eq hs hb hst h1 h2 x
    rw [ha, (rangeLen_zero hd).1 hn] at hm
    simp only [cRange, hm]
    exact Done.nil
  | succ n ih =>
    simp only [steps] at hv
    obtain ⟨ws, rest, hg, hrest, rfl⟩ := joinVals_cons hv
    obtain ⟨f1, hf1⟩ := hbody a ws hg
    obtain ⟨f2, hf2⟩ := ih (a + d) rest (rangeLen_succ hd hn) hrest
    refine ⟨max f1 f2, fun fuel hfuel N hN s hs ha => ?_⟩
    obtain ⟨N, rfl⟩ : ∃ M, N = M + 1 := ⟨N - 1, by omega⟩
    have hm := more_eq hs hb hst h1 h2 x
    have hne : ¬ rangeLen a bv d = 0 := by omega
    rw [rangeLen_zero hd] at hne
    rw [ha, (Bool.not_eq_false _).mp hne] at hm
    simp only [cRange, hm]
    have hd1 := hf1 fuel (by omega) s (hs.have ha)
    refine hd1.bind (ys := x :: xs) (by simp +contextual) fun s1 _ hq hvv => ?_
    have hs1 : Fits lhs env q s1 := hs.next (xs := xs) (fun y hy => hx y (by simp [hy])) hq hvv
    rw [hs1.ev hst h2]
    simp only [Option.bind_some]
    have hax : s1.vars x = a := by rw [hvv x hxs, ha]
    rw [hax]
    refine Done.of_put (x := x) (v := a + d) ?_ (by simp)
    exact hf2 fuel (by omega) N (by omega) _ ((hs1.put x (a + d)).forget (hx x (by simp))) (by simp [St.put])

theorem cSeq_ok {k : Kind} {lhs : Nat} {env : Nat → Option Int} {q : Nat → List Int} {x l : Nat} {xs : List Nat}
    {g : Int → Option (List Int)} {body : Nat → St → Option St} (hl : l ≠ lhs)
    (hx : ∀ y ∈ x :: xs, env y = none) (hbody : BodyOk k lhs env q x xs g body)
    (rest : List Int) (i : Nat) (vs : List Int) (hn : (q l).drop i = rest) (hv : joinVals g rest = some vs) :
    ∃ f, ∀ fuel, f ≤ fuel → ∀ N, rest.length + 1 ≤ N → ∀ s, Fits lhs env q s →
      Done k lhs (x :: xs) vs s (cSeq x l (body fuel) N i s) := by
  induction rest generalizing i vs with
  | nil =>
    refine ⟨0, fun fuel _ N hN s hs => ?_⟩
    obtain ⟨N, rfl⟩ : ∃ M, N = M + 1 := ⟨N - 1, by simp at hN; omega⟩
    have hvs : vs = [] := by
      simp only [joinVals, Option.some.injEq] at hv; exact hv.symm
    rw [hvs]
    have : (s.mem.seqs l)[i]? = none := by
      rw [hs.2 l hl, List.getElem?_eq_none_iff]; exact List.drop_eq_nil_iff.1 hn
    simp only [cSeq, this]
    exact Done.nil
  | cons v rest ih =>
    obtain ⟨ws, ws', hg, hrest, rfl⟩ := joinVals_cons hv
    obtain ⟨f1, hf1⟩ := hbody v ws hg
    have hn' : (q l).drop (i + 1) = rest := by rw [← List.drop_drop, hn]; rfl
    obtain ⟨f2, hf2⟩ := ih (i + 1) ws' hn' hrest
    refine ⟨max f1 f2, fun fuel hfuel N hN s hs => ?_⟩
    simp only [List.length_cons] at hN
    obtain ⟨N, rfl⟩ : ∃ M, N = M + 1 := ⟨N - 1, by omega⟩
    have : (s.mem.seqs l)[i]? = some v := by
      rw [hs.2 l hl]
      have := congrArg (·[0]?) hn
      simpa using this
    simp only [cSeq, this]
    refine Done.of_put (x := x) (v := v) ?_ (by simp)
    have hp := hs.put x v
    refine (hf1 fuel (by omega) _ hp).bind (ys := x :: xs) (by simp +contextual) fun s1 _ hq hvv => ?_
    have hs1 : Fits lhs env q s1 :=
      (hp.forget (hx x (by simp))).next (xs := xs) (fun y hy => hx y (by simp [hy])) hq hvv
    exact hf2 fuel (by omega) N (by omega) s1 hs1

theorem guardC_ok {k : Kind} {lhs : Nat} {env : Nat → Option Int} {q : Nat → List Int} {xs : List Nat}
    {conds : List Expr} (hc : ∀ d ∈ conds, d.Free lhs) {next : Option (List Int)} {ws : List Int} {body : St → Option St}
    (hv : (do if ← holds env q conds then next else return []) = some ws)
    {s : St} (hs : Fits lhs env q s) (hbody : ∀ ws, next = some ws → Done k lhs xs ws s (body s)) :
    Done k lhs xs ws s (guardC conds body s) := by
  obtain ⟨b, h1, h2⟩ := bind_some hv
  simp only [guardC, hs.holds hc h1]
  cases b with
  | true => exact hbody ws h2
  | false =>
    have : ws = [] := (Option.some.inj h2).symm
    subst this
    exact Done.nil

theorem runC_ok (k : Kind) (lhs : Nat) (e : Expr) (q : Nat → List Int) (he : e.Free lhs) (cs : List Clause)
    (hcs : ∀ c ∈ cs, c.Free lhs) (hnd : (targets cs).Nodup) (env : Nat → Option Int) (hx : ∀ y ∈ targets cs, env y = none)
    (vs : List Int) (hv : vals q e cs env = some vs) :
    ∃ f, ∀ fuel, f ≤ fuel → ∀ s, Fits lhs env q s → Done k lhs (targets cs) vs s (runC k lhs e fuel cs s) := by
  induction cs generalizing env vs with
  | nil =>
    refine ⟨0, fun fuel _ s hs => ?_⟩
    simp only [vals, Option.map_eq_some_iff] at hv
    obtain ⟨v, hv, rfl⟩ := hv
    simp only [runC, hs.ev he hv, Done, emits]
    cases h : emit k lhs v s.mem with
    | none => simp [h]
    | some m => exact ⟨s.vars, by simp [h], fun _ _ => rfl⟩
  | cons c cs ih =>
    have hxs : c.x ∉ targets cs := (List.nodup_cons.1 hnd).1
    have hnd' := (List.nodup_cons.1 hnd).2
    obtain ⟨ys, hys, hj⟩ := bind_some hv
    have hc := hcs c (by simp)
    have hbody : BodyOk k lhs env q c.x (targets cs) (fun x => do
        if ← holds (upd env c.x (some x)) q c.conds then vals q e cs (upd env c.x (some x)) else return [])
        (fun fuel => guardC c.conds (runC k lhs e fuel cs)) := by
      intro v ws hg
      have hnone : ∀ y ∈ targets cs, upd env c.x (some v) y = none := fun y hy => by
        rw [upd_ne _ _ _ (fun h : y = c.x => hxs (by rw [← h]; exact hy))]; exact hx y (by simp [targets] at hy ⊢; right; exact hy)
      cases hn : vals q e cs (upd env c.x (some v)) with
      | none =>
        refine ⟨0, fun fuel _ s hs => guardC_ok hc.2 hg hs fun ws' h => ?_⟩
        rw [hn] at h; cases h
      | some ws2 =>
        obtain ⟨f, hf⟩ := ih (fun c hc => hcs c (by simp [hc])) hnd' _ hnone _ hn
        refine ⟨f, fun fuel hfu s hs => guardC_ok hc.2 hg hs fun ws' h => ?_⟩
        rw [hn] at h; cases h
        exact hf fuel hfu s hs
    have hx' : ∀ y ∈ c.x :: targets cs, env y = none := fun y hy => hx y hy
    cases hi : c.iter with
    | range a b st =>
      rw [hi] at hys
      have hfree := hc.1
      rw [hi] at hfree
      obtain ⟨av, ha, hys⟩ := bind_some hys
      obtain ⟨bv, hb, hys⟩ := bind_some hys
      obtain ⟨d, hd, hys⟩ := bind_some hys
      split at hys
      · cases hys
      · next hd0 =>
        simp only [Option.some.injEq] at hys
        subst hys
        obtain ⟨f, hf⟩ := cRange_ok hfree.2.1 hfree.2.2 hb hd hd0 hx' hxs hbody (rangeLen av bv d) av vs rfl hj
        refine ⟨max f (rangeLen av bv d + 1), fun fuel hfu s hs => ?_⟩
        simp only [runC, hi, hs.ev hfree.1 ha]
        refine Done.of_put (x := c.x) (v := av) ?_ (by simp [targets])
        exact hf fuel (by omega) fuel (by omega) _ ((hs.put c.x av).forget (hx' c.x (by simp))) (by simp [St.put])
    | seq l =>
      rw [hi] at hys
      have hfree := hc.1
      rw [hi] at hfree
      simp only [iterVals, Option.some.injEq] at hys
      subst hys
      obtain ⟨f, hf⟩ := cSeq_ok (x := c.x) hfree hx' hbody (q l) 0 vs rfl hj
      refine ⟨max f ((q l).length + 1), fun fuel hfu s hs => ?_⟩
      simp only [runC, hi]
      exact hf fuel (by omega) fuel (by omega) s hs

theorem iterVals_mono {env env' : Nat → Option Int} {q q' : Nat → List Int} {l : Nat}
    (he : ∀ x v, env x = some v → env' x = some v) (hq : ∀ t, t ≠ l → q' t = q t)
    {i : Iter} (hf : i.Free l) {v : List Int} (h : iterVals env q i = some v) : iterVals env' q' i = some v := by
  cases i with
  | range a b s =>
    obtain ⟨av, ha, h⟩ := bind_some h
    obtain ⟨bv, hb, h⟩ := bind_some h
    obtain ⟨d, hd, h⟩ := bind_some h
    simp only [iterVals, eval_mono he hq hf.1 ha, eval_mono he hq hf.2.1 hb, eval_mono he hq hf.2.2 hd]
    exact h
  | seq t => simp only [iterVals, hq t hf] at h ⊢; exact h

/-- What the body of a Fortran loop does for the value `v` of its variable. -/
def BodyOkF (k : Kind) (lhs : Nat) (env : Nat → Option Int) (q : Nat → List Int) (x : Nat) (xs : List Nat)
    (g : Int → Option (List Int)) (body : St → Option St) : Prop :=
  ∀ v ws, g v = some ws → ∀ s, Fits lhs (upd env x (some v)) q s → Done k lhs xs ws s (body s)

theorem fRange_ok {k : Kind} {lhs : Nat} {env : Nat → Option Int} {q : Nat → List Int} {x : Nat} {xs : List Nat}
    {g : Int → Option (List Int)} {body : St → Option St} {d : Int}
    (hx : ∀ y ∈ x :: xs, env y = none) (hxs : x ∉ xs) (hbody : BodyOkF k lhs env q x xs g body)
    (n : Nat) (a : Int) (vs : List Int) (hv : joinVals g (steps n a d) = some vs) (s : St) (hs : Fits lhs env q s)
    (ha : s.vars x = a) : Done k lhs (x :: xs) vs s (fRange x d body n s) := by
  induction n generalizing a vs s with
  | zero =>
    have hvs : vs = [] := by
      simp only [steps, joinVals, Option.some.injEq] at hv; exact hv.symm
    rw [hvs]
    exact Done.nil
  | succ n ih =>
    simp only [steps] at hv
    obtain ⟨ws, rest, hg, hrest, rfl⟩ := joinVals_cons hv
    simp only [fRange]
    refine (hbody a ws hg s (hs.have ha)).bind (ys := x :: xs) (by simp +contextual) fun s1 _ hq hvv => ?_
    have hs1 : Fits lhs env q s1 := hs.next (xs := xs) (fun y hy => hx y (by simp [hy])) hq hvv
    have hax : s1.vars x = a := by rw [hvv x hxs, ha]
    rw [hax]
    refine Done.of_put (x := x) (v := a + d) ?_ (by simp)
    exact ih (a + d) rest hrest _ ((hs1.put x (a + d)).forget (hx x (by simp))) (by simp [St.put])

theorem fSeq_ok {k : Kind} {lhs : Nat} {env : Nat → Option Int} {q : Nat → List Int} {x l : Nat} {xs : List Nat}
    {g : Int → Option (List Int)} {body : St → Option St} (hl : l ≠ lhs)
    (hx : ∀ y ∈ x :: xs, env y = none) (hbody : BodyOkF k lhs env q x xs g body)
    (rest : List Int) (i : Nat) (vs : List Int) (hn : (q l).drop i = rest) (hv : joinVals g rest = some vs)
    (s : St) (hs : Fits lhs env q s) : Done k lhs (x :: xs) vs s (fSeq x l body rest.length i s) := by
  induction rest generalizing i vs s with
  | nil =>
    have hvs : vs = [] := by
      simp only [joinVals, Option.some.injEq] at hv; exact hv.symm
    rw [hvs]
    exact Done.nil
  | cons v rest ih =>
    obtain ⟨ws, ws', hg, hrest, rfl⟩ := joinVals_cons hv
    have hn' : (q l).drop (i + 1) = rest := by rw [← List.drop_drop, hn]; rfl
    have : (s.mem.seqs l)[i]? = some v := by
      rw [hs.2 l hl]
      have := congrArg (·[0]?) hn
      simpa using this
    simp only [List.length_cons, fSeq, this]
    refine Done.of_put (x := x) (v := v) ?_ (by simp)
    have hp := hs.put x v
    refine (hbody v ws hg _ hp).bind (ys := x :: xs) (by simp +contextual) fun s1 _ hq hvv => ?_
    have hs1 : Fits lhs env q s1 :=
      (hp.forget (hx x (by simp))).next (xs := xs) (fun y hy => hx y (by simp [hy])) hq hvv
    exact ih (i + 1) ws' hn' hrest s1 hs1

theorem guardF_eq {conds : List Expr} (h : conds.length ≤ 1) (body : St → Option St) (s : St) :
    guardF conds body s = guardC conds body s := by
  match conds, h with
  | [], _ => rfl
  | [c], _ =>
    simp only [guardF, guardC, allVals, holds]
    cases eval (fun x => some (s.vars x)) s.mem.seqs c with
    | none => rfl
    | some v =>
      by_cases hv : v = 0 <;> simp [hv]

theorem clauseF_ok {k : Kind} {lhs : Nat} {e : Expr} {q : Nat → List Int} {c : Clause} {cs : List Clause}
    (hc : c.Free lhs) (hxs : c.x ∉ targets cs) {env : Nat → Option Int} (hx : ∀ y ∈ targets (c :: cs), env y = none)
    {g : Int → Option (List Int)} (hbody : BodyOkF k lhs env q c.x (targets cs) g (guardF c.conds (runF k lhs e cs)))
    {s : St} (hs : Fits lhs env q s) {ys vs : List Int}
    (hys : iterVals (fun x => some (s.vars x)) s.mem.seqs c.iter = some ys) (hj : joinVals g ys = some vs) :
    Done k lhs (targets (c :: cs)) vs s (runF k lhs e (c :: cs) s) := by
  cases hi : c.iter with
  | range a b st =>
    rw [hi] at hys
    obtain ⟨av, ha, hys⟩ := bind_some hys
    obtain ⟨bv, hb, hys⟩ := bind_some hys
    obtain ⟨d, hd, hys⟩ := bind_some hys
    split at hys
    · cases hys
    · next hd0 =>
      simp only [Option.some.injEq] at hys
      subst hys
      simp only [runF, if_neg hxs, hi, show ev s a = some av from ha, show ev s b = some bv from hb,
        show ev s st = some d from hd, Option.bind_eq_bind, Option.bind_some, if_neg hd0]
      refine Done.of_put (x := c.x) (v := av) ?_ (by simp [targets])
      exact fRange_ok hx hxs hbody _ av vs hj _ ((hs.put c.x av).forget (hx c.x (by simp [targets]))) (by simp [St.put])
  | seq l =>
    rw [hi] at hys
    have hfree := hc.1
    rw [hi] at hfree
    simp only [iterVals, Option.some.injEq] at hys
    have hl : s.mem.seqs l = q l := hs.2 l hfree
    simp only [runF, if_neg hxs, hi]
    rw [hl] at hys ⊢
    subst hys
    exact fSeq_ok hfree hx hbody (q l) 0 vs rfl hj s hs

theorem runF_ok (k : Kind) (lhs : Nat) (e : Expr) (q : Nat → List Int) (he : e.Free lhs) (cs : List Clause)
    (hcs : ∀ c ∈ cs, c.Free lhs) (hone : ∀ c ∈ cs, c.conds.length ≤ 1) (hnd : (targets cs).Nodup)
    (env : Nat → Option Int) (hx : ∀ y ∈ targets cs, env y = none)
    (vs : List Int) (hv : vals q e cs env = some vs) (s : St) (hs : Fits lhs env q s) :
    Done k lhs (targets cs) vs s (runF k lhs e cs s) := by
  induction cs generalizing env vs s with
  | nil =>
    simp only [vals, Option.map_eq_some_iff] at hv
    obtain ⟨v, hv, rfl⟩ := hv
    simp only [runF, hs.ev he hv, Done, emits]
    cases h : emit k lhs v s.mem with
    | none => simp [h]
    | some m => exact ⟨s.vars, by simp [h], fun _ _ => rfl⟩
  | cons c cs ih =>
    have hxs : c.x ∉ targets cs := (List.nodup_cons.1 hnd).1
    have hnd' := (List.nodup_cons.1 hnd).2
    obtain ⟨ys, hys, hj⟩ := bind_some hv
    have hc := hcs c (by simp)
    refine clauseF_ok hc hxs hx ?_ hs (iterVals_mono hs.1.env hs.2 hc.1 hys) hj
    intro v ws hg s hs
    rw [guardF_eq (hone c (by simp))]
    refine guardC_ok hc.2 hg hs fun ws' h => ?_
    refine ih (fun c hc => hcs c (by simp [hc])) (fun c hc => hone c (by simp [hc])) hnd' _ (fun y hy => ?_) _ h s hs
    rw [upd_ne _ _ _ (fun h : y = c.x => hxs (by rw [← h]; exact hy))]
    exact hx y (by simp [targets] at hy ⊢; right; exact hy)

/-- Values of expressions that do not mention the variables of the comprehension. -/
theorem eval_inner {vars : Nat → Int} {cs : List Clause} {q : Nat → List Int} {e : Expr} (h : e.Without (targets cs)) :
    eval (inner vars cs) q e = eval (fun x => some (vars x)) q e := by
  induction e with
  | num n => rfl
  | var x => simp only [eval, inner, if_neg (show x ∉ targets cs from h)]
  | len t => rfl
  | elt t e ih => simp only [eval, ih h]
  | add a b iha ihb => simp only [eval, iha h.1, ihb h.2]
  | sub a b iha ihb => simp only [eval, iha h.1, ihb h.2]
  | mul a b iha ihb => simp only [eval, iha h.1, ihb h.2]

theorem iterVals_inner {vars : Nat → Int} {cs : List Clause} {q : Nat → List Int} {i : Iter} (h : i.Without (targets cs)) :
    iterVals (inner vars cs) q i = iterVals (fun x => some (vars x)) q i := by
  cases i with
  | range a b s => simp only [iterVals, eval_inner h.1, eval_inner h.2.1, eval_inner h.2.2]
  | seq l => rfl

theorem pyComp_vals {vars : Nat → Int} {q : Nat → List Int} {e : Expr} {c : Clause} {cs : List Clause}
    (h : c.iter.Without (targets (c :: cs))) : pyComp vars q e (c :: cs) = vals q e (c :: cs) (inner vars (c :: cs)) := by
  simp only [pyComp, vals, iterVals_inner h]

theorem inner_fits {lhs : Nat} {vars : Nat → Int} {cs : List Clause} {q : Nat → List Int} {m : Mem}
    (hm : ∀ t, t ≠ lhs → m.seqs t = q t) : Fits lhs (inner vars cs) q ⟨vars, m⟩ := by
  refine ⟨fun x v h => ?_, hm⟩
  simp only [inner] at h
  split at h
  · cases h
  · exact Option.some.inj h

theorem inner_none {vars : Nat → Int} {cs : List Clause} : ∀ y ∈ targets cs, inner vars cs y = none := by
  intro y hy; simp only [inner, if_pos hy]

theorem start_seqs (t : Target) (lhs size : Nat) (junk : Nat → Int) (m : Mem) :
    ∀ u, u ≠ lhs → (start t lhs size junk m).seqs u = m.seqs u := by
  intro u hu
  unfold start
  split
  · rfl
  · exact upd_ne _ _ _ hu
  · exact upd_ne _ _ _ hu

theorem compC_done {t : Target} {lhs : Nat} {e : Expr} {cs : List Clause} {size : Nat} {junk : Nat → Int} {s : St} {vs : List Int}
    (hacc : accepted t cs = true) (he : e.Free lhs) (hcs : ∀ c ∈ cs, c.Free lhs) (hnd : (targets cs).Nodup)
    (hfirst : ∀ c ∈ cs.head?, c.iter.Without (targets cs)) (hv : pyComp s.vars s.mem.seqs e cs = some vs) :
    ∃ f, ∀ fuel, f ≤ fuel → Done t.kind lhs (targets cs) vs ⟨s.vars, start t lhs size junk s.mem⟩
      (compC t lhs e cs size junk fuel s) := by
  match cs, hv with
  | c :: cs, hv =>
    rw [pyComp_vals (hfirst c (by simp))] at hv
    obtain ⟨f, hf⟩ := runC_ok t.kind lhs e s.mem.seqs he (c :: cs) hcs hnd _ inner_none vs hv
    refine ⟨f, fun fuel hfu => ?_⟩
    simp only [compC, hacc, if_true]
    exact hf fuel hfu _ (inner_fits (start_seqs t lhs size junk s.mem))

theorem compF_done {t : Target} {lhs : Nat} {e : Expr} {cs : List Clause} {size : Nat} {junk : Nat → Int} {s : St} {vs : List Int}
    (hacc : accepted t cs = true) (he : e.Free lhs) (hcs : ∀ c ∈ cs, c.Free lhs) (hnd : (targets cs).Nodup)
    (hone : ∀ c ∈ cs, c.conds.length ≤ 1) (hv : pyComp s.vars s.mem.seqs e cs = some vs) :
    Done t.kind lhs (targets cs) vs ⟨s.vars, start t lhs size junk s.mem⟩ (compF t lhs e cs size junk s) := by
  match cs, hv with
  | c :: cs, hv =>
    have hxs : c.x ∉ targets cs := (List.nodup_cons.1 hnd).1
    have hnd' := (List.nodup_cons.1 hnd).2
    simp only [compF, hacc, if_true]
    obtain ⟨ys, hys, hj⟩ := bind_some hv
    have hc := hcs c (by simp)
    have hss := start_seqs t lhs size junk s.mem
    refine clauseF_ok (s := ⟨s.vars, start t lhs size junk s.mem⟩) hc hxs inner_none ?_ (inner_fits hss)
      (iterVals_mono (fun _ _ h => h) hss hc.1 hys) hj
    intro v ws hg s' hs
    rw [guardF_eq (hone c (by simp))]
    refine guardC_ok hc.2 hg hs fun ws' h => ?_
    refine runF_ok _ _ _ _ he cs (fun c hc => hcs c (by simp [hc])) (fun c hc => hone c (by simp [hc])) hnd' _ (fun y hy => ?_) _ h s' hs
    rw [upd_ne _ _ _ (fun h : y = c.x => hxs (by rw [← h]; exact hy))]
    exact inner_none y (by simp [targets] at hy ⊢; right; exact hy)

/-! What is written -/

theorem emits_list (lhs : Nat) (vs : List Int) (m : Mem) :
    emits .list lhs vs m = some ⟨upd m.seqs lhs (m.seqs lhs ++ vs), m.cnt⟩ := by
  induction vs generalizing m with
  | nil =>
    simp only [emits, List.append_nil, Option.some.injEq]
    have : upd m.seqs lhs (m.seqs lhs) = m.seqs := by funext y; by_cases h : y = lhs <;> simp [upd, h]
    rw [this]
  | cons v vs ih =>
    simp only [emits, emit, Option.bind_some, ih, Option.some.injEq, Mem.mk.injEq, and_true]
    funext y; by_cases h : y = lhs <;> simp [upd, h]

theorem emits_array (lhs : Nat) (vs : List Int) (m : Mem) : emits .array lhs vs m =
    if m.cnt + vs.length ≤ (m.seqs lhs).length ∨ vs = [] then
      some ⟨upd m.seqs lhs ((m.seqs lhs).take m.cnt ++ vs ++ (m.seqs lhs).drop (m.cnt + vs.length)), m.cnt + vs.length⟩
    else none := by
  induction vs generalizing m with
  | nil =>
    simp only [emits, or_true, if_true, List.length_nil, Nat.add_zero, List.append_nil, List.take_append_drop, Option.some.injEq]
    have : upd m.seqs lhs (m.seqs lhs) = m.seqs := by funext y; by_cases h : y = lhs <;> simp [upd, h]
    rw [this]
  | cons v vs ih =>
    simp only [emits, emit]
    by_cases hlt : m.cnt < (m.seqs lhs).length
    · rw [if_pos hlt]
      simp only [Option.bind_some, ih, upd_same, List.length_set, List.length_cons]
      by_cases hle : m.cnt + 1 + vs.length ≤ (m.seqs lhs).length ∨ vs = []
      · have h2 : m.cnt + (vs.length + 1) ≤ (m.seqs lhs).length ∨ v :: vs = [] := by
          left
          rcases hle with h | h
          · omega
          · subst h; simp; omega
        rw [if_pos hle, if_pos h2]
        simp only [Option.some.injEq, Mem.mk.injEq]
        refine ⟨?_, by omega⟩
        funext y
        by_cases h : y = lhs
        · subst h
          simp only [upd_same]
          rw [List.set_eq_take_append_cons_drop, if_pos hlt]
          have e1 : m.cnt + 1 + vs.length = m.cnt + (vs.length + 1) := by omega
          have hlen : (List.take m.cnt (m.seqs y)).length = m.cnt := by rw [List.length_take]; omega
          have t1 : List.take (m.cnt + 1) (List.take m.cnt (m.seqs y) ++ v :: List.drop (m.cnt + 1) (m.seqs y)) =
              List.take m.cnt (m.seqs y) ++ [v] := by
            rw [List.take_append, hlen, List.take_of_length_le (by omega)]
            simp
          have t2 : List.drop (m.cnt + 1 + vs.length) (List.take m.cnt (m.seqs y) ++ v :: List.drop (m.cnt + 1) (m.seqs y)) =
              List.drop (m.cnt + (vs.length + 1)) (m.seqs y) := by
            rw [List.drop_append, hlen, List.drop_of_length_le (by omega)]
            have : m.cnt + 1 + vs.length - m.cnt = vs.length + 1 := by omega
            rw [this]
            simp only [List.nil_append, List.drop_succ_cons, List.drop_drop]
            congr 1
          rw [t1, t2]
          simp
        · simp only [upd_ne _ _ _ h]
      · have h2 : ¬ (m.cnt + (vs.length + 1) ≤ (m.seqs lhs).length ∨ v :: vs = []) := by
          intro h
          rcases h with h | h
          · exact hle (Or.inl (by omega))
          · cases h
        rw [if_neg hle, if_neg h2]
    · rw [if_neg hlt]
      have h2 : ¬ (m.cnt + (v :: vs).length ≤ (m.seqs lhs).length ∨ v :: vs = []) := by
        intro h
        rcases h with h | h
        · simp at h; omega
        · cases h
      rw [if_neg h2]
      rfl

end Verif.Comps.Lemmas
