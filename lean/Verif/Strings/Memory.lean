import Verif.Strings.Lemmas2

/-! Functions with string variables: what "the C function is right" means, and
when it is. -/

namespace Verif.Strings

/-- The Python variables when the function starts. -/
def start (args : List Nat) (val : Nat → Str) : Env :=
  fun v => if v ∈ args then some (val v) else none

/-- The C function is right for the observations `outs` and the variables `env`
with which Python's function ends: it runs without undefined behaviour, observes
the same strings, the arguments and the returned variable hold their values, no
two of them share a buffer, and every other buffer has been freed. -/
def Right (p : Fn) (val : Nat → Str) (outs : List Str) (env : Env) : Prop :=
  ∃ st, p.runC val = some (outs, st) ∧
    (∀ v, v ∈ p.args ∨ p.ret = some v → st.read v = env v) ∧
    (∀ v w i, (v ∈ p.args ∨ p.ret = some v) → (w ∈ p.args ∨ p.ret = some w) →
      st.cell v = .long i → st.cell w = .long i → v = w) ∧
    (∀ i, st.heap i ≠ none → ∃ v, (v ∈ p.args ∨ p.ret = some v) ∧ st.cell v = .long i)

/-- The flags of the assignments are those of the compiler's bookkeeping: absent
only where the variable has no value yet (the first assignment in the text) or is
assigned to itself. -/
def Flags : List Ev → Env → Prop
  | [], _ => True
  | .asg d x r :: l, env => r.flag d x env ∧ ∀ s, r.val env = some s → Flags l (upd env x s)
  | .use _ :: l, env => Flags l env

/-- Only local variables are assigned. -/
def Assigns (vs : List Nat) : List Ev → Prop
  | [] => True
  | .asg _ x _ :: l => x ∈ vs ∧ Assigns vs l
  | .use _ :: l => Assigns vs l

/-- Every assignment on the path is harmless: a variable that counts as allocated
has a value, a variable is copied only if its string is short, and the new value
of a variable that counts as allocated is computed from its old one only if that
is short. -/
def Harmless : List Ev → Env → Prop
  | [], _ => True
  | .asg d x r :: l, env =>
    (d = true → env x ≠ none) ∧ r.good d x env ∧
      ∀ s, r.val env = some s → Harmless l (upd env x s)
  | .use _ :: l, env => Harmless l env

/-- The variables of the function are well declared. -/
structure Declared (p : Fn) : Prop where
  args : p.args.Nodup
  locals : p.locals.Nodup
  disj : ∀ v ∈ p.args, v ∉ p.locals
  ret : ∀ v, p.ret = some v → v ∈ p.locals
  asg : Assigns p.locals p.evs

/-! ### proofs -/

theorem Inv.weak {env : Env} {st : St} (h : Inv (fun _ => True) env st) : Weak env st := by
  constructor
  · intro v
    have := h.ok v trivial
    unfold CellOk at this
    cases hc : st.cell v with
    | uninit => rw [hc] at this; simp [this]
    | short s => rw [hc] at this; simp [this.1]
    | long i => rw [hc] at this; obtain ⟨s, h1, _⟩ := this; simp [h1]
  · intro v i hc
    have := h.ok v trivial
    unfold CellOk at this
    rw [hc] at this
    obtain ⟨s, _, _, h3⟩ := this
    rcases Nat.lt_or_ge i st.next with hl | hl
    · exact hl
    · rw [h.bound i hl] at h3; cases h3

theorem start_inv (val : Nat → Str) : ∀ {args : List Nat}, args.Nodup →
    Inv (fun _ => True) (start args val) (callSt args val)
  | [], _ => by
    constructor
    · intro v _
      simp [CellOk, callSt, start]
    · intro v w i _ _ h
      simp [callSt] at h
    · intro i hi
      simp [callSt] at hi
    · intro i _
      rfl
  | a :: as, hn => by
    obtain ⟨h1, h2⟩ := List.nodup_cons.1 hn
    have ih := start_inv val h2
    have ea : start as val a = none := by simp [start, h1]
    have e : start (a :: as) val = upd (start as val) a (val a) := by
      funext v
      by_cases hv : v = a
      · simp [start, upd, hv]
      · simp [start, upd, hv]
    rw [e]
    refine make_inv (P := fun _ => True) (val a) ?_ trivial
    refine ⟨fun v _ => ih.ok v trivial, fun v w i _ _ => ih.inj v w i trivial trivial, ?_,
      ih.bound⟩
    intro i hi
    obtain ⟨v, _, hv⟩ := ih.owned i hi
    refine ⟨v, ⟨?_, trivial⟩, hv⟩
    intro e
    have := (ih.weak.def_iff a).1 ea
    rw [e, this] at hv
    cases hv

/-- The good executions. -/
theorem run_good : ∀ {l : List Ev} {env env' : Env} {st : St} {outs : List Str},
    Inv (fun _ => True) env st → Flags l env → Harmless l env →
    pyRun l env = some (outs, env') →
    ∃ st', runC l st = some (outs, st') ∧ Inv (fun _ => True) env' st'
  | [], env, env', st, outs, h, _, _, hp => by
    simp only [pyRun, Option.some.injEq, Prod.mk.injEq] at hp
    obtain ⟨rfl, rfl⟩ := hp
    exact ⟨st, rfl, h⟩
  | .use y :: l, env, env', st, outs, h, hf, hg, hp => by
    simp only [pyRun] at hp
    cases hy : env y with
    | none => rw [hy] at hp; cases hp
    | some s =>
      rw [hy] at hp
      simp only [Option.bind_some] at hp
      cases hr : pyRun l env with
      | none => rw [hr] at hp; cases hp
      | some r =>
        rw [hr] at hp
        simp only [Option.map_some, Option.some.injEq, Prod.mk.injEq] at hp
        obtain ⟨rfl, rfl⟩ := hp
        obtain ⟨st', h1, h2⟩ := run_good (l := l) h hf hg hr
        refine ⟨st', ?_, h2⟩
        simp [runC, (h.ok y trivial).read, hy, h1]
  | .asg d x r :: l, env, env', st, outs, h, hf, hg, hp => by
    simp only [pyRun] at hp
    cases hv : r.val env with
    | none => rw [hv] at hp; cases hp
    | some s =>
      rw [hv] at hp
      simp only [Option.bind_some] at hp
      obtain ⟨st₁, h1, h2⟩ := assign_inv h hf.1 hg.1 hg.2.1 hv
      obtain ⟨st', h3, h4⟩ := run_good h2 (hf.2 s hv) (hg.2.2 s hv) hp
      exact ⟨st', by simp [runC, h1, h3], h4⟩

/-- A bad state stays bad to the end of the body. -/
theorem run_bad : ∀ {l : List Ev} {env env' : Env} {st st' : St} {outs outs' : List Str},
    Weak env st → Bad st → Flags l env → pyRun l env = some (outs, env') →
    runC l st = some (outs', st') → Weak env' st' ∧ Bad st'
  | [], env, env', st, st', outs, outs', hw, hb, _, hp, hc => by
    simp only [pyRun, runC, Option.some.injEq, Prod.mk.injEq] at hp hc
    obtain ⟨_, rfl⟩ := hp
    obtain ⟨_, rfl⟩ := hc
    exact ⟨hw, hb⟩
  | .use y :: l, env, env', st, st', outs, outs', hw, hb, hf, hp, hc => by
    simp only [pyRun, runC] at hp hc
    cases hy : env y with
    | none => rw [hy] at hp; cases hp
    | some s =>
      rw [hy] at hp
      cases hr : pyRun l env with
      | none => rw [hr] at hp; cases hp
      | some r =>
        rw [hr] at hp
        cases hz : st.read y with
        | none => rw [hz] at hc; cases hc
        | some t =>
          rw [hz] at hc
          cases hq : runC l st with
          | none => rw [hq] at hc; cases hc
          | some q =>
            rw [hq] at hc
            simp only [Option.bind_some, Option.map_some, Option.some.injEq,
              Prod.mk.injEq] at hp hc
            obtain ⟨_, rfl⟩ := hp
            obtain ⟨_, rfl⟩ := hc
            exact run_bad (l := l) hw hb hf hr hq
  | .asg d x r :: l, env, env', st, st', outs, outs', hw, hb, hf, hp, hc => by
    simp only [pyRun, runC] at hp hc
    cases hv : r.val env with
    | none => rw [hv] at hp; cases hp
    | some s =>
      rw [hv] at hp
      cases ha : st.assign d x r with
      | none => rw [ha] at hc; cases hc
      | some st₁ =>
        rw [ha] at hc
        simp only [Option.bind_some] at hp hc
        exact run_bad (assign_weak hw ha) (assign_bad hw hf.1 hb ha) (hf.2 s hv) hp hc

/-- An assignment that is not harmless fails or leaves a shared buffer. -/
theorem assign_harm {env : Env} {st st' : St} {d : Bool} {x : Nat} {r : Rhs}
    (h : Inv (fun _ => True) env st) (hbad : ¬((d = true → env x ≠ none) ∧ r.good d x env))
    (ha : st.assign d x r = some st') : Bad st' := by
  by_cases hd : d = true → env x ≠ none
  · have hg : ¬ r.good d x env := fun hg => hbad ⟨hd, hg⟩
    cases r with
    | fresh uses f =>
      exfalso
      apply hg
      intro hd1 hx t ht
      rcases Nat.lt_or_ge cap t.length with hl | hl
      · exfalso
        obtain ⟨st₁, h1, _, _, _, h5⟩ := drop_inv h trivial (hd hd1)
        unfold St.assign at ha
        rw [hd1] at ha
        simp only [if_true, h1, Option.bind_some] at ha
        rw [mapM_none hx (h5 t ht hl)] at ha
        cases ha
      · exact hl
    | copy y =>
      simp only [Rhs.good, not_or] at hg
      obtain ⟨hyx, hg⟩ := hg
      have hy := h.ok y trivial
      unfold CellOk at hy
      obtain ⟨h1, _⟩ := assign_any h.weak ha
      cases hc : st.cell y with
      | uninit =>
        rw [hc] at hy
        exact absurd (fun s hs => by rw [hy] at hs; cases hs) hg
      | short t =>
        rw [hc] at hy
        refine absurd (fun s hs => ?_) hg
        rw [hy.1] at hs
        cases hs
        exact hy.2
      | long i =>
        refine Or.inl ⟨x, y, i, Ne.symm hyx, ?_, by rw [h1 y hyx, hc]⟩
        unfold St.assign at ha
        cases hdr : (if d then st.drop x else some st) with
        | none => rw [hdr] at ha; cases ha
        | some st₁ =>
          rw [hdr] at ha
          simp only [Option.bind_some] at ha
          have hc1 : st₁.cell = st.cell := by
            cases d with
            | true => exact (drop_cell (by simpa using hdr)).1
            | false =>
              simp only [Bool.false_eq_true, if_false, Option.some.injEq] at hdr
              rw [hdr]
          rw [hc1, hc] at ha
          simp only [Option.some.injEq] at ha
          subst ha
          simp
  · exfalso
    cases d with
    | false => exact hd (by simp)
    | true =>
      have he : env x = none := by
        cases hx : env x with
        | none => rfl
        | some s => exact absurd (fun _ => by simp [hx]) hd
      have hc := (h.weak.def_iff x).1 he
      simp [St.assign, St.drop, hc] at ha

/-- If an assignment on the path is not harmless, the body fails or ends in a bad
state. -/
theorem run_harm : ∀ {l : List Ev} {env env' : Env} {st st' : St} {outs outs' : List Str},
    Inv (fun _ => True) env st → Flags l env → ¬ Harmless l env →
    pyRun l env = some (outs, env') → runC l st = some (outs', st') →
    Weak env' st' ∧ Bad st'
  | [], _, _, _, _, _, _, _, _, hn, _, _ => absurd trivial hn
  | .use y :: l, env, env', st, st', outs, outs', h, hf, hn, hp, hc => by
    simp only [pyRun, runC] at hp hc
    cases hy : env y with
    | none => rw [hy] at hp; cases hp
    | some s =>
      rw [hy] at hp
      rw [(h.ok y trivial).read, hy] at hc
      cases hr : pyRun l env with
      | none => rw [hr] at hp; cases hp
      | some r =>
        rw [hr] at hp
        cases hq : runC l st with
        | none => rw [hq] at hc; cases hc
        | some q =>
          rw [hq] at hc
          simp only [Option.bind_some, Option.map_some, Option.some.injEq,
            Prod.mk.injEq] at hp hc
          obtain ⟨_, rfl⟩ := hp
          obtain ⟨_, rfl⟩ := hc
          exact run_harm (l := l) h hf hn hr hq
  | .asg d x r :: l, env, env', st, st', outs, outs', h, hf, hn, hp, hc => by
    simp only [pyRun, runC] at hp hc
    cases hv : r.val env with
    | none => rw [hv] at hp; cases hp
    | some s =>
      rw [hv] at hp
      cases ha : st.assign d x r with
      | none => rw [ha] at hc; cases hc
      | some st₁ =>
        rw [ha] at hc
        simp only [Option.bind_some] at hp hc
        by_cases hok : (d = true → env x ≠ none) ∧ r.good d x env
        · obtain ⟨st₂, h1, h2⟩ := assign_inv h hf.1 hok.1 hok.2 hv
          rw [ha] at h1
          cases h1
          refine run_harm h2 (hf.2 s hv) ?_ hp hc
          intro hh
          refine hn ⟨hok.1, hok.2, fun t ht => ?_⟩
          rw [hv] at ht
          cases ht
          exact hh
        · exact run_bad (assign_weak h.weak ha) (assign_harm h hok ha) (hf.2 s hv) hp hc

/-- Variables with values are arguments or local. -/
theorem run_dom {vs : List Nat} {Q : Nat → Prop} : ∀ {l : List Ev} {env env' : Env}
    {outs : List Str}, Assigns vs l → (∀ v, env v ≠ none → Q v ∨ v ∈ vs) →
    pyRun l env = some (outs, env') →
    (∀ v, env' v ≠ none → Q v ∨ v ∈ vs) ∧ ∀ v, env v ≠ none → env' v ≠ none
  | [], env, env', outs, _, hd, hp => by
    simp only [pyRun, Option.some.injEq, Prod.mk.injEq] at hp
    obtain ⟨_, rfl⟩ := hp
    exact ⟨hd, fun _ h => h⟩
  | .use y :: l, env, env', outs, ha, hd, hp => by
    simp only [pyRun] at hp
    cases hy : env y with
    | none => rw [hy] at hp; cases hp
    | some s =>
      rw [hy] at hp
      cases hr : pyRun l env with
      | none => rw [hr] at hp; cases hp
      | some r =>
        rw [hr] at hp
        simp only [Option.bind_some, Option.map_some, Option.some.injEq,
          Prod.mk.injEq] at hp
        obtain ⟨_, rfl⟩ := hp
        exact run_dom (l := l) ha hd hr
  | .asg d x r :: l, env, env', outs, ha, hd, hp => by
    simp only [pyRun] at hp
    cases hv : r.val env with
    | none => rw [hv] at hp; cases hp
    | some s =>
      rw [hv] at hp
      simp only [Option.bind_some] at hp
      obtain ⟨h1, h2⟩ := run_dom (l := l) (Q := Q) ha.2 (fun v hvn => by
        by_cases e : v = x
        · exact Or.inr (e ▸ ha.1)
        · simp only [e, if_false] at hvn
          exact hd v hvn) hp
      refine ⟨h1, fun v hvn => h2 v ?_⟩
      by_cases e : v = x
      · simp [e]
      · simpa [e] using hvn

theorem right_iff {p : Fn} {val : Nat → Str} {outs : List Str} {env : Env}
    (hdecl : Declared p) (hf : Flags p.evs (start p.args val))
    (hp : pyRun p.evs (start p.args val) = some (outs, env)) :
    Right p val outs env ↔
      Harmless p.evs (start p.args val) ∧
        ∀ v ∈ p.locals, p.ret ≠ some v → env v ≠ none := by
  have h0 := start_inv val hdecl.args
  obtain ⟨hdom, _⟩ := run_dom (Q := (· ∈ p.args)) hdecl.asg (fun v hv => by
    refine Or.inl ?_
    by_cases e : v ∈ p.args
    · exact e
    · simp [start, e] at hv) hp
  have memf : ∀ v, v ∈ p.locals.filter (fun v => some v != p.ret) ↔
      v ∈ p.locals ∧ p.ret ≠ some v := by
    intro v
    simp only [List.mem_filter, bne_iff_ne, ne_eq]
    exact and_congr_right fun _ => not_congr ⟨Eq.symm, Eq.symm⟩
  have kept : ∀ v, v ∈ p.args ∨ p.ret = some v →
      v ∉ p.locals.filter (fun v => some v != p.ret) := by
    intro v hv hm
    obtain ⟨m1, m2⟩ := (memf v).1 hm
    rcases hv with hv | hv
    · exact hdecl.disj v hv m1
    · exact m2 hv
  have split : ∀ v, env v ≠ none → (v ∈ p.args ∨ p.ret = some v) ∨
      v ∈ p.locals.filter (fun v => some v != p.ret) := by
    intro v hv
    rcases hdom v hv with h | h
    · exact Or.inl (Or.inl h)
    · by_cases e : p.ret = some v
      · exact Or.inl (Or.inr e)
      · exact Or.inr ((memf v).2 ⟨h, e⟩)
  constructor
  · rintro ⟨st, hr, hread, hdist, _⟩
    unfold Fn.runC at hr
    cases hc : runC p.evs (callSt p.args val) with
    | none => rw [hc] at hr; cases hr
    | some q =>
      rw [hc] at hr
      simp only [Option.bind_some] at hr
      cases hd : dropAll (p.locals.filter fun v => some v != p.ret) q.2 with
      | none => rw [hd] at hr; cases hr
      | some st₁ =>
        rw [hd] at hr
        simp only [Option.map_some, Option.some.injEq, Prod.mk.injEq] at hr
        obtain ⟨_, rfl⟩ := hr
        obtain ⟨d1, d2, d3⟩ := dropAll_cell hd
        have hh : Harmless p.evs (start p.args val) := by
          by_cases hh : Harmless p.evs (start p.args val)
          · exact hh
          exfalso
          obtain ⟨hw, hb⟩ := run_harm (outs' := q.1) (st' := q.2) h0 hf hh hp hc
          have hdef : ∀ v i, q.2.cell v = .long i → env v ≠ none := by
            intro v i hv he
            rw [(hw.def_iff v).1 he] at hv
            cases hv
          have live : ∀ v i, (v ∈ p.args ∨ p.ret = some v) → q.2.cell v = .long i →
              st₁.heap i ≠ none := by
            intro v i hk hv he
            have := hread v hk
            simp only [St.read, d1, hv, he] at this
            exact hdef v i hv this.symm
          rcases hb with ⟨a, b, i, hab, ha, hb⟩ | ⟨a, i, ha, hi⟩
          · rcases split a (hdef a i ha) with ka | ka
            · rcases split b (hdef b i hb) with kb | kb
              · exact hab (hdist a b i ka kb (by rw [d1]; exact ha) (by rw [d1]; exact hb))
              · exact live a i ka ha ((d3 b kb).2 i hb).2
            · rcases split b (hdef b i hb) with kb | kb
              · exact live b i kb hb ((d3 a ka).2 i ha).2
              · exact dropAll_shared hd a b i hab ka kb ha hb
          · rcases split a (hdef a i ha) with ka | ka
            · exact live a i ka ha (d2 i hi)
            · exact ((d3 a ka).2 i ha).1 hi
        refine ⟨hh, ?_⟩
        obtain ⟨st', g1, g2⟩ := run_good h0 hf hh hp
        rw [hc] at g1
        cases g1
        intro v hv hr he
        exact (d3 v ((memf v).2 ⟨hv, hr⟩)).1 ((g2.weak.def_iff v).1 he)
  · rintro ⟨hh, hfin⟩
    obtain ⟨st₁, g1, g2⟩ := run_good h0 hf hh hp
    obtain ⟨st, e1, e2, e3⟩ := dropAll_inv
      (vs := p.locals.filter fun v => some v != p.ret)
      (hdecl.locals.filter _) (fun v hv => ⟨trivial, hfin v ((memf v).1 hv).1
        ((memf v).1 hv).2⟩) g2
    refine ⟨st, by simp [Fn.runC, g1, e1], ?_, ?_, ?_⟩
    · intro v hv
      exact (e3.ok v ⟨kept v hv, trivial⟩).read
    · intro v w i hv hw
      exact e3.inj v w i ⟨kept v hv, trivial⟩ ⟨kept w hw, trivial⟩
    · intro i hi
      obtain ⟨v, hv, hc⟩ := e3.owned i hi
      refine ⟨v, ?_, hc⟩
      have hk := e3.ok v hv
      unfold CellOk at hk
      rw [hc] at hk
      obtain ⟨s, hs, _⟩ := hk
      exact (split v (by rw [hs]; simp)).resolve_right hv.1

end Verif.Strings
